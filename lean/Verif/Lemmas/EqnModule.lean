/-
Reading the text of an equation module that `write_py` has written.
-/
import Verif.Model.EqnModule
import Verif.Lemmas.EnumerateWrap

namespace Verif.Lemmas
open Verif Verif.Model

/-! ### Logical lines -/

/-- Depth of brackets after a text; `none` when a line ends outside brackets. -/
def scanD : ℕ → List Char → Option ℕ
  | d, [] => some d
  | d, c :: cs => if c = '\n' ∧ d = 0 then none else scanD (depthStep d c) cs

theorem scanD_append (s t : List Char) : ∀ d, scanD d (s ++ t) = (scanD d s).bind fun d' => scanD d' t := by
  induction s with
  | nil => intro d; rfl
  | cons c s ih =>
    intro d
    simp only [List.cons_append, scanD]
    split_ifs with h
    · rfl
    · exact ih _

theorem logical_scan (s t : List Char) : ∀ (d d' : ℕ) (cur : List Char), scanD d s = some d' →
    (d ≠ 0 ∨ cur ≠ [] ∨ s.head? ≠ some '#') →
    logical false d cur (s ++ t) = logical false d' (s.reverse ++ cur) t := by
  induction s with
  | nil =>
    intro d d' cur h _
    simp only [scanD, Option.some.injEq] at h
    subst h; rfl
  | cons c s ih =>
    intro d d' cur h hc
    simp only [scanD] at h
    split_ifs at h with h1
    rw [List.cons_append, logical, if_neg h1, if_neg, ih _ _ (c :: cur) h (Or.inr (Or.inl (by simp)))]
    · simp
    · rintro ⟨rfl, rfl, rfl⟩
      simp at hc

theorem logical_comment (s t : List Char) (hs : '\n' ∉ s) :
    logical true 0 [] (s ++ '\n' :: t) = logical false 0 [] t := by
  induction s with
  | nil => simp [logical]
  | cons c s ih =>
    simp only [List.mem_cons, not_or] at hs
    rw [List.cons_append, logical, if_neg (Ne.symm hs.1), ih hs.2]

/-- A line that is a comment. -/
def IsComment (l : List Char) : Prop := ∃ s, l = '#' :: s ∧ '\n' ∉ s

/-- A complete logical line. -/
def IsLine (l : List Char) : Prop := scanD 0 l = some 0 ∧ l.head? ≠ some '#'

theorem logical_line (l t : List Char) (h : IsLine l) :
    logical false 0 [] (l ++ '\n' :: t) = l :: logical false 0 [] t := by
  rw [logical_scan l _ 0 0 [] h.1 (Or.inr (Or.inr h.2)), logical, if_pos ⟨rfl, rfl⟩]
  simp

theorem logical_comments (cs : List (List Char)) (t : List Char) (h : ∀ l ∈ cs, IsComment l) :
    logical false 0 [] (joinLines cs ++ t) = logical false 0 [] t := by
  induction cs with
  | nil => rfl
  | cons l cs ih =>
    obtain ⟨s, rfl, hs⟩ := h l (by simp)
    have : joinLines (('#' :: s) :: cs) ++ t = '#' :: (s ++ '\n' :: (joinLines cs ++ t)) := by
      simp [joinLines]
    rw [this, logical, if_neg (by simp), if_pos ⟨rfl, rfl, rfl⟩, logical_comment s _ hs]
    exact ih fun l hl => h l (by simp [hl])

theorem logical_lines (ls : List (List Char)) (t : List Char) (h : ∀ l ∈ ls, IsLine l) :
    logical false 0 [] (joinLines ls ++ t) = ls ++ logical false 0 [] t := by
  induction ls with
  | nil => rfl
  | cons l ls ih =>
    have : joinLines (l :: ls) ++ t = l ++ '\n' :: (joinLines ls ++ t) := by simp [joinLines]
    rw [this, logical_line l _ (h l (by simp)), ih fun l hl => h l (by simp [hl])]
    rfl

theorem joinLines_append (a b : List (List Char)) : joinLines (a ++ b) = joinLines a ++ joinLines b := by
  simp [joinLines]

/-! ### Brackets of expressions -/

/-- One when inside `NAME[`. -/
def inIdx : Mode → ℕ
  | .idx _ _ _ => 1
  | _ => 0

theorem depthStep_plain (d : ℕ) (c : Char) (h1 : c ≠ '(') (h2 : c ≠ '[') (h3 : c ≠ ')') (h4 : c ≠ ']') :
    depthStep d c = d := by
  unfold depthStep
  rw [if_neg (by simp [h1, h2]), if_neg (by simp [h3, h4])]

theorem isAlpha_plain {c : Char} (h : c.isAlpha = true) : c ≠ '(' ∧ c ≠ '[' ∧ c ≠ ')' ∧ c ≠ ']' := by
  refine ⟨?_, ?_, ?_, ?_⟩ <;> rintro rfl <;> revert h <;> decide

theorem digit_plain {c : Char} {d : ℕ} (h : digitVal c = some d) :
    c ≠ '(' ∧ c ≠ '[' ∧ c ≠ ')' ∧ c ≠ ']' := by
  refine ⟨?_, ?_, ?_, ?_⟩ <;> rintro rfl <;> revert h <;> simp [digitVal]

theorem parseStep_depth {K : Type*} [Ring K] (env : Char → ℕ → Option K) (st st' : ParseSt K) (c : Char)
    (d : ℕ) (h : parseStep env st c = some st') :
    depthStep (d + 1 + inIdx st.mode) c = d + 1 + inIdx st'.mode := by
  obtain ⟨v, cur, m⟩ := st
  cases m with
  | ready sg =>
    simp only [parseStep] at h
    split_ifs at h with h1 h2 h3 h4 h5 h6 h7 h8
    · cases h
      rcases h1 with rfl | rfl | rfl <;> rfl
    · cases h; subst h2; rfl
    · cases h; subst h4; rfl
    · cases h; subst h6; rfl
    · cases h; subst h7; rfl
    · cases h
      obtain ⟨a1, a2, a3, a4⟩ := isAlpha_plain h8
      rw [depthStep_plain _ _ a1 a2 a3 a4]; rfl
  | name neg x =>
    simp only [parseStep] at h
    split_ifs at h with h1
    cases h; subst h1; rfl
  | idx neg x n =>
    simp only [parseStep] at h
    split_ifs at h with h1
    · subst h1
      cases n with
      | none => cases h
      | some n =>
        simp only at h
        cases he : env x n with
        | none => rw [he] at h; cases h
        | some v => rw [he] at h; cases h; rfl
    · cases hd : digitVal c with
      | none => rw [hd] at h; cases h
      | some k =>
        rw [hd] at h; cases h
        obtain ⟨a1, a2, a3, a4⟩ := digit_plain hd
        rw [depthStep_plain _ _ a1 a2 a3 a4]; rfl
  | done =>
    simp only [parseStep] at h
    split_ifs at h with h1 h2 h3 h4
    · cases h
      rcases h1 with rfl | rfl | rfl <;> rfl
    · cases h; subst h2; rfl
    · cases h; subst h3; rfl
    · cases h; subst h4; rfl

theorem parseRun_depth {K : Type*} [Ring K] (env : Char → ℕ → Option K) (s : List Char) (d : ℕ) :
    ∀ st st' : ParseSt K, parseRun env st s = some st' →
      scanD (d + 1 + inIdx st.mode) s = some (d + 1 + inIdx st'.mode) := by
  induction s with
  | nil =>
    intro st st' h
    rw [parseRun_nil] at h
    cases h; rfl
  | cons c s ih =>
    intro st st' h
    rw [parseRun_cons] at h
    cases hs : parseStep env st c with
    | none => rw [hs] at h; cases h
    | some st1 =>
      rw [hs] at h
      rw [scanD, if_neg (by omega), parseStep_depth env st st1 c d hs]
      exact ih st1 st' h

/-- A text that can be evaluated keeps the brackets balanced, inside brackets. -/
theorem evalList_depth {K : Type*} [Ring K] (env : Char → ℕ → Option K) (s : List Char) (v : List K)
    (h : evalList env s = some v) (d : ℕ) : scanD (d + 1) s = some (d + 1) := by
  unfold evalList at h
  cases hr : parseRun env ⟨[], 0, .ready none⟩ s with
  | none => rw [hr] at h; cases h
  | some st =>
    rw [hr] at h
    have := parseRun_depth env s d _ _ hr
    obtain ⟨vs, cur, m⟩ := st
    cases m with
    | ready sg => simpa [inIdx] using this
    | done => simpa [inIdx] using this
    | name _ _ => simp at h
    | idx _ _ _ => simp at h

theorem evalExpr_depth {K : Type*} [Ring K] (env : Char → ℕ → Option K) (s : List Char) (v : K)
    (h : evalExpr env s = some v) (d : ℕ) : scanD (d + 1) s = some (d + 1) := by
  unfold evalExpr at h
  cases hl : evalList env s with
  | none => rw [hl] at h; cases h
  | some l => exact evalList_depth env s l hl d

/-- Numbers have no brackets and no line ends. -/
theorem natText_digit (j : ℕ) : ∀ c ∈ natText j, ∃ d, digitVal c = some d := by
  obtain ⟨ds, h1, -, h3, -⟩ := natText_digits j
  intro c hc
  rw [h3] at hc
  obtain ⟨d, hd, rfl⟩ := List.mem_map.1 hc
  exact ⟨d, digitVal_digitCh d (h1 d hd)⟩

theorem natText_newline (j : ℕ) : '\n' ∉ natText j := by
  intro h
  obtain ⟨d, hd⟩ := natText_digit j _ h
  revert hd; simp [digitVal]

theorem scanD_plain (s : List Char) (d : ℕ) (h : ∀ c ∈ s, ∃ k, digitVal c = some k) : scanD d s = some d := by
  induction s with
  | nil => rfl
  | cons c s ih =>
    obtain ⟨k, hk⟩ := h c (by simp)
    obtain ⟨a1, a2, a3, a4⟩ := digit_plain hk
    have : c ≠ '\n' := by rintro rfl; revert hk; simp [digitVal]
    rw [scanD, if_neg (by simp [this]), depthStep_plain _ _ a1 a2 a3 a4]
    exact ih fun c hc => h c (by simp [hc])

theorem scanD_natText (j d : ℕ) : scanD d (natText j) = some d := scanD_plain _ _ (natText_digit j)

/-! ### Reading numbers -/

theorem readNat_digits (ds : List ℕ) (h : ∀ d ∈ ds, d < 10) (r : List Char)
    (hr : ∀ c, r.head? = some c → digitVal c = none) : ∀ a : ℕ,
    readNat (some a) (ds.map digitCh ++ r) = some (ds.foldl (fun a d => 10 * a + d) a, r) := by
  induction ds with
  | nil =>
    intro a
    cases r with
    | nil => rfl
    | cons c r => simp [readNat, hr c rfl]
  | cons d ds ih =>
    intro a
    simp only [List.map_cons, List.cons_append, readNat, digitVal_digitCh d (h d (by simp)), Option.getD_some,
      List.foldl_cons]
    exact ih (fun d hd => h d (by simp [hd])) _

theorem readNat_natText (j : ℕ) (r : List Char) (hr : ∀ c, r.head? = some c → digitVal c = none) :
    readNat none (natText j ++ r) = some (j, r) := by
  obtain ⟨ds, h1, h2, h3, h4⟩ := natText_digits j
  rw [h3]
  cases ds with
  | nil => exact absurd rfl h2
  | cons d ds =>
    simp only [List.map_cons, List.cons_append, readNat, digitVal_digitCh d (h1 d (by simp)), Option.getD_none]
    rw [readNat_digits ds (fun d hd => h1 d (by simp [hd])) r hr]
    rw [← h4]; rfl

end Verif.Lemmas
