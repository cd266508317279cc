/-
The statements read from the text that `write_py` has written.
-/
import Verif.Lemmas.EqnModule

namespace Verif.Lemmas
open Verif Verif.Model

theorem dropPre_append (p r : List Char) : dropPre p (p ++ r) = some r := by
  induction p with
  | nil => cases r <;> rfl
  | cons c p ih => rw [List.cons_append, dropPre, if_pos rfl, ih]

theorem dropEnd_append (r suf : List Char) : dropEnd suf (r ++ suf) = some r := by
  unfold dropEnd
  rw [List.reverse_append, dropPre_append]
  simp

theorem digitVal_bracket : digitVal ']' = none ∧ digitVal ')' = none ∧ digitVal ':' = none := by decide

theorem parse_zerosC (k : ℕ) :
    parseLine (chars! "    Cout = zeros((" ++ natText k ++ chars! "))") = some (.zerosC k) := by
  have h : readNat none (natText k ++ chars! "))") = some (k, chars! "))") :=
    readNat_natText k _ (by intro c hc; simp at hc; subst hc; decide)
  simp [parseLine, fixedLines, List.lookup, tryRules, lineRules, dropPre, numThen, h]

theorem parse_zerosP (k : ℕ) :
    parseLine (chars! "    Pout = zeros((" ++ natText k ++ chars! "))") = some (.zerosP k) := by
  have h : readNat none (natText k ++ chars! "))") = some (k, chars! "))") :=
    readNat_natText k _ (by intro c hc; simp at hc; subst hc; decide)
  simp [parseLine, fixedLines, List.lookup, tryRules, lineRules, dropPre, numThen, h]

theorem parse_energy (t : List Char) :
    parseLine (chars! "    energyTerms = array([" ++ t ++ chars! "])") = some (.energy t) := by
  have h : dropEnd (chars! "])") (t ++ chars! "])") = some t := dropEnd_append _ _
  simp [parseLine, fixedLines, List.lookup, tryRules, lineRules, dropPre, textThen, h]

theorem parse_num (t : List Char) :
    parseLine (chars! "    num = fast_logsumexp(energyTerms, [" ++ t ++ chars! "])") = some (.num t) := by
  have h : dropEnd (chars! "])") (t ++ chars! "])") = some t := dropEnd_append _ _
  simp [parseLine, fixedLines, List.lookup, tryRules, lineRules, dropPre, textThen, h]

theorem parse_setC (k : ℕ) :
    parseLine (chars! "    Cout[" ++ natText k ++ chars! "] = exp( num[0] - logZ ) * num[1]") =
      some (.setC k) := by
  have h : readNat none (natText k ++ chars! "] = exp( num[0] - logZ ) * num[1]") =
      some (k, chars! "] = exp( num[0] - logZ ) * num[1]") :=
    readNat_natText k _ (by intro c hc; simp at hc; subst hc; decide)
  obtain ⟨d, ds, hd, hds⟩ : ∃ c cs, natText k = c :: cs ∧ ∃ v, digitVal c = some v := by
    cases hk : natText k with
    | nil =>
      obtain ⟨ds, -, h2, h3, -⟩ := natText_digits k
      rw [hk] at h3; simp at h3; exact absurd h3 h2
    | cons c cs => exact ⟨c, cs, rfl, natText_digit k c (by simp [hk])⟩
  have hne : (d == 'i') = false := by
    rw [beq_eq_false_iff_ne]
    rintro rfl; obtain ⟨v, hv⟩ := hds; revert hv; simp [digitVal]
  rw [hd] at h ⊢
  simp only [List.cons_append] at h
  simp [parseLine, fixedLines, List.lookup, tryRules, lineRules, dropPre, numThen, h, hne]

theorem parse_setP (k : ℕ) (t : List Char) :
    parseLine (chars! "    Pout[" ++ natText k ++ chars! "] = exp( " ++ t ++ chars! " - logZ )") =
      some (.setP k t) := by
  have h : readNat none (natText k ++ (chars! "] = exp( " ++ (t ++ chars! " - logZ )"))) =
      some (k, chars! "] = exp( " ++ (t ++ chars! " - logZ )")) :=
    readNat_natText k _ (by intro c hc; simp at hc; subst hc; decide)
  have h2 : dropEnd (chars! " - logZ )") (t ++ chars! " - logZ )") = some t := dropEnd_append _ _
  simp only [List.cons_append, List.nil_append] at h
  simp [parseLine, fixedLines, List.lookup, tryRules, lineRules, dropPre, textThen, h, h2]

theorem parse_slice (c : Char) (a b : ℕ) :
    parseLine (chars! "    " ++ [c] ++ chars! " = params[" ++ natText a ++ [':'] ++ natText b ++ [']']) =
      some (.slice c a b) := by
  have h1 : readNat none (natText a ++ (':' :: (natText b ++ [']']))) = some (a, ':' :: (natText b ++ [']'])) :=
    readNat_natText a _ (by intro c hc; simp at hc; subst hc; decide)
  have h2 : readNat none (natText b ++ [']']) = some (b, [']']) :=
    readNat_natText b _ (by intro c hc; simp at hc; subst hc; decide)
  simp [parseLine, fixedLines, List.lookup, tryRules, lineRules, dropPre, numThen, h1, h2]

/-! ### Every line is complete -/

theorem isLine_of {l : List Char} (h1 : scanD 0 l = some 0) (h2 : l.head? ≠ some '#') : IsLine l := ⟨h1, h2⟩

/-- A text inside the brackets of a line. -/
theorem scanD_wrap (pre t suf : List Char) (d : ℕ) (h1 : scanD 0 pre = some d) (h2 : scanD d t = some d)
    (h3 : scanD d suf = some 0) : scanD 0 (pre ++ t ++ suf) = some 0 := by
  rw [scanD_append, scanD_append, h1]
  simp only [Option.bind_some]
  rw [h2]
  exact h3

theorem isLine_zerosC (k : ℕ) : IsLine (chars! "    Cout = zeros((" ++ natText k ++ chars! "))") :=
  ⟨scanD_wrap _ _ _ 2 (by decide) (scanD_natText _ _) (by decide), by simp⟩

theorem isLine_zerosP (k : ℕ) : IsLine (chars! "    Pout = zeros((" ++ natText k ++ chars! "))") :=
  ⟨scanD_wrap _ _ _ 2 (by decide) (scanD_natText _ _) (by decide), by simp⟩

theorem isLine_energy (t : List Char) (h : scanD 2 t = some 2) :
    IsLine (chars! "    energyTerms = array([" ++ t ++ chars! "])") :=
  ⟨scanD_wrap _ _ _ 2 (by decide) h (by decide), by simp⟩

theorem isLine_num (t : List Char) (h : scanD 2 t = some 2) :
    IsLine (chars! "    num = fast_logsumexp(energyTerms, [" ++ t ++ chars! "])") :=
  ⟨scanD_wrap _ _ _ 2 (by decide) h (by decide), by simp⟩

theorem isLine_setC (k : ℕ) :
    IsLine (chars! "    Cout[" ++ natText k ++ chars! "] = exp( num[0] - logZ ) * num[1]") :=
  ⟨scanD_wrap _ _ _ 1 (by decide) (scanD_natText _ _) (by decide), by simp⟩

theorem isLine_setP (k : ℕ) (t : List Char) (h : scanD 1 t = some 1) :
    IsLine (chars! "    Pout[" ++ natText k ++ chars! "] = exp( " ++ t ++ chars! " - logZ )") := by
  refine ⟨scanD_wrap _ _ _ 1 ?_ h (by decide), by simp⟩
  rw [scanD_append, scanD_append, show scanD 0 (chars! "    Pout[") = some 1 by decide]
  simp only [Option.bind_some]
  rw [scanD_natText]
  decide

theorem isLine_slice (c : Char) (hc : c.isAlpha = true) (a b : ℕ) :
    IsLine (chars! "    " ++ [c] ++ chars! " = params[" ++ natText a ++ [':'] ++ natText b ++ [']']) := by
  refine ⟨scanD_wrap _ _ _ 1 ?_ (scanD_natText _ _) (by decide), by simp⟩
  have hn : c ≠ '\n' := (isAlpha_ne hc).2.2.2.2.2.1
  obtain ⟨a1, a2, a3, a4⟩ := isAlpha_plain hc
  have h0 : scanD 0 [c] = some 0 := by
    rw [scanD, if_neg (by simp [hn]), depthStep_plain _ _ a1 a2 a3 a4]; rfl
  rw [scanD_append, scanD_append, scanD_append, scanD_append,
    show scanD 0 (chars! "    ") = some 0 by decide]
  simp only [Option.bind_some, h0]
  rw [show scanD 0 (chars! " = params[") = some 1 by decide]
  simp only [Option.bind_some, scanD_natText]
  decide

/-! ### Reading the functions -/

/-- Statements that belong to the body of a function. -/
def EqLine.plain : EqLine → Bool
  | .blank | .importNp | .importLse | .defObs | .defP | .quotes => false
  | _ => true

theorem readLine_plain (st : ReadSt) (l : List Char) (s : EqLine) (hd : st.doc = false)
    (hp : parseLine l = some s) (hs : EqLine.plain s = true) :
    readLine st l = match st.cur with
      | none => none
      | some false => some { st with mod := { st.mod with obs := st.mod.obs ++ [s] } }
      | some true => some { st with mod := { st.mod with p := st.mod.p ++ [s] } } := by
  unfold readLine
  rw [hd, hp]
  cases s <;> first | rfl | exact absurd hs (by decide)

theorem readLines_obs (ls : List (List Char)) : ∀ (st : ReadSt) (ss : List EqLine), st.doc = false →
    st.cur = some false → List.Forall₂ (fun l s => parseLine l = some s ∧ EqLine.plain s = true) ls ss →
    ls.foldlM readLine st = some { st with mod := { st.mod with obs := st.mod.obs ++ ss } } := by
  induction ls with
  | nil => intro st ss hd hc h; cases h; simp
  | cons l ls ih =>
    intro st ss hd hc h
    cases h with
    | cons h1 h2 =>
      rw [List.foldlM_cons, readLine_plain st l _ hd h1.1 h1.2, hc]
      simp only [Option.bind_eq_bind, Option.bind_some]
      refine (ih ⟨st.np, st.lse, st.doc, some false, ⟨st.mod.obs ++ [_], st.mod.p⟩⟩ _ hd rfl h2).trans ?_
      simp

theorem readLines_p (ls : List (List Char)) : ∀ (st : ReadSt) (ss : List EqLine), st.doc = false →
    st.cur = some true → List.Forall₂ (fun l s => parseLine l = some s ∧ EqLine.plain s = true) ls ss →
    ls.foldlM readLine st = some { st with mod := { st.mod with p := st.mod.p ++ ss } } := by
  induction ls with
  | nil => intro st ss hd hc h; cases h; simp
  | cons l ls ih =>
    intro st ss hd hc h
    cases h with
    | cons h1 h2 =>
      rw [List.foldlM_cons, readLine_plain st l _ hd h1.1 h1.2, hc]
      simp only [Option.bind_eq_bind, Option.bind_some]
      refine (ih ⟨st.np, st.lse, st.doc, some true, ⟨st.mod.obs, st.mod.p ++ [_]⟩⟩ _ hd rfl h2).trans ?_
      simp

/-! ### The statements of a written module -/

/-- The declarations `H = params[a:b]`. -/
def sliceStmts (e : Eqns) : List EqLine :=
  (List.range e.signs.length).map fun i => .slice (abc.getD i ' ')
    ((e.signs.map List.length).take i).sum ((e.signs.map List.length).take (i + 1)).sum

def energyStmts (e : Eqns) : List EqLine :=
  [.energy (energyText e.expterms.flatten.length e.expterms.flatten), .logZ]

def obsStmts (brk : ℕ → Bool) (e : Eqns) : List EqLine :=
  (.zerosC (e.signs.map List.length).sum :: sliceStmts e) ++ energyStmts e ++
    (e.signs.flatten.zipIdx.flatMap fun q => [.num (signText brk e.sym q.1), .setC q.2]) ++ [.nanC, .retC]

def pStmts (e : Eqns) : List EqLine :=
  (.zerosC (e.signs.map List.length).sum :: sliceStmts e) ++ sliceStmts e ++ [.zerosP (2 ^ e.n)] ++
    energyStmts e ++ (e.expterms.zipIdx.map fun q => .setP q.2 (q.1.take (q.1.length - 2))) ++
    (if e.sym then [.revP] else []) ++ [.retP]

/-- What is needed of the energies and the signs: their texts can be evaluated (with some values), and
there are names for all groups. -/
structure Readable (brk : ℕ → Bool) (e : Eqns) : Prop where
  few : e.signs.length ≤ 23
  energy : scanD 2 (energyText e.expterms.flatten.length e.expterms.flatten) = some 2
  terms : ∀ t ∈ e.expterms, scanD 1 (t.take (t.length - 2)) = some 1
  signs : ∀ s ∈ e.signs.flatten, scanD 2 (signText brk e.sym s) = some 2

theorem abc_getD_alpha (i : ℕ) (hi : i < 23) : (abc.getD i ' ').isAlpha = true := by
  have h : i < abc.length := hi
  rw [abc_getD i h]
  exact abc_alpha _ (List.getElem_mem h)

/-- A line that is complete and is read as a given statement of a body. -/
def LineOf (l : List Char) (s : EqLine) : Prop := IsLine l ∧ parseLine l = some s ∧ EqLine.plain s = true

theorem forall₂_map_range {α β : Type*} (R : α → β → Prop) (f : ℕ → α) (g : ℕ → β) (n : ℕ)
    (h : ∀ i < n, R (f i) (g i)) : List.Forall₂ R ((List.range n).map f) ((List.range n).map g) := by
  rw [List.forall₂_map_left_iff, List.forall₂_map_right_iff, List.forall₂_same]
  intro i hi
  exact h i (List.mem_range.1 hi)

theorem slice_lines (e : Eqns) (h : e.signs.length ≤ 23) : List.Forall₂ LineOf (sliceLines e) (sliceStmts e) := by
  unfold sliceLines sliceStmts
  apply forall₂_map_range
  intro i hi
  exact ⟨isLine_slice _ (abc_getD_alpha i (by omega)) _ _, parse_slice _ _ _, rfl⟩

theorem obsDecl_lines (e : Eqns) (h : e.signs.length ≤ 23) :
    List.Forall₂ LineOf (obsDecl e) (.zerosC (e.signs.map List.length).sum :: sliceStmts e) :=
  .cons ⟨isLine_zerosC _, parse_zerosC _, rfl⟩ (slice_lines e h)

theorem energy_lines (e : Eqns)
    (h : scanD 2 (energyText e.expterms.flatten.length e.expterms.flatten) = some 2) :
    List.Forall₂ LineOf (energyLines e) (energyStmts e) :=
  .cons ⟨isLine_energy _ h, parse_energy _, rfl⟩
    (.cons ⟨⟨by decide, by decide⟩, by decide, rfl⟩ .nil)

theorem obs_lines (brk : ℕ → Bool) (sym : Bool) (L : List (List ℤ × ℕ))
    (h : ∀ q ∈ L, scanD 2 (signText brk sym q.1) = some 2) :
    List.Forall₂ LineOf
      (L.flatMap fun q => [chars! "    num = fast_logsumexp(energyTerms, [" ++ signText brk sym q.1 ++ chars! "])",
        chars! "    Cout[" ++ natText q.2 ++ chars! "] = exp( num[0] - logZ ) * num[1]"])
      (L.flatMap fun q => [.num (signText brk sym q.1), .setC q.2]) := by
  induction L with
  | nil => exact .nil
  | cons q L ih =>
    rw [List.flatMap_cons, List.flatMap_cons]
    exact .cons ⟨isLine_num _ (h q (by simp)), parse_num _, rfl⟩
      (.cons ⟨isLine_setC _, parse_setC _, rfl⟩ (ih fun q hq => h q (by simp [hq])))

theorem prob_lines (e : Eqns) (h : ∀ t ∈ e.expterms, scanD 1 (t.take (t.length - 2)) = some 1) :
    List.Forall₂ LineOf (probLines e)
      (e.expterms.zipIdx.map fun q => .setP q.2 (q.1.take (q.1.length - 2))) := by
  unfold probLines
  rw [List.forall₂_map_left_iff, List.forall₂_map_right_iff, List.forall₂_same]
  intro q hq
  exact ⟨isLine_setP _ _ (h q.1 (List.fst_mem_of_mem_zipIdx hq)), parse_setP _ _, rfl⟩

theorem append_forall₂ {α β : Type*} {R : α → β → Prop} {a c : List α} {b d : List β}
    (h1 : List.Forall₂ R a b) (h2 : List.Forall₂ R c d) : List.Forall₂ R (a ++ c) (b ++ d) := by
  induction h1 with
  | nil => exact h2
  | cons h _ ih => exact .cons h ih

theorem lines_isLine {ls : List (List Char)} {ss : List EqLine} (h : List.Forall₂ LineOf ls ss) :
    ∀ l ∈ ls, IsLine l := by
  induction h with
  | nil => simp
  | cons h _ ih =>
    intro l hl
    rcases List.mem_cons.1 hl with rfl | hl
    · exact h.1
    · exact ih l hl

theorem lines_read {ls : List (List Char)} {ss : List EqLine} (h : List.Forall₂ LineOf ls ss) :
    List.Forall₂ (fun l s => parseLine l = some s ∧ EqLine.plain s = true) ls ss :=
  h.imp fun _ _ h => h.2

/-- The body of `calc_observables` after the docstring. -/
def obsBody (brk : ℕ → Bool) (e : Eqns) : List (List Char) :=
  obsDecl e ++ energyLines e ++ obsLines brk e ++ [lnNan, lnRetC]

theorem obsBody_lines (brk : ℕ → Bool) (e : Eqns) (h : Readable brk e) :
    List.Forall₂ LineOf (obsBody brk e) (obsStmts brk e) := by
  refine append_forall₂ (append_forall₂ (append_forall₂ (obsDecl_lines e h.few) (energy_lines e h.energy))
    (obs_lines brk e.sym _ fun q hq => h.signs q.1 (List.fst_mem_of_mem_zipIdx hq))) ?_
  exact .cons ⟨⟨by decide, by decide⟩, by decide, rfl⟩ (.cons ⟨⟨by decide, by decide⟩, by decide, rfl⟩ .nil)

/-- The body of `p`, before the empty line. -/
def pBody (e : Eqns) : List (List Char) :=
  obsDecl e ++ sliceLines e ++ [chars! "    Pout = zeros((" ++ natText (2 ^ e.n) ++ chars! "))"] ++
    energyLines e ++ probLines e

def pBodyStmts (e : Eqns) : List EqLine :=
  (.zerosC (e.signs.map List.length).sum :: sliceStmts e) ++ sliceStmts e ++ [.zerosP (2 ^ e.n)] ++
    energyStmts e ++ (e.expterms.zipIdx.map fun q => .setP q.2 (q.1.take (q.1.length - 2)))

theorem pBody_lines (brk : ℕ → Bool) (e : Eqns) (h : Readable brk e) :
    List.Forall₂ LineOf (pBody e) (pBodyStmts e) := by
  refine append_forall₂ (append_forall₂ (append_forall₂ (append_forall₂ (obsDecl_lines e h.few)
    (slice_lines e h.few)) ?_) (energy_lines e h.energy)) (prob_lines e h.terms)
  exact .cons ⟨isLine_zerosP _, parse_zerosP _, rfl⟩ .nil

/-- The last lines of `p`. -/
def pEnd (e : Eqns) : List (List Char) := (if e.sym then [[], lnRev] else [[]]) ++ [lnRetP]

theorem pEnd_isLine (e : Eqns) : ∀ l ∈ pEnd e, IsLine l := by
  unfold pEnd IsLine
  cases e.sym <;> decide

/-- From the imports to the docstring of `calc_observables`. -/
def fixedA : List (List Char) := [lnNp, lnLse, [], lnObs, lnQuotes, lnGive, lnAll, lnQuotes]

theorem fixedA_isLine : ∀ l ∈ fixedA, IsLine l := by unfold IsLine; decide

/-- From the end of `calc_observables` to the docstring of `p`. -/
def fixedB : List (List Char) := [[], lnP, lnQuotes, lnGive, lnProbs, lnQuotes]

theorem fixedB_isLine : ∀ l ∈ fixedB, IsLine l := by unfold IsLine; decide

theorem read_blank (st : ReadSt) (hd : st.doc = false) : readLine st [] = some st := by
  unfold readLine
  rw [hd, show parseLine [] = some .blank by decide]
  rfl

/-- The heading leaves at most two empty lines. -/
theorem logical_head (n : ℕ) (licence : Option (List (List Char))) (date : List Char) (t : List Char)
    (hl : ∀ ls, licence = some ls → ∀ l ∈ ls, '\n' ∉ l) (hd : '\n' ∉ date) :
    ∃ pre : List (List Char), (∀ l ∈ pre, l = []) ∧
      logical false 0 [] (joinLines (headLines n licence date) ++ t) =
        pre ++ (lnNp :: lnLse :: [] :: logical false 0 [] t) := by
  have c1 : IsComment (chars! "# Equations for " ++ natText n ++ chars! "-spin Ising model.") := by
    refine ⟨chars! " Equations for " ++ natText n ++ chars! "-spin Ising model.", rfl, ?_⟩
    have := natText_newline n
    simp [this]
  have c2 : IsComment (chars! "# Written on " ++ date ++ ['.']) :=
    ⟨chars! " Written on " ++ date ++ ['.'], rfl, by simp [hd]⟩
  have hb : IsLine [] := ⟨rfl, by simp⟩
  have hrest : ∀ u : List Char, logical false 0 []
      (joinLines [chars! "# Equations for " ++ natText n ++ chars! "-spin Ising model."] ++
        (joinLines [[]] ++ (joinLines [chars! "# Written on " ++ date ++ ['.']] ++
          (joinLines [lnNp, lnLse, []] ++ u)))) =
      [] :: (lnNp :: lnLse :: [] :: logical false 0 [] u) := by
    intro u
    rw [logical_comments _ _ (by simpa using c1), logical_lines _ _ (by simpa using hb),
      logical_comments _ _ (by simpa using c2), logical_lines _ _ (by unfold IsLine; decide)]
    rfl
  have hsplit : joinLines (headLines n licence date) ++ t = joinLines (licenceLines licence) ++
      (joinLines [chars! "# Equations for " ++ natText n ++ chars! "-spin Ising model."] ++
        (joinLines [[]] ++ (joinLines [chars! "# Written on " ++ date ++ ['.']] ++
          (joinLines [lnNp, lnLse, []] ++ t)))) := by
    unfold headLines
    rw [joinLines_append, List.append_assoc]
    congr 1
    simp only [← List.append_assoc, ← joinLines_append]
    simp only [List.cons_append, List.nil_append]
  rw [hsplit]
  cases licence with
  | none => exact ⟨[[]], by simp, hrest t⟩
  | some ls =>
    refine ⟨[[], []], by simp, ?_⟩
    rw [licenceLines, joinLines_append, List.append_assoc, logical_comments, logical_lines _ _ (by simpa using hb),
      hrest]
    · rfl
    · intro l hl'
      obtain ⟨x, hx, rfl⟩ := List.mem_map.1 hl'
      exact ⟨' ' :: x, rfl, by simpa using hl ls rfl x hx⟩

/-- Reading a written file gives the statements above. -/
theorem readModule_file (brk : ℕ → Bool) (licence : Option (List (List Char))) (date : List Char) (e : Eqns)
    (h : Readable brk e) (hl : ∀ ls, licence = some ls → ∀ l ∈ ls, '\n' ∉ l) (hd : '\n' ∉ date) :
    readModule (fileText brk licence date e) = some ⟨obsStmts brk e, pStmts e⟩ := by
  have hobs := obsBody_lines brk e h
  have hp := pBody_lines brk e h
  have hsplit : fileText brk licence date e = joinLines (headLines e.n licence date) ++
      (joinLines (obsBody brk e |> fun b => [lnObs, lnQuotes, lnGive, lnAll, lnQuotes] ++ b) ++
        (joinLines (fixedB ++ pBody e ++ pEnd e) ++ [])) := by
    unfold fileText fileLines obsFun pFun obsBody fixedB pBody pEnd
    simp only [← joinLines_append, List.append_nil, List.append_assoc, List.cons_append, List.nil_append]
  obtain ⟨pre, hpre, hlog⟩ := logical_head e.n licence date
    (joinLines ([lnObs, lnQuotes, lnGive, lnAll, lnQuotes] ++ obsBody brk e) ++
        (joinLines (fixedB ++ pBody e ++ pEnd e) ++ [])) hl hd
  have hA : ∀ l ∈ [lnObs, lnQuotes, lnGive, lnAll, lnQuotes] ++ obsBody brk e, IsLine l := by
    intro l hl
    rcases List.mem_append.1 hl with hl | hl
    · exact fixedA_isLine l (by simp only [fixedA]; simp only [List.mem_cons] at hl ⊢; tauto)
    · exact lines_isLine hobs l hl
  have hB : ∀ l ∈ fixedB ++ pBody e ++ pEnd e, IsLine l := by
    intro l hl
    rcases List.mem_append.1 hl with hl | hl
    · rcases List.mem_append.1 hl with hl | hl
      · exact fixedB_isLine l hl
      · exact lines_isLine hp l hl
    · exact pEnd_isLine e l hl
  rw [logical_lines _ _ hA, logical_lines _ _ hB] at hlog
  unfold readModule
  rw [hsplit]
  simp only
  rw [hlog]
  have hpre' : ∀ st : ReadSt, st.doc = false → pre.foldlM readLine st = some st := by
    intro st hst
    clear hlog
    induction pre with
    | nil => rfl
    | cons l pre ih =>
      obtain rfl := hpre l (by simp)
      rw [List.foldlM_cons, read_blank st hst]
      exact ih fun l hl => hpre l (by simp [hl])
  have hfix : ∀ rest : List (List Char), (lnNp :: lnLse :: [] :: ([lnObs, lnQuotes, lnGive, lnAll, lnQuotes] ++
      rest)).foldlM readLine ⟨false, false, false, none, ⟨[], []⟩⟩ =
      rest.foldlM readLine ⟨true, true, false, some false, ⟨[], []⟩⟩ := by
    intro rest
    have : (lnNp :: lnLse :: [] :: ([lnObs, lnQuotes, lnGive, lnAll, lnQuotes] ++ rest)) = fixedA ++ rest := rfl
    rw [this, List.foldlM_append,
      show fixedA.foldlM readLine ⟨false, false, false, none, ⟨[], []⟩⟩ =
        some ⟨true, true, false, some false, ⟨[], []⟩⟩ by decide]
    rfl
  have hfixB : ∀ (m : EqModule) (rest : List (List Char)), m.p = [] →
      (fixedB ++ rest).foldlM readLine ⟨true, true, false, some false, m⟩ =
      rest.foldlM readLine ⟨true, true, false, some true, m⟩ := by
    intro m rest hm
    obtain ⟨o, p⟩ := m
    obtain rfl : p = [] := hm
    rw [List.foldlM_append]
    have : fixedB.foldlM readLine ⟨true, true, false, some false, ⟨o, []⟩⟩ =
        some ⟨true, true, false, some true, ⟨o, []⟩⟩ := by
      simp only [fixedB, List.foldlM_cons, List.foldlM_nil]
      rw [read_blank _ rfl]
      have q1 : parseLine lnP = some .defP := by decide
      have q2 : parseLine lnQuotes = some .quotes := by decide
      have q3 : lnGive ≠ lnQuotes := by decide
      have q4 : lnProbs ≠ lnQuotes := by decide
      simp [readLine, q1, q2, q3, q4]
    rw [this]; rfl
  have hend : ∀ m : EqModule, (pEnd e).foldlM readLine ⟨true, true, false, some true, m⟩ =
      some ⟨true, true, false, some true, ⟨m.obs, m.p ++ ((if e.sym then [.revP] else []) ++ [.retP])⟩⟩ := by
    intro m
    have q1 : parseLine lnRev = some .revP := by decide
    have q2 : parseLine lnRetP = some .retP := by decide
    have q3 : parseLine [] = some .blank := by decide
    unfold pEnd
    cases e.sym <;> simp [readLine, q1, q2, q3]
  have hfold : (pre ++ (lnNp :: lnLse :: [] :: ([lnObs, lnQuotes, lnGive, lnAll, lnQuotes] ++ obsBody brk e ++
      (fixedB ++ pBody e ++ pEnd e ++ logical false 0 [] [])))).foldlM readLine ⟨false, false, false, none, ⟨[], []⟩⟩ =
      some ⟨true, true, false, some true, ⟨obsStmts brk e, pStmts e⟩⟩ := by
    rw [List.foldlM_append, hpre' _ rfl]
    simp only [Option.bind_eq_bind, Option.bind_some]
    rw [List.append_assoc, hfix, List.foldlM_append, readLines_obs _ _ _ rfl rfl (lines_read hobs)]
    simp only [Option.bind_eq_bind, Option.bind_some, List.nil_append, List.append_assoc]
    rw [hfixB _ _ rfl, List.foldlM_append, readLines_p _ _ _ rfl rfl (lines_read hp)]
    simp only [Option.bind_eq_bind, Option.bind_some, List.nil_append]
    rw [List.foldlM_append, hend]
    simp only [Option.bind_eq_bind, Option.bind_some, logical]
    simp [pStmts, pBodyStmts]
  rw [hfold]
  rfl

end Verif.Lemmas
