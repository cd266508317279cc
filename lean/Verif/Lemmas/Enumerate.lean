/-
What the generated modules compute.
-/
import Verif.Lemmas.SignText
import Verif.Lemmas.LogSumExp
import Verif.Lemmas.HighOrder
import Verif.Spec.Constraints
import Mathlib.Data.List.Flatten

namespace Verif.Lemmas
open Verif Verif.Model Verif.Spec

/-! ### Reading bits -/

theorem mapM_some {α β : Type*} (f : α → Option β) (g : α → β) (l : List α)
    (h : ∀ x ∈ l, f x = some (g x)) : l.mapM f = some (l.map g) := by
  induction l with
  | nil => rfl
  | cons a l ih =>
    rw [List.mapM_cons, h a (by simp), ih fun x hx => h x (by simp [hx])]; rfl

theorem binText_eq (n state : ℕ) (hn : 1 ≤ n) (h : state < 2 ^ n) :
    binText n state = (fixedDigits 2 n state).map digitCh := by
  unfold binText
  by_cases h0 : state = 0
  · subst h0
    rw [fixedDigits_zero]
    simp only [if_true, List.length_cons, List.length_nil, Nat.zero_add, List.map_replicate]
    have hd : digitCh 0 = '0' := by decide
    rw [hd]
    split_ifs with h1
    · rw [← List.replicate_one, ← List.replicate_add]; congr 1; omega
    · have : n = 1 := by omega
      subst this; rfl
  · simp only [if_neg h0]
    rw [← pad_digits 2 le_rfl n state h]
    have hd : digitCh 0 = '0' := by decide
    split_ifs with h1
    · simp [hd]
    · simp only [List.length_map, List.length_reverse] at h1
      rw [show n - (Nat.digits 2 state).length = 0 by omega]
      simp

theorem subLen_subixOf (g : Group) (hg : 1 ≤ g.1) : subLen (subixOf g) = g.2.length := by
  unfold subLen subixOf
  obtain ⟨k, hk⟩ : ∃ k, g.1 = k + 1 := ⟨g.1 - 1, by omega⟩
  rw [hk, List.range_succ_eq_map]
  simp

/-- The bit at site `i` of a text of zeros and ones. -/
def bitAt (bt : List Char) (i : ℕ) : Bool := bt.getD i '0' == '1'

theorem bitsAt_subixOf (n : ℕ) (g : Group)
    (ht : ∀ t ∈ g.2, t.length = g.1 ∧ ∀ i ∈ t, i < n) (bt : List Char) (hb : bt.length = n)
    (j : ℕ) (hj : j < g.2.length) :
    bitsAt (subixOf g) bt j = some ((g.2.getD j []).map (bitAt bt)) := by
  have hmem : g.2.getD j [] ∈ g.2 := by
    rw [List.getD_eq_getElem _ _ hj]; exact List.getElem_mem hj
  obtain ⟨hlen, hlt⟩ := ht _ hmem
  unfold bitsAt subixOf
  obtain ⟨t, htt⟩ : ∃ t, t = g.2.getD j [] := ⟨_, rfl⟩
  rw [← htt] at hlen hlt ⊢
  have : ∀ k ∈ (List.range g.1).map (fun a => g.2.map fun t => t.getD a 0), True := fun _ _ => trivial
  have key : (t.map (bitAt bt)) = (List.range g.1).map fun a => bitAt bt (t.getD a 0) := by
    apply List.ext_getElem
    · simp [hlen]
    · intro a h1 h2
      simp at h1
      simp [h1]
  rw [key]
  have hm : ∀ (l : List ℕ), (∀ a ∈ l, a < g.1) →
      (l.map (fun a => g.2.map fun t => t.getD a 0)).mapM (fun k => do
        let i ← k[j]?
        let c ← bt[i]?
        pure (c == '1')) = some (l.map fun a => bitAt bt (t.getD a 0)) := by
    intro l hl
    induction l with
    | nil => rfl
    | cons a l ih =>
      have ha := hl a (by simp)
      have h1 : (g.2.map fun t => t.getD a 0)[j]? = some (t.getD a 0) := by
        rw [List.getElem?_map, htt, List.getD_eq_getElem _ _ hj, List.getElem?_eq_getElem hj]
        rfl
      have hmem' : t.getD a 0 ∈ t := by
        rw [List.getD_eq_getElem _ _ (by omega)]; exact List.getElem_mem _
      have h2 : bt[t.getD a 0]? = some (bt.getD (t.getD a 0) '0') := by
        have := hlt _ hmem'
        rw [List.getD_eq_getElem _ '0' (by omega), List.getElem?_eq_getElem]
      rw [List.map_cons, List.mapM_cons, ih fun b hb => hl b (by simp [hb]), h1]
      simp only [Option.bind_eq_bind, Option.bind_some, h2]
      rfl
  exact hm _ (by simp)

/-- Spins of a bit pattern. -/
def bitSpin (sym : Bool) (b : ℕ → Bool) (i : ℕ) : ℝ :=
  if sym then (if b i then -1 else 1) else (if b i then 1 else 0)

theorem mono_sym (b : ℕ → Bool) (t : List ℕ) :
    mono (bitSpin true b) t = if (t.map b).count true % 2 = 1 then -1 else 1 := by
  unfold mono
  have : ((t.map (bitSpin true b)).prod : ℝ) = (-1) ^ ((t.map b).count true) := by
    induction t with
    | nil => simp
    | cons i t ih =>
      simp only [List.map_cons, List.prod_cons, ih, List.count_cons]
      cases hb : b i <;> simp [bitSpin, hb, pow_succ]
  rw [this]
  split_ifs with h
  · exact Odd.neg_one_pow (Nat.odd_iff.2 h)
  · exact Even.neg_one_pow (Nat.even_iff.2 (by omega))

theorem mono_01 (b : ℕ → Bool) (t : List ℕ) :
    mono (bitSpin false b) t = if (t.map b).all id then 1 else 0 := by
  unfold mono
  induction t with
  | nil => simp
  | cons i t ih =>
    simp only [List.map_cons, List.prod_cons, ih, List.all_cons]
    cases hb : b i <;> simp [bitSpin, hb]

/-! ### The text of one energy -/

/-- Pieces written for a group. -/
def piecesOf (sym : Bool) (c : Char) (g : Group) (b : ℕ → Bool) : List Piece :=
  if sym then (List.range g.2.length).map fun j =>
    .term (((g.2.getD j []).map b).count true % 2 = 1) c j
  else
    let l := (List.range g.2.length).flatMap fun j =>
      if ((g.2.getD j []).map b).all id then [.term false c j] else []
    if l.isEmpty then [.zero] else l

theorem render_eq_nil (ps : List Piece) : render ps = [] ↔ ps = [] := by
  cases ps with
  | nil => simp [render]
  | cons p ps => simp [render_cons]

theorem subixOf_ne (g : Group) (hg : 1 ≤ g.1) : (subixOf g).length ≠ 0 := by
  simp [subixOf]; omega

theorem getTerms_eq (sym : Bool) (n : ℕ) (g : Group) (hg : 1 ≤ g.1)
    (ht : ∀ t ∈ g.2, t.length = g.1 ∧ ∀ i ∈ t, i < n) (bt : List Char) (hb : bt.length = n) (c : Char) :
    (if sym then getTerms11 (subixOf g) c bt else getTerms01 (subixOf g) c bt) =
      some (render (piecesOf sym c g (bitAt bt))) := by
  cases sym
  · simp only [Bool.false_eq_true, if_false, getTerms01, subixOf_ne g hg, subLen_subixOf g hg]
    rw [mapM_some _ (fun j => render (if ((g.2.getD j []).map (bitAt bt)).all id then
      [.term false c j] else []))]
    · have hfl : ((List.range g.2.length).map (fun j => render (if ((g.2.getD j []).map (bitAt bt)).all id then
          [.term false c j] else []))).flatten = render ((List.range g.2.length).flatMap fun j =>
          if ((g.2.getD j []).map (bitAt bt)).all id then [.term false c j] else []) := by
        induction (List.range g.2.length) with
        | nil => rfl
        | cons j l ih => rw [List.map_cons, List.flatten_cons, List.flatMap_cons, render_append, ih]
      simp only [Option.bind_eq_bind, Option.bind_some]
      rw [hfl]
      unfold piecesOf
      simp only [Bool.false_eq_true, if_false, render_eq_nil, List.isEmpty_iff]
      split_ifs <;> rfl
    · intro j hj
      rw [bitsAt_subixOf n g ht bt hb j (List.mem_range.1 hj)]
      simp only [Option.bind_eq_bind, Option.bind_some]
      split_ifs <;> simp [render, Piece.text, Piece.sign, Piece.body]
  · simp only [if_true, getTerms11, subixOf_ne g hg, if_false, subLen_subixOf g hg]
    rw [mapM_some _ (fun j => (Piece.term (((g.2.getD j []).map (bitAt bt)).count true % 2 = 1) c j).text)]
    · simp only [Option.bind_eq_bind, Option.bind_some, piecesOf, if_true, render, List.map_map]
      rfl
    · intro j hj
      rw [bitsAt_subixOf n g ht bt hb j (List.mem_range.1 hj)]
      simp only [Option.bind_eq_bind, Option.bind_some, Piece.text, Piece.sign, Piece.body]
      simp

theorem piecesOf_good (sym : Bool) (c : Char) (hc : c.isAlpha = true) (g : Group) (b : ℕ → Bool) :
    ∀ p ∈ piecesOf sym c g b, p.Good := by
  intro p hp
  unfold piecesOf at hp
  cases sym
  · simp only [Bool.false_eq_true, if_false] at hp
    split_ifs at hp
    · simp at hp; subst hp; trivial
    · obtain ⟨j, -, hj⟩ := List.mem_flatMap.1 hp
      split_ifs at hj
      · simp at hj; subst hj; exact hc
      · simp at hj
  · simp only [if_true] at hp
    obtain ⟨j, -, rfl⟩ := List.mem_map.1 hp
    exact hc

theorem piecesOf_known (sym : Bool) (c : Char) (g : Group) (b : ℕ → Bool)
    (env : Char → ℕ → Option ℝ) (env' : Char → ℕ → ℝ)
    (h : ∀ j < g.2.length, env c j = some (env' c j)) :
    ∀ p ∈ piecesOf sym c g b, p.Known env env' := by
  intro p hp
  unfold piecesOf at hp
  cases sym
  · simp only [Bool.false_eq_true, if_false] at hp
    split_ifs at hp
    · simp at hp; subst hp; trivial
    · obtain ⟨j, hj', hj⟩ := List.mem_flatMap.1 hp
      split_ifs at hj
      · simp at hj; subst hj; exact h j (List.mem_range.1 hj')
      · simp at hj
  · simp only [if_true] at hp
    obtain ⟨j, hj, rfl⟩ := List.mem_map.1 hp
    exact h j (List.mem_range.1 hj)

theorem dot_eq_range {α : Type*} (p : List ℝ) (L : List α) (d : α) (f : α → ℝ) (h : p.length = L.length) :
    dot p (L.map f) = ((List.range L.length).map fun j => p.getD j 0 * f (L.getD j d)).sum := by
  unfold dot
  congr 1
  apply List.ext_getElem
  · simp [h]
  · intro i h1 h2
    simp at h1 h2
    simp [h1.1, h1.2]

theorem piecesOf_val (sym : Bool) (c : Char) (g : Group) (b : ℕ → Bool) (env' : Char → ℕ → ℝ)
    (p : List ℝ) (hp : p.length = g.2.length) (h : ∀ j < g.2.length, env' c j = p.getD j 0) :
    ((piecesOf sym c g b).map (Piece.val env')).sum = dot p (g.2.map (mono (bitSpin sym b))) := by
  rw [dot_eq_range p g.2 [] _ hp]
  unfold piecesOf
  cases sym
  · simp only [Bool.false_eq_true, if_false]
    have key : ∀ l : List ℕ, (∀ j ∈ l, j < g.2.length) →
        ((l.flatMap fun j => if ((g.2.getD j []).map b).all id then [Piece.term false c j] else []).map
          (Piece.val env')).sum = (l.map fun j => p.getD j 0 * mono (bitSpin false b) (g.2.getD j [])).sum := by
      intro l hl
      induction l with
      | nil => simp
      | cons j l ih =>
        rw [List.flatMap_cons, List.map_append, List.sum_append, ih fun i hi => hl i (by simp [hi]),
          List.map_cons, List.sum_cons, mono_01]
        congr 1
        split_ifs
        · simp [Piece.val, h j (hl j (by simp))]
        · simp
    split_ifs with he
    · rw [← key _ (fun j hj => List.mem_range.1 hj), List.isEmpty_iff.1 he]
      simp [Piece.val]
    · exact key _ (fun j hj => List.mem_range.1 hj)
  · simp only [if_true, List.map_map]
    congr 1
    apply List.map_congr_left
    intro j hj
    simp only [Function.comp, Piece.val, mono_sym, h j (List.mem_range.1 hj)]
    split_ifs <;> simp_all

/-! ### Names and slices -/

theorem abc_nodup : abc.Nodup := by decide

theorem abc_alpha : ∀ c ∈ abc, c.isAlpha = true := by decide

theorem abc_idxOf (i : ℕ) (hi : i < abc.length) : abc.idxOf abc[i] = i :=
  abc_nodup.idxOf_getElem i hi

theorem slice_flatten (P : List (List ℝ)) (i : ℕ) (hi : i < P.length) :
    (P.flatten.drop ((P.map List.length).take i).sum).take ((P.map List.length).getD i 0) = P[i] := by
  have h := List.drop_take_succ_flatten_eq_getElem P i hi
  rw [← h, List.drop_take]
  congr 1
  rw [List.getD_eq_getElem _ _ (by simpa using hi), List.sum_take_succ _ _ (by simpa using hi)]
  omega

end Verif.Lemmas
