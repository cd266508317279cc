import Verif.Model.HighOrder
import Verif.Spec.Poly
import Verif.Lemmas.Corr
import Verif.Lemmas.States
import Verif.Lemmas.Convert
import Verif.Props.Index

namespace Verif.Lemmas
open Verif Verif.Model Verif.Spec

variable {K : Type*}

theorem words_lex {n k : ℕ} : (words (List.range n) k).Pairwise (List.Lex (· < ·)) := by
  induction k with
  | zero => simp [words]
  | succ k ih =>
    simp only [words, List.flatMap_def]
    rw [List.pairwise_flatten]
    constructor
    · intro l hl
      obtain ⟨a, _, rfl⟩ := List.mem_map.1 hl
      rw [List.pairwise_map]
      exact ih.imp fun h => List.Lex.cons h
    · rw [List.pairwise_map]
      refine List.pairwise_lt_range.imp ?_
      intro a b hab x hx y hy
      obtain ⟨x', _, rfl⟩ := List.mem_map.1 hx
      obtain ⟨y', _, rfl⟩ := List.mem_map.1 hy
      exact List.Lex.rel hab

theorem isCombinations_tuples (n k : ℕ) : IsCombinations n k (tuples n k) where
  mem_iff t := by
    unfold tuples
    rw [List.mem_filter, mem_words]
    simp only [List.mem_range, decide_eq_true_eq]
    tauto
  sorted := words_lex.filter _

theorem tuples_eq (n k : ℕ) : tuples n k = combos k (pyRange 0 n) :=
  (isCombinations_tuples n k).unique (isCombinations_combos n k)

theorem length_tuples (n k : ℕ) : (tuples n k).length = n.choose k := by
  rw [tuples_eq, length_combos]; simp [pyRange]

theorem nodup_tuples (n k : ℕ) : (tuples n k).Nodup := (isCombinations_tuples n k).sorted.nodup

/-- A product of sums, expanded over the sub-tuples. -/
theorem expand [CommRing K] (a b : K) (x : ℕ → K) (t : List ℕ) :
    (t.map fun i => a * x i + b).prod =
      ∑ k ∈ Finset.range (t.length + 1),
        ((combos k t).map fun u => a ^ k * b ^ (t.length - k) * mono x u).sum := by
  induction t with
  | nil => simp [combos, mono]
  | cons i t ih =>
    rw [List.map_cons, List.prod_cons, ih, add_mul]
    have e : ∀ k, ((combos (k + 1) (i :: t)).map fun u =>
        a ^ (k + 1) * b ^ ((i :: t).length - (k + 1)) * mono x u).sum =
        a * x i * ((combos k t).map fun u => a ^ k * b ^ (t.length - k) * mono x u).sum +
        ((combos (k + 1) t).map fun u => a ^ (k + 1) * b ^ (t.length - k) * mono x u).sum := by
      intro k
      simp only [combos, List.map_append, List.sum_append, List.map_map]
      congr 1
      · rw [← list_sum_mul_left]
        apply list_sum_congr
        intro u _
        simp only [Function.comp, mono, List.map_cons, List.prod_cons, List.length_cons,
          Nat.add_sub_add_right]
        ring
      · simp
    have last : combos (t.length + 1) t = [] := by
      apply List.length_eq_zero_iff.1
      rw [length_combos]; simp
    simp only [List.length_cons] at e
    rw [Finset.sum_range_succ' _ (i :: t).length]
    simp only [e, List.length_cons]
    rw [Finset.sum_add_distrib, ← Finset.mul_sum, add_assoc]
    congr 1
    have e2 : ∑ k ∈ Finset.range (t.length + 1),
        ((combos (k + 1) t).map fun u => a ^ (k + 1) * b ^ (t.length - k) * mono x u).sum =
        ∑ k ∈ Finset.range t.length,
          b * ((combos (k + 1) t).map fun u =>
            a ^ (k + 1) * b ^ (t.length - (k + 1)) * mono x u).sum := by
      rw [Finset.sum_range_succ, last]
      simp only [List.map_nil, List.sum_nil, add_zero]
      refine Finset.sum_congr rfl fun k hk => ?_
      rw [← list_sum_mul_left]
      apply list_sum_congr
      intro u _
      have : t.length - k = t.length - (k + 1) + 1 := by
        have := Finset.mem_range.1 hk; omega
      rw [this, pow_succ]
      ring
    rw [e2, ← Finset.mul_sum, Finset.sum_range_succ' _ t.length, mul_add]
    congr 1
    simp [combos, mono]
    ring

/-- A monadic fold whose steps preserve an invariant and add a known amount to a measure. -/
theorem foldlM_add {α P M : Type*} [AddCommMonoid M] (step : P → α → Py P) (Inv : P → Prop)
    (Φ : P → M) (f : α → M) (L : List α)
    (h : ∀ a ∈ L, ∀ p, Inv p → ∃ p', step p a = .ok p' ∧ Inv p' ∧ Φ p' = Φ p + f a) :
    ∀ p, Inv p → ∃ p', L.foldlM step p = .ok p' ∧ Inv p' ∧ Φ p' = Φ p + (L.map f).sum := by
  induction L with
  | nil => intro p hp; exact ⟨p, rfl, hp, by simp⟩
  | cons a L ih =>
    intro p hp
    obtain ⟨p1, h1, h2, h3⟩ := h a (by simp) p hp
    obtain ⟨p2, h4, h5, h6⟩ := ih (fun a ha => h a (by simp [ha])) p1 h2
    refine ⟨p2, ?_, h5, ?_⟩
    · rw [List.foldlM_cons, h1]; exact h4
    · rw [h6, h3]; simp [add_assoc]

theorem list_sum_apply {α X M : Type*} [AddCommMonoid M] (l : List α) (f : α → X → M) (x : X) :
    (l.map f).sum x = (l.map fun a => f a x).sum := by
  induction l with
  | nil => rfl
  | cons a l ih => simp [ih]

/-- Shape of the (reversed) working arrays for orders `m, m-1, ..., 1`. -/
def RevShape (n m : ℕ) (P : List (List K)) : Prop :=
  P.length = m ∧ ∀ c < m, (P.getD c []).length = (tuples n (m - c)).length

/-- The polynomial of the (reversed) working arrays. -/
def revPoly [CommRing K] (n m : ℕ) (P : List (List K)) (x : ℕ → K) : K :=
  ∑ c ∈ Finset.range m, dot (P.getD c []) ((tuples n (m - c)).map (mono x))

theorem dot_set [CommRing K] (a b : List K) (i : ℕ) (v old : K) (ha : a[i]? = some old)
    (hb : a.length = b.length) :
    dot (a.set i (old + v)) b = dot a b + v * b.getD i 0 := by
  unfold dot
  induction a generalizing b i with
  | nil => simp at ha
  | cons x a ih =>
    rcases b with _ | ⟨y, b⟩
    · simp at hb
    · rcases i with _ | i
      · simp at ha; subst ha
        simp; ring
      · simp only [List.set_cons_succ, List.zipWith_cons_cons, List.sum_cons, List.getD_cons_succ]
        rw [ih b i (by simpa using ha) (by simpa using hb)]
        ring

theorem addAt_ok [CommRing K] (n m : ℕ) (P : List (List K)) (hP : RevShape n m P) (c ix : ℕ)
    (hc : c < m) (t : List ℕ) (ht : (tuples n (m - c))[ix]? = some t) (v : K) :
    ∃ P', addAt P c ix v = .ok P' ∧ RevShape n m P' ∧
      ∀ x, revPoly n m P' x = revPoly n m P x + v * mono x t := by
  obtain ⟨hix, htv⟩ := List.getElem?_eq_some_iff.1 ht
  have hcl : c < P.length := hP.1 ▸ hc
  have hrow : P[c]? = some P[c] := List.getElem?_eq_getElem hcl
  have hlen : P[c].length = (tuples n (m - c)).length := by
    have := hP.2 c hc
    rwa [List.getD_eq_getElem _ _ hcl] at this
  have hixl : ix < P[c].length := by omega
  have hget : P[c][ix]? = some P[c][ix] := List.getElem?_eq_getElem hixl
  refine ⟨P.set c (P[c].set ix (P[c][ix] + v)), ?_, ⟨?_, ?_⟩, ?_⟩
  · unfold addAt; simp only [hrow, hget]
  · simp [hP.1]
  · intro c' hc'
    have hcl' : c' < P.length := hP.1 ▸ hc'
    rw [List.getD_eq_getElem _ _ (by simpa using hcl'), List.getElem_set]
    split_ifs with h
    · subst h; simp [hlen]
    · have := hP.2 c' hc'
      rwa [List.getD_eq_getElem _ _ hcl'] at this
  · intro x
    unfold revPoly
    rw [← Finset.add_sum_erase _ _ (Finset.mem_range.2 hc),
      ← Finset.add_sum_erase (Finset.range m) (fun c => dot (P.getD c []) _)
        (Finset.mem_range.2 hc)]
    have e1 : ∑ c' ∈ (Finset.range m).erase c, dot ((P.set c (P[c].set ix (P[c][ix] + v))).getD c' [])
        ((tuples n (m - c')).map (mono x)) = ∑ c' ∈ (Finset.range m).erase c, dot (P.getD c' [])
        ((tuples n (m - c')).map (mono x)) := by
      refine Finset.sum_congr rfl fun c' hc' => ?_
      obtain ⟨h1, h2⟩ := Finset.mem_erase.1 hc'
      have hcl' : c' < P.length := hP.1 ▸ Finset.mem_range.1 h2
      rw [List.getD_eq_getElem _ _ (by simpa using hcl'), List.getElem_set,
        if_neg (fun h => h1 h.symm), List.getD_eq_getElem _ _ hcl']
    rw [e1, List.getD_eq_getElem _ _ (by simpa using hcl), List.getElem_set, if_pos rfl,
      dot_set _ _ ix v _ hget (by simp [hlen]), List.getD_eq_getElem _ _ hcl]
    rw [List.getD_eq_getElem _ _ (by simpa using hix), List.getElem_map, htv]
    ring

theorem length_rangeDown (a : ℕ) : (rangeDown a).length = a := by simp [rangeDown, pyRange]

theorem getElem_rangeDown (a j : ℕ) (h : j < (rangeDown a).length) : (rangeDown a)[j] = a - j := by
  rw [length_rangeDown] at h
  simp only [rangeDown, pyRange, List.getElem_reverse, List.getElem_range', List.length_range']
  omega

theorem mem_rangeDown_zipIdx {a : ℕ} {q : ℕ × ℕ} (h : q ∈ (rangeDown a).zipIdx) :
    q.2 < a ∧ q.1 = a - q.2 := by
  obtain ⟨i, hi, rfl⟩ := List.mem_iff_getElem.1 h
  have hi' : i < a := by simpa [length_rangeDown] using hi
  simp only [List.getElem_zipIdx, Nat.zero_add]
  exact ⟨hi', getElem_rangeDown a i _⟩

theorem sum_rangeDown [AddCommMonoid K] (a : ℕ) (F : ℕ → ℕ → K) :
    ((rangeDown a).zipIdx.map fun q => F q.1 q.2).sum = ∑ c ∈ Finset.range a, F (a - c) c := by
  rw [← sum_map_range]
  congr 1
  apply List.ext_getElem
  · simp [length_rangeDown]
  · intro i h1 h2
    simp [getElem_rangeDown]

/-- The polynomial added by one interaction term. -/
def termPoly [CommRing K] (same : ℕ → K) (sub : ℕ → ℕ → K) (order : ℕ) (t : List ℕ) (x : ℕ → K) :
    K :=
  same order * mono x t + ∑ c ∈ Finset.range (order - 1),
    ((combos (order - 1 - c) t).map fun u => sub order (order - 1 - c) * mono x u).sum

theorem icpTerm_ok [Field K] (same : ℕ → K) (sub : ℕ → ℕ → K) (n m counter r : ℕ)
    (hc : counter < m) (t : List ℕ) (ht : (tuples n (m - counter))[r]? = some t) (c : K)
    (P : List (List K)) (hP : RevShape n m P) :
    ∃ P', icpTerm same sub n counter (m - counter) r t c P = .ok P' ∧ RevShape n m P' ∧
      revPoly n m P' = revPoly n m P + fun x => c * termPoly same sub (m - counter) t x := by
  have htm := (isCombinations_tuples n (m - counter)).mem_iff t |>.1
    (List.mem_of_getElem? ht)
  obtain ⟨P1, h1, h2, h3⟩ := addAt_ok n m P hP counter r hc t ht (same (m - counter) * c)
  have key := foldlM_add (M := (ℕ → K) → K)
    (step := fun P (q : ℕ × ℕ) => (combos q.1 t).foldlM (fun P subijk =>
      match unravelIndex subijk n with
      | .error e => .error e
      | .ok ix => addAt P (q.2 + counter + 1) ix (c * sub (m - counter) q.1)) P)
    (Inv := RevShape n m) (Φ := revPoly n m)
    (f := fun q x => ((combos q.1 t).map fun u => c * sub (m - counter) q.1 * mono x u).sum)
    (L := (rangeDown (m - counter - 1)).zipIdx) (by
      intro q hq p hp
      obtain ⟨hq1, hq2⟩ := mem_rangeDown_zipIdx hq
      have := foldlM_add (M := (ℕ → K) → K) (step := fun P (subijk : List ℕ) =>
          match unravelIndex subijk n with
          | .error e => .error e
          | .ok ix => addAt P (q.2 + counter + 1) ix (c * sub (m - counter) q.1))
        (Inv := RevShape n m) (Φ := revPoly n m)
        (f := fun u x => c * sub (m - counter) q.1 * mono x u) (L := combos q.1 t) (by
          intro u hu p hp
          obtain ⟨hul, hus⟩ := (mem_combos t q.1 u).1 hu
          have hsort : u.Pairwise (· < ·) := htm.2.1.sublist hus
          have hbd : ∀ i ∈ u, i < n := fun i hi => htm.2.2 i (hus.subset hi)
          obtain ⟨k, hk1, hk2⟩ := Props.C03_unravel_index n u
            (by intro h; subst h; simp at hul; omega) hsort hbd
          rw [← tuples_eq, hul] at hk2
          have he : q.1 = m - (q.2 + counter + 1) := by omega
          obtain ⟨p', h4, h5, h6⟩ := addAt_ok n m p hp (q.2 + counter + 1) k (by omega) u
            (by rw [← he]; exact hk2) (c * sub (m - counter) q.1)
          refine ⟨p', ?_, h5, funext h6⟩
          rw [hk1]
          exact h4) p hp
      obtain ⟨p', h4, h5, h6⟩ := this
      refine ⟨p', h4, h5, ?_⟩
      rw [h6]
      congr 1
      funext x
      rw [list_sum_apply]) P1 h2
  obtain ⟨P2, h4, h5, h6⟩ := key
  refine ⟨P2, ?_, h5, ?_⟩
  · unfold icpTerm
    rw [h1]
    exact h4
  · rw [h6]
    funext x
    simp only [Pi.add_apply]
    rw [h3 x, list_sum_apply, sum_rangeDown _ fun a _ =>
      ((combos a t).map fun u => c * sub (m - counter) a * mono x u).sum]
    unfold termPoly
    rw [mul_add, Finset.mul_sum, add_assoc]
    congr 1
    congr 1
    · ring
    · refine Finset.sum_congr rfl fun a _ => ?_
      rw [← list_sum_mul_left]
      apply list_sum_congr
      intro u _
      ring

theorem icpLoop_ok [Field K] (same : ℕ → K) (sub : ℕ → ℕ → K) (n m : ℕ) (op P : List (List K))
    (hop : RevShape n m op) (hP : RevShape n m P) :
    ∃ P', icpLoop same sub n op P = .ok P' ∧ RevShape n m P' ∧ ∀ x,
      revPoly n m P' x = revPoly n m P x + ∑ c ∈ Finset.range m,
        dot (op.getD c []) ((tuples n (m - c)).map fun t => termPoly same sub (m - c) t x) := by
  have key := foldlM_add (M := (ℕ → K) → K)
    (step := fun P (q : ℕ × ℕ) => (combos q.1 (pyRange 0 n)).zipIdx.foldlM (fun P r =>
      match (op[q.2]?).bind fun l => l[r.2]? with
      | none => .error .indexError
      | some c => icpTerm same sub n q.2 q.1 r.2 r.1 c P) P)
    (Inv := RevShape n m) (Φ := revPoly n m)
    (f := fun q x => dot (op.getD q.2 []) ((tuples n q.1).map fun t => termPoly same sub q.1 t x))
    (L := (rangeDown op.length).zipIdx) (by
      intro q hq p hp
      obtain ⟨hq1, hq2⟩ := mem_rangeDown_zipIdx hq
      have hqm : q.2 < m := hop.1 ▸ hq1
      have hq2' : q.1 = m - q.2 := by rw [hq2, hop.1]
      have hrow : op[q.2]? = some op[q.2] := List.getElem?_eq_getElem hq1
      have hlen : op[q.2].length = (tuples n (m - q.2)).length := by
        have := hop.2 q.2 hqm
        rwa [List.getD_eq_getElem _ _ hq1] at this
      have := foldlM_add (M := (ℕ → K) → K) (step := fun P (r : List ℕ × ℕ) =>
          match (op[q.2]?).bind fun l => l[r.2]? with
          | none => .error .indexError
          | some c => icpTerm same sub n q.2 q.1 r.2 r.1 c P)
        (Inv := RevShape n m) (Φ := revPoly n m)
        (f := fun r x => (op.getD q.2 []).getD r.2 0 * termPoly same sub q.1 r.1 x)
        (L := (combos q.1 (pyRange 0 n)).zipIdx) (by
          intro r hr p hp
          rw [← tuples_eq] at hr
          obtain ⟨i, hi, rfl⟩ := List.mem_iff_getElem.1 hr
          have hi' : i < (tuples n q.1).length := by simpa using hi
          simp only [List.getElem_zipIdx, Nat.zero_add]
          have hil : i < op[q.2].length := by rw [hlen, ← hq2']; exact hi'
          have hv : (op[q.2]?).bind (fun l => l[i]?) = some op[q.2][i] := by
            rw [hrow]; simp [hil]
          obtain ⟨p', h4, h5, h6⟩ := icpTerm_ok same sub n m q.2 i hqm (tuples n q.1)[i]
            (by rw [← hq2']; exact List.getElem?_eq_getElem hi') op[q.2][i] p hp
          rw [← hq2'] at h4 h6
          refine ⟨p', ?_, h5, ?_⟩
          · rw [hv]; exact h4
          · rw [h6, List.getD_eq_getElem _ _ hq1, List.getD_eq_getElem _ _ hil]) p hp
      obtain ⟨p', h4, h5, h6⟩ := this
      refine ⟨p', h4, h5, ?_⟩
      rw [h6]
      congr 1
      funext x
      rw [list_sum_apply, ← tuples_eq]
      have := sum_zipIdx_getD (tuples n q.1) (op.getD q.2 []) (fun t => termPoly same sub q.1 t x) 0
      rw [List.drop_zero] at this
      exact this) P hP
  obtain ⟨P', h1, h2, h3⟩ := key
  refine ⟨P', h1, h2, fun x => ?_⟩
  rw [h3]
  simp only [Pi.add_apply]
  rw [list_sum_apply, hop.1]
  congr 1
  exact sum_rangeDown m fun a c =>
    dot (op.getD c []) ((tuples n a).map fun t => termPoly same sub a t x)

theorem combos_self (t : List ℕ) : combos t.length t = [t] := by
  induction t with
  | nil => rfl
  | cons a t ih =>
    simp only [List.length_cons, combos, ih]
    have : combos (t.length + 1) t = [] := by
      apply List.length_eq_zero_iff.1
      rw [length_combos]; simp
    simp [this]

/-- The expansion computed by the code is the product of the substituted factors, except for the
constant term. -/
theorem termPoly_eq [CommRing K] (same : ℕ → K) (sub : ℕ → ℕ → K) (a b : K) (t : List ℕ)
    (ht : 1 ≤ t.length) (h1 : same t.length = a ^ t.length)
    (h2 : ∀ k, 1 ≤ k → k < t.length → sub t.length k = a ^ k * b ^ (t.length - k)) (x : ℕ → K) :
    termPoly same sub t.length t x = mono (fun i => a * x i + b) t - b ^ t.length := by
  have h3 : mono (fun i => a * x i + b) t = (t.map fun i => a * x i + b).prod := rfl
  rw [h3, expand, Finset.sum_range_succ, combos_self]
  obtain ⟨d, hd⟩ : ∃ d, t.length = d + 1 := ⟨t.length - 1, by omega⟩
  unfold termPoly
  rw [h1]
  rw [hd] at h2 ⊢
  rw [Finset.sum_range_succ', Nat.add_sub_cancel,
    ← Finset.sum_range_reflect (fun k => ((combos (k + 1) t).map fun u =>
      a ^ (k + 1) * b ^ (d + 1 - (k + 1)) * mono x u).sum)]
  have e : ∑ c ∈ Finset.range d, ((combos (d - c) t).map fun u => sub (d + 1) (d - c) * mono x u).sum =
      ∑ j ∈ Finset.range d, ((combos (d - 1 - j + 1) t).map fun u =>
        a ^ (d - 1 - j + 1) * b ^ (d + 1 - (d - 1 - j + 1)) * mono x u).sum := by
    refine Finset.sum_congr rfl fun c hc => ?_
    have hc' := Finset.mem_range.1 hc
    have : d - 1 - c + 1 = d - c := by omega
    rw [this, h2 (d - c) (by omega) (by omega)]
  rw [e]
  simp [combos, mono]
  ring

theorem dot_sub_const [CommRing K] {α : Type*} (a : List K) (l : List α) (f : α → K) (b : K)
    (h : a.length = l.length) :
    dot a (l.map fun t => f t - b) = dot a (l.map f) - a.sum * b := by
  unfold dot
  induction a generalizing l with
  | nil => simp
  | cons x a ih =>
    rcases l with _ | ⟨y, l⟩
    · simp at h
    · simp only [List.map_cons, List.zipWith_cons_cons, List.sum_cons]
      rw [ih l (by simpa using h)]
      ring

theorem revShape_reverse [CommRing K] {n m : ℕ} {P : List (List K)} (hm : P.length = m) :
    RevShape n m P.reverse ↔ PolyShape n P := by
  unfold RevShape PolyShape
  have hget : ∀ c < m, P.reverse.getD c [] = P.getD (m - 1 - c) [] := by
    intro c hc
    rw [List.getD_eq_getElem _ _ (by simp [hm, hc]), List.getElem_reverse,
      List.getD_eq_getElem _ _ (by omega)]
    simp [hm]
  constructor
  · rintro ⟨_, h⟩ k hk
    have := h (m - 1 - k) (by omega)
    rw [hget _ (by omega)] at this
    have e1 : m - 1 - (m - 1 - k) = k := by omega
    have e2 : m - (m - 1 - k) = k + 1 := by omega
    rwa [e1, e2] at this
  · intro h
    refine ⟨by simp [hm], fun c hc => ?_⟩
    rw [hget c hc, h _ (by omega)]
    have : m - 1 - c + 1 = m - c := by omega
    rw [this]

theorem revPoly_reverse [CommRing K] {n m : ℕ} {P : List (List K)} (hm : P.length = m)
    (x : ℕ → K) : polyE n P x = -revPoly n m P.reverse x := by
  unfold polyE revPoly
  rw [hm, ← Finset.sum_range_reflect]
  congr 1
  refine Finset.sum_congr rfl fun c hc => ?_
  have hc' := Finset.mem_range.1 hc
  have hget : P.reverse.getD c [] = P.getD (m - 1 - c) [] := by
    rw [List.getD_eq_getElem _ _ (by simp [hm, hc']), List.getElem_reverse,
      List.getD_eq_getElem _ _ (by omega)]
    simp [hm]
  have : m - 1 - c + 1 = m - c := by omega
  rw [hget, this]

/-- Common part of both conversions. -/
theorem icp_energy [Field K] (same : ℕ → K) (sub : ℕ → ℕ → K) (a b : K)
    (h1 : ∀ k, 1 ≤ k → same k = a ^ k)
    (h2 : ∀ l k, 1 ≤ k → k < l → sub l k = a ^ k * b ^ (l - k)) (n m : ℕ) (o : List (List K))
    (hm : o.length = m) (ho : PolyShape n o) :
    ∃ P, icpLoop same sub n o.reverse
        ((rangeDown o.reverse.length).map fun i => List.replicate (n.choose i) (0 : K)) = .ok P ∧
      P.reverse.length = m ∧ PolyShape n P.reverse ∧
      ∃ c, ∀ x, polyE n P.reverse x = polyE n o (fun i => a * x i + b) + c := by
  have hop : RevShape n m o.reverse := (revShape_reverse hm).2 ho
  have h0 : RevShape n m ((rangeDown o.reverse.length).map
      fun i => List.replicate (n.choose i) (0 : K)) := by
    refine ⟨by simp [length_rangeDown, hm], fun c hc => ?_⟩
    rw [List.getD_eq_getElem _ _ (by simp [length_rangeDown, hm, hc])]
    simp [getElem_rangeDown, hm, length_tuples]
  obtain ⟨P, h3, h4, h5⟩ := icpLoop_ok same sub n m o.reverse _ hop h0
  have hPl : P.reverse.length = m := by simp [h4.1]
  refine ⟨P, h3, hPl, (revShape_reverse hPl).1 (by simpa using h4),
    ∑ c ∈ Finset.range m, (o.reverse.getD c []).sum * b ^ (m - c), fun x => ?_⟩
  rw [revPoly_reverse hPl, revPoly_reverse hm, List.reverse_reverse, h5 x]
  have hz : revPoly n m ((rangeDown o.reverse.length).map
      fun i => List.replicate (n.choose i) (0 : K)) x = 0 := by
    unfold revPoly
    refine Finset.sum_eq_zero fun c hc => ?_
    have hc' := Finset.mem_range.1 hc
    rw [List.getD_eq_getElem _ _ (by simp [length_rangeDown, hm, hc']), List.getElem_map]
    unfold dot
    apply List.sum_eq_zero
    intro v hv
    rw [List.zipWith_eq_zipWith_take_min] at hv
    obtain ⟨i, hi, rfl⟩ := List.mem_iff_getElem.1 hv
    simp
  rw [hz, zero_add]
  unfold revPoly
  rw [← sub_eq_iff_eq_add', sub_neg_eq_add, neg_add_eq_sub, ← Finset.sum_sub_distrib]
  refine Finset.sum_congr rfl fun c hc => ?_
  have hc' := Finset.mem_range.1 hc
  have hlen := hop.2 c hc'
  rw [List.map_congr_left (f := fun t => termPoly same sub (m - c) t x)
    (g := fun t => mono (fun i => a * x i + b) t - b ^ (m - c))]
  · rw [dot_sub_const _ _ _ _ hlen]
    ring
  · intro t ht
    have htl := ((isCombinations_tuples n (m - c)).mem_iff t).1 ht
    have hl : t.length = m - c := htl.1
    rw [← hl]
    exact termPoly_eq same sub a b t (by omega) (h1 _ (by omega)) (fun k hk hk2 => h2 _ k hk hk2) x

end Verif.Lemmas
