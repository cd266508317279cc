/-
The fourth-order co-occurrence matrix.
-/
import Verif.Lemmas.Cells
import Verif.Lemmas.Pairs

namespace Verif.Lemmas
open Verif Verif.Spec Verif.Model

variable {K : Type*}

/-- The pair of sites stored at a flat position. -/
def flatPair (n p : ℕ) : ℕ × ℕ := (diagList n fun i j => (i, j)).getD p (0, 0)

theorem flatPair_eq (n i k : ℕ) (h : i + k < n) : flatPair n (diagOff n k + i) = (i, i + k) := by
  rw [flatPair, List.getD_eq_getElem?_getD, diagList_get n i k h]
  rfl

theorem diagOff_lt (n i k : ℕ) (h : i + k < n) : diagOff n k + i < diagOff n n := by
  have := diagOff_mono (n := n) (a := k + 1) (b := n) (by omega)
  simp only [diagOff] at this
  omega

theorem diagOff_decode (n p : ℕ) (hp : p < diagOff n n) : ∃ k i, i + k < n ∧ p = diagOff n k + i := by
  have hk : ∃ k < n, diagOff n k ≤ p ∧ p < diagOff n (k + 1) := by
    have : ∀ m ≤ n, p < diagOff n m → ∃ k < m, diagOff n k ≤ p ∧ p < diagOff n (k + 1) := by
      intro m
      induction m with
      | zero => intro _ h; simp [diagOff] at h
      | succ m ih =>
        intro hm h
        by_cases h' : p < diagOff n m
        · obtain ⟨k, h1, h2⟩ := ih (by omega) h'
          exact ⟨k, by omega, h2⟩
        · exact ⟨m, by omega, by omega, h⟩
    exact this n le_rfl hp
  obtain ⟨k, hk, h1, h2⟩ := hk
  simp only [diagOff] at h2
  exact ⟨k, p - diagOff n k, by omega, by omega⟩

theorem diagList_self [Zero K] (n : ℕ) (flat : List K) (hl : flat.length = diagOff n n) :
    diagList n (fun i j => flat.getD (diagOff n (j - i) + i) 0) = flat := by
  apply List.ext_getElem?
  intro p
  by_cases hp : p < diagOff n n
  · obtain ⟨k, i, h, rfl⟩ := diagOff_decode n p hp
    rw [diagList_get n i k h, show i + k - i = k by omega,
      List.getD_eq_getElem _ _ (by rw [hl]; exact hp), List.getElem?_eq_getElem]
  · rw [List.getElem?_eq_none (by rw [length_diagList]; omega), List.getElem?_eq_none (by omega)]

theorem toNat_diagFlat (n i j : ℕ) (hij : i ≤ j) (hj : j < n) :
    (diagFlatIndex i j n).toNat = diagOff n (j - i) + i := by
  have := diagFlatIndex_eq n i (j - i) (by omega)
  rw [show i + (j - i) = j by omega] at this
  rw [this]
  exact Int.toNat_natCast _

theorem mem_fourthLoop (n i j m l : ℕ) :
    (i, j, m, l) ∈ fourthLoop n ↔ i ≤ j ∧ j < n ∧ i ≤ m ∧ m ≤ l ∧ l < n := by
  simp only [fourthLoop, List.mem_flatMap, List.mem_map, mem_pyRange]
  constructor
  · rintro ⟨i', hi, j', hj, m', hm, l', hl, e⟩
    simp only [Prod.mk.injEq] at e
    omega
  · intro h
    exact ⟨i, by omega, j, by omega, m, by omega, l, by omega, rfl⟩

/-- Sum over the rows of the product of the entries at four sites. -/
def fourthSum [Field K] (X : Samples K) (p q : ℕ × ℕ) : K :=
  (X.map fun r => rd r p.1 * rd r p.2 * rd r q.1 * rd r q.2).sum

theorem fourthSum_comm [Field K] (X : Samples K) (p q : ℕ × ℕ) : fourthSum X p q = fourthSum X q p := by
  unfold fourthSum
  apply list_sum_congr
  intro r _
  ring

theorem fourth_ok [Field K] (X : Samples K) (n : ℕ) (hX : ∀ r ∈ X, r.length = n) (hne : X ≠ []) :
    fourthOrderCoocMat X = .ok (Mat.build (n * (n + 1) / 2) (n * (n + 1) / 2) fun p q =>
      fourthSum X (flatPair n p) (flatPair n q) / (X.length : K)) := by
  obtain ⟨row, rest, e⟩ : ∃ row rest, X = row :: rest := by
    rcases X with _ | ⟨a, b⟩
    · exact absurd rfl hne
    · exact ⟨_, _, rfl⟩
  have hrow : row.length = n := hX row (by rw [e]; simp)
  have hdim : (n + 1) * n / 2 = n * (n + 1) / 2 := by rw [Nat.mul_comm]
  obtain ⟨F, hF⟩ : ∃ F : ℕ → ℕ → K, F = fun p q => fourthSum X (flatPair n p) (flatPair n q) := ⟨_, rfl⟩
  have hidx : ∀ i j, i ≤ j → j < n → flatPair n (diagFlatIndex i j n).toNat = (i, j) ∧
      (diagFlatIndex i j n).toNat < n * (n + 1) / 2 := by
    intro i j h1 h2
    rw [toNat_diagFlat n i j h1 h2, flatPair_eq n i (j - i) (by omega), ← diagOff_self]
    exact ⟨by rw [show i + (j - i) = j by omega], diagOff_lt _ _ _ (by omega)⟩
  have hfold : (fourthLoop n).foldlM (fourthStep n X) (Mat.build (n * (n + 1) / 2) (n * (n + 1) / 2)
      fun _ _ => (0 : K)) =
      .ok (Mat.build (n * (n + 1) / 2) (n * (n + 1) / 2) F) := by
    have e1 : (fourthLoop n).foldlM (fourthStep n X) (Mat.build (n * (n + 1) / 2) (n * (n + 1) / 2)
        fun _ _ => (0 : K)) =
        ((fourthLoop n).flatMap fun q => [((diagFlatIndex q.1 q.2.1 n).toNat,
          (diagFlatIndex q.2.2.1 q.2.2.2 n).toNat), ((diagFlatIndex q.2.2.1 q.2.2.2 n).toNat,
          (diagFlatIndex q.1 q.2.1 n).toNat)]).foldlM
          (fun J p => setCell J p.1 p.2 (F p.1 p.2))
          (Mat.build (n * (n + 1) / 2) (n * (n + 1) / 2) fun _ _ => (0 : K)) := by
      rw [← foldlM_flatMap']
      apply foldlM_congr
      rintro ⟨i, j, m, l⟩ hq s
      obtain ⟨h1, h2, h3, h4, h5⟩ := (mem_fourthLoop n i j m l).1 hq
      have a := (hidx i j h1 h2).1
      have b := (hidx m l h4 h5).1
      have v1 : F (diagFlatIndex i j n).toNat (diagFlatIndex m l n).toNat =
          (X.map fun r => rd r i * rd r j * rd r m * rd r l).sum := by
        rw [hF]; simp only [a, b, fourthSum]
      have v2 : F (diagFlatIndex m l n).toNat (diagFlatIndex i j n).toNat =
          (X.map fun r => rd r i * rd r j * rd r m * rd r l).sum := by
        rw [← v1, hF]; exact fourthSum_comm _ _ _
      simp only [fourthStep, List.foldlM_cons, List.foldlM_nil, v1, v2]
      cases setCell s (diagFlatIndex i j n).toNat (diagFlatIndex m l n).toNat
        (X.map fun r => rd r i * rd r j * rd r m * rd r l).sum with
      | error e => rfl
      | ok f =>
        show setCell f _ _ _ = (setCell f _ _ _ >>= fun s => pure s)
        simp
    rw [e1, writes_ok F _ (Mat.build_shape _ _ _)]
    · congr 1
      apply Mat.ext' (Mat.build_shape _ _ _) (Mat.build_shape _ _ _)
      intro p hp q hq
      rw [Mat.at_build _ hp hq, Mat.at_build _ hp hq, Mat.at_build _ hp hq, if_pos]
      have dec : ∀ p < n * (n + 1) / 2, ∃ i j, i ≤ j ∧ j < n ∧ (diagFlatIndex i j n).toNat = p := by
        intro p hp
        rw [← diagOff_self] at hp
        obtain ⟨k, i, h, rfl⟩ := diagOff_decode n p hp
        refine ⟨i, i + k, by omega, h, ?_⟩
        rw [toNat_diagFlat n _ _ (by omega) h, show i + k - i = k by omega]
      obtain ⟨i, j, h1, h2, rfl⟩ := dec p hp
      obtain ⟨m, l, h3, h4, rfl⟩ := dec q hq
      rw [List.mem_flatMap]
      rcases Nat.le_total i m with h | h
      · exact ⟨(i, j, m, l), (mem_fourthLoop _ _ _ _ _).2 ⟨h1, h2, h, h3, h4⟩, by simp⟩
      · exact ⟨(m, l, i, j), (mem_fourthLoop _ _ _ _ _).2 ⟨h3, h4, h, h1, h2⟩, by simp⟩
    · rintro ⟨a, b⟩ hp
      obtain ⟨⟨i, j, m, l⟩, hq, h⟩ := List.mem_flatMap.1 hp
      obtain ⟨h1, h2, h3, h4, h5⟩ := (mem_fourthLoop n i j m l).1 hq
      have a' := (hidx i j h1 h2).2
      have b' := (hidx m l h4 h5).2
      simp only [List.mem_cons, Prod.mk.injEq, List.not_mem_nil, or_false] at h
      rcases h with ⟨rfl, rfl⟩ | ⟨rfl, rfl⟩
      · exact ⟨a', b'⟩
      · exact ⟨b', a'⟩
  rw [e, fourthOrderCoocMat, ← e]
  simp only [hrow, hdim, hfold]
  congr 1
  rw [hF]
  simp [Mat.build, List.map_map, Function.comp_def]

end Verif.Lemmas
