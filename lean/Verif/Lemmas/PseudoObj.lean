/-
The constructors of `Pseudo`, `ClusterExpansion` and `RegularizedMeanField`, and starting points of the wrong length.
-/
import Verif.Model.PseudoObj
import Verif.Lemmas.Pseudo2
import Verif.Lemmas.Helpers2
import Verif.Lemmas.MchProg4

namespace Verif.Lemmas
open Verif Verif.Model Verif.Spec

theorem basicSetupObs_ising (mc : Machine) (a : SolverArg) (model : Option ModelObj) (rng : ℕ) :
    basicSetupObs mc a model .ising rng = basicSetup mc a model rng := by
  cases a <;> rfl

theorem obsMeans_ok (o : ObsArg) (n : ℕ) (X : Data) (hne : X ≠ []) : ∃ c, o.means n X = .ok c := by
  have hl : ¬ X.length = 0 := by simpa using hne
  cases o with
  | ising =>
    unfold ObsArg.means sampleConstraints
    rw [mapM_ok (isingObservables (K := ℝ)) (fun s => pairObs s.length (spins s)) X fun s _ => isingObservables_eq s]
    dsimp only
    rw [if_neg hl]
    exact ⟨_, rfl⟩
  | potts k =>
    unfold ObsArg.means
    dsimp only
    rw [mapM_ok (pottsObservables (K := ℝ) k) (fun s => pottsObs s.length k fun i => s.getD i 0) X
      fun s _ => pottsObservables_eq k s]
    dsimp only
    rw [if_neg hl]
    exact ⟨_, rfl⟩
  | triplet =>
    unfold ObsArg.means
    dsimp only
    rw [mapM_ok (tripletObservables (K := ℝ))
      (fun s => (tuples s.length 1 ++ tuples s.length 2 ++ tuples s.length 3).map (mono (spins s))) X
      fun s _ => tripletObservables_eq s]
    dsimp only
    rw [if_neg hl]
    exact ⟨_, rfl⟩

theorem solverModel_ok (mc : Machine) (n : ℕ) (model : Option ModelObj) (rng : ℕ) :
    ∃ o, solverModel mc n model rng = .ok o ∧ (∀ m, model = some m → o = m) ∧ (model = none → o.kind = .ising) := by
  cases model with
  | some m => exact ⟨m, rfl, fun _ h => Option.some.inj h, fun h => by cases h⟩
  | none =>
    unfold solverModel modelInit
    dsimp only
    rw [zeros_init]
    exact ⟨_, rfl, fun m h => (by cases h), fun _ => rfl⟩

/-- `basic_setup` for a sample with rows. -/
theorem basicSetupObs_data (mc : Machine) (n : ℕ) (X : Data) (hne : X ≠ []) (model : Option ModelObj) (obs : ObsArg)
    (rng : ℕ) : ∃ o c, basicSetupObs mc (.data n X) model obs rng = .ok ⟨some n, some o, some c⟩ ∧
      (∀ m, model = some m → o = m) ∧ (model = none → o.kind = .ising) := by
  obtain ⟨o, h1, h2, h3⟩ := solverModel_ok mc n model rng
  obtain ⟨c, hc⟩ := obsMeans_ok obs n X hne
  refine ⟨o, c, ?_, h2, h3⟩
  unfold basicSetupObs
  dsimp only
  rw [h1]
  dsimp only
  rw [hc]

/-! ### Reading past the end -/

theorem enumWrite_reads {α β : Type*} (f : ℕ → α → Py β) (L : List α) : ∀ (k : ℕ) (arr out : List β),
    enumWrite f L k arr = .ok out → ∀ x ∈ L, ∃ j v, f j x = .ok v := by
  induction L with
  | nil => intro k arr out _ x hx; cases hx
  | cons y L ih =>
    intro k arr out h x hx
    unfold enumWrite at h
    rcases hf : f k y with e | v
    · rw [hf] at h; cases h
    · rw [hf] at h
      change (if k < arr.length then enumWrite f L (k + 1) (arr.set k v) else .error .indexError) = .ok out at h
      by_cases hk : k < arr.length
      · rw [if_pos hk] at h
        rcases List.mem_cons.1 hx with rfl | hx
        · exact ⟨k, v, hf⟩
        · exact ih _ _ _ h x hx
      · rw [if_neg hk] at h; cases h

theorem getAt_ok_lt {β : Type*} {arr : List β} {i : ℕ} {v : β} (h : getAt arr i = .ok v) : i < arr.length := by
  unfold getAt at h
  by_contra hc
  rw [List.getElem?_eq_none (not_lt.1 hc)] at h
  cases h

/-- The Potts `get_multipliers_r` works only if the vector is long enough for all positions of the spin. -/
theorem pottsMultipliersR_long {n k r : ℕ} (hr : r < n) (θ : List ℝ) (res : List ℝ × List ℕ)
    (h : pottsMultipliersR n k r θ = .ok res) :
    (∀ i < k, r + n * i < θ.length) ∧ ∀ i < n, i ≠ r → pairPos n i r + k * n < θ.length := by
  unfold pottsMultipliersR at h
  rcases h1 : enumWrite (fun _ i => getAt θ (r + n * i)) (pyRange 0 k) 0 (List.replicate (k - 1 + n) (0 : ℝ)) with e | arr
  · rw [h1] at h; cases h
  · rw [h1] at h
    dsimp only at h
    constructor
    · intro i hi
      obtain ⟨j, v, hv⟩ := enumWrite_reads _ _ _ _ _ h1 i (by simpa [pyRange, List.mem_range'_1] using hi)
      exact getAt_ok_lt hv
    · intro i hi hne
      unfold couplingsOf at h
      dsimp only at h
      revert h
      generalize h2 : enumWrite _ ((pyRange 0 n).filter fun i => i ≠ r) k arr = E
      intro h
      cases E with
      | error e => cases h
      | ok m =>
        obtain ⟨j, v, hv⟩ := enumWrite_reads _ _ _ _ _ h2 i (by
          rw [List.mem_filter]
          exact ⟨by simpa [pyRange, List.mem_range'_1] using hi, by simpa using hne⟩)
        have hc : couplingPos n r (k * n) i = .ok (pairPos n i r + k * n) := by
          unfold couplingPos
          rw [subToInd_pairPos hi hr hne]
          simp
        simp only [hc] at hv
        exact getAt_ok_lt hv

theorem foldlM_steps {α σ : Type*} (f : σ → α → Py σ) (l : List α) : ∀ s out, l.foldlM f s = .ok out →
    ∀ a ∈ l, ∃ s' s'', f s' a = .ok s'' := by
  induction l with
  | nil => intro s out _ a ha; cases ha
  | cons b l ih =>
    intro s out h a ha
    rw [List.foldlM_cons] at h
    rcases hb : f s b with e | t
    · rw [hb] at h; cases h
    · rw [hb] at h
      rcases List.mem_cons.1 ha with rfl | ha
      · exact ⟨s, t, hb⟩
      · exact ih t out h a ha

/-- The objective of the Potts pseudolikelihood raises for a vector that is shorter than the parameters. -/
theorem pottsPseudoF_short {n k : ℕ} (hn : 1 ≤ n) (hk : 1 ≤ k) (X : Data) (cost : List ℝ → ℝ) (costJac : List ℝ → List ℝ)
    (θ : List ℝ) (hθ : θ.length < k * n + n * (n - 1) / 2) : ∃ e, pottsPseudoF n k X cost costJac θ = .error e := by
  unfold pottsPseudoF
  rcases hf : (pyRange 0 n).foldlM (fun st r => pottsStep n k X θ r st) ((0 : ℝ), List.replicate θ.length (0 : ℝ)) with e | st
  · exact ⟨e, rfl⟩
  · exfalso
    have step : ∀ r < n, ∃ res, pottsMultipliersR n k r θ = .ok res := by
      intro r hr
      obtain ⟨s', s'', hs⟩ := foldlM_steps _ _ _ _ hf r (by simpa [pyRange, List.mem_range'_1] using hr)
      unfold pottsStep at hs
      rcases hm : pottsMultipliersR n k r θ with e | res
      · rw [hm] at hs; cases hs
      · exact ⟨res, rfl⟩
    rcases Nat.eq_or_lt_of_le hn with rfl | h2
    · obtain ⟨res, hres⟩ := step 0 (by omega)
      have := (pottsMultipliersR_long (by omega) θ res hres).1 (k - 1) (by omega)
      simp at hθ this
      omega
    · have hpos : 0 < n * (n - 1) / 2 := by
        have : 2 * 1 ≤ n * (n - 1) := Nat.mul_le_mul (by omega) (by omega)
        omega
      have hlt : n * (n - 1) / 2 - 1 < (upperPairs n).length := by rw [length_upperPairs]; omega
      obtain ⟨⟨i, j⟩, hp⟩ : ∃ p, (upperPairs n)[n * (n - 1) / 2 - 1] = p := ⟨_, rfl⟩
      have hmem : (i, j) ∈ upperPairs n := hp ▸ List.getElem_mem _
      obtain ⟨hij, hj⟩ := mem_upperPairs.1 hmem
      obtain ⟨res, hres⟩ := step j hj
      have := (pottsMultipliersR_long hj θ res hres).2 i (by omega) (by omega)
      have hpos' : pairPos n i j = n * (n - 1) / 2 - 1 := by
        unfold pairPos
        rw [min_eq_left hij.le, max_eq_right hij.le, ← hp, (nodup_upperPairs n).idxOf_getElem]
      omega

end Verif.Lemmas
