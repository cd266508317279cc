/-
Likelihood of pairwise models and the solvability of their equations.
-/
import Verif.Lemmas.EnumerateObj

namespace Verif.Lemmas
open Verif Verif.Model Verif.Spec Verif.Props

theorem length_pairFns (n : ℕ) : (pairFns n).length = n + n * (n - 1) / 2 := by
  simp [pairFns, length_upperPairs]

/-- The module of the pairwise model in terms of `pairE`. -/
theorem module_pairE (n : ℕ) (hn : 1 ≤ n) : ∃ e, writeEqns n true (pairwiseIx n) = .ok e ∧
    ∀ (v : List ℝ), v.length = n + n * (n - 1) / 2 → ∀ brk, moduleObservables brk e v =
      .ok ((pairFns n).map fun f => expect (words [-1, 1] n) (pairE n v) f) := by
  obtain ⟨e, h1, h2⟩ := pairwise_vec n hn true
  refine ⟨e, h1, fun v hv brk => ?_⟩
  rw [(h2 v hv).2 brk]
  have hE : (fun s : List ℤ => groupE (allOrders n 2) [v.take n, v.drop n] (spins s)) = pairE n v := by
    have l1 : (v.take n).length = n := by rw [List.length_take]; omega
    have l2 : (v.drop n).length = n * (n - 1) / 2 := by rw [List.length_drop]; omega
    funext s
    have := groupE_flatten _ _ (paramsFit_allOrders n _ (polyShape_two n _ _ l1 l2)) (spins s)
    rw [show ([v.take n, v.drop n] : List (List ℝ)).length = 2 from rfl] at this
    rw [this, pairE_dot n v hv, orders_pairObs]
    simp
  rw [hE]
  have hfl : (allOrders n 2).flatMap (fun g => g.2) =
      (List.range n).map (fun i => [i]) ++ (upperPairs n).map fun p => [p.1, p.2] := by
    simp [allOrders, List.range_succ, tuples_one, tuples_two]
  rw [hfl, List.map_append, List.map_map, List.map_map]
  simp [Function.comp_def, mono, pairFns, spinValues]

theorem module_moments_iff (n : ℕ) {e : Eqns} {brk : ℕ → Bool} {v : List ℝ} {X : List (List ℤ)}
    (h : moduleObservables brk e v = .ok ((pairFns n).map fun f => expect (words [-1, 1] n) (pairE n v) f)) :
    moduleObservables brk e v = .ok (moments n X) ↔ Reproduces n v X := by
  rw [reproduces_iff, h]
  exact ⟨fun h => Except.ok.inj h, fun h => by rw [h]⟩

theorem words_pm_ne (n : ℕ) : words ([-1, 1] : List ℤ) n ≠ [] := words_spinValues_ne true n

theorem logLik_eq (n : ℕ) (v : List ℝ) (hv : v.length = n + n * (n - 1) / 2) (X : List (List ℤ)) (hX : X ≠ []) :
    logLik n v X = X.length * (dot v (moments n X) - Real.log (partition (words [-1, 1] n) (pairE n v))) := by
  unfold logLik
  have h : (X.map fun r => Real.log (boltzmann (words [-1, 1] n) (pairE n v) r)) =
      X.map fun r => dot v (pairObs n (spins r)) - Real.log (partition (words [-1, 1] n) (pairE n v)) := by
    refine List.map_congr_left fun r _ => ?_
    rw [log_boltzmann _ _ (words_pm_ne n), pairE_dot n v hv]
    ring
  have hl : (X.length : ℝ) ≠ 0 := by
    simpa using hX
  rw [h, dot_moments, list_sum_sub]
  unfold avg
  rw [mul_sub, mul_div_cancel₀ _ hl]
  simp

/-- Only one vector gives the moments. -/
theorem reproduces_unique (n : ℕ) (hn : 1 ≤ n) (v w : List ℝ) (hv : v.length = n + n * (n - 1) / 2)
    (hw : w.length = n + n * (n - 1) / 2)
    (h : (pairFns n).map (fun f => expect (words [-1, 1] n) (pairE n v) f) =
      (pairFns n).map fun f => expect (words [-1, 1] n) (pairE n w) f) : v = w := by
  obtain ⟨e, h1, h2⟩ := module_pairE n hn
  obtain ⟨e', h1', h2'⟩ := C36_unique n hn true
  obtain rfl : e' = e := by rw [h1] at h1'; exact (Except.ok.inj h1').symm
  exact h2' v w hv hw (fun _ => false) (by rw [h2 v hv, h2 w hw, h])

/-- A vector that has the moments of the sample is the only one of the greatest likelihood. -/
theorem logLik_strict (n : ℕ) (hn : 1 ≤ n) (X : List (List ℤ)) (hX : X ≠ []) (v : List ℝ)
    (hv : v.length = n + n * (n - 1) / 2) (h : Reproduces n v X) (w : List ℝ) (hw : w.length = n + n * (n - 1) / 2)
    (hne : w ≠ v) : logLik n w X < logLik n v X := by
  obtain ⟨S, hS⟩ : ∃ S, S = words ([-1, 1] : List ℤ) n := ⟨_, rfl⟩
  have hSn : S ≠ [] := hS ▸ words_pm_ne n
  have hm : moments n X = (pairFns n).map fun f => mean S (boltzmann S (pairE n v)) f := by
    rw [← (reproduces_iff n v X).1 h, hS]
    rfl
  have hl : (0 : ℝ) < X.length := by exact_mod_cast List.length_pos_of_ne_nil hX
  have hd := isDist_boltzmann S (pairE n v) hSn
  have key : ∀ u : List ℝ, u.length = n + n * (n - 1) / 2 → logLik n u X =
      X.length * (S.map fun s => boltzmann S (pairE n v) s * Real.log (boltzmann S (pairE n u) s)).sum := by
    intro u hu
    have := cross_entropy S (pairE n u) (boltzmann S (pairE n v)) hSn hd.2
    have hE : pairE n u = fun s => -dot u ((pairFns n).map fun f => f s) := by
      funext s
      rw [pairE_dot n u hu, pairFns_map]
    have hmean : mean S (boltzmann S (pairE n v)) (pairE n u) = -dot u (moments n X) := by
      rw [hE, mean_neg, mean_dot S _ u (pairFns n) (fun f s => f s), hm]
    rw [logLik_eq n u hu X hX, ← hS]
    rw [hmean] at this
    congr 1
    linarith
  rw [key w hw, key v hv]
  refine mul_lt_mul_of_pos_left ?_ hl
  have hterm : ∀ s ∈ S, 0 ≤ boltzmann S (pairE n v) s * Real.log (boltzmann S (pairE n v) s) -
      boltzmann S (pairE n v) s * Real.log (boltzmann S (pairE n w) s) - boltzmann S (pairE n v) s +
        boltzmann S (pairE n w) s := fun s _ =>
    (gibbs_term _ _ (boltzmann_pos S _ hSn s).le (boltzmann_pos S _ hSn s)).1
  have hsum : (S.map fun s => boltzmann S (pairE n v) s * Real.log (boltzmann S (pairE n v) s) -
      boltzmann S (pairE n v) s * Real.log (boltzmann S (pairE n w) s) - boltzmann S (pairE n v) s +
        boltzmann S (pairE n w) s).sum =
      (S.map fun s => boltzmann S (pairE n v) s * Real.log (boltzmann S (pairE n v) s)).sum -
      (S.map fun s => boltzmann S (pairE n v) s * Real.log (boltzmann S (pairE n w) s)).sum := by
    rw [list_sum_add, list_sum_sub, list_sum_sub, sum_boltzmann S _ hSn, sum_boltzmann S _ hSn]
    ring
  have hnn : 0 ≤ (S.map fun s => boltzmann S (pairE n v) s * Real.log (boltzmann S (pairE n v) s) -
      boltzmann S (pairE n v) s * Real.log (boltzmann S (pairE n w) s) - boltzmann S (pairE n v) s +
        boltzmann S (pairE n w) s).sum := List.sum_nonneg fun y hy => by
    obtain ⟨s, hs, rfl⟩ := List.mem_map.1 hy
    exact hterm s hs
  rcases hnn.lt_or_eq with hlt | heq
  · linarith
  · exfalso
    apply hne
    have hz := eq_of_sum_zero S _ hterm heq.symm
    have hp : ∀ s ∈ S, boltzmann S (pairE n v) s = boltzmann S (pairE n w) s := fun s hs =>
      (gibbs_term _ _ (boltzmann_pos S _ hSn s).le (boltzmann_pos S _ hSn s)).2 (hz s hs)
    refine (reproduces_unique n hn v w hv hw (List.map_congr_left fun f _ => ?_)).symm
    unfold expect
    rw [← hS]
    congr 1
    exact List.map_congr_left fun s hs => by rw [hp s hs]

/-- A vector of the greatest likelihood has the moments of the sample. -/
theorem reproduces_of_max (n : ℕ) (X : List (List ℤ)) (hX : X ≠ []) (v : List ℝ)
    (hv : v.length = n + n * (n - 1) / 2)
    (h : ∀ w : List ℝ, w.length = n + n * (n - 1) / 2 → logLik n w X ≤ logLik n v X) : Reproduces n v X := by
  have hl : (0 : ℝ) < X.length := by exact_mod_cast List.length_pos_of_ne_nil hX
  have hE : ∀ u : List ℝ, u.length = n + n * (n - 1) / 2 →
      pairE n u = fun s => -dot u ((pairFns n).map fun f => f s) := by
    intro u hu
    funext s
    rw [pairE_dot n u hu, pairFns_map]
  have := family_of_max (words [-1, 1] n) (words_pm_ne n) (pairFns n) (fun f s => f s) (moments n X)
    (by rw [length_moments, length_pairFns]) v (by rw [hv, length_pairFns]) fun w hw => by
      rw [length_pairFns] at hw
      have := h w hw
      rw [logLik_eq n w hw X hX, logLik_eq n v hv X hX, mul_le_mul_iff_right₀ hl, hE w hw, hE v hv] at this
      exact this
  rw [reproduces_iff, ← this, hE v hv]

theorem avg_lt_of_lt {X : List (List ℤ)} {f : List ℤ → ℝ} {M : ℝ} (h : ∀ r ∈ X, f r ≤ M) {r : List ℤ} (hr : r ∈ X)
    (hlt : f r < M) : avg X f < M := by
  have hl : (0 : ℝ) < X.length := by exact_mod_cast List.length_pos_of_mem hr
  unfold avg
  rw [div_lt_iff₀ hl]
  have := List.sum_lt_sum f (fun _ => M) h ⟨r, hr, hlt⟩
  simpa [mul_comm] using this

theorem exists_lt_of_avg {X : List (List ℤ)} (hX : X ≠ []) {f : List ℤ → ℝ} {M : ℝ} (h : avg X f < M) :
    ∃ r ∈ X, f r < M := by
  by_contra hc
  push Not at hc
  have hl : (0 : ℝ) < X.length := by exact_mod_cast List.length_pos_of_ne_nil hX
  unfold avg at h
  rw [div_lt_iff₀ hl] at h
  have : (X.map fun _ => M).sum ≤ (X.map f).sum := List.sum_le_sum hc
  simp at this
  linarith

/-- Some vector has the moments of the sample if and only if for no energy of the family all rows are ground states. -/
theorem reproduces_exists_iff (n : ℕ) (hn : 1 ≤ n) (X : List (List ℤ)) (hX : X ≠ [])
    (hw : ∀ r ∈ X, r ∈ words [-1, 1] n) :
    (∃ v : List ℝ, v.length = n + n * (n - 1) / 2 ∧ Reproduces n v X) ↔
      ∀ w : List ℝ, w.length = n + n * (n - 1) / 2 → (∃ x ∈ w, x ≠ 0) →
        ∃ s ∈ words [-1, 1] n, ∃ r ∈ X, pairE n w s < pairE n w r := by
  obtain ⟨e, h1, h2⟩ := module_exists_iff n hn true 2 (by norm_num) (by norm_num)
  obtain ⟨e', h1', h2'⟩ := module_pairE n hn
  have hlen : ((allOrders n 2).flatMap fun g => g.2).length = n + n * (n - 1) / 2 := length_pairTuples n
  have he : writeEqns n true (pairwiseIx n) = .ok e := by
    rw [pairwiseIx_eq]
    exact h1
  obtain rfl : e' = e := by rw [he] at h1'; exact (Except.ok.inj h1').symm
  have key := h2 (fun _ => false) (moments n X) (by rw [length_moments, hlen])
  rw [length_moments] at key
  have hl : (∃ v : List ℝ, v.length = n + n * (n - 1) / 2 ∧ Reproduces n v X) ↔
      ∃ θ : List ℝ, θ.length = n + n * (n - 1) / 2 ∧ moduleObservables (fun _ => false) e' θ = .ok (moments n X) :=
    exists_congr fun v => and_congr_right fun hv => (module_moments_iff n (h2' v hv _)).symm
  rw [hl, key]
  refine forall_congr' fun w => forall_congr' fun hwl => forall_congr' fun _ => ?_
  simp only [orders_pairObs, dot_moments]
  have hE : ∀ s, dot w (pairObs n (spins s)) = -pairE n w s := fun s => by rw [pairE_dot n w hwl, neg_neg]
  constructor
  · rintro ⟨s, hs, hlt⟩
    obtain ⟨r, hr, hlt⟩ := exists_lt_of_avg hX hlt
    rw [hE, hE] at hlt
    exact ⟨s, hs, r, hr, by linarith⟩
  · rintro ⟨s, hs, r, hr, hlt⟩
    obtain ⟨t, ht, hmax⟩ := (words ([-1, 1] : List ℤ) n).toFinset.exists_max_image
      (fun s => dot w (pairObs n (spins s))) ⟨s, List.mem_toFinset.2 hs⟩
    refine ⟨t, List.mem_toFinset.1 ht, avg_lt_of_lt (fun r hr => hmax r (List.mem_toFinset.2 (hw r hr))) hr ?_⟩
    refine lt_of_lt_of_le ?_ (hmax s (List.mem_toFinset.2 hs))
    rw [hE, hE]
    linarith

theorem sum_map_single {ι : Type*} [DecidableEq ι] (l : List ι) (hl : l.Nodup) (a : ι) (ha : a ∈ l) (c : ℝ) (g : ι → ℝ) :
    (l.map fun k => (if k = a then c else 0) * g k).sum = c * g a := by
  rw [← List.sum_toFinset _ hl, Finset.sum_eq_single a]
  · simp
  · intro b _ hb
    simp [hb]
  · intro h
    exact absurd (List.mem_toFinset.2 ha) h

theorem dot_maps {ι : Type*} (l : List ι) (f g : ι → ℝ) : dot (l.map f) (l.map g) = (l.map fun k => f k * g k).sum := by
  unfold dot
  rw [List.zipWith_map, List.zipWith_self]

/-- Vector with two fields and one coupling. -/
theorem pair_vector (n i j : ℕ) (hij : i < j) (hj : j < n) (a b c : ℝ) : ∃ w : List ℝ,
    w.length = n + n * (n - 1) / 2 ∧ (c ≠ 0 → ∃ x ∈ w, x ≠ 0) ∧
      ∀ s, pairE n w s = a * spins s i + b * spins s j + c * (spins s i * spins s j) := by
  obtain ⟨w, hw⟩ : ∃ w : List ℝ, w =
      (List.range n).map (fun k => (if k = i then -a else 0) + (if k = j then -b else 0)) ++
      (upperPairs n).map (fun p => if p = (i, j) then -c else 0) := ⟨_, rfl⟩
  have hwl : w.length = n + n * (n - 1) / 2 := by rw [hw]; simp [length_upperPairs]
  refine ⟨w, hwl, fun hc => ?_, fun s => ?_⟩
  · refine ⟨-c, ?_, by simpa using hc⟩
    rw [hw]
    exact List.mem_append_right _ (List.mem_map.2 ⟨(i, j), mem_upperPairs.2 ⟨hij, hj⟩, by simp⟩)
  · rw [pairE_dot n w hwl, hw]
    unfold pairObs
    have happ : ∀ a b c d : List ℝ, a.length = c.length → dot (a ++ b) (c ++ d) = dot a c + dot b d := by
      intro a b c d h
      unfold dot
      rw [List.zipWith_append h, List.sum_append]
    rw [happ _ _ _ _ (by simp), dot_maps, dot_maps]
    simp only [add_mul]
    rw [list_sum_add, sum_map_single _ List.nodup_range _ (List.mem_range.2 (by omega)),
      sum_map_single _ List.nodup_range _ (List.mem_range.2 hj),
      sum_map_single _ (nodup_upperPairs n) _ (mem_upperPairs.2 ⟨hij, hj⟩)]
    ring

end Verif.Lemmas
