/-
RegularizedMeanField as a program: the objective evaluates, what it is, and what it leaves in the model.
-/
import Verif.Model.RmfProg
import Verif.Spec.RmfProg
import Verif.Lemmas.MchProg4
import Verif.Lemmas.Flat
import Verif.Props.MeanField
import Verif.Props.RegMeanField

namespace Verif.Lemmas
open Verif Verif.Model Verif.Spec Verif.Props Prog

/-- The regularised mean-field matrix exists for every strength if no frequency is 0 or 1, whatever the eigenvalue routine
returns. -/
theorem jmeanField_ok (eig : Mat ℝ → List ℝ × Mat ℝ) {M : Mat ℝ} {n : ℕ} (hn : 1 ≤ n) (hM : M.HasShape n n)
    (hf : ∀ i < n, 0 < M.at' i i ∧ M.at' i i < 1) (lmbda : ℝ) {m : ℕ} (hm : m ≠ 0) :
    ∃ J, jmeanField eig M lmbda (some m) = .ok J ∧ J.HasShape n n := by
  have hc : ∀ i ∈ List.range n, i < n := fun i hi => List.mem_range.1 hi
  have hR := coocCluster_ok hM (List.range n) hc
  rw [List.length_range] at hR
  have hT := symmetrize_ok (K := ℝ) (Mat.build_shape n n fun a b => M.at' ((List.range n).getD a 0) ((List.range n).getD b 0)) hn
  obtain ⟨T, eT⟩ : ∃ T, T = Mat.build n n fun i j => (Mat.build n n fun a b =>
    M.at' ((List.range n).getD a 0) ((List.range n).getD b 0)).at' (min i j) (max i j) := ⟨_, rfl⟩
  rw [← eT] at hT
  have hTv : ∀ a < n, T.at' a a = M.at' a a := fun a ha => by
    rw [eT, Mat.at_build _ ha ha, min_self, max_self, Mat.at_build _ ha ha,
      List.getD_eq_getElem _ _ (by simpa using ha), List.getElem_range]
  obtain ⟨g, hgam⟩ : ∃ g, mfGamma lmbda (some m) = .ok g := by
    unfold mfGamma
    split
    · obtain ⟨k, rfl⟩ := Nat.exists_eq_succ_of_ne_zero hm
      exact ⟨_, rfl⟩
    · exact ⟨0, rfl⟩
  obtain ⟨K, hK, hKs⟩ : ∃ K, mfZeroDiag (Mat.build n n fun i j => mfJprime n ((eig (mfCorr n T)).1.map (mfHat g))
      (eig (mfCorr n T)).2 i j / mfDenom T i j) = .ok K ∧ K.HasShape n n := by
    unfold mfZeroDiag
    rw [mfReplaceDiag_ok (Mat.build_shape _ _ _) hn _ (by simp [(Mat.build_shape n n _).1])]
    exact ⟨_, rfl, Mat.build_shape n n _⟩
  have hJc := mfReplaceDiag_ok (Mat.build_shape n n fun i j => 1 / 2 * K.at' i j) hn
    ((List.range n).map (mfFields n T K true)) (by simp)
  obtain ⟨J, j1, j2, -, -⟩ := C64_embed (Mat.build n n fun i j => if i = j then
    ((List.range n).map (mfFields n T K true)).getD i 0 else (Mat.build n n fun i j => 1 / 2 * K.at' i j).at' i j)
    (List.range n) n (by rw [List.length_range]; exact Mat.build_shape n n _) hc List.nodup_range
  refine ⟨J, ?_, j2⟩
  unfold jmeanField smeanField
  rw [hM.1, hR]
  dsimp only
  rw [hT]
  dsimp only
  rw [if_neg]
  · unfold mfSolve
    rw [if_pos (.inr rfl), List.length_range, hgam]
    dsimp only
    rw [hK]
    dsimp only
    rw [hJc]
    simp only [Bool.false_eq_true, if_false, hM.1, j1]
  · rintro ⟨i, hi, h⟩
    rw [List.length_range] at hi
    rw [hTv i hi] at h
    have := mul_pos (hf i hi).1 (show 0 < 1 - M.at' i i by linarith [(hf i hi).2])
    linarith

/-! ### the value of the objective -/

theorem sum_diagList (n : ℕ) (f : ℕ → ℕ → ℝ) :
    (diagList n f).sum = ∑ i ∈ Finset.range n, ∑ j ∈ Finset.range n, if i ≤ j then f i j else 0 := by
  unfold diagList
  rw [List.sum_flatten, List.map_map]
  have h1 : ((List.range n).map (List.sum ∘ fun k => (List.range (n - k)).map fun a => f a (a + k))).sum =
      ∑ k ∈ Finset.range n, ∑ a ∈ Finset.range (n - k), f a (a + k) := by
    rw [sum_map_range]
    exact Finset.sum_congr rfl fun k _ => sum_map_range _ _
  rw [h1, Finset.sum_comm' (t' := Finset.range n) (s' := fun a => Finset.range (n - a))
    (fun k a => by simp only [Finset.mem_range]; omega)]
  refine Finset.sum_congr rfl fun a _ => ?_
  rw [← Finset.sum_filter]
  have : (Finset.range n).filter (fun j => a ≤ j) = Finset.Ico a n := by
    ext j; simp only [Finset.mem_filter, Finset.mem_range, Finset.mem_Ico]; omega
  rw [this, Finset.sum_Ico_eq_sum_range]

theorem zipWith_diagList (n : ℕ) (f g : ℕ → ℕ → ℝ) (h : ℝ → ℝ → ℝ) :
    List.zipWith h (diagList n f) (diagList n g) = diagList n fun i j => h (f i j) (g i j) := by
  have key : ∀ l : List ℕ, List.zipWith h (l.map fun k => (List.range (n - k)).map fun a => f a (a + k)).flatten
      (l.map fun k => (List.range (n - k)).map fun a => g a (a + k)).flatten =
      (l.map fun k => (List.range (n - k)).map fun a => h (f a (a + k)) (g a (a + k))).flatten := by
    intro l
    induction l with
    | nil => rfl
    | cons k l ih =>
      simp only [List.map_cons, List.flatten_cons]
      rw [List.zipWith_append (by simp), ih]
      congr 1
      rw [List.zipWith_map, List.zipWith_self]
  exact key _

theorem map_diagList (n : ℕ) (f : ℕ → ℕ → ℝ) {β : Type} (h : ℝ → β) :
    (diagList n f).map h = ((List.range n).map fun k => (List.range (n - k)).map fun a => h (f a (a + k))).flatten := by
  unfold diagList
  rw [List.map_flatten, List.map_map]
  congr 1
  refine List.map_congr_left fun k _ => ?_
  simp

/-- The residuals of a nonempty integer sample. -/
theorem isingDeltaInts_eq (int8 : Bool) {n : ℕ} (hn : 1 ≤ n) {rows : List (List ℤ)} (hr : rows ≠ []) (D : Mat ℝ) :
    isingDeltaInts int8 n rows D = .ok (some (diagList n fun i j => (coocOfInts int8 n rows).at' i j - D.at' i j)) := by
  unfold isingDeltaInts
  rw [if_neg (by simpa using hr), aboveDiagFlat_eq (Mat.build_shape _ _ _) hn]
  dsimp only
  congr 2
  unfold diagList
  congr 1
  refine List.map_congr_left fun k hk => List.map_congr_left fun a ha => ?_
  rw [List.mem_range] at hk ha
  exact Mat.at_build _ (by omega) (by omega)

theorem coocStdevsFlat_eq {M : Mat ℝ} {n N : ℕ} (hM : M.HasShape n n) (hn : 1 ≤ n) (hN : N ≠ 0) :
    coocStdevsFlat M N = .ok ((diagList n fun i j => Real.sqrt (laplaceMean N (M.at' i j) *
      (1 - laplaceMean N (M.at' i j)) / N)).map some) := by
  have e : (coocMatBayesianMean M N).map (fun row => row.map fun x => x * (1 - x)) =
      Mat.build n n fun i j => laplaceMean N (M.at' i j) * (1 - laplaceMean N (M.at' i j)) := by
    conv_lhs => rw [Mat.eq_build hM]
    simp [coocMatBayesianMean, Mat.build, List.map_map, Function.comp_def, laplaceMean]
  unfold coocStdevsFlat
  dsimp only
  rw [e, aboveDiagFlat_eq (Mat.build_shape _ _ _) hn]
  dsimp only
  congr 1
  rw [map_diagList, map_diagList]
  congr 1
  refine List.map_congr_left fun k hk => List.map_congr_left fun a ha => ?_
  rw [List.mem_range] at hk ha
  rw [if_neg hN, Mat.at_build _ (by omega) (by omega)]

/-- The value of the objective for the sample `rows`. -/
theorem rmfValue_eq {M : Mat ℝ} {n N : ℕ} (hN : N ≠ 0)
    (h01 : ∀ i < n, ∀ j < n, 0 ≤ M.at' i j ∧ M.at' i j ≤ 1) (c : Mat ℝ) :
    rmfValue ((diagList n fun i j => Real.sqrt (laplaceMean N (M.at' i j) * (1 - laplaceMean N (M.at' i j)) / N)).map some)
      (some (diagList n fun i j => c.at' i j - M.at' i j)) =
      some (chiSquare n N (fun i j => c.at' i j) fun i j => M.at' i j) := by
  unfold rmfValue
  dsimp only
  rw [if_neg (by simp), List.map_map]
  simp only [Function.comp_def, Option.getD_some, List.map_id']
  rw [zipWith_diagList, sum_diagList]
  congr 1
  unfold chiSquare
  refine Finset.sum_congr rfl fun i hi => Finset.sum_congr rfl fun j hj => ?_
  rw [Finset.mem_range] at hi hj
  split_ifs
  · rw [div_pow, Real.sq_sqrt]
    obtain ⟨h0, h1⟩ := h01 i hi j hj
    have hNp : (0 : ℝ) ≤ N := Nat.cast_nonneg N
    have hl0 : 0 ≤ laplaceMean N (M.at' i j) := by unfold laplaceMean; positivity
    have hl1 : laplaceMean N (M.at' i j) ≤ 1 := by
      unfold laplaceMean
      rw [div_le_one (by positivity)]
      nlinarith
    exact div_nonneg (mul_nonneg hl0 (by linarith)) hNp
  · rfl

/-! ### one evaluation -/

/-- The model after the parameters `p` have been set and a sample drawn. -/
theorem rmfDraw_eq (P : RmfProblem) (p : List ℝ) (o : ModelObj) :
    rmfDraw P p o = mchDraw P.mc (100 * P.n) 1 o.sampleSize p (o.setMultipliers p) := rfl

theorem IsingReady.setMultipliers {mc : Machine} {n : ℕ} {o : ModelObj} (h : IsingReady mc n o) (p : List ℝ) :
    IsingReady mc n (o.setMultipliers p) :=
  ⟨h.inv.apply (.setMultipliers p) _ rfl, h.sampler⟩

theorem IsingReady.setRng {mc : Machine} {n : ℕ} {o : ModelObj} (h : IsingReady mc n o) (rng : ℕ) :
    ∃ o', o.setRng rng = .ok o' ∧ IsingReady mc n o' ∧ o'.sampleSize = o.sampleSize ∧ o'.int8 = o.int8 ∧
      o'.multipliers = o.multipliers ∧ o'.rng = rng := by
  obtain ⟨s, hs, hl⟩ := h.sampler
  have e : o.setRng rng = .ok { o with rng := rng, sampler := some { s with rng := rng } } := by
    unfold ModelObj.setRng; rw [hs]
  have := h.inv.apply (.setRng rng)
  unfold ModelObj.apply at this
  dsimp only at this
  rw [e] at this
  refine ⟨_, e, ⟨this _ rfl, _, rfl, hl⟩, rfl, ?_, rfl, rfl⟩
  unfold ModelObj.int8
  rw [hs]

/-- One evaluation of the objective on a model that is ready: it returns, with the value for the sample drawn, and the
model has the parameters of the candidate. -/
theorem rmfFunc_ok {σ : Type} (P : RmfProblem) (hcpu : 0 < P.mc.cpus) (hn : 1 ≤ P.n) (hN : P.numSamples ≠ 0)
    (hM : P.cooc.HasShape P.n P.n) (hf : ∀ i < P.n, 0 < P.cooc.at' i i ∧ P.cooc.at' i i < 1)
    (h01 : ∀ i < P.n, ∀ j < P.n, 0 ≤ P.cooc.at' i j ∧ P.cooc.at' i j ≤ 1)
    (hstd : coocStdevsFlat P.cooc P.numSamples = .ok P.stdevs) (hmc : P.minCov = false)
    (gen : Gen σ) (hgen : gen.Valid) (fresh : Option (ℕ × σ)) (x : ℝ) {o : ModelObj} (h : IsingReady P.mc P.n o)
    (hsize : 0 < o.sampleSize) (t : σ) :
    ∃ J p o' t' rows, jmeanField P.eig P.cooc (rmfLambda P.cooc x) (some P.numSamples) = .ok J ∧ J.HasShape P.n P.n ∧
      rmfSampleParams J = .ok p ∧ IsingReady P.mc P.n o' ∧ o'.sampleSize = o.sampleSize ∧ o'.int8 = o.int8 ∧
      o'.multipliers = p ∧ o'.sample = some rows ∧ rows.length = o.sampleSize ∧ (∀ r ∈ rows, r ∈ words [1, -1] P.n) ∧
      rmfFunc P gen fresh x (o, t) = (.ok (some (chiSquare P.n P.numSamples
        (fun i j => (coocOfInts o.int8 P.n rows).at' i j) fun i j => P.cooc.at' i j)), (o', t')) := by
  obtain ⟨J, hJ, hJs⟩ := jmeanField_ok P.eig hn hM hf (rmfLambda P.cooc x) hN
  obtain ⟨p, hp, hpl, -⟩ := C68_sample_energy J P.n hn hJs
  obtain ⟨o1, e1, r1, s1, i1, -, -⟩ := h.setRng ((fresh.map Prod.fst).getD o.rng)
  have hb := both_draw hcpu hn (r1.setMultipliers p) (100 * P.n) 1 o1.sampleSize (by rw [s1]; exact hsize) p hpl
  have hs := (r1.setMultipliers p).inv.generate (mc := P.mc) (100 * P.n) (some 1) none none none true
  obtain ⟨o', h1, h2, h3, h4, rows, h5, h6, h7⟩ := always_run gen hgen _ hb.1 ((fresh.map Prod.snd).getD t)
  rw [← rmfDraw_eq] at h1
  have h8 := sound_run hs gen hgen ((fresh.map Prod.snd).getD t) o' h1
  obtain ⟨-, s, s', rows', hs1, -, -, hs2, -, hs3, -⟩ := h8
  have hi : o'.int8 = o.int8 := by
    rw [← i1, hs3]
    unfold ModelObj.int8
    replace hs1 : o1.sampler = some s := hs1
    rw [hs1]
    dsimp only
    rw [hs2]
  refine ⟨J, p, o', (run gen (rmfDraw P p o1) ((fresh.map Prod.snd).getD t)).2, rows, hJ, hJs, hp, h2, by rw [h4, s1], hi, h3, h5, by rw [h6, s1], h7, ?_⟩
  · have hr : rows ≠ [] := by
      intro hc
      rw [hc, List.length_nil, s1] at h6
      omega
    unfold rmfFunc
    rw [hJ]
    dsimp only
    rw [e1]
    dsimp only
    rw [hmc, hp]
    simp only [Bool.false_eq_true, if_false]
    rw [h1]
    dsimp only
    unfold rmfResiduals
    rw [h5, Option.getD_some, isingDeltaInts_eq _ hn hr, hi]
    dsimp only
    rw [coocStdevsFlat_eq hM hn hN] at hstd
    rw [← Except.ok.inj hstd, rmfValue_eq hN h01]

/-! ### the compiled sampler keeps nothing between two calls -/

/-- Two models whose compiled samplers give the same rows for the same parameters and random numbers. -/
def SameDraws (o o' : ModelObj) : Prop :=
  o.sampleSize = o'.sampleSize ∧ o.sampleMethod = o'.sampleMethod ∧ ∃ s s', o.sampler = some s ∧ o'.sampler = some s' ∧
    s.compiled = true ∧ s'.compiled = true ∧ s.kind = s'.kind ∧ s.n = s'.n ∧ s.nCpus = s'.nCpus ∧
    s.theta.length = s'.theta.length

theorem SameDraws.refl {o : ModelObj} {s : SamplerObj} (hs : o.sampler = some s) (hc : s.compiled = true) : SameDraws o o :=
  ⟨rfl, rfl, s, s, hs, hs, hc, hc, rfl, rfl, rfl, rfl⟩

theorem run_bind {σ α β : Type} (g : Gen σ) (p : Prog α) (q : α → Prog β) : ∀ s, run g (p.bind q) s =
    match run g p s with
    | (.ok a, s') => run g (q a) s'
    | (.error e, s') => (.error e, s') := by
  induction p with
  | ret a => exact fun _ => rfl
  | fail e => exact fun _ => rfl
  | unif n k ih => exact fun s => ih _ _
  | rand k ih => exact fun s => ih _ _

/-- The rows that a compiled sampler draws in parallel. -/
noncomputable def compiledRows (mc : Machine) (k : ModelKind) (n : ℕ) (theta : List ℝ) (c size nIters : ℕ)
    (burnIn : Option ℕ) : Prog (List (List ℤ)) :=
  match k with
  | .ising | .triplet => generateSampleParallelBoost mc.ndebug n theta mc.cpus size nIters burnIn false
  | .potts3 => generateSampleParallelBoostPotts3 mc.ndebug n theta c size nIters burnIn false

theorem compiled_generate (mc : Machine) (o : SamplerObj) (hc : o.compiled = true) (size nIters : ℕ) (burnIn : Option ℕ) :
    o.generate mc true size nIters burnIn = (compiledRows mc o.kind o.n o.theta o.nCpus size nIters burnIn).bind
      fun rows => .ret { o with sample := some rows } := by
  unfold SamplerObj.generate
  rw [if_pos hc, if_neg (by simp)]
  unfold compiledRows
  cases o.kind <;> rfl

/-- Draws of two such models. -/
theorem draw_same {σ : Type} (P : RmfProblem) (g : Gen σ) (p : List ℝ) {o o' : ModelObj} (h : SameDraws o o') (t : σ) :
    (∃ e t', run g (rmfDraw P p o) t = (.error e, t') ∧ run g (rmfDraw P p o') t = (.error e, t')) ∨
    ∃ x x' t', run g (rmfDraw P p o) t = (.ok x, t') ∧ run g (rmfDraw P p o') t = (.ok x', t') ∧ SameDraws x x' ∧
      SameDraws o x ∧ x.sample = x'.sample := by
  obtain ⟨h1, h2, s, s', e1, e2, c1, c2, h3, h4, h5, h6⟩ := h
  unfold rmfDraw ModelObj.generateSample ModelObj.setMultipliers
  dsimp only
  rw [e1, e2]
  dsimp only
  unfold SamplerObj.updateParameters
  rw [h1, h2, h6, Option.getD_none]
  split
  · by_cases hl : s'.theta.length ≠ p.length
    · rw [if_pos hl, if_pos hl]
      exact .inl ⟨_, _, rfl, rfl⟩
    · rw [if_neg hl, if_neg hl]
      simp only [Prog.ofPy, Prog.bind]
      rw [compiled_generate P.mc { s with theta := p } c1, compiled_generate P.mc { s' with theta := p } c2]
      dsimp only
      rw [h3, h4, h5]
      simp only [run_bind]
      cases hr : run g (compiledRows P.mc s'.kind s'.n p s'.nCpus (sizeOr none o'.sampleSize) (100 * P.n) (some 1)) t with
      | mk a t' =>
        cases a with
        | error e => exact .inl ⟨e, t', rfl, rfl⟩
        | ok rows =>
          refine .inr ⟨_, _, _, rfl, rfl, ⟨rfl, rfl, _, _, rfl, rfl, c1, c2, rfl, rfl, rfl, rfl⟩,
            ⟨h1, h2, _, _, e1, rfl, c1, c1, h3, h4, h5, by rw [h6]; simpa using hl⟩, rfl⟩
  · exact .inl ⟨_, _, rfl, rfl⟩

/-- With a fresh generator for every evaluation, the value depends on the model only through what its compiled sampler
draws, and an evaluation leaves a model of the same kind. -/
theorem rmfFunc_same {σ : Type} (P : RmfProblem) (g : Gen σ) (fresh : ℕ × σ) (x : ℝ) {o o' : ModelObj} (h : SameDraws o o')
    (t t' : σ) : (rmfFunc P g (some fresh) x (o, t)).1 = (rmfFunc P g (some fresh) x (o', t')).1 ∧
      SameDraws o (rmfFunc P g (some fresh) x (o, t)).2.1 := by
  have hrefl : SameDraws o o := by
    obtain ⟨-, -, s, -, e1, -, c1, -⟩ := h
    exact SameDraws.refl e1 c1
  obtain ⟨h1, h2, s, s', e1, e2, c1, c2, h3, h4, h5, h6⟩ := h
  unfold rmfFunc
  dsimp only [Option.map_some, Option.getD_some]
  cases jmeanField P.eig P.cooc (rmfLambda P.cooc x) (some P.numSamples) with
  | error e => exact ⟨rfl, hrefl⟩
  | ok J =>
    have r1 : o.setRng fresh.1 = .ok { o with rng := fresh.1, sampler := some { s with rng := fresh.1 } } := by
      unfold ModelObj.setRng; rw [e1]
    have r2 : o'.setRng fresh.1 = .ok { o' with rng := fresh.1, sampler := some { s' with rng := fresh.1 } } := by
      unfold ModelObj.setRng; rw [e2]
    dsimp only
    rw [r1, r2]
    dsimp only
    have hk : SameDraws { o with rng := fresh.1, sampler := some { s with rng := fresh.1 } }
        { o' with rng := fresh.1, sampler := some { s' with rng := fresh.1 } } :=
      ⟨h1, h2, _, _, rfl, rfl, c1, c2, h3, h4, h5, h6⟩
    have hk' : SameDraws o { o with rng := fresh.1, sampler := some { s with rng := fresh.1 } } :=
      ⟨rfl, rfl, _, _, e1, rfl, c1, c1, rfl, rfl, rfl, rfl⟩
    split
    · exact ⟨rfl, hk'⟩
    · cases rmfSampleParams J with
      | error e => exact ⟨rfl, hk'⟩
      | ok p =>
        dsimp only
        rcases draw_same P g p hk fresh.2 with ⟨e, u, d1, d2⟩ | ⟨y, y', u, d1, d2, d3, d4, d5⟩
        · rw [d1, d2]
          exact ⟨rfl, ⟨rfl, rfl, _, _, e1, rfl, c1, c1, rfl, rfl, rfl, rfl⟩⟩
        · rw [d1, d2]
          dsimp only
          have hi : y.int8 = y'.int8 := by
            obtain ⟨-, -, z, z', a1, a2, a3, a4, -⟩ := d3
            unfold ModelObj.int8
            rw [a1, a2]
            dsimp only
            rw [a3, a4]
          have hy : SameDraws o y := by
            obtain ⟨b1, b2, z, z', a1, a2, a3, a4, a5, a6, a7, a8⟩ := d4
            injection a1 with a1
            subst a1
            exact ⟨b1, b2, s, z', e1, a2, c1, a4, a5, a6, a7, a8⟩
          unfold rmfResiduals
          rw [d5, hi]
          cases isingDeltaInts y'.int8 P.n (y'.sample.getD []) P.cooc with
          | error e => exact ⟨rfl, hy⟩
          | ok dc => exact ⟨rfl, hy⟩

theorem SameDraws.symm {o o' : ModelObj} (h : SameDraws o o') : SameDraws o' o := by
  obtain ⟨h1, h2, s, s', e1, e2, c1, c2, h3, h4, h5, h6⟩ := h
  exact ⟨h1.symm, h2.symm, s', s, e2, e1, c2, c1, h3.symm, h4.symm, h5.symm, h6.symm⟩

theorem SameDraws.trans {o o' o'' : ModelObj} (h : SameDraws o o') (h' : SameDraws o' o'') : SameDraws o o'' := by
  obtain ⟨h1, h2, s, s', e1, e2, c1, c2, h3, h4, h5, h6⟩ := h
  obtain ⟨g1, g2, z, z', f1, f2, d1, d2, g3, g4, g5, g6⟩ := h'
  rw [e2] at f1
  injection f1 with f1
  subst f1
  exact ⟨h1.trans g1, h2.trans g2, s, z', e1, f2, c1, d2, h3.trans g3, h4.trans g4, h5.trans g5, h6.trans g6⟩

/-! ### searches on a function and on a state -/

theorem runState_pure {W : Type} (f : ℝ → W → Py (Option ℝ) × W) (F : ℝ → Py (Option ℝ)) (I : W → Prop)
    (h : ∀ x w, I w → (f x w).1 = F x ∧ I (f x w).2) (S : Search) : ∀ w, I w →
    (S.runState f w).1 = (S.runState (fun x (u : Unit) => (F x, u)) ()).1 ∧ I (S.runState f w).2 := by
  induction S with
  | done r => exact fun w hw => ⟨rfl, hw⟩
  | ask x k ih =>
    intro w hw
    obtain ⟨h1, h2⟩ := h x w hw
    unfold Search.runState
    rw [← h1]
    cases hf : f x w with
    | mk a w' =>
      rw [hf] at h2
      cases a with
      | error e => exact ⟨rfl, h2⟩
      | ok v => exact ih v w' h2

theorem gridState_pure {W : Type} (f : ℝ → W → Py (Option ℝ) × W) (F : ℝ → Py (Option ℝ)) (I : W → Prop)
    (h : ∀ x w, I w → (f x w).1 = F x ∧ I (f x w).2) (xs : List ℝ) : ∀ w, I w →
    (gridState f xs w).1 = (gridState (fun x (u : Unit) => (F x, u)) xs ()).1 ∧ I (gridState f xs w).2 := by
  induction xs with
  | nil => exact fun w hw => ⟨rfl, hw⟩
  | cons x xs ih =>
    intro w hw
    obtain ⟨h1, h2⟩ := h x w hw
    unfold gridState
    rw [← h1]
    cases hf : f x w with
    | mk a w' =>
      rw [hf] at h2
      cases a with
      | error e => exact ⟨rfl, h2⟩
      | ok v =>
        obtain ⟨h3, h4⟩ := ih w' h2
        dsimp only at h2 ⊢
        cases hg : gridState f xs w' with
        | mk a w'' =>
          rw [hg] at h3 h4
          cases hg' : gridState (fun x (u : Unit) => (F x, u)) xs () with
          | mk b u =>
            rw [hg'] at h3
            dsimp only at h3
            subst h3
            cases a with
            | error e => exact ⟨rfl, h4⟩
            | ok vs => exact ⟨rfl, h4⟩

theorem rmfSearch_pure {W : Type} (f : ℝ → W → Py (Option ℝ) × W) (F : ℝ → Py (Option ℝ)) (I : W → Prop)
    (h : ∀ x w, I w → (f x w).1 = F x ∧ I (f x w).2) (minim : Option (ℝ × ℝ × ℝ) → Search) (b : Option (ℝ × ℝ)) (n : ℕ)
    (w : W) (hw : I w) :
    (rmfSearch f minim b n w).1 = (rmfSearch (fun x (u : Unit) => (F x, u)) minim b n ()).1 ∧ I (rmfSearch f minim b n w).2 := by
  unfold rmfSearch
  cases b with
  | none => exact runState_pure f F I h _ w hw
  | some b =>
    dsimp only
    obtain ⟨h3, h4⟩ := gridState_pure f F I h (initializeBeta b.1 b.2 n) w hw
    cases hg : gridState f (initializeBeta b.1 b.2 n) w with
    | mk a w' =>
      rw [hg] at h3 h4
      cases hg' : gridState (fun x (u : Unit) => (F x, u)) (initializeBeta b.1 b.2 n) () with
      | mk c u =>
        rw [hg'] at h3
        dsimp only at h3
        subst h3
        cases a with
        | error e => exact ⟨rfl, h4⟩
        | ok vs =>
          dsimp only
          cases bracket1d (initializeBeta b.1 b.2 n) (vs.map nanLeast) with
          | error e => exact ⟨rfl, h4⟩
          | ok t => exact runState_pure f F I h _ w' h4

end Verif.Lemmas
