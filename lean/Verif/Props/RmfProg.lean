/-
C115: RegularizedMeanField from the constructor to the result: the objective, what its evaluations change, and the search.
-/
import Verif.Lemmas.RmfMade
import Verif.Props.RegMeanField

namespace Verif.Props
open Verif Verif.Model Verif.Spec Verif.Lemmas Prog

variable {σ : Type}

/-- The state of model and generator after evaluations of the objective at the points `hist`. -/
noncomputable def afterEvals (P : RmfProblem) (gen : Gen σ) (fresh : Option (ℕ × σ)) (hist : List ℝ) (w : ModelObj × σ) :
    ModelObj × σ :=
  hist.foldl (fun w y => (rmfFunc P gen fresh y w).2) w

theorem after_ready (P : RmfProblem) (hcpu : 0 < P.mc.cpus) (hn : 1 ≤ P.n) (hN : P.numSamples ≠ 0)
    (hM : P.cooc.HasShape P.n P.n) (hf : ∀ i < P.n, 0 < P.cooc.at' i i ∧ P.cooc.at' i i < 1)
    (h01 : ∀ i < P.n, ∀ j < P.n, 0 ≤ P.cooc.at' i j ∧ P.cooc.at' i j ≤ 1)
    (hstd : coocStdevsFlat P.cooc P.numSamples = .ok P.stdevs) (hmc : P.minCov = false)
    (gen : Gen σ) (hgen : gen.Valid) (fresh : Option (ℕ × σ)) (hist : List ℝ) : ∀ (o : ModelObj) (t : σ),
    IsingReady P.mc P.n o → 0 < o.sampleSize →
      IsingReady P.mc P.n (afterEvals P gen fresh hist (o, t)).1 ∧
      (afterEvals P gen fresh hist (o, t)).1.sampleSize = o.sampleSize ∧
      (afterEvals P gen fresh hist (o, t)).1.int8 = o.int8 := by
  induction hist with
  | nil => exact fun o t h _ => ⟨h, rfl, rfl⟩
  | cons y hist ih =>
    intro o t h hs
    obtain ⟨J, p, o', t', rows, -, -, -, h1, h2, h3, -, -, -, -, h4⟩ :=
      rmfFunc_ok P hcpu hn hN hM hf h01 hstd hmc gen hgen fresh y h hs t
    have e : afterEvals P gen fresh (y :: hist) (o, t) = afterEvals P gen fresh hist (o', t') := by
      unfold afterEvals
      rw [List.foldl_cons, h4]
    rw [e]
    obtain ⟨g1, g2, g3⟩ := ih o' t' h1 (by rw [h2]; exact hs)
    exact ⟨g1, by rw [g2, h2], by rw [g3, h3]⟩

theorem chiSquare_congr {n N : ℕ} {c c' D D' : ℕ → ℕ → ℝ} (h : ∀ i < n, ∀ j < n, i ≤ j → c i j = c' i j)
    (h' : ∀ i < n, ∀ j < n, i ≤ j → D i j = D' i j) : chiSquare n N c D = chiSquare n N c' D' := by
  unfold chiSquare
  refine Finset.sum_congr rfl fun i hi => Finset.sum_congr rfl fun j hj => ?_
  rw [Finset.mem_range] at hi hj
  split_ifs with hij
  · rw [h i hi j hj hij, h' i hi j hj hij]
  · rfl

/-- C115, the objective evaluates: for data in which every spin is seen up and down, the constructor returns an object, and
after any sequence of evaluations every further evaluation returns a number, for any strength of the regularisation (also a
negative one), any generator and any eigenvalue routine. The number is the sum of the squared residuals of the rows drawn, in
units of their variances; the model keeps the rows and the parameters of the candidate. The rows are of ±1, the data are
counted with 0 and 1. -/
theorem C115_evaluates (mc : Machine) (hcpu : 0 < mc.cpus) (eig : Mat ℝ → List ℝ × Mat ℝ) (n : ℕ) (hn : 1 ≤ n)
    (X : List (List ℤ)) (hX : Varied n X) (obs : ObsArg) (size : ℕ) (hs : 0 < size) (rng : ℕ) :
    ∃ o cooc stdevs, rmfInit mc (.data n X) none obs size rng = .ok o ∧ o.n = some n ∧ o.sample = some X ∧
      aceCooc n X = some cooc ∧ coocStdevsFlat cooc X.length = .ok stdevs ∧
      ∀ (gen : Gen σ) (_ : gen.Valid) (fresh : Option (ℕ × σ)) (hist : List ℝ) (x : ℝ) (t : σ),
        let P : RmfProblem := ⟨mc, eig, n, cooc, stdevs, X.length, false⟩
        ∃ J p rows o' t', jmeanField eig cooc (rmfLambda cooc x) (some X.length) = .ok J ∧ rmfSampleParams J = .ok p ∧
          rows.length = size ∧ (∀ r ∈ rows, r ∈ words [1, -1] n) ∧ o'.sample = some rows ∧ o'.multipliers = p ∧
          rmfFunc P gen fresh x (afterEvals P gen fresh hist (o.model, t)) = (.ok (some (chiSquare n X.length
            (fun i j => dotDtype (!mc.ext) (rows.map fun r => r.getD i 0 * r.getD j 0).sum / size)
            fun i j => avg X fun r => ((r.getD i 0 : ℤ) + 1 : ℝ) / 2 * (((r.getD j 0 : ℤ) + 1) / 2))), (o', t')) := by
  obtain ⟨M, stdevs, e1, e2, e3, e4, e5, e6⟩ := varied_cooc hn hX
  have hN : X.length ≠ 0 := by simpa using hX.2.1
  refine ⟨_, M, stdevs, rmf_made mc n X hX.2.1 obs size rng hs, rfl, rfl, e1, e3, fun gen hgen fresh hist x t => ?_⟩
  intro P
  obtain ⟨h1, h2, h3⟩ := after_ready P hcpu hn hN e2 e5 e6 e3 rfl gen hgen fresh hist (rmfModel mc n size rng) t
    (rmfModel_ready mc n size rng) hs
  obtain ⟨J, p, o', t', rows, g1, -, g2, -, g3, -, g4, g5, g6, g7, g8⟩ :=
    rmfFunc_ok P hcpu hn hN e2 e5 e6 e3 rfl gen hgen fresh x h1 (by rw [h2]; exact hs)
      (afterEvals P gen fresh hist (rmfModel mc n size rng, t)).2
  replace h2 : (afterEvals P gen fresh hist (rmfModel mc n size rng, t)).1.sampleSize = size := h2
  replace h3 : (afterEvals P gen fresh hist (rmfModel mc n size rng, t)).1.int8 = !mc.ext := h3
  rw [h2] at g6
  rw [h3] at g8
  refine ⟨J, p, rows, o', t', g1, g2, g6, g7, g5, g4, g8.trans ?_⟩
  refine congrArg (fun v => ((.ok (some v) : Py (Option ℝ)), (o', t'))) (chiSquare_congr (fun i hi j hj hij => ?_)
    fun i hi j hj hij => ?_)
  · unfold coocOfInts
    rw [Mat.at_build _ hi hj, if_neg (by omega), g6]
    ring
  · rw [e4 i hi j hj, if_pos hij]

/-- C115, with the compiled sampler the residual of every frequency is that of a spin that is always up, whatever was drawn:
no candidate reaches the value zero, and the part of the frequencies does not depend on the candidate. -/
theorem C115_frequencies_not_fitted (n N : ℕ) (rows : List (List ℤ)) (hne : rows ≠ []) (hr : ∀ r ∈ rows, r ∈ words [1, -1] n)
    (D : ℕ → ℕ → ℝ) (hN : 0 < N) (hD : ∀ i < n, ∀ j < n, 0 ≤ D i j ∧ D i j ≤ 1) :
    (∀ i < n, (dotDtype false (rows.map fun r => r.getD i 0 * r.getD i 0).sum : ℝ) / rows.length = 1) ∧
    (∑ i ∈ Finset.range n, (1 - D i i) ^ 2 / (laplaceMean N (D i i) * (1 - laplaceMean N (D i i)) / N)) ≤
      chiSquare n N (fun i j => dotDtype false (rows.map fun r => r.getD i 0 * r.getD j 0).sum / rows.length) D := by
  have h1 : ∀ i < n, (dotDtype false (rows.map fun r => r.getD i 0 * r.getD i 0).sum : ℝ) / rows.length = 1 := by
    intro i hi
    have : (rows.map fun r => r.getD i 0 * r.getD i 0) = rows.map fun _ => (1 : ℤ) := by
      refine List.map_congr_left fun r hr' => ?_
      obtain ⟨a, b⟩ := mem_words.1 (hr r hr')
      have hm : r.getD i 0 ∈ r := by
        rw [List.getD_eq_getElem _ _ (by omega)]; exact List.getElem_mem _
      have := b _ hm
      simp only [List.mem_cons, List.not_mem_nil, or_false] at this
      rcases this with h | h <;> rw [h] <;> norm_num
    rw [this]
    have hl : (rows.length : ℝ) ≠ 0 := by
      rw [Nat.cast_ne_zero]; simpa using hne
    simp [dotDtype, hl]
  refine ⟨h1, ?_⟩
  unfold chiSquare
  refine Finset.sum_le_sum fun i hi => ?_
  have hi' := Finset.mem_range.1 hi
  have hv : ∀ j < n, 0 ≤ laplaceMean N (D i j) * (1 - laplaceMean N (D i j)) / N := by
    intro j hj
    obtain ⟨a, b⟩ := hD i hi' j hj
    have hNp : (0 : ℝ) ≤ N := Nat.cast_nonneg N
    have hl0 : 0 ≤ laplaceMean N (D i j) := by unfold laplaceMean; positivity
    have hl1 : laplaceMean N (D i j) ≤ 1 := by
      unfold laplaceMean
      rw [div_le_one (by positivity)]
      nlinarith
    exact div_nonneg (mul_nonneg hl0 (by linarith)) hNp
  have := Finset.single_le_sum (s := Finset.range n) (f := fun j => if i ≤ j then
    ((dotDtype false (rows.map fun r => r.getD i 0 * r.getD j 0).sum : ℝ) / rows.length - D i j) ^ 2 /
      (laplaceMean N (D i j) * (1 - laplaceMean N (D i j)) / N) else 0) (fun j hj => by
        split_ifs
        · exact div_nonneg (sq_nonneg _) (hv j (Finset.mem_range.1 hj))
        · exact le_rfl) hi
  rw [if_pos le_rfl, h1 i hi'] at this
  exact this

/-- C115, with the compiled sampler and `reset_rng` the objective is one function: the value at a strength is the same after
any sequence of evaluations and in any state of the old generator. -/
theorem C115_function (mc : Machine) (hext : mc.ext = true) (n : ℕ) (X : List (List ℤ)) (hne : X ≠ [])
    (obs : ObsArg) (size : ℕ) (hs : 0 < size) (rng : ℕ) :
    ∃ o, rmfInit mc (.data n X) none obs size rng = .ok o ∧
      ∀ (P : RmfProblem) (gen : Gen σ) (fresh : ℕ × σ) (hist : List ℝ) (x : ℝ) (t t' : σ),
        (rmfFunc P gen (some fresh) x (afterEvals P gen (some fresh) hist (o.model, t))).1 =
          (rmfFunc P gen (some fresh) x (o.model, t')).1 := by
  refine ⟨_, rmf_made mc n X hne obs size rng hs, fun P gen fresh hist x t t' => ?_⟩
  have key : ∀ (hist : List ℝ) (w : ModelObj × σ), SameDraws (rmfModel mc n size rng) w.1 →
      SameDraws (rmfModel mc n size rng) (afterEvals P gen (some fresh) hist w).1 := by
    intro hist
    induction hist with
    | nil => exact fun w h => h
    | cons y hist ih =>
      intro w h
      exact ih _ (h.trans (rmfFunc_same P gen fresh y (SameDraws.trans h.symm h) w.2 w.2).2)
  exact (rmfFunc_same P gen fresh x (key hist (rmfModel mc n size rng, t) (SameDraws.refl rfl hext)).symm _ t').1

/-- C115, `solve` with the compiled sampler and `reset_rng`: the search gets the values of one function `F` of the strength,
and what is returned is made from the mean-field matrix for the strength found; the matrix has half the energy of the
parameters returned. A bracket that is not found, and errors of the search, are passed on. -/
theorem C115_solve (mc : Machine) (hext : mc.ext = true) (hcpu : 0 < mc.cpus) (eig : Mat ℝ → List ℝ × Mat ℝ) (n : ℕ)
    (hn : 1 ≤ n) (X : List (List ℤ)) (hX : Varied n X) (obs : ObsArg) (size : ℕ) (hs : 0 < size) (rng : ℕ) (gen : Gen σ)
    (hgen : gen.Valid) (start : ℕ → σ) (minim : Option (ℝ × ℝ × ℝ) → Search) (nGrid : ℕ) (bracket : Option (ℝ × ℝ)) (s : σ) :
    ∃ o cooc, rmfInit mc (.data n X) none obs size rng = .ok o ∧ aceCooc n X = some cooc ∧ ∃ F : ℝ → ℝ,
      (∀ e, (rmfSearch (fun x (u : Unit) => (.ok (some (F x)), u)) minim bracket nGrid ()).1 = .error e →
        (rmfObjSolve mc eig gen start minim o ⟨nGrid, true, false, true, 0, bracket⟩ s).1 = .error e) ∧
      ∀ g, (rmfSearch (fun x (u : Unit) => (.ok (some (F x)), u)) minim bracket nGrid ()).1 = .ok g →
        ∃ J p k, jmeanField eig cooc (rmfLambda cooc g) (some X.length) = .ok J ∧
          (rmfObjSolve mc eig gen start minim o ⟨nGrid, true, false, true, 0, bracket⟩ s).1 = .ok p ∧
          p.length = n + n * (n - 1) / 2 ∧ ∀ s : ℕ → ℝ, isingVecE n (p.take n) (p.drop n) s =
            2 * quadE n (fun i j => J.at' i j) (fun i => (s i + 1) / 2) + k := by
  obtain ⟨M, stdevs, e1, e2, e3, e4, e5, e6⟩ := varied_cooc hn hX
  have hN : X.length ≠ 0 := by simpa using hX.2.1
  obtain ⟨P, hP⟩ : ∃ P : RmfProblem, P = ⟨mc, eig, n, M, stdevs, X.length, false⟩ := ⟨_, rfl⟩
  obtain ⟨fr, hfr⟩ : ∃ fr : ℕ × σ, fr = ((gen.int (2 ^ 32 - 2) s).1, start (gen.int (2 ^ 32 - 2) s).1) := ⟨_, rfl⟩
  have hev : ∀ x, ∃ v, (rmfFunc P gen (some fr) x (rmfModel mc n size rng, s)).1 = .ok (some v) := by
    intro x
    obtain ⟨J, p, o', t', rows, -, -, -, -, -, -, -, -, -, -, h⟩ := rmfFunc_ok P (by rw [hP]; exact hcpu) (by rw [hP]; exact hn)
      (by rw [hP]; exact hN) (by rw [hP]; exact e2) (by rw [hP]; exact e5) (by rw [hP]; exact e6) (by rw [hP]; exact e3)
      (by rw [hP]) gen hgen (some fr) x (o := rmfModel mc n size rng) (by rw [hP]; exact rmfModel_ready mc n size rng) hs s
    exact ⟨_, by rw [h]⟩
  choose F hF using hev
  have hI : ∀ x (w : ModelObj × σ), SameDraws (rmfModel mc n size rng) w.1 →
      (rmfFunc P gen (some fr) x w).1 = .ok (some (F x)) ∧
        SameDraws (rmfModel mc n size rng) (rmfFunc P gen (some fr) x w).2.1 := by
    intro x w hw
    obtain ⟨a, b⟩ := rmfFunc_same P gen fr x hw.symm w.2 s
    exact ⟨a.trans (hF x), hw.trans b⟩
  have hp := (rmfSearch_pure (rmfFunc P gen (some fr)) (fun x => .ok (some (F x)))
    (fun w => SameDraws (rmfModel mc n size rng) w.1) hI minim bracket nGrid
    (rmfModel mc n size rng, (gen.int (2 ^ 32 - 2) s).2) (SameDraws.refl rfl hext)).1
  have hsol : (rmfObjSolve mc eig gen start minim ⟨some n, some X, rmfModel mc n size rng⟩ ⟨nGrid, true, false, true, 0, bracket⟩ s).1 =
      match (rmfSearch (rmfFunc P gen (some fr)) minim bracket nGrid
        (rmfModel mc n size rng, (gen.int (2 ^ 32 - 2) s).2)).1 with
      | .error e => .error e
      | .ok g => match jmeanField eig M (rmfLambda M g) (some X.length) with
        | .error e => .error e
        | .ok J => rmfParams J := by
    unfold rmfObjSolve rmfFresh
    simp only [if_true, e1, ne_eq, not_true, if_false, Bool.true_eq_false, e3]
    rw [← hfr, ← hP]
    cases (rmfSearch (rmfFunc P gen (some fr)) minim bracket nGrid (rmfModel mc n size rng, (gen.int (2 ^ 32 - 2) s).2)).1 with
    | error e => rfl
    | ok g =>
      dsimp only
      cases jmeanField eig M (rmfLambda M g) (some X.length) <;> rfl
  refine ⟨_, M, rmf_made mc n X hX.2.1 obs size rng hs, e1, F, fun e he => ?_, fun g hg => ?_⟩
  · rw [hsol, hp, he]
  · obtain ⟨J, hJ, hJs⟩ := jmeanField_ok eig hn e2 e5 (rmfLambda M g) hN
    obtain ⟨p, h1, h2, k, h3⟩ := C68_returned_partial J n hn hJs
    refine ⟨J, p, k, hJ, ?_, h2, h3⟩
    rw [hsol, hp, hg]
    dsimp only
    rw [hJ]
    exact h1

/-! ### Without the extension -/

theorem spinProduct_mem {n : ℕ} {r : List ℤ} (hr : r ∈ words [1, -1] n) {i j : ℕ} (hi : i < n) (hj : j < n) :
    r.getD i 0 * r.getD j 0 = 1 ∨ r.getD i 0 * r.getD j 0 = -1 := by
  obtain ⟨a, b⟩ := mem_words.1 hr
  have hm : ∀ i < n, r.getD i 0 = 1 ∨ r.getD i 0 = -1 := by
    intro i hi
    have hm : r.getD i 0 ∈ r := by
      rw [List.getD_eq_getElem _ _ (by omega)]; exact List.getElem_mem _
    simpa using b _ hm
  rcases hm i hi with h | h <;> rcases hm j hj with h' | h' <;> rw [h, h'] <;> simp

theorem bmod_byte (x : ℤ) : Int.bmod x 256 = if x % 256 < 128 then x % 256 else x % 256 - 256 := rfl

theorem gridState_total (F : ℝ → ℝ) (xs : List ℝ) :
    gridState (fun x (u : Unit) => (.ok (some (F x)), u)) xs () = (.ok (xs.map fun x => some (F x)), ()) := by
  induction xs with
  | nil => rfl
  | cons x xs ih =>
    rw [gridState]
    dsimp only
    rw [ih]
    rfl

/-- C115, the search with `bracket=(a, b)`, for the function `F` of `C115_solve`: if the first smallest value on the grid is at
an end (or there is no grid), an error is raised. Otherwise the library starts from three grid points, the middle one with
the smallest value on the grid. -/
theorem C115_bracket (F : ℝ → ℝ) (minim : Option (ℝ × ℝ × ℝ) → Search) (a b : ℝ) (hab : a < b) (N : ℕ) (hN : 2 ≤ N) :
    let x : ℕ → ℝ := fun i => a + i * ((b - a) / (N - 1))
    let f : ℝ → Unit → Py (Option ℝ) × Unit := fun x u => (.ok (some (F x)), u)
    x 0 = a ∧ x (N - 1) = b ∧
    (((∀ i < N, F a ≤ F (x i)) ∨ ∀ i < N - 1, F b < F (x i)) → (rmfSearch f minim (some (a, b)) N ()).1 = .error .exception) ∧
    (¬ ((∀ i < N, F a ≤ F (x i)) ∨ ∀ i < N - 1, F b < F (x i)) → ∃ i j k, i < j ∧ j < k ∧ k < N ∧ x i < x j ∧ x j < x k ∧
      (rmfSearch f minim (some (a, b)) N ()).1 = ((minim (some (x i, x j, x k))).runState f ()).1 ∧
      (∀ l < N, F (x j) ≤ F (x l)) ∧ F (x j) < F (x i)) := by
  intro x f
  have hx0 : x 0 = a := by simp [x]
  have hN1 : (0 : ℝ) < N - 1 := by
    have : (2 : ℝ) ≤ N := by exact_mod_cast hN
    linarith
  have hxN : x (N - 1) = b := by
    simp only [x]
    rw [Nat.cast_sub (by omega), Nat.cast_one]
    field_simp
    ring
  refine ⟨hx0, hxN, ?_⟩
  have hgrid : initializeBeta a b N = (List.range N).map x := rfl
  have hrun : rmfSearch f minim (some (a, b)) N () =
      match bracket1d ((List.range N).map x) ((List.range N).map fun i => ((F (x i) : ℝ) : WithBot ℝ)) with
      | .error e => (.error e, ())
      | .ok t => (minim (some t)).runState f () := by
    unfold rmfSearch
    dsimp only
    rw [hgrid, gridState_total]
    dsimp only
    rw [List.map_map, List.map_map]
    rfl
  obtain ⟨i, hi, h1, h2, h3, h4⟩ := C67_positions ((List.range N).map x)
    ((List.range N).map fun i => ((F (x i) : ℝ) : WithBot ℝ)) (by simp) (by simp; omega)
  have hi' : i < N := by simpa using hi
  have h1' : ∀ j < N, F (x i) ≤ F (x j) := fun j hj => by
    have := h1 j (by simpa using hj)
    simpa using this
  have h2' : ∀ j < i, F (x i) < F (x j) := fun j hj => by
    have := h2 j hj
    simpa using this
  rw [hrun]
  have hend : (i = 0 ∨ i + 1 = N) ↔ ((∀ i < N, F a ≤ F (x i)) ∨ ∀ i < N - 1, F b < F (x i)) := by
    constructor
    · rintro (rfl | h)
      · left; rw [← hx0]; exact h1'
      · right
        have e : i = N - 1 := by omega
        rw [← hxN, ← e]
        exact h2'
    · rintro (h | h)
      · left
        by_contra hne
        have := h2' 0 (by omega)
        rw [hx0] at this
        exact absurd (h i hi') (not_le.2 this)
      · right
        by_contra hne
        have := h i (by omega)
        rw [← hxN] at this
        exact absurd (h1' (N - 1) (by omega)) (not_le.2 this)
  refine ⟨fun h => ?_, fun h => ?_⟩
  · rw [h3 (by simpa using hend.2 h)]
  · obtain ⟨p, c, hp, hc, hcN, e, -, -⟩ := h4 (by simpa using fun h' => h (hend.1 h'))
    have hmono : ∀ u v : ℕ, u < v → x u < x v := fun u v huv => by
      have h5 : (u : ℝ) < v := by exact_mod_cast huv
      have h6 : 0 < (b - a) / ((N : ℝ) - 1) := div_pos (by linarith) hN1
      simp only [x]
      nlinarith
    refine ⟨p, i, c, hp, hc, by simpa using hcN, hmono _ _ hp, hmono _ _ hc, ?_, h1', h2' p hp⟩
    rw [e]
    simp only [List.getElem_map, List.getElem_range]

/-- The hypotheses of `C115_bracket` can be met, with both outcomes. -/
example : (2 : ℕ) ≤ 3 ∧ (0 : ℝ) < 2 ∧ (∀ i : ℕ, i < 3 → (fun x : ℝ => x) 0 ≤ (fun x : ℝ => x) (0 + i * ((2 - 0) / ((3 : ℕ) - 1)))) := by
  refine ⟨by norm_num, by norm_num, fun i _ => ?_⟩
  norm_num

/-- C115, without the extension the rows have eight-bit elements, and so has their product: the co-occurrences are right for up
to 127 rows; otherwise even those of a spin with itself are wrong. All of them are at most 128 divided by the number of rows,
and for the default of 1000 rows those of a spin with itself are -24/1000 and not 1. -/
theorem C115_int8 (n : ℕ) (rows : List (List ℤ)) (hne : rows ≠ []) (hr : ∀ r ∈ rows, r ∈ words [1, -1] n) :
    (rows.length ≤ 127 → ∀ i < n, ∀ j < n, dotDtype true (rows.map fun r => r.getD i 0 * r.getD j 0).sum =
      (rows.map fun r => r.getD i 0 * r.getD j 0).sum) ∧
    (∀ i j, |(dotDtype true (rows.map fun r => r.getD i 0 * r.getD j 0).sum : ℝ) / rows.length| ≤ 128 / rows.length) ∧
    (∀ i < n, ((dotDtype true (rows.map fun r => r.getD i 0 * r.getD i 0).sum : ℝ) / rows.length = 1 ↔ rows.length ≤ 127)) ∧
    (rows.length = 1000 → ∀ i < n,
      (dotDtype true (rows.map fun r => r.getD i 0 * r.getD i 0).sum : ℝ) / rows.length = -24 / 1000) := by
  have hb : ∀ x : ℤ, -128 ≤ Int.bmod x 256 ∧ Int.bmod x 256 ≤ 127 := by
    intro x
    rw [bmod_byte]
    split_ifs <;> omega
  have hd : ∀ i < n, (rows.map fun r => r.getD i 0 * r.getD i 0).sum = (rows.length : ℤ) := by
    intro i hi
    have : (rows.map fun r => r.getD i 0 * r.getD i 0) = rows.map fun _ => (1 : ℤ) := by
      refine List.map_congr_left fun r hr' => ?_
      obtain h | h := spinProduct_mem (hr r hr') hi hi
      · exact h
      · have := mul_self_nonneg (r.getD i 0); omega
    rw [this]
    simp
  have hl : (0 : ℝ) < rows.length := by
    have := List.length_pos_iff.2 hne
    exact_mod_cast this
  refine ⟨fun h i hi j hj => ?_, fun i j => ?_, fun i hi => ?_, fun h i hi => ?_⟩
  · have hs : ∀ Y : List (List ℤ), (∀ r ∈ Y, r ∈ words [1, -1] n) →
        -(Y.length : ℤ) ≤ (Y.map fun r => r.getD i 0 * r.getD j 0).sum ∧
          (Y.map fun r => r.getD i 0 * r.getD j 0).sum ≤ Y.length := by
      intro Y
      induction Y with
      | nil => simp
      | cons y Y ih =>
        intro h
        obtain ⟨a, b⟩ := ih fun r hr => h r (List.mem_cons_of_mem _ hr)
        simp only [List.map_cons, List.sum_cons, List.length_cons, Nat.cast_add, Nat.cast_one]
        rcases spinProduct_mem (h y List.mem_cons_self) hi hj with e | e <;> rw [e] <;> constructor <;> linarith
    obtain ⟨a, b⟩ := hs rows hr
    unfold dotDtype
    rw [if_pos rfl]
    rw [bmod_byte]
    split_ifs <;> omega
  · unfold dotDtype
    rw [if_pos rfl, abs_div, abs_of_pos hl]
    refine div_le_div_of_nonneg_right ?_ hl.le
    obtain ⟨a, b⟩ := hb (rows.map fun r => r.getD i 0 * r.getD j 0).sum
    rw [abs_le]
    constructor
    · exact_mod_cast a
    · have : Int.bmod (rows.map fun r => r.getD i 0 * r.getD j 0).sum 256 ≤ 128 := by omega
      exact_mod_cast this
  · rw [hd i hi, div_eq_one_iff_eq hl.ne']
    unfold dotDtype
    rw [if_pos rfl]
    constructor
    · intro h
      have h' : Int.bmod (rows.length : ℤ) 256 = rows.length := by exact_mod_cast h
      have := hb rows.length
      omega
    · intro h
      have : Int.bmod (rows.length : ℤ) 256 = rows.length := by rw [bmod_byte]; split_ifs <;> omega
      rw [this]
      exact Int.cast_natCast _
  · have e : dotDtype true (rows.map fun r => r.getD i 0 * r.getD i 0).sum = -24 := by
      rw [hd i hi]
      unfold dotDtype
      rw [if_pos rfl, bmod_byte]
      split_ifs <;> omega
    have e' : (rows.length : ℝ) = 1000 := by rw [h]; norm_num
    rw [e, e']
    norm_num

theorem zero_draw (P : RmfProblem) (hn : P.n = 2) (hcpu : P.mc.cpus = 1) (p : List ℝ) (o : ModelObj) (s : SamplerObj)
    (ho : o.sampler = some s) (hm : o.sampleMethod = chars! "metropolis") (hk : s.kind = .ising) (hsn : s.n = 2)
    (hc : s.compiled = false) (hp : s.theta.length = p.length) (st : List ℤ) (hst : 1 ≤ st.length)
    (hrun : run zeroGen (startStates (randomSample 2) 2 1 1 s.replicas none) () = (.ok [st], ())) :
    ∃ o' s', run zeroGen (rmfDraw P p o) () = (.ok o', ()) ∧ o'.sample = some (List.replicate o.sampleSize (negAt st 0)) ∧
      o'.sampler = some s' ∧ o'.sampleMethod = chars! "metropolis" ∧ o'.sampleSize = o.sampleSize ∧ s'.kind = .ising ∧
      s'.n = 2 ∧ s'.compiled = false ∧ s'.theta.length = p.length ∧ s'.replicas = some [negAt st 0] := by
  obtain ⟨out, h1, h2, h3⟩ := zero_generate (kindEnergy .ising p) (randomSample 2) 2 100 o.sampleSize s.replicas st hst hrun
  have hg : run zeroGen (SamplerObj.generate P.mc { s with theta := p } true o.sampleSize (100 * P.n) (some 1)) () =
      (.ok { s with theta := p, sample := some out.sample, replicas := some out.replicas }, ()) := by
    unfold SamplerObj.generate SamplerObj.checkEnergy
    dsimp only
    rw [hc, hk, hsn, hn, hcpu]
    simp only [Bool.false_eq_true, if_false, not_true, kindCalcERow, ofPy_ok_bind, run_bind]
    rw [show kindMove .ising p = sampleMetropolis (kindEnergy .ising p) from rfl,
      show kindRandom .ising 2 = randomSample 2 from rfl, show 100 * 2 = 2 * 100 from rfl, h1]
    rfl
  refine ⟨{ o.setMultipliers p with
      sampler := some { s with theta := p, sample := some out.sample, replicas := some out.replicas }, sample := some out.sample },
    { s with theta := p, sample := some out.sample, replicas := some out.replicas }, ?_, ?_, rfl, hm, rfl, hk, hsn,
    hc, rfl, by rw [← h3]⟩
  · unfold rmfDraw ModelObj.generateSample ModelObj.setMultipliers
    dsimp only
    rw [ho]
    dsimp only
    unfold SamplerObj.updateParameters
    rw [if_pos (by unfold methodOr; exact hm), if_neg (by simpa using hp)]
    rw [ofPy_ok_bind, run_bind]
    rw [show sizeOr none o.sampleSize = o.sampleSize from rfl, show (none : Option (List ℝ)).getD p = p from rfl, hg]
    rfl
  · dsimp only
    rw [h2]

/-- What an evaluation does, in terms of the draw. -/
theorem rmfFunc_draw (P : RmfProblem) (gen : Gen σ) (fresh : Option (ℕ × σ)) (x : ℝ) (o : ModelObj) (s : SamplerObj)
    (hs : o.sampler = some s) (t : σ) {J : Mat ℝ} (hJ : jmeanField P.eig P.cooc (rmfLambda P.cooc x) (some P.numSamples) = .ok J)
    {p : List ℝ} (hp : rmfSampleParams J = .ok p) (hmc : P.minCov = false) {o' : ModelObj} {t' : σ}
    (hd : run gen (rmfDraw P p { o with rng := (fresh.map Prod.fst).getD o.rng, sampler := some { s with rng := (fresh.map Prod.fst).getD o.rng } })
      ((fresh.map Prod.snd).getD t) = (.ok o', t')) :
    (rmfFunc P gen fresh x (o, t)).2 = (o', t') := by
  unfold rmfFunc
  rw [hJ]
  dsimp only
  have : o.setRng ((fresh.map Prod.fst).getD o.rng) = .ok { o with rng := (fresh.map Prod.fst).getD o.rng, sampler := some { s with rng := (fresh.map Prod.fst).getD o.rng } } := by
    unfold ModelObj.setRng; rw [hs]
  rw [this]
  dsimp only
  rw [hmc, hp]
  simp only [Bool.false_eq_true, if_false]
  rw [hd]
  dsimp only
  cases rmfResiduals P o' <;> rfl

/-- C115, without the extension the objective is not a function, although `reset_rng` is set: the python sampler goes on from
the states it had at the end of the call before. Two spins on one processor: for data with the rows `[1, 1]` and `[-1, -1]` and
any number of rows to draw that is not a multiple of 128, there is a sequence of random numbers so that two evaluations at one
and the same strength, each with the generator set back to its first state, give different values. -/
theorem C115_kept_states (mc : Machine) (hext : mc.ext = false) (hcpu : mc.cpus = 1) (eig : Mat ℝ → List ℝ × Mat ℝ)
    (X : List (List ℤ)) (hX : ∀ r ∈ X, r.length = 2 ∧ ∀ x ∈ r, x = 1 ∨ x = -1) (h1 : [1, 1] ∈ X) (h2 : [-1, -1] ∈ X)
    (obs : ObsArg) (size : ℕ) (hs : size % 128 ≠ 0) (rng seed : ℕ) (x : ℝ) :
    ∃ (gen : Gen Unit) (o : SampledObj) (cooc : Mat ℝ) (stdevs : List (Option ℝ)) (v v' : ℝ), gen.Valid ∧
      rmfInit mc (.data 2 X) none obs size rng = .ok o ∧ aceCooc 2 X = some cooc ∧
      coocStdevsFlat cooc X.length = .ok stdevs ∧
      (rmfFunc ⟨mc, eig, 2, cooc, stdevs, X.length, false⟩ gen (some (seed, ())) x (o.model, ())).1 = .ok (some v) ∧
      (rmfFunc ⟨mc, eig, 2, cooc, stdevs, X.length, false⟩ gen (some (seed, ())) x
        (rmfFunc ⟨mc, eig, 2, cooc, stdevs, X.length, false⟩ gen (some (seed, ())) x (o.model, ())).2).1 = .ok (some v') ∧
      v ≠ v' := by
  have hV : Varied 2 X := ⟨hX, List.ne_nil_of_mem h1, fun i hi => ⟨⟨_, h1, by interval_cases i <;> rfl⟩,
    ⟨_, h2, by interval_cases i <;> rfl⟩⟩⟩
  have hsz : 0 < size := by
    rcases Nat.eq_zero_or_pos size with h | h
    · exact absurd (by rw [h]) hs
    · exact h
  obtain ⟨M, stdevs, e1, e2, e3, e4, e5, e6⟩ := varied_cooc (by norm_num : 1 ≤ 2) hV
  have hN : X.length ≠ 0 := by simpa using hV.2.1
  obtain ⟨P, hP⟩ : ∃ P : RmfProblem, P = ⟨mc, eig, 2, M, stdevs, X.length, false⟩ := ⟨_, rfl⟩
  obtain ⟨o, ho⟩ : ∃ o, o = rmfModel mc 2 size rng := ⟨_, rfl⟩
  have hR : IsingReady mc 2 o := by rw [ho]; exact rmfModel_ready mc 2 size rng
  have hoS : o.sampleSize = size := by rw [ho]; rfl
  have hoI : o.int8 = true := by rw [ho]; show (!mc.ext) = true; rw [hext]; rfl
  have key : ∀ (o : ModelObj), IsingReady mc 2 o → o.sampleSize = size → o.int8 = true → ∀ (s : SamplerObj),
      o.sampler = some s → s.compiled = false → o.sampleMethod = chars! "metropolis" → s.kind = .ising → s.n = 2 →
      ∀ st : List ℤ, 1 ≤ st.length →
      run zeroGen (startStates (randomSample 2) 2 1 1 s.replicas none) () = (.ok [st], ()) →
      ∃ o' s', (rmfFunc P zeroGen (some (seed, ())) x (o, ())) = (.ok (some (chiSquare 2 X.length
        (fun i j => (coocOfInts true 2 (List.replicate size (negAt st 0))).at' i j) fun i j => M.at' i j)), (o', ())) ∧
        IsingReady mc 2 o' ∧ o'.sampleSize = size ∧ o'.int8 = true ∧ o'.sampler = some s' ∧ s'.compiled = false ∧
        o'.sampleMethod = chars! "metropolis" ∧ s'.kind = .ising ∧ s'.n = 2 ∧ s'.replicas = some [negAt st 0] := by
    intro o hR hoS hoI s hs hc hm hk hsn st hst hrun
    obtain ⟨J, p, o', t', rows, g1, g1', g2, g3, g4, g5, g6, g7, g8, g9, g10⟩ :=
      rmfFunc_ok P (by rw [hP]; show 0 < mc.cpus; omega) (by rw [hP]; show 1 ≤ 2; omega) (by rw [hP]; exact hN)
        (by rw [hP]; exact e2) (by rw [hP]; exact e5) (by rw [hP]; exact e6) (by rw [hP]; exact e3) (by rw [hP])
        zeroGen zeroGen_valid (some (seed, ())) x (o := o) (by rw [hP]; exact hR) (by rw [hoS]; exact hsz) ()
    obtain ⟨q, hq1, hq2, -⟩ := C68_sample_energy J 2 (by norm_num) (by rw [hP] at g1'; exact g1')
    rw [g2] at hq1
    injection hq1 with hq1
    subst hq1
    obtain ⟨s0, hs0, hl⟩ := hR.sampler
    rw [hs] at hs0
    injection hs0 with hs0
    subst hs0
    obtain ⟨o'', s'', d1, d2, d3, d4, d5, d6, d7, d8, d9, d10⟩ := zero_draw P (by rw [hP]) (by rw [hP]; exact hcpu) p
      { o with rng := seed, sampler := some { s with rng := seed } } { s with rng := seed } rfl hm hk hsn hc
      (by rw [hq2]; exact hl) st hst hrun
    have hst2 := rmfFunc_draw P zeroGen (some (seed, ())) x o s hs () g1 g2 (by rw [hP]) d1
    rw [g10] at hst2
    injection hst2 with ho' _
    subst ho'
    replace d2 : o'.sample = some (List.replicate size (negAt st 0)) := by rw [d2]; simp [hoS]
    rw [g7] at d2
    injection d2 with d2
    subst d2
    refine ⟨o', s'', ?_, by rw [hP] at g3; exact g3, by rw [g4, hoS], by rw [g5, hoI], d3, d8, d4, d6, d7, d10⟩
    rw [g10, hoI, hP]
  obtain ⟨o1, s1, a1, a2, a3, a4, a5, a6, a7, a8, a9, a10⟩ := key o hR hoS hoI _ (by rw [ho]; rfl) hext (by rw [ho]; rfl) rfl rfl [-1, -1]
    (by simp) rfl
  obtain ⟨o2, s2, b1, -⟩ := key o1 a2 a3 a4 s1 a5 a6 a7 a8 a9 (negAt [-1, -1] 0) (by decide) (by rw [a10]; rfl)
  refine ⟨zeroGen, ⟨some 2, some X, o⟩, M, stdevs,
    chiSquare 2 X.length (fun i j => (coocOfInts true 2 (List.replicate size (negAt [-1, -1] 0))).at' i j) fun i j => M.at' i j,
    chiSquare 2 X.length (fun i j => (coocOfInts true 2 (List.replicate size (negAt (negAt [-1, -1] 0) 0))).at' i j)
      fun i j => M.at' i j, zeroGen_valid, ?_, e1, e3, ?_, ?_, ?_⟩
  · rw [ho]; exact rmf_made mc 2 X hV.2.1 obs size rng hsz
  · rw [← hP, a1]
  · rw [← hP, a1, b1]
  · have n1 : negAt [-1, -1] 0 = [1, -1] := by decide
    have n2 : negAt [1, -1] 0 = [-1, -1] := by decide
    have hc : ∀ (a b : ℤ) (i j : ℕ), i < 2 → j < 2 → i ≤ j → (coocOfInts true 2 (List.replicate size [a, b])).at' i j =
        (Int.bmod (size * ([a, b].getD i 0 * [a, b].getD j 0)) 256 : ℝ) / size := by
      intro a b i j hi hj hij
      unfold coocOfInts dotDtype
      rw [Mat.at_build _ hi hj, if_pos rfl, if_neg (by omega), List.map_replicate, List.sum_replicate, List.length_replicate]
      simp
    rw [n1, n2]
    unfold chiSquare
    simp only [Finset.sum_range_succ, Finset.sum_range_zero]
    simp only [le_refl, if_true, Nat.zero_le, show ¬ (1 ≤ 0) by omega, if_false]
    rw [hc 1 (-1) 0 0 (by omega) (by omega) (by omega), hc 1 (-1) 0 1 (by omega) (by omega) (by omega),
      hc 1 (-1) 1 1 (by omega) (by omega) (by omega), hc (-1) (-1) 0 0 (by omega) (by omega) (by omega),
      hc (-1) (-1) 0 1 (by omega) (by omega) (by omega), hc (-1) (-1) 1 1 (by omega) (by omega) (by omega)]
    have hw : Int.bmod ((size : ℤ) * -1) 256 = - Int.bmod (size : ℤ) 256 := by
      rw [bmod_byte, bmod_byte]
      split_ifs <;> omega
    have hw0 : Int.bmod (size : ℤ) 256 ≠ 0 := by
      rw [bmod_byte]
      split_ifs <;> omega
    have hD : 0 < M.at' 0 1 := by
      rw [e4 0 (by omega) 1 (by omega), if_pos (by omega)]
      unfold avg
      have hl : (0 : ℝ) < X.length := by exact_mod_cast Nat.pos_of_ne_zero hN
      refine div_pos ?_ hl
      have hnn : ∀ r ∈ X, 0 ≤ ((r.getD 0 0 : ℤ) + 1 : ℝ) / 2 * (((r.getD 1 0 : ℤ) + 1) / 2) := by
        intro r hr
        obtain ⟨a, b⟩ := hX r hr
        have hm : ∀ i < 2, (0 : ℝ) ≤ ((r.getD i 0 : ℤ) + 1 : ℝ) / 2 := by
          intro i hi
          have hm : r.getD i 0 ∈ r := by
            rw [List.getD_eq_getElem _ _ (by omega)]; exact List.getElem_mem _
          rcases b _ hm with h | h <;> rw [h] <;> norm_num
        exact mul_nonneg (hm 0 (by omega)) (hm 1 (by omega))
      have := List.single_le_sum (l := X.map fun r => ((r.getD 0 0 : ℤ) + 1 : ℝ) / 2 * (((r.getD 1 0 : ℤ) + 1) / 2))
        (by intro y hy; obtain ⟨r, hr, rfl⟩ := List.mem_map.1 hy; exact hnn r hr) _ (List.mem_map_of_mem h1)
      refine lt_of_lt_of_le ?_ this
      norm_num
    have hD1 := (e6 0 (by omega) 1 (by omega)).2
    have hvar : 0 < laplaceMean X.length (M.at' 0 1) * (1 - laplaceMean X.length (M.at' 0 1)) / X.length := by
      have hl : (0 : ℝ) < X.length := by exact_mod_cast Nat.pos_of_ne_zero hN
      have l0 : 0 < laplaceMean X.length (M.at' 0 1) := by unfold laplaceMean; positivity
      have l1 : laplaceMean X.length (M.at' 0 1) < 1 := by
        unfold laplaceMean
        rw [div_lt_one (by positivity)]
        nlinarith
      exact div_pos (mul_pos l0 (by linarith)) hl
    have hsr : (0 : ℝ) < size := by exact_mod_cast hsz
    intro heq
    have hwr : (Int.bmod (size : ℤ) 256 : ℝ) ≠ 0 := by exact_mod_cast hw0
    norm_num at heq
    rw [show -(size : ℤ) = size * -1 by ring, hw] at heq
    rw [div_left_inj' hvar.ne'] at heq
    push_cast at heq
    have h4 : (Int.bmod (size : ℤ) 256 : ℝ) / size * M.at' 0 1 = 0 := by
      rw [neg_div] at heq
      linear_combination heq / 4
    rcases mul_eq_zero.1 h4 with h | h
    · rcases div_eq_zero_iff.1 h with h | h
      · exact hwr h
      · exact hsr.ne' h
    · exact hD.ne' h

/-! ### What is left, and the options -/

theorem runState_inv {W : Type} (f : ℝ → W → Py (Option ℝ) × W) (I : W → Prop) (h : ∀ x w, I w → I (f x w).2) (S : Search) :
    ∀ w, I w → I (S.runState f w).2 := by
  induction S with
  | done r => exact fun w hw => hw
  | ask x k ih =>
    intro w hw
    have h2 := h x w hw
    unfold Search.runState
    cases hf : f x w with
    | mk a w' =>
      rw [hf] at h2
      cases a with
      | error e => exact h2
      | ok v => exact ih v w' h2

/-- C115, what `solve` leaves in the model if the search evaluates the objective once at least: the parameters with which the
last candidate was sampled. Their energy has the fields of the candidate on 0 and 1 with the sign changed; it is not that of the
parameters returned, which `solve` does not give to the model. This holds with or without the extension and `reset_rng`. -/
theorem C115_left (mc : Machine) (hcpu : 0 < mc.cpus) (eig : Mat ℝ → List ℝ × Mat ℝ) (n : ℕ) (hn : 1 ≤ n)
    (X : List (List ℤ)) (hX : Varied n X) (obs : ObsArg) (size : ℕ) (hs : 0 < size) (rng : ℕ) (gen : Gen σ)
    (hgen : gen.Valid) (start : ℕ → σ) (minim : Option (ℝ × ℝ × ℝ) → Search) (x : ℝ) (k : Option ℝ → Search)
    (hask : minim none = .ask x k) (nGrid : ℕ) (reset : Bool) (s : σ) :
    ∃ o cooc, rmfInit mc (.data n X) none obs size rng = .ok o ∧ aceCooc n X = some cooc ∧
      ∃ g J, jmeanField eig cooc (rmfLambda cooc g) (some X.length) = .ok J ∧
        let p := (rmfObjSolve mc eig gen start minim o ⟨nGrid, reset, false, true, 0, none⟩ s).2.1.multipliers
        ∀ s : ℕ → ℝ, isingVecE n (p.take n) (p.drop n) s = -(∑ i ∈ Finset.range n, 2 * J.at' i i * s i) +
          ∑ i ∈ Finset.range n, ∑ j ∈ Finset.range n, if i < j then (J.at' i j + J.at' j i) * s i * s j else 0 := by
  obtain ⟨M, stdevs, e1, e2, e3, e4, e5, e6⟩ := varied_cooc hn hX
  have hN : X.length ≠ 0 := by simpa using hX.2.1
  obtain ⟨P, hP⟩ : ∃ P : RmfProblem, P = ⟨mc, eig, n, M, stdevs, X.length, false⟩ := ⟨_, rfl⟩
  refine ⟨_, M, rmf_made mc n X hX.2.1 obs size rng hs, e1, ?_⟩
  obtain ⟨fr, hfr⟩ : ∃ fr, fr = rmfFresh gen start reset s := ⟨_, rfl⟩
  have hstep : ∀ x (w : ModelObj × σ), (IsingReady mc n w.1 ∧ 0 < w.1.sampleSize) →
      IsingReady mc n (rmfFunc P gen fr.1 x w).2.1 ∧ 0 < (rmfFunc P gen fr.1 x w).2.1.sampleSize ∧
      ∃ J, jmeanField eig M (rmfLambda M x) (some X.length) = .ok J ∧ J.HasShape n n ∧
        rmfSampleParams J = .ok (rmfFunc P gen fr.1 x w).2.1.multipliers := by
    rintro x ⟨o, t⟩ ⟨ho, hsz⟩
    obtain ⟨J, p, o', t', rows, g1, g2, g3, g4, g5, -, g6, -, -, -, g7⟩ := rmfFunc_ok P (by rw [hP]; exact hcpu)
      (by rw [hP]; exact hn) (by rw [hP]; exact hN) (by rw [hP]; exact e2) (by rw [hP]; exact e5) (by rw [hP]; exact e6)
      (by rw [hP]; exact e3) (by rw [hP]) gen hgen fr.1 x (o := o) (by rw [hP]; exact ho) hsz t
    rw [g7]
    dsimp only
    rw [hP] at g1 g2 g4
    exact ⟨g4, by rw [g5]; exact hsz, J, g1, g2, by rw [g6]; exact g3⟩
  have hinv := runState_inv (rmfFunc P gen fr.1) (fun w => (IsingReady mc n w.1 ∧ 0 < w.1.sampleSize) ∧
    ∃ g J, jmeanField eig M (rmfLambda M g) (some X.length) = .ok J ∧ J.HasShape n n ∧
      rmfSampleParams J = .ok w.1.multipliers) (fun x w hw => by
        obtain ⟨a, b, J, c⟩ := hstep x w hw.1
        exact ⟨⟨a, b⟩, x, J, c⟩)
  have hall : ∃ g J, jmeanField eig M (rmfLambda M g) (some X.length) = .ok J ∧ J.HasShape n n ∧
      rmfSampleParams J = .ok ((minim none).runState (rmfFunc P gen fr.1) (rmfModel mc n size rng, fr.2)).2.1.multipliers := by
    rw [hask]
    unfold Search.runState
    obtain ⟨a, b, J, c⟩ := hstep x (rmfModel mc n size rng, fr.2) ⟨rmfModel_ready mc n size rng, hs⟩
    cases hf : rmfFunc P gen fr.1 x (rmfModel mc n size rng, fr.2) with
    | mk r w' =>
      rw [hf] at a b c
      cases r with
      | error e => exact ⟨x, J, c⟩
      | ok v => exact (hinv (k v) w' ⟨⟨a, b⟩, x, J, c⟩).2
  obtain ⟨g, J, h1, h2, h3⟩ := hall
  have hst : (rmfObjSolve mc eig gen start minim ⟨some n, some X, rmfModel mc n size rng⟩ ⟨nGrid, reset, false, true, 0, none⟩ s).2 =
      ((minim none).runState (rmfFunc P gen fr.1) (rmfModel mc n size rng, fr.2)).2 := by
    unfold rmfObjSolve rmfSearch
    simp only [e1, ne_eq, not_true, if_false, Bool.true_eq_false, e3]
    rw [← hfr, ← hP]
    cases ((minim none).runState (rmfFunc P gen fr.1) (rmfModel mc n size rng, fr.2)).1 with
    | error e => rfl
    | ok g =>
      dsimp only
      cases jmeanField eig M (rmfLambda M g) (some X.length) <;> rfl
  refine ⟨g, J, h1, ?_⟩
  intro p
  obtain ⟨q, hq1, -, hq2⟩ := C68_sample_energy J n hn h2
  have : p = q := by
    rw [h3] at hq1
    have := Except.ok.inj hq1
    rw [← this]
    show (rmfObjSolve mc eig gen start minim _ _ s).2.1.multipliers = _
    rw [hst]
  rw [this]
  exact hq2

/-- C115, the options of `solve` on data: a prior strength, or `min_independent=False`, raise before any evaluation and leave the
model unchanged; `min_covariance` with the default `min_independent` raises NameError at the first evaluation. A solver made from
a number of spins has no data and raises TypeError. -/
theorem C115_options (mc : Machine) (eig : Mat ℝ → List ℝ × Mat ℝ) (n : ℕ) (hn : 1 ≤ n) (X : List (List ℤ)) (hX : Varied n X)
    (obs : ObsArg) (size : ℕ) (hs : 0 < size) (rng : ℕ) (gen : Gen σ) (start : ℕ → σ)
    (minim : Option (ℝ × ℝ × ℝ) → Search) (nGrid : ℕ) (reset : Bool) (bracket : Option (ℝ × ℝ)) (s : σ) :
    (∃ o, rmfInit mc (.data n X) none obs size rng = .ok o ∧
      (∀ mcov mind (l : ℝ), l ≠ 0 →
        (rmfObjSolve mc eig gen start minim o ⟨nGrid, reset, mcov, mind, l, bracket⟩ s).1 = .error .notImplemented ∧
        (rmfObjSolve mc eig gen start minim o ⟨nGrid, reset, mcov, mind, l, bracket⟩ s).2.1 = o.model) ∧
      (∀ mcov, (rmfObjSolve mc eig gen start minim o ⟨nGrid, reset, mcov, false, 0, bracket⟩ s).1 =
          .error (if mcov then .exception else .notImplemented) ∧
        (rmfObjSolve mc eig gen start minim o ⟨nGrid, reset, mcov, false, 0, bracket⟩ s).2.1 = o.model) ∧
      ∀ x k, minim none = .ask x k →
        (rmfObjSolve mc eig gen start minim o ⟨nGrid, reset, true, true, 0, none⟩ s).1 = .error .nameError) ∧
    ∀ (m : ℤ) (o : SampledObj) (a : RmfArgs), rmfInit mc (.size m) none obs size rng = .ok o →
      (rmfObjSolve mc eig gen start minim o a s).1 = .error .typeError := by
  obtain ⟨M, stdevs, e1, e2, e3, e4, e5, e6⟩ := varied_cooc hn hX
  have hN : X.length ≠ 0 := by simpa using hX.2.1
  refine ⟨⟨_, rmf_made mc n X hX.2.1 obs size rng hs, fun mcov mind l hl => ?_, fun mcov => ?_, fun x k hask => ?_⟩,
    fun m o a ho => ?_⟩
  · unfold rmfObjSolve
    simp [e1, hl]
  · unfold rmfObjSolve
    simp [e1]
  · unfold rmfObjSolve rmfSearch
    simp only [e1, ne_eq, not_true, if_false, Bool.true_eq_false, e3, hask]
    unfold Search.runState
    obtain ⟨J, hJ, -⟩ := jmeanField_ok eig hn e2 e5 (rmfLambda M x) hN
    have : ∀ fr : Option (ℕ × σ) × σ, rmfFunc ⟨mc, eig, n, M, stdevs, X.length, true⟩ gen fr.1 x (rmfModel mc n size rng, fr.2) =
        (.error .nameError, (rmfFunc ⟨mc, eig, n, M, stdevs, X.length, true⟩ gen fr.1 x (rmfModel mc n size rng, fr.2)).2) := by
      intro fr
      obtain ⟨o', h, -⟩ := (rmfModel_ready mc n size rng).setRng ((fr.1.map Prod.fst).getD (rmfModel mc n size rng).rng)
      unfold rmfFunc
      rw [hJ]
      dsimp only
      rw [h]
      simp
    rw [this]
  · have : o.sample = none := by
      unfold rmfInit clusterInit at ho
      rw [if_neg (by omega)] at ho
      cases hb : basicSetupObs mc (.size m) none obs rng with
      | error e => rw [hb] at ho; cases ho
      | ok so =>
        rw [hb] at ho
        dsimp only at ho
        cases hm : so.model with
        | none => rw [hm] at ho; cases ho
        | some mo =>
          rw [hm] at ho
          dsimp only at ho
          cases hq : mo.setupSampler mc (chars! "metropolis") size true with
          | error e => rw [hq] at ho; cases ho
          | ok mo' =>
            rw [hq] at ho
            injection ho with ho
            rw [← ho]
            rfl
    unfold rmfObjSolve
    rw [this]

/-- The hypotheses of C115 can be met: two rows of two spins. -/
example : Varied 2 [[1, 1], [-1, -1]] ∧ (1000 : ℕ) % 128 ≠ 0 ∧ zeroGen.Valid := by
  refine ⟨⟨by decide, by decide, fun i hi => ⟨⟨[1, 1], by decide, ?_⟩, ⟨[-1, -1], by decide, ?_⟩⟩⟩, by norm_num, zeroGen_valid⟩
  · interval_cases i <;> rfl
  · interval_cases i <;> rfl

/-- A search that asks once and returns the strength asked for. -/
example : ∃ minim : Option (ℝ × ℝ × ℝ) → Search, ∃ x k, minim none = .ask x k ∧
    ∀ F : ℝ → ℝ, (rmfSearch (fun x (u : Unit) => ((.ok (some (F x)) : Py (Option ℝ)), u)) minim none 100 ()).1 = .ok x :=
  ⟨fun _ => .ask 1 fun _ => .done (.ok 1), 1, _, rfl, fun _ => rfl⟩

end Verif.Props
