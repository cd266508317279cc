/-
C121: fits of models with fields, couplings and triplet interactions with `MPF` and `Enumerate`, from constructor to result.
-/
import Verif.Lemmas.TripletFit
import Verif.Props.GuideData

namespace Verif.Props
open Verif Verif.Model Verif.Spec Verif.Lemmas Prog

/-- The machine has the equation module with triplets for `n` spins that `enumerate.write_eqns` writes. -/
def HasTripletModule (mc : Machine) (n : ℕ) : Prop :=
  ∃ e, writeEqns n true (tripletIx n) = .ok e ∧ mc.eqns .triplet n = some e

/-- A model `Triplet([h, J, K])` of `n` spins, whatever the values. -/
def IsTriplet (mc : Machine) (n : ℕ) (m : ModelObj) : Prop := ∃ a rng, modelInit mc .triplet a rng = .ok m ∧ m.n = n

theorem _root_.Verif.Props.IsTriplet.kind {mc : Machine} {n : ℕ} {m : ModelObj} (h : IsTriplet mc n m) : m.kind = .triplet := by
  obtain ⟨a, rng, h1, -⟩ := h
  exact (modelInv_init h1).kind

theorem _root_.Verif.Props.IsTriplet.eqns {mc : Machine} {n : ℕ} {m : ModelObj} (h : IsTriplet mc n m) :
    m.eqns = mc.eqns .triplet n := by
  obtain ⟨a, rng, h1, rfl⟩ := h
  exact (modelInv_init h1).eqns

/-- C121. The parameters: `n` fields, `n(n-1)/2` couplings, `n(n-1)(n-2)/6` triplet interactions; lists of these lengths make
a model. -/
theorem C121_model (mc : Machine) (n : ℕ) (h J K : List ℝ) (hh : h.length = n) (hJ : J.length = n * (n - 1) / 2)
    (hK : K.length = n * (n - 1) * (n - 2) / 6) (rng : ℕ) :
    (h ++ J ++ K).length = (orderTuples n 3).length ∧
      ∃ m, modelInit mc .triplet (.parts [h, J, K]) rng = .ok m ∧ m.multipliers = h ++ J ++ K ∧ IsTriplet mc n m := by
  refine ⟨by rw [length_orderTuples_three]; simp [hh, hJ, hK, Nat.add_assoc], ?_⟩
  have : modelInit mc .triplet (.parts [h, J, K]) rng =
      .ok ⟨.triplet, n, h ++ J ++ K, mc.eqns .triplet n, h ++ J ++ K, rng, none, [], 0, none⟩ := by
    unfold modelInit tripletInit
    dsimp only
    rw [if_neg (by rw [hh, hJ, Nat.choose_two_right]; simp), if_neg (by rw [hh, hK, choose_three]; simp)]
    simp [hh]
  exact ⟨_, this, rfl, _, _, this, rfl⟩

/-! ### `MPF` -/

theorem triplet_value (uniq : Data → Data) (hu : UniqSpec uniq) (n : ℕ) (hn : 3 ≤ n) (X : Data) (hX : SpinData n X)
    (uselog : Bool) (r x : List ℝ) (h : BitForm n 3 r x) :
    mpfObjF .triplet uniq n X true uselog x =
      .ok (some (if uselog then Real.log (orderFlow n 3 X r) else orderFlow n 3 X r)) := by
  have hX' : toBits X ≠ [] := by simpa [toBits] using hX.1
  have hen : ∀ s : List ℤ, s.length = n → kindEnergy .triplet x s = orderE n 3 x s := by
    intro s hs
    unfold kindEnergy
    rw [triplet_energy n x h.1 s hs]
  have hflow : probFlow (toBits X) (flips fun x => 1 - x) (kindEnergy .triplet x) = orderFlow n 3 X r := by
    rw [← bitForm_flow hX h]
    unfold probFlow
    congr 1
    refine list_sum_congr fun s hs => list_sum_congr fun t ht => ?_
    obtain ⟨s0, hs0, rfl⟩ := List.mem_map.1 hs
    have l1 : (s0.map fun x => (x + 1) / 2).length = n := by rw [List.length_map, (spinData_rows hX s0 hs0).1]
    have l2 : t.length = n := by
      obtain ⟨i, -, rfl⟩ := List.mem_map.1 ht
      rw [List.length_set, l1]
    rw [hen _ l1, hen _ l2]
  unfold mpfObjF
  rw [triplet_energy n x h.1 _ (by simp)]
  dsimp only
  unfold mpfF
  simp only
  rw [adjacent_eq]
  cases uselog
  · simp only [Bool.false_eq_true, if_false]
    rw [C38_K uniq hu (toBits X) hX', hflow]
  · simp only [if_true]
    rw [(C38_logK uniq hu (toBits X) hX' _ n (by omega) (by
      intro s hsm
      obtain ⟨t, ht, rfl⟩ := List.mem_map.1 hsm
      simp [flips, (spinData_rows hX t ht).1]) (kindEnergy .triplet) x).1, hflow]

/-- C121. The function that `MPF.solve` gives to the library is smallest within the bounds exactly at the {0,1} forms of the
±1 parameters that have the least probability flow among those whose {0,1} form is within the limit. -/
theorem C121_minimum (uniq : Data → Data) (hu : UniqSpec uniq) (n : ℕ) (hn : 3 ≤ n) (X : Data) (hX : SpinData n X)
    (uselog : Bool) (L : ℝ) (x : List ℝ) :
    BoxMinimum (orderTuples n 3).length L (mpfObjF .triplet uniq n X true uselog) x ↔
      ∃ r, BitForm n 3 r x ∧ LeastOrderFlow n 3 L X r := by
  have hmono : ∀ r r' : List ℝ, (if uselog then Real.log (orderFlow n 3 X r) else orderFlow n 3 X r) ≤
      (if uselog then Real.log (orderFlow n 3 X r') else orderFlow n 3 X r') ↔ orderFlow n 3 X r ≤ orderFlow n 3 X r' := by
    intro r r'
    cases uselog
    · rfl
    · exact Real.log_le_log_iff (orderFlow_pos n 3 (by omega) X hX r) (orderFlow_pos n 3 (by omega) X hX r')
  constructor
  · rintro ⟨hx, hb, hmin⟩
    obtain ⟨r, hr, hf, -⟩ := order_back n 3 (by norm_num) hn x hx
    refine ⟨r, hf, hr, ⟨x, hf, hb⟩, fun r' x' _ hf' hb' => ?_⟩
    exact (hmono r r').1 (hmin _ _ _ hf'.1 hb' (triplet_value uniq hu n hn X hX uselog r x hf)
      (triplet_value uniq hu n hn X hX uselog r' x' hf'))
  · rintro ⟨r, hf, hr, ⟨x', hf', hb⟩, hmin⟩
    obtain rfl := bitForm_unique hf hf'
    refine ⟨hf.1, hb, fun z a b hz hzb ha hb' => ?_⟩
    obtain ⟨r', hr', hfz, -⟩ := order_back n 3 (by norm_num) hn z hz
    rw [triplet_value uniq hu n hn X hX uselog r x hf] at ha
    rw [triplet_value uniq hu n hn X hX uselog r' z hfz] at hb'
    rw [← Option.some.inj (Except.ok.inj ha), ← Option.some.inj (Except.ok.inj hb')]
    exact (hmono r r').2 (hmin r' z hr' hfz hzb)

/-- C121. `MPF(X, model=Triplet(...), calc_observables=...)` and `solve`, as in the usage guide: the object exists, the search
starts at the mean products of the bits, or at the {0,1} form of the guess, and if the library finds a smallest point within the
bounds, `solve` returns the ±1 parameters with the least flow among those whose {0,1} form is within the limit. -/
theorem C121_mpf (mc : Machine) (n : ℕ) (hn : 3 ≤ n) (X : Data) (hX : SpinData n X) (m : ModelObj) (hm : IsTriplet mc n m)
    (rng : ℕ) :
    ∃ o, mpfObjInit mc (.data n X) (some m) .triplet false false rng = .ok o ∧
      ∀ uniq lib (guess : Option (List ℝ)) (L : ℝ) (uselog : Bool), UniqSpec uniq → 0 < L →
        (∀ g, guess = some g → g.length = (orderTuples n 3).length) →
        ∃ f x0, (guess = none → x0 = (orderTuples n 3).map fun t => avg (asBits X) fun s => mono (spins s) t) ∧
          (∀ g, guess = some g → BitForm n 3 g x0) ∧
          ((lib f x0 L).length = (orderTuples n 3).length → ∃ r, mpfObjSolve uniq lib o ⟨guess, true, L, uselog⟩ = .ok r ∧
            r.length = (orderTuples n 3).length ∧ BitForm n 3 r (lib f x0 L)) ∧
          (((∃ x, BoxMinimum (orderTuples n 3).length L f x) → BoxMinimum (orderTuples n 3).length L f (lib f x0 L)) →
            ∃ r, mpfObjSolve uniq lib o ⟨guess, true, L, uselog⟩ = .ok r ∧ LeastOrderFlow n 3 L X r) := by
  obtain ⟨m', h1, h2, -⟩ := mpf_made mc n X hX.1 (some m) .triplet false false rng
  obtain rfl := h2 m rfl
  refine ⟨_, h1, fun uniq lib guess L uselog hu hL hg => ?_⟩
  have hstart : ∃ x0, mpfStart n .triplet (toBits X) guess = .ok x0 ∧
      (guess = none → x0 = (orderTuples n 3).map fun t => avg (asBits X) fun s => mono (spins s) t) ∧
      (∀ g, guess = some g → BitForm n 3 g x0) ∧ x0.length = (orderTuples n 3).length := by
    unfold mpfStart
    cases guess with
    | none =>
      refine ⟨_, triplet_means n (toBits X) (by simpa [toBits] using hX.1) (fun s hs => ?_), fun _ => ?_, by simp, by
        simp [orderMeans]⟩
      · obtain ⟨t, ht, rfl⟩ := List.mem_map.1 hs
        rw [List.length_map, (spinData_rows hX t ht).1]
      · rw [toBits_spin hX]
        rfl
    | some g =>
      obtain ⟨x, hx, hc, -⟩ := order_convert n 3 (by norm_num) hn g (hg g rfl)
      refine ⟨x, hc, by simp, ?_, hx.1⟩
      rintro g' h
      rw [← Option.some.inj h]
      exact hx
  obtain ⟨x0, s1, s2, s3, s4⟩ := hstart
  have hres : (lib (mpfObjF .triplet uniq n X true uselog) x0 L).length = (orderTuples n 3).length →
      ∃ r, mpfObjSolve uniq lib ⟨some n, some X, some m', .triplet, mpfInit () (if false then some () else none)
        (if false then some () else none)⟩ ⟨guess, true, L, uselog⟩ = .ok r ∧
        r.length = (orderTuples n 3).length ∧ BitForm n 3 r (lib (mpfObjF .triplet uniq n X true uselog) x0 L) := by
    intro hlen
    obtain ⟨r, r1, r2, r3⟩ := order_back n 3 (by norm_num) hn _ hlen
    obtain ⟨y, -, hy, -⟩ := order_back n 3 (by norm_num) hn x0 s4
    refine ⟨r, ?_, r1, r2⟩
    unfold mpfObjSolve
    rw [if_neg (by simpa using hL)]
    dsimp only [mpfInit]
    simp only [Bool.false_eq_true, if_false]
    rw [s1]
    dsimp only
    rw [adjacent_eq]
    dsimp only
    unfold boundedCall
    rw [hm.kind, triplet_value uniq hu n hn X hX uselog y x0 hy]
    exact r3
  refine ⟨mpfObjF .triplet uniq n X true uselog, x0, s2, s3, hres, fun hlib => ?_⟩
  have hbox := hlib (by
    obtain ⟨r, hr⟩ := least_exists n 3 (by norm_num) hn X hX L hL.le
    obtain ⟨x, hx, -⟩ := hr.2.1
    exact ⟨x, (C121_minimum uniq hu n hn X hX uselog L x).2 ⟨r, hx, hr⟩⟩)
  obtain ⟨r, r1, r2, r3⟩ := hres hbox.1
  obtain ⟨r', f', hl'⟩ := (C121_minimum uniq hu n hn X hX uselog L _).1 hbox
  exact ⟨r, r1, bitForm_inj r2 hl'.1 r3 f' ▸ hl'⟩

/-- C121. Whatever the data, there are parameters with the least flow within the limit; if their {0,1} form is strictly inside,
the limit had no effect. -/
theorem C121_limit (n : ℕ) (hn : 3 ≤ n) (X : Data) (hX : SpinData n X) (L : ℝ) (hL : 0 ≤ L) :
    (∃ r, LeastOrderFlow n 3 L X r) ∧ ∀ r x, LeastOrderFlow n 3 L X r → BitForm n 3 r x → (∀ c ∈ x, |c| < L) →
      ∀ r' : List ℝ, r'.length = (orderTuples n 3).length → orderFlow n 3 X r ≤ orderFlow n 3 X r' :=
  ⟨least_exists n 3 (by norm_num) hn X hX L hL, fun r x h hx hin r' hr' =>
    least_inside n 3 (by norm_num) hn X hX L r x h hx hin r' hr'⟩

/-- C121. Data at exactly the Boltzmann frequencies of `θ`: the parameters with the least flow are `θ`, if its {0,1} form is
within the limit. -/
theorem C121_exact (n : ℕ) (θ : List ℝ) (hθ : θ.length = (orderTuples n 3).length) (X : Data)
    (hX : ∀ δ > 0, CloseTo n (orderE n 3 θ) δ X) (L : ℝ) (x : List ℝ) (hx : BitForm n 3 θ x) (hL : InLimit L x) (r : List ℝ)
    (h : LeastOrderFlow n 3 L X r) : r = θ := by
  have hle := h.2.2 θ x hθ hx hL
  refine List.ext_getElem (h.1.trans hθ.symm) fun i h1 h2 => ?_
  by_contra hne
  have hpos : 0 < |r[i] - θ[i]| := abs_pos.2 (sub_ne_zero.2 hne)
  obtain ⟨δ, hδ, hd⟩ := order_stable_flow n 3 θ hθ _ hpos
  have := (hd X (hX δ hδ) r h.1 hle).2 i h2
  rw [List.getD_eq_getElem _ _ h1, List.getD_eq_getElem _ _ h2] at this
  exact lt_irrefl _ this

/-! ### `Enumerate` -/

/-- Zeros of the functions given to the library, for observables that are defined at `x`. -/
theorem enum_zero_iff (obs : List ℝ → Py (List ℝ)) (c : List ℝ) (maxParam : Option ℝ) (x o : List ℝ) (hne : c ≠ [])
    (ho : obs x = .ok o) (hl : o.length = c.length) :
    (∃ d, enumF obs c maxParam x = .ok d) ∧ (∃ d, enumNorm obs c maxParam x = .ok d) ∧
    (enumF obs c maxParam x = .ok (List.replicate c.length 0) ↔ (∀ m, maxParam = some m → ∀ p ∈ x, |p| ≤ m) ∧ o = c) ∧
    (enumNorm obs c maxParam x = .ok 0 ↔ (∀ m, maxParam = some m → ∀ p ∈ x, |p| ≤ m) ∧ o = c) := by
  have hd : obsDiff obs c x = .ok (List.zipWith (· - ·) o c) := by
    unfold Model.obsDiff
    rw [ho]
    simp only [broadcast2]
    rw [if_pos hl]
  have hdz : List.zipWith (· - ·) o c = List.replicate c.length 0 ↔ o = c := by
    constructor
    · intro h
      refine List.ext_getElem hl fun i h1 h2 => ?_
      have := congrArg (fun l : List ℝ => l.getD i 0) h
      rw [List.getD_eq_getElem _ _ (by simpa using ⟨h1, h2⟩), List.getD_eq_getElem _ _ (by simpa using h2)] at this
      simpa [sub_eq_zero] using this
    · rintro rfl
      rw [List.zipWith_self]
      simp
  have hN : obsDiffNorm obs c x = .ok (Real.sqrt ((List.zipWith (· - ·) o c).map fun x => x * x).sum) := by
    unfold obsDiffNorm
    rw [hd]
  have hNz : obsDiffNorm obs c x = .ok 0 → o = c := by
    intro h
    have := C36_norm_zero obs c none x (fun o' h' => by rw [ho] at h'; rw [← Except.ok.inj h', hl]) h
    rw [show enumF obs c none x = obsDiff obs c x from rfl, hd] at this
    exact hdz.1 (Except.ok.inj this)
  have hNz' : o = c → obsDiffNorm obs c x = .ok 0 := by
    intro h
    rw [hN, hdz.2 h]
    simp
  have hbad : ¬ (c.map fun _ => (0 : ℝ) + 10 ^ 30) = List.replicate c.length 0 := by
    intro h
    obtain ⟨a, l, rfl⟩ := List.exists_cons_of_ne_nil hne
    have := (List.cons.inj h).1
    norm_num at this
  cases maxParam with
  | none =>
    refine ⟨⟨_, hd⟩, ⟨_, hN⟩, ?_, ?_⟩
    · rw [show enumF obs c none x = obsDiff obs c x from rfl, hd]
      simp only [reduceCtorEq, false_imp_iff, implies_true, true_and]
      rw [← hdz]
      exact ⟨Except.ok.inj, congrArg _⟩
    · rw [show enumNorm obs c none x = obsDiffNorm obs c x from rfl]
      simp only [reduceCtorEq, false_imp_iff, implies_true, true_and]
      exact ⟨hNz, hNz'⟩
  | some m =>
    unfold enumF enumNorm
    dsimp only
    by_cases hb : ∃ p ∈ x, |p| > m
    · rw [if_pos hb, if_pos hb]
      have hnot : ¬ ((∀ m', some m = some m' → ∀ p ∈ x, |p| ≤ m') ∧ o = c) := by
        rintro ⟨h, -⟩
        obtain ⟨p, hp, hlt⟩ := hb
        exact absurd (h m rfl p hp) (not_le.2 hlt)
      refine ⟨⟨_, rfl⟩, ⟨_, rfl⟩, ⟨fun h => absurd (Except.ok.inj h) hbad, fun h => absurd h hnot⟩,
        ⟨fun h => absurd (Except.ok.inj h) (by norm_num), fun h => absurd h hnot⟩⟩
    · rw [if_neg hb, if_neg hb]
      have hall : ∀ m', some m = some m' → ∀ p ∈ x, |p| ≤ m' := by
        intro m' h p hp
        rw [← Option.some.inj h]
        by_contra hc
        exact hb ⟨p, hp, not_le.1 hc⟩
      refine ⟨⟨_, hd⟩, ⟨_, hN⟩, ?_, ⟨fun h => ⟨hall, hNz h⟩, fun h => hNz' h.2⟩⟩
      rw [hd]
      exact ⟨fun h => ⟨hall, hdz.1 (Except.ok.inj h)⟩, fun h => congrArg _ (hdz.2 h.2)⟩

theorem triplet_zero_iff {mc : Machine} {n : ℕ} (hn : 3 ≤ n) (hmod : HasTripletModule mc n) {o : ModelObj}
    (he : o.eqns = mc.eqns .triplet n) (brk : ℕ → Bool) (X : Data) (maxParam : Option ℝ) (x : List ℝ)
    (hx : x.length = (orderTuples n 3).length) :
    (∃ d, enumF (fun x => o.calcObservables brk (some x)) (orderMeans n 3 X) maxParam x = .ok d) ∧
    (∃ d, enumNorm (fun x => o.calcObservables brk (some x)) (orderMeans n 3 X) maxParam x = .ok d) ∧
    (enumF (fun x => o.calcObservables brk (some x)) (orderMeans n 3 X) maxParam x =
        .ok (List.replicate (orderTuples n 3).length 0) ↔
      (∀ m, maxParam = some m → ∀ p ∈ x, |p| ≤ m) ∧ ReproducesOrders n 3 x X) ∧
    (enumNorm (fun x => o.calcObservables brk (some x)) (orderMeans n 3 X) maxParam x = .ok 0 ↔
      (∀ m, maxParam = some m → ∀ p ∈ x, |p| ≤ m) ∧ ReproducesOrders n 3 x X) := by
  obtain ⟨e, h1, h2⟩ := hmod
  obtain ⟨e', h1', h2'⟩ := triplet_module n hn
  obtain rfl : e' = e := by rw [h1] at h1'; exact (Except.ok.inj h1').symm
  have hl : (orderMeans n 3 X).length = (orderTuples n 3).length := by simp [orderMeans]
  have := enum_zero_iff (fun x => o.calcObservables brk (some x)) (orderMeans n 3 X) maxParam x _
    (by
      refine List.ne_nil_of_length_pos ?_
      rw [hl, length_orderTuples_three]
      omega)
    (by
      show o.calcObservables brk (some x) = _
      unfold ModelObj.calcObservables
      rw [he, h2]
      exact (h2' x hx).2 brk)
    (by rw [hl, List.length_map])
  rw [hl, ← reproducesOrders_iff] at this
  exact this

theorem triplet_init (mc : Machine) (n : ℕ) (X : Data) (hX : SpinData n X) (m : ModelObj) (rng : ℕ) :
    enumerateInitObs mc (.data n X) (some m) .triplet rng = .ok ⟨some n, some m, some (orderMeans n 3 X)⟩ := by
  unfold enumerateInitObs basicSetupObs solverModel
  dsimp only
  rw [triplet_means n X hX.1 fun s hs => (mem_words.1 (hX.2 s hs)).1]

/-- C121. `Enumerate(X, model=Triplet(...), calc_observables=...)` and `solve` with the equation module present: both return,
whatever the sample, with the vector that the library found; and the function given to the library is zero exactly at the
parameters within the bound for which the model has the mean products of one, two and three spins of the sample. -/
theorem C121_enumerate (mc : Machine) (n : ℕ) (hn : 3 ≤ n) (hmod : HasTripletModule mc n) (X : Data) (hX : SpinData n X)
    (m : ModelObj) (hm : IsTriplet mc n m) (rng : ℕ) :
    ∃ o, enumerateInitObs mc (.data n X) (some m) .triplet rng = .ok o ∧
      ∀ brk root minimize (guess : Option (List ℝ)) (maxParam : Option ℝ) (useRoot : Bool),
        (∀ g, guess = some g → g.length = (orderTuples n 3).length) →
        ∃ f g, enumerateSolve brk root minimize o guess none maxParam useRoot =
          .ok (if useRoot then root f (guess.getD (List.replicate (orderTuples n 3).length 0))
            else minimize g (guess.getD (List.replicate (orderTuples n 3).length 0))) ∧
          ∀ x : List ℝ, x.length = (orderTuples n 3).length →
            (f x = .ok (List.replicate (orderTuples n 3).length 0) ↔
              (∀ m, maxParam = some m → ∀ p ∈ x, |p| ≤ m) ∧ ReproducesOrders n 3 x X) ∧
            (g x = .ok 0 ↔ (∀ m, maxParam = some m → ∀ p ∈ x, |p| ≤ m) ∧ ReproducesOrders n 3 x X) := by
  refine ⟨_, triplet_init mc n X hX m rng, fun brk root minimize guess maxParam useRoot hg => ?_⟩
  refine ⟨enumF (fun x => m.calcObservables brk (some x)) (orderMeans n 3 X) maxParam,
    enumNorm (fun x => m.calcObservables brk (some x)) (orderMeans n 3 X) maxParam, ?_,
    fun x hx => (triplet_zero_iff hn hmod hm.eqns brk X maxParam x hx).2.2⟩
  obtain ⟨x0, hx0⟩ : ∃ x0, x0 = guess.getD (List.replicate (orderTuples n 3).length (0 : ℝ)) := ⟨_, rfl⟩
  have hlen : x0.length = (orderTuples n 3).length := by
    rw [hx0]
    cases hgu : guess with
    | none => simp
    | some g => exact hg g hgu
  rw [← hx0]
  have hl : (orderMeans n 3 X).length = (orderTuples n 3).length := by simp [orderMeans]
  have hset : enumSetup (some (orderMeans n 3 X)) guess none = .ok (x0, orderMeans n 3 X) := by
    unfold enumSetup
    dsimp only
    rw [hl, ← hx0, if_neg (by simpa using hlen)]
    rfl
  obtain ⟨⟨d, hd⟩, ⟨d', hd'⟩, -⟩ := triplet_zero_iff hn hmod hm.eqns brk X maxParam x0 hlen
  unfold enumerateSolve
  dsimp only
  rw [hset]
  dsimp only
  cases useRoot with
  | true => simp [optimCall, hd]
  | false => simp [optimCall, hd']

/-- C121. Parameters with the mean products of the sample are those of the greatest likelihood, and there is no other
vector with that likelihood. -/
theorem C121_maximum_likelihood (n : ℕ) (X : Data) (hX : SpinData n X) (v : List ℝ)
    (hv : v.length = (orderTuples n 3).length) :
    ReproducesOrders n 3 v X ↔
      ∀ w : List ℝ, w.length = (orderTuples n 3).length → w ≠ v → orderLik n 3 w X < orderLik n 3 v X := by
  refine ⟨fun h w hw hne => orderLik_strict n 3 X hX.1 v hv h w hw hne, fun h => ?_⟩
  refine reproducesOrders_of_max n 3 X hX.1 v hv fun w hw => ?_
  by_cases hne : w = v
  · rw [hne]
  · exact (h w hw hne).le

/-- C121. Such parameters exist exactly if no nonzero choice of fields, couplings and triplet interactions makes all rows of
the sample ground states; in particular if every state occurs in the sample. -/
theorem C121_exists_iff (n : ℕ) (X : Data) (hX : SpinData n X) :
    ((∃ v : List ℝ, v.length = (orderTuples n 3).length ∧ ReproducesOrders n 3 v X) ↔
      ¬ ∃ w : List ℝ, w.length = (orderTuples n 3).length ∧ (∃ x ∈ w, x ≠ 0) ∧
        ∀ r ∈ X, ∀ s ∈ words [-1, 1] n, orderE n 3 w r ≤ orderE n 3 w s) ∧
    ((∀ s ∈ words [-1, 1] n, s ∈ X) → ∃ v : List ℝ, v.length = (orderTuples n 3).length ∧ ReproducesOrders n 3 v X) := by
  refine ⟨reproducesOrders_exists_iff n 3 X hX, fun hall => (reproducesOrders_exists_iff n 3 X hX).2 ?_⟩
  rintro ⟨w, hw, ⟨x, hx, hx0⟩, hg⟩
  obtain ⟨s0, hs0⟩ := List.exists_mem_of_ne_nil _ (words_pm_ne n)
  exact hx0 (order_ground_const n 3 w hw ⟨orderE n 3 w s0, fun s hs => le_antisymm (hg s (hall s hs) s0 hs0)
    (hg s0 (hall s0 hs0) s hs)⟩ x hx)

/-- C121. Three spins: there are parameters exactly if all eight states occur in the sample. -/
theorem C121_three_spins (X : Data) (hX : SpinData 3 X) :
    (∃ v : List ℝ, v.length = 7 ∧ ReproducesOrders 3 3 v X) ↔ ∀ s ∈ words [-1, 1] 3, s ∈ X := by
  have ht : orderTuples 3 3 = [[0], [1], [2], [0, 1], [0, 2], [1, 2], [0, 1, 2]] := by decide
  have hl : (orderTuples 3 3).length = 7 := by rw [ht]; rfl
  constructor
  · intro hv s hs
    by_contra hc
    rw [← hl] at hv
    refine (C121_exists_iff 3 X hX).1.1 hv ?_
    have hval : ∀ s ∈ words ([-1, 1] : List ℤ) 3, ∃ a b c : ℤ, s = [a, b, c] ∧ (a = 1 ∨ a = -1) ∧ (b = 1 ∨ b = -1) ∧
        (c = 1 ∨ c = -1) := by
      intro s hs
      obtain ⟨h1, h2⟩ := mem_words.1 hs
      obtain ⟨a, b, c, rfl⟩ := List.length_eq_three.1 h1
      simp at h2
      exact ⟨a, b, c, rfl, by tauto, by tauto, by tauto⟩
    obtain ⟨a, b, c, rfl, ha, hb, hc'⟩ := hval s hs
    have hE : ∀ x y z : ℤ, orderE 3 3 [-(a : ℝ), -b, -c, -(a * b), -(a * c), -(b * c), -(a * b * c)] [x, y, z] =
        (1 + a * x) * (1 + b * y) * (1 + c * z) - 1 := by
      intro x y z
      unfold orderE
      rw [ht]
      simp [dot, mono, spins]
      ring
    refine ⟨[-(a : ℝ), -b, -c, -(a * b), -(a * c), -(b * c), -(a * b * c)], hl.symm, ⟨-(a : ℝ), by simp, ?_⟩, ?_⟩
    · rcases ha with rfl | rfl <;> norm_num
    · intro r hr t ht'
      obtain ⟨x, y, z, rfl, hx, hy, hz⟩ := hval r (hX.2 r hr)
      obtain ⟨x', y', z', rfl, hx', hy', hz'⟩ := hval t ht'
      rw [hE, hE]
      have pos : ∀ p q : ℤ, (p = 1 ∨ p = -1) → (q = 1 ∨ q = -1) → (0 : ℝ) ≤ 1 + p * q := by
        rintro p q (rfl | rfl) (rfl | rfl) <;> norm_num
      have zero : ∀ p q : ℤ, (p = 1 ∨ p = -1) → (q = 1 ∨ q = -1) → p ≠ q → (1 : ℝ) + p * q = 0 := by
        rintro p q (rfl | rfl) (rfl | rfl) h <;> first | exact absurd rfl h | norm_num
      have h0 : (1 + (a : ℝ) * x) * (1 + b * y) * (1 + c * z) = 0 := by
        by_cases h1 : a = x
        · by_cases h2 : b = y
          · by_cases h3 : c = z
            · subst h1 h2 h3
              exact absurd hr hc
            · rw [zero c z hc' hz h3, mul_zero]
          · rw [zero b y hb hy h2, mul_zero, zero_mul]
        · rw [zero a x ha hx h1, zero_mul, zero_mul]
      rw [h0]
      have := mul_nonneg (mul_nonneg (pos a x' ha hx') (pos b y' hb hy')) (pos c z' hc' hz')
      linarith
  · intro h
    rw [← hl]
    exact (C121_exists_iff 3 X hX).2 h

/-- C121. Without equation module `solve` of `Enumerate` raises. -/
theorem C121_no_equations (mc : Machine) (n : ℕ) (h : mc.eqns .triplet n = none) (X : Data) (hX : SpinData n X)
    (m : ModelObj) (hm : IsTriplet mc n m) (rng : ℕ) :
    ∃ o, enumerateInitObs mc (.data n X) (some m) .triplet rng = .ok o ∧
      ∀ brk root minimize useRoot, enumerateSolve brk root minimize o none none none useRoot = .error .typeError := by
  refine ⟨_, triplet_init mc n X hX m rng, fun brk root minimize useRoot => ?_⟩
  have hc : ∀ x, m.calcObservables brk (some x) = .error .typeError := by
    intro x
    unfold ModelObj.calcObservables
    rw [hm.eqns, h, hm.kind]
  unfold enumerateSolve enumSetup
  cases useRoot <;> simp [optimCall, enumF, enumNorm, obsDiffNorm, Model.obsDiff, hc]

/-! ### Samples -/

theorem closeTo_data {n : ℕ} {E : List ℤ → ℝ} {δ : ℝ} {X : Data} (h : CloseTo n E δ X) : SpinData n X :=
  ⟨h.1, fun s hs => by
    obtain ⟨a, b⟩ := mem_words.1 (h.2.1 s hs)
    exact mem_words.2 ⟨a, fun x hx => by have := b x hx; simp at this ⊢; tauto⟩⟩

theorem closeTo_mono {n : ℕ} {E : List ℤ → ℝ} {δ δ' : ℝ} {X : Data} (h : CloseTo n E δ X) (hd : δ ≤ δ') : CloseTo n E δ' X :=
  ⟨h.1, h.2.1, fun s hs => (h.2.2 s hs).trans_le hd⟩

/-- `Enumerate(X, model=Triplet(...), calc_observables=...).solve(...)` returns parameters within `ε` of `θ`, whatever the model's
own parameters, the first guess, and whether zeros or smallest points are looked for. -/
def TripletEnumerateFinds (n : ℕ) (θ : List ℝ) (ε : ℝ) (X : List (List ℤ)) : Prop :=
  ∀ mc rng m, HasTripletModule mc n → IsTriplet mc n m →
    ∃ o, enumerateInitObs mc (.data n X) (some m) .triplet rng = .ok o ∧
      ∀ brk root minimize (guess : Option (List ℝ)) useRoot, FindsZero root → FindsNull minimize →
        (∀ g, guess = some g → g.length = (orderTuples n 3).length) →
        ∃ v, enumerateSolve brk root minimize o guess none none useRoot = .ok v ∧ Near ε v θ

/-- The same for `MPF(X, model=Triplet(...), calc_observables=...).solve(parameter_limits=L, ...)`. -/
def TripletMpfFinds (n : ℕ) (θ : List ℝ) (ε L : ℝ) (X : List (List ℤ)) : Prop :=
  ∀ mc rng m, IsTriplet mc n m →
    ∃ o, mpfObjInit mc (.data n X) (some m) .triplet false false rng = .ok o ∧
      ∀ uniq lib (guess : Option (List ℝ)) uselog, UniqSpec uniq → FindsBoxMin (orderTuples n 3).length lib →
        (∀ g, guess = some g → g.length = (orderTuples n 3).length) →
        ∃ v, mpfObjSolve uniq lib o ⟨guess, true, L, uselog⟩ = .ok v ∧ Near ε v θ

/-- C121. `Enumerate` comes within `ε` of the parameters of the data if the frequencies of the states are close to their
probabilities. -/
theorem C121_enumerate_finds (n : ℕ) (hn : 3 ≤ n) (θ : List ℝ) (hθ : θ.length = (orderTuples n 3).length) (ε : ℝ)
    (hε : 0 < ε) : ∃ δ, 0 < δ ∧ ∀ X, CloseTo n (orderE n 3 θ) δ X → TripletEnumerateFinds n θ ε X := by
  obtain ⟨δ₁, hδ₁, h₁⟩ := order_stable_likelihood n 3 θ hθ ε hε
  obtain ⟨δ₂, hδ₂, h₂⟩ := full_of_close n (orderE n 3 θ)
  refine ⟨min δ₁ δ₂, lt_min hδ₁ hδ₂, fun X hX mc rng m hmod hm => ?_⟩
  have hdata := closeTo_data hX
  obtain ⟨v, hv, hrep⟩ := (C121_exists_iff n X hdata).2 fun s hs => h₂ X (closeTo_mono hX (min_le_right _ _)).2.2 s (by
    obtain ⟨a, b⟩ := mem_words.1 hs
    exact mem_words.2 ⟨a, fun x hx => by have := b x hx; simp at this ⊢; tauto⟩)
  have key : ∀ x : List ℝ, x.length = (orderTuples n 3).length → ReproducesOrders n 3 x X → Near ε x θ := fun x hx hr => by
    refine h₁ X (closeTo_mono hX (min_le_left _ _)) x hx ?_
    by_cases hne : θ = x
    · rw [hne]
    · exact (orderLik_strict n 3 X hX.1 x hx hr θ hθ hne).le
  obtain ⟨o, e1, e2⟩ := C121_enumerate mc n hn hmod X hdata m hm rng
  refine ⟨o, e1, fun brk root minimize guess useRoot hroot hmin hg => ?_⟩
  obtain ⟨f, g, e, hz⟩ := e2 brk root minimize guess none useRoot hg
  have hx0 : (guess.getD (List.replicate (orderTuples n 3).length 0)).length = (orderTuples n 3).length := by
    cases guess with
    | none => simp
    | some g => exact hg g rfl
  refine ⟨_, e, ?_⟩
  cases useRoot
  · obtain ⟨a, b⟩ := hmin g _ ⟨v, hv.trans hx0.symm, (hz v hv).2.2 ⟨by simp, hrep⟩⟩
    exact key _ (a.trans hx0) ((hz _ (a.trans hx0)).2.1 b).2
  · obtain ⟨a, b⟩ := hroot f _ ⟨v, hv.trans hx0.symm, by rw [hx0]; exact (hz v hv).1.2 ⟨by simp, hrep⟩⟩
    rw [hx0] at b
    exact key _ (a.trans hx0) ((hz _ (a.trans hx0)).1.1 b).2

/-- C121. So does `MPF`, if the {0,1} form of the parameters is within the limit. -/
theorem C121_mpf_finds (n : ℕ) (hn : 3 ≤ n) (θ x : List ℝ) (hθ : θ.length = (orderTuples n 3).length) (L : ℝ) (hL : 0 < L)
    (hx : BitForm n 3 θ x) (hin : InLimit L x) (ε : ℝ) (hε : 0 < ε) :
    ∃ δ, 0 < δ ∧ ∀ X, CloseTo n (orderE n 3 θ) δ X → TripletMpfFinds n θ ε L X := by
  obtain ⟨δ, hδ, h⟩ := order_stable_flow n 3 θ hθ ε hε
  refine ⟨δ, hδ, fun X hX mc rng m hm => ?_⟩
  obtain ⟨o, h1, h2⟩ := C121_mpf mc n hn X (closeTo_data hX) m hm rng
  refine ⟨o, h1, fun uniq lib guess uselog hu hlib hg => ?_⟩
  obtain ⟨f, x0, -, -, -, h3⟩ := h2 uniq lib guess L uselog hu hL hg
  obtain ⟨r, e, hr⟩ := h3 (hlib L f x0)
  exact ⟨r, e, h X hX r hr.1 (hr.2.2 θ x hθ hx hin)⟩

/-- `e` is the equation module of the model with triplets of `n` spins in {-1,1}. -/
def TripletModule (n : ℕ) (e : Eqns) : Prop := writeEqns n true (tripletIx n) = .ok e

theorem tripletData_eq (n : ℕ) (hn : 3 ≤ n) (e : Eqns) (he : TripletModule n e) (θ : List ℝ)
    (hθ : θ.length = (orderTuples n 3).length) (size : ℕ) :
    guideData e n size θ = guideSample n size ((words [-1, 1] n).map (boltzmann (words [-1, 1] n) (orderE n 3 θ))) := by
  obtain ⟨e', h1', h2'⟩ := triplet_module n hn
  obtain rfl : e' = e := Except.ok.inj (h1'.symm.trans he)
  unfold guideData
  rw [(h2' θ hθ).1, ofPy, Prog.bind]

/-- C121. The guide's data recipe with a triplet module: for all random numbers as many rows as asked for, independent, and
each distributed as the model with parameters `θ`. -/
theorem C121_data (n : ℕ) (hn : 3 ≤ n) (h30 : n ≤ 30) (e : Eqns) (he : TripletModule n e) (θ : List ℝ)
    (hθ : θ.length = (orderTuples n 3).length) (size : ℕ) :
    Returns (guideData e n size θ) (fun X => X.length = size ∧ ∀ s ∈ X, s ∈ words [-1, 1] n) ∧
    ∀ X : List (List ℤ), X.length = size → (∀ s ∈ X, s ∈ words [-1, 1] n) →
      prob (guideData e n size θ) (· = X) = (X.map (boltzmann (words [-1, 1] n) (orderE n 3 θ))).prod := by
  rw [tripletData_eq n hn e he θ hθ]
  refine ⟨returns_guideSample n (by omega) h30 _ (boltz_nonneg n _) (boltz_sum n _) size, fun X hl hX => ?_⟩
  rw [prob_guideSample n (by omega) h30 _ (boltz_nonneg n _) (boltz_sum n _) size X hl hX,
    sum_boltzmann _ _ (words_pm_ne n)]
  simp

open scoped Classical in
/-- C121. The guide's experiment with triplets. Draw a sample by the recipe and fit a `Triplet` model to it with `Enumerate` or
`MPF`: the probability that one of the fits raises or returns a parameter that is off by `ε` or more is at most `K` divided by
the number of rows. The searches are assumed to find what they look for, if it exists. -/
theorem C121_fit (n : ℕ) (hn : 3 ≤ n) (h30 : n ≤ 30) (θ x : List ℝ) (hθ : θ.length = (orderTuples n 3).length) (L : ℝ)
    (hL : 0 < L) (hx : BitForm n 3 θ x) (hin : InLimit L x) (ε : ℝ) (hε : 0 < ε) :
    ∃ K, ∀ e, TripletModule n e → ∀ size : ℕ, 0 < size →
      prob (guideData e n size θ) (fun X => ¬ (TripletEnumerateFinds n θ ε X ∧ TripletMpfFinds n θ ε L X)) ≤ K / size := by
  obtain ⟨δ₁, hδ₁, h₁⟩ := C121_enumerate_finds n hn θ hθ ε hε
  obtain ⟨δ₂, hδ₂, h₂⟩ := C121_mpf_finds n hn θ x hθ L hL hx hin ε hε
  have hδ : 0 < min δ₁ δ₂ := lt_min hδ₁ hδ₂
  refine ⟨1 / (min δ₁ δ₂) ^ 2, fun e he size hs => ?_⟩
  rw [tripletData_eq n hn e he θ hθ]
  have hK := close_guide n (by omega) h30 (orderE n 3 θ) size _ hδ hs
  rw [div_div, mul_comm ((min δ₁ δ₂) ^ 2)]
  refine le_trans ?_ hK
  refine (finDist_guideSample n (by omega) h30 _ (boltz_nonneg n (orderE n 3 θ)) (boltz_sum n (orderE n 3 θ)) size).mono
    fun X _ => ?_
  by_cases hX : CloseTo n (orderE n 3 θ) (min δ₁ δ₂) X
  · rw [if_neg (not_not.2 ⟨h₁ X (closeTo_mono hX (min_le_left _ _)), h₂ X (closeTo_mono hX (min_le_right _ _))⟩)]
    split_ifs <;> norm_num
  · rw [if_pos hX]
    split_ifs <;> norm_num

/-- Non-vacuity of C121: a machine with the module for three spins, a model, data, the parameters 0 with their {0,1} form within
every limit, and data with exactly their frequencies. -/
example : (∃ mc, HasTripletModule mc 3 ∧ ∃ m, IsTriplet mc 3 m) ∧ SpinData 3 (words [1, -1] 3) ∧
    BitForm 3 3 (List.replicate 7 0) (List.replicate 7 0) ∧ InLimit 1 (List.replicate 7 (0 : ℝ)) ∧
    ∀ δ > 0, CloseTo 3 (orderE 3 3 (List.replicate 7 0)) δ (words [1, -1] 3) := by
  have hl : (orderTuples 3 3).length = 7 := by decide
  have hz : ∀ s, orderE 3 3 (List.replicate 7 0) s = 0 := by
    intro s
    unfold orderE
    rw [dot_zeros _ _ fun x hx => List.eq_of_mem_replicate hx, neg_zero]
  refine ⟨?_, ⟨by decide, by decide⟩, ⟨hl.symm, 0, fun s _ => by rw [hz, hz, add_zero]⟩, fun c hc => ?_, fun δ hδ => ?_⟩
  · obtain ⟨e, he, -⟩ := triplet_module 3 le_rfl
    obtain ⟨-, m, -, -, hm⟩ := C121_model ⟨true, false, 4, fun _ _ => some e⟩ 3 (List.replicate 3 0) (List.replicate 3 0)
      (List.replicate 1 0) rfl rfl rfl 0
    exact ⟨_, ⟨e, he, rfl⟩, m, hm⟩
  · rw [List.eq_of_mem_replicate hc]
    norm_num
  · refine ⟨by decide, fun s hs => hs, fun s hs => ?_⟩
    have hc : (words ([1, -1] : List ℤ) 3).count s = 1 := List.count_eq_one_of_mem (nodup_words (by decide) 3) hs
    have hw : (words ([1, -1] : List ℤ) 3).length = 8 := by decide
    simp only [boltzmann, partition, hz, hc, hw]
    rw [show ((words ([1, -1] : List ℤ) 3).map fun _ => Real.exp (-0)).sum = 8 by
      rw [List.map_const', List.sum_replicate, hw]; simp]
    norm_num
    exact hδ

end Verif.Props
