import Verif.Spec.Rand
import Mathlib.MeasureTheory.Integral.IntervalIntegral.Basic
import Mathlib.Analysis.SpecialFunctions.Exp

namespace Verif.Lemmas
open Verif Verif.Model Verif.Spec Prog

variable {α β σ ι : Type}

@[simp] theorem expectation_ret (f : α → ℝ) (a : α) : expectation f (.ret a) = f a := rfl
@[simp] theorem expectation_fail (f : α → ℝ) (e : PyErr) : expectation f (.fail e) = 0 := rfl
@[simp] theorem expectation_unif (f : α → ℝ) (n : ℕ) (k : ℕ → Prog α) :
    expectation f (.unif n k) = (∑ i ∈ Finset.range (n + 1), expectation f (k i)) / (n + 1) := rfl
@[simp] theorem expectation_rand (f : α → ℝ) (k : ℝ → Prog α) :
    expectation f (.rand k) = ∫ u in (0 : ℝ)..1, expectation f (k u) := rfl

/-- The expectation of a composition. -/
theorem expectation_bind (f : β → ℝ) (p : Prog α) (q : α → Prog β) :
    expectation f (p.bind q) = expectation (fun a => expectation f (q a)) p := by
  induction p with
  | ret a => rfl
  | fail e => rfl
  | unif n k ih => simp only [Prog.bind, expectation_unif, ih]
  | rand k ih => simp only [Prog.bind, expectation_rand, ih]

theorem bind_ret (p : Prog α) : p.bind .ret = p := by
  induction p with
  | ret a => rfl
  | fail e => rfl
  | unif n k ih => simp only [Prog.bind, ih]
  | rand k ih => simp only [Prog.bind, ih]

theorem bind_assoc {γ : Type} (p : Prog α) (q : α → Prog β) (r : β → Prog γ) :
    (p.bind q).bind r = p.bind fun a => (q a).bind r := by
  induction p with
  | ret a => rfl
  | fail e => rfl
  | unif n k ih => simp only [Prog.bind, ih]
  | rand k ih => simp only [Prog.bind, ih]

theorem always_mono {P Q : Py α → Prop} (h : ∀ r, P r → Q r) (p : Prog α) (hp : Always P p) : Always Q p := by
  induction p with
  | ret a => exact h _ hp
  | fail e => exact h _ hp
  | unif n k ih => exact fun i hi => ih i (hp i hi)
  | rand k ih => exact fun u h0 h1 => ih u (hp u h0 h1)

theorem returns_mono {p : Prog α} {Q R : α → Prop} (h : ∀ a, Q a → R a) (hp : Returns p Q) : Returns p R :=
  always_mono (fun _ ⟨a, e, ha⟩ => ⟨a, e, h a ha⟩) p hp

theorem returns_ret {a : α} {Q : α → Prop} (h : Q a) : Returns (.ret a) Q := ⟨a, rfl, h⟩

theorem returns_bind {p : Prog α} {q : α → Prog β} {Q : α → Prop} {R : β → Prop} (hp : Returns p Q)
    (hq : ∀ a, Q a → Returns (q a) R) : Returns (p.bind q) R := by
  induction p with
  | ret a => obtain ⟨b, hb, h⟩ := hp; cases hb; exact hq _ h
  | fail e => obtain ⟨b, hb, h⟩ := hp; cases hb
  | unif n k ih => exact fun i hi => ih i (hp i hi)
  | rand k ih => exact fun u h0 h1 => ih u (hp u h0 h1)

theorem returns_and {p : Prog α} {Q R : α → Prop} (hq : Returns p Q) (hr : Returns p R) :
    Returns p fun a => Q a ∧ R a := by
  induction p with
  | ret a =>
    obtain ⟨b, hb, h⟩ := hq; cases hb
    obtain ⟨b, hb, h'⟩ := hr; cases hb
    exact ⟨_, rfl, h, h'⟩
  | fail e => obtain ⟨b, hb, h⟩ := hq; cases hb
  | unif n k ih => exact fun i hi => ih i (hq i hi) (hr i hi)
  | rand k ih => exact fun u h0 h1 => ih u (hq u h0 h1) (hr u h0 h1)

theorem always_fail_bind {q : α → Prog β} {e : PyErr} {p : Prog α} (hp : Always (fun r => r = .error e) p) :
    Always (fun r => r = .error e) (p.bind q) := by
  induction p with
  | ret a => cases hp
  | fail e' => cases hp; rfl
  | unif n k ih => exact fun i hi => ih i (hp i hi)
  | rand k ih => exact fun u h0 h1 => ih u (hp u h0 h1)

/-- A loop keeps an invariant. -/
theorem returns_forEach {body : ι → σ → Prog σ} {I : σ → Prop} (l : List ι)
    (h : ∀ i ∈ l, ∀ s, I s → Returns (body i s) I) : ∀ s, I s → Returns (forEach body l s) I := by
  induction l with
  | nil => exact fun s hs => returns_ret hs
  | cons i l ih =>
    intro s hs
    exact returns_bind (h i (by simp) s hs) (ih fun j hj => h j (by simp [hj]))

theorem returns_mapEach {f : ι → Prog α} {Q : ι → α → Prop} (l : List ι)
    (h : ∀ i ∈ l, Returns (f i) (Q i)) : Returns (mapEach f l) fun as => List.Forall₂ Q l as := by
  induction l with
  | nil => exact returns_ret .nil
  | cons i l ih =>
    exact returns_bind (h i (by simp)) fun a ha =>
      returns_bind (ih fun j hj => h j (by simp [hj])) fun as has => returns_ret (.cons ha has)

/-- A property that holds whatever is drawn holds for every generator with numbers in the right ranges. -/
theorem always_run {P : Py α → Prop} (g : Gen σ) (hg : g.Valid) (p : Prog α) (hp : Always P p) :
    ∀ s, P (run g p s).1 := by
  induction p with
  | ret a => exact fun _ => hp
  | fail e => exact fun _ => hp
  | unif n k ih => exact fun s => ih _ (hp _ (hg.int_le n s)) _
  | rand k ih => exact fun s => ih _ (hp _ (hg.unit_nonneg s) (hg.unit_lt s)) _

/-- The generator that hands out the numbers of a list. -/
noncomputable def listGen : Gen (List ℝ) where
  int n s := (min n ⌊s.headD 0⌋₊, s.tail)
  unit s := (if 0 ≤ s.headD 0 ∧ s.headD 0 < 1 then s.headD 0 else 0, s.tail)

theorem listGen_valid : listGen.Valid where
  int_le n s := min_le_left _ _
  unit_nonneg s := by unfold listGen; dsimp only; split <;> simp_all
  unit_lt s := by unfold listGen; dsimp only; split <;> simp_all

/-- Conversely, what holds for every generator holds whatever is drawn. -/
theorem run_always {P : Py α → Prop} (p : Prog α) (h : ∀ s, P (run listGen p s).1) : Always P p := by
  induction p with
  | ret a => exact h []
  | fail e => exact h []
  | unif n k ih =>
    intro i hi
    refine ih i fun s => ?_
    have := h ((i : ℝ) :: s)
    simpa [run, listGen, hi] using this
  | rand k ih =>
    intro u h0 h1
    refine ih u fun s => ?_
    have := h (u :: s)
    simpa [run, listGen, h0, h1] using this

/-! ### Expectations -/

/-- Probability of a comparison with a uniform number. -/
theorem integral_ite (A : ℝ → Prop) [DecidablePred A] (hA : MeasurableSet {u | A u}) (x y : ℝ) :
    ∫ u in (0 : ℝ)..1, (if A u then x else y) =
      (MeasureTheory.volume ({u | A u} ∩ Set.Ioc 0 1)).toReal * (x - y) + y := by
  have h : (fun u : ℝ => if A u then x else y) = fun u => {u | A u}.indicator (fun _ => x - y) u + y := by
    funext u
    by_cases hu : A u <;> simp [Set.indicator, hu]
  rw [intervalIntegral.integral_of_le zero_le_one, h, MeasureTheory.integral_add
    ((MeasureTheory.integrable_const _).indicator hA) (MeasureTheory.integrable_const _),
    MeasureTheory.integral_indicator_const _ hA]
  simp [MeasureTheory.Measure.real, MeasureTheory.Measure.restrict_apply hA]

/-- `rng.rand() > a`. -/
theorem expectation_rand_gt (f : α → ℝ) (p q : Prog α) (a : ℝ) (h0 : 0 ≤ a) (h1 : a ≤ 1) :
    expectation f (.rand fun u => if u > a then p else q) =
      (1 - a) * expectation f p + a * expectation f q := by
  have : ∀ u : ℝ, expectation f (if u > a then p else q) =
      if u > a then expectation f p else expectation f q := fun u => by split <;> rfl
  rw [expectation_rand]
  simp only [this]
  rw [integral_ite (fun u => u > a) measurableSet_Ioi]
  have hs : {u : ℝ | u > a} ∩ Set.Ioc 0 1 = Set.Ioc a 1 := by
    ext u; simp only [Set.mem_inter_iff, Set.mem_ofPred_eq, Set.mem_Ioc]
    exact ⟨fun h => ⟨h.1, h.2.2⟩, fun h => ⟨h.1, lt_of_le_of_lt h0 h.1, h.2⟩⟩
  rw [hs, Real.volume_Ioc, ENNReal.toReal_ofReal (by linarith)]
  ring

/-- `rng.rand() < a`. -/
theorem expectation_rand_lt (f : α → ℝ) (p q : Prog α) (a : ℝ) (h0 : 0 ≤ a) :
    expectation f (.rand fun u => if u < a then p else q) =
      min 1 a * expectation f p + (1 - min 1 a) * expectation f q := by
  have : ∀ u : ℝ, expectation f (if u < a then p else q) =
      if u < a then expectation f p else expectation f q := fun u => by split <;> rfl
  rw [expectation_rand]
  simp only [this]
  rw [integral_ite (fun u => u < a) measurableSet_Iio]
  have hv : (MeasureTheory.volume ({u : ℝ | u < a} ∩ Set.Ioc 0 1)).toReal = min 1 a := by
    rcases le_or_gt a 1 with h | h
    · have hs : {u : ℝ | u < a} ∩ Set.Ioc 0 1 = Set.Ioo 0 a := by
        ext u; simp only [Set.mem_inter_iff, Set.mem_ofPred_eq, Set.mem_Ioc, Set.mem_Ioo]
        exact ⟨fun h => ⟨h.2.1, h.1⟩, fun h' => ⟨h'.2, h'.1, by linarith [h'.2]⟩⟩
      rw [hs, Real.volume_Ioo, ENNReal.toReal_ofReal (by linarith), min_eq_right h, sub_zero]
    · have hs : {u : ℝ | u < a} ∩ Set.Ioc 0 1 = Set.Ioc 0 1 := by
        ext u; simp only [Set.mem_inter_iff, Set.mem_ofPred_eq, Set.mem_Ioc]
        exact ⟨fun h => h.2, fun h' => ⟨by linarith [h'.2], h'⟩⟩
      rw [hs, Real.volume_Ioc, ENNReal.toReal_ofReal (by linarith), min_eq_left h.le, sub_zero]
  rw [hv]
  ring

/-- The expectation uses `f` only at outcomes that can occur. -/
theorem expectation_congr {f g : α → ℝ} {Q : α → Prop} (p : Prog α) (hp : Returns p Q)
    (h : ∀ a, Q a → f a = g a) : expectation f p = expectation g p := by
  induction p with
  | ret a => obtain ⟨b, hb, hq⟩ := hp; cases hb; exact h _ hq
  | fail e => rfl
  | unif n k ih =>
    rw [expectation_unif, expectation_unif]
    congr 1
    exact Finset.sum_congr rfl fun i hi => ih i (hp i (by simpa [Nat.lt_succ_iff] using hi))
  | rand k ih =>
    rw [expectation_rand, expectation_rand]
    refine intervalIntegral.integral_congr_ae ?_
    have : ∀ᵐ u : ℝ ∂MeasureTheory.volume, u ≠ 1 := by
      simp [MeasureTheory.ae_iff]
    filter_upwards [this] with u hu hm
    rw [Set.uIoc_of_le zero_le_one] at hm
    exact ih u (hp u hm.1.le (lt_of_le_of_ne hm.2 hu))

/-- The total probability of a program that does not raise. -/
theorem expectation_const (c : ℝ) {Q : α → Prop} (p : Prog α) (hp : Returns p Q) :
    expectation (fun _ => c) p = c := by
  induction p with
  | ret a => rfl
  | fail e => obtain ⟨b, hb, _⟩ := hp; cases hb
  | unif n k ih =>
    rw [expectation_unif, Finset.sum_congr rfl fun i hi => ih i (hp i (by simpa [Nat.lt_succ_iff] using hi))]
    simp only [Finset.sum_const, Finset.card_range, nsmul_eq_mul]
    push_cast
    field_simp
  | rand k ih =>
    rw [expectation_rand]
    have : ∫ u in (0 : ℝ)..1, expectation (fun _ => c) (k u) = ∫ u in (0 : ℝ)..1, c := by
      refine intervalIntegral.integral_congr_ae ?_
      have : ∀ᵐ u : ℝ ∂MeasureTheory.volume, u ≠ 1 := by simp [MeasureTheory.ae_iff]
      filter_upwards [this] with u hu hm
      rw [Set.uIoc_of_le zero_le_one] at hm
      exact ih u (hp u hm.1.le (lt_of_le_of_ne hm.2 hu))
    rw [this]
    simp

/-- A program whose result has a certain value of `f`. -/
theorem expectation_certain {f : α → ℝ} {c : ℝ} (p : Prog α) (hp : Returns p fun a => f a = c) :
    expectation f p = c := by
  rw [expectation_congr (g := fun _ => c) p hp fun a ha => ha]
  exact expectation_const c p hp

end Verif.Lemmas
