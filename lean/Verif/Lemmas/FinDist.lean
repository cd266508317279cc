/-
Programs whose result takes finitely many values, and the convergence of repeated programs.
-/
import Verif.Lemmas.Rand
import Verif.Lemmas.Mixing

namespace Verif.Lemmas
open Verif Verif.Model Verif.Spec Prog Filter

variable {α β ι : Type}

/-- The result of `p` takes finitely many values, all with property `Q`. -/
def FinDist (p : Prog α) (Q : α → Prop) : Prop :=
  ∃ ws : List (ℝ × α), (∀ x ∈ ws, 0 ≤ x.1 ∧ Q x.2) ∧ (ws.map Prod.fst).sum = 1 ∧
    ∀ f : α → ℝ, expectation f p = (ws.map fun x => x.1 * f x.2).sum

theorem finDist_ret {a : α} {Q : α → Prop} (h : Q a) : FinDist (.ret a) Q :=
  ⟨[(1, a)], by simpa using h, by simp, fun f => by simp⟩

theorem finDist_mono {p : Prog α} {Q R : α → Prop} (h : ∀ a, Q a → R a) (hp : FinDist p Q) : FinDist p R := by
  obtain ⟨ws, h1, h2, h3⟩ := hp
  exact ⟨ws, fun x hx => ⟨(h1 x hx).1, h _ (h1 x hx).2⟩, h2, h3⟩

theorem finDist_bind {p : Prog α} {q : α → Prog β} {Q : α → Prop} {R : β → Prop} (hp : FinDist p Q)
    (hq : ∀ a, Q a → FinDist (q a) R) : FinDist (p.bind q) R := by
  obtain ⟨ws, h1, h2, h3⟩ := hp
  have : ∀ a, ∃ ws' : List (ℝ × β), Q a → (∀ x ∈ ws', 0 ≤ x.1 ∧ R x.2) ∧ (ws'.map Prod.fst).sum = 1 ∧
    ∀ f : β → ℝ, expectation f (q a) = (ws'.map fun x => x.1 * f x.2).sum := fun a => by
    by_cases ha : Q a
    · obtain ⟨ws', h⟩ := hq a ha
      exact ⟨ws', fun _ => h⟩
    · exact ⟨[], fun h => absurd h ha⟩
  choose v hv using this
  refine ⟨ws.flatMap fun x => (v x.2).map fun y => (x.1 * y.1, y.2), ?_, ?_, fun f => ?_⟩
  · intro z hz
    obtain ⟨x, hx, hz⟩ := List.mem_flatMap.1 hz
    obtain ⟨y, hy, rfl⟩ := List.mem_map.1 hz
    have e1 := h1 x hx
    have e2 := (hv x.2 e1.2).1 y hy
    exact ⟨mul_nonneg e1.1 e2.1, e2.2⟩
  · rw [List.map_flatMap, sum_flatMap, ← h2]
    congr 1
    refine List.map_congr_left fun x hx => ?_
    have := (hv x.2 (h1 x hx).2).2.1
    rw [List.map_map]
    change ((v x.2).map fun y => x.1 * y.1).sum = x.1
    rw [List.sum_map_mul_left]
    change x.1 * ((v x.2).map Prod.fst).sum = x.1
    rw [this, mul_one]
  · rw [expectation_bind, h3, List.map_flatMap, sum_flatMap]
    congr 1
    refine List.map_congr_left fun x hx => ?_
    rw [(hv x.2 (h1 x hx).2).2.2 f, List.map_map, ← List.sum_map_mul_left]
    congr 1
    exact List.map_congr_left fun y _ => by simp only [Function.comp]; ring

theorem finDist_randint {Q : α → Prop} (n : ℕ) (hn : 0 < n) (k : ℕ → Prog α) (h : ∀ i < n, FinDist (k i) Q) :
    FinDist ((Prog.randint n).bind k) Q := by
  refine finDist_bind (Q := fun i => i < n) ?_ h
  obtain ⟨m, rfl⟩ := Nat.exists_eq_succ_of_ne_zero hn.ne'
  refine ⟨(List.range (m + 1)).map fun i => (1 / ((m : ℝ) + 1), i), ?_, ?_, fun f => ?_⟩
  · intro x hx
    obtain ⟨i, hi, rfl⟩ := List.mem_map.1 hx
    exact ⟨by positivity, by simpa using hi⟩
  · rw [List.map_map, show (Prod.fst ∘ fun i : ℕ => (1 / ((m : ℝ) + 1), i)) = fun _ => 1 / ((m : ℝ) + 1) from rfl,
      List.map_const', List.sum_replicate, List.length_range, nsmul_eq_mul]
    push_cast
    field_simp
  · simp only [Prog.randint, expectation_unif, expectation_ret, List.map_map]
    rw [sum_map_range, Finset.sum_div]
    exact Finset.sum_congr rfl fun i _ => by simp only [Function.comp]; ring

theorem finDist_rand {Q : α → Prop} (A : ℝ → Prop) [DecidablePred A] (hA : MeasurableSet {u | A u}) {p q : Prog α}
    (hp : FinDist p Q) (hq : FinDist q Q) : FinDist (.rand fun u => if A u then p else q) Q := by
  obtain ⟨ws, h1, h2, h3⟩ := hp
  obtain ⟨ws', h1', h2', h3'⟩ := hq
  obtain ⟨c, hc⟩ : ∃ c, c = (MeasureTheory.volume ({u | A u} ∩ Set.Ioc 0 1)).toReal := ⟨_, rfl⟩
  have c0 : 0 ≤ c := by rw [hc]; exact ENNReal.toReal_nonneg
  have c1 : c ≤ 1 := by
    rw [hc]
    refine ENNReal.toReal_le_of_le_ofReal zero_le_one ?_
    refine (MeasureTheory.measure_mono Set.inter_subset_right).trans ?_
    rw [Real.volume_Ioc]; norm_num
  have hsum : ∀ (d : ℝ) (l : List (ℝ × α)) (g : ℝ × α → ℝ),
      ((l.map fun x => (d * x.1, x.2)).map fun x => x.1 * g (0, x.2)).sum = d * (l.map fun x => x.1 * g (0, x.2)).sum := by
    intro d l g
    rw [List.map_map, ← List.sum_map_mul_left]
    congr 1
    exact List.map_congr_left fun y _ => by simp only [Function.comp]; ring
  refine ⟨(ws.map fun x => (c * x.1, x.2)) ++ ws'.map fun x => ((1 - c) * x.1, x.2), ?_, ?_, fun f => ?_⟩
  · intro x hx
    rcases List.mem_append.1 hx with hx | hx
    · obtain ⟨y, hy, rfl⟩ := List.mem_map.1 hx
      exact ⟨mul_nonneg c0 (h1 y hy).1, (h1 y hy).2⟩
    · obtain ⟨y, hy, rfl⟩ := List.mem_map.1 hx
      exact ⟨mul_nonneg (by linarith) (h1' y hy).1, (h1' y hy).2⟩
  · have e := hsum c ws fun _ => 1
    have e' := hsum (1 - c) ws' fun _ => 1
    simp only [mul_one] at e e'
    rw [List.map_append, List.sum_append]
    refine (congrArg₂ (· + ·) e e').trans ?_
    change c * (ws.map Prod.fst).sum + (1 - c) * (ws'.map Prod.fst).sum = 1
    rw [h2, h2']; ring
  · have e := hsum c ws fun x => f x.2
    have e' := hsum (1 - c) ws' fun x => f x.2
    rw [List.map_append, List.sum_append]
    refine Eq.trans ?_ (congrArg₂ (· + ·) e e').symm
    rw [expectation_rand]
    have : ∀ u : ℝ, expectation f (if A u then p else q) = if A u then expectation f p else expectation f q :=
      fun u => by split <;> rfl
    simp only [this]
    rw [integral_ite A hA, ← hc, h3, h3']
    ring

theorem finDist_forEach {body : ι → α → Prog α} {I : α → Prop} (l : List ι)
    (h : ∀ i ∈ l, ∀ s, I s → FinDist (body i s) I) : ∀ s, I s → FinDist (forEach body l s) I := by
  induction l with
  | nil => exact fun s hs => finDist_ret hs
  | cons i l ih =>
    intro s hs
    exact finDist_bind (h i (by simp) s hs) fun a ha => ih (fun j hj => h j (by simp [hj])) a ha

theorem finDist_mapEach {f : ι → Prog α} {Q : ι → α → Prop} (l : List ι)
    (h : ∀ i ∈ l, FinDist (f i) (Q i)) : FinDist (mapEach f l) fun as => List.Forall₂ Q l as := by
  induction l with
  | nil => exact finDist_ret .nil
  | cons i l ih =>
    exact finDist_bind (h i (by simp)) fun a ha =>
      finDist_bind (ih fun j hj => h j (by simp [hj])) fun as has => finDist_ret (.cons ha has)

/-! ### Expectations -/

theorem FinDist.mono {p : Prog α} {Q : α → Prop} (hp : FinDist p Q) {f g : α → ℝ} (h : ∀ a, Q a → f a ≤ g a) :
    expectation f p ≤ expectation g p := by
  obtain ⟨ws, h1, -, h3⟩ := hp
  rw [h3, h3]
  exact List.sum_le_sum fun x hx => mul_le_mul_of_nonneg_left (h _ (h1 x hx).2) (h1 x hx).1

theorem FinDist.affine {p : Prog α} {Q : α → Prop} (hp : FinDist p Q) (a b : ℝ) (f : α → ℝ) :
    expectation (fun t => a + b * f t) p = a + b * expectation f p := by
  obtain ⟨ws, -, h2, h3⟩ := hp
  rw [h3, h3]
  have : (ws.map fun x => x.1 * (a + b * f x.2)) = ws.map fun x => a * x.1 + b * (x.1 * f x.2) :=
    List.map_congr_left fun x _ => by ring
  rw [this, List.sum_map_add, List.sum_map_mul_left, List.sum_map_mul_left]
  change a * (ws.map Prod.fst).sum + _ = _
  rw [h2, mul_one]

theorem FinDist.sum {p : Prog α} {Q : α → Prop} (hp : FinDist p Q) (l : List ι) (f : ι → α → ℝ) :
    expectation (fun t => (l.map fun i => f i t).sum) p = (l.map fun i => expectation (f i) p).sum := by
  obtain ⟨ws, -, -, h3⟩ := hp
  simp only [h3]
  induction l with
  | nil => simp
  | cons i l ih =>
    simp only [List.map_cons, List.sum_cons]
    rw [← ih, ← List.sum_map_add]
    congr 1
    exact List.map_congr_left fun x _ => by ring

theorem FinDist.const {p : Prog α} {Q : α → Prop} (hp : FinDist p Q) (c : ℝ) : expectation (fun _ => c) p = c := by
  have := hp.affine c 0 fun _ => 0
  simpa using this

theorem FinDist.nonneg {p : Prog α} {Q : α → Prop} (hp : FinDist p Q) {f : α → ℝ} (h : ∀ a, Q a → 0 ≤ f a) :
    0 ≤ expectation f p := by
  rw [← hp.const 0]
  exact hp.mono h

theorem FinDist.congr {p : Prog α} {Q : α → Prop} (hp : FinDist p Q) {f g : α → ℝ} (h : ∀ a, Q a → f a = g a) :
    expectation f p = expectation g p :=
  le_antisymm (hp.mono fun a ha => (h a ha).le) (hp.mono fun a ha => (h a ha).ge)

/-! ### Repeated steps -/

section
variable {S : List α} {step : α → Prog α}

theorem markov_step (h : ∀ s ∈ S, FinDist (step s) (· ∈ S)) : Markov S fun f s => expectation f (step s) where
  mono hfg s hs := (h s hs).mono hfg
  affine a b f s hs := (h s hs).affine a b f

theorem expectation_forEach_step (f : α → ℝ) (l : List ι) (s : α) :
    expectation f (forEach (fun _ => step) l s) = (fun f s => expectation f (step s))^[l.length] f s := by
  induction l generalizing s with
  | nil => rfl
  | cons i l ih =>
    rw [forEach, expectation_bind, List.length_cons, Function.iterate_succ_apply']
    congr 1
    funext t
    exact ih t

theorem finDist_visits (h : ∀ s ∈ S, FinDist (step s) (· ∈ S)) (l : List ι) (s : α) (hs : s ∈ S) :
    FinDist (visits (fun _ : ι => step) l s) fun tr => tr.length = l.length ∧ ∀ x ∈ tr, x ∈ S := by
  induction l generalizing s with
  | nil => exact finDist_ret ⟨rfl, by simp⟩
  | cons i l ih =>
    refine finDist_bind (h s hs) fun t ht => finDist_bind (ih t ht) fun tr htr => finDist_ret ?_
    exact ⟨by simp [htr.1], by simpa [ht] using htr.2⟩

/-- The mean of a sum over the visited states. -/
theorem expectation_visits_sum (h : ∀ s ∈ S, FinDist (step s) (· ∈ S)) (g : α → ℝ) (l : List ι) (s : α) (hs : s ∈ S) :
    expectation (fun tr => (tr.map g).sum) (visits (fun _ : ι => step) l s) =
      ∑ k ∈ Finset.range l.length, (fun f s => expectation f (step s))^[k + 1] g s := by
  have hT := markov_step h
  induction l generalizing s with
  | nil => simp [visits]
  | cons i l ih =>
    rw [visits, expectation_bind]
    have e : ∀ t ∈ S, expectation (fun tr => (tr.map g).sum) ((visits (fun _ : ι => step) l t).bind fun tr => .ret (t :: tr)) =
        g t + ∑ k ∈ Finset.range l.length, (fun f s => expectation f (step s))^[k + 1] g t := by
      intro t ht
      rw [expectation_bind]
      simp only [expectation_ret, List.map_cons, List.sum_cons]
      have := (finDist_visits (ι := ι) h l t ht).affine (g t) 1 fun tr => (tr.map g).sum
      simp only [one_mul] at this
      rw [this, ih t ht]
    rw [(h s hs).congr e, List.length_cons, Finset.sum_range_succ']
    have e2 : (fun t => g t + ∑ k ∈ Finset.range l.length, (fun f s => expectation f (step s))^[k + 1] g t) =
        fun t => ((0 :: (List.range l.length).map (· + 1)).map fun k => (fun f s => expectation f (step s))^[k] g t).sum := by
      funext t
      rw [List.map_cons, List.sum_cons, List.map_map, sum_map_range]
      rfl
    rw [e2, (h s hs).sum, List.map_cons, List.sum_cons, List.map_map, sum_map_range, add_comm]
    congr 1
    refine Finset.sum_congr rfl fun k _ => ?_
    rw [Function.iterate_succ_apply']
    rfl

/-- The second moment of a sum over the visited states grows like their number, if the means of the sums stay bounded. -/
theorem second_moment (h : ∀ s ∈ S, FinDist (step s) (· ∈ S)) (g : α → ℝ) (c B : ℝ) (hc : ∀ s ∈ S, |g s| ≤ c)
    (hB : ∀ M, ∀ s ∈ S, |∑ k ∈ Finset.range M, (fun f s => expectation f (step s))^[k + 1] g s| ≤ B)
    (l : List ι) (s : α) (hs : s ∈ S) :
    expectation (fun tr => (tr.map g).sum ^ 2) (visits (fun _ : ι => step) l s) ≤ l.length * (c ^ 2 + 2 * c * B) := by
  induction l generalizing s with
  | nil => simp [visits]
  | cons i l ih =>
    rw [visits, expectation_bind]
    have e : ∀ t ∈ S, expectation (fun tr => (tr.map g).sum ^ 2)
        ((visits (fun _ : ι => step) l t).bind fun tr => .ret (t :: tr)) ≤
        (l.length + 1) * (c ^ 2 + 2 * c * B) := by
      intro t ht
      have hf := finDist_visits (ι := ι) h l t ht
      rw [expectation_bind]
      simp only [expectation_ret, List.map_cons, List.sum_cons]
      have e1 : (fun tr : List α => (g t + (tr.map g).sum) ^ 2) = fun tr => g t ^ 2 + 1 *
          ([fun tr : List α => 2 * g t * (tr.map g).sum, fun tr => (tr.map g).sum ^ 2].map fun F => F tr).sum := by
        funext tr; simp; ring
      have e3 := hf.affine 0 (2 * g t) fun tr => (tr.map g).sum
      simp only [zero_add] at e3
      rw [e1, hf.affine, hf.sum]
      simp only [List.map_cons, List.map_nil, List.sum_cons, List.sum_nil]
      rw [e3, expectation_visits_sum h g l t ht]
      have b1 := hc t ht
      have b2 := hB l.length t ht
      have b3 := ih t ht
      have b4 : g t ^ 2 ≤ c ^ 2 := sq_le_sq' (abs_le.1 b1).1 (abs_le.1 b1).2
      have b5 := abs_mul (g t) (∑ k ∈ Finset.range l.length, (fun f s => expectation f (step s))^[k + 1] g t)
      have b6 := mul_le_mul b1 b2 (abs_nonneg _) ((abs_nonneg _).trans b1)
      have b7 := le_abs_self (g t * ∑ k ∈ Finset.range l.length, (fun f s => expectation f (step s))^[k + 1] g t)
      nlinarith
    have := (h s hs).mono e
    rw [(h s hs).const] at this
    simpa using this
end

end Verif.Lemmas
