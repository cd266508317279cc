import Verif.Lemmas.Rand2
import Verif.Lemmas.Metropolis2
import Verif.Model.CppSampler

namespace Verif.Lemmas
open Verif Verif.Model Verif.Spec Prog

variable {α β σ τ ι : Type}

/-- Two programs that make the same draws and, whatever is drawn, end in the same way. -/
inductive Agree : Prog α → Prog α → Prop
  | ret (a : α) : Agree (.ret a) (.ret a)
  | fail (e : PyErr) : Agree (.fail e) (.fail e)
  | unif (n : ℕ) {k k' : ℕ → Prog α} (h : ∀ i ≤ n, Agree (k i) (k' i)) : Agree (.unif n k) (.unif n k')
  | rand {k k' : ℝ → Prog α} (h : ∀ u, 0 ≤ u → u < 1 → Agree (k u) (k' u)) : Agree (.rand k) (.rand k')

theorem Agree.refl (p : Prog α) : Agree p p := by
  induction p with
  | ret a => exact .ret a
  | fail e => exact .fail e
  | unif n k ih => exact .unif n fun i _ => ih i
  | rand k ih => exact .rand fun u _ _ => ih u

theorem Agree.of_eq {p q : Prog α} (h : p = q) : Agree p q := h ▸ .refl p

theorem Agree.symm {p q : Prog α} (h : Agree p q) : Agree q p := by
  induction h with
  | ret a => exact .ret a
  | fail e => exact .fail e
  | unif n _ ih => exact .unif n ih
  | rand _ ih => exact .rand ih

theorem Agree.trans {p q r : Prog α} (h : Agree p q) (h' : Agree q r) : Agree p r := by
  induction h generalizing r with
  | ret a => exact h'
  | fail e => exact h'
  | unif n _ ih => cases h' with
    | unif _ h2 => exact .unif n fun i hi => ih i hi (h2 i hi)
  | rand _ ih => cases h' with
    | rand h2 => exact .rand fun u h0 h1 => ih u h0 h1 (h2 u h0 h1)

/-- The same results with every generator. -/
theorem Agree.run {p q : Prog α} (h : Agree p q) (g : Gen σ) (hg : g.Valid) :
    ∀ s, run g p s = run g q s := by
  induction h with
  | ret a => exact fun _ => rfl
  | fail e => exact fun _ => rfl
  | unif n _ ih => exact fun s => ih _ (hg.int_le n s) _
  | rand _ ih => exact fun s => ih _ (hg.unit_nonneg s) (hg.unit_lt s) _

/-- The same expectations. -/
theorem Agree.expectation {p q : Prog α} (h : Agree p q) (f : α → ℝ) :
    expectation f p = expectation f q := by
  induction h with
  | ret a => rfl
  | fail e => rfl
  | unif n _ ih =>
    rw [expectation_unif, expectation_unif]
    congr 1
    exact Finset.sum_congr rfl fun i hi => ih i (by simpa [Nat.lt_succ_iff] using hi)
  | rand _ ih =>
    rw [expectation_rand, expectation_rand]
    refine intervalIntegral.integral_congr_ae ?_
    have : ∀ᵐ u : ℝ ∂MeasureTheory.volume, u ≠ 1 := by
      simp [MeasureTheory.ae_iff]
    filter_upwards [this] with u hu hm
    rw [Set.uIoc_of_le zero_le_one] at hm
    exact ih u hm.1.le (lt_of_le_of_ne hm.2 hu)

theorem Agree.always {p q : Prog α} (h : Agree p q) {P : Py α → Prop} (hp : Always P p) : Always P q := by
  induction h with
  | ret a => exact hp
  | fail e => exact hp
  | unif n _ ih => exact fun i hi => ih i hi (hp i hi)
  | rand _ ih => exact fun u h0 h1 => ih u h0 h1 (hp u h0 h1)

theorem Agree.returns {p q : Prog α} (h : Agree p q) {Q : α → Prop} (hp : Returns p Q) : Returns q Q :=
  h.always hp

theorem Agree.bind {p q : Prog α} {F G : α → Prog β} {Q : α → Prop} (h : Agree p q) (hp : Returns p Q)
    (hF : ∀ a, Q a → Agree (F a) (G a)) : Agree (p.bind F) (q.bind G) := by
  induction h with
  | ret a => obtain ⟨b, hb, hq⟩ := hp; cases hb; exact hF _ hq
  | fail e => exact .fail e
  | unif n _ ih => exact .unif n fun i hi => ih i hi (hp i hi)
  | rand _ ih => exact .rand fun u h0 h1 => ih u h0 h1 (hp u h0 h1)

/-- Composition without a condition on the results. -/
theorem Agree.bind' {p q : Prog α} {F G : α → Prog β} (h : Agree p q)
    (hF : ∀ a, Agree (F a) (G a)) : Agree (p.bind F) (q.bind G) := by
  induction h with
  | ret a => exact hF _
  | fail e => exact .fail e
  | unif n _ ih => exact .unif n fun i hi => ih i hi
  | rand _ ih => exact .rand fun u h0 h1 => ih u h0 h1

theorem agree_randint {n : ℕ} {F G : ℕ → Prog β} (h : ∀ i < n, Agree (F i) (G i)) :
    Agree ((Prog.randint n).bind F) ((Prog.randint n).bind G) := by
  cases n with
  | zero => exact .fail _
  | succ n => exact .unif n fun i hi => h i (by omega)

theorem agree_forEach {step step' : ι → σ → Prog σ} {I : σ → Prop} (l : List ι)
    (hI : ∀ i ∈ l, ∀ s, I s → Returns (step i s) I)
    (h : ∀ i ∈ l, ∀ s, I s → Agree (step i s) (step' i s)) :
    ∀ s, I s → Agree (forEach step l s) (forEach step' l s) := by
  induction l with
  | nil => exact fun s _ => .ret s
  | cons i l ih =>
    intro s hs
    exact (h i (by simp) s hs).bind (hI i (by simp) s hs)
      (ih (fun j hj => hI j (by simp [hj])) fun j hj => h j (by simp [hj]))

theorem agree_visits {step step' : ι → σ → Prog σ} {I : σ → Prop} (l : List ι)
    (hI : ∀ i ∈ l, ∀ s, I s → Returns (step i s) I)
    (h : ∀ i ∈ l, ∀ s, I s → Agree (step i s) (step' i s)) :
    ∀ s, I s → Agree (visits step l s) (visits step' l s) := by
  induction l with
  | nil => exact fun s _ => .ret _
  | cons i l ih =>
    intro s hs
    exact (h i (by simp) s hs).bind (hI i (by simp) s hs) fun s' hs' =>
      (ih (fun j hj => hI j (by simp [hj])) (fun j hj => h j (by simp [hj])) s' hs').bind' fun tr => .refl _

theorem agree_mapEach {f g : ι → Prog α} (l : List ι) (h : ∀ i ∈ l, Agree (f i) (g i)) :
    Agree (mapEach f l) (mapEach g l) := by
  induction l with
  | nil => exact .ret _
  | cons i l ih =>
    exact (h i (by simp)).bind' fun a => (ih fun j hj => h j (by simp [hj])).bind' fun as => .refl _

/-! ### A loop with a counter in its state -/

/-- The values of the counter. -/
def counters (next : ℕ → ℕ) : ℕ → ℕ → List ℕ
  | _, 0 => []
  | c, m + 1 => c :: counters next (next c) m

theorem counters_length (next : ℕ → ℕ) (m : ℕ) : ∀ c, (counters next c m).length = m := by
  induction m with
  | zero => exact fun c => rfl
  | succ m ih => exact fun c => by simp [counters, ih]

theorem counters_succ (m : ℕ) : ∀ c, counters (· + 1) c m = List.range' c m := by
  induction m with
  | zero => exact fun c => rfl
  | succ m ih => intro c; rw [counters, ih, List.range'_succ]

theorem counters_id (m : ℕ) : ∀ c, counters (fun c => c) c m = List.replicate m c := by
  induction m with
  | zero => exact fun c => rfl
  | succ m ih => intro c; rw [counters, ih, List.replicate_succ]

theorem visits_counter (iter : σ × ℕ → Prog (σ × ℕ)) (body : ℕ → σ → Prog σ) (next : ℕ → ℕ)
    (h : ∀ st c, iter (st, c) = (body c st).bind fun r => .ret (r, next c)) (l : List ι) : ∀ st c,
    (visits (fun _ x => iter x) l (st, c)).bind (fun tr => .ret (tr.map Prod.fst)) =
      visits body (counters next c l.length) st := by
  obtain rfl : iter = fun x => (body x.2 x.1).bind fun r => .ret (r, next x.2) := funext fun x => h x.1 x.2
  induction l with
  | nil => exact fun st c => rfl
  | cons i l ih =>
    intro st c
    simp only [visits, List.length_cons, counters, bind_assoc, Prog.bind]
    congr 1
    funext s'
    rw [← ih s' (next c), bind_assoc]
    rfl

/-- Recording the state after each block of steps, as one sequence of steps. -/
theorem record_one (step : ι → σ → Prog σ) (L : List ι) (g : σ → α) (m : ℕ) (s : σ) :
    forEach (fun (_ : ℕ) acc => (forEach step L acc.1).bind fun st' => .ret (st', acc.2 ++ [g st']))
        (List.range m) (s, []) =
      (visits step ((List.range m).flatMap fun _ => L) s).bind fun tr =>
        .ret (tr.getLastD s, (List.range m).map fun b => g ((s :: tr).getD ((b + 1) * L.length) s)) := by
  have h := forEach_proj (fun x : σ × List α × List α => (x.1, x.2.1))
    (fun (_ : ℕ) acc => (forEach step L acc.1).bind fun st' =>
      .ret (st', acc.2.1 ++ [g st'], acc.2.2 ++ [g st']))
    (fun (_ : ℕ) acc => (forEach step L acc.1).bind fun st' => .ret (st', acc.2 ++ [g st']))
    (fun i x => by rw [bind_assoc]; rfl) (List.range m) (s, [], [])
  rw [record_visits, bind_assoc] at h
  exact h.symm

theorem getLastD_eq_getD (tr : List σ) (s : σ) : tr.getLastD s = (s :: tr).getD tr.length s := by
  rw [getD_cons_length]

/-- The rows of the compiled sampler: the states after `burnIn + nIters`, `burnIn + 2 nIters`, ... updates of
one sequence of updates. -/
theorem cppChain_visits (iter : (List ℤ × ℝ) × ℕ → Prog ((List ℤ × ℝ) × ℕ))
    (body : ℕ → List ℤ × ℝ → Prog (List ℤ × ℝ)) (next : ℕ → ℕ)
    (h : ∀ st c, iter (st, c) = (body c st).bind fun r => .ret (r, next c))
    (nSamples burnIn nIters : ℕ) (s : List ℤ) (e : ℝ) :
    cppChain iter nSamples burnIn nIters s e =
      (visits body (counters next 0 (burnIn + nSamples * nIters)) (s, e)).bind fun tr =>
        .ret ((List.range nSamples).map fun b => (((s, e) :: tr).getD (burnIn + (b + 1) * nIters) (s, e)).1) := by
  obtain ⟨L, hL⟩ : ∃ L : List ℕ, L = (List.range nSamples).flatMap fun _ => List.range nIters := ⟨_, rfl⟩
  have hLl : L.length = nSamples * nIters := by rw [hL]; simp
  have hlen : burnIn + nSamples * nIters = (List.range burnIn ++ L).length := by simp [hLl]
  rw [hlen, ← visits_counter iter body next h, visits_append]
  unfold cppChain
  rw [forEach_visits]
  simp only [bind_assoc, Prog.bind, record_one (fun (_ : ℕ) st => iter st) (List.range nIters)
    (fun x : (List ℤ × ℝ) × ℕ => x.1.1), List.length_range]
  refine bind_congr_leaves (leaves_visits _ _ _) fun pre hpre => ?_
  rw [← hL]
  refine bind_congr_leaves (leaves_visits _ _ _) fun tr htr => ?_
  rw [List.length_range] at hpre
  congr 1
  refine List.map_congr_left fun b hb => ?_
  have hb' : (b + 1) * nIters ≤ tr.length := by
    rw [htr, hLl]; exact Nat.mul_le_mul_right _ (List.mem_range.1 hb)
  have e1 : ∀ N, N ≤ tr.length → (((pre.getLastD ((s, e), 0)) :: tr).getD N (pre.getLastD ((s, e), 0))) =
      (((s, e), 0) :: (pre ++ tr)).getD (burnIn + N) ((s, e), 0) := by
    intro N hN
    cases N with
    | zero =>
      rw [List.getD_cons_zero, Nat.add_zero, ← List.cons_append, List.getD_append _ _ _ _ (by simp [hpre]),
        ← hpre, getD_cons_length]
    | succ N =>
      rw [List.getD_cons_succ, ← List.cons_append, List.getD_append_right _ _ _ _ (by simp [hpre]),
        List.getD_eq_getElem _ _ (by omega), List.getD_eq_getElem _ _ (by simp [hpre]; omega)]
      congr 1
      simp only [List.length_cons, hpre]
      omega
  rw [e1 _ hb', show (s, e) :: (pre ++ tr).map Prod.fst = (((s, e), 0) :: (pre ++ tr)).map Prod.fst from rfl,
    List.getD_eq_getElem _ _ (by simp [hpre]; omega), List.getD_eq_getElem _ _ (by simp [hpre]; omega),
    List.getElem_map]

end Verif.Lemmas
