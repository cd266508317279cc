/-
The rows recorded from a chain after a burn-in: convergence of each row and of averages.
-/
import Verif.Lemmas.Ergodic3
import Verif.Lemmas.Agree

namespace Verif.Lemmas
open Verif Verif.Model Verif.Spec Prog Filter

variable {α : Type}

/-- `burn` steps, then `m` times `k` steps after which the state is recorded. -/
def chainRows (step : α → Prog α) (burn k m : ℕ) (s : α) : Prog (List α) :=
  (forEach (fun _ : ℕ => step) (List.range burn) s).bind fun st =>
    visits (fun _ : ℕ => forEach (fun _ : ℕ => step) (List.range k)) (List.range m) st

theorem visits_same_length {ι κ : Type} (step : α → Prog α) (l : List ι) (l' : List κ) (h : l.length = l'.length) (s : α) :
    visits (fun _ => step) l s = visits (fun _ => step) l' s := by
  induction l generalizing l' s with
  | nil => cases l' with
    | nil => rfl
    | cons a l' => simp at h
  | cons a l ih => cases l' with
    | nil => simp at h
    | cons a' l' =>
      simp only [visits]
      congr 1
      funext s'
      rw [ih l' (by simpa using h)]

theorem chainRows_eq (step : α → Prog α) (burn k m : ℕ) (s : α) :
    chainRows step burn k m s = (visits (fun _ : ℕ => step) (List.range (burn + m * k)) s).bind fun tr =>
      .ret ((List.range m).map fun b => (s :: tr).getD (burn + (b + 1) * k) s) := by
  have h1 : ∀ st, visits (fun _ : ℕ => forEach (fun _ : ℕ => step) (List.range k)) (List.range m) st =
      (visits (fun _ : ℕ => step) (List.range (m * k)) st).bind fun tr =>
        .ret ((List.range m).map fun b => (st :: tr).getD ((b + 1) * k) st) := by
    intro st
    have e1 := record_visits (fun _ : ℕ => step) (List.range k) (fun x : α => x) (fun x : α => x) m st
    have e2 := record_blocks (forEach (fun _ : ℕ => step) (List.range k)) (fun x : α => x) (fun x : α => x)
      (List.range m) st [] []
    have e3 := congrArg (fun p => p.bind fun r => Prog.ret r.2.1) (e2.symm.trans e1)
    simp only [bind_assoc, Prog.bind, List.nil_append, List.map_id', bind_ret, List.length_range] at e3
    rw [e3, visits_same_length step _ (List.range (m * k)) (by simp)]
  unfold chainRows
  rw [visits_same_length step (List.range (burn + m * k)) (List.range burn ++ List.range (m * k)) (by simp),
    visits_append, forEach_visits, bind_assoc, bind_assoc]
  refine bind_congr_leaves (leaves_visits _ _ _) fun tr htr => ?_
  rw [List.length_range] at htr
  rw [Prog.bind, h1, bind_assoc]
  refine bind_congr_leaves (leaves_visits _ _ _) fun tr' htr' => ?_
  rw [Prog.bind]
  congr 1
  refine List.map_congr_left fun b hb => ?_
  rcases Nat.eq_zero_or_pos ((b + 1) * k) with h | h
  · rw [h, List.getD_cons_zero, add_zero, ← List.cons_append, List.getD_append _ _ _ _ (by simp [htr]), ← htr,
      getD_cons_length]
  · obtain ⟨j, hj⟩ := Nat.exists_eq_succ_of_ne_zero h.ne'
    rw [hj, List.getD_cons_succ, Nat.succ_eq_add_one, ← Nat.add_assoc, List.getD_cons_succ, List.getD_append_right _ _ _ _ (by omega), htr,
      Nat.add_sub_cancel_left]
    have hlt : j < tr'.length := by
      rw [htr', List.length_range]
      have h2 : (b + 1) * k ≤ m * k := Nat.mul_le_mul_right k (List.mem_range.1 hb)
      rw [hj] at h2
      exact h2
    rw [List.getD_eq_getElem _ _ hlt, List.getD_eq_getElem _ _ hlt]

section
variable {S : List α} {step : α → Prog α} (hfin : ∀ s ∈ S, FinDist (step s) (· ∈ S))
include hfin

theorem finDist_chainRows (burn k m : ℕ) (s : α) (hs : s ∈ S) :
    FinDist (chainRows step burn k m s) fun tr => tr.length = m ∧ ∀ x ∈ tr, x ∈ S := by
  have hb : ∀ q, ∀ st ∈ S, FinDist (forEach (fun _ : ℕ => step) (List.range q) st) (· ∈ S) := fun q =>
    finDist_forEach (I := (· ∈ S)) _ fun _ _ => hfin
  refine finDist_bind (hb burn s hs) fun st hst => ?_
  have := finDist_visits (ι := ℕ) (hb k) (List.range m) st hst
  simpa using this

/-- The distribution of one row. -/
theorem expectation_chainRows (burn k m b : ℕ) (hb : b < m) (d : α) (f : α → ℝ) (s : α) (hs : s ∈ S) :
    expectation (fun tr => f (tr.getD b d)) (chainRows step burn k m s) =
      (fun f s => expectation f (step s))^[burn + (b + 1) * k] f s := by
  have hle : (b + 1) * k ≤ m * k := Nat.mul_le_mul_right k hb
  have hv := finDist_visits (ι := ℕ) hfin (List.range (burn + m * k)) s hs
  rw [chainRows_eq, expectation_bind]
  simp only [expectation_ret]
  have e : ∀ tr : List α, ((List.range m).map fun b => (s :: tr).getD (burn + (b + 1) * k) s).getD b d =
      (s :: tr).getD (burn + (b + 1) * k) s := fun tr => by
    rw [List.getD_eq_getElem _ _ (by simpa using hb), List.getElem_map, List.getElem_range]
  simp only [e]
  obtain ⟨N, hN⟩ : ∃ N, N = burn + (b + 1) * k := ⟨_, rfl⟩
  obtain ⟨l, hl⟩ : ∃ l, l = List.range (burn + m * k) := ⟨_, rfl⟩
  have hNl : N ≤ l.length := by rw [hl, List.length_range]; omega
  rw [← hN, ← hl]
  clear e hv hN hl
  induction l generalizing s N with
  | nil =>
    simp only [List.length_nil, Nat.le_zero] at hNl
    subst hNl
    rfl
  | cons i l ih =>
    rw [visits, expectation_bind]
    cases N with
    | zero =>
      simp only [List.getD_cons_zero]
      rw [(hfin s hs).congr (g := fun _ => f s) fun t ht => ?_, (hfin s hs).const]
      · rfl
      · have := (finDist_visits (ι := ℕ) hfin l t ht)
        rw [expectation_bind]
        exact this.const (f s)
    | succ N =>
      rw [Function.iterate_succ_apply']
      refine (hfin s hs).congr fun t ht => ?_
      rw [expectation_bind]
      simp only [expectation_ret, List.getD_cons_succ]
      rw [← ih t ht N (by simpa using hNl)]
      refine (finDist_visits (ι := ℕ) hfin l t ht).congr fun tr htr => ?_
      have hlt : N < (t :: tr).length := by
        rw [List.length_cons, htr.1]
        simp only [List.length_cons] at hNl
        omega
      rw [List.getD_eq_getElem _ _ hlt, List.getD_eq_getElem _ _ hlt]

end

variable [DecidableEq α] {S : List α} {w : α → ℝ} {step : α → Prog α}

/-- Rows approach the distribution. -/
theorem Ergodic.rows_rate (he : Ergodic S w step) (f : α → ℝ) :
    ∃ r : ℕ → ℝ, Tendsto r atTop (nhds 0) ∧ ∀ (burn k m b : ℕ) (d : α), b < m → ∀ s ∈ S,
      |expectation (fun tr => f (tr.getD b d)) (chainRows step burn k m s) - (S.map fun s => w s * f s).sum| ≤
        r (burn + (b + 1) * k) := by
  obtain ⟨r, h1, h2, h3, h4, -⟩ := he.rate f
  refine ⟨r, h2, fun burn k m b d hb s hs => ?_⟩
  rw [expectation_chainRows he.fin burn k m b hb d f s hs]
  have := h4 (List.range (burn + (b + 1) * k)) s hs
  rwa [expectation_forEach_step, List.length_range] at this

/-- Averages over the rows approach the mean. -/
theorem Ergodic.rows_lln (he : Ergodic S w step) (f : α → ℝ) :
    ∃ K, 0 ≤ K ∧ ∀ (burn k m : ℕ), 0 < k → ∀ s ∈ S,
      expectation (fun tr => ((tr.map f).sum - m * (S.map fun s => w s * f s).sum) ^ 2) (chainRows step burn k m s) ≤
        m * K := by
  obtain ⟨K, h0, hK⟩ := he.lln f
  refine ⟨K, h0, fun burn k m hk s hs => ?_⟩
  have hb : ∀ q, ∀ st ∈ S, FinDist (forEach (fun _ : ℕ => step) (List.range q) st) (· ∈ S) := fun q =>
    finDist_forEach (I := (· ∈ S)) _ fun _ _ => he.fin
  unfold chainRows
  rw [expectation_bind]
  have h1 := fun st hst => hK k hk (List.range m) st hst
  simp only [List.length_range] at h1
  have := (hb burn s hs).mono (g := fun _ => m * K) h1
  rwa [(hb burn s hs).const] at this

/-- Bounds that hold for every first state hold for a random first state. -/
theorem FinDist.bound {β : Type} {p : Prog β} {Q : β → Prop} (hp : FinDist p Q) {f : β → ℝ} {μ r : ℝ}
    (h : ∀ b, Q b → |f b - μ| ≤ r) : |expectation f p - μ| ≤ r := by
  have h1 := hp.mono (f := fun _ => μ - r) (g := f) fun b hb => by have := (abs_le.1 (h b hb)).1; linarith
  have h2 := hp.mono (f := f) (g := fun _ => μ + r) fun b hb => by have := (abs_le.1 (h b hb)).2; linarith
  rw [hp.const] at h1 h2
  rw [abs_le]
  constructor <;> linarith

theorem FinDist.le_of {β : Type} {p : Prog β} {Q : β → Prop} (hp : FinDist p Q) {f : β → ℝ} {V : ℝ}
    (h : ∀ b, Q b → f b ≤ V) : expectation f p ≤ V := by
  have := hp.mono (g := fun _ => V) h
  rwa [hp.const] at this

end Verif.Lemmas

namespace Verif.Lemmas
open Verif Verif.Model Verif.Spec Prog Filter

variable {α β : Type}

/-- The result of `p` has the distribution of the rows `g` of a chain from a random first state. -/
def IsRows (p : Prog (List β)) (init : Prog α) (g : α → β) (step : α → Prog α) (burn k m : ℕ) : Prop :=
  ∀ F : List β → ℝ, expectation F p =
    expectation (fun s => expectation (fun tr => F (tr.map g)) (chainRows step burn k m s)) init

variable {p : Prog (List β)} {init : Prog α} {g : α → β} {S : List α} {w : α → ℝ} {step : α → Prog α}
  {burn k m : ℕ}

theorem IsRows.finDist (h : IsRows p init g step burn k m) (hi : FinDist init (· ∈ S))
    (hfin : ∀ s ∈ S, FinDist (step s) (· ∈ S)) : FinDist p fun rows => rows.length = m := by
  have hq : FinDist (init.bind fun s => (chainRows step burn k m s).bind fun tr => .ret (tr.map g))
      fun rows => rows.length = m :=
    finDist_bind hi fun s hs => finDist_bind (finDist_chainRows hfin burn k m s hs) fun tr htr =>
      finDist_ret (by rw [List.length_map, htr.1])
  obtain ⟨ws, h1, h2, h3⟩ := hq
  refine ⟨ws, h1, h2, fun f => ?_⟩
  rw [h, ← h3, expectation_bind]
  simp only [expectation_bind, expectation_ret]

/-- Rows approach the distribution, from every random first state. -/
theorem Ergodic.isRows_rate [DecidableEq α] (he : Ergodic S w step) (g : α → β) (f : β → ℝ) (d : β) :
    ∃ r : ℕ → ℝ, Tendsto r atTop (nhds 0) ∧ ∀ (p : Prog (List β)) (init : Prog α) (burn k m b : ℕ),
      FinDist init (· ∈ S) → IsRows p init g step burn k m → b < m →
      |expectation (fun rows => f (rows.getD b d)) p - (S.map fun s => w s * f (g s)).sum| ≤ r (burn + (b + 1) * k) := by
  obtain ⟨r, h1, h2⟩ := he.rows_rate fun s => f (g s)
  refine ⟨r, h1, fun p init burn k m b hi hp hb => ?_⟩
  rw [hp]
  refine hi.bound fun s hs => ?_
  have := h2 burn k m b s hb s hs
  rw [(finDist_chainRows he.fin burn k m s hs).congr (g := fun tr => f (g (tr.getD b s))) fun tr htr => ?_]
  · exact this
  · rw [List.getD_eq_getElem _ _ (by rw [List.length_map, htr.1]; exact hb), List.getElem_map,
      List.getD_eq_getElem _ _ (by rw [htr.1]; exact hb)]

/-- Averages over the rows approach the mean, from every random first state. -/
theorem Ergodic.isRows_lln [DecidableEq α] (he : Ergodic S w step) (g : α → β) (f : β → ℝ) :
    ∃ K, ∀ (p : Prog (List β)) (init : Prog α) (burn k m : ℕ),
      FinDist init (· ∈ S) → IsRows p init g step burn k m → 0 < k → 0 < m →
      expectation (fun rows => ((rows.map f).sum / m - (S.map fun s => w s * f (g s)).sum) ^ 2) p ≤ K / m := by
  obtain ⟨K, h0, hK⟩ := he.rows_lln fun s => f (g s)
  refine ⟨K, fun p init burn k m hi hp hk hm => ?_⟩
  refine average_of_sum (hp.finDist hi he.fin) (fun rows => (rows.map f).sum) _ K m hm ?_
  rw [hp]
  refine hi.le_of fun s hs => ?_
  have := hK burn k m hk s hs
  simpa only [List.map_map, Function.comp_def] using this

end Verif.Lemmas
