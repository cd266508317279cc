import Verif.Model.Metropolis
import Verif.Lemmas.Rand
import Verif.Lemmas.Cond
import Verif.Lemmas.PseudoHelpers
import Verif.Lemmas.Mpf2
import Verif.Spec.Boltzmann

namespace Verif.Lemmas
open Verif Verif.Model Verif.Spec Prog

/-! ### One update -/

theorem negAt_eq (s : List ℤ) (i : ℕ) : negAt s i = s.set i (-s.getD i 0) := by
  unfold negAt; rw [mul_neg_one]

theorem negAt_negAt (s : List ℤ) (i : ℕ) : negAt (negAt s i) i = s := by
  rw [negAt_eq, negAt_eq]; exact flip_flip i s

theorem negAt_length (s : List ℤ) (i : ℕ) : (negAt s i).length = s.length := by simp [negAt]

/-- Acceptance with the Metropolis rule. -/
theorem expectation_accept {α : Type} (f : α → ℝ) (de : ℝ) (x y : α) :
    expectation f (if de > 0 then .rand fun u => if u > Real.exp (-de) then .ret x else .ret y else .ret y) =
      min 1 (Real.exp (-de)) * f y + (1 - min 1 (Real.exp (-de))) * f x := by
  by_cases h : de > 0
  · have h1 : Real.exp (-de) ≤ 1 := Real.exp_le_one_iff.2 (by linarith)
    rw [if_pos h, expectation_rand_gt _ _ _ _ (Real.exp_pos _).le h1, min_eq_right h1]
    simp only [expectation_ret]
    ring
  · have h1 : 1 ≤ Real.exp (-de) := Real.one_le_exp (by linarith)
    rw [if_neg h, min_eq_left h1, expectation_ret]
    ring

theorem returns_accept {α : Type} {Q : α → Prop} (de : ℝ) (x y : α) (hx : Q x) (hy : Q y) :
    Returns (if de > 0 then .rand fun u => if u > Real.exp (-de) then .ret x else .ret y else .ret y) Q := by
  split
  · intro u _ _
    dsimp only
    split
    · exact ⟨x, rfl, hx⟩
    · exact ⟨y, rfl, hy⟩
  · exact ⟨y, rfl, hy⟩

/-- Detailed balance of the acceptance rule. -/
theorem metropolis_balance (a b : ℝ) :
    Real.exp (-a) * min 1 (Real.exp (-(b - a))) = Real.exp (-b) * min 1 (Real.exp (-(a - b))) := by
  rw [mul_min_of_nonneg _ _ (Real.exp_pos _).le, mul_min_of_nonneg _ _ (Real.exp_pos _).le,
    ← Real.exp_add, ← Real.exp_add, mul_one, mul_one, show -a + -(b - a) = -b by ring,
    show -b + -(a - b) = -a by ring, min_comm]

theorem boltzmann_balance {α : Type*} (S : List α) (E : α → ℝ) (s t : α) :
    boltzmann S E s * min 1 (Real.exp (-(E t - E s))) = boltzmann S E t * min 1 (Real.exp (-(E s - E t))) := by
  unfold boltzmann
  rw [div_mul_eq_mul_div, metropolis_balance, div_mul_eq_mul_div]

theorem expectation_metropolis (calcE : List ℤ → ℝ) (f : List ℤ × ℝ → ℝ) (i : ℕ) (s : List ℤ) (E0 : ℝ)
    (hi : i < s.length) :
    expectation f (sampleMetropolis calcE (some i) s E0) =
      min 1 (Real.exp (-(calcE (negAt s i) - E0))) * f (negAt s i, calcE (negAt s i) - E0) +
        (1 - min 1 (Real.exp (-(calcE (negAt s i) - E0)))) * f (s, 0) := by
  unfold sampleMetropolis chooseSite
  simp only [Prog.bind, if_pos hi, negAt_negAt]
  exact expectation_accept f _ _ _

theorem returns_metropolis (calcE : List ℤ → ℝ) (i : ℕ) (s : List ℤ) (hi : i < s.length) :
    Returns (sampleMetropolis calcE (some i) s (calcE s)) fun r =>
      (r.1 = s ∨ r.1 = negAt s i) ∧ calcE s + r.2 = calcE r.1 := by
  unfold sampleMetropolis chooseSite
  simp only [Prog.bind, if_pos hi, negAt_negAt]
  refine returns_accept _ _ _ ⟨Or.inl rfl, by simp⟩ ⟨Or.inr rfl, by simp⟩

/-- A random site is a site drawn uniformly. -/
theorem move_none (move : Move) (calcE : List ℤ → ℝ) (hm : move = sampleMetropolis calcE ∨
    move = sampleMetropolisPotts3 calcE) (s : List ℤ) (E0 : ℝ) :
    move none s E0 = (Prog.randint s.length).bind fun i => move (some i) s E0 := by
  rcases hm with rfl | rfl <;> rfl

theorem expectation_randint {α : Type} (f : α → ℝ) (n : ℕ) (hn : 0 < n) (k : ℕ → Prog α) :
    expectation f ((Prog.randint n).bind k) = (∑ i ∈ Finset.range n, expectation f (k i)) / n := by
  obtain ⟨m, rfl⟩ := Nat.exists_eq_add_of_lt hn
  simp only [zero_add, Prog.randint, Prog.bind, expectation_unif]
  push_cast
  rfl

theorem returns_randint {α : Type} {Q : α → Prop} (n : ℕ) (hn : 0 < n) (k : ℕ → Prog α)
    (h : ∀ i < n, Returns (k i) Q) : Returns ((Prog.randint n).bind k) Q := by
  obtain ⟨m, rfl⟩ := Nat.exists_eq_add_of_lt hn
  exact fun i hi => h i (by omega)

/-! ### Programs that keep a distribution of states with their energies -/

/-- The weights `w` of the states `S`, with their energies, are kept by `step`. -/
def Keeps (S : List (List ℤ)) (w : List ℤ → ℝ) (calcE : List ℤ → ℝ)
    (step : List ℤ × ℝ → Prog (List ℤ × ℝ)) : Prop :=
  ∀ f : List ℤ × ℝ → ℝ, (S.map fun s => w s * expectation f (step (s, calcE s))).sum =
    (S.map fun s => w s * f (s, calcE s)).sum

variable {S : List (List ℤ)} {w calcE : List ℤ → ℝ} {ι : Type}

theorem keeps_ret : Keeps S w calcE .ret := fun _ => rfl

theorem keeps_bind {p q : List ℤ × ℝ → Prog (List ℤ × ℝ)} (hp : Keeps S w calcE p)
    (hq : Keeps S w calcE q) : Keeps S w calcE fun st => (p st).bind q := by
  intro f
  simp only [expectation_bind]
  rw [hp fun a => expectation f (q a), hq f]

theorem keeps_forEach {body : ι → List ℤ × ℝ → Prog (List ℤ × ℝ)} (l : List ι)
    (h : ∀ i ∈ l, Keeps S w calcE (body i)) : Keeps S w calcE (forEach body l) := by
  induction l with
  | nil => exact keeps_ret
  | cons i l ih => exact keeps_bind (h i (by simp)) (ih fun j hj => h j (by simp [hj]))

theorem keeps_average {n : ℕ} (hn : 0 < n) {body : ℕ → List ℤ × ℝ → Prog (List ℤ × ℝ)}
    (h : ∀ i < n, Keeps S w calcE (body i)) :
    Keeps S w calcE fun st => (Prog.randint n).bind fun i => body i st := by
  intro f
  simp only [expectation_randint _ n hn, ← mul_div_assoc, Finset.mul_sum]
  rw [list_sum_div, list_sum_finset_comm, Finset.sum_congr rfl fun i hi => h i (Finset.mem_range.1 hi) f,
    Finset.sum_const, Finset.card_range, nsmul_eq_mul]
  field_simp

theorem keeps_congr {p q : List ℤ × ℝ → Prog (List ℤ × ℝ)} (h : ∀ s ∈ S, p (s, calcE s) = q (s, calcE s))
    (hq : Keeps S w calcE q) : Keeps S w calcE p := by
  intro f
  rw [← hq f]
  exact list_sum_congr fun s hs => by rw [h s hs]

/-- The Metropolis update at a given site keeps the Boltzmann distribution. -/
theorem keeps_metropolis (n i : ℕ) (hi : i < n) (calcE : List ℤ → ℝ) :
    Keeps (words [1, -1] n) (boltzmann (words [1, -1] n) calcE) calcE
      fun st => (sampleMetropolis calcE (some i) st.1 st.2).bind fun r => .ret (r.1, st.2 + r.2) := by
  intro f
  obtain ⟨π, hπ⟩ : ∃ π, π = boltzmann (words [1, -1] n) calcE := ⟨_, rfl⟩
  obtain ⟨a, ha⟩ : ∃ a : List ℤ → ℝ, a = fun s => min 1 (Real.exp (-(calcE (negAt s i) - calcE s))) :=
    ⟨_, rfl⟩
  have h1 : ∀ s ∈ words [1, -1] n, boltzmann (words [1, -1] n) calcE s * expectation f
      ((sampleMetropolis calcE (some i) s (calcE s)).bind fun r => .ret (r.1, calcE s + r.2)) =
      π s * f (s, calcE s) + (π s * a s * f (negAt s i, calcE (negAt s i)) - π s * a s * f (s, calcE s)) := by
    intro s hs
    rw [expectation_bind]
    simp only [expectation_ret]
    rw [expectation_metropolis calcE _ i s _ (by rw [(mem_words.1 hs).1]; exact hi), ← hπ, ha]
    dsimp only
    rw [show calcE s + (calcE (negAt s i) - calcE s) = calcE (negAt s i) by ring, add_zero]
    ring
  rw [list_sum_congr h1, list_sum_add, list_sum_sub]
  have h2 : ((words [1, -1] n).map fun s => π s * a s * f (negAt s i, calcE (negAt s i))).sum =
      ((words [1, -1] n).map fun s => π s * a s * f (s, calcE s)).sum := by
    rw [← sum_invol (words [1, -1] n) (nodup_words (by decide) n) (fun s => negAt s i)
      (fun s hs => by rw [negAt_eq]; exact flip_mem_words n i s hs) (fun s _ => negAt_negAt s i)
      fun s => π s * a s * f (s, calcE s)]
    refine list_sum_congr fun s _ => ?_
    rw [ha, hπ]
    dsimp only
    rw [negAt_negAt, boltzmann_balance]
  rw [h2, sub_self, add_zero, hπ]

theorem expectation_potts3 (calcE : List ℤ → ℝ) (f : List ℤ × ℝ → ℝ) (i : ℕ) (s : List ℤ) (E0 : ℝ)
    (hi : i < s.length) :
    expectation f (sampleMetropolisPotts3 calcE (some i) s E0) =
      (∑ r ∈ Finset.range 2, (min 1 (Real.exp (-(calcE (s.set i ((s.getD i 0 + (1 + r)) % 3)) - E0))) *
        f (s.set i ((s.getD i 0 + (1 + r)) % 3), calcE (s.set i ((s.getD i 0 + (1 + r)) % 3)) - E0) +
        (1 - min 1 (Real.exp (-(calcE (s.set i ((s.getD i 0 + (1 + r)) % 3)) - E0)))) * f (s, 0))) / 2 := by
  unfold sampleMetropolisPotts3 chooseSite
  rw [Prog.bind, if_pos hi]
  dsimp only
  rw [expectation_randint f 2 (by norm_num)]
  push_cast
  congr 1
  refine Finset.sum_congr rfl fun r _ => ?_
  rw [List.set_set, set_getD_self s i 0]
  exact expectation_accept f _ _ _

theorem returns_potts3 (calcE : List ℤ → ℝ) (i : ℕ) (s : List ℤ) (hi : i < s.length) :
    Returns (sampleMetropolisPotts3 calcE (some i) s (calcE s)) fun r =>
      (r.1 = s ∨ ∃ k < 2, r.1 = s.set i ((s.getD i 0 + (1 + (k : ℕ))) % 3)) ∧ calcE s + r.2 = calcE r.1 := by
  unfold sampleMetropolisPotts3 chooseSite
  rw [Prog.bind, if_pos hi]
  refine returns_randint 2 (by norm_num) _ fun k hk => ?_
  dsimp only
  rw [List.set_set, set_getD_self s i 0]
  exact returns_accept _ _ _ ⟨Or.inl rfl, by simp⟩ ⟨Or.inr ⟨k, hk, rfl⟩, by simp⟩

/-- The two other states of a site. -/
theorem sum_other_states (G : List ℤ → ℝ) (n i : ℕ) (hi : i < n) (s : List ℤ) (hs : s ∈ words [0, 1, 2] n) :
    ∑ r ∈ Finset.range 2, G (s.set i ((s.getD i 0 + (1 + (r : ℕ))) % 3)) =
      (([0, 1, 2] : List ℤ).map fun v => G (s.set i v)).sum - G s := by
  have hv := getD_mem_of_words hi hs
  have he : s.set i (s.getD i 0) = s := set_getD_self s i 0
  simp only [List.mem_cons, List.not_mem_nil, or_false] at hv
  rw [Finset.sum_range_succ, Finset.sum_range_one]
  rcases hv with h | h | h <;> rw [h] at he ⊢ <;> norm_num [he] <;> ring

/-- The Potts update at a given site keeps the Boltzmann distribution. -/
theorem keeps_potts3 (n i : ℕ) (hi : i < n) (calcE : List ℤ → ℝ) :
    Keeps (words [0, 1, 2] n) (boltzmann (words [0, 1, 2] n) calcE) calcE
      fun st => (sampleMetropolisPotts3 calcE (some i) st.1 st.2).bind fun r => .ret (r.1, st.2 + r.2) := by
  intro f
  obtain ⟨π, hπ⟩ : ∃ π, π = boltzmann (words [0, 1, 2] n) calcE := ⟨_, rfl⟩
  obtain ⟨a, ha⟩ : ∃ a : List ℤ → List ℤ → ℝ, a = fun s t => π s * min 1 (Real.exp (-(calcE t - calcE s))) :=
    ⟨_, rfl⟩
  have hsym : ∀ s t, a s t = a t s := fun s t => by rw [ha, hπ]; exact boltzmann_balance _ _ s t
  have h1 : ∀ s ∈ words [0, 1, 2] n, boltzmann (words [0, 1, 2] n) calcE s * expectation f
      ((sampleMetropolisPotts3 calcE (some i) s (calcE s)).bind fun r => .ret (r.1, calcE s + r.2)) =
      π s * f (s, calcE s) + ((([0, 1, 2] : List ℤ).map fun v => a s (s.set i v) * f (s.set i v, calcE (s.set i v))).sum -
        (([0, 1, 2] : List ℤ).map fun v => a s (s.set i v) * f (s, calcE s)).sum) / 2 := by
    intro s hs
    rw [expectation_bind]
    simp only [expectation_ret]
    rw [expectation_potts3 calcE _ i s _ (by rw [(mem_words.1 hs).1]; exact hi), ← hπ]
    have h2 : ∀ r ∈ Finset.range 2, (min 1 (Real.exp (-(calcE (s.set i ((s.getD i 0 + (1 + (r : ℕ))) % 3)) - calcE s))) *
        f (s.set i ((s.getD i 0 + (1 + r)) % 3), calcE s + (calcE (s.set i ((s.getD i 0 + (1 + r)) % 3)) - calcE s)) +
        (1 - min 1 (Real.exp (-(calcE (s.set i ((s.getD i 0 + (1 + r)) % 3)) - calcE s)))) * f (s, calcE s + 0)) =
        (fun t => min 1 (Real.exp (-(calcE t - calcE s))) * f (t, calcE t) +
          (1 - min 1 (Real.exp (-(calcE t - calcE s)))) * f (s, calcE s)) (s.set i ((s.getD i 0 + (1 + r)) % 3)) := by
      intro r _
      dsimp only
      rw [add_zero, add_sub_cancel]
    rw [Finset.sum_congr rfl h2, sum_other_states (fun t => min 1 (Real.exp (-(calcE t - calcE s))) *
      f (t, calcE t) + (1 - min 1 (Real.exp (-(calcE t - calcE s)))) * f (s, calcE s)) n i hi s hs, ha]
    simp only [List.map_cons, List.map_nil, List.sum_cons, List.sum_nil]
    ring
  rw [list_sum_congr h1, list_sum_add, list_sum_div, list_sum_sub,
    sum_swap (by decide) hi fun s t => a s t * f (t, calcE t)]
  have h2 : ((words [0, 1, 2] n).map fun s => (([0, 1, 2] : List ℤ).map fun v =>
      a (s.set i v) s * f (s, calcE s)).sum).sum = ((words [0, 1, 2] n).map fun s =>
        (([0, 1, 2] : List ℤ).map fun v => a s (s.set i v) * f (s, calcE s)).sum).sum := by
    refine list_sum_congr fun s _ => list_sum_congr fun v _ => ?_
    rw [hsym]
  rw [h2, sub_self, zero_div, add_zero, hπ]

/-! ### Loops -/

theorem expectation_forEach_append {σ : Type} (f : σ → ℝ) (body : ι → σ → Prog σ) (l l' : List ι) (s : σ) :
    expectation f (forEach body (l ++ l') s) =
      expectation (fun t => expectation f (forEach body l' t)) (forEach body l s) := by
  induction l generalizing s with
  | nil => rfl
  | cons i l ih =>
    simp only [List.cons_append, forEach, expectation_bind, ih]

/-- A move that keeps a distribution at every site. -/
structure GoodMove (S : List (List ℤ)) (w calcE : List ℤ → ℝ) (n : ℕ) (move : Move) : Prop where
  length : ∀ s ∈ S, s.length = n
  site : ∀ i < n, Keeps S w calcE fun st => (move (some i) st.1 st.2).bind fun r => .ret (r.1, st.2 + r.2)
  random : ∀ s E0, move none s E0 = (Prog.randint s.length).bind fun i => move (some i) s E0
  returns : ∀ i < n, ∀ s ∈ S, Returns (move (some i) s (calcE s)) fun r => r.1 ∈ S ∧ calcE s + r.2 = calcE r.1

theorem goodMove_metropolis (n : ℕ) (calcE : List ℤ → ℝ) :
    GoodMove (words [1, -1] n) (boltzmann (words [1, -1] n) calcE) calcE n (sampleMetropolis calcE) where
  length s hs := (mem_words.1 hs).1
  site i hi := keeps_metropolis n i hi calcE
  random s E0 := rfl
  returns i hi s hs := by
    refine returns_mono (fun r hr => ⟨?_, hr.2⟩) (returns_metropolis calcE i s (by rw [(mem_words.1 hs).1]; exact hi))
    rcases hr.1 with h | h <;> rw [h]
    · exact hs
    · rw [negAt_eq]; exact flip_mem_words n i s hs

theorem goodMove_potts3 (n : ℕ) (calcE : List ℤ → ℝ) :
    GoodMove (words [0, 1, 2] n) (boltzmann (words [0, 1, 2] n) calcE) calcE n
      (sampleMetropolisPotts3 calcE) where
  length s hs := (mem_words.1 hs).1
  site i hi := keeps_potts3 n i hi calcE
  random s E0 := rfl
  returns i hi s hs := by
    refine returns_mono (fun r hr => ⟨?_, hr.2⟩) (returns_potts3 calcE i s (by rw [(mem_words.1 hs).1]; exact hi))
    rcases hr.1 with h | ⟨k, hk, h⟩ <;> rw [h]
    · exact hs
    · refine set_mem_words hs ?_
      have := Int.emod_nonneg (s.getD i 0 + (1 + (k : ℤ))) (by norm_num : (3 : ℤ) ≠ 0)
      have := Int.emod_lt_of_pos (s.getD i 0 + (1 + (k : ℤ))) (by norm_num : (0 : ℤ) < 3)
      simp only [List.mem_cons, List.not_mem_nil, or_false]
      omega

section
variable {n : ℕ} {move : Move} (hm : GoodMove S w calcE n move) (hn : 0 < n)
include hm hn

theorem keeps_metroIter (systematic : Bool) (j : ℕ) : Keeps S w calcE (metroIter move n systematic j) := by
  unfold metroIter siteArg
  cases systematic
  · refine keeps_congr (q := fun st => (Prog.randint n).bind fun i => (move (some i) st.1 st.2).bind fun r =>
      .ret (r.1, st.2 + r.2)) (fun s hs => ?_) (keeps_average hn hm.site)
    simp only [Bool.false_eq_true, if_false, Prog.ofPy, Prog.bind, hm.random, bind_assoc, hm.length s hs]
  · simp only [if_true, if_neg hn.ne', Prog.ofPy, Prog.bind]
    exact hm.site _ (Nat.mod_lt _ hn)

theorem returns_metroIter (systematic : Bool) (j : ℕ) (st : List ℤ × ℝ) (h1 : st.1 ∈ S) (h2 : st.2 = calcE st.1) :
    Returns (metroIter move n systematic j st) fun r => r.1 ∈ S ∧ r.2 = calcE r.1 := by
  obtain ⟨s, e⟩ := st
  dsimp only at h1 h2
  subst h2
  unfold metroIter siteArg
  have key : ∀ i < n, Returns ((move (some i) s (calcE s)).bind fun r => .ret (r.1, calcE s + r.2))
      fun r => r.1 ∈ S ∧ r.2 = calcE r.1 := fun i hi =>
    returns_bind (hm.returns i hi s h1) fun r hr => returns_ret hr
  cases systematic
  · simp only [Bool.false_eq_true, if_false, Prog.ofPy, Prog.bind, hm.random, bind_assoc, hm.length s h1]
    exact returns_randint n hn _ key
  · simp only [if_true, if_neg hn.ne', Prog.ofPy, Prog.bind]
    exact key _ (Nat.mod_lt _ hn)

theorem keeps_metroRun (systematic : Bool) (m : ℕ) : Keeps S w calcE (metroRun move n systematic m) :=
  keeps_forEach _ fun j _ => keeps_metroIter hm hn systematic j

theorem returns_metroRun (systematic : Bool) (m : ℕ) (st : List ℤ × ℝ) (h1 : st.1 ∈ S) (h2 : st.2 = calcE st.1) :
    Returns (metroRun move n systematic m st) fun r => r.1 ∈ S ∧ r.2 = calcE r.1 :=
  returns_forEach (I := fun r : List ℤ × ℝ => r.1 ∈ S ∧ r.2 = calcE r.1) _
    (fun j _ s hs => returns_metroIter hm hn systematic j s hs.1 hs.2) st ⟨h1, h2⟩

end

end Verif.Lemmas
