import Verif.Lemmas.Agree
import Verif.Lemmas.CppEnergy
import Verif.Lemmas.Metropolis3

namespace Verif.Lemmas
open Verif Verif.Model Verif.Spec Prog

/-! ### One update -/

theorem cppIsingMove_eq (n : ℕ) (m : List ℝ) (i : ℕ) (hi : i < n) (s : List ℤ)
    (hs : s.length = n) :
    cppIsingMove n m (cppCouplingMat n n m) i s =
      sampleMetropolis (fun s => isingVecE n (m.take n) (m.drop n) (spins s)) (some i) s
        (isingVecE n (m.take n) (m.drop n) (spins s)) := by
  unfold cppIsingMove sampleMetropolis chooseSite
  simp only [Prog.bind]
  rw [if_pos (show i < s.length by omega), cppIsingDe_eq n m s hs i hi]

theorem three_states {n : ℕ} {s : List ℤ} (hs : s ∈ words [0, 1, 2] n) (i : ℕ) (hi : i < n) :
    s.getD i 0 = 0 ∨ s.getD i 0 = 1 ∨ s.getD i 0 = 2 := by
  have hsi : s.getD i 0 ∈ ([0, 1, 2] : List ℤ) := getD_mem_of_words hi hs
  simpa only [List.mem_cons, List.not_mem_nil, or_false] using hsi

theorem cppPottsMove_eq (n : ℕ) (m : List ℝ) (i : ℕ) (hi : i < n) (s : List ℤ)
    (hs : s ∈ words [0, 1, 2] n) :
    cppPottsMove n m (cppCouplingMat n (n * 3) m) i s =
      sampleMetropolisPotts3 (fun s => pottsVecE n 3 (m.take (3 * n)) (m.drop (3 * n)) fun k => s.getD k 0)
        (some i) s (pottsVecE n 3 (m.take (3 * n)) (m.drop (3 * n)) fun k => s.getD k 0) := by
  have hl := (mem_words.1 hs).1
  unfold cppPottsMove sampleMetropolisPotts3 chooseSite
  simp only [Prog.bind]
  rw [if_pos (show i < s.length by omega)]
  congr 1
  funext r
  have h0 := Int.emod_nonneg (s.getD i 0 + (1 + (r : ℤ))) (by norm_num : (3 : ℤ) ≠ 0)
  have h3 := Int.emod_lt_of_pos (s.getD i 0 + (1 + (r : ℤ))) (by norm_num : (0 : ℤ) < 3)
  obtain ⟨c, hc⟩ : ∃ c : ℕ, (s.getD i 0 + (1 + (r : ℤ))) % 3 = (c : ℤ) := ⟨_, (Int.toNat_of_nonneg h0).symm⟩
  have hc3 : c < 3 := by omega
  have hsi : s.getD i 0 ∈ ([0, 1, 2] : List ℤ) := getD_mem_of_words (by omega) hs
  obtain ⟨b, hb3, hb⟩ : ∃ b : ℕ, b < 3 ∧ s.getD i 0 = (b : ℤ) := by
    simp only [List.mem_cons, List.not_mem_nil, or_false] at hsi
    rcases hsi with h | h | h
    · exact ⟨0, by norm_num, h⟩
    · exact ⟨1, by norm_num, h⟩
    · exact ⟨2, by norm_num, h⟩
  rw [add_comm (1 + (r : ℤ)) (s.getD i 0), hc, cppPottsDe_eq n m s hl i hi b c hb3 hc3 hb]

/-! ### One iteration, without the counter -/

/-- One iteration of the compiled sampler when the counter is `c`. -/
def cppBody (move : CppMove) (n : ℕ) (systematic : Bool) (c : ℕ) (st : List ℤ × ℝ) : Prog (List ℤ × ℝ) :=
  (cppSite n systematic c).bind fun i => (move i st.1).bind fun r => .ret (r.1, st.2 + r.2)

theorem cppIter_body (move : CppMove) (n : ℕ) (systematic : Bool) (st : List ℤ × ℝ) (c : ℕ) :
    cppIter move n systematic (st, c) =
      (cppBody move n systematic c st).bind fun r => .ret (r, c + 1) := by
  unfold cppIter cppBody
  simp only [bind_assoc, Prog.bind]

/-- One iteration with fixed spins. -/
def cppCondBody (move : CppMove) (nonIx : List ℕ) (k : ℕ) (systematic : Bool) (c : ℕ) (st : List ℤ × ℝ) :
    Prog (List ℤ × ℝ) :=
  (cppSite k systematic c).bind fun i => (move (nonIx.getD i 0) st.1).bind fun r => .ret (r.1, st.2 + r.2)

theorem cppCondIter_body (move : CppMove) (nonIx : List ℕ) (k : ℕ) (systematic : Bool) (st : List ℤ × ℝ)
    (c : ℕ) :
    cppCondIter move nonIx k systematic (st, c) =
      (cppCondBody move nonIx k systematic c st).bind fun r =>
        .ret (r, if systematic then c + 1 else c) := by
  unfold cppCondIter cppCondBody cppSite
  cases systematic
  · simp only [Bool.false_eq_true, if_false, bind_assoc, Prog.bind]
  · simp only [if_true, bind_assoc]
    split <;> rfl

section
variable {S : List (List ℤ)} {w calcE : List ℤ → ℝ} {n : ℕ} {move : Move} {cmove : CppMove}

/-- The compiled sampler makes the same iterations as the Python sampler. -/
theorem agree_cppBody (hm : GoodMove S w calcE n move) (hn : 0 < n)
    (h : ∀ i < n, ∀ s ∈ S, cmove i s = move (some i) s (calcE s)) (systematic : Bool) (c : ℕ)
    (st : List ℤ × ℝ) (h1 : st.1 ∈ S) (h2 : st.2 = calcE st.1) :
    Agree (metroIter move n systematic c st) (cppBody cmove n systematic c st) := by
  unfold metroIter siteArg cppBody cppSite
  cases systematic
  · simp only [Bool.false_eq_true, if_false, Prog.ofPy, Prog.bind, hm.random, bind_assoc, hm.length st.1 h1]
    exact agree_randint fun i hi => .of_eq (by rw [h i hi st.1 h1, h2])
  · simp only [if_true, if_neg hn.ne', Prog.ofPy, Prog.bind]
    exact .of_eq (by rw [h _ (Nat.mod_lt _ hn) st.1 h1, h2])

/-! ### The rows -/

section chain
variable {iter : (List ℤ × ℝ) × ℕ → Prog ((List ℤ × ℝ) × ℕ)}
  {body : ℕ → List ℤ × ℝ → Prog (List ℤ × ℝ)} {next : ℕ → ℕ}
  (h : ∀ st c, iter (st, c) = (body c st).bind fun r => .ret (r, next c))
  (hr : ∀ c, ∀ st : List ℤ × ℝ, (st.1 ∈ S ∧ st.2 = calcE st.1) →
    Returns (body c st) fun r => r.1 ∈ S ∧ r.2 = calcE r.1)
include h hr

theorem returns_cppChain (nSamples burnIn nIters : ℕ) (s : List ℤ) (hs : s ∈ S) :
    Returns (cppChain iter nSamples burnIn nIters s (calcE s)) fun rows =>
      rows.length = nSamples ∧ ∀ r ∈ rows, r ∈ S := by
  rw [cppChain_visits iter body next h]
  refine returns_bind (returns_visits (I := fun r : List ℤ × ℝ => r.1 ∈ S ∧ r.2 = calcE r.1) _ _
    (fun j _ st hst => hr j st hst) (s, calcE s) ⟨hs, rfl⟩) fun tr htr => returns_ret ⟨by simp, ?_⟩
  intro r hrow
  obtain ⟨b, -, rfl⟩ := List.mem_map.1 hrow
  exact (mem_visited (st := (s, calcE s)) hs rfl htr.2 _).1

theorem keeps_cppChain (hk : ∀ c, Keeps S w calcE (body c)) (nSamples burnIn nIters b : ℕ)
    (hb : b < nSamples) (g : List ℤ → ℝ) :
    (S.map fun s => w s * expectation (fun rows => g (rows.getD b []))
      (cppChain iter nSamples burnIn nIters s (calcE s))).sum = (S.map fun s => w s * g s).sum := by
  obtain ⟨L, hL⟩ : ∃ L, L = counters next 0 (burnIn + nSamples * nIters) := ⟨_, rfl⟩
  rw [← (keeps_forEach (w := w) (L.take (burnIn + (b + 1) * nIters)) fun j _ => hk j) fun st => g st.1]
  refine list_sum_congr fun s hs => ?_
  rw [cppChain_visits iter body next h, expectation_bind, ← hL]
  simp only [expectation_ret, getD_map_range _ _ _ hb]
  rw [expectation_visits_getD (I := fun r : List ℤ × ℝ => r.1 ∈ S ∧ r.2 = calcE r.1) body _
    (fun j _ s hs => hr j s hs) (s, calcE s) ⟨hs, rfl⟩ (burnIn + (b + 1) * nIters) ?_ fun st => g st.1]
  rw [hL, counters_length]
  exact Nat.add_le_add_left (Nat.mul_le_mul_right _ hb) _

end chain

section good
variable (hm : GoodMove S w calcE n move) (hn : 0 < n)
  (h : ∀ i < n, ∀ s ∈ S, cmove i s = move (some i) s (calcE s))
include hm hn h

theorem returns_cppBody (systematic : Bool) (c : ℕ) (st : List ℤ × ℝ) (hst : st.1 ∈ S ∧ st.2 = calcE st.1) :
    Returns (cppBody cmove n systematic c st) fun r => r.1 ∈ S ∧ r.2 = calcE r.1 :=
  (agree_cppBody hm hn h systematic c st hst.1 hst.2).returns
    (returns_metroIter hm hn systematic c st hst.1 hst.2)

theorem keeps_cppBody (systematic : Bool) (c : ℕ) : Keeps S w calcE (cppBody cmove n systematic c) := by
  intro f
  rw [← keeps_metroIter hm hn systematic c f]
  exact list_sum_congr fun s hs => by
    rw [(agree_cppBody hm hn h systematic c (s, calcE s) hs rfl).expectation f]

/-- The whole run, in terms of the updates of the Python sampler. -/
theorem agree_cppChain (systematic : Bool) (nSamples burnIn nIters : ℕ) (s : List ℤ) (hs : s ∈ S) :
    Agree ((visits (metroIter move n systematic) (List.range (burnIn + nSamples * nIters)) (s, calcE s)).bind
        fun tr => .ret ((List.range nSamples).map fun b =>
          (((s, calcE s) :: tr).getD (burnIn + (b + 1) * nIters) (s, calcE s)).1))
      (cppChain (cppIter cmove n systematic) nSamples burnIn nIters s (calcE s)) := by
  rw [cppChain_visits _ _ (· + 1) (cppIter_body cmove n systematic), counters_succ, List.range_eq_range']
  exact (agree_visits (I := fun r : List ℤ × ℝ => r.1 ∈ S ∧ r.2 = calcE r.1) _
    (fun j _ st hst => returns_metroIter hm hn systematic j st hst.1 hst.2)
    (fun j _ st hst => agree_cppBody hm hn h systematic j st hst.1 hst.2) (s, calcE s) ⟨hs, rfl⟩).bind'
    fun tr => .refl _

end good
end

/-! ### Initial states -/

theorem returns_cppIsingInit (n : ℕ) : Returns (cppIsingInit n) fun s => s ∈ words [1, -1] n :=
  returns_randomRow [1, -1] (fun b => if b = 0 then 1 else -1) 2 (by norm_num)
    fun b _ => by by_cases h : b = 0 <;> simp [h]

theorem returns_cppPottsInit (n : ℕ) : Returns (cppPottsInit n) fun s => s ∈ words [0, 1, 2] n :=
  returns_randomRow [0, 1, 2] (fun b => (b : ℤ)) 3 (by norm_num) fun b hb => by
    simp only [List.mem_cons, List.not_mem_nil, or_false]
    omega

/-- The rows of chain `c`. -/
theorem expectation_boostParallel (nCpus sampleSize : ℕ) (one : ℕ → Prog (List (List ℤ)))
    (h : ∀ q, Returns (one q) fun rows => rows.length = q) (c b q : ℕ) (hc : c < nCpus)
    (hq : q = (sampleSize + nCpus - 1) / nCpus) (hb : b < q) (hcb : c * q + b < sampleSize) (f : List ℤ → ℝ) :
    expectation (fun rows => f (rows.getD (c * q + b) [])) (boostParallel nCpus sampleSize one) =
      expectation (fun rows => f (rows.getD b [])) (one q) := by
  unfold boostParallel
  rw [← hq, expectation_bind]
  have hr := returns_mapEach (List.range nCpus) (Q := fun _ (rows : List (List ℤ)) => rows.length = q) fun _ _ => h q
  rw [expectation_congr (g := fun rs => f ((rs.getD c []).getD b [])) _ hr]
  · rw [expectation_mapEach_getD (fun _ => one q) (fun rows => rows.length = q) [] (fun rows => f (rows.getD b []))
      _ (fun _ _ => h q) c (by simpa using hc)]
  · intro rs hrs
    have hlen : rs.length = nCpus := by rw [← hrs.length_eq]; simp
    have hall : ∀ r ∈ rs, r.length = q := by
      intro r hr
      obtain ⟨i, hi, rfl⟩ := List.getElem_of_mem hr
      exact (List.forall₂_iff_get.1 hrs).2 i (by rw [hrs.length_eq]; exact hi) hi
    have hf : rs.flatten = (rs.map fun r => (r, ())).flatMap fun r => r.1 := by
      rw [List.flatMap_map]; simp [List.flatMap_def]
    rw [expectation_ret, getD_take _ _ _ _ hcb, hf, getD_flatMap_const (rs.map fun r => (r, ())) q (by
      intro r hr
      obtain ⟨x, hx, rfl⟩ := List.mem_map.1 hr
      exact hall x hx) c b (by simpa [hlen] using hc) hb [] ([], ())]
    congr 2
    rw [List.getD_eq_getElem _ _ (by simpa [hlen] using hc), List.getD_eq_getElem _ _ (by omega), List.getElem_map]

/-- Rows of several processes. -/
theorem returns_boostParallel (S : List (List ℤ)) (nCpus sampleSize : ℕ) (hc : 0 < nCpus)
    (one : ℕ → Prog (List (List ℤ)))
    (h : ∀ q, Returns (one q) fun rows => rows.length = q ∧ ∀ r ∈ rows, r ∈ S) :
    Returns (boostParallel nCpus sampleSize one) fun rows =>
      rows.length = sampleSize ∧ ∀ r ∈ rows, r ∈ S := by
  unfold boostParallel
  refine returns_bind (returns_mapEach (List.range nCpus)
    (Q := fun _ rows => rows.length = (sampleSize + nCpus - 1) / nCpus ∧ ∀ r ∈ rows, r ∈ S) fun _ _ => h _)
    fun rs hrs => returns_ret ?_
  have hlen : rs.length = nCpus := by rw [← hrs.length_eq]; simp
  have hall : ∀ r ∈ rs, r.length = (sampleSize + nCpus - 1) / nCpus ∧ ∀ x ∈ r, x ∈ S := by
    intro r hr
    obtain ⟨i, hi, rfl⟩ := List.getElem_of_mem hr
    exact (List.forall₂_iff_get.1 hrs).2 i (by rw [hrs.length_eq]; exact hi) hi
  constructor
  · rw [List.length_take, List.length_flatten, List.map_congr_left fun r hr => (hall r hr).1]
    simp only [List.map_const', List.sum_replicate, smul_eq_mul, hlen]
    exact min_eq_left (ceil_mul_ge sampleSize nCpus hc)
  · intro s hs
    obtain ⟨r, hr, hs⟩ := List.mem_flatten.1 (List.mem_of_mem_take hs)
    exact (hall r hr).2 s hs

end Verif.Lemmas
