import Verif.Lemmas.Metropolis2

namespace Verif.Lemmas
open Verif Verif.Model Verif.Spec Prog

variable {α ι : Type}

/-- The result of one of several independent programs. -/
theorem expectation_mapEach_getD (f : ι → Prog α) (Q : α → Prop) (d : α) (g : α → ℝ) (l : List ι)
    (h : ∀ i ∈ l, Returns (f i) Q) (c : ℕ) (hc : c < l.length) :
    expectation (fun as => g (as.getD c d)) (mapEach f l) = expectation g (f l[c]) := by
  induction l generalizing c with
  | nil => simp at hc
  | cons i l ih =>
    rw [mapEach, expectation_bind]
    cases c with
    | zero =>
      simp only [List.getElem_cons_zero]
      refine expectation_congr _ (h i (by simp)) fun a _ => ?_
      exact expectation_certain _ (returns_bind (returns_mapEach l (Q := fun _ => Q) fun j hj => h j (by simp [hj]))
        fun as _ => returns_ret rfl)
    | succ c =>
      simp only [expectation_bind, expectation_ret, List.getD_cons_succ]
      rw [ih (fun j hj => h j (by simp [hj])) c (by simpa using hc)]
      simp only [List.getElem_cons_succ]
      exact expectation_const _ _ (h i (by simp))

theorem returns_randomRow {n : ℕ} (vals : List ℤ) (f : ℕ → ℤ) (k : ℕ) (hk : 0 < k)
    (hf : ∀ b < k, f b ∈ vals) :
    Returns (mapEach (fun _ : ℕ => (Prog.randint k).bind fun b => .ret (f b)) (List.range n))
      fun s => s ∈ words vals n := by
  refine returns_mono (fun s hs => ?_) (returns_mapEach (Q := fun _ x => x ∈ vals) _ fun _ _ =>
    returns_randint k hk _ fun b hb => returns_ret (hf b hb))
  refine mem_words.2 ⟨by simpa using hs.length_eq.symm, fun x hx => ?_⟩
  obtain ⟨i, hi, rfl⟩ := List.getElem_of_mem hx
  exact (List.forall₂_iff_get.1 hs).2 i (by rw [hs.length_eq]; exact hi) hi

theorem returns_rows {S : List (List ℤ)} {p : Prog (List ℤ)} (hp : Returns p fun s => s ∈ S) (k : ℕ) :
    Returns (mapEach (fun _ : ℕ => p) (List.range k)) fun x => x.length = k ∧ ∀ s ∈ x, s ∈ S := by
  refine returns_mono (fun x hx => ⟨by simpa using hx.length_eq.symm, fun s hs => ?_⟩)
    (returns_mapEach (Q := fun _ s => s ∈ S) _ fun _ _ => hp)
  obtain ⟨i, hi, rfl⟩ := List.getElem_of_mem hs
  exact (List.forall₂_iff_get.1 hx).2 i (by rw [hx.length_eq]; exact hi) hi

theorem returns_randomSample (n k : ℕ) :
    Returns (randomSample n k) fun x => x.length = k ∧ ∀ s ∈ x, s ∈ words [1, -1] n :=
  returns_rows (returns_randomRow [1, -1] (fun b => if b = 0 then -1 else 1) 2 (by norm_num)
    fun b _ => by by_cases h : b = 0 <;> simp [h]) k

theorem returns_randomSamplePotts3 (n k : ℕ) :
    Returns (randomSamplePotts3 n k) fun x => x.length = k ∧ ∀ s ∈ x, s ∈ words [0, 1, 2] n :=
  returns_rows (returns_randomRow [0, 1, 2] (fun b => (b : ℤ)) 3 (by norm_num)
    fun b hb => by
      simp only [List.mem_cons, List.not_mem_nil, or_false]
      omega) k

/-- Usable first states. -/
def GoodStart (S : List (List ℤ)) (k m : ℕ) (prev initial : Option (List (List ℤ))) : Prop :=
  (∀ x, initial = some x → x.length = k ∧ ∀ s ∈ x, s ∈ S) ∧
    ∀ p, initial = none → prev = some p → p.length = m → p.length = k ∧ ∀ s ∈ p, s ∈ S

variable {S : List (List ℤ)} {w calcE : List ℤ → ℝ} {n : ℕ} {move : Move}
  {random : ℕ → Prog (List (List ℤ))}

theorem returns_startStates (hS : ∀ s ∈ S, s.length = n) {k m : ℕ}
    (hr : Returns (random k) fun x => x.length = k ∧ ∀ s ∈ x, s ∈ S) {prev initial : Option (List (List ℤ))}
    (h : GoodStart S k m prev initial) :
    Returns (startStates random n k m prev initial) fun x => x.length = k ∧ ∀ s ∈ x, s ∈ S := by
  unfold startStates
  cases initial with
  | none =>
    cases prev with
    | none => exact hr
    | some p =>
      dsimp only
      split
      · exact hr
      · rename_i hp
        exact returns_ret (h.2 p rfl rfl (not_not.1 hp))
  | some x =>
    have := h.1 x rfl
    dsimp only
    rw [if_pos ⟨this.1, fun r hr => hS r (this.2 r hr)⟩]
    exact returns_ret this

variable (hm : GoodMove S w calcE n move) (hn : 0 < n)
include hm hn

theorem returns_generateSamplePy (hr : Returns (random 1) fun x => x.length = 1 ∧ ∀ s ∈ x, s ∈ S)
    (sampleSize nIters : ℕ) (burnIn : Option ℕ) (systematic saveHistory : Bool)
    (prev initial : Option (List (List ℤ))) (h : GoodStart S 1 sampleSize prev initial) :
    Returns (generateSamplePy move random calcE n prev sampleSize nIters burnIn systematic saveHistory initial)
      fun out => out.sample.length = sampleSize ∧ (∀ s ∈ out.sample, s ∈ S) ∧
        out.E = out.sample.map calcE ∧ (∃ s ∈ S, out.replicas = [s]) ∧ (out.history.isSome ↔ saveHistory) := by
  unfold generateSamplePy
  refine returns_bind (returns_startStates hm.length hr h) fun states hst => ?_
  match states, hst with
  | [s], hst =>
    have hs : s ∈ S := hst.2 s (by simp)
    refine returns_bind (returns_metroRun hm hn systematic _ (s, calcE s) hs rfl) fun st hst => ?_
    cases saveHistory
    · refine returns_bind (returns_metroRecord hm hn systematic _ _ st hst.1 hst.2) fun r hr => returns_ret ?_
      exact ⟨hr.2.1, hr.2.2.1, hr.2.2.2, ⟨_, hr.1.1, rfl⟩, by simp⟩
    · rw [if_pos rfl, metroRecordHistory_eq, bind_assoc]
      refine returns_bind (returns_steps hm hn systematic st hst.1 hst.2 _) fun tr htr => returns_ret ?_
      have hv := mem_visited hst.1 hst.2 htr.2
      refine ⟨by simp, ?_, ?_, ⟨_, ?_, rfl⟩, by simp⟩
      · intro x hx
        obtain ⟨b, -, rfl⟩ := List.mem_map.1 hx
        exact (hv _).1
      · dsimp only
        rw [List.map_map]
        exact List.map_congr_left fun b _ => (hv _).2
      · have := (hv tr.length).1
        rwa [getD_cons_length] at this

/-- Rows taken from a start with the right distribution have that distribution. -/
theorem keeps_generateSamplePy (random : ℕ → Prog (List (List ℤ))) (sampleSize nIters : ℕ)
    (burnIn : Option ℕ) (systematic saveHistory : Bool) (prev : Option (List (List ℤ))) (b : ℕ)
    (hb : b < sampleSize) (g : List ℤ → ℝ → ℝ) :
    (S.map fun s => w s * expectation (fun out : SampleOut => g (out.sample.getD b []) (out.E.getD b 0))
      (generateSamplePy move random calcE n prev sampleSize nIters burnIn systematic saveHistory
        (some [s]))).sum = (S.map fun s => w s * g s (calcE s)).sum := by
  have key : ∀ s ∈ S, expectation (fun out : SampleOut => g (out.sample.getD b []) (out.E.getD b 0))
      (generateSamplePy move random calcE n prev sampleSize nIters burnIn systematic saveHistory (some [s])) =
      expectation (fun st => expectation (fun r => g (r.2.1.getD b []) (r.2.2.getD b 0))
        (metroRecord move n systematic sampleSize nIters st))
        (metroRun move n systematic (burnOr burnIn nIters) (s, calcE s)) := by
    intro s hs
    unfold generateSamplePy startStates
    dsimp only
    rw [if_pos ⟨rfl, by simp [hm.length s hs]⟩, Prog.bind, expectation_bind]
    congr 1
    funext st
    cases saveHistory
    · rw [if_neg (by simp), expectation_bind]; rfl
    · rw [if_pos rfl, metroRecordHistory_eq, metroRecord_eq, expectation_bind, expectation_bind,
        expectation_bind]
      rfl
  rw [list_sum_congr fun s hs => by rw [key s hs]]
  rw [keeps_metroRun hm hn systematic (burnOr burnIn nIters) fun st =>
    expectation (fun r => g (r.2.1.getD b []) (r.2.2.getD b 0)) (metroRecord move n systematic sampleSize nIters st)]
  exact keeps_metroRecord hm hn systematic sampleSize nIters b hb g

/-- The rows of one process. -/
theorem returns_parallelChain (systematic : Bool) (burn m k : ℕ) (s : List ℤ) (hs : s ∈ S) :
    Returns (parallelChain move calcE n systematic burn m k s) fun r =>
      r.1.length = m ∧ (∀ x ∈ r.1, x ∈ S) ∧ r.2.1 ∈ S ∧ r.2.2 = calcE r.2.1 := by
  unfold parallelChain
  refine returns_bind (returns_metroRun hm hn systematic burn (s, calcE s) hs rfl) fun st hst => ?_
  refine returns_bind (returns_metroRecord hm hn systematic m k st hst.1 hst.2) fun r hr => returns_ret ?_
  exact ⟨hr.2.1, hr.2.2.1, hr.1⟩

theorem keeps_parallelChain (systematic : Bool) (burn m k b : ℕ) (hb : b < m) (g : List ℤ → ℝ) :
    (S.map fun s => w s * expectation (fun r => g (r.1.getD b []))
      (parallelChain move calcE n systematic burn m k s)).sum = (S.map fun s => w s * g s).sum := by
  unfold parallelChain
  simp only [expectation_bind, expectation_ret]
  rw [keeps_metroRun hm hn systematic burn fun st => expectation (fun r => g (r.2.1.getD b []))
    (metroRecord move n systematic m k st)]
  exact keeps_metroRecord hm hn systematic m k b hb fun s _ => g s

omit hm hn in
theorem ceil_mul_ge (a b : ℕ) (hb : 0 < b) : a ≤ b * ((a + b - 1) / b) := by
  have h := Nat.div_add_mod (a + b - 1) b
  have h2 := Nat.mod_lt (a + b - 1) hb
  omega

omit hm hn in
theorem length_flatMap_const {β : Type} (l : List (List α × β)) (m : ℕ) (h : ∀ r ∈ l, r.1.length = m) :
    (l.flatMap fun r => r.1).length = l.length * m := by
  rw [List.length_flatMap, List.map_congr_left h]
  simp

theorem returns_parallel (nCpus : ℕ) (hc : 0 < nCpus)
    (hr : Returns (random nCpus) fun x => x.length = nCpus ∧ ∀ s ∈ x, s ∈ S)
    (sampleSize nIters : ℕ) (burnIn : Option ℕ) (systematic : Bool)
    (prev initial : Option (List (List ℤ))) (h : GoodStart S nCpus nCpus prev initial) :
    Returns (generateSampleParallelPy move random calcE n nCpus prev sampleSize nIters burnIn systematic initial)
      fun out => out.sample.length = sampleSize ∧ (∀ s ∈ out.sample, s ∈ S) ∧
        out.replicas.length = nCpus ∧ (∀ s ∈ out.replicas, s ∈ S) ∧ out.E = out.replicas.map calcE ∧
        out.history = none := by
  unfold generateSampleParallelPy
  refine returns_bind (returns_startStates hm.length hr h) fun states hst => ?_
  refine returns_bind (returns_mapEach states (Q := fun _ r => r.1.length = (sampleSize + nCpus - 1) / nCpus ∧
    (∀ x ∈ r.1, x ∈ S) ∧ r.2.1 ∈ S ∧ r.2.2 = calcE r.2.1) fun s hs =>
      returns_parallelChain hm hn systematic _ _ _ s (hst.2 s hs)) fun rs hrs => returns_ret ?_
  have hlen : rs.length = nCpus := by rw [← hrs.length_eq, hst.1]
  have hall : ∀ r ∈ rs, r.1.length = (sampleSize + nCpus - 1) / nCpus ∧
    (∀ x ∈ r.1, x ∈ S) ∧ r.2.1 ∈ S ∧ r.2.2 = calcE r.2.1 := by
    intro r hr
    obtain ⟨i, hi, rfl⟩ := List.getElem_of_mem hr
    exact (List.forall₂_iff_get.1 hrs).2 i (by rw [hrs.length_eq]; exact hi) hi
  refine ⟨?_, ?_, by simp [hlen], ?_, ?_, rfl⟩
  · dsimp only
    rw [List.length_take, length_flatMap_const rs _ fun r hr => (hall r hr).1, hlen]
    exact min_eq_left (ceil_mul_ge sampleSize nCpus hc)
  · intro s hs
    obtain ⟨r, hr, hs⟩ := List.mem_flatMap.1 (List.mem_of_mem_take hs)
    exact (hall r hr).2.1 s hs
  · intro s hs
    obtain ⟨r, hr, rfl⟩ := List.mem_map.1 hs
    exact (hall r hr).2.2.1
  · dsimp only
    rw [List.map_map]
    exact List.map_congr_left fun r hr => (hall r hr).2.2.2

omit hm hn in
theorem getD_flatMap_const {β : Type} (l : List (List α × β)) (m : ℕ) (h : ∀ r ∈ l, r.1.length = m)
    (c b : ℕ) (hc : c < l.length) (hb : b < m) (d : α) (d' : List α × β) :
    (l.flatMap fun r => r.1).getD (c * m + b) d = (l.getD c d').1.getD b d := by
  induction l generalizing c with
  | nil => simp at hc
  | cons r l ih =>
    have hr := h r (by simp)
    rw [List.flatMap_cons]
    cases c with
    | zero => rw [Nat.zero_mul, Nat.zero_add, List.getD_append _ _ _ _ (by omega), List.getD_cons_zero]
    | succ c =>
      rw [List.getD_append_right _ _ _ _ (by rw [hr, Nat.succ_mul]; omega), List.getD_cons_succ,
        ← ih (fun r hr => h r (by simp [hr])) c (by simpa using hc)]
      congr 1
      rw [hr, Nat.succ_mul]; omega

/-- The rows of chain `c`, whose first state has the right distribution, have that distribution. -/
theorem keeps_parallel (nCpus : ℕ) (random : ℕ → Prog (List (List ℤ))) (sampleSize nIters : ℕ)
    (burnIn : Option ℕ) (systematic : Bool) (prev : Option (List (List ℤ))) (states : List (List ℤ))
    (hlen : states.length = nCpus) (hst : ∀ s ∈ states, s ∈ S) (c b : ℕ) (hc : c < nCpus)
    (hb : b < (sampleSize + nCpus - 1) / nCpus)
    (hcb : c * ((sampleSize + nCpus - 1) / nCpus) + b < sampleSize) (g : List ℤ → ℝ) :
    (S.map fun s => w s * expectation (fun out : SampleOut =>
        g (out.sample.getD (c * ((sampleSize + nCpus - 1) / nCpus) + b) []))
      (generateSampleParallelPy move random calcE n nCpus prev sampleSize nIters burnIn systematic
        (some (states.set c s)))).sum = (S.map fun s => w s * g s).sum := by
  obtain ⟨m, hm'⟩ : ∃ m, m = (sampleSize + nCpus - 1) / nCpus := ⟨_, rfl⟩
  rw [← hm'] at hb hcb ⊢
  rw [← keeps_parallelChain hm hn systematic (burnOr burnIn nIters) m nIters b hb g]
  refine list_sum_congr fun s hs => ?_
  congr 1
  have hmem : ∀ x ∈ states.set c s, x ∈ S := fun x hx => by
    rcases List.mem_or_eq_of_mem_set hx with h | h
    · exact hst x h
    · rw [h]; exact hs
  unfold generateSampleParallelPy startStates
  dsimp only
  rw [if_pos ⟨by simp [hlen], fun r hr => hm.length r (hmem r hr)⟩, Prog.bind, expectation_bind, ← hm']
  have hch : ∀ x ∈ states.set c s, Returns (parallelChain move calcE n systematic (burnOr burnIn nIters) m nIters x)
      fun r => r.1.length = m := fun x hx =>
    returns_mono (fun r hr => hr.1) (returns_parallelChain hm hn systematic _ _ _ x (hmem x hx))
  have hc' : c < (states.set c s).length := by simp [hlen, hc]
  rw [expectation_congr (g := fun as => g ((as.getD c ([], [], 0)).1.getD b [])) _
    (returns_mapEach (Q := fun _ r => r.1.length = m) _ hch)]
  · rw [expectation_mapEach_getD _ (fun r => r.1.length = m) ([], [], 0) (fun r => g (r.1.getD b [])) _ hch c hc']
    rw [List.getElem_set_self]
  · intro rs hrs
    rw [expectation_ret]
    dsimp only
    have hlen' : rs.length = nCpus := by rw [← hrs.length_eq]; simp [hlen]
    have hall : ∀ r ∈ rs, r.1.length = m := by
      intro r hr
      obtain ⟨i, hi, rfl⟩ := List.getElem_of_mem hr
      exact (List.forall₂_iff_get.1 hrs).2 i (by rw [hrs.length_eq]; exact hi) hi
    rw [getD_take _ _ _ _ hcb, getD_flatMap_const rs m hall c b (by omega) hb]

end Verif.Lemmas
