/-
Wolff cluster sampling: coniii/samplers.py WolffIsing (C60, C85).
-/
import Verif.Lemmas.Wolff2
import Verif.Lemmas.Metropolis3
import Verif.Lemmas.EnumerateWrap

namespace Verif.Props
open Verif Verif.Model Verif.Spec Verif.Lemmas Prog

/-- The constructor with a coupling vector: the energy of the matrix and fields it keeps is the Ising energy. -/
theorem C60_constructor (n : ℕ) (hn : 1 ≤ n) (v h : List ℝ) (hh : h.length = n) (hv : v.length = n * (n - 1) / 2) :
    ∃ M, wolffInit (.inl v) h = .ok (M, h) ∧ M.HasShape n n ∧ (∀ i < n, ∀ j < n, M.at' i j = M.at' j i) ∧
      ∀ s : ℕ → ℝ, isingE n (fun i => h.getD i 0) M.at' s = isingVecE n h v s := by
  refine ⟨Mat.build n n fun i j => if i = j then 0 else v.getD ((upperPairs n).idxOf (min i j, max i j)) 0, ?_,
    Mat.build_shape _ _ _, fun i hi j hj => ?_, fun s => ?_⟩
  · unfold wolffInit
    rw [hh]
    simp only [hv, ne_eq, not_true_eq_false, if_false]
    rw [squareformVec_eq n hn v hv]
  · rw [Mat.at_build _ hi hj, Mat.at_build _ hj hi, min_comm, max_comm]
    by_cases h : i = j
    · subst h; rfl
    · rw [if_neg h, if_neg (Ne.symm h)]
  · unfold isingVecE isingE couplingAt
    congr 1
    refine Finset.sum_congr rfl fun i hi => Finset.sum_congr rfl fun j hj => ?_
    by_cases hij : i < j
    · rw [if_pos hij, if_pos hij, Mat.at_build _ (Finset.mem_range.1 hi) (Finset.mem_range.1 hj), if_neg hij.ne,
        min_eq_left hij.le, max_eq_right hij.le]
    · rw [if_neg hij, if_neg hij]

/-- C60: a coupling vector of another length is rejected, and (contrary to the documentation) so is every coupling
matrix except for 3 spins (or none). -/
theorem C60_constructor_rejects (h : List ℝ) :
    (∀ v : List ℝ, v.length ≠ h.length * (h.length - 1) / 2 → wolffInit (.inl v) h = .error .assertion) ∧
    (∀ M : Mat ℝ, M.HasShape h.length h.length → h.length ≠ 0 → h.length ≠ 3 →
      wolffInit (.inr M) h = .error .assertion) := by
  refine ⟨fun v hv => if_pos hv, fun M hM h0 h3 => if_pos ?_⟩
  rw [hM.1]
  intro e
  have h2 : 2 * (h.length * (h.length - 1) / 2) = h.length * (h.length - 1) :=
    Nat.mul_div_cancel' (Nat.even_mul_pred_self _).two_dvd
  rw [← e] at h2
  have : h.length - 1 = 2 := Nat.eq_of_mul_eq_mul_left (by omega : 0 < h.length) (by linarith)
  omega

/-- C60: the cluster grown from a site contains the site, has no repeated site, and every site of it is joined to the
first through pairs whose present alignment lowers the energy. The growth always ends. -/
theorem C60_cluster (n : ℕ) (J : Mat ℝ) (s : List ℤ) (site : ℕ) (hs : site < n) :
    Returns (buildCluster n J s site) fun c => site ∈ c ∧ c.Nodup ∧ (∀ x ∈ c, x < n) ∧
      ∀ x ∈ c, Relation.ReflTransGen (fun a b => b < n ∧ 0 < spins s b * J.at' b a * spins s a) site x :=
  returns_buildCluster n J s site hs

theorem returns_wolffFrom (n : ℕ) (J : Mat ℝ) (h : List ℝ) (s : List ℤ) (hs : s ∈ words [1, -1] n) (i : ℕ)
    (hi : i < n) : Returns (wolffFrom n J h s i) fun t => t ∈ words [1, -1] n ∧ (t = s ∨ ∃ c : List ℕ,
      i ∈ c ∧ c.Nodup ∧ (∀ x ∈ c, x < n) ∧
      (∀ x ∈ c, Relation.ReflTransGen (fun a b => b < n ∧ 0 < spins s b * J.at' b a * spins s a) i x) ∧
      ∀ k, t.getD k 0 = if k ∈ c then -s.getD k 0 else s.getD k 0) := by
  refine returns_bind (C60_cluster n J s i hi) fun c hc => ?_
  intro u _ _
  dsimp only
  split
  · exact returns_ret ⟨flipCluster_mem n s c hs, .inr ⟨c, hc.1, hc.2.1, hc.2.2.1, hc.2.2.2, flipCluster_getD s c⟩⟩
  · exact returns_ret ⟨hs, .inl rfl⟩

/-- C60: whatever the random numbers are, one step leaves the state as it is, or negates exactly the spins of one
cluster. If a first site other than 0 is asked for, the cluster contains it. -/
theorem C60_step (n : ℕ) (hn : 0 < n) (J : Mat ℝ) (h : List ℝ) (s : List ℤ) (hs : s ∈ words [1, -1] n)
    (site : Option ℕ) (hsite : ∀ i, site = some i → i < n) :
    Returns (wolffStep n J h site s) fun t => t ∈ words [1, -1] n ∧ (t = s ∨ ∃ i < n, (∀ j, site = some j → j ≠ 0 → i = j) ∧
      ∃ c : List ℕ, i ∈ c ∧ c.Nodup ∧ (∀ x ∈ c, x < n) ∧
      (∀ x ∈ c, Relation.ReflTransGen (fun a b => b < n ∧ 0 < spins s b * J.at' b a * spins s a) i x) ∧
      ∀ k, t.getD k 0 = if k ∈ c then -s.getD k 0 else s.getD k 0) := by
  rw [wolffStep_eq]
  match site with
  | none =>
    refine returns_randint n hn _ fun i hi => returns_mono ?_ (returns_wolffFrom n J h s hs i hi)
    rintro t ⟨h1, h2⟩
    exact ⟨h1, h2.imp_right fun ⟨c, hc⟩ => ⟨i, hi, by simp, c, hc⟩⟩
  | some 0 =>
    refine returns_randint n hn _ fun i hi => returns_mono ?_ (returns_wolffFrom n J h s hs i hi)
    rintro t ⟨h1, h2⟩
    exact ⟨h1, h2.imp_right fun ⟨c, hc⟩ => ⟨i, hi, by simp, c, hc⟩⟩
  | some (k + 1) =>
    refine returns_mono ?_ (returns_wolffFrom n J h s hs (k + 1) (hsite _ rfl))
    rintro t ⟨h1, h2⟩
    refine ⟨h1, h2.imp_right fun ⟨c, hc⟩ => ⟨k + 1, hsite _ rfl, fun j hj _ => ?_, c, hc⟩⟩
    injection hj

/-- C60: site 0 cannot be asked for as the first site: a random one is taken. -/
theorem C60_site_zero_ignored (n : ℕ) (J : Mat ℝ) (h : List ℝ) (s : List ℤ) :
    wolffStep n J h (some 0) s = wolffStep n J h none s := rfl

/-- C60: a site outside of the system raises, and so does a system without spins. -/
theorem C60_step_raises (J : Mat ℝ) (h : List ℝ) (s : List ℤ) :
    wolffStep 0 J h none s = .fail .valueError ∧
    ∀ n i, n ≤ i + 1 → wolffStep n J h (some (i + 1)) s = .fail .indexError := by
  refine ⟨rfl, fun n i hi => ?_⟩
  rw [wolffStep_eq]
  change wolffFrom n J h s (i + 1) = _
  unfold wolffFrom buildCluster growCluster
  dsimp only
  unfold findNeighbors
  rw [if_neg (by omega)]
  rfl

theorem returns_step_words (n : ℕ) (hn : 0 < n) (J : Mat ℝ) (h : List ℝ) (s : List ℤ) (hs : s ∈ words [1, -1] n)
    (site : Option ℕ) (hsite : ∀ i, site = some i → i < n) :
    Returns (wolffStep n J h site s) fun t => t ∈ words [1, -1] n :=
  returns_mono (fun _ h => h.1) (C60_step n hn J h s hs site hsite)

theorem returns_wolffStart (n m : ℕ) :
    Returns (wolffStart n m) fun rows => rows.length = m ∧ ∀ s ∈ rows, s ∈ words [1, -1] n := by
  have h1 : Returns (mapEach (fun _ : ℕ => (Prog.randint 2).bind fun b => .ret (if b = 0 then (-1 : ℤ) else 1))
      (List.range n)) fun s => s ∈ words [1, -1] n := by
    refine returns_mono ?_ (returns_mapEach (Q := fun _ x => x ∈ ([1, -1] : List ℤ)) _ fun i _ =>
      returns_randint 2 (by decide) _ fun b _ => returns_ret (by split <;> simp))
    intro s hs
    refine mem_words.2 ⟨by have := hs.length_eq; simpa using this.symm, fun x hx => ?_⟩
    obtain ⟨k, hk, rfl⟩ := List.mem_iff_getElem.1 hx
    exact (List.forall₂_iff_get.1 hs).2 k (by rw [hs.length_eq]; exact hk) hk
  refine returns_mono ?_ (returns_mapEach (Q := fun _ s => s ∈ words [1, -1] n) (List.range m) fun i _ => h1)
  intro rows hr
  refine ⟨by have := hr.length_eq; simpa using this.symm, fun x hx => ?_⟩
  obtain ⟨k, hk, rfl⟩ := List.mem_iff_getElem.1 hx
  exact (List.forall₂_iff_get.1 hr).2 k (by rw [hr.length_eq]; exact hk) hk

theorem returns_rows {ι : Type} (n : ℕ) (body : ι → List ℤ → Prog (List ℤ)) (l : List ι)
    (hb : ∀ i ∈ l, ∀ s ∈ words [1, -1] n, Returns (body i s) fun t => t ∈ words [1, -1] n) (rows : List (List ℤ))
    (hr : ∀ s ∈ rows, s ∈ words [1, -1] n) :
    Returns (mapEach (forEach body l) rows) fun out => out.length = rows.length ∧ ∀ s ∈ out, s ∈ words [1, -1] n := by
  refine returns_mono ?_ (returns_mapEach (Q := fun _ s => s ∈ words [1, -1] n) rows fun s hs =>
    returns_forEach (I := fun s => s ∈ words [1, -1] n) l hb s (hr s hs))
  intro out h
  refine ⟨h.length_eq.symm, fun x hx => ?_⟩
  obtain ⟨k, hk, rfl⟩ := List.mem_iff_getElem.1 hx
  exact (List.forall₂_iff_get.1 h).2 k (by rw [h.length_eq]; exact hk) hk

/-- C60: `generate_sample` and `generate_sample_parallel` return the number of rows asked for (or as many as given),
all of spins ±1. -/
theorem C60_sample_rows (n : ℕ) (hn : 0 < n) (J : Mat ℝ) (h : List ℝ) (m nIters : ℕ)
    (initial : Option (List (List ℤ))) (hi : ∀ x, initial = some x → ∀ s ∈ x, s ∈ words [1, -1] n) :
    Returns (wolffSample n J h m nIters initial) (fun rows =>
      rows.length = (initial.map List.length).getD m ∧ ∀ s ∈ rows, s ∈ words [1, -1] n) ∧
    Returns (wolffSampleParallel n J h m nIters initial) fun rows =>
      rows.length = (initial.map List.length).getD m ∧ ∀ s ∈ rows, s ∈ words [1, -1] n := by
  have hstart : Returns (match initial with
      | none => wolffStart n m
      | some x => .ret x) fun rows => rows.length = (initial.map List.length).getD m ∧ ∀ s ∈ rows, s ∈ words [1, -1] n := by
    match initial, hi with
    | none, _ => exact returns_wolffStart n m
    | some x, hi => exact returns_ret ⟨rfl, hi x rfl⟩
  refine ⟨returns_bind hstart fun rows hr => ?_, returns_bind hstart fun rows hr => ?_⟩
  · refine returns_mono (fun out ho => ⟨ho.1.trans hr.1, ho.2⟩) (returns_rows n _ _ (fun i _ s hs => ?_) rows hr.2)
    exact returns_step_words n hn J h s hs none (by simp)
  · refine returns_mono (fun out ho => ⟨ho.1.trans hr.1, ho.2⟩) (returns_rows n _ _ (fun i _ s hs => ?_) rows hr.2)
    rw [if_neg hn.ne']
    exact returns_step_words n hn J h s hs (some (i % n)) fun j hj => by
      injection hj with hj; rw [← hj]; exact Nat.mod_lt _ hn

/-! ### C85 -/

theorem reversible_wolffStep (n : ℕ) (hn : 0 < n) (J : Mat ℝ) (hJ : ∀ i < n, ∀ j < n, J.at' i j = J.at' j i)
    (h : List ℝ) (site : Option ℕ) (hsite : ∀ i, site = some i → i < n) : ReversibleG (words [1, -1] n)
      (fun s => Real.exp (-isingE n (fun i => h.getD i 0) J.at' (spins s))) (wolffStep n J h site) := by
  have hr := reversible_average n hn (step := fun i s => wolffFrom n J h s i)
    fun i hi => reversible_wolffFrom n J hJ h i hi
  match site with
  | none => exact hr
  | some 0 => exact hr
  | some (k + 1) => exact reversible_wolffFrom n J hJ h (k + 1) (hsite _ rfl)

/-- C85: detailed balance of a Wolff step for the Ising model with symmetric couplings and any fields: the
probability flux from `s` to `t` is that from `t` to `s`. -/
theorem C85_detailed_balance (n : ℕ) (hn : 0 < n) (J : Mat ℝ) (hJ : ∀ i < n, ∀ j < n, J.at' i j = J.at' j i)
    (h : List ℝ) (site : Option ℕ) (hsite : ∀ i, site = some i → i < n) (E : List ℤ → ℝ)
    (hE : ∀ s, E s = isingE n (fun i => h.getD i 0) J.at' (spins s)) (s t : List ℤ) (hs : s ∈ words [1, -1] n)
    (ht : t ∈ words [1, -1] n) :
    boltzmann (words [1, -1] n) E s * prob (wolffStep n J h site s) (· = t) =
      boltzmann (words [1, -1] n) E t * prob (wolffStep n J h site t) (· = s) := by
  have key := reversible_wolffStep n hn J hJ h site hsite (fun x => if x = t then 1 else 0) fun x => if x = s then 1 else 0
  have hsum : ∀ (s : List ℤ), s ∈ words [1, -1] n → ∀ F : List ℤ → ℝ,
      ((words [1, -1] n).map fun x => Real.exp (-isingE n (fun i => h.getD i 0) J.at' (spins x)) *
        ((if x = s then 1 else 0) * F x)).sum = Real.exp (-E s) * F s := fun s hs F => by
    rw [← List.sum_toFinset _ (nodup_words (by decide) n), Finset.sum_eq_single s]
    · rw [if_pos rfl, one_mul, hE]
    · intro x _ hx; rw [if_neg hx]; ring
    · intro h; exact absurd (List.mem_toFinset.2 hs) h
  rw [hsum s hs, hsum t ht] at key
  unfold boltzmann prob
  rw [div_mul_eq_mul_div, div_mul_eq_mul_div, key]

/-- C85: started from the distribution of the model, a Wolff step leaves it as it is. -/
theorem C85_step_invariant (n : ℕ) (hn : 0 < n) (J : Mat ℝ) (hJ : ∀ i < n, ∀ j < n, J.at' i j = J.at' j i)
    (h : List ℝ) (site : Option ℕ) (hsite : ∀ i, site = some i → i < n) (E : List ℤ → ℝ)
    (hE : ∀ s, E s = isingE n (fun i => h.getD i 0) J.at' (spins s)) (f : List ℤ → ℝ) :
    expect (words [1, -1] n) E (fun s => expectation f (wolffStep n J h site s)) = expect (words [1, -1] n) E f := by
  have k := (reversible_wolffStep n hn J hJ h site hsite).keeps
    fun s hs => returns_step_words n hn J h s hs site hsite
  refine k.smul (w' := boltzmann (words [1, -1] n) E) (partition (words [1, -1] n) E)⁻¹ (fun s => ?_) f
  unfold boltzmann
  rw [hE, div_eq_inv_mul]

theorem keeps_step (n : ℕ) (hn : 0 < n) (J : Mat ℝ) (hJ : ∀ i < n, ∀ j < n, J.at' i j = J.at' j i)
    (h : List ℝ) (site : Option ℕ) (hsite : ∀ i, site = some i → i < n) (E : List ℤ → ℝ)
    (hE : ∀ s, E s = isingE n (fun i => h.getD i 0) J.at' (spins s)) :
    KeepsG (words [1, -1] n) (boltzmann (words [1, -1] n) E) (wolffStep n J h site) :=
  fun f => C85_step_invariant n hn J hJ h site hsite E hE f

theorem expect_row {ι : Type} (n : ℕ) (E : List ℤ → ℝ) (body : ι → List ℤ → Prog (List ℤ)) (l : List ι)
    (hb : ∀ i ∈ l, ∀ s ∈ words [1, -1] n, Returns (body i s) fun t => t ∈ words [1, -1] n)
    (hk : ∀ i ∈ l, KeepsG (words [1, -1] n) (boltzmann (words [1, -1] n) E) (body i))
    (rows : List (List ℤ)) (hr : ∀ s ∈ rows, s ∈ words [1, -1] n) (b : ℕ) (hlt : b < rows.length) (f : List ℤ → ℝ) :
    expect (words [1, -1] n) E (fun s => expectation (fun out => f (out.getD b []))
      (mapEach (forEach body l) (rows.set b s))) = expect (words [1, -1] n) E f := by
  refine Eq.trans (expect_congr _ _ _ _ _ (fun _ _ => rfl) fun s hs => ?_) (keepsG_forEach (body := body) l hk f)
  have hrow : ∀ x ∈ rows.set b s, x ∈ words [1, -1] n := fun x hx => by
    rcases List.mem_or_eq_of_mem_set hx with h | h
    · exact hr x h
    · rw [h]; exact hs
  rw [expectation_mapEach_getD _ (fun t => t ∈ words [1, -1] n) [] f _ (fun x hx =>
    returns_forEach (I := fun s => s ∈ words [1, -1] n) l hb x (hrow x hx)) b (by simpa using hlt)]
  simp

/-- C85: if row `b` of the initial sample is distributed as the model, so is row `b` of what `generate_sample` and
`generate_sample_parallel` return, for a sampler constructed with a coupling vector. -/
theorem C85_sample_invariant (n : ℕ) (hn : 1 ≤ n) (v h : List ℝ) (hh : h.length = n) (hv : v.length = n * (n - 1) / 2)
    (M : Mat ℝ) (g : List ℝ) (hM : wolffInit (.inl v) h = .ok (M, g)) (m nIters : ℕ) (rows : List (List ℤ))
    (hr : ∀ s ∈ rows, s ∈ words [1, -1] n) (b : ℕ) (hb : b < rows.length) (f : List ℤ → ℝ) (E : List ℤ → ℝ)
    (hE : E = fun s => isingVecE n h v (spins s)) :
    expect (words [1, -1] n) E (fun s => expectation (fun out => f (out.getD b []))
      (wolffSample n M g m nIters (some (rows.set b s)))) = expect (words [1, -1] n) E f ∧
    expect (words [1, -1] n) E (fun s => expectation (fun out => f (out.getD b []))
      (wolffSampleParallel n M g m nIters (some (rows.set b s)))) = expect (words [1, -1] n) E f := by
  obtain ⟨M', h1, _, h3, h4⟩ := C60_constructor n hn v h hh hv
  rw [h1] at hM
  injection hM with hM
  injection hM with hM hg
  subst hM hg
  have hE' : ∀ s, E s = isingE n (fun i => h.getD i 0) M'.at' (spins s) := fun s => by rw [hE, h4]
  constructor
  · refine expect_row n E (fun _ : ℕ => wolffStep n M' h none) (List.range nIters) (fun i _ s hs => ?_) (fun i _ => ?_)
      rows hr b hb f
    · exact returns_step_words n hn M' h s hs none (by simp)
    · exact keeps_step n hn M' h3 h none (by simp) E hE'
  · refine expect_row n E (fun (j : ℕ) s => (if n = 0 then Prog.fail .zeroDivision else .ret (j % n)).bind fun i =>
      wolffStep n M' h (some i) s) (List.range nIters) (fun i _ s hs => ?_) (fun i _ => ?_) rows hr b hb f
    · rw [if_neg (by omega)]
      exact returns_step_words n hn M' h s hs (some (i % n)) fun j hj => by
        injection hj with hj; rw [← hj]; exact Nat.mod_lt _ hn
    · simp only [if_neg (by omega : ¬ n = 0)]
      exact keeps_step n hn M' h3 h (some (i % n)) (fun j hj => by
        injection hj with hj; rw [← hj]; exact Nat.mod_lt _ hn) E hE'

/-- C85: every single spin flip has positive probability from every state, so that all states can be reached. -/
theorem C85_single_flips (n : ℕ) (J : Mat ℝ) (h : List ℝ) (s : List ℤ) (hs : s ∈ words [1, -1] n) (i : ℕ)
    (hi : i < n) : 0 < prob (wolffStep n J h none s) (· = s.set i (-s.getD i 0)) := by
  have hn : 0 < n := by omega
  have hq : ∀ a b, 0 < stay J s a b ∧ stay J s a b ≤ 1 := fun a b => by
    rw [stay_eq]; exact ⟨lt_min one_pos (Real.exp_pos _), min_le_left _ _⟩
  have hnn : ∀ o : List (ℕ × List ℕ × List ℕ), 0 ≤ historyWeight (stay J s) o := fun o => by
    refine List.prod_nonneg fun x hx => ?_
    obtain ⟨y, _, rfl⟩ := List.mem_map.1 hx
    refine List.prod_nonneg fun z hz => ?_
    obtain ⟨j, _, rfl⟩ := List.mem_map.1 hz
    have := hq y.1 j
    split <;> linarith
  have ha : ∀ L, 0 < min 1 (Real.exp (-2 * fieldTerm h s L)) ∧ min 1 (Real.exp (-2 * fieldTerm h s L)) ≤ 1 :=
    fun L => ⟨lt_min one_pos (Real.exp_pos _), min_le_left _ _⟩
  have hterm : ∀ (t : List ℤ) (o : List (ℕ × List ℕ × List ℕ) × List ℕ), 0 ≤ historyWeight (stay J s) o.1 *
      (min 1 (Real.exp (-2 * fieldTerm h s o.2)) * (if flipCluster s o.2 = t then 1 else 0) +
        (1 - min 1 (Real.exp (-2 * fieldTerm h s o.2))) * (if s = t then 1 else 0)) := fun t o => by
    have := ha o.2
    refine mul_nonneg (hnn _) (add_nonneg (mul_nonneg this.1.le (by split <;> simp))
      (mul_nonneg (by linarith) (by split <;> simp)))
  have hlen : s.length = n := (mem_words.1 hs).1
  have hflip : flipCluster s [i] = s.set i (-s.getD i 0) := by
    refine List.ext_getElem (by simp [flipCluster_length]) fun k hk hk' => ?_
    rw [← List.getD_eq_getElem _ 0 hk, flipCluster_getD, List.getElem_set]
    rw [flipCluster_length] at hk
    by_cases hki : k = i
    · subst hki; simp
    · rw [if_neg (by simpa using hki), if_neg (Ne.symm hki), List.getD_eq_getElem _ _ hk]
  unfold prob
  rw [wolffStep_eq]
  change 0 < expectation _ ((Prog.randint n).bind _)
  rw [expectation_randint _ n hn]
  refine div_pos ?_ (by exact_mod_cast hn)
  have hnonneg : ∀ k ∈ Finset.range n, 0 ≤ expectation (fun a => if a = s.set i (-s.getD i 0) then (1 : ℝ) else 0)
      (wolffFrom n J h s k) := fun k hk => by
    rw [expectation_wolffFrom n J h s k (Finset.mem_range.1 hk)]
    refine List.sum_nonneg fun x hx => ?_
    obtain ⟨o, _, rfl⟩ := List.mem_map.1 hx
    exact hterm _ o
  refine Finset.sum_pos' hnonneg ⟨i, Finset.mem_range.2 hi, ?_⟩
  rw [expectation_wolffFrom n J h s i hi]
  have hmem : ([(i, candidates n [i] i, [])], [i]) ∈ histories n (n + 1) [i] [i] := by
    obtain ⟨m, rfl⟩ := Nat.exists_eq_add_of_lt hn
    refine List.mem_flatMap.2 ⟨[], ?_, by simp [histories]⟩
    have : ∀ c : List ℕ, ([] : List ℕ) ∈ choices c := fun c => by
      induction c with
      | nil => simp [choices]
      | cons a c ih => exact List.mem_append_right _ ih
    exact this _
  have hle := List.single_le_sum (l := (histories n (n + 1) [i] [i]).map fun o =>
      historyWeight (stay J s) o.1 * (min 1 (Real.exp (-2 * fieldTerm h s o.2)) *
        (if flipCluster s o.2 = s.set i (-s.getD i 0) then (1 : ℝ) else 0) +
        (1 - min 1 (Real.exp (-2 * fieldTerm h s o.2))) * (if s = s.set i (-s.getD i 0) then 1 else 0)))
    (fun x hx => by obtain ⟨o, _, rfl⟩ := List.mem_map.1 hx; exact hterm _ o) _ (List.mem_map.2 ⟨_, hmem, rfl⟩)
  refine lt_of_lt_of_le ?_ hle
  dsimp only
  have hw : 0 < historyWeight (stay J s) [(i, candidates n [i] i, [])] := by
    unfold historyWeight choiceWeight
    simp only [List.map_cons, List.map_nil, List.prod_cons, List.prod_nil, mul_one, List.not_mem_nil, if_false]
    exact prod_pos' _ _ fun j _ => (hq i j).1
  have := ha [i]
  refine mul_pos hw ?_
  rw [if_pos hflip, mul_one]
  have : 0 ≤ (1 - min 1 (Real.exp (-2 * fieldTerm h s [i]))) * (if s = s.set i (-s.getD i 0) then (1 : ℝ) else 0) :=
    mul_nonneg (by linarith) (by split <;> simp)
  linarith [(ha [i]).1]

/-- The hypotheses are met: 4 spins, 6 couplings, a state, a site that is not 0. -/
example : ([1, -1, 1, 1] : List ℤ) ∈ words [1, -1] 4 ∧ ([1, 2, -1, 0, 3, 1] : List ℝ).length = 4 * (4 - 1) / 2 ∧
    (∀ i, (some 2 : Option ℕ) = some i → i < 4) ∧
    (wolffInit (.inl ([1, 2, -1, 0, 3, 1] : List ℤ)) [0, 1, 0, 2]).toOption.isSome ∧
    wolffInit (.inl ([1, 2, -1] : List ℤ)) [0, 1, 5] = .ok ([[0, 1, 2], [1, 0, -1], [2, -1, 0]], [0, 1, 5]) := by
  refine ⟨by decide, by simp, fun i h => by injection h with h; omega, by decide, by decide⟩

end Verif.Props
