/-
The Swendsen-Wang sampler: coniii/samplers.py SWIsing (C101).
-/
import Verif.Lemmas.SwendsenWang2
import Verif.Props.MixingWolff

namespace Verif.Props
open Verif Verif.Model Verif.Spec Verif.Lemmas Prog Filter

/-- C101: the class cannot be used: its constructor always raises NotImplementedError. -/
theorem C101_constructor_raises (n : ℕ) (theta : List ℝ) : swInit n theta = .error .notImplemented := rfl

/-- C101: `generate_sample_parallel` always raises NameError. -/
theorem C101_parallel_raises (m k : ℕ) (initial : Option (List (List ℤ))) :
    swSampleParallel m k initial = .fail .nameError := rfl

/-- A list of clusters of the `n` sites: every site is in exactly one, and sites of one cluster are joined through pairs
whose present alignment lowers the energy. -/
def IsClustering (n : ℕ) (J : List ℝ) (s : List ℤ) (cs : List (List ℕ)) : Prop :=
  cs.flatten.Perm (List.range n) ∧ ∀ c ∈ cs, c ≠ [] ∧ ∀ i ∈ c, ∀ j ∈ c,
    Relation.ReflTransGen (fun a b => a < n ∧ b < n ∧ a ≠ b ∧ 0 < couplingOf n J a b * (spins s a * spins s b)) i j

theorem returns_bits {ι : Type} (y : ι → ℝ) (l : List ι) :
    Returns (mapEach (fun i => .rand fun u => if bondBit (y i) u then .ret true else .ret false) l)
      fun B => List.Forall₂ (fun i b => b = true → 0 < y i) l B := by
  refine returns_mapEach (Q := fun i b => b = true → 0 < y i) l fun i _ => ?_
  intro u _ _
  dsimp only
  by_cases hb : bondBit (y i) u
  · rw [if_pos hb]
    refine returns_ret fun _ => ?_
    unfold bondBit at hb
    exact (of_decide_eq_true hb).1
  · rw [if_neg hb]
    exact returns_ret fun h => by simp at h

theorem returns_swClusters {n : ℕ} {J : List ℝ} {pick : List ℕ → ℕ} {order : List ℕ → List ℕ} (hn : 1 ≤ n)
    (hJ : J.length = n * (n - 1) / 2) (hp : ∀ l ≠ [], pick l ∈ l) (ho : ∀ l, (order l).Perm l) (s : List ℤ)
    (hs : s.length = n) : Returns (swClusters J pick order s) (IsClustering n J s) := by
  have e : swClusters J pick order s = (mapEach (fun k => .rand fun u => if bondBit (bondTerm n J s k) u then .ret true
        else .ret false) (List.range J.length)).bind fun B => ofPy (clustersOf pick order B) := by
    unfold swClusters
    dsimp only
    refine mapEach_rand01 (List.range J.length) (fun k u => bondBit (bondTerm n J s k) u) _ _ fun r hr => ?_
    rw [sampleBonds_eq s hs hJ r (by simpa using hr)]
    rfl
  rw [e]
  refine returns_bind (returns_bits _ _) fun B hB => ?_
  have hl : B.length = n * (n - 1) / 2 := by rw [← hB.length_eq, List.length_range, hJ]
  obtain ⟨cs, h1, h2, h3⟩ := clustersOf_spec hn hp ho B hl
  rw [h1]
  refine returns_ret ⟨h2, fun c hc => ⟨(h3 c hc).1, fun i hi j hj => ?_⟩⟩
  refine Relation.ReflTransGen.mono ?_ _ _ (((h3 c hc).2 i hi j).1 hj)
  rintro a b ⟨ha, hb, hab, hbond⟩
  refine ⟨ha, hb, hab, ?_⟩
  have hmem : (min a b, max a b) ∈ upperPairs n :=
    mem_upperPairs.2 ⟨by rcases lt_or_gt_of_ne hab with h | h <;> simp [h], max_lt ha hb⟩
  set k := (upperPairs n).idxOf (min a b, max a b) with hk
  have hku : k < (upperPairs n).length := List.idxOf_lt_length_of_mem hmem
  have hkB : k < B.length := by rw [hl, ← length_upperPairs]; exact hku
  rw [List.getD_eq_getElem _ _ hkB] at hbond
  have hy := (List.forall₂_iff_get.1 hB).2 k (by rw [hB.length_eq]; exact hkB) hkB hbond
  simp only [List.get_eq_getElem, List.getElem_range] at hy
  unfold bondTerm at hy
  rw [List.getD_eq_getElem _ _ hku, show (upperPairs n)[k] = (min a b, max a b) from List.getElem_idxOf hku] at hy
  unfold couplingOf couplingAt
  rw [← hk]
  rcases lt_or_gt_of_ne hab with h | h
  · rwa [min_eq_left h.le, max_eq_right h.le] at hy
  · rw [min_eq_right h.le, max_eq_left h.le] at hy
    rwa [mul_comm (spins s a)]

section
variable {n : ℕ} (hn : 1 ≤ n) {J : List ℝ} (hJ : J.length = n * (n - 1) / 2) {pick : List ℕ → ℕ}
  {order : List ℕ → List ℕ} (hp : ∀ l ≠ [], pick l ∈ l) (ho : ∀ l, (order l).Perm l) (h : List ℝ)
include hn hJ hp ho

/-- C101: whatever the random numbers are, a step divides the sites into clusters of aligned sites and negates exactly
the spins of some of the clusters. -/
theorem C101_step (s : List ℤ) (hs : s ∈ words [1, -1] n) :
    Returns (swStep h J pick order s) fun t => t ∈ words [1, -1] n ∧ ∃ cs F : List (List ℕ), IsClustering n J s cs ∧
      F.Sublist cs ∧ ∀ k, t.getD k 0 = if k ∈ F.flatten then -s.getD k 0 else s.getD k 0 := by
  unfold swStep
  refine returns_bind (returns_swClusters hn hJ hp ho s (mem_words.1 hs).1) fun cs hcs => ?_
  have hnd := List.nodup_flatten.1 (hcs.1.nodup_iff.2 List.nodup_range)
  have key : ∀ cs : List (List ℕ), cs.Pairwise List.Disjoint → ∀ s ∈ words ([1, -1] : List ℤ) n,
      Returns (forEach (swFlip h) cs s) fun t => t ∈ words [1, -1] n ∧ ∃ F : List (List ℕ), F.Sublist cs ∧
        ∀ k, t.getD k 0 = if k ∈ F.flatten then -s.getD k 0 else s.getD k 0 := by
    intro cs
    induction cs with
    | nil => exact fun _ s hs => returns_ret ⟨hs, [], List.Sublist.refl _, by simp⟩
    | cons c cs ih =>
      intro hd s hs
      rw [List.pairwise_cons] at hd
      have hstep : Returns (swFlip h c s) fun t => t = flipCluster s c ∨ t = s := by
        intro u _ _
        dsimp only
        split
        · exact returns_ret (.inl rfl)
        · exact returns_ret (.inr rfl)
      refine returns_bind hstep fun t ht => ?_
      rcases ht with rfl | rfl
      · refine returns_mono ?_ (ih hd.2 _ (flipCluster_mem n s c hs))
        rintro t ⟨ht, F, hF, hk⟩
        refine ⟨ht, c :: F, hF.cons_cons c, fun k => ?_⟩
        rw [hk, flipCluster_getD, List.flatten_cons]
        by_cases h1 : k ∈ c
        · have : k ∉ F.flatten := fun h2 => by
            obtain ⟨d, hdF, hkd⟩ := List.mem_flatten.1 h2
            exact hd.1 d (hF.subset hdF) h1 hkd
          simp [h1, this]
        · simp [h1]
      · refine returns_mono ?_ (ih hd.2 _ hs)
        rintro t ⟨ht, F, hF, hk⟩
        exact ⟨ht, F, hF.cons c, hk⟩
  refine returns_mono ?_ (key cs hnd.2 s hs)
  rintro t ⟨ht, F, hF, hk⟩
  exact ⟨ht, cs, F, hcs, hF, hk⟩

variable (E : List ℤ → ℝ) (hE : E = fun s => isingVecE n h J (spins s))
include hE

/-- C101: detailed balance of a step for the Ising model with any fields and couplings. -/
theorem C101_detailed_balance (s t : List ℤ) (hs : s ∈ words [1, -1] n) (ht : t ∈ words [1, -1] n) :
    boltzmann (words [1, -1] n) E s * prob (swStep h J pick order s) (· = t) =
      boltzmann (words [1, -1] n) E t * prob (swStep h J pick order t) (· = s) := by
  have key := reversible_swStep hn hJ hp ho h (fun x => if x = t then 1 else 0) fun x => if x = s then 1 else 0
  have hsum : ∀ (s : List ℤ), s ∈ words [1, -1] n → ∀ F : List ℤ → ℝ,
      ((words [1, -1] n).map fun x => Real.exp (-isingVecE n h J (spins x)) *
        ((if x = s then 1 else 0) * F x)).sum = Real.exp (-E s) * F s := fun s hs F => by
    rw [← List.sum_toFinset _ (nodup_words (by decide) n), Finset.sum_eq_single s]
    · rw [if_pos rfl, one_mul, hE]
    · intro x _ hx; rw [if_neg hx]; ring
    · intro h; exact absurd (List.mem_toFinset.2 hs) h
  rw [hsum s hs, hsum t ht] at key
  unfold boltzmann prob
  rw [div_mul_eq_mul_div, div_mul_eq_mul_div, key]

/-- C101: started from the distribution of the model, a step leaves it as it is. -/
theorem C101_invariant (f : List ℤ → ℝ) :
    expect (words [1, -1] n) E (fun s => expectation f (swStep h J pick order s)) = expect (words [1, -1] n) E f := by
  have k := (reversible_swStep hn hJ hp ho h).keeps fun s hs =>
    returns_mono (fun _ ht => ht.1) (C101_step hn hJ hp ho h s hs)
  refine k.smul (w' := boltzmann (words [1, -1] n) E) (partition (words [1, -1] n) E)⁻¹ (fun s => ?_) f
  unfold boltzmann
  rw [hE, div_eq_inv_mul]

theorem sw_ergodic : Ergodic (words [1, -1] n) (boltzmann (words [1, -1] n) E) (swStep h J pick order) where
  fin s hs := finDist_swStep hn hJ hp ho h s hs
  nonneg s _ := (boltzmann_pos _ E (words_ne_nil [1, -1] 1 (by simp) n) s).le
  sum := sum_boltzmann _ E (words_ne_nil [1, -1] 1 (by simp) n)
  keeps f := C101_invariant hn hJ hp ho h E hE f
  pos := ⟨1, fun s hs t ht => swStep_pos hn hJ hp ho h s t hs ht⟩

end

/-- Rows evolved in place, one after another. -/
theorem rows_in_place {α : Type} (ev : α → Prog α) (d : α) (m : ℕ) :
    ∀ (k : ℕ) (done todo : List α), done.length = k → m ≤ todo.length →
      forEach (fun i (rows : List α) => if i < rows.length then (ev (rows.getD i d)).bind fun s => .ret (rows.set i s)
        else .fail .indexError) (List.range' k m) (done ++ todo) =
      (mapEach ev (todo.take m)).bind fun as => .ret (done ++ as ++ todo.drop m) := by
  induction m with
  | zero => intro k done todo _ _; simp [forEach, mapEach, Prog.bind]
  | succ m ih =>
    intro k done todo hd hm
    match todo, hm with
    | a :: todo, hm =>
      rw [List.range'_succ, forEach, if_pos (by simp; omega), List.take_succ_cons, mapEach, bind_assoc, bind_assoc]
      have hg : (done ++ a :: todo).getD k d = a := by
        rw [List.getD_append_right _ _ _ _ (by omega), hd, Nat.sub_self]; rfl
      rw [hg]
      congr 1
      funext b
      have hset : (done ++ a :: todo).set k b = (done ++ [b]) ++ todo := by
        rw [List.set_append_right _ _ (by omega), hd, Nat.sub_self, List.set_cons_zero]; simp
      rw [bind_assoc]
      simp only [Prog.bind]
      rw [hset, ih (k + 1) (done ++ [b]) todo (by simp [hd]) (by simpa using hm)]
      congr 1
      funext as
      simp

section
variable {n : ℕ} (hn : 1 ≤ n) {J : List ℝ} (hJ : J.length = n * (n - 1) / 2) {pick : List ℕ → ℕ}
  {order : List ℕ → List ℕ} (hp : ∀ l ≠ [], pick l ∈ l) (ho : ∀ l, (order l).Perm l) (h : List ℝ)
include hn hJ hp ho

omit hn hJ hp ho in
theorem swSample_eq (m k : ℕ) (rows : List (List ℤ)) (hm : m ≤ rows.length) :
    forEach (fun i sample => if i < sample.length then
        (forEach (fun _ s => swStep h J pick order s) (List.range k) (sample.getD i [])).bind fun s =>
          .ret (sample.set i s)
      else .fail .indexError) (List.range m) rows =
    (mapEach (fun s => forEach (fun (_ : ℕ) s => swStep h J pick order s) (List.range k) s) (rows.take m)).bind
      fun as => .ret (as ++ rows.drop m) := by
  have := rows_in_place (fun s => forEach (fun (_ : ℕ) s => swStep h J pick order s) (List.range k) s) [] m 0 [] rows rfl hm
  rw [← List.range_eq_range'] at this
  exact this

/-- C101: rows asked for beyond those given raise IndexError; otherwise all rows are kept, the first `n_samples` of them
evolved, and all entries stay ±1. -/
theorem C101_rows (m k : ℕ) (initial : Option (List (List ℤ)))
    (hi : ∀ x, initial = some x → m ≤ x.length ∧ ∀ s ∈ x, s ∈ words [1, -1] n) :
    Returns (swSample n h J pick order m k initial) fun rows =>
      rows.length = (initial.map List.length).getD m ∧ (∀ s ∈ rows, s ∈ words [1, -1] n) ∧
        ∀ x, initial = some x → rows.drop m = x.drop m := by
  unfold swSample
  have hstart : Returns (match initial with
      | none => wolffStart n m
      | some x => .ret x) fun rows => m ≤ rows.length ∧ rows.length = (initial.map List.length).getD m ∧
        (∀ s ∈ rows, s ∈ words [1, -1] n) ∧ ∀ x, initial = some x → rows = x := by
    match initial, hi with
    | none, _ => exact returns_mono (fun rows hr => ⟨hr.1.ge, hr.1, hr.2, by simp⟩) (returns_wolffStart n m)
    | some x, hi => exact returns_ret ⟨(hi x rfl).1, rfl, (hi x rfl).2, fun y hy => by injection hy⟩
  refine returns_bind hstart fun rows hr => ?_
  rw [swSample_eq h m k rows hr.1]
  refine returns_bind (returns_rows n _ _ (fun _ _ s hs => returns_mono (fun _ ht => ht.1)
    (C101_step hn hJ hp ho h s hs)) (rows.take m) fun s hs => hr.2.2.1 s (List.mem_of_mem_take hs)) fun as has => ?_
  have hlen : as.length = m := by rw [has.1, List.length_take, min_eq_left hr.1]
  refine returns_ret ⟨?_, fun s hs => ?_, fun x hx => ?_⟩
  · rw [List.length_append, hlen, List.length_drop, ← hr.2.1]; omega
  · rcases List.mem_append.1 hs with hs | hs
    · exact has.2 s hs
    · exact hr.2.2.1 s (List.mem_of_mem_drop hs)
  · rw [← hlen, List.drop_left, hlen, hr.2.2.2 x hx]

omit hn hJ hp ho in
/-- C101: a first state with fewer rows than asked for raises IndexError (here: none). -/
theorem C101_rows_missing (m k : ℕ) : swSample n h J pick order (m + 1) k (some []) = .fail .indexError := by
  unfold swSample
  dsimp only [Prog.bind]
  rw [List.range_succ_eq_map, forEach]
  rfl

variable (E : List ℤ → ℝ) (hE : E = fun s => isingVecE n h J (spins s))
include hE

/-- C101: every row has approximately the Boltzmann distribution once the number of steps is large, from all first
states and for all parameters. -/
theorem C101_converges (f : List ℤ → ℝ) (δ : ℝ) (hδ : 0 < δ) :
    ∃ N : ℕ, ∀ (m k : ℕ) (initial : Option (List (List ℤ))) (b : ℕ),
      (∀ x, initial = some x → m ≤ x.length ∧ ∀ s ∈ x, s ∈ words [1, -1] n) → b < m → N ≤ k →
      |expectation (fun rows => f (rows.getD b [])) (swSample n h J pick order m k initial) -
        expect (words [1, -1] n) E f| < δ := by
  have he := sw_ergodic hn hJ hp ho h E hE
  obtain ⟨r, -, h1, -, h2, -⟩ := he.rate f
  obtain ⟨N, hN⟩ := eventually_atTop.1 (h1.eventually (gt_mem_nhds hδ))
  refine ⟨N, fun m k initial b hi hb hle => lt_of_le_of_lt ?_ (hN k hle)⟩
  unfold swSample
  rw [expectation_bind]
  have hstart : FinDist (match initial with
      | none => wolffStart n m
      | some x => .ret x) fun rows => m ≤ rows.length ∧ ∀ s ∈ rows, s ∈ words [1, -1] n := by
    match initial, hi with
    | none, _ => exact finDist_mono (fun rows hr => ⟨hr.1.ge, hr.2⟩) (wolff_start_row n m none (by simp))
    | some x, hi => exact finDist_ret (hi x rfl)
  refine hstart.bound fun rows hr => ?_
  rw [swSample_eq h m k rows hr.1, expectation_bind]
  have hret : ∀ s ∈ rows.take m, Returns (forEach (fun (_ : ℕ) s => swStep h J pick order s) (List.range k) s)
      (· ∈ words [1, -1] n) := fun s hs => returns_forEach (I := (· ∈ words [1, -1] n)) _
    (fun _ _ t ht => returns_mono (fun _ hu => hu.1) (C101_step hn hJ hp ho h t ht)) s (hr.2 s (List.mem_of_mem_take hs))
  have hlen : (rows.take m).length = m := by rw [List.length_take, min_eq_left hr.1]
  rw [expectation_congr (g := fun as => f (as.getD b [])) _ (returns_mapEach (Q := fun _ => (· ∈ words ([1, -1] : List ℤ) n))
    _ hret) fun as has => ?_]
  · rw [expectation_mapEach_getD _ (· ∈ words [1, -1] n) _ _ _ hret b (by omega)]
    have := h2 (List.range k) (rows.take m)[b] (hr.2 _ (List.mem_of_mem_take (List.getElem_mem _)))
    rw [List.length_range] at this
    exact this
  · rw [expectation_ret, List.getD_append _ _ _ _ (by rw [← has.length_eq]; omega)]

/-- C101: averages over the rows, which are independent: the mean square deviation from the Boltzmann mean is at most `K`
divided by the number of rows, and an error that vanishes with the number of steps. -/
theorem C101_averages (f : List ℤ → ℝ) : ∃ (K : ℝ) (r : ℕ → ℝ), Tendsto r atTop (nhds 0) ∧
    ∀ (m k : ℕ) (initial : Option (List (List ℤ))),
      (∀ x, initial = some x → x.length = m ∧ ∀ s ∈ x, s ∈ words [1, -1] n) → 0 < m →
      expectation (fun rows => ((rows.map f).sum / m - expect (words [1, -1] n) E f) ^ 2)
        (swSample n h J pick order m k initial) ≤ K / m + r k := by
  have he := sw_ergodic hn hJ hp ho h E hE
  obtain ⟨r, hr0, h1, -, h2, -⟩ := he.rate f
  obtain ⟨μ, hμ⟩ : ∃ μ, μ = expect (words [1, -1] n) E f := ⟨_, rfl⟩
  obtain ⟨t, -, ht⟩ := list_max (S := words ([1, -1] : List ℤ) n) (fun s => (f s - μ) ^ 2)
    (words_ne_nil [1, -1] 1 (by simp) n)
  refine ⟨(f t - μ) ^ 2, fun m => r m ^ 2, by simpa using h1.pow 2, fun m k initial hi hm => ?_⟩
  have hm' : (0 : ℝ) < m := by exact_mod_cast hm
  rw [← hμ]
  unfold swSample
  rw [expectation_bind]
  refine (wolff_start_row n m initial hi).le_of fun rows hrow => ?_
  rw [swSample_eq h m k rows hrow.1.ge, ← hrow.1, List.take_length, List.drop_length, hrow.1]
  simp only [List.append_nil, bind_ret]
  have hp : ∀ s ∈ rows, FinDist (Prog.forEach (fun (_ : ℕ) s => swStep h J pick order s) (List.range k) s)
      (· ∈ words [1, -1] n) := fun s hs =>
    finDist_forEach (I := (· ∈ words [1, -1] n)) _ (fun _ _ => he.fin) s (hrow.2 s hs)
  have key := (independent_sum (fun s => Prog.forEach (fun (_ : ℕ) s => swStep h J pick order s) (List.range k) s)
    (· ∈ words [1, -1] n) (fun s => f s - μ) (r k) ((f t - μ) ^ 2) (hr0 _) rows hp (fun s hs => ?_)
    (fun s hs => ?_)).2
  · have hall := finDist_mapEach (Q := fun _ => (· ∈ words ([1, -1] : List ℤ) n)) rows hp
    rw [hall.congr (g := fun as => 0 + ((m : ℝ) ^ 2)⁻¹ * ((as.map fun s => f s - μ).sum) ^ 2) fun as has => ?_]
    · rw [hall.affine, zero_add]
      rw [hrow.1] at key
      calc ((m : ℝ) ^ 2)⁻¹ * _ ≤ ((m : ℝ) ^ 2)⁻¹ * (m * (f t - μ) ^ 2 + (m * r k) ^ 2) :=
            mul_le_mul_of_nonneg_left key (by positivity)
        _ = _ := by field_simp
    · have hlen : as.length = m := by rw [← has.length_eq, hrow.1]
      have hs : (as.map fun s => f s - μ).sum = (as.map f).sum - m * μ := by
        rw [← hlen]
        clear has hlen
        induction as with
        | nil => simp
        | cons a as ih => simp only [List.map_cons, List.sum_cons, List.length_cons, ih]; push_cast; ring
      rw [hs]
      field_simp
      ring
  · have h := h2 (List.range k) s (hrow.2 s hs)
    rw [List.length_range] at h
    have e := (hp s hs).affine (-μ) 1 f
    rw [show (fun t => -μ + 1 * f t) = fun s => f s - μ from funext fun t => by ring] at e
    rw [e, show -μ + 1 * expectation f _ = expectation f
      (Prog.forEach (fun (_ : ℕ) s => swStep _ J pick order s) (List.range k) s) - μ from by ring, hμ]
    exact h
  · exact (hp s hs).le_of fun u hu => ht u hu

end

/-- The hypotheses are met: three spins. -/
example : (1 : ℕ) ≤ 3 ∧ ([1, -1, 1 / 2] : List ℝ).length = 3 * (3 - 1) / 2 ∧
    (∀ l : List ℕ, l ≠ [] → l.headD 0 ∈ l) ∧ (∀ l : List ℕ, (id l).Perm l) ∧ [1, -1, 1] ∈ words ([1, -1] : List ℤ) 3 :=
  ⟨by norm_num, rfl, fun l hl => by cases l with
    | nil => exact absurd rfl hl
    | cons a l => simp, fun l => .refl _, by decide⟩

end Verif.Props
