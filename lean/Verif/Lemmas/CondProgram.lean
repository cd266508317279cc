import Verif.Lemmas.CondInsert

namespace Verif.Lemmas
open Verif Verif.Model Verif.Spec Prog

theorem sampleMetropolisE_eq {n : ℕ} {fixed : List (ℕ × ℤ)} (h : GoodFixed n fixed) (calcE : List ℤ → ℝ)
    (site : Option ℕ) (s : List ℤ) (hs : s.length + fixed.length = n) (e : ℝ) :
    sampleMetropolisE (condCalcE calcE n fixed) site s e =
      sampleMetropolis (fun r => calcE (weave n fixed r)) site s e := by
  unfold sampleMetropolisE sampleMetropolis
  congr 1
  funext i
  by_cases hi : i < s.length
  · simp only [if_pos hi, condCalcE_eq h calcE (negAt s i) (by rw [negAt_length]; exact hs), Prog.ofPy, Prog.bind]
  · simp only [if_neg hi]

/-- A visit of states by two moves that agree on the states met. -/
theorem agree_metroVisits {S : List (List ℤ)} {w calcE : List ℤ → ℝ} {k : ℕ} {move move' : Move}
    (hm : GoodMove S w calcE k move) (hk : 0 < k)
    (h : ∀ s ∈ S, ∀ site e, move' site s e = move site s e) (systematic : Bool) (l : List ℕ) (st : List ℤ × ℝ)
    (hst : st.1 ∈ S ∧ st.2 = calcE st.1) :
    Agree (visits (metroIter move k systematic) l st) (visits (metroIter move' k systematic) l st) :=
  agree_visits (I := fun st : List ℤ × ℝ => st.1 ∈ S ∧ st.2 = calcE st.1) l
    (fun j _ s hs => returns_metroIter hm hk systematic j s hs.1 hs.2)
    (fun j _ s hs => .of_eq (by unfold metroIter; simp only [h s.1 hs.1])) st hst

theorem mapM_condCalcE {n : ℕ} {fixed : List (ℕ × ℤ)} (h : GoodFixed n fixed) (calcE : List ℤ → ℝ)
    (old : List (List ℤ)) (ho : ∀ r ∈ old, r.length + fixed.length = n) :
    old.mapM (condCalcE calcE n fixed) = .ok (old.map fun r => calcE (weave n fixed r)) :=
  mapM_ok _ _ _ fun r hr => condCalcE_eq h calcE r (ho r hr)

theorem checkFixed_ok {n : ℕ} {fixed : List (ℕ × ℤ)} (h : GoodFixed n fixed) (hne : fixed ≠ [])
    (hv : ∀ p ∈ fixed, p.2 = -1 ∨ p.2 = 1) : checkFixed fixed = .ok () := by
  unfold checkFixed
  rw [if_neg hne, if_neg (not_not.2 (List.isChain_iff_pairwise.2 h.sorted)), if_neg (not_not.2 hv)]

/-- What the rest of the run does with the chain of the free spins. -/
noncomputable def condIdeal (calcE : List ℤ → ℝ) (n sampleSize : ℕ) (fixed : List (ℕ × ℤ)) (burnIn nIters : ℕ)
    (systematic : Bool) (s : List ℤ) : Prog (List (List ℤ) × List ℝ) :=
  let E := fun r => calcE (weave n fixed r)
  let k := n - fixed.length
  (metroRun (sampleMetropolis E) k systematic burnIn (s, E s)).bind fun st =>
    (metroRecord (sampleMetropolis E) k systematic sampleSize nIters st).bind fun r =>
      .ret (r.2.1.map (weave n fixed), r.2.2)

theorem agree_condPy {n : ℕ} {fixed : List (ℕ × ℤ)} (h : GoodFixed n fixed) (hne : fixed ≠ [])
    (hv : ∀ p ∈ fixed, p.2 = -1 ∨ p.2 = 1) (hk : fixed.length < n) (calcE : List ℤ → ℝ) (sampleSize : ℕ)
    (hm : 0 < sampleSize) (burnIn nIters : ℕ) (initial : Option (List (List ℤ)))
    (hinit : ∀ x, initial = some x → x.length = sampleSize ∧ ∀ r ∈ x, r.length = n - fixed.length)
    (systematic : Bool) :
    Agree
      ((match initial with
        | none => randomSample (n - fixed.length) sampleSize
        | some x => .ret x).bind fun _ =>
        (Prog.mapEach (fun _ => (Prog.randint 2).bind fun b => .ret (if b = 0 then (-1 : ℤ) else 1))
          (List.range (n - fixed.length))).bind fun s =>
          condIdeal calcE n sampleSize fixed burnIn nIters systematic s)
      (generateCondSamplePy calcE n sampleSize fixed burnIn nIters initial systematic false) := by
  obtain ⟨k, hk'⟩ : ∃ k, k = n - fixed.length := ⟨_, rfl⟩
  have hkpos : 0 < k := by omega
  unfold generateCondSamplePy
  rw [checkFixed_ok h hne hv]
  simp only [Prog.ofPy, Prog.bind, Bool.false_eq_true, if_false]
  have hold : Agree (match initial with
      | none => randomSample (n - fixed.length) sampleSize
      | some x => .ret x) (condOld n (n - fixed.length) sampleSize fixed initial) := by
    unfold condOld
    cases initial with
    | none =>
      dsimp only
      rw [if_neg (by omega)]
      exact .refl _
    | some x =>
      dsimp only
      rw [if_pos (hinit x rfl).2]
      exact .refl _
  have hold2 : Returns (match initial with
      | none => randomSample (n - fixed.length) sampleSize
      | some x => .ret x) fun old => old.length = sampleSize ∧ ∀ r ∈ old, r.length = k := by
    cases initial with
    | none =>
      refine returns_mono (fun x hx => ⟨hx.1, fun r hr => ?_⟩) (returns_randomSample (n - fixed.length) sampleSize)
      rw [(mem_words.1 (hx.2 r hr)).1, hk']
    | some x => exact returns_ret ⟨(hinit x rfl).1, by rw [hk']; exact (hinit x rfl).2⟩
  rw [← hk'] at hold hold2 ⊢
  refine hold.bind hold2 fun old ho => ?_
  rw [mapM_condCalcE h calcE old fun r hr => by rw [ho.2 r hr]; omega]
  simp only [Prog.bind]
  rw [if_neg (by omega)]
  have hrow : Returns (Prog.mapEach (fun _ => (Prog.randint 2).bind fun b => .ret (if b = 0 then (-1 : ℤ) else 1))
      (List.range k)) fun s => s ∈ words [1, -1] k :=
    returns_randomRow [1, -1] (fun b => if b = 0 then -1 else 1) 2 (by norm_num)
      fun b _ => by by_cases h : b = 0 <;> simp [h]
  refine (Agree.refl _).bind hrow fun s hs => ?_
  have hsl := (mem_words.1 hs).1
  obtain ⟨E, hE⟩ : ∃ E : List ℤ → ℝ, E = fun r => calcE (weave n fixed r) := ⟨_, rfl⟩
  have hmove : ∀ s ∈ words [1, -1] k, ∀ site e,
      sampleMetropolisE (condCalcE calcE n fixed) site s e = sampleMetropolis E site s e := fun s hs site e => by
    rw [hE]
    exact sampleMetropolisE_eq h calcE site s (by rw [(mem_words.1 hs).1]; omega) e
  have hgm := goodMove_metropolis k E
  rw [condCalcE_eq h calcE s (by omega)]
  unfold condIdeal
  dsimp only
  rw [← hE, ← hk']
  have hEs : calcE (weave n fixed s) = E s := by rw [hE]
  simp only [Prog.bind]
  rw [hEs]
  have hrun : Agree (metroRun (sampleMetropolis E) k systematic burnIn (s, E s))
      (metroRun (sampleMetropolisE (condCalcE calcE n fixed)) k systematic burnIn (s, E s)) := by
    unfold metroRun
    rw [forEach_visits, forEach_visits]
    exact (agree_metroVisits hgm hkpos hmove systematic _ _ ⟨hs, rfl⟩).bind' fun _ => .refl _
  refine hrun.bind (returns_metroRun hgm hkpos systematic burnIn (s, E s) hs rfl) fun st hst => ?_
  have hrec : Agree (metroRecord (sampleMetropolis E) k systematic sampleSize nIters st)
      (metroRecord (sampleMetropolisE (condCalcE calcE n fixed)) k systematic sampleSize nIters st) := by
    rw [metroRecord_eq, metroRecord_eq]
    exact (agree_metroVisits hgm hkpos hmove systematic _ _ hst).bind' fun _ => .refl _
  refine hrec.bind (returns_metroRecord hgm hkpos systematic sampleSize nIters st hst.1 hst.2) fun r hr => ?_
  obtain ⟨-, h1, h2, h3⟩ := hr
  have hrl : ∀ x ∈ r.2.1, x.length = n - fixed.length := fun x hx => by
    rw [(mem_words.1 (h2 x hx)).1, hk']
  have hins := condInsert_eq h hk r.2.1 hrl
  rw [← hk'] at hins
  have hresh := npReshape_flatten n (r.2.1.map (weave n fixed)) fun x hx => by
    obtain ⟨y, -, rfl⟩ := List.mem_map.1 hx
    exact weave_length y
  rw [List.length_map, h1] at hresh
  rw [if_neg (by omega), ← ho.1, List.drop_length, List.append_nil, hins]
  rw [ho.1]
  have he : (old.map E).drop sampleSize = [] := by
    rw [← ho.1]; simp
  simp only [Except.bind, hresh, Prog.bind, he, List.append_nil]
  rw [if_neg]
  · exact .refl _
  · rw [h3]
    intro e
    have := congrArg List.length e
    simp [h1] at this
    omega

theorem weave_mem {n : ℕ} {fixed : List (ℕ × ℤ)} (h : GoodFixed n fixed)
    (hv : ∀ p ∈ fixed, p.2 = -1 ∨ p.2 = 1) (y : List ℤ) (hy : y ∈ words [1, -1] (n - fixed.length)) :
    weave n fixed y ∈ fixedWords n fixed := by
  obtain ⟨hy1, hy2⟩ := mem_words.1 hy
  refine mem_fixedWords.2 ⟨mem_words.2 ⟨weave_length y, fun v hv' => ?_⟩, fun p hp => weave_fixed h y hp⟩
  obtain ⟨j, hj, rfl⟩ := List.getElem_of_mem hv'
  rw [weave_length] at hj
  rw [← List.getD_eq_getElem _ 0]
  by_cases hf : j ∈ fixed.map Prod.fst
  · obtain ⟨p, hp, rfl⟩ := List.mem_map.1 hf
    rw [weave_fixed h y hp]
    rcases hv p hp with e | e <;> simp [e]
  · have hm := List.idxOf_lt_length_of_mem (mem_freeSites.2 ⟨hj, hf⟩)
    have := freeSites_length h
    rw [weave_free' y j hj hf, List.getD_eq_getElem _ _ (by omega)]
    exact hy2 _ (List.getElem_mem _)

theorem returns_condIdeal {n : ℕ} {fixed : List (ℕ × ℤ)} (h : GoodFixed n fixed)
    (hv : ∀ p ∈ fixed, p.2 = -1 ∨ p.2 = 1) (hk : fixed.length < n) (calcE : List ℤ → ℝ) (sampleSize burnIn nIters : ℕ)
    (systematic : Bool) (s : List ℤ) (hs : s ∈ words [1, -1] (n - fixed.length)) :
    Returns (condIdeal calcE n sampleSize fixed burnIn nIters systematic s) fun out =>
      out.1.length = sampleSize ∧ (∀ r ∈ out.1, r ∈ fixedWords n fixed) ∧ out.2 = out.1.map calcE := by
  unfold condIdeal
  dsimp only
  have hgm := goodMove_metropolis (n - fixed.length) fun r => calcE (weave n fixed r)
  have hkpos : 0 < n - fixed.length := by omega
  refine returns_bind (returns_metroRun hgm hkpos systematic burnIn _ hs rfl) fun st hst => ?_
  refine returns_bind (returns_metroRecord hgm hkpos systematic sampleSize nIters st hst.1 hst.2) fun r hr =>
    returns_ret ?_
  obtain ⟨-, h1, h2, h3⟩ := hr
  refine ⟨by simp [h1], ?_, ?_⟩
  · intro x hx
    obtain ⟨y, hy, rfl⟩ := List.mem_map.1 hx
    exact weave_mem h hv y (h2 y hy)
  · dsimp only
    rw [h3, List.map_map]
    rfl

/-! ### Conditional distributions -/

theorem sum_filter_ite {α : Type*} (S : List α) (A : α → Prop) [DecidablePred A] (g : α → ℝ) :
    ((S.filter fun s => decide (A s)).map g).sum = (S.map fun s => if A s then g s else 0).sum := by
  induction S with
  | nil => rfl
  | cons x S ih =>
    rw [List.filter_cons, List.map_cons, List.sum_cons, ← ih]
    by_cases h : A x <;> simp [h]

theorem expect_filter {α : Type*} (S : List α) (hS : S ≠ []) (E : α → ℝ) (A : α → Prop) [DecidablePred A]
    (f : α → ℝ) : expect (S.filter fun s => decide (A s)) E f = condExpect S E A f := by
  have hZ := (partition_pos S E hS).ne'
  unfold condExpect expect boltzmann
  rw [sum_filter_ite]
  unfold partition at hZ ⊢
  rw [sum_filter_ite]
  obtain ⟨Z, hZ'⟩ : ∃ Z, Z = (S.map fun s => Real.exp (-E s)).sum := ⟨_, rfl⟩
  rw [← hZ'] at hZ ⊢
  obtain ⟨W, hW⟩ : ∃ W, W = (S.map fun s => if A s then Real.exp (-E s) else 0).sum := ⟨_, rfl⟩
  rw [← hW]
  have e1 : (S.map fun s => if A s then Real.exp (-E s) / W * f s else 0).sum =
      (S.map fun s => if A s then Real.exp (-E s) * f s else 0).sum / W := by
    rw [← list_sum_div]
    refine list_sum_congr fun s _ => ?_
    by_cases h : A s <;> simp [h]; ring
  have e2 : (S.map fun s => Real.exp (-E s) / Z * if A s then f s else 0).sum =
      (S.map fun s => if A s then Real.exp (-E s) * f s else 0).sum / Z := by
    rw [← list_sum_div]
    refine list_sum_congr fun s _ => ?_
    by_cases h : A s <;> simp [h]; ring
  have e3 : (S.map fun s => Real.exp (-E s) / Z * if A s then 1 else 0).sum = W / Z := by
    rw [hW, ← list_sum_div]
    refine list_sum_congr fun s _ => ?_
    by_cases h : A s <;> simp [h]
  rw [e1, e2, e3, div_div_div_cancel_right₀ hZ]

theorem perm_weave {n : ℕ} {fixed : List (ℕ × ℤ)} (h : GoodFixed n fixed)
    (hv : ∀ p ∈ fixed, p.2 = -1 ∨ p.2 = 1) :
    ((words [1, -1] (n - fixed.length)).map (weave n fixed)).Perm (fixedWords n fixed) := by
  have hlen := freeSites_length h
  rw [List.perm_ext_iff_of_nodup _ (nodup_fixedWords n fixed)]
  · intro x
    constructor
    · intro hx
      obtain ⟨y, hy, rfl⟩ := List.mem_map.1 hx
      exact weave_mem h hv y hy
    · intro hx
      obtain ⟨h1, h2⟩ := mem_fixedWords.1 hx
      obtain ⟨h3, h4⟩ := mem_words.1 h1
      refine List.mem_map.2 ⟨(freeSites n fixed).map (x.getD · 0), mem_words.2 ⟨by simp; omega, fun v hv' => ?_⟩,
        (weave_unique h x h3 h2).symm⟩
      obtain ⟨j, hj, rfl⟩ := List.mem_map.1 hv'
      have := (mem_freeSites.1 hj).1
      rw [List.getD_eq_getElem _ _ (by omega)]
      exact h4 _ (List.getElem_mem _)
  · refine (nodup_words (by decide) _).map_on fun y hy z hz e => ?_
    rw [← weave_free h y (by rw [(mem_words.1 hy).1]; omega), e, weave_free h z (by rw [(mem_words.1 hz).1]; omega)]

theorem expect_perm {α : Type*} {S T : List α} (h : S.Perm T) (E f : α → ℝ) : expect S E f = expect T E f := by
  unfold expect boltzmann partition
  rw [(h.map fun s => Real.exp (-E s)).sum_eq, (h.map _).sum_eq]

/-- Averages over the free spins are conditional averages. -/
theorem expect_weave {n : ℕ} {fixed : List (ℕ × ℤ)} (h : GoodFixed n fixed)
    (hv : ∀ p ∈ fixed, p.2 = -1 ∨ p.2 = 1) (E f : List ℤ → ℝ) :
    expect (words [1, -1] (n - fixed.length)) (fun r => E (weave n fixed r)) (fun r => f (weave n fixed r)) =
      expect (fixedWords n fixed) E f := by
  rw [← expect_map (weave n fixed), expect_perm (perm_weave h hv)]

theorem keeps_condIdeal {n : ℕ} {fixed : List (ℕ × ℤ)} (hk : fixed.length < n) (calcE : List ℤ → ℝ)
    (sampleSize burnIn nIters : ℕ) (systematic : Bool) (b : ℕ) (hb : b < sampleSize) (f : List ℤ → ℝ) :
    expect (words [1, -1] (n - fixed.length)) (fun r => calcE (weave n fixed r)) (fun s =>
      expectation (fun out => f (out.1.getD b [])) (condIdeal calcE n sampleSize fixed burnIn nIters systematic s)) =
    expect (words [1, -1] (n - fixed.length)) (fun r => calcE (weave n fixed r)) fun r => f (weave n fixed r) := by
  have hgm := goodMove_metropolis (n - fixed.length) fun r => calcE (weave n fixed r)
  have hkpos : 0 < n - fixed.length := by omega
  unfold expect
  rw [← keeps_parallelChain hgm hkpos systematic burnIn sampleSize nIters b hb fun r => f (weave n fixed r)]
  refine list_sum_congr fun s hs => ?_
  congr 1
  unfold condIdeal parallelChain
  simp only [expectation_bind, expectation_ret]
  refine expectation_congr _ (returns_metroRun hgm hkpos systematic burnIn _ hs rfl) fun st hst => ?_
  refine expectation_congr _ (returns_metroRecord hgm hkpos systematic sampleSize nIters st hst.1 hst.2) fun r hr => ?_
  have : b < r.2.1.length := by rw [hr.2.1]; exact hb
  rw [List.getD_eq_getElem _ _ (by simpa using this), List.getD_eq_getElem _ _ this, List.getElem_map]

/-- What one run of the compiled conditional sampler does. -/
theorem condOne {n : ℕ} {fixed : List (ℕ × ℤ)} (h : GoodFixed n fixed) (hv : ∀ p ∈ fixed, p.2 = -1 ∨ p.2 = 1)
    (hk : fixed.length < n) (ndebug : Bool) (theta : List ℝ) (ht : theta.length = n + n * (n - 1) / 2)
    (burnIn nIters : ℕ) (systematic : Bool) (q : ℕ) :
    Returns ((Prog.ofPy (boostIsing ndebug n theta)).bind fun b =>
      cppGenerateCondSample ndebug (cppIsingInit n) (cppIsingCalcE n b.1) (cppIsingMove n b.1 b.2) n
        (fixed.map Prod.fst) (fixed.map Prod.snd) q burnIn nIters systematic) fun rows =>
      rows.length = q ∧ ∀ r ∈ rows, r ∈ fixedWords n fixed := by
  obtain ⟨E, hE⟩ : ∃ E : List ℤ → ℝ, E = fun s => isingVecE n (theta.take n) (theta.drop n) (spins s) := ⟨_, rfl⟩
  have hc : cppIsingCalcE n theta = E := by
    rw [hE]; exact funext fun s => cppIsingCalcE_eq n (by omega) theta s
  have hlen := freeSites_length h
  have hnon : cppNonIx n (fixed.map Prod.fst) = freeSites n fixed := cppNonIx_eq n _ h.sorted
  unfold boostIsing
  rw [if_neg (fun h => h.2 ht)]
  simp only [Prog.ofPy, Prog.bind, hc]
  unfold cppGenerateCondSample
  rw [if_neg (by rw [hnon]; simp only [List.length_map]; omega), hnon]
  refine returns_bind (returns_cppIsingInit n) fun s0 hs0 => ?_
  dsimp only
  have hst := fixed_start fixed hv h.nodup h.lt s0 hs0
  have hkk : n - (fixed.map Prod.fst).length = (freeSites n fixed).length := by rw [List.length_map]; omega
  rw [hkk]
  refine returns_cppChain (cppCondIter_body _ (freeSites n fixed) _ systematic)
    (fun c st hst => returns_condBody (fun i hi s hs => ?_) (by omega) systematic c st hst) q burnIn nIters _ hst
  have hsw := (mem_fixedWords.1 hs).1
  have hi' := mem_freeSites.1 hi
  have e : cppIsingMove n theta (cppCouplingMat n n theta) i s = sampleMetropolis E (some i) s (E s) := by
    rw [hE]
    exact cppIsingMove_eq n theta i hi'.1 s (mem_words.1 hsw).1
  rw [e]
  exact returns_flip i (fun s hs => by rw [(mem_words.1 (mem_fixedWords.1 hs).1).1]; exact hi'.1)
    (negAt_mem_fixedWords hi'.2) E s hs

end Verif.Lemmas
