/-
Convergence of the samplers with fixed spins.
-/
import Verif.Lemmas.Ergodic4

namespace Verif.Lemmas
open Verif Verif.Model Verif.Spec Prog Filter

/-! ### Images of chains -/

section
variable {α β ι : Type} {S : List α} {step : α → Prog α} {step' : β → Prog β} {φ : α → β}
  (hfin : ∀ s ∈ S, FinDist (step s) (· ∈ S))
  (hφ : ∀ s ∈ S, ∀ f : β → ℝ, expectation f (step' (φ s)) = expectation (fun t => f (φ t)) (step s))
include hfin hφ

theorem expectation_forEach_image (l : List ι) (f : β → ℝ) (s : α) (hs : s ∈ S) :
    expectation f (forEach (fun _ : ι => step') l (φ s)) = expectation (fun t => f (φ t)) (forEach (fun _ : ι => step) l s) := by
  induction l generalizing s with
  | nil => rfl
  | cons i l ih =>
    rw [forEach, forEach, expectation_bind, expectation_bind, hφ s hs]
    exact (hfin s hs).congr fun t ht => ih t ht

theorem expectation_visits_image (l : List ι) (F : List β → ℝ) (s : α) (hs : s ∈ S) :
    expectation F (visits (fun _ : ι => step') l (φ s)) =
      expectation (fun tr => F (tr.map φ)) (visits (fun _ : ι => step) l s) := by
  induction l generalizing s F with
  | nil => rfl
  | cons i l ih =>
    rw [visits, visits, expectation_bind, expectation_bind, hφ s hs]
    refine (hfin s hs).congr fun t ht => ?_
    rw [expectation_bind, expectation_bind]
    simp only [expectation_ret, List.map_cons]
    exact ih (fun tr => F (φ t :: tr)) t ht

theorem expectation_chainRows_image (burn k m : ℕ) (F : List β → ℝ) (s : α) (hs : s ∈ S) :
    expectation F (chainRows step' burn k m (φ s)) =
      expectation (fun tr => F (tr.map φ)) (chainRows step burn k m s) := by
  have hb : ∀ q, ∀ st ∈ S, FinDist (forEach (fun _ : ℕ => step) (List.range q) st) (· ∈ S) := fun q =>
    finDist_forEach (I := (· ∈ S)) _ fun _ _ => hfin
  unfold chainRows
  rw [expectation_bind, expectation_bind, expectation_forEach_image hfin hφ _ _ s hs]
  refine (hb burn s hs).congr fun t ht => ?_
  exact expectation_visits_image (hb k) (fun s hs f => expectation_forEach_image hfin hφ _ f s hs) _ F t ht

end

/-! ### Python -/

/-- A run of the Python sampler with fixed spins gives the rows of a chain of the free spins. -/
theorem isRows_condPy {n : ℕ} {fixed : List (ℕ × ℤ)} (h : GoodFixed n fixed) (hne : fixed ≠ [])
    (hv : ∀ p ∈ fixed, p.2 = -1 ∨ p.2 = 1) (hk : fixed.length < n) (calcE : List ℤ → ℝ) (sampleSize : ℕ)
    (hm : 0 < sampleSize) (burnIn nIters : ℕ) (initial : Option (List (List ℤ)))
    (hinit : ∀ x, initial = some x → x.length = sampleSize ∧ ∀ r ∈ x, r.length = n - fixed.length) :
    IsRows ((generateCondSamplePy calcE n sampleSize fixed burnIn nIters initial false false).bind fun out => .ret out.1)
      ((Prog.mapEach (fun _ => (Prog.randint 2).bind fun b => .ret (if b = 0 then (-1 : ℤ) else 1))
          (List.range (n - fixed.length))).bind fun s => .ret (s, calcE (weave n fixed s)))
      (fun st => weave n fixed st.1)
      (metroIter (sampleMetropolis fun r => calcE (weave n fixed r)) (n - fixed.length) false 0) burnIn nIters
      sampleSize := by
  intro F
  rw [expectation_bind]
  simp only [expectation_ret]
  rw [← (agree_condPy h hne hv hk calcE sampleSize hm burnIn nIters initial hinit false).expectation fun out => F out.1]
  rw [expectation_bind]
  have hold : FinDist (match initial with
      | none => randomSample (n - fixed.length) sampleSize
      | some x => .ret x) fun _ => True := by
    cases initial with
    | none => exact finDist_mono (fun _ _ => trivial) (finDist_randomSample (n - fixed.length) sampleSize)
    | some x => exact finDist_ret trivial
  refine (hold.const _).trans ?_
  rw [expectation_bind, expectation_bind]
  congr 1
  funext s
  rw [expectation_ret]
  unfold condIdeal chainRows
  simp only [metroRecord_blocks, bind_assoc, Prog.bind, expectation_bind, expectation_ret, List.map_map, Function.comp_def]
  rfl

/-! ### Compiled -/

theorem weave_negAt {n : ℕ} {fixed : List (ℕ × ℤ)} (h : GoodFixed n fixed) (y : List ℤ)
    (hy : y.length + fixed.length = n) (i : ℕ) (hi : i < (freeSites n fixed).length) :
    negAt (weave n fixed y) ((freeSites n fixed).getD i 0) = weave n fixed (negAt y i) := by
  have hl := freeSites_length h
  rw [List.getD_eq_getElem _ _ hi]
  have hm := mem_freeSites.1 (List.getElem_mem hi)
  have key : ∀ (l : List ℤ) (a j : ℕ), j < l.length → (negAt l a).getD j 0 = if a = j then -l.getD a 0 else l.getD j 0 := by
    intro l a j hj
    rw [negAt_eq]
    by_cases ha : a = j
    · subst ha
      rw [if_pos rfl, List.getD_eq_getElem _ _ (by simpa using hj), List.getElem_set_self]
    · rw [if_neg ha, List.getD_eq_getElem _ _ (by simpa using hj), List.getElem_set_ne ha, List.getD_eq_getElem _ _ hj]
  refine List.ext_getElem (by rw [negAt_length, weave_length, weave_length]) fun j h1 h2 => ?_
  have h2' := h2
  rw [weave_length] at h2'
  rw [← List.getD_eq_getElem _ 0 h1, ← List.getD_eq_getElem _ 0 h2, key _ _ _ (by rw [weave_length]; exact h2')]
  by_cases hf : j ∈ fixed.map Prod.fst
  · rw [if_neg (fun e => hm.2 (by rw [e]; exact hf))]
    obtain ⟨p, hp, rfl⟩ := List.mem_map.1 hf
    rw [weave_fixed h _ hp, weave_fixed h _ hp]
  · have hlt := List.idxOf_lt_length_of_mem (mem_freeSites.2 ⟨h2', hf⟩)
    rw [weave_free' _ _ h2' hf, weave_free' _ _ hm.1 hm.2, weave_free' _ _ h2' hf, nodup_freeSites.idxOf_getElem,
      key _ _ _ (by omega)]
    by_cases hj : (freeSites n fixed)[i] = j
    · subst hj
      rw [if_pos rfl, nodup_freeSites.idxOf_getElem, if_pos rfl]
    · rw [if_neg hj, if_neg]
      intro e
      apply hj
      subst e
      exact List.getElem_idxOf hlt

section
variable {n : ℕ} {fixed : List (ℕ × ℤ)} {E : List ℤ → ℝ} {cmove : CppMove}

/-- One iteration with fixed spins is one iteration of the free spins. -/
theorem expectation_condBody (h : GoodFixed n fixed) (hk : fixed.length < n)
    (hc : ∀ i < n, ∀ s : List ℤ, s.length = n → cmove i s = sampleMetropolis E (some i) s (E s)) (c : ℕ)
    (st : List ℤ × ℝ) (hst : st ∈ withE (fun r => E (weave n fixed r)) (words [1, -1] (n - fixed.length)))
    (f : List ℤ × ℝ → ℝ) :
    expectation f (cppCondBody cmove (freeSites n fixed) (n - fixed.length) false c (weave n fixed st.1, st.2)) =
      expectation (fun t => f (weave n fixed t.1, t.2))
        (metroIter (sampleMetropolis fun r => E (weave n fixed r)) (n - fixed.length) false 0 st) := by
  obtain ⟨y, e⟩ := st
  obtain ⟨h1, h2⟩ := mem_withE.1 hst
  dsimp only at h1 h2
  subst h2
  have hl := freeSites_length h
  have hy := (mem_words.1 h1).1
  have hkpos : 0 < n - fixed.length := by omega
  rw [metroIter_random (goodMove_metropolis _ _) 0 y h1]
  unfold cppCondBody cppSite
  simp only [Bool.false_eq_true, if_false]
  rw [expectation_randint _ _ hkpos, expectation_randint _ _ hkpos]
  congr 1
  refine Finset.sum_congr rfl fun i hi => ?_
  have hi := Finset.mem_range.1 hi
  have hi' : i < (freeSites n fixed).length := by omega
  have hsite : (freeSites n fixed).getD i 0 < n := by
    rw [List.getD_eq_getElem _ _ hi']
    exact (mem_freeSites.1 (List.getElem_mem hi')).1
  rw [hc _ hsite _ (weave_length y), expectation_bind, expectation_bind]
  simp only [expectation_ret]
  rw [expectation_metropolis _ _ _ _ _ (by rw [weave_length]; exact hsite), expectation_metropolis _ _ _ _ _ (by omega),
    weave_negAt h y (by omega) i hi']

/-- The free spins of the first state of the compiled sampler. -/
noncomputable def condInit (n : ℕ) (fixed : List (ℕ × ℤ)) (E : List ℤ → ℝ) : Prog (List ℤ × ℝ) :=
  (cppIsingInit n).bind fun s0 => .ret
    ((freeSites n fixed).map (((((fixed.map Prod.fst).zip (fixed.map Prod.snd)).foldl (fun s p => s.set p.1 p.2) s0)).getD · 0),
      E (weave n fixed ((freeSites n fixed).map
        (((((fixed.map Prod.fst).zip (fixed.map Prod.snd)).foldl (fun s p => s.set p.1 p.2) s0)).getD · 0))))

theorem finDist_condInit (h : GoodFixed n fixed) (hv : ∀ p ∈ fixed, p.2 = -1 ∨ p.2 = 1) (E : List ℤ → ℝ) :
    FinDist (condInit n fixed E) (· ∈ withE (fun r => E (weave n fixed r)) (words [1, -1] (n - fixed.length))) := by
  refine finDist_bind (finDist_cppIsingInit n) fun s0 hs0 => finDist_ret (mem_withE.2 ⟨?_, rfl⟩)
  have hst := fixed_start fixed hv h.nodup h.lt s0 hs0
  obtain ⟨x, hx⟩ : ∃ x, x = ((fixed.map Prod.fst).zip (fixed.map Prod.snd)).foldl (fun s p => s.set p.1 p.2) s0 := ⟨_, rfl⟩
  dsimp only
  rw [← hx] at hst ⊢
  have hl := freeSites_length h
  obtain ⟨h1, h2⟩ := mem_words.1 (mem_fixedWords.1 hst).1
  refine mem_words.2 ⟨by simp; omega, fun v hv' => ?_⟩
  obtain ⟨i, hi, rfl⟩ := List.mem_map.1 hv'
  rw [List.getD_eq_getElem _ _ (by rw [h1]; exact (mem_freeSites.1 hi).1)]
  exact h2 _ (List.getElem_mem _)

theorem finDist_metropolis_iter (n : ℕ) (hn : 0 < n) (calcE : List ℤ → ℝ) (st : List ℤ × ℝ)
    (hst : st ∈ withE calcE (words [1, -1] n)) :
    FinDist (metroIter (sampleMetropolis calcE) n false 0 st) (· ∈ withE calcE (words [1, -1] n)) := by
  obtain ⟨s, e⟩ := st
  obtain ⟨h1, h2⟩ := mem_withE.1 hst
  dsimp only at h1 h2
  subst h2
  rw [metroIter_random (goodMove_metropolis n calcE) 0 s h1]
  exact finDist_randint n hn _ fun i hi =>
    finDist_bind (finDist_metropolis n calcE i hi s h1) fun r hr => finDist_ret (mem_withE.2 hr)

/-- A run of the compiled sampler with fixed spins gives the rows of a chain of the free spins. -/
theorem isRows_condCpp (h : GoodFixed n fixed) (hv : ∀ p ∈ fixed, p.2 = -1 ∨ p.2 = 1) (hk : fixed.length < n)
    (hc : ∀ i < n, ∀ s : List ℤ, s.length = n → cmove i s = sampleMetropolis E (some i) s (E s)) (ndebug : Bool)
    (m burn k : ℕ) :
    IsRows (cppGenerateCondSample ndebug (cppIsingInit n) E cmove n (fixed.map Prod.fst) (fixed.map Prod.snd) m burn k
        false) (condInit n fixed E) (fun st => weave n fixed st.1)
      (metroIter (sampleMetropolis fun r => E (weave n fixed r)) (n - fixed.length) false 0) burn k m := by
  intro F
  have hl := freeSites_length h
  have hnon : cppNonIx n (fixed.map Prod.fst) = freeSites n fixed := cppNonIx_eq n _ h.sorted
  have hfin := fun st (hst : st ∈ withE (fun r => E (weave n fixed r)) (words [1, -1] (n - fixed.length))) =>
    finDist_metropolis_iter (n - fixed.length) (by omega) (fun r => E (weave n fixed r)) st hst
  unfold cppGenerateCondSample condInit
  rw [if_neg (by rw [hnon]; simp only [List.length_map]; omega), hnon, expectation_bind, expectation_bind]
  refine (finDist_cppIsingInit n).congr fun s0 hs0 => ?_
  have hst := fixed_start fixed hv h.nodup h.lt s0 hs0
  obtain ⟨x, hx⟩ : ∃ x, x = ((fixed.map Prod.fst).zip (fixed.map Prod.snd)).foldl (fun s p => s.set p.1 p.2) s0 := ⟨_, rfl⟩
  dsimp only
  rw [← hx] at hst ⊢
  rw [expectation_ret]
  obtain ⟨y, hy⟩ : ∃ y, y = (freeSites n fixed).map (x.getD · 0) := ⟨_, rfl⟩
  have hxw := mem_fixedWords.1 hst
  have hxy : x = weave n fixed y := by rw [hy]; exact weave_unique h x (mem_words.1 hxw.1).1 hxw.2
  have hyw : y ∈ words [1, -1] (n - fixed.length) := by
    have h3 := mem_words.1 hxw.1
    rw [hy]
    refine mem_words.2 ⟨by simp; omega, fun v hv' => ?_⟩
    obtain ⟨i, hi, rfl⟩ := List.mem_map.1 hv'
    rw [List.getD_eq_getElem _ _ (by rw [h3.1]; exact (mem_freeSites.1 hi).1)]
    exact h3.2 _ (List.getElem_mem _)
  rw [← hy, hxy, List.length_map, cppChain_visits _ _ (fun c => c) (cppCondIter_body cmove (freeSites n fixed) (n - fixed.length) false),
    counters_id]
  have e : ∀ N st, visits (cppCondBody cmove (freeSites n fixed) (n - fixed.length) false) (List.replicate N 0) st =
      visits (fun _ : ℕ => cppCondBody cmove (freeSites n fixed) (n - fixed.length) false 0) (List.range N) st :=
    fun N st => visits_same_length (cppCondBody cmove (freeSites n fixed) (n - fixed.length) false 0)
      (List.replicate N 0) (List.range N) (by simp) st
  rw [e]
  have key := expectation_chainRows_image (φ := fun st : List ℤ × ℝ => (weave n fixed st.1, st.2)) hfin
    (fun st hst f => expectation_condBody h hk hc 0 st hst f) burn k m (fun rows => F (rows.map Prod.fst))
    (y, E (weave n fixed y)) (mem_withE.2 ⟨hyw, rfl⟩)
  simp only [List.map_map, Function.comp_def] at key
  rw [← key, chainRows_eq, expectation_bind, expectation_bind]
  simp only [expectation_ret, List.map_map, Function.comp_def]

end

/-- Means over the free spins are conditional means. -/
theorem sum_cond {n : ℕ} {fixed : List (ℕ × ℤ)} (h : GoodFixed n fixed) (hv : ∀ p ∈ fixed, p.2 = -1 ∨ p.2 = 1)
    (E f : List ℤ → ℝ) :
    ((withE (fun r => E (weave n fixed r)) (words [1, -1] (n - fixed.length))).map fun st =>
      boltzmann (words [1, -1] (n - fixed.length)) (fun r => E (weave n fixed r)) st.1 * f (weave n fixed st.1)).sum =
    condExpect (words [1, -1] n) E (HasFixed fixed) f := by
  rw [sum_withE, ← expect_filter _ (words_ne_nil [1, -1] 1 (by simp) n)]
  exact expect_weave h hv E f

theorem cond_not_constant {n : ℕ} {fixed : List (ℕ × ℤ)} (h : GoodFixed n fixed) {E : List ℤ → ℝ}
    (hE : ∃ s ∈ words [1, -1] n, ∃ t ∈ words [1, -1] n, HasFixed fixed s ∧ HasFixed fixed t ∧ E s ≠ E t) :
    ∃ s ∈ words [1, -1] (n - fixed.length), ∃ t ∈ words [1, -1] (n - fixed.length),
      E (weave n fixed s) ≠ E (weave n fixed t) := by
  have hl := freeSites_length h
  have key : ∀ x ∈ words ([1, -1] : List ℤ) n,
      (freeSites n fixed).map (x.getD · 0) ∈ words ([1, -1] : List ℤ) (n - fixed.length) := by
    intro x hx
    have h3 := mem_words.1 hx
    refine mem_words.2 ⟨by simp; omega, fun v hv' => ?_⟩
    obtain ⟨i, hi, rfl⟩ := List.mem_map.1 hv'
    rw [List.getD_eq_getElem _ _ (by rw [h3.1]; exact (mem_freeSites.1 hi).1)]
    exact h3.2 _ (List.getElem_mem _)
  obtain ⟨s, hs, t, ht, h1, h2, h3⟩ := hE
  refine ⟨_, key s hs, _, key t ht, ?_⟩
  rw [← weave_unique h s (mem_words.1 hs).1 h1, ← weave_unique h t (mem_words.1 ht).1 h2]
  exact h3

end Verif.Lemmas
