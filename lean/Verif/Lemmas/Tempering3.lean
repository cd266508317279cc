import Verif.Lemmas.Tempering2

namespace Verif.Lemmas
open Verif Verif.Model Verif.Spec Prog

section
variable {calcE : List ℤ → List ℝ → ℝ} {n k : ℕ} {theta beta : List ℝ}

/-- The index and the configuration of each replica. -/
def labels (reps : List Replica) (c : List (List ℤ)) : List (ℕ × List ℤ) :=
  List.zipWith (fun rep s => (rep.index, s)) reps c

theorem labels_swap (reps : List Replica) (c : List (List ℤ)) (hc : c.length = reps.length) (i : ℕ)
    (hi : i + 1 < reps.length) : (labels (swapIndex i reps) (swapAt [] i c)).Perm (labels reps c) := by
  obtain ⟨pre, a, b, post, rfl, hi'⟩ := split_pair i reps hi
  obtain ⟨pre', x, y, post', rfl, hj'⟩ := split_pair i c (by omega)
  rw [swapIndex_append a b pre post i hi', swapAt_append [] i x y pre' post' hj']
  unfold labels
  rw [List.zipWith_append (by omega), List.zipWith_append (by omega)]
  exact (List.Perm.swap _ _ _).append_left _

theorem labels_fst (reps : List Replica) : ∀ c : List (List ℤ), c.length = reps.length →
    (labels reps c).map Prod.fst = reps.map Replica.index := by
  induction reps with
  | nil => intro c _; rfl
  | cons r l ih =>
    intro c hc
    match c, hc with
    | s :: c, hc =>
      have := ih c (by simpa using hc)
      unfold labels at this ⊢
      simp only [List.zipWith_cons_cons, List.map_cons, this]

theorem labels_snd (reps : List Replica) : ∀ c : List (List ℤ), c.length = reps.length →
    (labels reps c).map Prod.snd = c := by
  induction reps with
  | nil => intro c hc; simp at hc; simp [hc, labels]
  | cons r l ih =>
    intro c hc
    match c, hc with
    | s :: c, hc =>
      have := ih c (by simpa using hc)
      unfold labels at this ⊢
      simp only [List.zipWith_cons_cons, List.map_cons, this]

theorem returns_exchanges (hlin : ∀ s b, calcE s (theta.map (· * b)) = b * calcE s theta) (hb : ∀ b ∈ beta, b ≠ 0)
    (l : List ℕ) (hl : ∀ i ∈ l, i + 1 < beta.length) : ∀ reps c, Sync theta beta reps → c.length = reps.length →
    Returns (forEach (exchangeStep calcE n beta) l (List.zipWith (holding calcE) reps c)) fun r =>
      ∃ reps' c', Sync theta beta reps' ∧ c'.length = reps'.length ∧ (labels reps' c').Perm (labels reps c) ∧
        r = List.zipWith (holding calcE) reps' c' := by
  induction l with
  | nil => intro reps c hs hc; exact returns_ret ⟨reps, c, hs, hc, .refl _, rfl⟩
  | cons i l ih =>
    intro reps c hs hc
    have hi := hl i (by simp)
    have hrl := hs.length
    have ih' := ih fun j hj => hl j (by simp [hj])
    simp only [forEach]
    rw [exchangeStep_holding hlin hs hb n c hc i (by omega)]
    intro u _ _
    dsimp only
    split
    · refine returns_mono ?_ (ih' (swapIndex i reps) (swapAt [] i c) (hs.swapIndex i (by omega)) (by
        rw [swapAt_length, swapIndex_length, hc]))
      rintro r ⟨reps', c', h1, h2, h3, h4⟩
      exact ⟨reps', c', h1, h2, h3.trans (labels_swap reps c hc i (by omega)), h4⟩
    · exact ih' reps c hs hc

/-- Replicas whose state can be used for another burn-in. -/
def Ready (n : ℕ) (theta beta : List ℝ) (idx : List ℕ) (reps : List Replica) : Prop :=
  Sync theta beta reps ∧ (∀ rep ∈ reps, rep.sample.length = 1 ∧ ∃ s ∈ words [1, -1] n, rep.kept = some [s]) ∧
    reps.map Replica.index = idx

theorem zipWith_holding_map {α : Type*} (g : Replica → α) (hg : ∀ rep s, g (holding calcE rep s) = g rep)
    (reps : List Replica) : ∀ c : List (List ℤ), c.length = reps.length →
      (List.zipWith (holding calcE) reps c).map g = reps.map g := by
  induction reps with
  | nil => intro c _; rfl
  | cons r l ih =>
    intro c hc
    match c, hc with
    | s :: c, hc => simp only [List.zipWith_cons_cons, List.map_cons, hg, ih c (by simpa using hc)]

theorem ready_holding {idx : List ℕ} {reps : List Replica} (hs : Sync theta beta reps)
    (hi : reps.map Replica.index = idx) (c : List (List ℤ)) (hc : c ∈ words (words [1, -1] n) reps.length) :
    Ready n theta beta idx (List.zipWith (holding calcE) reps c) := by
  obtain ⟨hl, hm⟩ := mem_words.1 hc
  refine ⟨sync_iff.2 ?_, fun rep hrep => ?_, ?_⟩
  · rw [zipWith_holding_map Replica.theta (fun _ _ => rfl) reps c hl, sync_iff.1 hs]
  · obtain ⟨j, hj, rfl⟩ := List.getElem_of_mem hrep
    rw [List.getElem_zipWith]
    exact ⟨rfl, _, hm _ (List.getElem_mem _), rfl⟩
  · rw [zipWith_holding_map Replica.index (fun _ _ => rfl) reps c hl, hi]

theorem holding_again (reps : List Replica) : ∀ c c' : List (List ℤ), c.length = reps.length →
    List.zipWith (holding calcE) (List.zipWith (holding calcE) reps c) c' = List.zipWith (holding calcE) reps c' := by
  induction reps with
  | nil => intro c c' _; rfl
  | cons r l ih =>
    intro c c' hc
    match c, hc with
    | s :: c, hc =>
      cases c' with
      | nil => rfl
      | cons s' c' => simp only [List.zipWith_cons_cons, ih c c' (by simpa using hc)]; rfl

theorem returns_burnReady (hn : 0 < n) {idx : List ℕ} {reps : List Replica} (h : Ready n theta beta idx reps) :
    Returns (burnInReplicas calcE n k reps) fun r =>
      ∃ c ∈ words (words [1, -1] n) reps.length, r = List.zipWith (holding calcE) reps c :=
  returns_burnIn hn reps fun rep hrep => .inr (h.2.1 rep hrep).2

theorem returns_burnAndExchange (hn : 0 < n) (hlin : ∀ s b, calcE s (theta.map (· * b)) = b * calcE s theta)
    (hb : ∀ b ∈ beta, b ≠ 0) {idx : List ℕ} {reps : List Replica} (h : Ready n theta beta idx reps) :
    Returns (burnAndExchange calcE n k beta beta.length reps) fun r =>
      ∃ reps' c', Sync theta beta reps' ∧ c' ∈ words (words [1, -1] n) beta.length ∧
        (reps'.map Replica.index).Perm idx ∧ r = List.zipWith (holding calcE) reps' c' := by
  unfold burnAndExchange
  refine returns_bind (returns_burnReady hn h) fun r hr => ?_
  obtain ⟨c, hc, rfl⟩ := hr
  have hl := h.1.length
  have hcl := (mem_words.1 hc).1
  refine returns_mono ?_ (returns_exchanges hlin hb _ (fun i hi => by have := List.mem_range.1 hi; omega) reps c h.1 hcl)
  rintro r ⟨reps', c', h1, h2, h3, h4⟩
  refine ⟨reps', c', h1, mem_words.2 ⟨by rw [h2, h1.length], fun x hx => ?_⟩, ?_, h4⟩
  · have := h3.map Prod.snd
    rw [labels_snd _ _ h2, labels_snd _ _ hcl] at this
    exact (mem_words.1 hc).2 x (this.mem_iff.1 hx)
  · have := h3.map Prod.fst
    rw [labels_fst _ _ h2, labels_fst _ _ hcl, h.2.2] at this
    exact this

/-! ### The constructor -/

theorem pairRatio_mem (beta : List ℝ) (reps : List Replica) (p : ℕ × ℕ) :
    0 < pairRatio beta reps p ∧ pairRatio beta reps p ≤ 1 := by
  unfold pairRatio
  dsimp only
  split
  · exact ⟨one_pos, le_refl _⟩
  · exact ⟨lt_min one_pos (Real.exp_pos _), min_le_left _ _⟩

theorem sum_mem {l : List ℝ} (hl : l ≠ []) (h : ∀ x ∈ l, 0 < x ∧ x ≤ 1) : 0 < l.sum ∧ l.sum ≤ l.length := by
  refine ⟨List.sum_pos l (fun x hx => (h x hx).1) hl, ?_⟩
  have := list_sum_le l (fun x => x) (fun _ => (1 : ℝ)) fun x hx => (h x hx).2
  simpa using this

theorem returns_acceptanceRatio (hn : 0 < n) (hk : 0 < k) (m : ℕ) (hm : 0 < m) (pairs : List (ℕ × ℕ)) {idx : List ℕ}
    {reps : List Replica} (h : Ready n theta beta idx reps) :
    Returns (acceptanceRatio calcE n beta m k pairs reps) fun r =>
      (r.1.length = pairs.length ∧ ∀ x ∈ r.1, 0 < x ∧ x ≤ 1) ∧ Ready n theta beta idx r.2 := by
  unfold acceptanceRatio
  rw [if_pos fun r hr => (h.2.1 r hr).1, if_pos hk]
  have key : ∀ (l : List ℕ) (st : List Replica × List (List ℝ)), Ready n theta beta idx st.1 →
      (∀ col ∈ st.2, ∀ j < pairs.length, 0 < col.getD j 0 ∧ col.getD j 0 ≤ 1) →
      Returns (forEach (fun (_ : ℕ) (st : List Replica × List (List ℝ)) =>
        (burnInReplicas calcE n k st.1).bind fun reps' =>
          .ret (reps', st.2 ++ [pairs.map (pairRatio beta reps')])) l st) fun st' =>
        Ready n theta beta idx st'.1 ∧ (∀ col ∈ st'.2, ∀ j < pairs.length, 0 < col.getD j 0 ∧ col.getD j 0 ≤ 1) ∧
          st'.2.length = st.2.length + l.length := by
    intro l
    induction l with
    | nil => intro st h1 h2; exact returns_ret ⟨h1, h2, rfl⟩
    | cons i l ih =>
      intro st h1 h2
      simp only [forEach, bind_assoc, Prog.bind]
      refine returns_bind (returns_burnReady hn h1) fun r hr => ?_
      obtain ⟨c, hc, rfl⟩ := hr
      refine returns_mono ?_ (ih (List.zipWith (holding calcE) st.1 c, st.2 ++ _) (ready_holding h1.1 h1.2.2 c hc)
        fun col hcol j hj => ?_)
      · rintro st' ⟨a1, a2, a3⟩
        refine ⟨a1, a2, ?_⟩
        rw [a3]
        simp only [List.length_append, List.length_cons, List.length_nil]
        omega
      · rcases List.mem_append.1 hcol with hcol | hcol
        · exact h2 col hcol j hj
        · rw [List.mem_singleton] at hcol
          rw [hcol, List.getD_eq_getElem _ _ (by simpa using hj), List.getElem_map]
          exact pairRatio_mem _ _ _
  refine returns_bind (key (List.range m) (reps, []) h (by simp)) fun st hst => returns_ret ⟨⟨by simp, ?_⟩, hst.1⟩
  intro x hx
  obtain ⟨j, hj, rfl⟩ := List.mem_map.1 hx
  have hlen : st.2.length = m := by rw [hst.2.2]; simp
  have hmr : (0 : ℝ) < m := by exact_mod_cast hm
  have := sum_mem (l := st.2.map fun c => c.getD j 0) (fun e => by
      have := congrArg List.length e
      rw [List.length_map, hlen] at this
      simp at this
      omega) fun x hx => by
    obtain ⟨col, hcol, rfl⟩ := List.mem_map.1 hx
    exact hst.2.1 col hcol j (List.mem_range.1 hj)
  rw [List.length_map, hlen] at this
  exact ⟨div_pos this.1 hmr, (div_le_one hmr).2 this.2⟩

theorem ready_update {idx : List ℕ} {reps : List Replica} (h : Ready n theta beta idx reps) (nb : List ℝ)
    (hnb : nb.length = beta.length) : Ready n theta nb idx (updateReplicas theta nb reps) := by
  have hl := h.1.length
  unfold updateReplicas
  refine ⟨sync_of_getD (by simp; omega) fun j hj => ?_, fun rep hrep => ?_, ?_⟩
  · rw [List.length_zipWith] at hj
    rw [getD_zipWith _ _ _ j (by omega) (by omega) default 0 default]
  · obtain ⟨j, hj, rfl⟩ := List.getElem_of_mem hrep
    rw [List.getElem_zipWith]
    exact h.2.1 (reps[j]'(by simp at hj; omega)) (List.getElem_mem _)
  · rw [← h.2.2]
    refine List.ext_getElem (by simp; omega) fun j hj hj' => ?_
    simp

/-- Strictly increasing. -/
def Increasing (beta : List ℝ) : Prop := ∀ i, i + 1 < beta.length → beta.getD i 0 < beta.getD (i + 1) 0

theorem increasing_iterate {nb ratio : List ℝ} (h : iterateBeta beta ratio = .ok (some nb))
    (hl : ratio.length + 1 = beta.length) (hr : ∀ r ∈ ratio, 0 < r ∧ r ≤ 1) (hb : Increasing beta) : Increasing nb := by
  obtain ⟨h1, _, h3⟩ := iterateBeta_spec beta ratio nb h _ rfl
  intro i hi
  rw [h1] at hi
  have h4 := h3 i hi
  have hne : ratio ≠ [] := by rintro rfl; simp at hl; omega
  have havg : 0 < ratio.sum / (ratio.length : ℝ) := div_pos (List.sum_pos _ (fun r hr' => (hr r hr').1) hne)
    (by exact_mod_cast List.length_pos_of_ne_nil hne)
  have hri : 0 < ratio.getD i 0 := by
    rw [List.getD_eq_getElem _ _ (by omega)]
    exact (hr _ (List.getElem_mem _)).1
  have := div_pos (mul_pos (sub_pos.2 (hb i hi)) hri) havg
  rw [← h4] at this
  exact sub_pos.1 this

theorem returns_optimizeLoop (hn : 0 < n) (hk : 0 < k) (m : ℕ) (hm : 0 < m) (tol last : ℝ) (R : ℕ) (hR : 1 < R)
    {idx : List ℕ} : ∀ (rounds : ℕ) (old : Option (List ℝ)) (beta : List ℝ) (reps : List Replica),
      beta.length = R → Increasing beta → beta.getD (R - 1) 0 = last → Ready n theta beta idx reps →
      Returns (optimizeLoop calcE n theta R m k tol rounds old beta reps) fun br =>
        br.1.length = R ∧ Increasing br.1 ∧ br.1.getD (R - 1) 0 = last ∧ Ready n theta br.1 idx br.2 := by
  intro rounds
  induction rounds with
  | zero => intro old beta reps h1 h2 h3 h4; exact returns_ret ⟨h1, h2, h3, h4⟩
  | succ rounds ih =>
    intro old beta reps h1 h2 h3 h4
    have go : Returns ((acceptanceRatio calcE n beta m k ((List.range (R - 1)).map fun i => (i, i + 1)) reps).bind fun r =>
        (Prog.ofPy (iterateBeta beta r.1)).bind fun nb =>
          match nb with
          | none => .fail .assertion
          | some nb => optimizeLoop calcE n theta R m k tol rounds (some beta) nb (updateReplicas theta nb r.2)) fun br =>
        br.1.length = R ∧ Increasing br.1 ∧ br.1.getD (R - 1) 0 = last ∧ Ready n theta br.1 idx br.2 := by
      refine returns_bind (returns_acceptanceRatio hn hk m hm _ h4) fun r hr => ?_
      obtain ⟨⟨hl, hx⟩, hready⟩ := hr
      have hl' : r.1.length + 1 = beta.length := by rw [hl]; simp; omega
      obtain ⟨nb, hnb⟩ := iterateBeta_ok beta r.1 hl' hx
      have hs := iterateBeta_spec beta r.1 nb hnb _ rfl
      rw [hnb]
      simp only [Prog.ofPy, Prog.bind]
      refine ih (some beta) nb _ (by rw [hs.1, h1]) (increasing_iterate hnb hl' hx h2) ?_ (ready_update hready nb hs.1)
      rw [← h3, ← h1]
      exact hs.2.1
    unfold optimizeLoop
    dsimp only
    cases old with
    | none => exact go
    | some old =>
      dsimp only
      split
      · exact go
      · exact returns_ret ⟨h1, h2, h3, h4⟩

theorem increasing_initialize (b0 b1 : ℝ) (h : b0 < b1) (R : ℕ) (hR : 1 < R) :
    (initializeBeta b0 b1 R).length = R ∧ Increasing (initializeBeta b0 b1 R) ∧
      (initializeBeta b0 b1 R).getD (R - 1) 0 = b1 := by
  have hR' : (0 : ℝ) < (R : ℝ) - 1 := by
    have : (1 : ℝ) < R := by exact_mod_cast hR
    linarith
  have hl : (initializeBeta b0 b1 R).length = R := by simp [initializeBeta]
  have hg : ∀ i < R, (initializeBeta b0 b1 R).getD i 0 = b0 + i * ((b1 - b0) / ((R : ℝ) - 1)) := fun i hi => by
    unfold initializeBeta
    rw [List.getD_eq_getElem _ _ (by simpa using hi), List.getElem_map, List.getElem_range]
  refine ⟨hl, fun i hi => ?_, ?_⟩
  · rw [hl] at hi
    rw [hg i (by omega), hg (i + 1) hi]
    have : 0 < (b1 - b0) / ((R : ℝ) - 1) := div_pos (by linarith) hR'
    push_cast
    linarith
  · rw [hg (R - 1) (by omega), Nat.cast_sub (by omega), Nat.cast_one]
    field_simp
    ring

theorem returns_tempering (hn : 0 < n) (R : ℕ) (hR : 1 < R) (T0 T1 : ℝ) (h0 : 0 < T0) (h1 : T0 < T1)
    (replicaBurnin : Option ℕ) :
    Returns (tempering calcE n theta R T0 T1 replicaBurnin) fun br =>
      br.1.length = R ∧ Increasing br.1 ∧ br.1.getD (R - 1) 0 = 1 / T0 ∧
        ∃ reps, ∃ c ∈ words (words [1, -1] n) R, Sync theta br.1 reps ∧ reps.map Replica.index = List.range R ∧
          br.2 = List.zipWith (holding calcE) reps c := by
  unfold tempering
  rw [if_neg (by push Not; exact ⟨h1, h0⟩), if_neg (by simpa using hR)]
  dsimp only
  obtain ⟨i1, i2, i3⟩ := increasing_initialize (1 / T1) (1 / T0) (one_div_lt_one_div_of_lt h0 h1) R hR
  generalize initializeBeta (1 / T1) (1 / T0) R = beta at i1 i2 i3
  generalize hreps : (beta.zipIdx.map fun bi : ℝ × ℕ => (⟨theta.map (· * bi.1), [], none, [], bi.2⟩ : Replica)) = reps
  have hl : reps.length = beta.length := by rw [← hreps]; simp
  have hs : Sync theta beta reps := sync_of_getD hl fun j hj => by
    rw [← hreps] at hj ⊢
    rw [List.getD_eq_getElem _ _ hj, List.getElem_map, List.getElem_zipIdx]
    simp only [List.length_map, List.length_zipIdx] at hj
    dsimp only
    rw [List.getD_eq_getElem _ _ hj]
  have hx : reps.map Replica.index = List.range R := by
    rw [← hreps]
    refine List.ext_getElem (by simp [i1]) fun j hj hj' => ?_
    simp
  refine returns_bind (returns_burnIn hn reps fun rep hrep => .inl ?_) fun r hr => ?_
  · rw [← hreps] at hrep
    obtain ⟨p, _, rfl⟩ := List.mem_map.1 hrep
    rfl
  obtain ⟨c, hc, rfl⟩ := hr
  refine returns_bind (returns_optimizeLoop hn (k := n * 10) (by omega) 10 (by omega) (1 / 100) (1 / T0) R hR 10 none beta _
    i1 i2 i3 (ready_holding hs hx c hc)) fun br hbr => ?_
  obtain ⟨b1, b2, b3, b4⟩ := hbr
  refine returns_bind (returns_burnReady hn b4) fun r hr => ?_
  obtain ⟨c', hc', rfl⟩ := hr
  rw [if_pos fun i hi => b2 i (by omega)]
  exact returns_ret ⟨b1, b2, b3, br.2, c', by rw [← b1, ← b4.1.length]; exact hc', b4.1, b4.2.2, rfl⟩

end

/-! ### Sampling -/

section
variable {calcE : List ℤ → List ℝ → ℝ} {n k : ℕ} {theta beta : List ℝ}

theorem temperingSample_visits (m : ℕ) (reps : List Replica) :
    temperingSample calcE n k beta beta.length m reps =
      (visits (fun _ : Unit => burnAndExchange calcE n k beta beta.length) ((List.range m).flatMap fun _ => [()]) reps).bind
        fun tr => .ret (((List.range beta.length).map fun j => ((List.range m).map fun b =>
          (List.range beta.length).map fun j => (((reps :: tr).getD (b + 1) reps).getD j default).sample.getD 0 []).map
            fun row => row.getD j [],
          (List.range m).map fun b => (List.range beta.length).map fun j =>
            (((reps :: tr).getD (b + 1) reps).getD j default).index), tr.getLastD reps) := by
  have h := record_visits (fun _ : Unit => burnAndExchange calcE n k beta beta.length) [()]
    (fun reps' => (List.range beta.length).map fun j => (reps'.getD j default).sample.getD 0 [])
    (fun reps' => (List.range beta.length).map fun j => (reps'.getD j default).index) m reps
  simp only [forEach, bind_ret, List.length_cons, List.length_nil, zero_add, mul_one] at h
  unfold temperingSample
  rw [h, bind_assoc]
  rfl

end

end Verif.Lemmas
