/-
Sums of conditional log-likelihoods of a linear family of energies, for spins with any number of values: when there is a
smallest value, and how smallest points differ.
-/
import Verif.Lemmas.Stable
import Verif.Lemmas.Cond
import Verif.Spec.Cond

namespace Verif.Lemmas
open Verif Verif.Spec

/-! ### Independent choices -/

/-- The sum of the terms of independent choices, one for every element of `Q`. -/
def choiceSum {κ β : Type*} (F : κ → β → ℝ) (Q : List κ) (t : List β) : ℝ := (List.zipWith F Q t).sum

theorem partition_choices {κ β : Type*} (A : List β) (F : κ → β → ℝ) (Q : List κ) :
    partition (words A Q.length) (choiceSum F Q) = (Q.map fun q => partition A (F q)).prod := by
  induction Q with
  | nil => simp [partition, words, choiceSum]
  | cons q Q ih =>
    rw [List.map_cons, List.prod_cons, ← ih]
    unfold partition
    rw [← list_sum_mul_right, List.length_cons, words, List.map_flatMap]
    simp only [List.map_map, Function.comp_def]
    have e : ∀ l : List β, ((l.flatMap fun a => (words A Q.length).map fun t => Real.exp (-choiceSum F (q :: Q) (a :: t)))).sum =
        (l.map fun a => Real.exp (-F q a) * ((words A Q.length).map fun t => Real.exp (-choiceSum F Q t)).sum).sum := by
      intro l
      induction l with
      | nil => simp
      | cons a l ihl =>
        rw [List.flatMap_cons, List.sum_append, ihl, List.map_cons, List.sum_cons, ← list_sum_mul_left]
        congr 2
        refine List.map_congr_left fun t _ => ?_
        rw [← Real.exp_add]
        congr 1
        simp [choiceSum]
        ring
    exact e A

theorem choices_le {κ β : Type*} (A : List β) (F : κ → β → ℝ) (g : κ → ℝ) (Q : List κ)
    (hg : ∀ q ∈ Q, ∃ a ∈ A, F q a = g q) :
    (∀ t ∈ words A Q.length, (Q.map g).sum ≤ choiceSum F Q t) ↔ ∀ q ∈ Q, ∀ a ∈ A, g q ≤ F q a := by
  have base : ∀ Q : List κ, (∀ q ∈ Q, ∃ a ∈ A, F q a = g q) → ∃ t ∈ words A Q.length, choiceSum F Q t = (Q.map g).sum := by
    intro Q
    induction Q with
    | nil => intro _; exact ⟨[], by simp [words], rfl⟩
    | cons q Q ih =>
      intro h
      obtain ⟨t, ht, e⟩ := ih fun q hq => h q (List.mem_cons_of_mem _ hq)
      obtain ⟨a, ha, ea⟩ := h q (by simp)
      refine ⟨a :: t, ?_, ?_⟩
      · rw [mem_words] at ht ⊢
        refine ⟨by simp [ht.1], fun x hx => ?_⟩
        rcases List.mem_cons.1 hx with rfl | hx
        · exact ha
        · exact ht.2 x hx
      · rw [List.map_cons, List.sum_cons, ← e, ← ea]
        simp [choiceSum]
  induction Q with
  | nil => simp [words, choiceSum]
  | cons q Q ih =>
    have hQ : ∀ q ∈ Q, ∃ a ∈ A, F q a = g q := fun q hq => hg q (List.mem_cons_of_mem _ hq)
    obtain ⟨t0, ht0, e0⟩ := base Q hQ
    obtain ⟨a0, ha0, ea0⟩ := hg q (by simp)
    have hcons : ∀ a t, choiceSum F (q :: Q) (a :: t) = F q a + choiceSum F Q t := fun a t => by simp [choiceSum]
    have hmem : ∀ a ∈ A, ∀ t ∈ words A Q.length, a :: t ∈ words A (q :: Q).length := fun a ha t ht => by
      rw [mem_words] at ht ⊢
      refine ⟨by simp [ht.1], fun x hx => ?_⟩
      rcases List.mem_cons.1 hx with rfl | hx
      · exact ha
      · exact ht.2 x hx
    rw [List.map_cons, List.sum_cons]
    constructor
    · intro h
      have h2 := (ih hQ).1 fun t ht => by
        have := h _ (hmem a0 ha0 t ht)
        rw [hcons, ea0] at this
        linarith
      intro q' hq' a ha
      rcases List.mem_cons.1 hq' with rfl | hq'
      · have := h _ (hmem a ha t0 ht0)
        rw [hcons, e0] at this
        linarith
      · exact h2 q' hq' a ha
    · intro h t ht
      obtain ⟨h1, h2⟩ := mem_words.1 ht
      cases t with
      | nil => simp at h1
      | cons a t =>
        rw [hcons]
        have := (ih hQ).2 (fun q' hq' => h q' (List.mem_cons_of_mem _ hq')) t (mem_words.2 ⟨by simpa using h1, fun x hx =>
          h2 x (List.mem_cons_of_mem _ hx)⟩)
        linarith [h q (by simp) a (h2 a (by simp))]

theorem choices_eq {κ β : Type*} (A : List β) (F : κ → β → ℝ) (g : κ → ℝ) (Q : List κ)
    (hg : ∀ q ∈ Q, ∃ a ∈ A, F q a = g q) :
    (∀ t ∈ words A Q.length, choiceSum F Q t = (Q.map g).sum) ↔ ∀ q ∈ Q, ∀ a ∈ A, F q a = g q := by
  have hneg : ∀ (Q : List κ) (t : List β), choiceSum (fun q a => -F q a) Q t = -choiceSum F Q t := by
    intro Q
    induction Q with
    | nil => simp [choiceSum]
    | cons q Q ih =>
      intro t
      cases t with
      | nil => simp [choiceSum]
      | cons a t =>
        have := ih t
        simp only [choiceSum, List.zipWith_cons_cons, List.sum_cons] at this ⊢
        rw [this]
        ring
  constructor
  · intro h
    have h1 := (choices_le A F g Q hg).1 fun t ht => (h t ht).ge
    have h2 := (choices_le A (fun q a => -F q a) (fun q => -g q) Q fun q hq => by
      obtain ⟨a, ha, e⟩ := hg q hq
      exact ⟨a, ha, by rw [e]⟩).1 fun t ht => by
        rw [hneg, list_sum_neg, h t ht]
    exact fun q hq a ha => le_antisymm (neg_le_neg_iff.1 (h2 q hq a ha)) (h1 q hq a ha)
  · intro h t ht
    refine le_antisymm ?_ ((choices_le A F g Q hg).2 (fun q hq a ha => (h q hq a ha).ge) t ht)
    have := (choices_le A (fun q a => -F q a) (fun q => -g q) Q fun q hq => by
      obtain ⟨a, ha, e⟩ := hg q hq
      exact ⟨a, ha, by rw [e]⟩).2 (fun q hq a ha => by rw [h q hq a ha]) t ht
    rw [hneg, list_sum_neg] at this
    linarith

/-! ### The pseudolikelihood of a linear family -/

/-- Minus the log-pseudolikelihood. -/
noncomputable def negPL (vals : List ℤ) (n : ℕ) (X : List (List ℤ)) (E : List ℤ → ℝ) : ℝ :=
  ((List.range n).map fun r => negCondLogLik E vals X r).sum

/-- The rows of the sample with the number of a spin. -/
def rowSites (n : ℕ) (X : List (List ℤ)) : List (List ℤ × ℕ) := X.flatMap fun s => (List.range n).map fun r => (s, r)

theorem mem_rowSites {n : ℕ} {X : List (List ℤ)} {q : List ℤ × ℕ} : q ∈ rowSites n X ↔ q.1 ∈ X ∧ q.2 < n := by
  unfold rowSites
  rw [List.mem_flatMap]
  constructor
  · rintro ⟨s, hs, hq⟩
    obtain ⟨r, hr, rfl⟩ := List.mem_map.1 hq
    exact ⟨hs, List.mem_range.1 hr⟩
  · rintro ⟨h1, h2⟩
    exact ⟨q.1, h1, List.mem_map.2 ⟨q.2, List.mem_range.2 h2, rfl⟩⟩

section
variable {V : Type*} [NormedAddCommGroup V] [NormedSpace ℝ V]

/-- The energies after independent changes of spins. -/
noncomputable def choiceLin (E : V →ₗ[ℝ] (List ℤ → ℝ)) (Q : List (List ℤ × ℕ)) : V →ₗ[ℝ] (List ℤ → ℝ) where
  toFun v t := choiceSum (fun (q : List ℤ × ℕ) a => E v (q.1.set q.2 a)) Q t
  map_add' v w := by
    funext t
    simp only [map_add, Pi.add_apply]
    induction Q generalizing t with
    | nil => simp [choiceSum]
    | cons q Q ih =>
      cases t with
      | nil => simp [choiceSum]
      | cons a t =>
        have := ih t
        simp only [choiceSum, List.zipWith_cons_cons, List.sum_cons] at this ⊢
        rw [this]
        ring
  map_smul' c v := by
    funext t
    simp only [map_smul, Pi.smul_apply, smul_eq_mul, RingHom.id_apply]
    induction Q generalizing t with
    | nil => simp [choiceSum]
    | cons q Q ih =>
      cases t with
      | nil => simp [choiceSum]
      | cons a t =>
        have := ih t
        simp only [choiceSum, List.zipWith_cons_cons, List.sum_cons] at this ⊢
        rw [this]
        ring

/-- The sum of the energies of the rows. -/
noncomputable def rowLin (E : V →ₗ[ℝ] (List ℤ → ℝ)) (Q : List (List ℤ × ℕ)) : V →ₗ[ℝ] ℝ where
  toFun v := (Q.map fun q => E v q.1).sum
  map_add' v w := by
    simp only [map_add, Pi.add_apply]
    rw [list_sum_add]
  map_smul' c v := by
    simp only [map_smul, Pi.smul_apply, smul_eq_mul, RingHom.id_apply]
    rw [list_sum_mul_left]

theorem set_self (s : List ℤ) (r : ℕ) : s.set r (s.getD r 0) = s := by
  by_cases h : r < s.length
  · rw [List.getD_eq_getElem _ _ h, List.set_getElem_self]
  · rw [List.set_eq_of_length_le (by omega)]

variable {vals : List ℤ} {n : ℕ} {X : List (List ℤ)}

theorem negPL_cross (hX : ∀ s ∈ X, s ∈ words vals n) (E : V →ₗ[ℝ] (List ℤ → ℝ)) (v : V) :
    negPL vals n X (E v) =
      crossLin (words vals (rowSites n X).length) (choiceLin E (rowSites n X)) (rowLin E (rowSites n X)) v := by
  unfold crossLin
  show _ = _ + Real.log (partition _ (choiceSum (fun (q : List ℤ × ℕ) a => E v (q.1.set q.2 a)) (rowSites n X)))
  have hpos : ∀ q ∈ rowSites n X, 0 < partition vals fun a => E v (q.1.set q.2 a) := fun q hq => by
    obtain ⟨h1, h2⟩ := mem_rowSites.1 hq
    exact condSum_pos h2 (hX _ h1) (fun s => Real.exp (-E v s)) fun _ => Real.exp_pos _
  rw [partition_choices, log_prod_list _ _ hpos]
  show _ = ((rowSites n X).map fun q => E v q.1).sum + _
  rw [← list_sum_add]
  unfold negPL negCondLogLik
  rw [list_sum_neg, list_sum_comm, ← list_sum_neg]
  have e : ∀ Y : List (List ℤ), ((rowSites n Y).map fun q => E v q.1 + Real.log (partition vals fun a => E v (q.1.set q.2 a))).sum =
      (Y.map fun s => ((List.range n).map fun r => E v s + Real.log (partition vals fun a => E v (s.set r a))).sum).sum := by
    intro Y
    induction Y with
    | nil => simp [rowSites]
    | cons s Y ih =>
      rw [List.map_cons, List.sum_cons, ← ih]
      simp [rowSites, Function.comp_def]
  rw [e]
  refine list_sum_congr fun s hs => ?_
  rw [← list_sum_neg]
  refine list_sum_congr fun r hr => ?_
  have hp : 0 < partition vals fun a => E v (s.set r a) := hpos (s, r) (mem_rowSites.2 ⟨hs, List.mem_range.1 hr⟩)
  show -Real.log (Real.exp (-E v s) / partition vals fun a => E v (s.set r a)) = _
  rw [Real.log_div (Real.exp_pos _).ne' hp.ne', Real.log_exp]
  ring

theorem choices_ne (hX : ∀ s ∈ X, s ∈ words vals n) : words vals (rowSites n X).length ≠ [] := by
  rcases Nat.eq_zero_or_pos (rowSites n X).length with h | h
  · rw [h]
    simp [words]
  · obtain ⟨q, hq⟩ := List.exists_mem_of_length_pos h
    obtain ⟨h1, h2⟩ := mem_rowSites.1 hq
    exact List.ne_nil_of_mem (a := List.replicate (rowSites n X).length (q.1.getD q.2 0)) (mem_words.2 ⟨by simp, fun x hx => by
      rw [List.eq_of_mem_replicate hx]
      exact getD_mem_of_words h2 (hX _ h1)⟩)

theorem rows_choice (hX : ∀ s ∈ X, s ∈ words vals n) (E : V →ₗ[ℝ] (List ℤ → ℝ)) (w : V) :
    ∀ q ∈ rowSites n X, ∃ a ∈ vals, E w (q.1.set q.2 a) = E w q.1 := fun q hq => by
  obtain ⟨h1, h2⟩ := mem_rowSites.1 hq
  exact ⟨_, getD_mem_of_words h2 (hX _ h1), by rw [set_self]⟩

/-- Directions in which no change of a spin of the data lowers the energy. -/
theorem rows_le (hX : ∀ s ∈ X, s ∈ words vals n) (E : V →ₗ[ℝ] (List ℤ → ℝ)) (w : V) :
    (∀ t ∈ words vals (rowSites n X).length, rowLin E (rowSites n X) w ≤ choiceLin E (rowSites n X) w t) ↔
      ∀ s ∈ X, ∀ r < n, ∀ a ∈ vals, E w s ≤ E w (s.set r a) := by
  refine (choices_le vals (fun (q : List ℤ × ℕ) a => E w (q.1.set q.2 a)) (fun q => E w q.1) _ (rows_choice hX E w)).trans
    ⟨fun h s hs r hr a ha => h (s, r) (mem_rowSites.2 ⟨hs, hr⟩) a ha, fun h q hq a ha => ?_⟩
  obtain ⟨h1, h2⟩ := mem_rowSites.1 hq
  exact h _ h1 _ h2 a ha

theorem rows_eq (hX : ∀ s ∈ X, s ∈ words vals n) (E : V →ₗ[ℝ] (List ℤ → ℝ)) (w : V) :
    (∀ t ∈ words vals (rowSites n X).length, choiceLin E (rowSites n X) w t = rowLin E (rowSites n X) w) ↔
      ∀ s ∈ X, ∀ r < n, ∀ a ∈ vals, E w (s.set r a) = E w s := by
  refine (choices_eq vals (fun (q : List ℤ × ℕ) a => E w (q.1.set q.2 a)) (fun q => E w q.1) _ (rows_choice hX E w)).trans
    ⟨fun h s hs r hr a ha => h (s, r) (mem_rowSites.2 ⟨hs, hr⟩) a ha, fun h q hq a ha => ?_⟩
  obtain ⟨h1, h2⟩ := mem_rowSites.1 hq
  exact h _ h1 _ h2 a ha

theorem negPL_minima (hX : ∀ s ∈ X, s ∈ words vals n) (E : V →ₗ[ℝ] (List ℤ → ℝ)) (v w : V)
    (hv : ∀ u, negPL vals n X (E v) ≤ negPL vals n X (E u)) :
    negPL vals n X (E w) ≤ negPL vals n X (E v) ↔
      ∀ s ∈ X, ∀ r < n, ∀ a ∈ vals, E w (s.set r a) - E v (s.set r a) = E w s - E v s := by
  simp only [negPL_cross hX] at hv ⊢
  have e : w = v + (w - v) := by abel
  have k := rows_eq hX E (w - v)
  simp only [map_sub E, Pi.sub_apply] at k
  rw [← k]
  constructor
  · intro h
    rw [e] at h
    exact crossLin_minima _ (choices_ne hX) _ _ v (w - v) hv h
  · intro h
    conv_lhs => rw [e]
    exact (crossLin_shift _ (choices_ne hX) _ _ v (w - v) h).le

/-- There is a smallest value unless some direction raises energies of changed states and lowers none. -/
theorem negPL_attained_iff [FiniteDimensional ℝ V] (hX : ∀ s ∈ X, s ∈ words vals n) (E : V →ₗ[ℝ] (List ℤ → ℝ)) :
    (∃ v, ∀ w, negPL vals n X (E v) ≤ negPL vals n X (E w)) ↔
      ∀ w, (∀ s ∈ X, ∀ r < n, ∀ a ∈ vals, E w s ≤ E w (s.set r a)) →
        ∀ s ∈ X, ∀ r < n, ∀ a ∈ vals, E w (s.set r a) = E w s := by
  simp only [negPL_cross hX]
  rw [crossLin_attained_iff _ (choices_ne hX)]
  exact forall_congr' fun w => by rw [rows_le hX, rows_eq hX]

theorem convexOn_negPL (hX : ∀ s ∈ X, s ∈ words vals n) (E : V →ₗ[ℝ] (List ℤ → ℝ)) :
    ConvexOn ℝ Set.univ fun v => negPL vals n X (E v) := by
  simp only [negPL_cross hX]
  exact convexOn_crossLin _ (choices_ne hX) _ _

theorem continuous_negPL [FiniteDimensional ℝ V] (hX : ∀ s ∈ X, s ∈ words vals n) (E : V →ₗ[ℝ] (List ℤ → ℝ)) :
    Continuous fun v => negPL vals n X (E v) := by
  simp only [negPL_cross hX]
  exact continuous_crossLin _ (choices_ne hX) _ _

theorem negPL_sum (E : List ℤ → ℝ) : negPL vals n X E = (X.map fun s => negPL vals n [s] E).sum := by
  unfold negPL
  rw [list_sum_comm]
  refine list_sum_congr fun r _ => ?_
  unfold negCondLogLik
  rw [← list_sum_neg]
  simp

/-- The mean of the pseudolikelihood is largest for the right conditional probabilities. -/
theorem negPL_gibbs (hv : vals.Nodup) (S : List (List ℤ)) (hS : S = words vals n) (hS0 : S ≠ []) (E E' : List ℤ → ℝ) :
    (S.map fun s => boltzmann S E s * negPL vals n [s] E).sum ≤ (S.map fun s => boltzmann S E s * negPL vals n [s] E').sum ∧
    ((S.map fun s => boltzmann S E s * negPL vals n [s] E').sum ≤ (S.map fun s => boltzmann S E s * negPL vals n [s] E).sum →
      ∀ s ∈ S, ∀ r < n, ∀ a ∈ vals, E' (s.set r a) - E (s.set r a) = E' s - E s) := by
  have hsum : ∀ F : List ℤ → ℝ, (S.map fun s => boltzmann S E s * negPL vals n [s] F).sum =
      -((List.range n).map fun r => (S.map fun s => boltzmann S E s * Real.log (condProb F vals r s)).sum).sum := by
    intro F
    rw [← list_sum_comm, ← list_sum_neg]
    refine list_sum_congr fun s _ => ?_
    rw [list_sum_mul_left, ← mul_neg, ← list_sum_neg]
    simp [negPL, negCondLogLik]
  have key := fun r (hr : r < n) => cond_gibbs_mean (vals := vals) hv hr E E' S hS hS0
  rw [hsum, hsum]
  refine ⟨neg_le_neg (list_sum_le _ _ _ fun r hr => (key r (List.mem_range.1 hr)).1), fun hc => ?_⟩
  have hz := eq_of_sum_zero (List.range n) (fun r => (S.map fun s => boltzmann S E s * Real.log (condProb E vals r s)).sum -
      (S.map fun s => boltzmann S E s * Real.log (condProb E' vals r s)).sum)
    (fun r hr => sub_nonneg.2 (key r (List.mem_range.1 hr)).1) (le_antisymm (by
      rw [list_sum_sub]
      linarith) (List.sum_nonneg fun y hy => by
        obtain ⟨r, hr, rfl⟩ := List.mem_map.1 hy
        exact sub_nonneg.2 (key r (List.mem_range.1 hr)).1))
  intro s hs r hr a ha
  rw [hS] at hs
  exact energy_of_cond hr E E' (fun t ht => (key r hr).2 (sub_nonpos.1 (hz r (List.mem_range.2 hr)).le) t (hS ▸ ht)) s hs a ha

/-- Samples with nearly the right frequencies: what is at least as good as the truth is near it, if energy differences determine
the point. -/
theorem negPL_stable [FiniteDimensional ℝ V] (hv : vals.Nodup) (hS0 : words vals n ≠ []) (E : V →ₗ[ℝ] (List ℤ → ℝ))
    (hE : ∀ w, (∀ s ∈ words vals n, ∀ r < n, ∀ a ∈ vals, E w (s.set r a) = E w s) → w = 0) (θ : V) (ε : ℝ) (hε : 0 < ε) :
    ∃ δ, 0 < δ ∧ ∀ X : List (List ℤ), X ≠ [] → (∀ s ∈ X, s ∈ words vals n) →
      (∀ s ∈ words vals n, |(X.count s : ℝ) / X.length - boltzmann (words vals n) (E θ) s| < δ) →
      ∀ v, negPL vals n X (E v) ≤ negPL vals n X (E θ) → ‖v - θ‖ < ε := by
  obtain ⟨S, hS⟩ : ∃ S, S = words vals n := ⟨_, rfl⟩
  rw [← hS] at hS0 ⊢
  have hmem : ∀ s ∈ S, ∀ t ∈ [s], t ∈ words vals n := fun s hs t ht => by
    rw [List.mem_singleton.1 ht, ← hS]
    exact hs
  obtain ⟨δ, hδ, h⟩ := stable_below S (by rw [hS]; exact nodup_words hv n) (boltzmann S (E θ)) (fun u s => negPL vals n [s] (E u))
    (fun s hs => convexOn_negPL (hmem s hs) E) (fun s hs => continuous_negPL (hmem s hs) E) θ (fun u hu => by
      by_contra hc
      push Not at hc
      have h1 := (negPL_gibbs hv S hS hS0 (E θ) (E u)).2 hc
      refine hu (sub_eq_zero.1 (hE (u - θ) fun s hs r hr a ha => ?_))
      rw [map_sub]
      exact h1 s (hS ▸ hs) r hr a ha) ε hε
  refine ⟨δ, hδ, fun X hX hXS hf v hle => h X hX hXS hf v ?_⟩
  have e1 := negPL_sum (vals := vals) (n := n) (X := X) (E v)
  have e2 := negPL_sum (vals := vals) (n := n) (X := X) (E θ)
  rw [e1, e2] at hle
  exact hle

end

end Verif.Lemmas
