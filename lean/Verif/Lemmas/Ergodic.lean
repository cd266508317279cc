/-
Steps that lead everywhere and keep a distribution: convergence and averages.
-/
import Verif.Lemmas.FinDist
import Verif.Lemmas.Metropolis3
import Verif.Lemmas.Boltzmann

namespace Verif.Lemmas
open Verif Verif.Model Verif.Spec Prog Filter

variable {α : Type} [DecidableEq α]

/-- The step stays in `S`, keeps the distribution `w`, and some number of steps leads from every state to every state. -/
structure Ergodic (S : List α) (w : α → ℝ) (step : α → Prog α) : Prop where
  fin : ∀ s ∈ S, FinDist (step s) (· ∈ S)
  nonneg : ∀ s ∈ S, 0 ≤ w s
  sum : (S.map w).sum = 1
  keeps : ∀ f : α → ℝ, (S.map fun s => w s * expectation f (step s)).sum = (S.map fun s => w s * f s).sum
  pos : ∃ N, ∀ s ∈ S, ∀ t ∈ S, 0 < (fun f s => expectation f (step s))^[N] (pointFn t) s

variable {S : List α} {w : α → ℝ} {step : α → Prog α}

/-- A bound on the distance from the limit after a number of steps, for all first states. -/
theorem Ergodic.rate (he : Ergodic S w step) (f : α → ℝ) :
    ∃ r : ℕ → ℝ, (∀ m, 0 ≤ r m) ∧ Tendsto r atTop (nhds 0) ∧ Antitone r ∧
      (∀ l : List ℕ, ∀ s ∈ S, |expectation f (forEach (fun _ => step) l s) - (S.map fun s => w s * f s).sum| ≤
        r l.length) ∧
      ∃ B, ∀ M, ∑ m ∈ Finset.range M, r m ≤ B := by
  obtain ⟨N, hN⟩ := he.pos
  obtain ⟨r, h1, h2, h3, h4, h5⟩ := mixing_sum (markov_step he.fin) w he.nonneg he.sum he.keeps N hN f
  exact ⟨r, h1, h2, h3, fun l s hs => by rw [expectation_forEach_step]; exact h4 l.length s hs, h5⟩

omit [DecidableEq α] in
theorem iterate_block (step : α → Prog α) (q k : ℕ) (g : α → ℝ) :
    (fun f s => expectation f (forEach (fun _ : ℕ => step) (List.range q) s))^[k] g =
      (fun f s => expectation f (step s))^[q * k] g := by
  have : (fun (f : α → ℝ) s => expectation f (forEach (fun _ : ℕ => step) (List.range q) s)) =
      (fun f s => expectation f (step s))^[q] := by
    funext f s
    rw [expectation_forEach_step, List.length_range]
  rw [this, ← Function.iterate_mul]

/-- Averages over every `q`-th state approach the mean: the second moment of the deviation of the sum grows like the
number of states, for all first states. -/
theorem Ergodic.lln (he : Ergodic S w step) (f : α → ℝ) :
    ∃ K, 0 ≤ K ∧ ∀ q, 0 < q → ∀ l : List ℕ, ∀ s ∈ S,
      expectation (fun tr => ((tr.map f).sum - l.length * (S.map fun s => w s * f s).sum) ^ 2)
        (visits (fun _ : ℕ => forEach (fun _ : ℕ => step) (List.range q)) l s) ≤ l.length * K := by
  obtain ⟨μ, hμ⟩ : ∃ μ, μ = (S.map fun s => w s * f s).sum := ⟨_, rfl⟩
  rw [← hμ]
  obtain ⟨r, h1, h2, h3, h4, B, hB⟩ := he.rate f
  rw [← hμ] at h4
  have hB0 : 0 ≤ B := by simpa using hB 0
  have hr0 := h1 0
  refine ⟨r 0 ^ 2 + 2 * r 0 * B, by positivity, fun q hq l s hs => ?_⟩
  have hfin : ∀ s ∈ S, FinDist (forEach (fun _ : ℕ => step) (List.range q) s) (· ∈ S) :=
    finDist_forEach (I := (· ∈ S)) _ fun _ _ => he.fin
  have hg : ∀ (m : ℕ), ∀ s ∈ S, |(fun f s => expectation f (step s))^[m] (fun t => f t - μ) s| ≤ r m := by
    intro m s hs
    have e := ((markov_step he.fin).iter m).affine (-μ) 1 f s hs
    have e2 := h4 (List.range m) s hs
    rw [expectation_forEach_step, List.length_range] at e2
    rw [show (fun t => f t - μ) = fun t => -μ + 1 * f t from by funext t; ring, e]
    rwa [one_mul, neg_add_eq_sub]
  have key := second_moment (ι := ℕ) hfin (fun t => f t - μ) (r 0) B (hg 0) (fun M s hs => ?_) l s hs
  · rw [(finDist_visits (ι := ℕ) hfin l s hs).congr
      (g := fun tr => (tr.map fun t => f t - μ).sum ^ 2) fun tr htr => ?_]
    · exact key
    · have e : ∀ tr : List α, (tr.map fun t => f t - μ).sum = (tr.map f).sum - tr.length * μ := fun tr => by
        induction tr with
        | nil => simp
        | cons a tr ih => simp only [List.map_cons, List.sum_cons, ih, List.length_cons]; push_cast; ring
      rw [e, htr.1]
  · refine (Finset.abs_sum_le_sum_abs _ _).trans ((Finset.sum_le_sum fun k _ => ?_).trans (hB M))
    rw [iterate_block]
    exact (hg _ s hs).trans (h3 (by nlinarith))

/-! ### The Metropolis samplers -/

section
variable {S : List (List ℤ)} {w calcE : List ℤ → ℝ} {n : ℕ} {move : Move}

/-- The states with their energies. -/
def withE (calcE : List ℤ → ℝ) (S : List (List ℤ)) : List (List ℤ × ℝ) := S.map fun s => (s, calcE s)

theorem mem_withE {st : List ℤ × ℝ} : st ∈ withE calcE S ↔ st.1 ∈ S ∧ st.2 = calcE st.1 := by
  unfold withE
  constructor
  · intro h
    obtain ⟨s, hs, rfl⟩ := List.mem_map.1 h
    exact ⟨hs, rfl⟩
  · rintro ⟨h1, h2⟩
    exact List.mem_map.2 ⟨st.1, h1, by rw [← h2]⟩

theorem sum_withE (g : List ℤ × ℝ → ℝ) : ((withE calcE S).map g).sum = (S.map fun s => g (s, calcE s)).sum := by
  unfold withE
  rw [List.map_map]
  rfl

variable (hm : GoodMove S w calcE n move) (hn : 0 < n)
include hm hn

omit hn in
theorem metroIter_random (j : ℕ) (s : List ℤ) (hs : s ∈ S) (e : ℝ) :
    metroIter move n false j (s, e) = (Prog.randint n).bind fun i =>
      (move (some i) s e).bind fun r => .ret (r.1, e + r.2) := by
  unfold metroIter siteArg
  simp only [Bool.false_eq_true, if_false, Prog.ofPy, Prog.bind, hm.random, bind_assoc, hm.length s hs]

/-- Repeated updates at random sites. -/
theorem metro_ergodic (hw : ∀ s ∈ S, 0 ≤ w s) (hW : (S.map w).sum = 1)
    (hfin : ∀ i < n, ∀ s ∈ S, FinDist (move (some i) s (calcE s)) fun r => r.1 ∈ S ∧ calcE s + r.2 = calcE r.1)
    (hirr : ∀ s ∈ S, ∀ t ∈ S, ∃ d, 0 < (fun f st => expectation f (metroIter move n false 0 st))^[d]
      (pointFn (t, calcE t)) (s, calcE s))
    (hhold : ∃ a ∈ S, ∃ K, ∀ k, K ≤ k → 0 < (fun f st => expectation f (metroIter move n false 0 st))^[k]
      (pointFn (a, calcE a)) (a, calcE a)) :
    Ergodic (withE calcE S) (fun st => w st.1) (metroIter move n false 0) := by
  have hf : ∀ st ∈ withE calcE S, FinDist (metroIter move n false 0 st) (· ∈ withE calcE S) := by
    intro st hst
    obtain ⟨s, e⟩ := st
    obtain ⟨h1, h2⟩ := mem_withE.1 hst
    dsimp only at h1 h2
    subst h2
    rw [metroIter_random hm 0 s h1]
    exact finDist_randint n hn _ fun i hi => finDist_bind (hfin i hi s h1) fun r hr => finDist_ret (mem_withE.2 hr)
  refine ⟨hf, fun st hst => hw _ (mem_withE.1 hst).1, by rw [sum_withE]; exact hW, fun f => ?_, ?_⟩
  · rw [sum_withE, sum_withE]
    exact keeps_metroIter hm hn false 0 f
  · obtain ⟨a, ha, K, hK⟩ := hhold
    refine reach_all (markov_step hf) (fun st hst st' hst' => ?_) (a, calcE a) (mem_withE.2 ⟨ha, rfl⟩) K hK
    obtain ⟨s, e⟩ := st
    obtain ⟨t, e'⟩ := st'
    obtain ⟨h1, h2⟩ := mem_withE.1 hst
    obtain ⟨h1', h2'⟩ := mem_withE.1 hst'
    dsimp only at h1 h2 h1' h2'
    subst h2 h2'
    exact hirr s h1 t h1'

end

/-! ### Reaching every word -/

/-- Words can be reached from each other by changing one letter at a time. -/
theorem words_connect (A : List ℤ) (n : ℕ) (P : List ℤ → List ℤ → Prop) (hrefl : ∀ s ∈ words A n, P s s)
    (htrans : ∀ s ∈ words A n, ∀ u ∈ words A n, ∀ t ∈ words A n, P s u → P u t → P s t)
    (hstep : ∀ s ∈ words A n, ∀ i < n, ∀ v ∈ A, P s (s.set i v)) :
    ∀ s ∈ words A n, ∀ t ∈ words A n, P s t := by
  intro s hs t ht
  obtain ⟨hs1, hs2⟩ := mem_words.1 hs
  obtain ⟨ht1, ht2⟩ := mem_words.1 ht
  have hmem : ∀ k, t.take k ++ s.drop k ∈ words A n := fun k => by
    refine mem_words.2 ⟨by simp [hs1, ht1]; omega, fun x hx => ?_⟩
    rcases List.mem_append.1 hx with hx | hx
    · exact ht2 x (List.mem_of_mem_take hx)
    · exact hs2 x (List.mem_of_mem_drop hx)
  have key : ∀ k ≤ n, P s (t.take k ++ s.drop k) := by
    intro k
    induction k with
    | zero => intro _; simpa using hrefl s hs
    | succ k ih =>
      intro hk
      have hkt : k < t.length := by omega
      have hks : k < s.length := by omega
      have e : (t.take k ++ s.drop k).set k t[k] = t.take (k + 1) ++ s.drop (k + 1) := by
        rw [List.set_append_right _ _ (by simp [min_eq_left hkt.le]), List.length_take, min_eq_left hkt.le, Nat.sub_self,
          List.drop_eq_getElem_cons hks, List.set_cons_zero, List.take_succ_eq_append_getElem hkt, List.append_assoc]
        rfl
      refine htrans s hs _ (hmem k) _ (hmem (k + 1)) (ih (by omega)) ?_
      rw [← e]
      exact hstep _ (hmem k) k (by omega) _ (ht2 _ (List.getElem_mem hkt))
  have := key n le_rfl
  rwa [List.take_of_length_le ht1.le, List.drop_eq_nil_of_le hs1.le, List.append_nil] at this

end Verif.Lemmas
