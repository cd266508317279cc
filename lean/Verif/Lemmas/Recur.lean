/-
Steps that keep a positive distribution on finitely many states: what can be reached can be left again.
-/
import Verif.Lemmas.Ergodic2

namespace Verif.Lemmas
open Verif Verif.Model Verif.Spec Prog

variable {α : Type} [DecidableEq α] {S : List α} {w : α → ℝ} {step : α → Prog α}

/-- If `t` can be reached from `s` in one step, then `s` can be reached from `t`. -/
theorem reach_back (hfin : ∀ s ∈ S, FinDist (step s) (· ∈ S)) (hw : ∀ s ∈ S, 0 < w s)
    (hk : ∀ f : α → ℝ, (S.map fun s => w s * expectation f (step s)).sum = (S.map fun s => w s * f s).sum)
    {s t : α} (hs : s ∈ S) (ht : t ∈ S) (h : 0 < expectation (pointFn t) (step s)) :
    ∃ m, 0 < (fun f s => expectation f (step s))^[m] (pointFn s) t := by
  classical
  by_contra hno
  obtain ⟨R, hR⟩ : ∃ R : α → Prop, R = fun u => ∃ m, 0 < (fun f s => expectation f (step s))^[m] (pointFn u) t :=
    ⟨_, rfl⟩
  obtain ⟨g, hg⟩ : ∃ g : α → ℝ, g = fun u => if R u then 1 else 0 := ⟨_, rfl⟩
  have hg0 : ∀ u, 0 ≤ g u := fun u => by rw [hg]; dsimp only; split <;> norm_num
  have hRs : ¬ R s := by rw [hR]; exact hno
  have hRt : R t := by rw [hR]; exact ⟨0, by simp [pointFn]⟩
  have hT := markov_step hfin
  -- from states that can be reached only such states are reached
  have hclosed : ∀ u ∈ S, R u → expectation g (step u) = 1 := by
    intro u hu hRu
    obtain ⟨ws, h1, h2, h3⟩ := hfin u hu
    rw [h3, ← h2]
    congr 1
    refine List.map_congr_left fun x hx => ?_
    rcases (h1 x hx).1.lt_or_eq with hx0 | hx0
    · have : R x.2 := by
        rw [hR] at hRu ⊢
        obtain ⟨m, hm⟩ := hRu
        refine ⟨m + 1, reach_trans hT ht hm ?_⟩
        rw [Function.iterate_one, h3]
        refine hx0.trans_le ?_
        have := List.single_le_sum (l := ws.map fun y => y.1 * pointFn x.2 y.2) (fun z hz => by
          obtain ⟨y, hy, rfl⟩ := List.mem_map.1 hz
          exact mul_nonneg (h1 y hy).1 (pointFn_nonneg _ _)) _ (List.mem_map.2 ⟨x, hx, rfl⟩)
        rwa [pointFn_self, mul_one] at this
      rw [hg]
      simp [this]
    · rw [← hx0, zero_mul]
  have hle : ∀ u ∈ S, w u * g u ≤ w u * expectation g (step u) := fun u hu => by
    refine mul_le_mul_of_nonneg_left ?_ (hw u hu).le
    by_cases hRu : R u
    · rw [hclosed u hu hRu, hg]; simp [hRu]
    · have := hT.nonneg (f := g) (fun v _ => hg0 v) u hu
      rw [hg] at this ⊢
      simpa [hRu] using this
  have hlt : w s * g s < w s * expectation g (step s) := by
    refine mul_lt_mul_of_pos_left ?_ (hw s hs)
    have h1 : expectation (pointFn t) (step s) ≤ expectation g (step s) := (hfin s hs).mono fun v _ => by
      unfold pointFn
      split
      · rename_i hv; rw [hv, hg]; simp [hRt]
      · exact hg0 v
    have h2 : g s = 0 := by rw [hg]; simp [hRs]
    rw [h2]
    exact h.trans_le h1
  exact absurd (hk g) (List.sum_lt_sum _ _ (fun u hu => hle u hu) ⟨s, hs, hlt⟩).ne'

/-- If every state can be kept, and any two states are connected by steps in one direction or the other, then some number
of steps leads from every state to every state. -/
theorem connected_pos (hfin : ∀ s ∈ S, FinDist (step s) (· ∈ S)) (hw : ∀ s ∈ S, 0 < w s)
    (hk : ∀ f : α → ℝ, (S.map fun s => w s * expectation f (step s)).sum = (S.map fun s => w s * f s).sum)
    (hstay : ∀ s ∈ S, 0 < expectation (pointFn s) (step s)) (B : α → α → Prop)
    (hB : ∀ s ∈ S, ∀ t, B s t → t ∈ S ∧ (0 < expectation (pointFn t) (step s) ∨ 0 < expectation (pointFn s) (step t)))
    (hc : ∀ s ∈ S, ∀ t ∈ S, Relation.ReflTransGen B s t) :
    ∃ N, ∀ s ∈ S, ∀ t ∈ S, 0 < (fun f s => expectation f (step s))^[N] (pointFn t) s := by
  have hT := markov_step hfin
  by_cases hS : S = []
  · exact ⟨0, by simp [hS]⟩
  obtain ⟨a, ha⟩ := List.exists_mem_of_ne_nil S hS
  refine reach_all hT (fun s hs t ht => ?_) a ha 0 fun k _ => hold_one hT ha (hstay a ha) k
  have key : ∀ t, Relation.ReflTransGen B s t → t ∈ S ∧ ∃ d, 0 < (fun f s => expectation f (step s))^[d] (pointFn t) s := by
    intro t h
    induction h with
    | refl => exact ⟨hs, 0, reach_refl⟩
    | tail _ hb ih =>
      obtain ⟨hu, d, hd⟩ := ih
      obtain ⟨hv, h1 | h1⟩ := hB _ hu _ hb
      · exact ⟨hv, d + 1, reach_trans hT hs hd h1⟩
      · obtain ⟨m, hm⟩ := reach_back hfin hw hk hv hu h1
        exact ⟨hv, d + m, reach_trans hT hs hd hm⟩
  exact (key t (hc s hs t ht)).2

end Verif.Lemmas
