/-
Connected components: coniii/samplers.py iter_cluster (C59).
-/
import Verif.Lemmas.IterCluster
import Verif.Lemmas.Matrix
import Mathlib.Data.List.Lattice

namespace Verif.Props
open Verif Verif.Model Verif.Spec Verif.Lemmas

/-- C59: for every symmetric adjacency matrix `iter_cluster` ends and returns a list of nonempty clusters that
together contain every site exactly once; the cluster of a site consists exactly of the sites that can be reached
from it. This holds in whatever order Python iterates its sets. -/
theorem C59_components {K : Type} [Zero K] [DecidableEq K] (A : Mat K) (n : ℕ) (hA : A.HasShape n n)
    (hsym : ∀ i < n, ∀ j < n, A.at' i j ≠ 0 → A.at' j i ≠ 0)
    (pick : List ℕ → ℕ) (hp : ∀ l ≠ [], pick l ∈ l) (order : List ℕ → List ℕ) (ho : ∀ l, (order l).Perm l) :
    ∃ cs, iterCluster A pick order = .ok cs ∧ cs.flatten.Perm (List.range n) ∧
      ∀ c ∈ cs, c ≠ [] ∧ ∀ i ∈ c, ∀ j,
        j ∈ c ↔ Relation.ReflTransGen (fun a b => a < n ∧ b < n ∧ A.at' a b ≠ 0) i j := by
  obtain ⟨cs, h1, h2, h3, h4⟩ := clusterLoop_spec hA (fun i j h => ⟨h.2.1, h.1, hsym i h.1 j h.2.1 h.2.2⟩) pick hp order ho
    (n + 1) (List.range n) [] [] List.nodup_range (fun x => by simp) rfl (by simp) (by simp) (by simp) (by simp)
  refine ⟨cs, ?_, (List.perm_ext_iff_of_nodup h2 List.nodup_range).2 fun x => by rw [h3, List.mem_range], h4⟩
  unfold iterCluster
  rw [hA.1]
  exact h1

/-- C59: two sites are in one cluster exactly if a path joins them. -/
theorem C59_same_cluster {K : Type} [Zero K] [DecidableEq K] (A : Mat K) (n : ℕ) (hA : A.HasShape n n)
    (hsym : ∀ i < n, ∀ j < n, A.at' i j ≠ 0 → A.at' j i ≠ 0)
    (pick : List ℕ → ℕ) (hp : ∀ l ≠ [], pick l ∈ l) (order : List ℕ → List ℕ) (ho : ∀ l, (order l).Perm l)
    (cs : List (List ℕ)) (h : iterCluster A pick order = .ok cs) (i j : ℕ) (hi : i < n) :
    (∃ c ∈ cs, i ∈ c ∧ j ∈ c) ↔ Relation.ReflTransGen (fun a b => a < n ∧ b < n ∧ A.at' a b ≠ 0) i j := by
  obtain ⟨cs', h1, h2, h3⟩ := C59_components A n hA hsym pick hp order ho
  rw [h] at h1
  injection h1 with h1
  subst h1
  constructor
  · rintro ⟨c, hc, hic, hjc⟩
    exact ((h3 c hc).2 i hic j).1 hjc
  · intro hr
    obtain ⟨c, hc, hic⟩ := List.mem_flatten.1 ((h2.mem_iff (a := i)).2 (List.mem_range.2 hi))
    exact ⟨c, hc, hic, ((h3 c hc).2 i hic j).2 hr⟩

/-- A graph with two components. -/
example : iterCluster (K := ℤ) [[0, 0, 1, 0], [0, 0, 0, 1], [1, 0, 0, 0], [0, 1, 0, 0]] (fun l => l.headD 0) id =
    .ok [[0, 2], [1, 3]] := by decide +kernel

/-- C59: symmetry is needed: with the single directed edge from 1 to 0 the sites come out in separate clusters if 0
is visited first and in one cluster if 1 is. -/
theorem C59_needs_symmetry :
    iterCluster (K := ℤ) [[0, 0], [1, 0]] (fun l => l.headD 0) id = .ok [[0], [1]] ∧
      iterCluster (K := ℤ) [[0, 0], [1, 0]] (fun l => l.getLastD 0) id = .ok [[1, 0]] := by decide +kernel

/-- C59: `pairwise_prod` lists the products of all pairs of spins in the order of the couplings. -/
theorem C59_pairwise_prod {K : Type} [CommRing K] (s : List K) :
    pairwiseProd s = (upperPairs s.length).map fun p => s.getD p.1 0 * s.getD p.2 0 := by
  unfold pairwiseProd
  rw [loopPairs_eq_upperPairs]

/-- C59: `sample_bonds` puts a bond exactly on the pairs whose coupling favours their present alignment and whose
random number is below the probability given. -/
theorem C59_sample_bonds {K : Type} [CommRing K] [LinearOrder K] [IsStrictOrderedRing K] (p r s J : List K)
    (hJ : J.length = s.length * (s.length - 1) / 2) :
    (sampleBonds p r s J).length = J.length ∧ ∀ k (hk : k < (upperPairs s.length).length),
      (sampleBonds p r s J).getD k 0 =
        if 0 < J.getD k 0 * (s.getD ((upperPairs s.length)[k]).1 0 * s.getD ((upperPairs s.length)[k]).2 0) ∧
          r.getD k 0 < p.getD k 0 then 1 else 0 := by
  have key : ∀ (P : ℕ × ℕ → ℕ → Prop) [∀ q c, Decidable (P q c)] (l : List (ℕ × ℕ)) (pre : List K),
      (l.foldl (fun (st : List K × ℕ) q => (if P q st.2 then st.1.set st.2 1 else st.1, st.2 + 1))
        (pre ++ List.replicate l.length 0, pre.length)).1 =
      pre ++ (l.zipIdx pre.length).map fun x => if P x.1 x.2 then 1 else 0 := by
    intro P _ l
    induction l with
    | nil => intro pre; simp
    | cons q l ih =>
      intro pre
      have e : (if P q pre.length then (pre ++ List.replicate (q :: l).length (0 : K)).set pre.length 1
          else pre ++ List.replicate (q :: l).length 0) =
          (pre ++ [if P q pre.length then (1 : K) else 0]) ++ List.replicate l.length 0 := by
        rw [List.length_cons, List.replicate_succ]
        split
        · rw [List.set_append_right _ _ (le_refl _), Nat.sub_self, List.set_cons_zero]; simp
        · simp
      have := ih (pre ++ [if P q pre.length then (1 : K) else 0])
      rw [List.length_append, List.length_singleton] at this
      rw [List.foldl_cons]
      dsimp only
      rw [e, this]
      simp
  have hlen : (upperPairs s.length).length = J.length := by rw [length_upperPairs, hJ]
  have h1 : sampleBonds p r s J = ((upperPairs s.length).zipIdx 0).map fun x =>
      if 0 < J.getD x.2 0 * (s.getD x.1.1 0 * s.getD x.1.2 0) ∧ r.getD x.2 0 < p.getD x.2 0 then 1 else 0 := by
    have := key (fun q c => 0 < J.getD c 0 * (s.getD q.1 0 * s.getD q.2 0) ∧ r.getD c 0 < p.getD c 0)
      (upperPairs s.length) []
    rw [List.nil_append, List.nil_append, hlen, List.length_nil] at this
    rw [← this]
    unfold sampleBonds
    rw [loopPairs_eq_upperPairs]
    congr 2
    funext st q
    dsimp only
    congr 1
    by_cases hr : r.getD st.2 0 < p.getD st.2 0
    · by_cases ha : J.getD st.2 0 < 0 ∧ s.getD q.1 0 * s.getD q.2 0 < 0
      · rw [if_pos ⟨ha.1, ha.2, hr⟩, if_pos ⟨mul_pos_of_neg_of_neg ha.1 ha.2, hr⟩]
      · rw [if_neg (by tauto)]
        by_cases hb : 0 < J.getD st.2 0 ∧ 0 < s.getD q.1 0 * s.getD q.2 0
        · rw [if_pos ⟨hb.1, hb.2, hr⟩, if_pos ⟨mul_pos hb.1 hb.2, hr⟩]
        · rw [if_neg (by tauto), if_neg]
          rintro ⟨h, _⟩
          rcases pos_and_pos_or_neg_and_neg_of_mul_pos h with h | h <;> tauto
    · rw [if_neg (by tauto), if_neg (by tauto), if_neg (by tauto)]
  rw [h1]
  refine ⟨by simp [hlen], fun k hk => ?_⟩
  rw [List.getD_eq_getElem _ _ (by simpa using hk), List.getElem_map, List.getElem_zipIdx, Nat.zero_add]

example : sampleBonds (K := ℚ) [1 / 2, 1 / 2, 1 / 2] [0, 0, 3 / 4] [1, -1, 1] [-1, 1, 1] = [1, 1, 0] := by decide +kernel

end Verif.Props
