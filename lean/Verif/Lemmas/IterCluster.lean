import Verif.Model.IterCluster
import Mathlib.Logic.Relation
import Mathlib.Data.List.Nodup
import Mathlib.Data.List.Perm.Subperm

namespace Verif.Lemmas
open Verif Verif.Model

section
variable {K : Type} [Zero K] [DecidableEq K]

/-- Sites `i` and `j` are joined. -/
def Joined (A : Mat K) (n i j : ℕ) : Prop := i < n ∧ j < n ∧ A.at' i j ≠ 0

theorem mem_unmarked {A : Mat K} {n : ℕ} (hA : A.HasShape n n) {marked : List ℕ} {i j : ℕ} (hi : i < n) :
    j ∈ unmarkedNeighbors A marked i ↔ Joined A n i j ∧ j ∉ marked := by
  unfold unmarkedNeighbors Joined
  have : (A.getD i []).length = n := by
    rw [List.getD_eq_getElem _ _ (by rw [hA.1]; exact hi)]
    exact hA.2 _ (List.getElem_mem _)
  rw [List.mem_filter, this, List.mem_range, decide_eq_true_eq]
  tauto

theorem nodup_le {n : ℕ} {l : List ℕ} (hl : l.Nodup) (h : ∀ x ∈ l, x < n) : l.length ≤ n := by
  have := (hl.subperm (l₂ := List.range n) fun x hx => List.mem_range.2 (h x hx)).length_le
  simpa using this

/-- What the loop over one cluster does. -/
theorem explore_spec {A : Mat K} {n : ℕ} (hA : A.HasShape n n) (order : List ℕ → List ℕ)
    (ho : ∀ l, (order l).Perm l) (s : ℕ) (marked0 : List ℕ) : ∀ (fuel : ℕ) (cluster newSites : List ℕ),
      (marked0 ++ cluster ++ newSites).Nodup → (∀ x ∈ marked0 ++ cluster ++ newSites, x < n) →
      (∀ x ∈ cluster ++ newSites, Relation.ReflTransGen (Joined A n) s x) →
      (∀ x ∈ cluster, ∀ y, Joined A n x y → y ∈ marked0 ++ cluster ++ newSites) →
      n + 1 - (marked0 ++ cluster).length ≤ fuel →
      ∃ rest, explore A order fuel cluster newSites (marked0 ++ cluster ++ newSites) =
          .ok (cluster ++ newSites ++ rest, marked0 ++ (cluster ++ newSites ++ rest)) ∧
        (marked0 ++ (cluster ++ newSites ++ rest)).Nodup ∧ (∀ x ∈ marked0 ++ (cluster ++ newSites ++ rest), x < n) ∧
        (∀ x ∈ cluster ++ newSites ++ rest, Relation.ReflTransGen (Joined A n) s x) ∧
        ∀ x ∈ cluster ++ newSites ++ rest, ∀ y, Joined A n x y → y ∈ marked0 ++ (cluster ++ newSites ++ rest) := by
  intro fuel
  induction fuel with
  | zero =>
    intro cluster newSites h1 h2 _ _ h5
    have := nodup_le h1 h2
    simp only [List.length_append] at this h5
    omega
  | succ fuel ih =>
    intro cluster newSites h1 h2 h3 h4 h5
    match newSites with
    | [] =>
      refine ⟨[], ?_, ?_, ?_, ?_, ?_⟩
      · simp [explore]
      · simpa using h1
      · simpa using h2
      · simpa using h3
      · simpa using h4
    | site :: rest =>
      have hsite : site < n := h2 site (by simp)
      unfold explore
      dsimp only
      rw [if_pos (by rw [hA.1]; exact hsite)]
      generalize hnb : order (unmarkedNeighbors A (marked0 ++ cluster ++ site :: rest) site) = nb
      have hmem : ∀ j, j ∈ nb ↔ Joined A n site j ∧ j ∉ marked0 ++ cluster ++ site :: rest := fun j => by
        rw [← hnb, (ho _).mem_iff, mem_unmarked hA hsite]
      have hnodup : nb.Nodup := by
        rw [← hnb, (ho _).nodup_iff]
        exact List.nodup_range.filter _
      have e : marked0 ++ cluster ++ site :: rest ++ nb = marked0 ++ (cluster ++ [site]) ++ (rest ++ nb) := by simp
      obtain ⟨r, k1, k2, k3, k4, k5⟩ := ih (cluster ++ [site]) (rest ++ nb) (by
          rw [← e]
          exact List.nodup_append'.2 ⟨h1, hnodup, fun x hx hx' => ((hmem x).1 hx').2 hx⟩) (by
          intro x hx
          rw [← e] at hx
          rcases List.mem_append.1 hx with hx | hx
          · exact h2 x hx
          · exact ((hmem x).1 hx).1.2.1) (by
          intro x hx
          have : x ∈ (cluster ++ site :: rest) ++ nb := by simpa using hx
          rcases List.mem_append.1 this with hx | hx
          · exact h3 x hx
          · exact (h3 site (by simp)).tail ((hmem x).1 hx).1) (by
          intro x hx y hy
          rw [← e]
          rcases List.mem_append.1 hx with hx | hx
          · exact List.mem_append_left _ (h4 x hx y hy)
          · rw [List.mem_singleton] at hx
            subst hx
            by_cases hm : y ∈ marked0 ++ cluster ++ x :: rest
            · exact List.mem_append_left _ hm
            · exact List.mem_append_right _ ((hmem y).2 ⟨hy, hm⟩)) (by
          simp only [List.length_append, List.length_cons, List.length_nil] at h5 ⊢
          omega)
      have e2 : cluster ++ [site] ++ (rest ++ nb) ++ r = cluster ++ site :: rest ++ (nb ++ r) := by simp
      rw [e2] at k1 k2 k3 k4 k5
      exact ⟨nb ++ r, by rw [e]; exact k1, k2, k3, k4, k5⟩

/-- What the loop over clusters does. -/
theorem clusterLoop_spec {A : Mat K} {n : ℕ} (hA : A.HasShape n n) (hsym : ∀ i j, Joined A n i j → Joined A n j i)
    (pick : List ℕ → ℕ) (hp : ∀ l ≠ [], pick l ∈ l) (order : List ℕ → List ℕ) (ho : ∀ l, (order l).Perm l) :
    ∀ (fuel : ℕ) (initial marked : List ℕ) (clusters : List (List ℕ)),
      initial.Nodup → (∀ x, x ∈ initial ↔ x < n ∧ x ∉ marked) → marked = clusters.flatten → marked.Nodup →
      (∀ x ∈ marked, x < n) →
      (∀ c ∈ clusters, c ≠ [] ∧ ∀ i ∈ c, ∀ j, j ∈ c ↔ Relation.ReflTransGen (Joined A n) i j) →
      initial.length + 1 ≤ fuel →
      ∃ cs, clusterLoop A pick order (n + 2) fuel initial marked clusters = .ok cs ∧ cs.flatten.Nodup ∧
        (∀ x, x ∈ cs.flatten ↔ x < n) ∧
        ∀ c ∈ cs, c ≠ [] ∧ ∀ i ∈ c, ∀ j, j ∈ c ↔ Relation.ReflTransGen (Joined A n) i j := by
  intro fuel
  induction fuel with
  | zero => intro initial marked clusters _ _ _ _ _ _ h; omega
  | succ fuel ih =>
    intro initial marked clusters h1 h2 h3 h4 h5 h6 h7
    match initial with
    | [] =>
      refine ⟨clusters, rfl, by rw [← h3]; exact h4, fun x => ?_, h6⟩
      rw [← h3]
      have := h2 x
      simp only [List.not_mem_nil, false_iff, not_and, not_not] at this
      exact ⟨h5 x, this⟩
    | x :: l =>
      have hpick := hp (x :: l) (by simp)
      unfold clusterLoop
      dsimp only
      generalize pick (x :: l) = site at hpick
      obtain ⟨hs1, hs2⟩ := (h2 site).1 hpick
      obtain ⟨rest, k1, k2, k3, k4, k5⟩ := explore_spec hA order ho site marked (n + 2) [] [site] (by
          rw [List.append_nil]
          exact List.nodup_append'.2 ⟨h4, by simp, fun y hy hy' => hs2 (by
            rw [List.mem_singleton] at hy'; rw [← hy']; exact hy)⟩) (by
          intro y hy
          simp only [List.append_nil, List.mem_append, List.mem_singleton] at hy
          rcases hy with hy | rfl
          · exact h5 y hy
          · exact hs1) (by
          intro y hy
          simp only [List.nil_append, List.mem_singleton] at hy
          rw [hy]) (by simp) (by omega)
      have hmemc : site ∈ [] ++ [site] ++ rest := by simp
      rw [List.append_nil] at k1
      generalize [] ++ [site] ++ rest = c at k1 k2 k3 k4 k5 hmemc
      rw [k1]
      dsimp only
      -- marked sites are closed under adjacency
      have hclosed : ∀ y ∈ marked, ∀ z, Joined A n y z → z ∈ marked := by
        intro y hy z hz
        rw [h3] at hy ⊢
        obtain ⟨d, hd, hyd⟩ := List.mem_flatten.1 hy
        exact List.mem_flatten.2 ⟨d, hd, ((h6 d hd).2 y hyd z).2 (.single hz)⟩
      have hdisj : ∀ y ∈ marked, y ∉ c := fun y hy hy' => (List.nodup_append'.1 k2).2.2 hy hy'
      have hcc : ∀ y ∈ c, ∀ z, Joined A n y z → z ∈ c := by
        intro y hy z hz
        rcases List.mem_append.1 (k5 y hy z hz) with h | h
        · exact absurd (hclosed z h y (hsym _ _ hz)) fun h' => hdisj y h' hy
        · exact h
      have hccs : ∀ y ∈ c, ∀ z, Relation.ReflTransGen (Joined A n) y z → z ∈ c := by
        intro y hy z hz
        induction hz with
        | refl => exact hy
        | tail _ hab ih => exact hcc _ ih _ hab
      have hsymr : ∀ y z, Relation.ReflTransGen (Joined A n) y z → Relation.ReflTransGen (Joined A n) z y := by
        intro y z hz
        induction hz with
        | refl => exact .refl
        | tail _ hab ih => exact .head (hsym _ _ hab) ih
      refine ih _ _ _ ((h1.erase _).filter _) (fun y => ?_) (by simp [h3]) k2 k3 (fun d hd => ?_) ?_
      · rw [List.mem_filter, decide_eq_true_eq]
        constructor
        · rintro ⟨hy, hy'⟩
          exact ⟨((h2 y).1 (List.mem_of_mem_erase hy)).1, hy'⟩
        · rintro ⟨hy, hy'⟩
          refine ⟨(List.mem_erase_of_ne ?_).2 ((h2 y).2 ⟨hy, fun h => hy' (List.mem_append_left _ h)⟩), hy'⟩
          rintro rfl
          exact hy' (List.mem_append_right _ hmemc)
      · rcases List.mem_append.1 hd with hd | hd
        · exact h6 d hd
        · rw [List.mem_singleton] at hd
          subst hd
          refine ⟨List.ne_nil_of_mem hmemc, fun i hi j => ⟨fun hj => ?_, hccs i hi j⟩⟩
          exact (hsymr _ _ (k4 i hi)).trans (k4 j hj)
      · have h8 : ((x :: l).erase site).length = l.length := by
          rw [List.length_erase_of_mem hpick]; simp
        have := List.length_filter_le (fun y => decide (y ∉ marked ++ c)) ((x :: l).erase site)
        simp only [List.length_cons] at h7
        omega

end

end Verif.Lemmas
