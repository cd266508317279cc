/-
Facts about Boltzmann distributions and sums over samples.
-/
import Verif.Spec.Boltzmann
import Verif.Lemmas.Corr

namespace Verif.Lemmas
open Verif Verif.Spec

variable {α : Type*}

theorem partition_pos (S : List α) (E : α → ℝ) (hS : S ≠ []) : 0 < partition S E := by
  unfold partition
  induction S with
  | nil => exact absurd rfl hS
  | cons a S ih =>
    rw [List.map_cons, List.sum_cons]
    rcases eq_or_ne S [] with rfl | h
    · simp [Real.exp_pos]
    · exact add_pos (Real.exp_pos _) (ih h)

theorem boltzmann_pos (S : List α) (E : α → ℝ) (hS : S ≠ []) (s : α) : 0 < boltzmann S E s :=
  div_pos (Real.exp_pos _) (partition_pos S E hS)

theorem sum_boltzmann (S : List α) (E : α → ℝ) (hS : S ≠ []) : (S.map (boltzmann S E)).sum = 1 := by
  unfold boltzmann
  rw [list_sum_div]
  exact div_self (partition_pos S E hS).ne'

theorem expect_eq_div (S : List α) (E f : α → ℝ) :
    expect S E f = (S.map fun s => Real.exp (-E s) * f s).sum / partition S E := by
  unfold expect boltzmann
  rw [← list_sum_div]
  congr 1
  apply List.map_congr_left
  intro s _
  ring

theorem list_sum_le {β : Type*} (L : List β) (f g : β → ℝ) (h : ∀ x ∈ L, f x ≤ g x) :
    (L.map f).sum ≤ (L.map g).sum := by
  induction L with
  | nil => simp
  | cons a L ih =>
    rw [List.map_cons, List.map_cons, List.sum_cons, List.sum_cons]
    exact add_le_add (h a (by simp)) (ih fun x hx => h x (List.mem_cons_of_mem _ hx))

theorem expect_le (S : List α) (E f : α → ℝ) (hS : S ≠ []) (c : ℝ) (h : ∀ s ∈ S, f s ≤ c) :
    expect S E f ≤ c := by
  calc expect S E f ≤ (S.map fun s => boltzmann S E s * c).sum :=
        list_sum_le _ _ _ fun s hs => mul_le_mul_of_nonneg_left (h s hs) (boltzmann_pos S E hS s).le
    _ = c := by
        rw [list_sum_mul_right, sum_boltzmann S E hS, one_mul]

theorem le_expect (S : List α) (E f : α → ℝ) (hS : S ≠ []) (c : ℝ) (h : ∀ s ∈ S, c ≤ f s) :
    c ≤ expect S E f := by
  calc c = (S.map fun s => boltzmann S E s * c).sum := by
        rw [list_sum_mul_right, sum_boltzmann S E hS, one_mul]
    _ ≤ expect S E f :=
        list_sum_le _ _ _ fun s hs => mul_le_mul_of_nonneg_left (h s hs) (boltzmann_pos S E hS s).le

theorem expect_congr (S : List α) (E E' f f' : α → ℝ) (hE : ∀ s ∈ S, E s = E' s)
    (hf : ∀ s ∈ S, f s = f' s) : expect S E f = expect S E' f' := by
  rw [expect_eq_div, expect_eq_div]
  have h1 : partition S E = partition S E' := by
    unfold partition
    rw [List.map_congr_left (fun s hs => by rw [hE s hs])]
  rw [h1]
  congr 2
  apply List.map_congr_left
  intro s hs
  rw [hE s hs, hf s hs]

/-- Summing over a sample is summing over the distinct states with their counts. -/
theorem sum_by_count [BEq α] [LawfulBEq α] {K : Type*} [Ring K] (S X : List α) (hS : S.Nodup)
    (hX : ∀ x ∈ X, x ∈ S) (g : α → K) :
    (X.map g).sum = (S.map fun s => (X.count s : K) * g s).sum := by
  induction X with
  | nil => simp
  | cons a X ih =>
    rw [List.map_cons, List.sum_cons, ih fun x hx => hX x (List.mem_cons_of_mem _ hx)]
    have key : ∀ T : List α, T.Nodup → a ∈ T →
        (T.map fun s => ((a :: X).count s : K) * g s).sum =
          g a + (T.map fun s => (X.count s : K) * g s).sum := by
      intro T hT ha
      induction T with
      | nil => simp at ha
      | cons t T ihT =>
        rw [List.map_cons, List.map_cons, List.sum_cons, List.sum_cons]
        obtain ⟨h1, h2⟩ := List.nodup_cons.1 hT
        by_cases hta : t = a
        · subst hta
          rw [List.count_cons_self]
          have : (T.map fun s => ((t :: X).count s : K) * g s) =
              T.map fun s => (X.count s : K) * g s := by
            apply List.map_congr_left
            intro s hs
            rw [List.count_cons_of_ne]
            rintro rfl
            exact h1 hs
          rw [this]
          push_cast
          rw [add_mul, one_mul]
          abel
        · rw [List.count_cons_of_ne (Ne.symm hta),
            ihT h2 ((List.mem_cons.1 ha).resolve_left (Ne.symm hta))]
          abel
    exact (key S hS (hX a (by simp))).symm

/-- Reweighting: a sample distributed as the model `E` gives, with weights `exp(-D)`, the
expectations of the model `E + D`. -/
theorem reweight [BEq α] [LawfulBEq α] (S X : List α) (hS : S.Nodup) (hX : ∀ x ∈ X, x ∈ S) (hne : X ≠ [])
    (E D f : α → ℝ) (hdist : ∀ s ∈ S, (X.count s : ℝ) / X.length = boltzmann S E s) :
    expect X D f = expect S (fun s => E s + D s) f := by
  have hSne : S ≠ [] := by
    rintro rfl
    rcases X with _ | ⟨x, X⟩
    · exact hne rfl
    · simpa using hX x (by simp)
  have hlen : (X.length : ℝ) ≠ 0 := by
    have := List.length_pos_iff.2 hne
    positivity
  have hZ := (partition_pos S E hSne).ne'
  have hcount : ∀ s ∈ S, (X.count s : ℝ) = X.length / partition S E * Real.exp (-E s) := by
    intro s hs
    have := hdist s hs
    unfold boltzmann at this
    field_simp at this ⊢
    linarith
  rw [expect_eq_div, expect_eq_div]
  have h1 : ∀ g : α → ℝ, (X.map fun s => Real.exp (-D s) * g s).sum =
      X.length / partition S E * (S.map fun s => Real.exp (-(E s + D s)) * g s).sum := by
    intro g
    rw [sum_by_count S X hS hX, ← list_sum_mul_left]
    congr 1
    apply List.map_congr_left
    intro s hs
    rw [hcount s hs, neg_add, Real.exp_add]
    ring
  have h2 := h1 f
  have h3 := h1 fun _ => 1
  simp only [mul_one] at h3
  unfold partition at h3 ⊢
  rw [h2, h3]
  have h5 := (partition_pos S (fun s => E s + D s) hSne).ne'
  unfold partition at h5 hZ ⊢
  field_simp

end Verif.Lemmas
