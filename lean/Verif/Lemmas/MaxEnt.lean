/-
Gibbs' inequality and uniqueness of exponential families.
-/
import Verif.Spec.MaxEnt
import Verif.Lemmas.EnumerateWrap
import Verif.Lemmas.Unique
import Verif.Props.HighOrder

namespace Verif.Lemmas
open Verif Verif.Model Verif.Spec

variable {α : Type*}

theorem eq_of_sum_zero (S : List α) (f : α → ℝ) (h : ∀ s ∈ S, 0 ≤ f s) (h0 : (S.map f).sum = 0) :
    ∀ s ∈ S, f s = 0 := by
  induction S with
  | nil => simp
  | cons a S ih =>
    rw [List.map_cons, List.sum_cons] at h0
    have h1 := h a (by simp)
    have h2 : 0 ≤ (S.map f).sum := List.sum_nonneg (by
      intro x hx
      obtain ⟨s, hs, rfl⟩ := List.mem_map.1 hx
      exact h s (List.mem_cons_of_mem _ hs))
    intro s hs
    rcases List.mem_cons.1 hs with rfl | hs
    · linarith
    · exact ih (fun s hs => h s (List.mem_cons_of_mem _ hs)) (by linarith) s hs

theorem gibbs_term (q p : ℝ) (hq : 0 ≤ q) (hp : 0 < p) :
    0 ≤ q * Real.log q - q * Real.log p - q + p ∧
      (q * Real.log q - q * Real.log p - q + p = 0 → q = p) := by
  rcases hq.eq_or_lt with rfl | hq
  · refine ⟨by simp [hp.le], fun h => ?_⟩
    simp at h
    exact absurd h hp.ne'
  · have e : q * Real.log q - q * Real.log p - q + p = q * (p / q - 1 - Real.log (p / q)) := by
      rw [Real.log_div hp.ne' hq.ne']
      field_simp
      ring
    rw [e]
    have hpos : 0 < p / q := div_pos hp hq
    constructor
    · exact mul_nonneg hq.le (by linarith [Real.log_le_sub_one_of_pos hpos])
    · intro h
      rcases mul_eq_zero.1 h with h | h
      · exact absurd h hq.ne'
      · by_contra hne
        have : p / q ≠ 1 := by
          intro h1
          rw [div_eq_one_iff_eq hq.ne'] at h1
          exact hne h1.symm
        have := Real.log_lt_sub_one_of_pos hpos this
        linarith

theorem log_boltzmann (S : List α) (E : α → ℝ) (hS : S ≠ []) (s : α) :
    Real.log (boltzmann S E s) = -E s - Real.log (partition S E) := by
  unfold boltzmann
  rw [Real.log_div (Real.exp_pos _).ne' (partition_pos S E hS).ne', Real.log_exp]

theorem isDist_boltzmann (S : List α) (E : α → ℝ) (hS : S ≠ []) : IsDist S (boltzmann S E) :=
  ⟨fun s _ => (boltzmann_pos S E hS s).le, sum_boltzmann S E hS⟩

theorem expect_eq_mean (S : List α) (E f : α → ℝ) : expect S E f = mean S (boltzmann S E) f := rfl

theorem mean_sub (S : List α) (q f g : α → ℝ) : mean S q (fun s => f s - g s) = mean S q f - mean S q g := by
  unfold mean
  rw [← list_sum_sub]
  congr 1
  exact List.map_congr_left fun s _ => by ring

theorem mean_const (S : List α) (q : α → ℝ) (hq : (S.map q).sum = 1) (c : ℝ) :
    mean S q (fun _ => c) = c := by
  unfold mean
  rw [list_sum_mul_right, hq, one_mul]

/-- Cross entropy against a Boltzmann distribution is the mean energy plus the log partition
function. -/
theorem cross_entropy (S : List α) (E q : α → ℝ) (hS : S ≠ []) (hq : (S.map q).sum = 1) :
    -(S.map fun s => q s * Real.log (boltzmann S E s)).sum = mean S q E + Real.log (partition S E) := by
  have : (S.map fun s => q s * Real.log (boltzmann S E s)).sum =
      mean S q (fun s => -Real.log (partition S E) - E s) := by
    unfold mean
    congr 1
    refine List.map_congr_left fun s _ => ?_
    rw [log_boltzmann S E hS]; ring
  rw [this, mean_sub, mean_const S q hq]
  ring

theorem entropy_boltzmann (S : List α) (E : α → ℝ) (hS : S ≠ []) :
    entropy S (boltzmann S E) = expect S E E + Real.log (partition S E) :=
  cross_entropy S E _ hS (sum_boltzmann S E hS)

/-- The Boltzmann distribution maximises the entropy among distributions with its mean energy. -/
theorem gibbs (S : List α) (E q : α → ℝ) (hS : S ≠ []) (hq : IsDist S q)
    (hE : mean S q E = expect S E E) :
    entropy S q ≤ entropy S (boltzmann S E) ∧
      (entropy S q = entropy S (boltzmann S E) → ∀ s ∈ S, q s = boltzmann S E s) := by
  obtain ⟨p, hp⟩ : ∃ p, p = boltzmann S E := ⟨_, rfl⟩
  have hkl : (S.map fun s => q s * Real.log (q s) - q s * Real.log (p s) - q s + p s).sum =
      entropy S p - entropy S q := by
    have h1 : entropy S p = -(S.map fun s => q s * Real.log (p s)).sum := by
      rw [hp, cross_entropy S E q hS hq.2, hE, entropy_boltzmann S E hS]
    rw [h1]
    unfold entropy
    have h2 : (S.map fun s => q s * Real.log (q s) - q s * Real.log (p s) - q s + p s).sum =
        (S.map fun s => q s * Real.log (q s)).sum - (S.map fun s => q s * Real.log (p s)).sum -
          (S.map q).sum + (S.map p).sum := by
      rw [← list_sum_sub, ← list_sum_sub, ← list_sum_add]
    rw [h2, hq.2, hp, sum_boltzmann S E hS]
    ring
  rw [← hp]
  have hpos : ∀ s, 0 < p s := fun s => hp ▸ boltzmann_pos S E hS s
  have hterm : ∀ s ∈ S, 0 ≤ q s * Real.log (q s) - q s * Real.log (p s) - q s + p s := fun s hs =>
    (gibbs_term (q s) (p s) (hq.1 s hs) (hpos s)).1
  constructor
  · have : 0 ≤ entropy S p - entropy S q := by
      rw [← hkl]
      exact List.sum_nonneg (by
        intro x hx
        obtain ⟨s, hs, rfl⟩ := List.mem_map.1 hx
        exact hterm s hs)
    linarith
  · intro heq
    have := eq_of_sum_zero S _ hterm (by rw [hkl, heq, sub_self])
    intro s hs
    exact (gibbs_term (q s) (p s) (hq.1 s hs) (hpos s)).2 (this s hs)

/-- Two Boltzmann distributions with the same averages of the energy difference are the same, and
their energies differ by a constant. -/
theorem boltzmann_unique (S : List α) (E E' : α → ℝ) (hS : S ≠ [])
    (h : expect S E (fun s => E' s - E s) = expect S E' (fun s => E' s - E s)) :
    (∀ s ∈ S, boltzmann S E s = boltzmann S E' s) ∧ ∃ c, ∀ s ∈ S, E s = E' s + c := by
  obtain ⟨p, hp⟩ : ∃ p, p = boltzmann S E := ⟨_, rfl⟩
  obtain ⟨p', hp'⟩ : ∃ p, p = boltzmann S E' := ⟨_, rfl⟩
  have hpos : ∀ s, 0 < p s := fun s => hp ▸ boltzmann_pos S E hS s
  have hpos' : ∀ s, 0 < p' s := fun s => hp' ▸ boltzmann_pos S E' hS s
  have key : (S.map fun s => (p s - p' s) * (Real.log (p s) - Real.log (p' s))).sum = 0 := by
    have e : ∀ s, (p s - p' s) * (Real.log (p s) - Real.log (p' s)) =
        (p s * (E' s - E s) - p' s * (E' s - E s)) +
          (p s - p' s) * (Real.log (partition S E') - Real.log (partition S E)) := by
      intro s
      rw [hp, hp', log_boltzmann S E hS, log_boltzmann S E' hS]
      ring
    simp only [e]
    rw [list_sum_add, list_sum_mul_right, list_sum_sub, list_sum_sub]
    have h1 : (S.map fun s => p s * (E' s - E s)).sum = (S.map fun s => p' s * (E' s - E s)).sum := by
      rw [hp, hp']; exact h
    rw [h1, show (S.map fun s => p s) = S.map p from rfl, show (S.map fun s => p' s) = S.map p' from rfl,
      hp, hp', sum_boltzmann S E hS, sum_boltzmann S E' hS]
    ring
  have hterm : ∀ s ∈ S, 0 ≤ (p s - p' s) * (Real.log (p s) - Real.log (p' s)) := by
    intro s _
    rcases le_total (p s) (p' s) with hle | hle
    · exact mul_nonneg_of_nonpos_of_nonpos (by linarith)
        (by linarith [Real.log_le_log (hpos s) hle])
    · exact mul_nonneg (by linarith) (by linarith [Real.log_le_log (hpos' s) hle])
  have hz := eq_of_sum_zero S _ hterm key
  have heq : ∀ s ∈ S, p s = p' s := by
    intro s hs
    rcases mul_eq_zero.1 (hz s hs) with h1 | h1
    · linarith
    · exact Real.log_injOn_pos (hpos s) (hpos' s) (by linarith)
  rw [hp, hp'] at heq
  refine ⟨heq, Real.log (partition S E') - Real.log (partition S E), fun s hs => ?_⟩
  have := congrArg Real.log (heq s hs)
  rw [log_boltzmann S E hS, log_boltzmann S E' hS] at this
  linarith

/-! ### Energies that are linear in the parameters -/

theorem dot_append_append {K : Type*} [CommRing K] (a b c d : List K) (h : a.length = c.length) :
    dot (a ++ b) (c ++ d) = dot a c + dot b d := by
  unfold dot
  rw [List.zipWith_append h, List.sum_append]

theorem groupE_flatten {K : Type*} [CommRing K] (groups : List Group) (P : List (List K))
    (hfit : ParamsFit groups P) (x : ℕ → K) :
    groupE groups P x = -dot P.flatten ((groups.flatMap fun g => g.2).map (mono x)) := by
  unfold groupE
  congr 1
  unfold ParamsFit at hfit
  induction groups generalizing P with
  | nil =>
    have : P = [] := by simpa using hfit
    subst this; rfl
  | cons g groups ih =>
    rcases P with _ | ⟨p, P⟩
    · simp at hfit
    · simp only [List.map_cons, List.cons.injEq] at hfit
      rw [List.zipWith_cons_cons, List.sum_cons, ih P hfit.2, List.flatten_cons, List.flatMap_cons,
        List.map_append, dot_append_append _ _ _ _ (by rw [hfit.1, List.length_map])]

theorem mean_dot {β : Type*} (S : List α) (q : α → ℝ) (θ : List ℝ) (O : List β) (f : β → α → ℝ) :
    mean S q (fun s => dot θ (O.map fun t => f t s)) = dot θ (O.map fun t => mean S q (f t)) := by
  induction θ generalizing O with
  | nil => simp [dot, mean]
  | cons a θ ih =>
    rcases O with _ | ⟨o, O⟩
    · simp [dot, mean]
    · have := ih O
      unfold dot mean at *
      simp only [List.map_cons, List.zipWith_cons_cons, List.sum_cons, mul_add]
      rw [list_sum_add, this]
      congr 1
      rw [← list_sum_mul_left]
      congr 1
      exact List.map_congr_left fun s _ => by ring

theorem mean_neg (S : List α) (q f : α → ℝ) : mean S q (fun s => -f s) = -mean S q f := by
  unfold mean
  rw [← list_sum_neg]
  congr 1
  exact List.map_congr_left fun s _ => by ring

/-- Two members of an exponential family such that for each index the parameters or the moments agree
have the same distribution. -/
theorem family_unique {β : Type*} (S : List α) (hS : S ≠ []) (O : List β) (f : β → α → ℝ)
    (θ θ' : List ℝ) (hθ : θ.length = O.length) (hθ' : θ'.length = O.length)
    (E E' : α → ℝ) (hE : ∀ s ∈ S, E s = -dot θ (O.map fun t => f t s))
    (hE' : ∀ s ∈ S, E' s = -dot θ' (O.map fun t => f t s))
    (h : ∀ i (hi : i < O.length), θ[i]'(hθ ▸ hi) = θ'[i]'(hθ' ▸ hi) ∨
      expect S E (f O[i]) = expect S E' (f O[i])) :
    (∀ s ∈ S, boltzmann S E s = boltzmann S E' s) ∧ ∃ c, ∀ s ∈ S, E s = E' s + c := by
  apply boltzmann_unique S E E' hS
  obtain ⟨δ, hδ⟩ : ∃ δ, δ = List.zipWith (· - ·) θ θ' := ⟨_, rfl⟩
  have hd : ∀ F : α → ℝ, expect S F (fun s => E' s - E s) =
      dot δ (O.map fun t => expect S F (f t)) := by
    intro F
    rw [expect_congr S F F (fun s => E' s - E s) (fun s => dot δ (O.map fun t => f t s))
      (fun _ _ => rfl)]
    · rw [expect_eq_mean, mean_dot]; rfl
    · intro s hs
      rw [hE s hs, hE' s hs, hδ, dot_sub_left _ _ _ (hθ.trans hθ'.symm)]
      ring
  rw [hd, hd]
  unfold dot
  congr 1
  apply List.ext_getElem
  · simp
  · intro i h1 h2
    simp only [List.getElem_zipWith, List.getElem_map, hδ]
    have hi : i < O.length := by
      simp only [List.length_zipWith, List.length_map] at h1
      omega
    rcases h i hi with h3 | h3
    · rw [h3]; ring
    · rw [h3]

/-! ### Identifiability -/

theorem polyE_congr (n : ℕ) (P : List (List ℝ)) (x y : ℕ → ℝ) (h : ∀ i < n, x i = y i) :
    polyE n P x = polyE n P y := by
  rw [← groupE_allOrders, ← groupE_allOrders]
  exact groupE_congr n _ (goodGroups_allOrders n P.length) P x y h

/-- The parameters are determined by the energies of all states up to a constant, in both bases. -/
theorem poly_unique_words (n : ℕ) (sym : Bool) (P Q : List (List ℝ)) (hl : P.length = Q.length)
    (hP : PolyShape n P) (hQ : PolyShape n Q) (c : ℝ)
    (h : ∀ s ∈ words (spinValues sym) n, polyE n P (spins s) = polyE n Q (spins s) + c) : P = Q := by
  have hx : ∀ x : ℕ → ℝ, (∀ i, x i = 0 ∨ x i = 1) → ∃ s ∈ words (spinValues sym) n, ∀ i < n,
      (spins s i : ℝ) = if sym then 2 * x i - 1 else x i := by
    intro x hx
    classical
    refine ⟨(List.range n).map fun i => if sym then (if x i = 1 then 1 else -1) else
      (if x i = 1 then 1 else 0), mem_words.2 ⟨by simp, ?_⟩, ?_⟩
    · intro v hv
      obtain ⟨i, -, rfl⟩ := List.mem_map.1 hv
      cases sym
      · by_cases h1 : x i = 1 <;> simp [spinValues, h1]
      · by_cases h1 : x i = 1 <;> simp [spinValues, h1]
    · intro i hi
      unfold spins
      rw [getD_map_range n _ _ hi]
      cases sym
      · rcases hx i with h1 | h1 <;> simp [h1]
      · rcases hx i with h1 | h1 <;> norm_num [h1]
  cases sym with
  | false =>
    refine poly_unique n P Q hl hP hQ c fun x hx01 => ?_
    obtain ⟨s, hs, hsx⟩ := hx x hx01
    have := h s hs
    rwa [polyE_congr n P (spins s) x (by simpa using hsx),
      polyE_congr n Q (spins s) x (by simpa using hsx)] at this
  | true =>
    rcases P with _ | ⟨p, P⟩
    · exact (List.length_eq_zero_iff.1 (by simpa using hl.symm)).symm
    rcases Q with _ | ⟨q, Q⟩
    · simp at hl
    have hp : p.length = n := by
      have := hP 0 (by simp)
      simpa [tuples_one] using this
    have hq : q.length = n := by
      have := hQ 0 (by simp)
      simpa [tuples_one] using this
    obtain ⟨P', e1, e2⟩ := Props.C14_01_then_11 n p P hp hP
    obtain ⟨Q', f1, f2⟩ := Props.C14_01_then_11 n q Q hq hQ
    obtain ⟨P1, a1, a2, a3, c1, a4⟩ := Props.C13_to01_energy n p P hp hP
    obtain ⟨Q1, b1, b2, b3, c2, b4⟩ := Props.C13_to01_energy n q Q hq hQ
    have hP1 : P1 = P' := by rw [a1] at e1; exact Except.ok.inj e1
    have hQ1 : Q1 = Q' := by rw [b1] at f1; exact Except.ok.inj f1
    subst hP1 hQ1
    have : P1 = Q1 := by
      refine poly_unique n P1 Q1 (by rw [a2, b2, hl]) a3 b3 (c + c1 - c2) fun x hx01 => ?_
      obtain ⟨s, hs, hsx⟩ := hx x hx01
      have := h s hs
      rw [polyE_congr n (p :: P) (spins s) (fun i => 2 * x i - 1) (by simpa using hsx),
        polyE_congr n (q :: Q) (spins s) (fun i => 2 * x i - 1) (by simpa using hsx)] at this
      rw [a4, b4, this]
      ring
    subst this
    rw [e2] at f2
    exact Except.ok.inj f2

end Verif.Lemmas
