/-
C130: what `MCH` does when model and observables do not belong to each other, for example when `calc_observables` is forgotten
for a triplet or a Potts model.
-/
import Verif.Props.MchUser

namespace Verif.Props
open Verif Verif.Model Verif.Spec Verif.Lemmas

theorem setupSampler_theta {mc : Machine} {o o' : ModelObj} {method : List Char} {size : ℕ} {boost : Bool}
    (h : o.setupSampler mc method size boost = .ok o') :
    ∃ s, o'.sampler = some s ∧ s.theta = o.multipliers ∧ o'.sampleMethod = chars! "metropolis" := by
  unfold ModelObj.setupSampler at h
  split at h
  · rename_i hm
    cases hs : samplerInit mc o.kind o.n o.multipliers o.rng boost with
    | error e => rw [hs] at h; cases h
    | ok s =>
      rw [hs] at h
      cases h
      refine ⟨s, rfl, ?_, hm⟩
      unfold samplerInit at hs
      split at hs
      · cases hs; rfl
      · cases hs; rfl
      · split at hs
        · cases hs
        · cases hs; rfl
  · cases h

/-- C130: if the number of constraints is not the number of parameters of the model, `solve` raises an AssertionError before
any random number is drawn, whatever its arguments are: no parameters are returned. -/
theorem C130_wrong_number (mc : Machine) (arg : SolverArg) (o : ModelObj) (obs : ObsArg) (size : ℕ) (approx : ApproxArg)
    (boost : Bool) (rng : ℕ) (m : MchUser) (h : mchInitUser mc arg (some o) obs size approx boost rng = .ok m)
    (hn : m.n ≠ none) (a : MchArgs) (c : List ℝ) (hc : a.constraints.or m.constraints = some c)
    (hl : c.length ≠ o.multipliers.length) : mchSolveU mc m a = .fail .assertion := by
  have hset : ∃ s, m.model.sampler = some s ∧ s.theta = o.multipliers ∧ m.model.sampleMethod = chars! "metropolis" := by
    unfold mchInitUser at h
    split at h
    · cases h
    · cases hb : basicSetupObs mc arg (some o) obs rng with
      | error e => rw [hb] at h; cases h
      | ok s =>
        rw [hb] at h
        dsimp only at h
        have hs : s.model = some o := by
          unfold basicSetupObs at hb
          cases arg with
          | nothing => cases hb; rfl
          | size z =>
            dsimp only [solverModel] at hb
            split at hb
            · cases hb
            · cases hb; rfl
          | data n X =>
            dsimp only [solverModel] at hb
            cases hm : obs.means n X with
            | error e => rw [hm] at hb; cases hb
            | ok v => rw [hm] at hb; cases hb; rfl
        rw [hs] at h
        dsimp only at h
        cases ho : o.setupSampler mc (chars! "metropolis") size boost with
        | error e => rw [ho] at h; cases h
        | ok o' =>
          rw [ho] at h
          cases h
          exact setupSampler_theta ho
  obtain ⟨s, h1, h2, h3⟩ := hset
  obtain ⟨k, hk⟩ := Option.ne_none_iff_exists'.1 hn
  unfold mchSolveU
  rw [hk]
  dsimp only
  rw [hc]
  dsimp only
  split
  · rfl
  · rename_i hx
    have hx' : (a.guess.getD (List.replicate c.length 0)).length = c.length := not_not.1 hx
    unfold mchRunU
    split
    · rfl
    · have hd : ∀ sz, mchDraw mc a.nIters a.burnIn sz (a.guess.getD (List.replicate c.length 0)) m.model = .fail .assertion := by
        intro sz
        unfold mchDraw ModelObj.generateSample
        dsimp only
        rw [h1]
        dsimp only [methodOr]
        refine (if_pos h3).trans ?_
        rw [Option.getD_some, SamplerObj.updateParameters, if_pos (by rw [h2, hx']; exact Ne.symm hl)]
        rfl
      rw [hd]
      rfl

/-- C130: the three classes of models have different numbers of parameters, except that for one or two spins there are no
triplets, and that a triplet model and a Potts model of five spins both have 25. -/
theorem C130_numbers (n : ℕ) (hn : 1 ≤ n) :
    (paramCount .ising n = paramCount .triplet n ↔ n ≤ 2) ∧ paramCount .ising n ≠ paramCount .potts3 n ∧
      (paramCount .triplet n = paramCount .potts3 n ↔ n = 5) := by
  refine ⟨?_, ?_, ?_⟩
  · simp only [paramCount]
    constructor
    · intro h
      have h3 : n.choose 3 = 0 := by omega
      have := Nat.choose_eq_zero_iff.1 h3
      omega
    · intro h
      rw [Nat.choose_eq_zero_of_lt (by omega : n < 3), Nat.add_zero]
  · simp only [paramCount]
    omega
  · simp only [paramCount]
    constructor
    · intro h
      have h3 : n.choose 3 = 2 * n := by omega
      obtain ⟨k, rfl⟩ : ∃ k, n = k + 2 := by
        refine ⟨n - 2, ?_⟩
        have : 3 ≤ n := by
          by_contra hlt
          rw [Nat.choose_eq_zero_of_lt (by omega)] at h3
          omega
        omega
      have d := Nat.descFactorial_eq_factorial_mul_choose (k + 2) 3
      rw [h3] at d
      simp [Nat.descFactorial, Nat.factorial] at d
      have : (k + 1) * k = 12 := by
        have hp : 0 < k + 2 := by omega
        nlinarith
      have hk : k = 3 := by
        have : k ≤ 3 := by nlinarith
        interval_cases k <;> omega
      omega
    · rintro rfl
      decide

theorem means_length (k : ModelKind) (n : ℕ) (X : Data) (c : List ℝ) (h : (kindObsArg k).means n X = .ok c) :
    c.length = paramCount k n := by
  cases k with
  | ising =>
    unfold kindObsArg ObsArg.means sampleConstraints at h
    dsimp only at h
    split at h
    · cases h
    · split at h
      · cases h
      · cases h
        rw [List.length_map, List.length_range]
        rfl
  | triplet =>
    unfold kindObsArg ObsArg.means at h
    dsimp only at h
    split at h
    · cases h
    · split at h
      · cases h
      · cases h
        rw [List.length_map, List.length_range, ← tripletCount]
  | potts3 =>
    unfold kindObsArg ObsArg.means at h
    dsimp only at h
    split at h
    · cases h
    · split at h
      · cases h
      · cases h
        rw [List.length_map, List.length_range, Nat.mul_comm n 3]
        rfl

/-- C130: observables of another class than the model: if the numbers differ, as they do except in the cases of `C130_numbers`,
the object can be made from data, but `solve` raises an AssertionError for all arguments (without `constraints`). -/
theorem C130_other_class (mc : Machine) (k k' : ModelKind) (n : ℕ) (X : Data) (o : ModelObj)
    (hl : o.multipliers.length = paramCount k n) (hk : paramCount k n ≠ paramCount k' n) (size : ℕ) (approx : ApproxArg)
    (boost : Bool) (rng : ℕ) (m : MchUser)
    (h : mchInitUser mc (.data n X) (some o) (kindObsArg k') size approx boost rng = .ok m) (a : MchArgs)
    (hc : a.constraints = none) : mchSolveU mc m a = .fail .assertion := by
  have hm : m.n = some n ∧ ∃ c, m.constraints = some c ∧ c.length = paramCount k' n := by
    have h' := h
    unfold mchInitUser at h'
    split at h'
    · cases h'
    · unfold basicSetupObs solverModel at h'
      dsimp only at h'
      cases hm : (kindObsArg k').means n X with
      | error e => rw [hm] at h'; cases h'
      | ok v =>
        rw [hm] at h'
        dsimp only at h'
        cases ho : o.setupSampler mc (chars! "metropolis") size boost with
        | error e => rw [ho] at h'; cases h'
        | ok o' =>
          rw [ho] at h'
          cases h'
          exact ⟨rfl, v, rfl, means_length k' n X v hm⟩
  obtain ⟨h1, c, h2, h3⟩ := hm
  exact C130_wrong_number mc _ o _ size approx boost rng m h (by rw [h1]; simp) a c (by rw [hc, h2]; rfl)
    (by rw [h3, hl]; exact Ne.symm hk)

/-- `calc_observables` forgotten for a triplet model of three spins: the object is made, and `solve` raises. -/
example (mc : Machine) (x : IsingArg ℝ) (o : ModelObj) (ho : Reached mc .triplet x o) (hl : o.multipliers.length = 7)
    (a : MchArgs) (hc : a.constraints = none) :
    ∃ m, mchInitUser mc (.data 3 [[1, -1, 1], [1, 1, 1]]) (some o) .ising 10 none true 0 = .ok m ∧
      mchSolveU mc m a = .fail .assertion := by
  obtain ⟨-, o₀, -, hi⟩ := reached_inv ho
  obtain ⟨c, h1, -, -⟩ := Kind.obs_eq .ising 3 [[1, -1, 1], [1, 1, 1]] (by simp) (by decide)
  have h : ∃ m, mchInitUser mc (.data 3 [[1, -1, 1], [1, 1, 1]]) (some o) .ising 10 none true 0 = .ok m := by
    unfold mchInitUser basicSetupObs solverModel
    rw [if_neg (by simp)]
    dsimp only
    rw [show ObsArg.ising = kindObsArg .ising from rfl, h1]
    dsimp only
    unfold ModelObj.setupSampler
    rw [hi.kind]
    exact ⟨_, rfl⟩
  obtain ⟨m, hm⟩ := h
  exact ⟨m, hm, C130_other_class mc .triplet .ising 3 _ o hl (by decide) _ _ _ _ m hm a hc⟩

end Verif.Props
