/-
C133: how accurate the generated equations are in floating-point arithmetic.
-/
import Verif.Lemmas.FloatEnergy
import Verif.Props.FloatLse
import Verif.Lemmas.EnumerateObj
import Verif.Lemmas.EnumerateWrap

namespace Verif.Props
open Verif Verif.Model Verif.Spec Verif.Lemmas FlArith

theorem prod_spin (s : List ℤ) (hs : ∀ v ∈ s, v = -1 ∨ v = 0 ∨ v = 1) (t : List ℕ) :
    (t.map fun i => s.getD i 0).prod = 0 ∨ (t.map fun i => s.getD i 0).prod = 1 ∨ (t.map fun i => s.getD i 0).prod = -1 := by
  induction t with
  | nil => simp
  | cons i t ih =>
    rw [List.map_cons, List.prod_cons]
    have : s.getD i 0 = -1 ∨ s.getD i 0 = 0 ∨ s.getD i 0 = 1 := by
      by_cases hi : i < s.length
      · rw [List.getD_eq_getElem _ _ hi]; exact hs _ (List.getElem_mem hi)
      · rw [List.getD_eq_default _ _ (by omega)]; simp
    rcases this with h | h | h <;> rcases ih with g | g | g <;> rw [h, g] <;> simp

theorem mono_cast (s : List ℤ) (t : List ℕ) : mono (spins s : ℕ → ℝ) t = (((t.map fun i => s.getD i 0).prod : ℤ) : ℝ) := by
  induction t with
  | nil => simp [mono]
  | cons i t ih =>
    rw [List.map_cons, List.prod_cons, Int.cast_mul, ← ih]
    simp [mono, spins]

theorem energyR_zip (g : List ℤ) (par : List ℝ) : energyR (g.zip par) = dot par (g.map Int.cast) := by
  induction g generalizing par with
  | nil => cases par <;> simp [energyR, dot]
  | cons z g ih =>
    cases par with
    | nil => simp [energyR, dot]
    | cons v par =>
      have := ih par
      simp only [energyR, dot, List.zip_cons_cons, List.map_cons, List.sum_cons, List.zipWith_cons_cons] at this ⊢
      rw [this, mul_comm]

namespace Moderate
variable {A : FlArith} {ε b : ℝ} {T : List (List ℕ)} {par : List ℝ} {states : List (List ℤ)} (H : Moderate A ε T par states b)
include H

theorem scale : 0 ≤ errScale states.length (2 * par.length * b + 1) ∧ 0 ≤ (par.length : ℝ) * b ∧
    ε * par.length ≤ 1 / 32 ∧ 4 * (ε * errScale states.length (2 * par.length * b + 1)) ≤ 1 ∧
    par.length * (ε * (2 * par.length * b + 2)) ≤ 1 / 16 := by
  have h1 : (0 : ℝ) ≤ par.length := Nat.cast_nonneg _
  have h2 := mul_nonneg h1 H.nonneg
  have h3 := H.small
  have h4 := H.acc.nonneg
  have h5 : 0 ≤ errScale states.length (2 * par.length * b + 1) := by
    unfold errScale
    have : (0 : ℝ) ≤ states.length := Nat.cast_nonneg _
    nlinarith
  have h6 : ε * moduleScale states.length par.length b = ε * errScale states.length (2 * par.length * b + 1) +
      4 * (par.length * (ε * (2 * par.length * b + 2))) := by unfold moduleScale; ring
  have h7 : 0 ≤ par.length * (ε * (2 * par.length * b + 2)) := mul_nonneg h1 (mul_nonneg h4 (by linarith))
  have h8 : 0 ≤ ε * errScale states.length (2 * par.length * b + 1) := mul_nonneg h4 h5
  have h9 : par.length * (ε * (2 * par.length * b + 2)) = 2 * (ε * par.length) + 2 * ((ε * par.length) * (par.length * b)) := by ring
  have h10 : 0 ≤ (ε * par.length) * (par.length * b) := mul_nonneg (mul_nonneg h4 h1) h2
  refine ⟨h5, h2, by linarith, by linarith, by linarith⟩

/-- The energies that are computed. -/
theorem energies : ∃ x : List ℝ, energiesFl A T (par.map .num) states = x.map .num ∧
    Energies A ε (2 * par.length * b + 1) x ∧ x.length = states.length ∧
    List.Forall₂ (fun a c => |a - c| ≤ par.length * (ε * (2 * par.length * b + 2))) x (states.map fun s => -linearE T par s) := by
  obtain ⟨h1, h2, h3, h4, h5⟩ := scale H
  have hb1 := IeeeK.big_ge_one H.ieee
  have hbig := H.big
  have key : ∀ s ∈ states, ∃ v, energyFl A (.num 0) ((T.map fun t => (t.map fun i => s.getD i 0).prod).zip (par.map .num)) = .num v ∧
      A.rd v = v ∧ |v - -linearE T par s| ≤ par.length * (ε * (2 * par.length * b + 2)) ∧ |v| ≤ 2 * par.length * b + 1 := by
    intro s hs
    have e1 : (T.map fun t => (t.map fun i => s.getD i 0).prod).zip (par.map .num) =
        ((T.map fun t => (t.map fun i => s.getD i 0).prod).zip par).map fun q => (q.1, Fl.num q.2) := by
      rw [List.zip_map_right]
      rfl
    rw [e1]
    obtain ⟨v, g1, g2, g3, g4⟩ := energyFl_acc H.ieee H.acc b H.nonneg par.length (by linarith) (by linarith)
      ((T.map fun t => (t.map fun i => s.getD i 0).prod).zip par) (fun q hq => by
        obtain ⟨a1, a2⟩ := List.of_mem_zip hq
        obtain ⟨t, -, a3⟩ := List.mem_map.1 a1
        rw [← a3]
        exact ⟨prod_spin s (H.spin s hs) t, (H.pars _ a2).2⟩) 0 (by simp [H.length]) 0 0 (by simp) (by simp)
      (IeeeK.rd_zero H.ieee)
    have e2 : energyR ((T.map fun t => (t.map fun i => s.getD i 0).prod).zip par) = -linearE T par s := by
      rw [energyR_zip, linearE, neg_neg, List.map_map]
      congr 1
      exact List.map_congr_left fun t _ => (mono_cast s t).symm
    rw [zero_add, e2] at g3 g4
    refine ⟨v, g1, g2, g3, ?_⟩
    have := abs_sub_abs_le_abs_sub v (-linearE T par s)
    linarith
  obtain ⟨f, hf⟩ : ∃ f : List ℤ → ℝ, ∀ s ∈ states, energyFl A (.num 0)
      ((T.map fun t => (t.map fun i => s.getD i 0).prod).zip (par.map .num)) = .num (f s) ∧
      A.rd (f s) = f s ∧ |f s - -linearE T par s| ≤ par.length * (ε * (2 * par.length * b + 2)) ∧
      |f s| ≤ 2 * par.length * b + 1 := by
    classical
    refine ⟨fun s => if hs : s ∈ states then Classical.choose (key s hs) else 0, fun s hs => ?_⟩
    dsimp only
    rw [dif_pos hs]
    exact Classical.choose_spec (key s hs)
  refine ⟨states.map f, ?_, ⟨H.ieee, H.acc, ?_, ?_, H.big, by simpa using H.ne, by simpa using H.len, by simpa using h4⟩,
    by simp, ?_⟩
  · rw [energiesFl, List.map_map]
    exact List.map_congr_left fun s hs => (hf s hs).1
  · intro v hv
    obtain ⟨s, hs, rfl⟩ := List.mem_map.1 hv
    exact (hf s hs).2.1
  · intro v hv
    obtain ⟨s, hs, rfl⟩ := List.mem_map.1 hv
    exact (hf s hs).2.2.2
  · rw [List.forall₂_map_left_iff, List.forall₂_map_right_iff, List.forall₂_same]
    exact fun s hs => (hf s hs).2.2.1

end Moderate

/-- C133: `p(params)` of a generated module in floating-point arithmetic: every entry is a number that differs from the
Boltzmann probability of its state by at most the accuracy of the arithmetic times a number that is explicit in the number of
states, the number of parameters and the largest parameter, whatever the order of summation. -/
theorem C133_p (A : FlArith) (ε b : ℝ) (T : List (List ℕ)) (par : List ℝ) (states : List (List ℤ))
    (H : Moderate A ε T par states b) (t : SumTree) (ht : t.Adds states.length) :
    ∃ P : List ℝ, modulePFl A t (energiesFl A T (par.map .num) states) = .ok (P.map .num) ∧ P.length = states.length ∧
      ∀ i (hi : i < states.length), |P.getD i 0 - boltzmann states (linearE T par) states[i]| ≤
        ε * moduleScale states.length par.length b := by
  obtain ⟨h1, h2, h3, h4, h5⟩ := Moderate.scale H
  obtain ⟨x, e1, hE, hl, hc⟩ := Moderate.energies H
  obtain ⟨P, e2, e3, e4⟩ := hE.p t (by rw [hl]; exact ht)
  rw [e1, e2]
  refine ⟨P, rfl, e3.trans hl, fun i hi => ?_⟩
  have g1 := e4 i (by omega)
  have hix : i < x.length := by omega
  have hiy : i < (states.map fun s => -linearE T par s).length := by simpa using hi
  have hclose := hc.get hix hiy
  simp only [List.get_eq_getElem, List.getElem_map] at hclose
  have h0 : 0 ≤ (par.length : ℝ) * (ε * (2 * par.length * b + 2)) :=
    mul_nonneg (Nat.cast_nonneg _) (mul_nonneg H.acc.nonneg (by linarith))
  have g2 := ratio_close hE.ne h0 (by linarith) hc hclose
  have e5 : Real.exp (-linearE T par states[i]) / ((states.map fun s => -linearE T par s).map Real.exp).sum =
      boltzmann states (linearE T par) states[i] := by
    rw [boltzmann, partition, List.map_map]
    rfl
  rw [e5] at g2
  rw [softmax, List.getD_eq_getElem _ _ hix] at g1
  have g3 : boltzmann states (linearE T par) states[i] ≤ 1 := by
    rw [boltzmann, partition]
    have hp := sum_exp_pos (states.map fun s => -linearE T par s) (by simpa using H.ne)
    rw [List.map_map] at hp
    refine (div_le_one hp).2 ?_
    exact List.single_le_sum (fun y hy => by
      obtain ⟨v, -, rfl⟩ := List.mem_map.1 hy
      exact (Real.exp_pos _).le) _ (List.mem_map_of_mem (f := fun s => Real.exp (-linearE T par s)) (List.getElem_mem hi))
  have g4 := mul_le_mul_of_nonneg_left g3 (by linarith : 0 ≤ 4 * ((par.length : ℝ) * (ε * (2 * par.length * b + 2))))
  have g5 : ε * moduleScale states.length par.length b = ε * errScale states.length (2 * par.length * b + 1) +
      4 * (par.length * (ε * (2 * par.length * b + 2))) := by unfold moduleScale; ring
  rw [hl] at g1
  rw [g5]
  have := abs_sub_le (P.getD i 0) (Real.exp x[i] / (x.map Real.exp).sum) (boltzmann states (linearE T par) states[i])
  linarith

theorem average_close {x y : List ℝ} (hx : x ≠ []) {δ : ℝ} (h0 : 0 ≤ δ) (h1 : δ ≤ 1 / 4)
    (hxy : List.Forall₂ (fun a b => |a - b| ≤ δ) x y) (c : List ℝ) (hc : ∀ k ∈ c, |k| ≤ 1) :
    |softAverage x c - softAverage y c| ≤ 4 * δ := by
  have hy : y ≠ [] := by
    rintro rfl
    cases hxy
    exact hx rfl
  have hY := sum_exp_pos y hy
  obtain ⟨X, hX⟩ : ∃ X, X = (x.map Real.exp).sum := ⟨_, rfl⟩
  obtain ⟨Y, hY'⟩ : ∃ Y, Y = (y.map Real.exp).sum := ⟨_, rfl⟩
  have key : ∀ (u v : List ℝ) (c : List ℝ), List.Forall₂ (fun a b => |a - b| ≤ δ) u v → (∀ k ∈ c, |k| ≤ 1) →
      |(List.zipWith (fun w k => Real.exp w * k) u c).sum / X - (List.zipWith (fun w k => Real.exp w * k) v c).sum / Y| ≤
        4 * δ * ((v.map Real.exp).sum / Y) := by
    intro u v c huv hc
    have hY0 : 0 < Y := by rw [hY']; exact hY
    induction huv generalizing c with
    | nil => simp
    | @cons a b u v hab huv ih =>
      cases c with
      | nil =>
        simp only [List.zipWith_nil_right, List.sum_nil, zero_div, sub_zero, abs_zero]
        exact mul_nonneg (by linarith) (div_nonneg (sum_exp_pos (b :: v) (by simp)).le hY0.le)
      | cons k c =>
        have g1 := ih c fun j hj => hc j (by simp [hj])
        have g2 := ratio_close hx h0 h1 hxy hab
        rw [← hX, ← hY'] at g2
        have g3 := hc k (by simp)
        rw [List.zipWith_cons_cons, List.zipWith_cons_cons, List.sum_cons, List.sum_cons, List.map_cons, List.sum_cons]
        have e : ∀ p q : ℝ, (Real.exp a * k + p) / X - (Real.exp b * k + q) / Y =
            (Real.exp a / X - Real.exp b / Y) * k + (p / X - q / Y) := fun p q => by ring
        rw [e]
        refine (abs_add_le _ _).trans ?_
        rw [abs_mul]
        have g4 : |Real.exp a / X - Real.exp b / Y| * |k| ≤ |Real.exp a / X - Real.exp b / Y| * 1 :=
          mul_le_mul_of_nonneg_left g3 (abs_nonneg _)
        have e2 : 4 * δ * ((Real.exp b + (v.map Real.exp).sum) / Y) =
          4 * δ * (Real.exp b / Y) + 4 * δ * ((v.map Real.exp).sum / Y) := by ring
        rw [e2]
        linarith
  have := key x y c hxy hc
  rw [hX, hY', div_self hY.ne', mul_one] at this
  exact this

/-- C133: and so does every entry of `calc_observables(params)` from the expectation of the product of spins, with six times
that number, whatever the orders of summation. -/
theorem C133_observables (A : FlArith) (ε b : ℝ) (T : List (List ℕ)) (par : List ℝ) (states : List (List ℤ))
    (H : Moderate A ε T par states b) (t t' : SumTree) (ht : t.Adds states.length) (ht' : t'.Adds states.length) (sites : List ℕ) :
    ∃ v, moduleObsFl A t t' (energiesFl A T (par.map .num) states) (states.map fun s => .num (mono (spins s) sites)) =
        .ok (.num v) ∧
      |v - expect states (linearE T par) fun s => mono (spins s) sites| ≤ 6 * (ε * moduleScale states.length par.length b) := by
  obtain ⟨h1, h2, h3, h4, h5⟩ := Moderate.scale H
  obtain ⟨x, e1, hE, hl, hc⟩ := Moderate.energies H
  have hco : ∀ k ∈ states.map fun s => mono (spins s : ℕ → ℝ) sites, k = 0 ∨ k = 1 ∨ k = -1 := by
    intro k hk
    obtain ⟨s, hs, rfl⟩ := List.mem_map.1 hk
    rw [mono_cast]
    rcases prod_spin s (H.spin s hs) sites with h | h | h <;> rw [h] <;> simp
  have hck : ∀ k ∈ states.map fun s => mono (spins s : ℕ → ℝ) sites, |k| ≤ 1 := fun k hk => by
    rcases hco k hk with rfl | rfl | rfl <;> simp
  obtain ⟨v, e2, g1⟩ := hE.obs t t' (by rw [hl]; exact ht) (by rw [hl]; exact ht')
    (states.map fun s => mono (spins s) sites) hco (by simp [hl])
  rw [List.map_map] at e2
  rw [e1]
  refine ⟨v, e2, ?_⟩
  have h0 : 0 ≤ (par.length : ℝ) * (ε * (2 * par.length * b + 2)) :=
    mul_nonneg (Nat.cast_nonneg _) (mul_nonneg H.acc.nonneg (by linarith))
  have g2 := average_close hE.ne h0 (by linarith) hc _ hck
  have e5 : softAverage (states.map fun s => -linearE T par s) (states.map fun s => mono (spins s) sites) =
      expect states (linearE T par) fun s => mono (spins s) sites := by
    rw [softAverage, expect, List.zipWith_map, List.zipWith_self, List.map_map]
    have : ((fun s => boltzmann states (linearE T par) s * mono (spins s) sites)) =
        fun s => (Real.exp (-linearE T par s) * mono (spins s) sites) * (partition states (linearE T par))⁻¹ := by
      funext s
      rw [boltzmann]
      ring
    rw [this, List.sum_map_mul_right, div_eq_mul_inv]
    rfl
  rw [e5] at g2
  rw [hl] at g1
  have g5 : ε * moduleScale states.length par.length b = ε * errScale states.length (2 * par.length * b + 1) +
      4 * (par.length * (ε * (2 * par.length * b + 2))) := by unfold moduleScale; ring
  rw [g5]
  have := abs_sub_le v (softAverage x (states.map fun s => mono (spins s) sites))
    (expect states (linearE T par) fun s => mono (spins s) sites)
  linarith

/-- The products of the pairwise model: single spins, then pairs. -/
def pairTerms (n : ℕ) : List (List ℕ) := (List.range n).map (fun i => [i]) ++ (upperPairs n).map fun p => [p.1, p.2]

theorem linearE_pairTerms (n : ℕ) (h J : List ℝ) (hh : h.length = n) (hJ : J.length = n * (n - 1) / 2) :
    linearE (pairTerms n) (h ++ J) = fun s => isingVecE n h J (spins s) := by
  funext s
  have h1 := pairE_dot n (h ++ J) (by rw [List.length_append, hh, hJ]) s
  rw [pairE, List.take_left' hh, List.drop_left' hh] at h1
  rw [h1, linearE, pairTerms, List.map_append, List.map_map, List.map_map]
  simp [Function.comp_def, mono, pairObs]

/-- C133: the modules for pairwise models of up to nine spins, as shipped in coniii/ising_eqn, in double precision: for fields and
couplings not larger than 10, the probabilities and the correlations that the module computes differ by less than `10 ^ (-9)` from
those it would compute without rounding (which are right by C28 and C29). -/
theorem C133_shipped (A : FlArith) (hA : Ieee A) (hε : Accurate A ((2 : ℝ)⁻¹ ^ 52)) (n : ℕ) (hn : 1 ≤ n) (h9 : n ≤ 9) (sym : Bool)
    (h J : List ℝ) (hh : h.length = n) (hJ : J.length = n * (n - 1) / 2) (hpar : ∀ v ∈ h ++ J, A.rd v = v ∧ |v| ≤ 10) :
    ∃ e, writeEqns n sym (pairwiseIx n) = .ok e ∧ ∃ p obs : List ℝ, moduleP e (h ++ J) = .ok p ∧
      (∀ brk, moduleObservables brk e (h ++ J) = .ok obs) ∧
      ∀ t, t.Adds (2 ^ n) →
        (∃ P : List ℝ, modulePFl A t (energiesFl A (pairTerms n) ((h ++ J).map .num) (words (spinValues sym) n)) =
            .ok (P.map .num) ∧ P.length = 2 ^ n ∧ ∀ i < 2 ^ n, |P.getD i 0 - p.getD i 0| ≤ 10⁻¹ ^ 9) ∧
        ∀ t', t'.Adds (2 ^ n) → ∀ k < n + n * (n - 1) / 2,
          ∃ v, moduleObsFl A t t' (energiesFl A (pairTerms n) ((h ++ J).map .num) (words (spinValues sym) n))
              ((words (spinValues sym) n).map fun s => .num (mono (spins s) ((pairTerms n).getD k []))) = .ok (.num v) ∧
            |v - obs.getD k 0| ≤ 10⁻¹ ^ 9 := by
  obtain ⟨e, h1, h2⟩ := pairwise_module n hn sym
  obtain ⟨hp, ho⟩ := h2 h J hh hJ
  have hlen : (words (spinValues sym) n).length = 2 ^ n := by rw [length_words]; cases sym <;> rfl
  have hK : (h ++ J).length = n + n * (n - 1) / 2 := by rw [List.length_append, hh, hJ]
  have hTl : (pairTerms n).length = n + n * (n - 1) / 2 := by simp [pairTerms, length_upperPairs]
  have hK45 : ((h ++ J).length : ℝ) ≤ 45 := by
    have : (h ++ J).length ≤ 45 := by rw [hK]; interval_cases n <;> norm_num
    exact_mod_cast this
  have hS : ((words (spinValues sym) n).length : ℝ) ≤ 512 := by
    have : (words (spinValues sym) n).length ≤ 512 := by
      rw [hlen]
      exact (Nat.pow_le_pow_right (by norm_num) h9).trans (by norm_num)
    exact_mod_cast this
  have hK0 : (0 : ℝ) ≤ (h ++ J).length := Nat.cast_nonneg _
  have hS0 : (0 : ℝ) ≤ (words (spinValues sym) n).length := Nat.cast_nonneg _
  have hscale : moduleScale (words (spinValues sym) n).length (h ++ J).length 10 ≤ 430412 := by
    unfold moduleScale errScale
    nlinarith
  have hsm : (2 : ℝ)⁻¹ ^ 52 * moduleScale (words (spinValues sym) n).length (h ++ J).length 10 ≤ (2 : ℝ)⁻¹ ^ 52 * 430412 :=
    mul_le_mul_of_nonneg_left hscale (by positivity)
  have hb := hA.big
  have hM : Moderate A ((2 : ℝ)⁻¹ ^ 52) (pairTerms n) (h ++ J) (words (spinValues sym) n) 10 :=
    { ieee := hA
      acc := hε
      length := by rw [hK, hTl]
      pars := hpar
      nonneg := by norm_num
      big := by linarith
      ne := words_spinValues_ne sym n
      len := by
        rw [hlen]
        exact Nat.pow_le_pow_right (by norm_num) (by omega)
      spin := by
        intro s hs v hv
        have := (mem_words.1 hs).2 v hv
        cases sym
        · simp [spinValues] at this; omega
        · simp [spinValues] at this; omega
      small := by
        refine le_trans (mul_le_mul_of_nonneg_left hsm (by norm_num)) ?_
        norm_num }
  have hE := linearE_pairTerms n h J hh hJ
  refine ⟨e, h1, _, _, hp, ho, fun t ht => ⟨?_, fun t' ht' k hk => ?_⟩⟩
  · obtain ⟨P, g1, g2, g3⟩ := C133_p A _ 10 _ _ _ hM t (by rw [hlen]; exact ht)
    refine ⟨P, g1, g2.trans hlen, fun i hi => ?_⟩
    have hi' : i < (words (spinValues sym) n).length := by omega
    have := g3 i hi'
    rw [hE] at this
    rw [List.getD_eq_getElem (List.map _ _) _ (by simpa using hi'), List.getElem_map]
    refine this.trans (hsm.trans ?_)
    norm_num
  · obtain ⟨v, g1, g2⟩ := C133_observables A _ 10 _ _ _ hM t t' (by rw [hlen]; exact ht) (by rw [hlen]; exact ht')
      ((pairTerms n).getD k [])
    refine ⟨v, g1, ?_⟩
    rw [hE] at g2
    have e3 : ((List.range n).map (fun i => expect (words (spinValues sym) n)
              (fun s => isingVecE n h J (spins s)) fun s => spins s i) ++
            (upperPairs n).map fun q => expect (words (spinValues sym) n)
              (fun s => isingVecE n h J (spins s)) fun s => spins s q.1 * spins s q.2) =
        (pairTerms n).map fun t => expect (words (spinValues sym) n) (fun s => isingVecE n h J (spins s))
          fun s => mono (spins s) t := by
      rw [pairTerms, List.map_append, List.map_map, List.map_map]
      simp [Function.comp_def, mono]
    have hk' : k < (pairTerms n).length := by omega
    rw [e3, List.getD_eq_getElem (List.map _ _) _ (by simpa using hk'), List.getElem_map]
    rw [List.getD_eq_getElem _ _ hk'] at g2
    refine g2.trans ((mul_le_mul_of_nonneg_left hsm (by norm_num)).trans ?_)
    norm_num

/-- Cutting off is as accurate as its last place. -/
theorem cut_acc (x : ℝ) : |cut x - x| ≤ 1 / 4503599627370496 := by
  by_cases hx : 0 ≤ x
  · rw [cut, if_pos hx]
    have h1 := Int.floor_le (4503599627370496 * x)
    have h2 := Int.lt_floor_add_one (4503599627370496 * x)
    rw [abs_le]
    constructor <;> linarith
  · rw [cut, if_neg hx]
    have h1 := Int.floor_le (4503599627370496 * -x)
    have h2 := Int.lt_floor_add_one (4503599627370496 * -x)
    rw [abs_le]
    constructor <;> linarith

theorem cutArith_accurate : Accurate cutArith (1 / 4503599627370496) where
  nonneg := by norm_num
  rd x := by
    have := cut_acc x
    have h2 := abs_nonneg x
    show |cut x - x| ≤ _
    nlinarith
  exp x _ := by
    have := cut_acc (Real.exp x)
    have h2 := Real.exp_pos x
    show |cut (Real.exp x) - Real.exp x| ≤ _
    nlinarith
  log y _ := by
    have := cut_acc (Real.log y)
    have h2 := abs_nonneg (Real.log y)
    show |cut (Real.log y) - Real.log y| ≤ _
    nlinarith
  log_small y hy hr := by
    have h1 : cut y = y := hr
    rw [cut, if_pos hy.le] at h1
    have h2 : (1 : ℝ) / 4503599627370496 ≤ y := by
      have h3 : (0 : ℝ) < ⌊4503599627370496 * y⌋ := by
        by_contra h4
        have : (⌊4503599627370496 * y⌋ : ℝ) / 4503599627370496 ≤ 0 := div_nonpos_of_nonpos_of_nonneg (not_lt.1 h4) (by norm_num)
        linarith
      have h5 : (1 : ℤ) ≤ ⌊4503599627370496 * y⌋ := by
        have : (0 : ℤ) < ⌊4503599627370496 * y⌋ := by exact_mod_cast h3
        omega
      have h6 : (1 : ℝ) ≤ ⌊4503599627370496 * y⌋ := by exact_mod_cast h5
      rw [← h1]
      linarith
    have h7 := Real.one_sub_inv_le_log_of_pos hy
    have h8 : y⁻¹ ≤ 4503599627370496 := by
      rw [inv_le_comm₀ hy (by norm_num)]
      linarith
    show -((2 : ℝ) ^ 60 / 8) ≤ Real.log y
    linarith

/-- Non-vacuity of C133_p and C133_observables: two spins with fields 1 and 2 and coupling 3, numbers cut off after 52 binary
places. -/
example : Moderate cutArith (1 / 4503599627370496) (pairTerms 2) [1, 2, 3] (words [-1, 1] 2) 3 where
  ieee := cutArith_ieee
  acc := cutArith_accurate
  length := rfl
  pars v hv := by
    simp only [List.mem_cons, List.not_mem_nil, or_false] at hv
    rcases hv with rfl | rfl | rfl
    · exact ⟨by show cut 1 = 1; simpa using cut_nat 1, by norm_num⟩
    · exact ⟨by show cut 2 = 2; simpa using cut_nat 2, by norm_num⟩
    · exact ⟨by show cut 3 = 3; simpa using cut_nat 3, by norm_num⟩
  nonneg := by norm_num
  big := by
    show _ ≤ (2 : ℝ) ^ 60 / 8
    norm_num
  ne := by decide
  len := by decide
  spin := by decide
  small := by
    have : (words [(-1 : ℤ), 1] 2).length = 4 := rfl
    rw [this]
    norm_num [moduleScale, errScale]

/-- Non-vacuity of C133_shipped. -/
example : Ieee cutArith ∧ Accurate cutArith ((2 : ℝ)⁻¹ ^ 52) ∧ ∀ v ∈ [(1 : ℝ), 2] ++ [3], cutArith.rd v = v ∧ |v| ≤ 10 := by
  refine ⟨cutArith_ieee, ?_, fun v hv => ?_⟩
  · have := cutArith_accurate
    rwa [show (1 : ℝ) / 4503599627370496 = (2 : ℝ)⁻¹ ^ 52 by norm_num] at this
  · simp only [List.cons_append, List.nil_append, List.mem_cons, List.not_mem_nil, or_false] at hv
    rcases hv with rfl | rfl | rfl
    · exact ⟨by show cut 1 = 1; simpa using cut_nat 1, by norm_num⟩
    · exact ⟨by show cut 2 = 2; simpa using cut_nat 2, by norm_num⟩
    · exact ⟨by show cut 3 = 3; simpa using cut_nat 3, by norm_num⟩

end Verif.Props
