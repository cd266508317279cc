/-
C134: pseudolikelihood in floating-point arithmetic.
-/
import Verif.Lemmas.FloatPseudo
import Verif.Model.Pseudo
import Verif.Props.FloatAcc
import Mathlib.Analysis.Complex.ExponentialBounds

namespace Verif.Props
open Verif Verif.Model Verif.Spec Verif.Lemmas FlArith

/-- C134: `loglikelihood` and `dloglikelihood` of one spin as computed are close to their exact values, whatever the order in
which numpy adds, if `1 + exp(2 E)` stays in range for all energies that the parameters allow. `obs` are the observables of the
rows of the sample, `m` the parameters of the spin, not larger than `b`. -/
theorem C134_accuracy_partial (A : FlArith) (ε : ℝ) (h : Ieee A) (hε : Relative A ε) (n b : ℕ) (hnb : 2 * (b * n) ≤ 2 ^ 53)
    (obs : List (List ℝ)) (m : List ℝ) (hS : 1024 * obs.length ≤ 2 ^ 53)
    (ho : ∀ o ∈ obs, o.length = n ∧ ∀ v ∈ o, v = 0 ∨ v = 1 ∨ v = -1)
    (hm : m.length = n) (hmv : ∀ v ∈ m, A.rd v = v ∧ |v| ≤ b) (hr : ∀ x : ℝ, |x| ≤ 2 * (b * n) → InRange A x)
    (td : List Fl → SumTree) (htd : ∀ o, (td o).Adds n) (tl : SumTree) (htl : tl.Adds obs.length)
    (tg : ℕ → SumTree) (htg : ∀ a, (tg a).Adds obs.length) :
    ∃ (ll : ℝ) (d : List ℝ) (ll' : ℝ) (d' : List ℝ), isingCondTerm n obs m = .ok (ll, d) ∧
      isingCondTermFl A td tl tg n (obs.map (List.map .num)) (m.map .num) = .ok (.num ll', d'.map .num) ∧
      d.length = n ∧ d'.length = n ∧
      |ll' - ll| ≤ ε * (obs.length * (1024 * obs.length + 15 + 2 * (b * n) + 2 * ((b * n + 1) * n))) ∧
      ∀ a < n, |d'.getD a 0 - d.getD a 0| ≤ ε * (obs.length * (4 * obs.length + 19 + 4 * ((b * n + 1) * n))) := by
  have hdot : ∀ o : List ℝ, ∃ w, o ∈ obs → flDot A (td (o.map .num)) (o.map .num) (m.map .num) = .ok (.num w) ∧ A.rd w = w ∧
      |w| ≤ b * n ∧ |w - (List.zipWith (· * ·) o m).sum| ≤ ε * (b * n + 1) * n := by
    intro o
    by_cases hoo : o ∈ obs
    · obtain ⟨w, hw⟩ := flDot_acc h hε n b (by omega) o m (ho o hoo).1 (ho o hoo).2 hm hmv (td (o.map .num)) (htd _)
      exact ⟨w, fun _ => hw⟩
    · exact ⟨0, fun hh => absurd hh hoo⟩
  choose w hw using hdot
  have hbig : (2 * (b * n) : ℝ) ≤ A.big := by
    refine le_trans ?_ h.big
    exact_mod_cast hnb
  have e1 : (obs.map (List.map Fl.num)).mapM (fun o => flDot A (td o) o (m.map .num)) =
      .ok (obs.map fun o => Fl.num (w o)) := by
    rw [List.mapM_map]
    exact mapM_oks _ _ obs fun o hoo => (hw o hoo).1
  have e2 : obs.mapM (fun o => npDot o m) = .ok (obs.map fun o => (List.zipWith (· * ·) o m).sum) :=
    mapM_oks _ _ obs fun o hoo => by
      unfold npDot
      rw [if_pos (by rw [(ho o hoo).1, hm])]
  have hf : ∀ o ∈ obs, A.rd (-w o) = -w o ∧ |2 * -w o| ≤ A.big ∧ InRange A (2 * -w o) ∧
      |(-w o) - (-(List.zipWith (· * ·) o m).sum)| ≤ ε * (b * n + 1) * n ∧ |2 * -w o| ≤ 2 * (b * n) := by
    intro o hoo
    obtain ⟨-, h2, h3, h4⟩ := hw o hoo
    have h5 : |2 * -w o| ≤ 2 * (b * n) := by
      rw [abs_mul, abs_neg, abs_of_pos (by norm_num : (0 : ℝ) < 2)]
      linarith
    refine ⟨by rw [h.neg, h2], h5.trans hbig, hr _ h5, ?_, h5⟩
    rw [← neg_sub', abs_neg]
    exact h4
  obtain ⟨s1, s2⟩ := sums_acc h hε obs (fun o => -w o) (fun o => -(List.zipWith (· * ·) o m).sum)
    (ε * (b * n + 1) * n) (2 * (b * n)) hS hf fun o hoo => (ho o hoo).2
  obtain ⟨l, hl1, hl2⟩ := s1 tl htl
  have s3 := fun a => s2 a (tg a) (htg a)
  choose g hg1 hg2 using s3
  refine ⟨-(obs.map fun o => Real.log (1 + Real.exp (2 * -(List.zipWith (· * ·) o m).sum))).sum,
    (List.range n).map fun a => (obs.map fun o =>
      -(1 / (1 + Real.exp (2 * -(List.zipWith (· * ·) o m).sum)) * Real.exp (2 * -(List.zipWith (· * ·) o m).sum)) * 2 *
        o.getD a 0).sum, -l, (List.range n).map g, ?_, ?_, by simp, by simp, ?_, fun a ha => ?_⟩
  · unfold isingCondTerm
    rw [e2]
    simp only [List.map_map, Function.comp_def, List.zipWith_map_left, List.zipWith_self]
  · unfold isingCondTermFl
    rw [e1]
    dsimp only
    rw [List.map_map, List.map_map, show ((condLogFl A ∘ neg) ∘ fun o => Fl.num (w o)) = fun o => condLogFl A (.num (-w o)) from rfl,
      hl1]
    refine congrArg Except.ok (Prod.ext rfl ?_)
    dsimp only
    rw [List.map_map (g := Fl.num)]
    refine List.map_congr_left fun a _ => ?_
    rw [List.map_map, List.zipWith_map, List.zipWith_self, Function.comp_apply, ← hg1 a]
    congr 1
    refine List.map_congr_left fun o _ => ?_
    rw [List.getD_map]
    rfl
  · rw [← neg_sub', abs_neg]
    refine hl2.trans (le_of_eq ?_)
    ring
  · rw [List.getD_eq_getElem _ _ (by simpa using ha), List.getD_eq_getElem _ _ (by simpa using ha), List.getElem_map,
      List.getElem_map, List.getElem_range]
    refine (hg2 a).trans (le_of_eq ?_)
    ring

/-- C134: overflow. If `exp(2 E)` is infinite for one row of the sample, then all entries of the gradient are NaN and the
log-likelihood is minus infinity (unless an energy is NaN), although the exact values are finite. -/
theorem C134_overflow (A : FlArith) (h : Ieee A) (hexp : ∀ x, 0 ≤ A.expf x) (n : ℕ) (obs : List (List Fl)) (m : List Fl)
    (td : List Fl → SumTree) (tl : SumTree) (htl : tl.Adds obs.length) (tg : ℕ → SumTree) (htg : ∀ a, (tg a).Adds obs.length)
    (D : List Fl) (hD : obs.mapM (fun o => flDot A (td o) o m) = .ok D) (hnan : .nan ∉ D) (d : Fl) (hd : d ∈ D)
    (hov : A.exp (A.mul (.num 2) (neg d)) = .inf false) :
    isingCondTermFl A td tl tg n obs m = .ok (.inf true, List.replicate n .nan) := by
  have hlen : D.length = obs.length := by
    clear hnan hd htl htg
    induction obs generalizing D with
    | nil => cases hD; rfl
    | cons o obs ih =>
      rw [List.mapM_cons] at hD
      cases h1 : flDot A (td o) o m with
      | error e => rw [h1] at hD; cases hD
      | ok v =>
        cases h2 : obs.mapM (fun o => flDot A (td o) o m) with
        | error e => rw [h1, h2] at hD; cases hD
        | ok vs =>
          rw [h1, h2] at hD
          cases hD
          rw [List.length_cons, List.length_cons, ih vs h2]
  obtain ⟨i, hi, rfl⟩ := List.getElem_of_mem hd
  have hil := htl.mem_iff.2 (List.mem_range.2 (hlen ▸ hi))
  unfold isingCondTermFl
  rw [hD]
  dsimp only
  have e1 : A.treeSum ((D.map neg).map (condLogFl A)) tl = .inf false := by
    refine (treeSum_inf h _ (fun v hv => ?_) tl).2 i hil ?_
    · obtain ⟨u', hu', rfl⟩ := List.mem_map.1 hv
      obtain ⟨u, hu, rfl⟩ := List.mem_map.1 hu'
      refine condLog_nonneg h hexp fun hn => hnan ?_
      cases u with
      | nan => exact hu
      | num x => cases hn
      | inf s => cases hn
    · rw [List.getD_eq_getElem _ _ (by simpa using hi), List.getElem_map, List.getElem_map]
      unfold condLogFl
      rw [hov]
      rfl
  rw [e1]
  refine congrArg Except.ok (Prod.ext rfl ?_)
  refine List.eq_replicate_iff.2 ⟨by simp, fun v hv => ?_⟩
  obtain ⟨a, -, rfl⟩ := List.mem_map.1 hv
  refine treeSum_nan _ _ i ((htg a).mem_iff.2 (List.mem_range.2 (hlen ▸ hi))) ?_
  rw [List.getD_eq_getElem _ _ (by simpa [hlen] using hi), List.getElem_zipWith, List.getElem_map]
  unfold condProbFl
  rw [hov]
  show A.mul (A.mul (neg (A.mul (A.recip (A.add (.num 1) (.inf false))) (.inf false))) (.num 2)) _ = _
  have : A.mul (A.recip (A.add (.num 1) (.inf false))) (.inf false) = .nan := by
    show (if (0 : ℝ) = 0 then _ else _) = _
    rw [if_pos rfl]
  rw [this]
  rfl

/-- C134: an instance of overflow: one spin, the sample `[[-1]]`, field 400. The gradient is NaN in any arithmetic in which
`exp(800)` is infinite, as in double precision; the exact gradient is between 0 and 2. -/
theorem C134_overflow_witness (A : FlArith) (h : Ieee A) (hexp : ∀ x, 0 ≤ A.expf x) (hov : A.big < A.expf 800) :
    isingCondTermFl A (fun _ => .leaf 0) (.leaf 0) (fun _ => .leaf 0) 1 [[.num (-1)]] [.num 400] = .ok (.inf true, [.nan]) ∧
    ∃ ll g, isingCondTerm 1 [[-1]] [400] = .ok (ll, [g]) ∧ 0 < g ∧ g < 2 ∧ -801 ≤ ll ∧ ll < 0 := by
  have h400 : A.rd 400 = 400 := by exact_mod_cast h.nat 400 (by norm_num)
  have h800 : A.rd 800 = 800 := by exact_mod_cast h.nat 800 (by norm_num)
  have hbig : (1000 : ℝ) ≤ A.big := le_trans (by norm_num) h.big
  constructor
  · have hadds : (SumTree.leaf 0).Adds 1 := by show List.Perm _ _; decide
    have e1 : A.mul (.num (-1)) (.num 400) = .num (-400) := by
      show A.round (-1 * 400) = _
      rw [show (-1 : ℝ) * 400 = -400 by norm_num]
      exact IeeeK.round_self h (by rw [h.neg, h400]) (by rw [abs_neg]; norm_num; linarith)
    refine C134_overflow A h hexp 1 _ _ _ _ hadds _ (fun _ => hadds) [.num (-400)] ?_ (by simp) _ (List.mem_singleton.2 rfl) ?_
    · have e2 : flDot A (.leaf 0) [.num (-1)] [.num 400] = .ok (.num (-400)) := by
        unfold flDot
        rw [if_pos (by simp)]
        show Except.ok (A.mul (.num (-1)) (.num 400)) = _
        rw [e1]
      rw [List.mapM_cons, e2]
      rfl
    · show A.exp (A.round (2 * -(-400))) = _
      rw [show (2 : ℝ) * -(-400) = 800 by norm_num, IeeeK.round_self h h800 (by norm_num; linarith)]
      exact if_pos hov
  · have hX := Real.exp_pos 800
    refine ⟨-Real.log (1 + Real.exp 800), 2 * (Real.exp 800 / (1 + Real.exp 800)), ?_, by positivity, ?_, ?_, ?_⟩
    · show Except.ok _ = Except.ok _
      refine congrArg Except.ok (Prod.ext ?_ ?_)
      · norm_num
      · norm_num
        ring
    · have : Real.exp 800 / (1 + Real.exp 800) < 1 := by rw [div_lt_one (by linarith)]; linarith
      linarith
    · have := softplus_le 800
      norm_num at this
      linarith
    · have := Real.log_pos (show 1 < 1 + Real.exp 800 by linarith)
      linarith

/-- Numbers cut off after 70 binary places. -/
noncomputable def fine (x : ℝ) : ℝ := cut (262144 * x) / 262144

theorem fine_acc (x : ℝ) : |fine x - x| ≤ 1 / 1180591620717411303424 := by
  have h1 := cut_acc (262144 * x)
  have e : fine x - x = (cut (262144 * x) - 262144 * x) / 262144 := by
    unfold fine
    ring
  rw [e, abs_div, abs_of_pos (by norm_num : (0 : ℝ) < 262144), div_le_iff₀ (by norm_num)]
  refine h1.trans (le_of_eq ?_)
  norm_num

theorem fine_nonneg {x : ℝ} (hx : 0 ≤ x) : 0 ≤ fine x := div_nonneg (cut_nonneg (by linarith)) (by norm_num)

theorem fine_idem (x : ℝ) : fine (fine x) = fine x := by
  unfold fine
  rw [mul_div_cancel₀ _ (by norm_num : (262144 : ℝ) ≠ 0), cut_idem]

theorem fine_nat (m : ℕ) : fine m = m := by
  unfold fine
  have := cut_nat (262144 * m)
  push_cast at this
  rw [this, mul_div_cancel_left₀ _ (by norm_num : (262144 : ℝ) ≠ 0)]

theorem fine_mono : Monotone fine := fun x y h => by
  unfold fine
  exact div_le_div_of_nonneg_right (cut_mono (by linarith)) (by norm_num)

theorem cut_double {u : ℝ} (hu : cut u = u) : cut (2 * u) = 2 * u := by
  have key : ∀ v : ℝ, 0 ≤ v → cut v = v → cut (2 * v) = 2 * v := by
    intro v hv e
    have e2 : v = (⌊4503599627370496 * v⌋ : ℝ) / 4503599627370496 := by
      conv_lhs => rw [← e, cut, if_pos hv]
    have e3 := cut_grid (2 * ⌊4503599627370496 * v⌋) (mul_nonneg (by norm_num) (Int.floor_nonneg.2 (by linarith)))
    push_cast at e3
    rw [mul_div_assoc, ← e2] at e3
    exact e3
  rcases le_total 0 u with h | h
  · exact key u h hu
  · have := key (-u) (by linarith) (by rw [cut_neg, hu])
    rw [mul_neg, cut_neg] at this
    linarith

theorem fine_double {x : ℝ} (hx : fine x = x) : fine (2 * x) = 2 * x := by
  have h1 : cut (262144 * x) = 262144 * x := by
    unfold fine at hx
    rw [div_eq_iff (by norm_num)] at hx
    linarith
  have h2 := cut_double h1
  unfold fine
  rw [show (262144 : ℝ) * (2 * x) = 2 * (262144 * x) by ring, h2]
  ring

/-- An arithmetic that rounds. -/
noncomputable def fineArith : FlArith := ⟨fine, 2 ^ 53, fun x => fine (Real.exp x), fun y => fine (Real.log y)⟩

theorem fineArith_ieee : Ieee fineArith where
  mono := fine_mono
  neg x := by
    show fine (-x) = -fine x
    unfold fine
    rw [mul_neg, cut_neg, neg_div]
  idem := fine_idem
  nat m _ := fine_nat m
  big := le_rfl
  big_rd := by
    show fine (2 ^ 53) = 2 ^ 53
    have := fine_nat (2 ^ 53)
    rwa [Nat.cast_pow, Nat.cast_ofNat] at this
  exp_zero := by
    show fine (Real.exp 0) = 1
    rw [Real.exp_zero]
    simpa using fine_nat 1
  exp_range x hx := by
    refine ⟨fine_nonneg (Real.exp_pos x).le, ?_⟩
    have := fine_mono (Real.exp_le_one_iff.2 hx)
    rwa [show fine 1 = 1 by simpa using fine_nat 1] at this
  exp_rd x := fine_idem _
  log_nonneg y h := fine_nonneg (Real.log_nonneg h)

theorem fineArith_relative : Relative fineArith (1 / 131072) where
  nonneg := by norm_num
  small := by norm_num
  rd x := by
    have := fine_acc x
    have h2 := abs_nonneg x
    show |fine x - x| ≤ 1 / 131072 * (|x| + 1 / 2 ^ 53)
    norm_num at this ⊢
    linarith
  double x hx := fine_double hx
  exp_nonneg x := fine_nonneg (Real.exp_pos x).le
  exp x _ := by
    have := fine_acc (Real.exp x)
    have h2 := Real.exp_pos x
    show |fine (Real.exp x) - Real.exp x| ≤ 1 / 131072 * (Real.exp x + 1 / 2 ^ 53)
    norm_num at this ⊢
    linarith
  log y _ := by
    have := fine_acc (Real.log y)
    have h2 := abs_nonneg (Real.log y)
    show |fine (Real.log y) - Real.log y| ≤ 1 / 131072 * (|Real.log y| + 1)
    norm_num at this ⊢
    linarith
  log_rd y := fine_idem _
  log_le y h1 h2 := by
    have h3 : Real.log y ≤ ((53 : ℕ) : ℝ) := by
      refine (Real.log_le_log (by linarith) (show y ≤ 2 ^ 53 from h2)).trans ?_
      rw [Real.log_pow]
      have := Real.log_le_sub_one_of_pos (x := 2) (by norm_num)
      push_cast
      linarith
    have h4 := fine_mono h3
    rw [fine_nat] at h4
    show fine (Real.log y) ≤ 1024
    push_cast at h4
    linarith

theorem exp_le_three_pow (k : ℕ) : Real.exp k ≤ 3 ^ k := by
  have h1 : Real.exp 1 ≤ 3 := by
    have := Real.exp_one_lt_d9
    linarith
  have h2 : Real.exp k = Real.exp 1 ^ k := by rw [← Real.exp_nat_mul, mul_one]
  rw [h2]
  exact pow_le_pow_left₀ (Real.exp_pos 1).le h1 k

/-- Non-vacuity of C134_accuracy_partial: two spins, two rows, field 3 and coupling -2. -/
example : ∃ (ll : ℝ) (d : List ℝ) (ll' : ℝ) (d' : List ℝ), isingCondTerm 2 [[1, -1], [-1, -1]] [3, -2] = .ok (ll, d) ∧
      isingCondTermFl fineArith (fun _ => .node (.leaf 1) (.leaf 0)) (.node (.leaf 0) (.leaf 1))
        (fun _ => .node (.leaf 0) (.leaf 1)) 2 ([[1, -1], [-1, -1]].map (List.map .num)) ([3, -2].map .num) =
          .ok (.num ll', d'.map .num) ∧
      d.length = 2 ∧ d'.length = 2 ∧ |ll' - ll| ≤ 1 / 131072 * 4274 ∧ ∀ a < 2, |d'.getD a 0 - d.getD a 0| ≤ 1 / 131072 * 166 := by
  have hadds : (SumTree.node (.leaf 0) (.leaf 1)).Adds 2 := by show List.Perm _ _; decide
  have hadds' : (SumTree.node (.leaf 1) (.leaf 0)).Adds 2 := by show List.Perm _ _; decide
  have := C134_accuracy_partial fineArith (1 / 131072) fineArith_ieee fineArith_relative 2 3 (by norm_num)
    [[1, -1], [-1, -1]] [3, -2] (by norm_num) (by
      intro o ho
      simp only [List.mem_cons, List.not_mem_nil, or_false] at ho
      rcases ho with rfl | rfl <;> simp) rfl (by
      intro v hv
      simp only [List.mem_cons, List.not_mem_nil, or_false] at hv
      rcases hv with rfl | rfl
      · exact ⟨by exact_mod_cast fine_nat 3, by norm_num⟩
      · refine ⟨?_, by norm_num⟩
        rw [fineArith_ieee.neg]
        exact congrArg Neg.neg (by exact_mod_cast fine_nat 2)) (by
      intro x hx
      have h1 : x ≤ ((12 : ℕ) : ℝ) := by
        have := (abs_le.1 hx).2
        norm_num at this ⊢
        linarith
      have h2 : Real.exp x ≤ ((3 ^ 12 : ℕ) : ℝ) := by
        have h3 := exp_le_three_pow 12
        refine (Real.exp_le_exp.2 h1).trans (h3.trans (le_of_eq ?_))
        norm_num
      have h3 : fine (Real.exp x) ≤ ((3 ^ 12 : ℕ) : ℝ) := by
        have := fine_mono h2
        rwa [fine_nat] at this
      refine ⟨?_, ?_⟩
      · show fine (Real.exp x) ≤ 2 ^ 53
        refine h3.trans ?_
        norm_num
      · show fine (1 + fine (Real.exp x)) ≤ 2 ^ 53
        have h4 := fine_mono (show 1 + fine (Real.exp x) ≤ ((1 + 3 ^ 12 : ℕ) : ℝ) by push_cast at h3 ⊢; linarith)
        rw [fine_nat] at h4
        refine h4.trans ?_
        norm_num) (fun _ => .node (.leaf 1) (.leaf 0)) (fun _ => hadds') _ hadds (fun _ => .node (.leaf 0) (.leaf 1)) fun _ => hadds
  obtain ⟨ll, d, ll', d', h1, h2, h3, h4, h5, h6⟩ := this
  refine ⟨ll, d, ll', d', h1, h2, h3, h4, h5.trans (by norm_num), fun a ha => (h6 a ha).trans (by norm_num)⟩

/-- Non-vacuity of C134_overflow and C134_overflow_witness. -/
example : Ieee fineArith ∧ (∀ x, 0 ≤ fineArith.expf x) ∧ fineArith.big < fineArith.expf 800 := by
  refine ⟨fineArith_ieee, fineArith_relative.exp_nonneg, ?_⟩
  show (2 : ℝ) ^ 53 < fine (Real.exp 800)
  have h1 : ((2 ^ 54 : ℕ) : ℝ) ≤ Real.exp 800 := by
    have h2 : (2 : ℝ) ≤ Real.exp 1 := by
      have := Real.add_one_le_exp (1 : ℝ)
      linarith
    have h3 : Real.exp 1 ^ 54 = Real.exp ((54 : ℕ) : ℝ) := by rw [← Real.exp_nat_mul, mul_one]
    have h4 := pow_le_pow_left₀ (by norm_num) h2 54
    rw [h3] at h4
    have h6 : Real.exp ((54 : ℕ) : ℝ) ≤ Real.exp 800 := Real.exp_le_exp.2 (by norm_num)
    have h7 : ((2 ^ 54 : ℕ) : ℝ) = 2 ^ 54 := by norm_num
    rw [h7]
    exact h4.trans h6
  have h5 := fine_mono h1
  rw [fine_nat] at h5
  refine lt_of_lt_of_le ?_ h5
  norm_num

end Verif.Props
