/-
C137: the prediction of correlations by reweighting in floating-point arithmetic.
-/
import Verif.Lemmas.FloatMch
import Verif.Spec.FloatMch
import Verif.Lemmas.Mpf2
import Verif.Props.FloatMpf
import Verif.Props.FloatLse

namespace Verif.Props
open Verif Verif.Model Verif.Spec Verif.Lemmas FlArith

/-- The energies computed for spins. -/
theorem spin_energy (A : FlArith) (ε : ℝ) (h : Ieee A) (ha : Accurate A ε) (n b : ℕ) (θ : List ℝ)
    (hθ : θ.length = n + n * (n - 1) / 2) (hb : ∀ v ∈ θ, A.rd v = v ∧ |v| ≤ b)
    (hK : b * (n + n * (n - 1) / 2) ≤ 2 ^ 53) (tE : SumTree) (htE : tE.Adds n) (s : List ℤ) (hs : s.length = n)
    (hv : ∀ x ∈ s, x = 1 ∨ x = -1) :
    isingCalcERowFl A tE (θ.map .num) s = .num (flVal (isingCalcERowFl A tE (θ.map .num) s)) ∧
      A.rd (flVal (isingCalcERowFl A tE (θ.map .num) s)) = flVal (isingCalcERowFl A tE (θ.map .num) s) ∧
      |flVal (isingCalcERowFl A tE (θ.map .num) s)| ≤ ((b * (n + n * (n - 1) / 2) : ℕ) : ℝ) ∧
      |flVal (isingCalcERowFl A tE (θ.map .num) s) - isingCalcERow θ s| ≤
        ε * (((b * (n + n * (n - 1) / 2) : ℕ) : ℝ) + 1) * ((n + n * (n - 1) / 2 : ℕ) : ℝ) := by
  obtain ⟨e, e1, e2, e3, e4⟩ := energy_acc h ha n b s hs
    (fun x hx => by rcases hv x hx with e | e <;> simp [e]) θ hθ hb hK tE htE
  rw [e1]
  exact ⟨rfl, e2, e3, e4⟩

/-- C137: if the energy of one state of the sample falls by so much that the exponential is too large, every prediction is NaN,
and the assertion that should reject wrong predictions does not fail. -/
theorem C137_overflow (A : FlArith) (ε : ℝ) (h : Ieee A) (ha : Accurate A ε) (n b : ℕ) (X : Data) (hXn : X.length ≤ 2 ^ 53)
    (hlen : ∀ s ∈ X, s.length = n) (hv : ∀ s ∈ X, ∀ x ∈ s, x = 1 ∨ x = -1) (θ : List ℝ)
    (hθ : θ.length = n + n * (n - 1) / 2) (hb : ∀ v ∈ θ, A.rd v = v ∧ |v| ≤ b) (hK : b * (n + n * (n - 1) / 2) ≤ 2 ^ 53)
    (tE : SumTree) (htE : tE.Adds n) (tL : SumTree) (htL : tL.Adds X.length) (t1 : ℕ → SumTree) (ht1 : ∀ j, (t1 j).Adds X.length)
    (t2 : ℕ × ℕ → SumTree) (ht2 : ∀ p, (t2 p).Adds X.length) (R : ℝ) (hR : ∀ y, R ≤ y → A.big < A.expf y) (s : List ℤ) (hs : s ∈ X)
    (hE : R + ε * ((b * (n + n * (n - 1) / 2 : ℕ) + 1) * (n + n * (n - 1) / 2 : ℕ)) ≤ -isingVecE n (θ.take n) (θ.drop n) (spins s)) :
    mchIsingFl A tE tL t1 t2 n X (θ.map .num) = .ok (List.replicate (n + n * (n - 1) / 2) .nan) := by
  rw [← isingCalcERow_vec n s (hlen s hs) θ hθ] at hE
  have hok : entriesOk X = true := by
    unfold entriesOk
    rw [List.all_eq_true]
    intro r hr
    rw [List.all_eq_true]
    intro x hx
    rcases hv r hr x hx with e | e <;> simp [e]
  have hlenpos : 0 < X.length := List.length_pos_of_mem hs
  have hbig : ((b * (n + n * (n - 1) / 2) : ℕ) : ℝ) ≤ A.big := le_trans (by exact_mod_cast hK) h.big
  have hfin : ∀ v ∈ (X.map (isingCalcERowFl A tE (θ.map .num))).map neg, Finite A v := by
    intro v hv'
    obtain ⟨e, he, rfl⟩ := List.mem_map.1 hv'
    obtain ⟨r, hr, rfl⟩ := List.mem_map.1 he
    obtain ⟨a1, a2, a3, -⟩ := spin_energy A ε h ha n b θ hθ hb hK tE htE r (hlen r hr) (hv r hr)
    rw [a1]
    refine ⟨-_, rfl, by rw [h.neg, a2], ?_⟩
    rw [abs_neg]
    exact a3.trans hbig
  obtain ⟨M, y, m1, m2, m3, m4, m5, m6⟩ := C132_logsumexp A h _ hfin (by
    simpa using List.ne_nil_of_mem hs) (by simpa using hXn) tL (by simpa using htL)
  obtain ⟨a1, a2, a3, a4⟩ := spin_energy A ε h ha n b θ hθ hb hK tE htE s (hlen s hs) (hv s hs)
  set e := flVal (isingCalcERowFl A tE (θ.map .num) s)
  have hRe : R ≤ -e := by
    have := (abs_le.1 a4).2
    push_cast at this hE
    linarith
  have hM : -e ≤ M := m2 _ (List.mem_map.2 ⟨.num e, List.mem_map.2 ⟨s, hs, a1⟩, rfl⟩)
  have hexp : A.exp (A.round (A.logf y + M)) = .inf false := by
    rcases m6 with ⟨L, l1, l2⟩ | ⟨l1, -⟩
    · rw [l1]
      show (if A.big < A.expf L then _ else _) = _
      rw [if_pos (hR L (by linarith))]
    · rw [l1]
      rfl
  obtain ⟨i, hi, hsi⟩ := List.getElem_of_mem hs
  set w := (X.map (isingCalcERowFl A tE (θ.map .num))).map fun e =>
    A.div (A.exp (neg e)) (.num ((X.map (isingCalcERowFl A tE (θ.map .num))).length : ℝ)) with hw
  have hwi : ∀ hiw : i < w.length, Lost w[i] := by
    intro hiw
    have e1 : w[i] = A.div (A.exp (.num (-e))) (.num ((X.map (isingCalcERowFl A tE (θ.map .num))).length : ℝ)) := by
      simp only [hw, List.getElem_map]
      rw [hsi, a1]
      rfl
    have e2 : A.exp (.num (-e)) = .inf false := by
      show (if A.big < A.expf (-e) then _ else _) = _
      rw [if_pos (hR _ hRe)]
    rw [e1, e2]
    exact Or.inr ⟨_, rfl⟩
  have hwl : w.length = X.length := by simp [hw]
  have hmean : ∀ (g : List ℤ → Fl → Fl), (∀ r v, Lost v → Lost (g r v)) → ∀ t : SumTree, t.Adds X.length →
      Lost (A.treeSum (List.zipWith g X w) t) := by
    intro g hg t ht
    refine treeSum_lost _ t i (ht.mem_iff.2 (List.mem_range.2 hi)) ?_
    rw [List.getD_eq_getElem _ _ (by rw [List.length_zipWith, hwl]; omega), List.getElem_zipWith]
    exact hg _ _ (hwi _)
  unfold mchIsingFl
  dsimp only
  rw [m5]
  dsimp only
  rw [if_neg (by simp [hok]), hexp, ← hw]
  have hz : A.div (.num ((X.map (isingCalcERowFl A tE (θ.map .num))).length : ℝ)) (.inf false) = .num 0 := rfl
  rw [hz]
  have hpred : ((((List.range n).map fun j => meanFl A (t1 j) X w j) ++
      (upperPairs n).map fun p => corrFl A (t2 p) X w p).map fun v => A.mul v (.num 0)) =
      List.replicate (n + n * (n - 1) / 2) .nan := by
    rw [List.eq_replicate_iff]
    refine ⟨by simp [length_upperPairs], fun v hv' => ?_⟩
    obtain ⟨u, hu, rfl⟩ := List.mem_map.1 hv'
    refine lost_mul_zero ?_
    rcases List.mem_append.1 hu with hu | hu
    · obtain ⟨j, -, rfl⟩ := List.mem_map.1 hu
      exact hmean _ (fun r v hl => mul_lost _ hl) _ (ht1 j)
    · obtain ⟨p, -, rfl⟩ := List.mem_map.1 hu
      exact hmean _ (fun r v hl => mul_lost _ (mul_lost _ hl)) _ (ht2 p)
  rw [hpred, if_neg]
  rintro (⟨v, hv', e1⟩ | ⟨v, hv', e1⟩)
  · rw [List.eq_of_mem_replicate hv'] at e1
    exact absurd e1 (by simp [lt])
  · rw [List.eq_of_mem_replicate hv'] at e1
    exact absurd e1 (by simp [lt])

theorem zipWith_map_self {α β γ : Type*} (f : α → β → γ) (g : α → β) (X : List α) :
    List.zipWith f X (X.map g) = X.map fun s => f s (g s) := by
  induction X with
  | nil => rfl
  | cons s X ih => simp [ih]

/-- C137: within the range of the exponential, the predictions are the averages of the spins and of their products over the sample
with weights `exp (-dE)`, up to rounding errors, and the assertion does not fail. Missing for the full statement: outside of the
range the predictions are NaN (`C137_overflow`). -/
theorem C137_accuracy_partial (A : FlArith) (ε : ℝ) (h : Ieee A) (ha : Accurate A ε) (hr : Relative A ε) (n b : ℕ) (X : Data)
    (hX : X ≠ []) (hXn : X.length ≤ 2 ^ 50) (hlen : ∀ s ∈ X, s.length = n) (hv : ∀ s ∈ X, ∀ x ∈ s, x = 1 ∨ x = -1) (θ : List ℝ)
    (hθ : θ.length = n + n * (n - 1) / 2) (hb : ∀ v ∈ θ, A.rd v = v ∧ |v| ≤ b) (hK : b * (n + n * (n - 1) / 2) ≤ 2 ^ 50)
    (tE : SumTree) (htE : tE.Adds n) (tL : SumTree) (htL : tL.Adds X.length) (t1 : ℕ → SumTree) (ht1 : ∀ j, (t1 j).Adds X.length)
    (t2 : ℕ × ℕ → SumTree) (ht2 : ∀ p, (t2 p).Adds X.length)
    (hexp : ∀ y, y ≤ (b * (n + n * (n - 1) / 2) : ℕ) + Real.log X.length + 1 → A.expf y ≤ A.big)
    (hrange : 6 * (X.length : ℝ) ^ 2 * Real.exp (b * (n + n * (n - 1) / 2) : ℕ) ≤ A.big)
    (hsmall : ε * mchScale X.length (n + n * (n - 1) / 2) (b * (n + n * (n - 1) / 2) : ℕ) ≤ 1 / 1000000000) :
    ∃ (f : ℕ → ℝ) (g : ℕ × ℕ → ℝ),
      mchIsingFl A tE tL t1 t2 n X (θ.map .num) = .ok (((List.range n).map f ++ (upperPairs n).map g).map .num) ∧
      (∀ j < n, |f j - expAverage n θ X (fun s => spins s j)| ≤
        ε * mchScale X.length (n + n * (n - 1) / 2) (b * (n + n * (n - 1) / 2) : ℕ)) ∧
      ∀ p ∈ upperPairs n, |g p - expAverage n θ X (fun s => spins s p.1 * spins s p.2)| ≤
        ε * mchScale X.length (n + n * (n - 1) / 2) (b * (n + n * (n - 1) / 2) : ℕ) := by
  have hok : entriesOk X = true := by
    unfold entriesOk
    rw [List.all_eq_true]
    intro r hr
    rw [List.all_eq_true]
    intro x hx
    rcases hv r hr x hx with e | e <;> simp [e]
  have hε0 := hr.nonneg
  have hrew : ∀ c : List ℤ → ℝ, expAverage n θ X c = (X.map fun s => c s * Real.exp (-isingCalcERow θ s)).sum /
      (X.map fun s => Real.exp (-isingCalcERow θ s)).sum := by
    intro c
    unfold expAverage
    congr 2 <;> refine List.map_congr_left fun s hs => ?_ <;> rw [isingCalcERow_vec n s (hlen s hs) θ hθ]
  obtain ⟨k, hk⟩ : ∃ k, k = n + n * (n - 1) / 2 := ⟨_, rfl⟩
  have hsp : ∀ s (hs : s ∈ X), _ := fun s hs => spin_energy A ε h ha n b θ hθ hb (hK.trans (by norm_num)) tE htE s (hlen s hs) (hv s hs)
  rw [← hk] at hsmall hexp hrange hK hsp ⊢
  obtain ⟨B, hB⟩ : ∃ B : ℝ, B = ((b * k : ℕ) : ℝ) := ⟨_, rfl⟩
  rw [← hB] at hsmall hexp hrange hsp ⊢
  have hB0 : 0 ≤ B := by rw [hB]; positivity
  set E := fun s => flVal (isingCalcERowFl A tE (θ.map .num) s) with hEdef
  obtain ⟨S, hS⟩ : ∃ S : ℝ, S = (X.length : ℝ) := ⟨_, rfl⟩
  have hS1 : 1 ≤ S := by
    rw [hS]
    exact_mod_cast List.length_pos_iff.2 hX
  have hη0 : 0 ≤ ε * ((B + 1) * k) := by positivity
  have hR0 : 0 ≤ S ^ 2 + 7 * S + B := by positivity
  unfold mchScale at hsmall
  rw [← hS] at hsmall
  have hsm1 : ε * (4 * (S ^ 2 + 7 * S + B) + 12 * S + 23) ≤ 1 / 1000000000 := by linarith
  have hsm2 : 2 * (ε * ((B + 1) * k)) ≤ 1 := by
    have : 0 ≤ ε * (4 * (S ^ 2 + 7 * S + B) + 12 * S + 23) := by positivity
    linarith
  have H : Energies A ε B (X.map fun s => -E s) := by
    refine ⟨h, ha, ?_, ?_, ?_, by simpa using hX, by simpa using hXn, ?_⟩
    · intro v hv'
      obtain ⟨s, hs, rfl⟩ := List.mem_map.1 hv'
      rw [h.neg, (hsp s hs).2.1]
    · intro v hv'
      obtain ⟨s, hs, rfl⟩ := List.mem_map.1 hv'
      rw [abs_neg]
      exact (hsp s hs).2.2.1
    · have h1 : B ≤ 2 ^ 50 := by rw [hB]; exact_mod_cast hK
      have h2 := h.big
      norm_num at h1 h2 ⊢
      linarith
    · rw [List.length_map]
      unfold errScale
      rw [← hS]
      have h1 : 0 ≤ ε * S ^ 2 := by positivity
      have h2 : 0 ≤ ε * S := by positivity
      have h3 : 0 ≤ ε * B := by positivity
      linarith
  obtain ⟨M, L, l1, l2, -, -, l3, -, -, l4, -⟩ := H.lse tL (by simpa using htL)
  rw [List.length_map, ← hS] at l4
  have hZ := sum_exp_map_pos X hX fun s => -E s
  have hlse : M + Real.log ((X.map fun s => -E s).map fun v => Real.exp (v - M)).sum =
      Real.log (X.map fun s => Real.exp (-E s)).sum := by
    have e : ((X.map fun s => -E s).map fun v => Real.exp (v - M)).sum = (X.map fun s => Real.exp (-E s)).sum / Real.exp M := by
      rw [List.map_map, ← list_sum_div]
      congr 1
      exact List.map_congr_left fun s _ => Real.exp_sub _ _
    rw [e, Real.log_div hZ.ne' (Real.exp_ne_zero _), Real.log_exp]
    ring
  rw [hlse] at l4
  have hp : ∀ s ∈ X, |(-E s)| ≤ B := fun s hs => by rw [abs_neg]; exact (hsp s hs).2.2.1
  have hlogS : 0 ≤ Real.log S := Real.log_nonneg hS1
  have hlogZ : Real.log (X.map fun s => Real.exp (-E s)).sum ≤ B + Real.log S := by
    have h1 := List.sum_le_card_nsmul (X.map fun s => Real.exp (-E s)) (Real.exp B) (by
      intro v hv'
      obtain ⟨s, hs, rfl⟩ := List.mem_map.1 hv'
      exact Real.exp_le_exp.2 (abs_le.1 (hp s hs)).2)
    rw [List.length_map, nsmul_eq_mul, ← hS] at h1
    have h2 := Real.log_le_log hZ h1
    rw [Real.log_mul (by linarith) (Real.exp_ne_zero _), Real.log_exp] at h2
    linarith
  have hcol := fun (c : List ℤ → ℝ) (hc : ∀ s ∈ X, c s = 0 ∨ c s = 1 ∨ c s = -1) (t : SumTree) (ht : t.Adds X.length) =>
    column_acc h hr X hX (fun s => -E s) c B (S ^ 2 + 7 * S + B) L hp hc hrange hR0 l4 (hexp L (by
      rw [← hS]
      have h1 := (abs_le.1 l4).2
      have h2 : ε * (S ^ 2 + 7 * S + B) ≤ 1 := by
        have h3 : 0 ≤ ε * S := by positivity
        have h4 : 0 ≤ ε * S ^ 2 := by positivity
        have h5 : 0 ≤ ε * B := by positivity
        linarith
      linarith)) (fun s hs => hexp _ (by
      rw [← hS]
      have := (abs_le.1 (hp s hs)).2
      linarith)) (by rw [← hS]; linarith) t ht
  rw [← hS] at hcol
  obtain ⟨hW, z, hz, -⟩ := hcol (fun _ => 0) (fun _ _ => Or.inl rfl) tL htL
  -- the weights and the predictions of the model
  set W := fun s => A.rd (A.expf (-E s) / S) with hWdef
  have hw : ((X.map (isingCalcERowFl A tE (θ.map .num))).map fun e =>
      A.div (A.exp (neg e)) (.num ((X.map (isingCalcERowFl A tE (θ.map .num))).length : ℝ))) = X.map fun s => .num (W s) := by
    rw [List.length_map, ← hS, List.map_map]
    refine List.map_congr_left fun s hs => ?_
    rw [Function.comp, (hsp s hs).1]
    exact (hW s hs).1
  have hval : ∀ (c : List ℤ → ℝ), (∀ s ∈ X, c s = 0 ∨ c s = 1 ∨ c s = -1) → ∀ t : SumTree, t.Adds X.length →
      ∃ q, A.mul (A.treeSum ((X.map fun s => W s * c s).map .num) t) (.num z) = .num q ∧ |q| ≤ 1 + 1 / 1000000000 ∧
        |q - expAverage n θ X c| ≤ ε * mchScale X.length k B := by
    intro c hc t ht
    obtain ⟨-, z', hz', q, q1, q2⟩ := hcol c hc t ht
    rw [hz] at hz'
    obtain rfl : z = z' := Fl.num.inj hz'
    have hc1 : ∀ s ∈ X, |c s| ≤ 1 := fun s hs => by rcases hc s hs with e | e | e <;> rw [e] <;> simp
    obtain ⟨-, -, w3⟩ := sum_weights X (fun s => Real.exp (-E s)) (fun s => Real.exp (-E s)) c hc1 0
      (fun s _ => by simp) (fun s _ => (Real.exp_pos _).le)
    refine ⟨q, q1, ?_, ?_⟩
    · have h1 : |(X.map fun s => c s * Real.exp (-E s)).sum / (X.map fun s => Real.exp (-E s)).sum| ≤ 1 := by
        rw [abs_div, abs_of_pos hZ, div_le_one hZ]
        exact w3
      have h2 := abs_add_le (q - (X.map fun s => c s * Real.exp (-E s)).sum / (X.map fun s => Real.exp (-E s)).sum)
        ((X.map fun s => c s * Real.exp (-E s)).sum / (X.map fun s => Real.exp (-E s)).sum)
      rw [sub_add_cancel] at h2
      linarith
    · rw [hrew]
      have h1 := average_lipschitz X hX (fun s => -E s) (fun s => -isingCalcERow θ s) c hc1 (ε * ((B + 1) * k)) hsm2 hη0
        (fun s hs => by
          have := (hsp s hs).2.2.2
          rw [← abs_neg]
          refine le_trans (le_of_eq ?_) (this.trans (le_of_eq (by ring)))
          congr 1
          ring)
      have h2 := abs_add_le (q - (X.map fun s => c s * Real.exp (-E s)).sum / (X.map fun s => Real.exp (-E s)).sum)
        ((X.map fun s => c s * Real.exp (-E s)).sum / (X.map fun s => Real.exp (-E s)).sum -
          (X.map fun s => c s * Real.exp (-isingCalcERow θ s)).sum / (X.map fun s => Real.exp (-isingCalcERow θ s)).sum)
      rw [sub_add_sub_cancel] at h2
      unfold mchScale
      rw [← hS]
      linarith
  have hspin : ∀ s ∈ X, ∀ j, (spins s j : ℝ) = 0 ∨ (spins s j : ℝ) = 1 ∨ (spins s j : ℝ) = -1 := by
    intro s hs j
    unfold spins
    by_cases hj : j < s.length
    · rw [List.getD_eq_getElem _ _ hj]
      rcases hv s hs _ (List.getElem_mem hj) with e | e <;> rw [e] <;> simp
    · rw [List.getD_eq_default _ _ (by omega)]
      simp
  have hprod : ∀ s ∈ X, ∀ i j, (spins s i * spins s j : ℝ) = 0 ∨ (spins s i * spins s j : ℝ) = 1 ∨ (spins s i * spins s j : ℝ) = -1 := by
    intro s hs i j
    rcases hspin s hs i with e | e | e <;> rcases hspin s hs j with e' | e' | e' <;> rw [e, e'] <;> norm_num
  have hWrd : ∀ s, A.rd (W s) = W s := fun s => h.idem _
  have hmul : ∀ {x c : ℝ}, A.rd x = x → |x| ≤ A.big → (c = 0 ∨ c = 1 ∨ c = -1) →
      A.mul (.num c) (.num x) = .num (x * c) ∧ A.rd (x * c) = x * c ∧ |x * c| ≤ |x| := by
    intro x c h1 h2 h3
    obtain ⟨a1, a2, a3⟩ := mul_sign h h1 h2 h3
    refine ⟨?_, a2, a3⟩
    rw [← a1]
    show A.round (c * x) = A.round (x * c)
    rw [mul_comm]
  have hmean : ∀ j, meanFl A (t1 j) X (X.map fun s => .num (W s)) j = A.treeSum ((X.map fun s => W s * spins s j).map .num) (t1 j) := by
    intro j
    unfold meanFl
    rw [zipWith_map_self, List.map_map]
    congr 1
    exact List.map_congr_left fun s hs => (hmul (hWrd s) (hW s hs).2 (hspin s hs j)).1
  have hcorr : ∀ p, corrFl A (t2 p) X (X.map fun s => .num (W s)) p =
      A.treeSum ((X.map fun s => W s * (spins s p.1 * spins s p.2)).map .num) (t2 p) := by
    intro p
    unfold corrFl
    rw [zipWith_map_self, List.map_map]
    congr 1
    refine List.map_congr_left fun s hs => ?_
    obtain ⟨a1, a2, a3⟩ := hmul (hWrd s) (hW s hs).2 (hspin s hs p.2)
    have e := (hmul a2 (a3.trans (hW s hs).2) (hspin s hs p.1)).1
    show A.mul (.num (spins s p.1)) (A.mul (.num (spins s p.2)) (.num (W s))) = _
    rw [a1, e]
    show Fl.num _ = Fl.num _
    congr 1
    ring
  choose f f1 f2 f3 using fun j => hval (fun s => spins s j) (fun s hs => hspin s hs j) (t1 j) (ht1 j)
  choose g g1 g2 g3 using fun p : ℕ × ℕ => hval (fun s => spins s p.1 * spins s p.2) (fun s hs => hprod s hs p.1 p.2) (t2 p) (ht2 p)
  refine ⟨f, g, ?_, fun j _ => f3 j, fun p _ => g3 p⟩
  have hneg : (X.map (isingCalcERowFl A tE (θ.map .num))).map neg = (X.map fun s => -E s).map .num := by
    rw [List.map_map, List.map_map]
    refine List.map_congr_left fun s hs => ?_
    rw [Function.comp, (hsp s hs).1]
    rfl
  unfold mchIsingFl
  dsimp only
  rw [hneg, l3]
  dsimp only
  rw [if_neg (by simp [hok]), hw, List.length_map, ← hS, hz]
  have hpred : ((((List.range n).map fun j => meanFl A (t1 j) X (X.map fun s => .num (W s)) j) ++
      (upperPairs n).map fun p => corrFl A (t2 p) X (X.map fun s => .num (W s)) p).map fun v => A.mul v (.num z)) =
      ((List.range n).map f ++ (upperPairs n).map g).map .num := by
    rw [List.map_append, List.map_append, List.map_map, List.map_map, List.map_map, List.map_map]
    congr 1
    · refine List.map_congr_left fun j _ => ?_
      rw [Function.comp, hmean]
      exact f1 j
    · refine List.map_congr_left fun p _ => ?_
      rw [Function.comp, hcorr]
      exact g1 p
  rw [hpred, if_neg]
  have hall : ∀ v ∈ ((List.range n).map f ++ (upperPairs n).map g).map Fl.num, ∃ q : ℝ, v = .num q ∧ |q| ≤ 1 + 1 / 1000000000 := by
    intro v hv'
    obtain ⟨q, hq, rfl⟩ := List.mem_map.1 hv'
    refine ⟨q, rfl, ?_⟩
    rcases List.mem_append.1 hq with hq | hq
    · obtain ⟨j, -, rfl⟩ := List.mem_map.1 hq
      exact f2 j
    · obtain ⟨p, -, rfl⟩ := List.mem_map.1 hq
      exact g2 p
  rintro (⟨v, hv', e1⟩ | ⟨v, hv', e1⟩)
  · obtain ⟨q, rfl, hq⟩ := hall v hv'
    have e2 : q < -1.00000001 := by simpa [lt] using e1
    have := (abs_le.1 hq).1
    norm_num at this e2
    linarith
  · obtain ⟨q, rfl, hq⟩ := hall v hv'
    have e2 : 1.000000001 < q := by simpa [lt] using e1
    have := (abs_le.1 hq).2
    norm_num at this e2
    linarith

/-- Numbers cut off after 122 binary places. -/
noncomputable def finest (x : ℝ) : ℝ := fine (4503599627370496 * x) / 4503599627370496

theorem finest_acc (x : ℝ) : |finest x - x| ≤ 1 / 2 ^ 122 := by
  have h1 := fine_acc (4503599627370496 * x)
  have e : finest x - x = (fine (4503599627370496 * x) - 4503599627370496 * x) / 4503599627370496 := by
    unfold finest
    ring
  rw [e, abs_div, abs_of_pos (by norm_num : (0 : ℝ) < 4503599627370496), div_le_iff₀ (by norm_num)]
  refine h1.trans (le_of_eq ?_)
  norm_num

theorem finest_nonneg {x : ℝ} (hx : 0 ≤ x) : 0 ≤ finest x := div_nonneg (fine_nonneg (by linarith)) (by norm_num)

theorem finest_idem (x : ℝ) : finest (finest x) = finest x := by
  unfold finest
  rw [mul_div_cancel₀ _ (by norm_num : (4503599627370496 : ℝ) ≠ 0), fine_idem]

theorem finest_nat (m : ℕ) : finest m = m := by
  unfold finest
  have := fine_nat (4503599627370496 * m)
  push_cast at this
  rw [this, mul_div_cancel_left₀ _ (by norm_num : (4503599627370496 : ℝ) ≠ 0)]

theorem finest_mono : Monotone finest := fun x y h => by
  unfold finest
  exact div_le_div_of_nonneg_right (fine_mono (by linarith)) (by norm_num)

theorem finest_double {x : ℝ} (hx : finest x = x) : finest (2 * x) = 2 * x := by
  have h1 : fine (4503599627370496 * x) = 4503599627370496 * x := by
    unfold finest at hx
    rw [div_eq_iff (by norm_num)] at hx
    linarith
  have h2 := fine_double h1
  unfold finest
  rw [show (4503599627370496 : ℝ) * (2 * x) = 2 * (4503599627370496 * x) by ring, h2]
  ring

/-- An arithmetic that rounds. -/
noncomputable def finestArith : FlArith := ⟨finest, 2 ^ 53, fun x => finest (Real.exp x), fun y => finest (Real.log y)⟩

theorem finestArith_ieee : Ieee finestArith where
  mono := finest_mono
  neg x := by
    show finest (-x) = -finest x
    unfold finest
    rw [mul_neg, show fine (-(4503599627370496 * x)) = -fine (4503599627370496 * x) from fineArith_ieee.neg _, neg_div]
  idem := finest_idem
  nat m _ := finest_nat m
  big := le_rfl
  big_rd := by
    show finest (2 ^ 53) = 2 ^ 53
    have := finest_nat (2 ^ 53)
    rwa [Nat.cast_pow, Nat.cast_ofNat] at this
  exp_zero := by
    show finest (Real.exp 0) = 1
    rw [Real.exp_zero]
    simpa using finest_nat 1
  exp_range x hx := by
    refine ⟨finest_nonneg (Real.exp_pos x).le, ?_⟩
    have := finest_mono (Real.exp_le_one_iff.2 hx)
    rwa [show finest 1 = 1 by simpa using finest_nat 1] at this
  exp_rd x := finest_idem _
  log_nonneg y h := finest_nonneg (Real.log_nonneg h)

theorem finestArith_relative : Relative finestArith (1 / 2 ^ 60) where
  nonneg := by norm_num
  small := by norm_num
  rd x := by
    have := finest_acc x
    have h2 := abs_nonneg x
    show |finest x - x| ≤ 1 / 2 ^ 60 * (|x| + 1 / 2 ^ 53)
    norm_num at this ⊢
    linarith
  double x hx := finest_double hx
  exp_nonneg x := finest_nonneg (Real.exp_pos x).le
  exp x _ := by
    have := finest_acc (Real.exp x)
    have h2 := Real.exp_pos x
    show |finest (Real.exp x) - Real.exp x| ≤ 1 / 2 ^ 60 * (Real.exp x + 1 / 2 ^ 53)
    norm_num at this ⊢
    linarith
  log y _ := by
    have := finest_acc (Real.log y)
    have h2 := abs_nonneg (Real.log y)
    show |finest (Real.log y) - Real.log y| ≤ 1 / 2 ^ 60 * (|Real.log y| + 1)
    norm_num at this ⊢
    linarith
  log_rd y := finest_idem _
  log_le y h1 h2 := by
    have h3 : Real.log y ≤ ((53 : ℕ) : ℝ) := by
      refine (Real.log_le_log (by linarith) (show y ≤ 2 ^ 53 from h2)).trans ?_
      rw [Real.log_pow]
      have := Real.log_le_sub_one_of_pos (x := 2) (by norm_num)
      push_cast
      linarith
    have h4 := finest_mono h3
    rw [finest_nat] at h4
    show finest (Real.log y) ≤ 1024
    push_cast at h4
    linarith

theorem cut_ge {v : ℝ} (hv : 0 < v) (e : cut v = v) : 1 / 4503599627370496 ≤ v := by
  rw [cut, if_pos hv.le] at e
  have h3 : (0 : ℝ) < ⌊4503599627370496 * v⌋ := by
    by_contra h4
    have : (⌊4503599627370496 * v⌋ : ℝ) / 4503599627370496 ≤ 0 := div_nonpos_of_nonpos_of_nonneg (not_lt.1 h4) (by norm_num)
    linarith
  have h4 : (1 : ℝ) ≤ ⌊4503599627370496 * v⌋ := by exact_mod_cast Int.cast_pos.1 h3
  rw [← e]
  exact div_le_div_of_nonneg_right h4 (by norm_num)

theorem finestArith_accurate : Accurate finestArith (1 / 2 ^ 60) where
  nonneg := by norm_num
  rd x := by
    have := finest_acc x
    have h2 := abs_nonneg x
    show |finest x - x| ≤ 1 / 2 ^ 60 * (|x| + 1)
    norm_num at this ⊢
    linarith
  exp x _ := by
    have := finest_acc (Real.exp x)
    have h2 := Real.exp_pos x
    show |finest (Real.exp x) - Real.exp x| ≤ 1 / 2 ^ 60 * (Real.exp x + 1)
    norm_num at this ⊢
    linarith
  log y _ := by
    have := finest_acc (Real.log y)
    have h2 := abs_nonneg (Real.log y)
    show |finest (Real.log y) - Real.log y| ≤ 1 / 2 ^ 60 * (|Real.log y| + 1)
    norm_num at this ⊢
    linarith
  log_small y hy e := by
    have e1 : finest y = y := e
    have e2 : fine (4503599627370496 * y) = 4503599627370496 * y := by
      unfold finest at e1
      rw [div_eq_iff (by norm_num)] at e1
      linarith
    have e3 : cut (262144 * (4503599627370496 * y)) = 262144 * (4503599627370496 * y) := by
      unfold fine at e2
      rw [div_eq_iff (by norm_num)] at e2
      linarith
    have h1 := cut_ge (by positivity) e3
    have h2 : (1 : ℝ) / 2 ^ 122 ≤ y := by
      norm_num at h1 ⊢
      linarith
    have h3 := Real.log_le_log (by positivity) h2
    rw [Real.log_div (by norm_num) (by norm_num), Real.log_one, Real.log_pow] at h3
    have h4 := Real.log_le_sub_one_of_pos (x := 2) (by norm_num)
    show -((2 : ℝ) ^ 53 / 8) ≤ _
    push_cast at h3
    norm_num at h3 h4 ⊢
    linarith

theorem two_adds : (SumTree.node (.leaf 0) (.leaf 1)).Adds 2 := by show List.Perm _ _; decide

/-- Non-vacuity of C137_accuracy_partial: two spins, two states, numbers cut off after 122 binary places, up to `2 ^ 53`. -/
example : ∃ (f : ℕ → ℝ) (g : ℕ × ℕ → ℝ),
    mchIsingFl finestArith (.node (.leaf 0) (.leaf 1)) (.node (.leaf 0) (.leaf 1)) (fun _ => .node (.leaf 0) (.leaf 1))
      (fun _ => .node (.leaf 0) (.leaf 1)) 2 [[1, 1], [1, -1]] ([1, 0, -2].map .num) = .ok ([f 0, f 1, g (0, 1)].map .num) ∧
    |f 1 - (Real.exp (-1) - Real.exp 3) / (Real.exp (-1) + Real.exp 3)| ≤ 1 / 1000000000 := by
  have hrd : ∀ m : ℕ, finestArith.rd m = m := finest_nat
  have hbnd : (1 / 2 ^ 60 : ℝ) * mchScale 2 3 6 ≤ 1 / 1000000000 := by norm_num [mchScale]
  obtain ⟨f, g, h1, h2, -⟩ := C137_accuracy_partial finestArith (1 / 2 ^ 60) finestArith_ieee finestArith_accurate finestArith_relative
    2 2 [[1, 1], [1, -1]] (by simp) (by simp) (by simp) (by simp) [1, 0, -2] rfl (by
      intro v hv
      simp only [List.mem_cons, List.not_mem_nil, or_false] at hv
      rcases hv with rfl | rfl | rfl
      · exact ⟨by exact_mod_cast hrd 1, by norm_num⟩
      · exact ⟨by exact_mod_cast hrd 0, by norm_num⟩
      · refine ⟨?_, by norm_num⟩
        rw [finestArith_ieee.neg]
        exact congrArg Neg.neg (by exact_mod_cast hrd 2)) (by norm_num) _ two_adds _ two_adds _ (fun _ => two_adds) _
    (fun _ => two_adds) (by
      intro y hy
      have h1 : Real.log ([[1, 1], [1, -1]] : Data).length ≤ 1 := by
        have := Real.log_le_sub_one_of_pos (x := 2) (by norm_num)
        norm_num
        linarith
      have h2 : y ≤ ((8 : ℕ) : ℝ) := by
        norm_num at hy h1 ⊢
        linarith
      have h3 : Real.exp y ≤ ((3 ^ 8 : ℕ) : ℝ) := by
        have := exp_le_three_pow 8
        refine (Real.exp_le_exp.2 h2).trans (this.trans (le_of_eq ?_))
        norm_num
      have h4 := finest_mono h3
      rw [finest_nat] at h4
      show finest (Real.exp y) ≤ 2 ^ 53
      refine h4.trans ?_
      norm_num) (by
      have := exp_le_three_pow 6
      show _ ≤ (2 : ℝ) ^ 53
      norm_num at this ⊢
      linarith) (by
      refine le_trans (le_of_eq ?_) hbnd
      norm_num)
  refine ⟨f, g, ?_, ?_⟩
  · rw [h1]
    have e : upperPairs 2 = [(0, 1)] := by decide
    rw [e]
    rfl
  · have h3 := h2 1 (by norm_num)
    have e1 : isingCalcERow ([1, 0, -2] : List ℝ) [1, 1] = 1 := by
      have e : ([1, 0, -2] : List ℝ) = ([1, 0, -2] : List ℤ).map Int.cast := by norm_num
      rw [e, cast_energy, show isingCalcERow ([1, 0, -2] : List ℤ) [1, 1] = 1 by decide +kernel]
      norm_num
    have e2 : isingCalcERow ([1, 0, -2] : List ℝ) [1, -1] = -3 := by
      have e : ([1, 0, -2] : List ℝ) = ([1, 0, -2] : List ℤ).map Int.cast := by norm_num
      rw [e, cast_energy, show isingCalcERow ([1, 0, -2] : List ℤ) [1, -1] = -3 by decide +kernel]
      norm_num
    unfold expAverage at h3
    rw [isingCalcERow_vec 2 _ rfl _ rfl] at e1 e2
    simp only [List.map_cons, List.map_nil, List.sum_cons, List.sum_nil, e1, e2, spins, List.getD_cons_succ, List.getD_cons_zero] at h3
    have e3 : ((1 : ℤ) : ℝ) * Real.exp (-1) + (((-1 : ℤ) : ℝ) * Real.exp (- -3) + 0) = Real.exp (-1) - Real.exp 3 := by
      push_cast
      rw [neg_neg]
      ring
    rw [e3, neg_neg, add_zero] at h3
    refine h3.trans (le_trans (le_of_eq ?_) hbnd)
    norm_num

/-- Non-vacuity of C137_overflow. -/
example : mchIsingFl finestArith (.node (.leaf 0) (.leaf 1)) (.node (.leaf 0) (.leaf 1)) (fun _ => .node (.leaf 0) (.leaf 1))
      (fun _ => .node (.leaf 0) (.leaf 1)) 2 [[1, 1], [1, -1]] ([100, 100, 100].map .num) = .ok [.nan, .nan, .nan] := by
  have e1 : isingCalcERow ([100, 100, 100] : List ℝ) [1, 1] = -300 := by
    have e : ([100, 100, 100] : List ℝ) = ([100, 100, 100] : List ℤ).map Int.cast := by norm_num
    rw [e, cast_energy, show isingCalcERow ([100, 100, 100] : List ℤ) [1, 1] = -300 by decide +kernel]
    norm_num
  exact C137_overflow finestArith (1 / 2 ^ 60) finestArith_ieee finestArith_accurate 2 100 [[1, 1], [1, -1]] (by simp) (by simp)
    (by simp) [100, 100, 100] rfl (by
      intro v hv
      simp only [List.mem_cons, List.not_mem_nil, or_false, or_self] at hv
      subst hv
      exact ⟨by exact_mod_cast finest_nat 100, by norm_num⟩) (by norm_num) _ two_adds _ two_adds _ (fun _ => two_adds) _
    (fun _ => two_adds) 54 (fun y hy => by
      show (2 : ℝ) ^ 53 < finest (Real.exp y)
      have h2 : (2 : ℝ) ≤ Real.exp 1 := by
        have := Real.add_one_le_exp (1 : ℝ)
        linarith
      have h3 : Real.exp 1 ^ 54 = Real.exp ((54 : ℕ) : ℝ) := by rw [← Real.exp_nat_mul, mul_one]
      have h4 := pow_le_pow_left₀ (by norm_num) h2 54
      rw [h3] at h4
      have h6 : Real.exp ((54 : ℕ) : ℝ) ≤ Real.exp y := Real.exp_le_exp.2 (by push_cast; linarith)
      have h7 : ((2 ^ 54 : ℕ) : ℝ) = 2 ^ 54 := by norm_num
      have h5 := finest_mono (h7.le.trans (h4.trans h6))
      rw [finest_nat] at h5
      refine lt_of_lt_of_le ?_ h5
      norm_num) [1, 1] (by simp) (by
      rw [← isingCalcERow_vec 2 _ rfl _ rfl, e1]
      norm_num)

end Verif.Props
