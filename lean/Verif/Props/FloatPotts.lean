/-
C135: pseudolikelihood of the Potts model in floating-point arithmetic.
-/
import Verif.Lemmas.FloatPotts
import Verif.Props.FloatPseudo

namespace Verif.Props
open Verif Verif.Model Verif.Spec Verif.Lemmas FlArith

theorem neg_map (ed : List ℝ) : (ed.map Fl.num ++ [Fl.num 0]).map neg = (ed.map (fun e => -e) ++ [0]).map .num := by
  rw [List.map_append, List.map_append, List.map_map, List.map_map]
  congr 1
  show [Fl.num (-0)] = [Fl.num 0]
  rw [neg_zero]

theorem row_finite {A : FlArith} (h : Ieee A) (ed : List ℝ) (hed : ∀ e ∈ ed, A.rd e = e ∧ |e| ≤ A.big) :
    ∀ v ∈ (ed.map (fun e => -e) ++ [0]).map Fl.num, Finite A v := by
  intro v hv
  obtain ⟨x, hx, rfl⟩ := List.mem_map.1 hv
  refine ⟨x, rfl, ?_⟩
  rcases List.mem_append.1 hx with hx | hx
  · obtain ⟨e, he, rfl⟩ := List.mem_map.1 hx
    rw [h.neg, (hed e he).1, abs_neg]
    exact ⟨rfl, (hed e he).2⟩
  · rw [List.mem_singleton.1 hx, abs_zero]
    exact ⟨IeeeK.rd_zero h, by linarith [IeeeK.big_ge_one h]⟩

/-- C135: the log-likelihood of one row is a number that is not positive, however large the differences of energies are, or minus
infinity if the largest number is exceeded by the logarithm itself; it is not above any of the differences. -/
theorem C135_loglikelihood (A : FlArith) (h : Ieee A) (ed : List ℝ) (hed : ∀ e ∈ ed, A.rd e = e ∧ |e| ≤ A.big)
    (hl : ed.length + 1 ≤ 2 ^ 53) (t : SumTree) (ht : t.Adds (ed.length + 1)) :
    (∃ ll, pottsRowLLFl A t (ed.map .num) = .ok (.num ll) ∧ ll ≤ 0 ∧ ∀ e ∈ ed, ll ≤ e) ∨
      pottsRowLLFl A t (ed.map .num) = .ok (.inf true) ∧ ∃ y M, 1 ≤ y ∧ y ≤ (ed.length + 1 : ℝ) ∧
        (M = 0 ∨ -M ∈ ed) ∧ A.big < A.rd (A.logf y + M) := by
  obtain ⟨M, y, h1, h2, h3, h4, h5, h6⟩ := C132_logsumexp A h _ (row_finite h ed hed) (by simp) (by simpa using hl) t
    (by simpa using ht)
  unfold pottsRowLLFl
  rw [neg_map, h5]
  rcases h6 with ⟨L, e, hL⟩ | ⟨e, hov⟩
  · rw [e]
    refine Or.inl ⟨-L, rfl, ?_, fun e he => ?_⟩
    · have := h2 0 (by simp)
      linarith
    · have := h2 (-e) (by
        refine List.mem_map_of_mem (List.mem_append_left _ ?_)
        exact List.mem_map_of_mem (f := fun e : ℝ => -e) he)
      linarith
  · rw [e]
    refine Or.inr ⟨rfl, y, M, h3, by simpa using h4, ?_, hov⟩
    obtain ⟨x, hx, e1⟩ := List.mem_map.1 h1
    injection e1 with e1
    subst e1
    rcases List.mem_append.1 hx with hx | hx
    · obtain ⟨e, he, rfl⟩ := List.mem_map.1 hx
      exact Or.inr (by rwa [neg_neg])
    · exact Or.inl (List.mem_singleton.1 hx)

/-- The signs. -/
theorem sgn_cases (x y b : ℤ) : (fieldSgn x y b = 0 ∨ fieldSgn x y b = 1 ∨ fieldSgn x y b = -1) ∧
    (couplingSgn x y b = 0 ∨ couplingSgn x y b = 1 ∨ couplingSgn x y b = -1) := by
  constructor
  · unfold fieldSgn
    split
    · simp
    · split <;> simp
  · unfold couplingSgn
    split
    · simp
    · split <;> simp

theorem numDen_num (A : FlArith) (h : Ieee A) (hd : ∀ x, A.rd x = x → A.rd (2 * x) = 2 * x) (hmono : Monotone A.expf)
    (ed : List ℝ) (B : ℝ) (hB : A.rd B = B) (he : ∀ e ∈ ed, 0 ≤ A.expf (-e) ∧ A.expf (-e) ≤ B) (hbig : 2 ^ ed.length * B ≤ A.big)
    (hB0 : 0 ≤ B) (ll : ℝ) (hll : ll ≤ 0) (states : List ℕ) (hs : states.length = ed.length) (sgn : ℤ → ℝ)
    (hsgn : ∀ b, sgn b = 0 ∨ sgn b = 1 ∨ sgn b = -1) :
    ∃ w, pottsNumDenFl A (.num ll) (ed.map .num) states sgn = .num w ∧ |w| ≤ A.big := by
  have hb1 := IeeeK.big_ge_one h
  have hBb : B ≤ A.big := by
    have : (1 : ℝ) ≤ 2 ^ ed.length := one_le_pow₀ (by norm_num)
    nlinarith
  have e1 : List.zipWith (fun e (b : ℕ) => A.mul (.num (sgn (b : ℤ))) (A.exp (neg e))) (ed.map .num) states =
      (List.zipWith (fun e (b : ℕ) => A.expf (-e) * sgn (b : ℤ)) ed states).map .num := by
    rw [List.zipWith_map_left, List.map_zipWith]
    refine List.ext_getElem (by simp) fun i h1 h2 => ?_
    simp only [List.getElem_zipWith]
    have hi : i < ed.length := by simp at h1; omega
    obtain ⟨h3, h4⟩ := he ed[i] (List.getElem_mem _)
    have e2 : A.exp (neg (.num ed[i])) = .num (A.expf (-ed[i])) := if_neg (by linarith)
    rw [e2]
    have := mul_coeff_big h (h.exp_rd (-ed[i])) (by rw [abs_of_nonneg h3]; linarith) (hsgn states[i])
    rw [← this]
    show A.round _ = A.round _
    rw [mul_comm]
  have hterm : ∀ v ∈ List.zipWith (fun e (b : ℕ) => A.expf (-e) * sgn (b : ℤ)) ed states, |v| ≤ B := by
    intro v hv
    obtain ⟨i, hi, rfl⟩ := List.getElem_of_mem hv
    rw [List.getElem_zipWith]
    have hi' : i < ed.length := by simp at hi; omega
    obtain ⟨h3, h4⟩ := he (ed[i]'hi') (List.getElem_mem _)
    rw [abs_mul, abs_of_nonneg h3]
    rcases hsgn (states[i]'(by omega) : ℕ) with e | e | e <;> rw [e] <;> simp <;> linarith
  have hlen : (List.zipWith (fun e (b : ℕ) => A.expf (-e) * sgn (b : ℤ)) ed states).length = ed.length := by simp [hs]
  obtain ⟨w, h1, h2⟩ := foldl_num h hd B hB hB0 _ hterm 0 0 (by simpa using hB0) (by rw [hlen, zero_add]; exact hbig)
  rw [hlen, zero_add] at h2
  have hw : |w| ≤ A.big := h2.trans hbig
  unfold pottsNumDenFl
  rw [e1, h1]
  have h3 : 1 ≤ A.expf (-ll) := by
    have := hmono (show 0 ≤ -ll by linarith)
    rwa [h.exp_zero] at this
  show ∃ w', A.div (.num w) (neg (if A.big < A.expf (-ll) then _ else _)) = _ ∧ _
  split
  · exact ⟨0, rfl, by rw [abs_zero]; linarith⟩
  · have h4 : |w / -A.expf (-ll)| ≤ A.big := by
      rw [abs_div, abs_neg, abs_of_pos (show 0 < A.expf (-ll) by linarith), div_le_iff₀ (by linarith)]
      nlinarith [abs_nonneg w]
    have h5 := IeeeK.rd_abs_le h h4
    refine ⟨A.rd (w / -A.expf (-ll)), ?_, h5⟩
    show (if -A.expf (-ll) = 0 then _ else _) = _
    rw [if_neg (by linarith)]
    exact IeeeK.round_num h h5

/-- C135: as long as the exponentials stay below the largest number by a factor of a power of two, all derivatives are numbers. -/
theorem C135_gradient_partial (A : FlArith) (h : Ieee A) (hd : ∀ x, A.rd x = x → A.rd (2 * x) = 2 * x) (hmono : Monotone A.expf)
    (k : ℕ) (x : ℤ) (xs : List ℤ) (ed : List ℝ) (hed : ∀ e ∈ ed, A.rd e = e ∧ |e| ≤ A.big / 2)
    (hl : ed.length + 1 ≤ 2 ^ 53) (hlog : ∀ y, 1 ≤ y → y ≤ (ed.length + 1 : ℝ) → A.logf y ≤ A.big / 2)
    (B : ℝ) (hB : A.rd B = B) (hB0 : 0 ≤ B) (he : ∀ e ∈ ed, 0 ≤ A.expf (-e) ∧ A.expf (-e) ≤ B)
    (hbig : 2 ^ ed.length * B ≤ A.big) (states : List ℕ) (hs : states.length = ed.length) (t : SumTree) (ht : t.Adds (ed.length + 1)) :
    ∃ ll d, pottsRowFl A t k x xs (ed.map .num) states = .ok (.num ll, d) ∧ ll ≤ 0 ∧ d.length = k + xs.length ∧
      ∀ v ∈ d, Between (-A.big) A.big v := by
  have hb1 := IeeeK.big_ge_one h
  rcases C135_loglikelihood A h ed (fun e he => ⟨(hed e he).1, by linarith [(hed e he).2]⟩) hl t ht with
    ⟨ll, h1, h2, -⟩ | ⟨-, y, M, h3, h4, h5, h6⟩
  · have key : ∀ sgn : ℤ → ℝ, (∀ b, sgn b = 0 ∨ sgn b = 1 ∨ sgn b = -1) →
        Between (-A.big) A.big (pottsNumDenFl A (.num ll) (ed.map .num) states sgn) := by
      intro sgn hsgn
      obtain ⟨w, e1, e2⟩ := numDen_num A h hd hmono ed B hB he hbig hB0 ll h2 states hs sgn hsgn
      exact ⟨w, e1, (abs_le.1 e2).1, (abs_le.1 e2).2⟩
    unfold pottsRowFl
    rw [h1]
    refine ⟨ll, _, rfl, h2, by simp, fun v hv => ?_⟩
    rcases List.mem_append.1 hv with hv | hv
    · obtain ⟨hix, -, rfl⟩ := List.mem_map.1 hv
      exact key _ fun b => (sgn_cases _ _ _).1
    · obtain ⟨xj, -, rfl⟩ := List.mem_map.1 hv
      exact key _ fun b => (sgn_cases _ _ _).2
  · exfalso
    have h7 := hlog y h3 h4
    have h8 : M ≤ A.big / 2 := by
      rcases h5 with rfl | h5
      · linarith
      · have := (abs_le.1 (hed _ h5).2).1
        linarith
    have := h.mono (show A.logf y + M ≤ A.big by linarith)
    rw [h.big_rd] at this
    linarith

/-- The parts of the accuracy theorem for one sign function. -/
theorem numDen_acc (A : FlArith) (ε : ℝ) (h : Ieee A) (hε : Relative A ε) (hmono : Monotone A.expf) (m R : ℝ) (ed : List ℝ)
    (hed : ∀ e ∈ ed, |e| ≤ m) (hm0 : 0 ≤ m) (hR : 0 ≤ R) (hR1 : 4 * (ε * (R + 2)) ≤ 1)
    (ha1 : ε * (ed.length * (2 ^ (ed.length + 1) + 3)) ≤ 1)
    (hr : ∀ y ≤ m + ed.length + 1, 2 ^ ed.length * A.expf y ≤ A.big) (L : ℝ)
    (hL : |L - Real.log (((ed ++ [0]).map fun e => Real.exp (-e)).sum)| ≤ ε * R)
    (states : List ℕ) (hs : states.length = ed.length) (sgn : ℤ → ℝ) (hsgn : ∀ b, sgn b = 0 ∨ sgn b = 1 ∨ sgn b = -1) :
    ∃ w, pottsNumDenFl A (.num (-L)) (ed.map .num) states sgn = .num w ∧
      |w - pottsNumDen ed states sgn| ≤ ε * (2 * (ed.length * (2 ^ (ed.length + 1) + 3)) + 2 * (2 * R + 3) + 5) := by
  have hε0 := hε.nonneg
  have hb1 := IeeeK.big_ge_one h
  have hB1 : 1 / A.big ≤ 1 := by rw [div_le_one (by linarith)]; exact hb1
  have hpow : (1 : ℝ) ≤ 2 ^ ed.length := one_le_pow₀ (by norm_num)
  have hexpb : ∀ y ≤ m + ed.length + 1, A.expf y ≤ A.big := fun y hy => by
    have := hr y hy
    have h2 := hε.exp_nonneg y
    nlinarith
  have hlen0 : (0 : ℝ) ≤ ed.length := Nat.cast_nonneg _
  obtain ⟨Z, hZ⟩ : ∃ Z, Z = ((ed ++ [0]).map fun e => Real.exp (-e)).sum := ⟨_, rfl⟩
  have hle : ∀ e ∈ ed ++ [0], Real.exp (-e) ≤ Z := by
    intro e he
    rw [hZ]
    exact List.single_le_sum (fun y hy => by
      obtain ⟨v, -, rfl⟩ := List.mem_map.1 hy
      exact (Real.exp_pos _).le) _ (List.mem_map_of_mem (f := fun e : ℝ => Real.exp (-e)) he)
  have hZ1 : 1 ≤ Z := by
    have := hle 0 (by simp)
    rwa [neg_zero, Real.exp_zero] at this
  rw [← hZ] at hL
  -- the largest exponential
  obtain ⟨M, hM1, hM2, hM3⟩ : ∃ M, M ≤ m ∧ (∀ e ∈ ed, -e ≤ M) ∧ Real.exp M ≤ Z := by
    clear hs hL hZ ha1 hr hexpb hpow hlen0
    have key : ∀ l : List ℝ, (∀ e ∈ l, |e| ≤ m) → (∀ e ∈ l ++ [0], Real.exp (-e) ≤ Z) →
        ∃ M, M ≤ m ∧ (∀ e ∈ l, -e ≤ M) ∧ Real.exp M ≤ Z := by
      intro l
      induction l with
      | nil => exact fun _ _ => ⟨0, hm0, by simp, by rw [Real.exp_zero]; exact hZ1⟩
      | cons v l ih =>
        intro h1 h2
        obtain ⟨M, g1, g2, g3⟩ := ih (fun e he => h1 e (by simp [he])) fun e he => h2 e (by
          rw [List.cons_append]
          exact List.mem_cons_of_mem _ he)
        refine ⟨max (-v) M, max_le ?_ g1, fun e he => ?_, ?_⟩
        · have := (abs_le.1 (h1 v (by simp))).1
          linarith
        · rcases List.mem_cons.1 he with rfl | he
          · exact le_max_left _ _
          · exact (g2 e he).trans (le_max_right _ _)
        · rcases max_cases (-v) M with ⟨e, -⟩ | ⟨e, -⟩ <;> rw [e]
          · exact h2 v (by simp)
          · exact g3
    exact key ed hed hle
  have hMr : M ≤ m + ed.length + 1 := by linarith
  have hBr := hr M hMr
  have hB0 := hε.exp_nonneg M
  have hB2 : A.expf M ≤ 2 * Z := by
    have h1 := (abs_le.1 (hε.exp M (hexpb M hMr))).2
    have h2 : ε * (Real.exp M + 1 / A.big) ≤ 1 / 8 * (Real.exp M + 1) :=
      mul_le_mul hε.small (by linarith) (by positivity) (by norm_num)
    linarith
  have hein : ∀ e ∈ ed, A.expf (-e) ≤ A.expf M ∧ A.expf (-e) ≤ A.big := fun e he => by
    have := hM2 e he
    exact ⟨hmono this, hexpb _ (by linarith)⟩
  -- the numerator
  have e1 : List.zipWith (fun e (b : ℕ) => A.mul (.num (sgn (b : ℤ))) (A.exp (neg e))) (ed.map .num) states =
      (List.zipWith (fun e (b : ℕ) => A.expf (-e) * sgn (b : ℤ)) ed states).map .num := by
    rw [List.zipWith_map_left, List.map_zipWith]
    refine List.ext_getElem (by simp) fun i h1 h2 => ?_
    simp only [List.getElem_zipWith]
    have hi : i < ed.length := by simp at h1; omega
    have h4 := (hein ed[i] (List.getElem_mem _)).2
    have e2 : A.exp (neg (.num ed[i])) = .num (A.expf (-ed[i])) := if_neg (by linarith)
    rw [e2]
    have := mul_coeff_big h (h.exp_rd (-ed[i])) (by rw [abs_of_nonneg (hε.exp_nonneg _)]; exact h4) (hsgn states[i])
    rw [← this]
    show A.round _ = A.round _
    rw [mul_comm]
  have hsg1 : ∀ b, |sgn b| ≤ 1 := fun b => by rcases hsgn b with e | e | e <;> rw [e] <;> norm_num
  have hterm : ∀ v ∈ List.zipWith (fun e (b : ℕ) => A.expf (-e) * sgn (b : ℤ)) ed states, |v| ≤ A.expf M := by
    intro v hv
    obtain ⟨i, hi, rfl⟩ := List.getElem_of_mem hv
    rw [List.getElem_zipWith]
    have hi' : i < ed.length := by simp at hi; omega
    have h3 := (hein (ed[i]'hi') (List.getElem_mem _)).1
    have h4 := hε.exp_nonneg (-(ed[i]'hi'))
    rw [abs_mul, abs_of_nonneg h4]
    have := mul_le_mul_of_nonneg_left (hsg1 (states[i]'(by omega) : ℕ)) h4
    linarith
  have hlen : (List.zipWith (fun e (b : ℕ) => A.expf (-e) * sgn (b : ℤ)) ed states).length = ed.length := by simp [hs]
  obtain ⟨u, hu1, hu2⟩ := foldl_rel h hε (A.expf M) (h.exp_rd M) hB0 _ hterm ed.length 0 (by rw [hlen, zero_add]) 0
    (by simpa using hB0) hBr
  rw [hlen, zero_add] at hu2
  have hsum : |(List.zipWith (fun e (b : ℕ) => A.expf (-e) * sgn (b : ℤ)) ed states).sum -
      (List.zipWith (fun e (b : ℕ) => sgn (b : ℤ) * Real.exp (-e)) ed states).sum| ≤ ed.length * (ε * (2 * Z)) := by
    have hd : ∀ e ∈ ed, |A.expf (-e) - Real.exp (-e)| ≤ ε * (2 * Z) := fun e he => by
      refine (hε.exp _ (hein e he).2).trans (mul_le_mul_of_nonneg_left ?_ hε0)
      have := hle e (List.mem_append_left _ he)
      linarith
    clear hu1 hu2 hlen hterm e1 hein hM2 hr hexpb ha1 hpow hlen0 hle hZ hed hBr hMr
    induction ed generalizing states with
    | nil => simp
    | cons e ed ih =>
      cases states with
      | nil => simp at hs
      | cons b states =>
        have h1 := ih states (by simpa using hs) fun e he => hd e (by simp [he])
        have h2 := hd e (by simp)
        rw [List.zipWith_cons_cons, List.zipWith_cons_cons, List.sum_cons, List.sum_cons, List.length_cons]
        have h3 : |A.expf (-e) * sgn b - sgn b * Real.exp (-e)| ≤ ε * (2 * Z) := by
          rw [mul_comm (sgn b), ← sub_mul, abs_mul]
          have := mul_le_mul_of_nonneg_left (hsg1 b) (abs_nonneg (A.expf (-e) - Real.exp (-e)))
          linarith
        have h4 := abs_add_le (A.expf (-e) * sgn b - sgn b * Real.exp (-e))
          ((List.zipWith (fun e (b : ℕ) => A.expf (-e) * sgn (b : ℤ)) ed states).sum -
            (List.zipWith (fun e (b : ℕ) => sgn (b : ℤ) * Real.exp (-e)) ed states).sum)
        rw [add_sub_add_comm]
        push_cast
        linarith
  have hNZ : |(List.zipWith (fun e (b : ℕ) => sgn (b : ℤ) * Real.exp (-e)) ed states).sum| ≤ Z := by
    have : |(List.zipWith (fun e (b : ℕ) => sgn (b : ℤ) * Real.exp (-e)) ed states).sum| ≤ (ed.map fun e => Real.exp (-e)).sum := by
      clear hsum hu1 hu2 hlen hterm e1 hein hM2 hr hexpb ha1 hpow hlen0 hle hZ hed hBr hMr
      induction ed generalizing states with
      | nil => simp
      | cons e ed ih =>
        cases states with
        | nil => simp at hs
        | cons b states =>
          have h1 := ih states (by simpa using hs)
          rw [List.zipWith_cons_cons, List.sum_cons, List.map_cons, List.sum_cons]
          refine (abs_add_le _ _).trans (add_le_add ?_ h1)
          rw [abs_mul, abs_of_pos (Real.exp_pos _)]
          have := mul_le_mul_of_nonneg_right (hsg1 b) (Real.exp_pos (-e)).le
          linarith
    rw [hZ, List.map_append, List.sum_append]
    refine this.trans ?_
    simp
  -- the denominator
  have hLr : L ≤ m + ed.length + 1 := by
    have h2 : Real.log Z ≤ m + ed.length := by
      have h3 : Z ≤ (ed.length + 1) * Real.exp m := by
        rw [hZ, List.map_append, List.sum_append]
        have h4 : (ed.map fun e => Real.exp (-e)).sum ≤ ed.length * Real.exp m := by
          have := List.sum_le_card_nsmul (ed.map fun e => Real.exp (-e)) (Real.exp m) (fun y hy => by
            obtain ⟨e, he, rfl⟩ := List.mem_map.1 hy
            exact Real.exp_le_exp.2 (by linarith [(abs_le.1 (hed e he)).1]))
          simpa using this
        have h5 : 1 ≤ Real.exp m := Real.one_le_exp hm0
        simp only [List.map_cons, List.map_nil, List.sum_cons, List.sum_nil, neg_zero, Real.exp_zero]
        linarith
      have h4 := Real.log_le_log (by linarith) h3
      rw [Real.log_mul (by positivity) (Real.exp_pos _).ne', Real.log_exp] at h4
      have h5 := Real.log_le_sub_one_of_pos (x := (ed.length + 1 : ℝ)) (by positivity)
      linarith
    have h3 := (abs_le.1 hL).2
    linarith
  have hLb := hexpb L hLr
  have hden := den_acc hε0 hε.small hb1 hZ1 hR (by linarith) hL (hε.exp L hLb)
  unfold pottsNumDenFl
  rw [e1, hu1]
  have e3 : neg (A.exp (neg (.num (-L)))) = .num (-A.expf L) := by
    show neg (if A.big < A.expf (- -L) then _ else _) = _
    rw [neg_neg, if_neg (by linarith)]
    rfl
  rw [e3]
  have hu3 : |u - (List.zipWith (fun e (b : ℕ) => sgn (b : ℤ) * Real.exp (-e)) ed states).sum| ≤
      ε * (ed.length * (2 ^ (ed.length + 1) + 3)) * Z := by
    have h1 := abs_add_le (u - (List.zipWith (fun e (b : ℕ) => A.expf (-e) * sgn (b : ℤ)) ed states).sum)
      ((List.zipWith (fun e (b : ℕ) => A.expf (-e) * sgn (b : ℤ)) ed states).sum -
        (List.zipWith (fun e (b : ℕ) => sgn (b : ℤ) * Real.exp (-e)) ed states).sum)
    rw [sub_add_sub_cancel] at h1
    have h2 : (2 : ℝ) ^ ed.length * A.expf M + 1 ≤ (2 ^ (ed.length + 1) + 1) * Z := by
      rw [pow_succ]
      have := mul_le_mul_of_nonneg_left hB2 (by linarith : (0 : ℝ) ≤ 2 ^ ed.length)
      nlinarith
    have h3 : (ed.length : ℝ) * (ε * (2 ^ ed.length * A.expf M + 1)) ≤ ed.length * (ε * ((2 ^ (ed.length + 1) + 1) * Z)) :=
      mul_le_mul_of_nonneg_left (mul_le_mul_of_nonneg_left h2 hε0) hlen0
    refine h1.trans ((add_le_add (hu2.trans h3) hsum).trans (le_of_eq ?_))
    ring
  have hd1 : ε * (2 * R + 3) ≤ 1 / 2 := by linarith
  have hD2 : Z / 2 ≤ A.expf L := by
    have := (abs_le.1 hden).1
    nlinarith
  have hquot := quot_acc hε0 hb1 ha1 hd1 hZ1 hNZ hu3 hden (hε.rd (u / -A.expf L))
  refine ⟨A.rd (u / -A.expf L), ?_, ?_⟩
  · show (if -A.expf L = 0 then _ else _) = _
    rw [if_neg (by linarith)]
    refine IeeeK.round_num h (IeeeK.rd_abs_le h ?_)
    have hub : |u| ≤ 2 * Z := by
      have h1 := abs_add_le (u - (List.zipWith (fun e (b : ℕ) => sgn (b : ℤ) * Real.exp (-e)) ed states).sum)
        ((List.zipWith (fun e (b : ℕ) => sgn (b : ℤ) * Real.exp (-e)) ed states).sum)
      rw [sub_add_cancel] at h1
      nlinarith
    have hbig : (4 : ℝ) ≤ A.big := le_trans (by norm_num) h.big
    rw [abs_div, abs_neg, abs_of_pos (show 0 < A.expf L by linarith), div_le_iff₀ (by linarith)]
    nlinarith
  · have e4 : pottsNumDen ed states sgn = (List.zipWith (fun e (b : ℕ) => sgn (b : ℤ) * Real.exp (-e)) ed states).sum / -Z := by
      unfold pottsNumDen pottsRowLL
      rw [neg_neg, ← hZ, Real.exp_log (by linarith)]
    rw [e4]
    exact hquot

/-- C135: accuracy. As long as the exponentials stay in range, log-likelihood and derivatives of one row are close to their
exact values. -/
theorem C135_accuracy_partial (A : FlArith) (ε : ℝ) (h : Ieee A) (ha : Accurate A ε) (hε : Relative A ε) (hmono : Monotone A.expf)
    (k : ℕ) (x : ℤ) (xs : List ℤ) (m : ℝ) (ed : List ℝ) (hed : ∀ e ∈ ed, A.rd e = e ∧ |e| ≤ m) (hm0 : 0 ≤ m)
    (hm : m ≤ A.big / 8) (hl : ed.length + 1 ≤ 2 ^ 50) (hsm : 4 * (ε * errScale (ed.length + 1) m) ≤ 1)
    (ha1 : ε * (ed.length * (2 ^ (ed.length + 1) + 3)) ≤ 1)
    (hr : ∀ y ≤ m + ed.length + 1, 2 ^ ed.length * A.expf y ≤ A.big)
    (states : List ℕ) (hs : states.length = ed.length) (t : SumTree) (ht : t.Adds (ed.length + 1)) :
    ∃ (ll : ℝ) (d : List ℝ), pottsRowFl A t k x xs (ed.map .num) states = .ok (.num ll, d.map .num) ∧ d.length = k + xs.length ∧
      |ll - pottsRowLL ed| ≤ ε * errScale (ed.length + 1) m ∧
      ∀ i < k + xs.length, |d.getD i 0 - (((List.range k).map fun hix : ℕ => pottsNumDen ed states (fieldSgn x (hix : ℤ))) ++
          xs.map fun xj => pottsNumDen ed states (couplingSgn x xj)).getD i 0| ≤
        ε * (2 * (ed.length * (2 ^ (ed.length + 1) + 3)) + 4 * errScale (ed.length + 1) m) := by
  have hε0 := hε.nonneg
  have hlen : (ed.map (fun e => -e) ++ [(0 : ℝ)]).length = ed.length + 1 := by simp
  have H : Energies A ε m (ed.map (fun e => -e) ++ [0]) :=
    { ieee := h
      acc := ha
      rd := fun v hv => by
        rcases List.mem_append.1 hv with hv | hv
        · obtain ⟨e, he, rfl⟩ := List.mem_map.1 hv
          rw [h.neg, (hed e he).1]
        · rw [List.mem_singleton.1 hv]
          exact IeeeK.rd_zero h
      le := fun v hv => by
        rcases List.mem_append.1 hv with hv | hv
        · obtain ⟨e, he, rfl⟩ := List.mem_map.1 hv
          rw [abs_neg]
          exact (hed e he).2
        · rw [List.mem_singleton.1 hv, abs_zero]
          exact hm0
      big := hm
      ne := by simp
      len := by rw [hlen]; exact hl
      small := by rw [hlen]; exact_mod_cast hsm }
  obtain ⟨M, L, h1, -, -, -, h5, -, -, h8, -⟩ := H.lse t (by rw [hlen]; exact ht)
  rw [hlen] at h8
  have hZ : M + Real.log ((ed.map (fun e => -e) ++ [0]).map fun v => Real.exp (v - M)).sum =
      Real.log (((ed ++ [0]).map fun e => Real.exp (-e)).sum) := by
    have e1 : ((ed ++ [0]).map fun e => Real.exp (-e)).sum = ((ed.map (fun e => -e) ++ [0]).map Real.exp).sum := by
      simp [List.map_append, Function.comp_def]
    rw [e1, sum_exp_shift _ M, Real.log_mul (Real.exp_pos _).ne', Real.log_exp]
    have h9 : 0 < ((ed.map (fun e => -e) ++ [0]).map fun v => Real.exp (v - M)).sum := by
      refine lt_of_lt_of_le (Real.exp_pos (M - M)) (List.single_le_sum (fun y hy => ?_) _
        (List.mem_map_of_mem (f := fun v => Real.exp (v - M)) h1))
      obtain ⟨v, -, rfl⟩ := List.mem_map.1 hy
      exact (Real.exp_pos _).le
    exact h9.ne'
  rw [hZ] at h8
  push_cast at h8
  obtain ⟨R, hRd⟩ : ∃ R : ℝ, R = (ed.length + 1) ^ 2 + 7 * (ed.length + 1) + m := ⟨_, rfl⟩
  rw [← hRd] at h8
  have hlen0 : (0 : ℝ) ≤ ed.length := Nat.cast_nonneg _
  have hR0 : 0 ≤ R := by rw [hRd]; positivity
  have hRs : R + 2 ≤ errScale (ed.length + 1) m ∧ 4 * R + 11 ≤ 4 * errScale (ed.length + 1) m := by
    rw [hRd]
    unfold errScale
    push_cast
    constructor <;> nlinarith
  have hR1 : 4 * (ε * (R + 2)) ≤ 1 := by
    have := mul_le_mul_of_nonneg_left hRs.1 hε0
    linarith
  have key : ∀ sgn : ℤ → ℝ, (∀ b, sgn b = 0 ∨ sgn b = 1 ∨ sgn b = -1) →
      ∃ w, pottsNumDenFl A (.num (-L)) (ed.map .num) states sgn = .num w ∧
        |w - pottsNumDen ed states sgn| ≤ ε * (2 * (ed.length * (2 ^ (ed.length + 1) + 3)) + 4 * errScale (ed.length + 1) m) := by
    intro sgn hsgn
    obtain ⟨w, e1, e2⟩ := numDen_acc A ε h hε hmono m R ed (fun e he => (hed e he).2) hm0 hR0 hR1 ha1 hr L h8 states hs sgn hsgn
    exact ⟨w, e1, e2.trans (mul_le_mul_of_nonneg_left (by linarith [hRs.2]) hε0)⟩
  have e5 : pottsRowLLFl A t (ed.map .num) = .ok (.num (-L)) := by
    unfold pottsRowLLFl
    rw [neg_map, h5]
    rfl
  have kf := fun hix : ℕ => key (fieldSgn x (hix : ℤ)) fun b => (sgn_cases _ _ _).1
  have kc := fun xj : ℤ => key (couplingSgn x xj) fun b => (sgn_cases _ _ _).2
  choose f hf1 hf2 using kf
  choose g hg1 hg2 using kc
  refine ⟨-L, (List.range k).map f ++ xs.map g, ?_, by simp, ?_, fun i hi => ?_⟩
  · unfold pottsRowFl
    rw [e5]
    refine congrArg Except.ok (Prod.ext rfl ?_)
    dsimp only
    rw [List.map_append, List.map_map, List.map_map]
    congr 1
    · exact List.map_congr_left fun hix _ => hf1 hix
    · exact List.map_congr_left fun xj _ => hg1 xj
  · unfold pottsRowLL
    rw [← neg_sub', abs_neg]
    exact h8.trans (mul_le_mul_of_nonneg_left (by linarith [hRs.1]) hε0)
  · by_cases hik : i < k
    · rw [List.getD_append _ _ _ _ (by simpa using hik), List.getD_append _ _ _ _ (by simpa using hik),
        List.getD_eq_getElem _ _ (by simpa using hik), List.getD_eq_getElem _ _ (by simpa using hik), List.getElem_map,
        List.getElem_map, List.getElem_range]
      exact hf2 i
    · have hi2 : i - k < xs.length := by omega
      rw [List.getD_append_right _ _ _ _ (by simpa using hik), List.getD_append_right _ _ _ _ (by simpa using hik)]
      simp only [List.length_map, List.length_range]
      rw [List.getD_eq_getElem _ _ (by simpa using hi2), List.getD_eq_getElem _ _ (by simpa using hi2), List.getElem_map,
        List.getElem_map]
      exact hg2 _

/-- C135: overflow. If the exponential of one difference of energies is infinite, then all derivatives of the row are NaN, with
respect to fields and couplings, also those whose exact value is 0. -/
theorem C135_overflow (A : FlArith) (h : Ieee A) (hmono : Monotone A.expf) (k : ℕ) (x : ℤ) (xs : List ℤ) (ed : List ℝ)
    (hed : ∀ e ∈ ed, A.rd e = e ∧ |e| ≤ A.big) (hl : ed.length + 1 ≤ 2 ^ 53) (states : List ℕ) (hs : states.length = ed.length)
    (t : SumTree) (ht : t.Adds (ed.length + 1)) (e : ℝ) (he : e ∈ ed) (hov : A.big < A.expf (-e)) :
    ∃ ll, pottsRowFl A t k x xs (ed.map .num) states = .ok (ll, List.replicate (k + xs.length) .nan) := by
  obtain ⟨ll, h1, h2⟩ : ∃ ll, pottsRowLLFl A t (ed.map .num) = .ok ll ∧ A.exp (neg ll) = .inf false := by
    rcases C135_loglikelihood A h ed hed hl t ht with ⟨ll, h1, -, h2⟩ | ⟨h1, -⟩
    · refine ⟨_, h1, ?_⟩
      show (if A.big < A.expf (-ll) then _ else _) = _
      rw [if_pos (lt_of_lt_of_le hov (hmono (by linarith [h2 e he])))]
    · exact ⟨_, h1, rfl⟩
  have key : ∀ sgn : ℤ → ℝ, pottsNumDenFl A ll (ed.map .num) states sgn = .nan := by
    intro sgn
    unfold pottsNumDenFl
    rw [h2]
    refine div_lost (lost_foldl _ _ (Or.inr ?_)) true
    obtain ⟨i, hi, rfl⟩ := List.getElem_of_mem he
    refine ⟨A.mul (.num (sgn (states[i]'(by omega) : ℕ))) (A.exp (neg (.num ed[i]))), ?_, ?_⟩
    · refine List.mem_iff_getElem.2 ⟨i, by simp; omega, ?_⟩
      rw [List.getElem_zipWith, List.getElem_map]
    · have : A.exp (neg (.num ed[i])) = .inf false := if_pos hov
      rw [this]
      exact mul_inf_lost _
  refine ⟨ll, ?_⟩
  unfold pottsRowFl
  rw [h1]
  refine congrArg Except.ok (Prod.ext rfl (List.eq_replicate_iff.2 ⟨by simp, fun v hv => ?_⟩))
  rcases List.mem_append.1 hv with hv | hv
  · obtain ⟨hix, -, rfl⟩ := List.mem_map.1 hv
    exact key _
  · obtain ⟨xj, -, rfl⟩ := List.mem_map.1 hv
    exact key _

/-- C135: an instance: one spin with two states, observed in state 0, where state 1 has an energy that is lower by 800. The
derivatives are NaN in any arithmetic in which `exp(800)` is infinite; exactly, they are between -1 and 1. -/
theorem C135_overflow_witness (A : FlArith) (h : Ieee A) (hmono : Monotone A.expf) (hov : A.big < A.expf 800) :
    (∃ ll, pottsRowFl A (.node (.leaf 0) (.leaf 1)) 2 0 [] [.num (-800)] [1] = .ok (ll, [.nan, .nan])) ∧
    (∀ hix, |pottsNumDen [-800] [1] (fieldSgn 0 hix)| < 1) ∧ pottsRowLL [-800] < -800 := by
  have h800 : A.rd 800 = 800 := by exact_mod_cast h.nat 800 (by norm_num)
  have hbig : (1000 : ℝ) ≤ A.big := le_trans (by norm_num) h.big
  refine ⟨?_, fun hix => ?_, ?_⟩
  · exact C135_overflow A h hmono 2 0 [] [-800] (by
      intro e he
      rw [List.mem_singleton.1 he, h.neg, h800, abs_neg]
      refine ⟨rfl, ?_⟩
      norm_num
      linarith) (by norm_num) [1] rfl _ (by show List.Perm _ _; decide) (-800) (by simp) (by rwa [neg_neg])
  · have hX := Real.exp_pos 800
    have e1 : pottsNumDen [-800] [1] (fieldSgn 0 hix) = fieldSgn 0 hix 1 * (Real.exp 800 / -(1 + Real.exp 800)) := by
      unfold pottsNumDen pottsRowLL
      rw [neg_neg]
      simp only [List.cons_append, List.nil_append, List.map_cons, List.map_nil, List.sum_cons, List.sum_nil, List.zipWith_cons_cons,
        List.zipWith_nil_left, neg_neg, neg_zero, Real.exp_zero, add_zero]
      rw [Real.exp_log (by linarith), add_comm (Real.exp 800) 1, mul_div_assoc]
      norm_num
    have h2 : |Real.exp 800 / -(1 + Real.exp 800)| < 1 := by
      rw [abs_div, abs_neg, abs_of_pos hX, abs_of_pos (by linarith), div_lt_one (by linarith)]
      linarith
    rw [e1, abs_mul]
    rcases (sgn_cases 0 hix 1).1 with e | e | e <;> rw [e] <;> simp <;> simpa using h2
  · unfold pottsRowLL
    simp only [List.cons_append, List.nil_append, List.map_cons, List.map_nil, List.sum_cons, List.sum_nil, neg_neg, neg_zero,
      Real.exp_zero, add_zero]
    have := Real.log_lt_log (Real.exp_pos 800) (show Real.exp 800 < Real.exp 800 + 1 by linarith)
    rw [Real.log_exp] at this
    linarith

theorem fine_exp_mono : Monotone fineArith.expf := fun _ _ hxy => fine_mono (Real.exp_le_exp.2 hxy)

/-- Non-vacuity of C135_loglikelihood and C135_gradient_partial: differences -3 and 2, numbers cut off after 70 binary places. -/
example : ∃ ll d, pottsRowFl fineArith (.node (.node (.leaf 2) (.leaf 0)) (.leaf 1)) 3 1 [1, 2] ([-3, 2].map .num) [0, 2] =
    .ok (.num ll, d) ∧ ll ≤ 0 ∧ d.length = 3 + [(1 : ℤ), 2].length ∧ ∀ v ∈ d, Between (-fineArith.big) fineArith.big v := by
  have h3 : fine 3 = 3 := by exact_mod_cast fine_nat 3
  have h2 : fine 2 = 2 := by exact_mod_cast fine_nat 2
  have hb : fineArith.big = 2 ^ 53 := rfl
  have hle : ∀ e : ℝ, -e ≤ 3 → 0 ≤ fineArith.expf (-e) ∧ fineArith.expf (-e) ≤ ((27 : ℕ) : ℝ) := by
    intro e he
    refine ⟨fineArith_relative.exp_nonneg _, ?_⟩
    rw [← fine_nat 27]
    refine fine_mono ?_
    have h4 := exp_le_three_pow 3
    refine (Real.exp_le_exp.2 (show -e ≤ ((3 : ℕ) : ℝ) by push_cast; exact he)).trans (h4.trans ?_)
    norm_num
  refine C135_gradient_partial fineArith fineArith_ieee (fun x hx => fine_double hx) fine_exp_mono 3 1 [1, 2] [-3, 2] ?_
    (by norm_num) ?_ ((27 : ℕ) : ℝ) (fine_nat 27) (by norm_num) ?_ ?_ [0, 2] rfl _ (by show List.Perm _ _; decide)
  · intro e he
    simp only [List.mem_cons, List.not_mem_nil, or_false] at he
    rcases he with rfl | rfl
    · rw [fineArith_ieee.neg, hb]
      refine ⟨congrArg Neg.neg h3, ?_⟩
      norm_num
    · rw [hb]
      refine ⟨h2, ?_⟩
      norm_num
  · intro y h1 _
    have h5 : y ≤ fineArith.big := by
      rw [hb]
      rename_i h6
      norm_num at h6 ⊢
      linarith
    have := fineArith_relative.log_le y h1 h5
    rw [hb]
    norm_num
    linarith
  · intro e he
    simp only [List.mem_cons, List.not_mem_nil, or_false] at he
    rcases he with rfl | rfl <;> exact hle _ (by norm_num)
  · rw [hb]
    norm_num

theorem fine_min {y : ℝ} (hy : 0 < y) (e : fine y = y) : 1 / 2 ^ 70 ≤ y := by
  have h1 : (0 : ℝ) ≤ 262144 * y := by linarith
  have e2 : y = (⌊4503599627370496 * (262144 * y)⌋ : ℝ) / 4503599627370496 / 262144 := by
    conv_lhs => rw [← e, fine, cut, if_pos h1]
  have h2 : (1 : ℝ) ≤ (⌊4503599627370496 * (262144 * y)⌋ : ℝ) := by
    have h3 : (0 : ℝ) < (⌊4503599627370496 * (262144 * y)⌋ : ℝ) := by
      rw [e2] at hy
      rcases lt_or_ge (0 : ℝ) (⌊4503599627370496 * (262144 * y)⌋ : ℝ) with h | h
      · exact h
      · exfalso
        rw [div_div] at hy
        have := div_nonpos_of_nonpos_of_nonneg h (by norm_num : (0 : ℝ) ≤ 4503599627370496 * 262144)
        linarith
    exact_mod_cast Int.cast_pos.1 h3
  rw [e2, div_div]
  refine (le_of_eq ?_).trans (div_le_div_of_nonneg_right h2 (by norm_num))
  norm_num

theorem fineArith_accurate : Accurate fineArith (1 / 131072) where
  nonneg := by norm_num
  rd x := by
    have := fine_acc x
    have h2 := abs_nonneg x
    show |fine x - x| ≤ 1 / 131072 * (|x| + 1)
    norm_num at this ⊢
    linarith
  exp x _ := by
    have := fine_acc (Real.exp x)
    have h2 := Real.exp_pos x
    show |fine (Real.exp x) - Real.exp x| ≤ 1 / 131072 * (Real.exp x + 1)
    norm_num at this ⊢
    linarith
  log y _ := by
    have := fine_acc (Real.log y)
    have h2 := abs_nonneg (Real.log y)
    show |fine (Real.log y) - Real.log y| ≤ 1 / 131072 * (|Real.log y| + 1)
    norm_num at this ⊢
    linarith
  log_small y hy e := by
    have h1 := Real.log_le_log (by norm_num) (fine_min hy e)
    rw [one_div, Real.log_inv, Real.log_pow] at h1
    have h2 := Real.log_le_sub_one_of_pos (x := 2) (by norm_num)
    show -((2 : ℝ) ^ 53 / 8) ≤ Real.log y
    norm_num at h1 ⊢
    linarith

/-- Non-vacuity of C135_accuracy_partial: differences -3 and 2, numbers cut off after 70 binary places. -/
example : ∃ (ll : ℝ) (d : List ℝ), pottsRowFl fineArith (.node (.node (.leaf 2) (.leaf 0)) (.leaf 1)) 3 1 [1, 2]
      ([-3, 2].map .num) [0, 2] = .ok (.num ll, d.map .num) ∧ d.length = 5 ∧ |ll - pottsRowLL [-3, 2]| ≤ 49 / 131072 := by
  have h3 : fine 3 = 3 := by exact_mod_cast fine_nat 3
  have h2 : fine 2 = 2 := by exact_mod_cast fine_nat 2
  have hb : fineArith.big = 2 ^ 53 := rfl
  obtain ⟨ll, d, h4, h5, h6, -⟩ := C135_accuracy_partial fineArith (1 / 131072) fineArith_ieee fineArith_accurate fineArith_relative
    fine_exp_mono 3 1 [1, 2] 3 [-3, 2] (by
      intro e he
      simp only [List.mem_cons, List.not_mem_nil, or_false] at he
      rcases he with rfl | rfl
      · rw [fineArith_ieee.neg]
        refine ⟨congrArg Neg.neg h3, ?_⟩
        norm_num
      · refine ⟨h2, ?_⟩
        norm_num) (by norm_num) (by rw [hb]; norm_num) (by norm_num) (by norm_num [errScale]) (by norm_num) (by
      intro y hy
      have h1 : Real.exp y ≤ ((3 ^ 6 : ℕ) : ℝ) := by
        have h7 := exp_le_three_pow 6
        refine (Real.exp_le_exp.2 (show y ≤ ((6 : ℕ) : ℝ) by norm_num at hy ⊢; linarith)).trans (h7.trans (le_of_eq ?_))
        norm_num
      have h7 := fine_mono h1
      rw [fine_nat] at h7
      show (2 : ℝ) ^ 2 * fine (Real.exp y) ≤ 2 ^ 53
      norm_num at h7 ⊢
      linarith) [0, 2] rfl (.node (.node (.leaf 2) (.leaf 0)) (.leaf 1)) (by show List.Perm _ _; decide)
  refine ⟨ll, d, h4, h5, h6.trans ?_⟩
  norm_num [errScale]

/-- Non-vacuity of C135_overflow and C135_overflow_witness: in this arithmetic `exp(800)` is infinite. -/
example : ∃ ll, pottsRowFl fineArith (.node (.leaf 0) (.leaf 1)) 2 0 [] [.num (-800)] [1] = .ok (ll, [.nan, .nan]) := by
  refine (C135_overflow_witness fineArith fineArith_ieee fine_exp_mono ?_).1
  show (2 : ℝ) ^ 53 < fine (Real.exp 800)
  have h1 : ((2 ^ 54 : ℕ) : ℝ) ≤ Real.exp 800 := by
    have h2 : (2 : ℝ) ≤ Real.exp 1 := by
      have := Real.add_one_le_exp (1 : ℝ)
      linarith
    have h3 : Real.exp 1 ^ 54 = Real.exp ((54 : ℕ) : ℝ) := by rw [← Real.exp_nat_mul, mul_one]
    have h4 := pow_le_pow_left₀ (by norm_num) h2 54
    rw [h3] at h4
    have h6 : Real.exp ((54 : ℕ) : ℝ) ≤ Real.exp 800 := Real.exp_le_exp.2 (by norm_num)
    have h7 : ((2 ^ 54 : ℕ) : ℝ) = 2 ^ 54 := by norm_num
    rw [h7]
    exact h4.trans h6
  have h5 := fine_mono h1
  rw [fine_nat] at h5
  refine lt_of_lt_of_le ?_ h5
  norm_num

end Verif.Props
