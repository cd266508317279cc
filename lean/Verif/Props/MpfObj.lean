/-
C116: `MPF` from constructor to result: the search within bounds on the {0,1} parameters.
-/
import Verif.Lemmas.MpfObj
import Verif.Props.PseudoObj

namespace Verif.Props
open Verif Verif.Model Verif.Spec Verif.Lemmas

/-- ±1 data as {0,1} data. -/
def asBits (X : Data) : Data := X.map fun s => s.map fun x => if x = 1 then 1 else 0

theorem toBits_spin {n : ℕ} {X : Data} (hX : SpinData n X) : toBits X = asBits X := by
  unfold toBits asBits
  refine List.map_congr_left fun s hs => List.map_congr_left fun x hx => ?_
  have := (mem_words.1 (hX.2 s hs)).2 x hx
  simp at this
  rcases this with rfl | rfl <;> rfl

theorem spinData_rows {n : ℕ} {X : Data} (hX : SpinData n X) : ∀ s ∈ X, s.length = n ∧ ∀ x ∈ s, x = -1 ∨ x = 1 := by
  intro s hsm
  obtain ⟨h1, h2⟩ := mem_words.1 (hX.2 s hsm)
  exact ⟨h1, fun x hx => by simpa using h2 x hx⟩

theorem bits_pairs_ne {n : ℕ} (hn : 1 ≤ n) {X : Data} (hX : SpinData n X) :
    nbrPairs (toBits X) (flips fun x => 1 - x) ≠ [] := by
  obtain ⟨s, hs⟩ := List.exists_mem_of_ne_nil _ hX.1
  refine List.ne_nil_of_mem (a := (s.map fun x => (x + 1) / 2, (s.map fun x => (x + 1) / 2).set 0
    (1 - (s.map fun x => (x + 1) / 2).getD 0 0))) (mem_nbrPairs.2 ⟨List.mem_map_of_mem hs, ?_⟩)
  unfold flips
  refine List.mem_map.2 ⟨0, List.mem_range.2 ?_, rfl⟩
  rw [List.length_map, (spinData_rows hX s hs).1]
  omega

/-- The value of the function given to the library, at the {0,1} form of `r`. -/
theorem mpf_value (uniq : Data → Data) (hu : UniqSpec uniq) (n : ℕ) (hn : 1 ≤ n) (X : Data) (hX : SpinData n X)
    (uselog : Bool) (r : List ℝ) (hr : r.length = n + n * (n - 1) / 2) :
    mpfObjF .ising uniq n X true uselog (bitParams n r) =
        .ok (some (if uselog then Real.log (pairFlow n X r) else pairFlow n X r)) ∧
      probFlow (toBits X) (flips fun x => 1 - x) (pairE n (bitParams n r)) = pairFlow n X r := by
  have hl := length_bitParams n r hr
  obtain ⟨r0, e0, -, hK, hL⟩ := C74_objective uniq hu n hn X hX.1 (spinData_rows hX) (bitParams n r) hl
  obtain rfl := (e0 r).1 (converted_back n hn r hr)
  constructor
  · cases uselog
    · exact hK
    · exact hL
  · have h1 : mpfF isingCalcERow uniq X true false (bitParams n r) =
        .ok (some (probFlow (toBits X) (flips fun x => 1 - x) (isingCalcERow (bitParams n r)))) := by
      unfold mpfF
      simp only
      rw [adjacent_eq]
      simp only [Bool.false_eq_true, if_false]
      rw [C38_K uniq hu (toBits X) (by simpa [toBits] using hX.1)]
    rw [hK] at h1
    have h2 := Option.some.inj (Except.ok.inj h1)
    unfold pairFlow
    refine Eq.trans ?_ h2.symm
    unfold probFlow
    congr 1
    refine list_sum_congr fun s hs => list_sum_congr fun t ht => ?_
    obtain ⟨s0, hs0, rfl⟩ := List.mem_map.1 hs
    have l1 : (s0.map fun x => (x + 1) / 2).length = n := by rw [List.length_map, (spinData_rows hX s0 hs0).1]
    have l2 : t.length = n := by
      obtain ⟨i, -, rfl⟩ := List.mem_map.1 ht
      rw [List.length_set, l1]
    rw [isingCalcERow_vec n _ l1 _ hl, isingCalcERow_vec n _ l2 _ hl]
    rfl

theorem pairFlow_pos (n : ℕ) (hn : 1 ≤ n) (X : Data) (hX : SpinData n X) (r : List ℝ) : 0 < pairFlow n X r :=
  probFlow_pos _ hX.1 _ (fun s hsm => by
    have := (spinData_rows hX s hsm).1
    intro h
    have h' := congrArg List.length h
    simp [flips] at h'
    simp [h'] at this
    omega) _

/-- C116. The function that `MPF.solve` gives to the library is smallest within the bounds exactly at the {0,1} forms of the
±1 parameters that have the least probability flow among those whose {0,1} form is within the limit. -/
theorem C116_minimum (uniq : Data → Data) (hu : UniqSpec uniq) (n : ℕ) (hn : 1 ≤ n) (X : Data) (hX : SpinData n X)
    (uselog : Bool) (L : ℝ) (x : List ℝ) :
    BoxMinimum (n + n * (n - 1) / 2) L (mpfObjF .ising uniq n X true uselog) x ↔
      ∃ r, x = bitParams n r ∧ LeastFlowWithin n L X r := by
  have hmono : ∀ r r' : List ℝ, (if uselog then Real.log (pairFlow n X r) else pairFlow n X r) ≤
      (if uselog then Real.log (pairFlow n X r') else pairFlow n X r') ↔ pairFlow n X r ≤ pairFlow n X r' := by
    intro r r'
    cases uselog
    · rfl
    · exact Real.log_le_log_iff (pairFlow_pos n hn X hX r) (pairFlow_pos n hn X hX r')
  constructor
  · rintro ⟨hx, hb, hmin⟩
    obtain ⟨r, hr, -, rfl⟩ := converted_ex n hn x hx
    refine ⟨r, rfl, hr, hb, fun r' hr' hb' => ?_⟩
    exact (hmono r r').1 (hmin _ _ _ (length_bitParams n r' hr') hb' (mpf_value uniq hu n hn X hX uselog r hr).1
      (mpf_value uniq hu n hn X hX uselog r' hr').1)
  · rintro ⟨r, rfl, hr, hb, hmin⟩
    refine ⟨length_bitParams n r hr, hb, fun z a b hz hzb ha hb' => ?_⟩
    obtain ⟨r', hr', -, rfl⟩ := converted_ex n hn z hz
    rw [(mpf_value uniq hu n hn X hX uselog r hr).1] at ha
    rw [(mpf_value uniq hu n hn X hX uselog r' hr').1] at hb'
    rw [← Option.some.inj (Except.ok.inj ha), ← Option.some.inj (Except.ok.inj hb')]
    exact (hmono r r').2 (hmin r' hr' hzb)

theorem bit_flow (n : ℕ) (hn : 1 ≤ n) (X : Data) (hX : SpinData n X) (r : List ℝ) (hr : r.length = n + n * (n - 1) / 2) :
    probFlow (toBits X) (flips fun x => 1 - x) (pairE n (bitParams n r)) = pairFlow n X r :=
  (mpf_value List.dedup (fun v => ⟨List.nodup_dedup v, fun _ => List.mem_dedup⟩) n hn X hX true r hr).2

/-- C116. Whatever the data, there are parameters with the least flow within the limit. -/
theorem C116_exists (n : ℕ) (hn : 1 ≤ n) (X : Data) (hX : SpinData n X) (L : ℝ) (hL : 0 ≤ L) :
    ∃ r, LeastFlowWithin n L X r := by
  obtain ⟨v, hv, hvm⟩ := flow_box_exists n (toBits X) (flips fun x => 1 - x) (bits_pairs_ne hn hX) L hL
  obtain ⟨r, hr, -, hrv⟩ := converted_ex n hn (List.ofFn v) List.length_ofFn
  refine ⟨r, hr, ?_, fun r' hr' hb' => ?_⟩
  · rw [hrv]
    intro c hc
    obtain ⟨i, rfl⟩ := List.mem_ofFn.1 hc
    exact hv i
  · have l' := length_bitParams n r' hr'
    rw [← bit_flow n hn X hX r hr, ← bit_flow n hn X hX r' hr', hrv, ← ofFn_getD (bitParams n r') l']
    refine hvm _ fun i => hb' _ ?_
    rw [List.getD_eq_getElem _ _ (by rw [l']; exact i.2)]
    exact List.getElem_mem _

/-! ### The object -/

theorem mpf_means {n : ℕ} {X : Data} (hX : SpinData n X) :
    ObsArg.means .ising n (toBits X) = .ok (moments n (asBits X)) := by
  rw [toBits_spin hX]
  obtain ⟨c, h1, -, h3⟩ := C73_sample_constraints (K := ℝ) n (asBits X) (by simpa [asBits] using hX.1)
    (fun s hs => by
      obtain ⟨t, ht, rfl⟩ := List.mem_map.1 hs
      rw [List.length_map, (spinData_rows hX t ht).1])
    fun s hs x hx => by
      obtain ⟨t, ht, rfl⟩ := List.mem_map.1 hs
      obtain ⟨y, -, rfl⟩ := List.mem_map.1 hx
      split_ifs
      · exact .inr (.inr rfl)
      · exact .inr (.inl rfl)
  unfold ObsArg.means
  dsimp only
  rw [h1, h3]
  rfl

/-- C116. `MPF(X)` and `solve` for a sample of spins: the object exists, and `solve` returns the ±1 form of the vector that
the library found. The search starts at the means and pair means of the data in {0,1} form, or at the {0,1} form of the
guess. -/
theorem C116_solve (mc : Machine) (n : ℕ) (hn : 1 ≤ n) (X : Data) (hX : SpinData n X) (model : Option ModelObj)
    (hmodel : ∀ m, model = some m → m.kind = .ising) (rng : ℕ) :
    ∃ o, mpfObjInit mc (.data n X) model .ising false false rng = .ok o ∧
      ∀ uniq lib (guess : Option (List ℝ)) (L : ℝ) (uselog : Bool), UniqSpec uniq → 0 < L →
        (∀ g, guess = some g → g.length = n + n * (n - 1) / 2) →
        ∃ f x0, (guess = none → x0 = moments n (asBits X)) ∧ (∀ g, guess = some g → x0 = bitParams n g) ∧
          (∀ x, BoxMinimum (n + n * (n - 1) / 2) L f x ↔ ∃ r, x = bitParams n r ∧ LeastFlowWithin n L X r) ∧
          ((lib f x0 L).length = n + n * (n - 1) / 2 → ∃ r, mpfObjSolve uniq lib o ⟨guess, true, L, uselog⟩ = .ok r ∧
            r.length = n + n * (n - 1) / 2 ∧ bitParams n r = lib f x0 L) := by
  obtain ⟨m, c, h1, h2, h3⟩ := basicSetupObs_data mc n X hX.1 model .ising rng
  have hkind : m.kind = .ising := by
    cases model with
    | none => exact h3 rfl
    | some m' => rw [h2 m' rfl]; exact hmodel m' rfl
  refine ⟨⟨some n, some X, some m, .ising, mpfInit () none none⟩, ?_, ?_⟩
  · unfold mpfObjInit
    rw [h1]
    rfl
  intro uniq lib guess L uselog hu hL hg
  have hstart : ∃ x0, mpfStart n .ising (toBits X) guess = .ok x0 ∧ (guess = none → x0 = moments n (asBits X)) ∧
      (∀ g, guess = some g → x0 = bitParams n g) ∧ x0.length = n + n * (n - 1) / 2 := by
    unfold mpfStart
    cases guess with
    | none => exact ⟨_, mpf_means hX, fun _ => rfl, by simp, length_moments n _⟩
    | some g =>
      have hgl := hg g rfl
      refine ⟨bitParams n g, (mpfConvert_iff _ _ _ _).2 (converted_bitParams n hn g hgl), by simp, ?_,
        length_bitParams n g hgl⟩
      rintro g' h
      rw [Option.some.inj h]
  obtain ⟨x0, s1, s2, s3, s4⟩ := hstart
  refine ⟨mpfObjF .ising uniq n X true uselog, x0, s2, s3, C116_minimum uniq hu n hn X hX uselog L, fun hlen => ?_⟩
  obtain ⟨r, r1, r2, r3⟩ := converted_ex n hn _ hlen
  obtain ⟨y, hy, -, hyx⟩ := converted_ex n hn x0 s4
  have hv := (mpf_value uniq hu n hn X hX uselog y hy).1
  rw [hyx] at hv
  refine ⟨r, ?_, r1, r3⟩
  unfold mpfObjSolve
  rw [if_neg (by simpa using hL)]
  dsimp only [mpfInit]
  rw [s1]
  dsimp only
  rw [adjacent_eq]
  dsimp only
  unfold boundedCall
  rw [hkind, hv]
  exact r2

/-- C116. If the library finds a smallest point within the bounds, `solve` returns parameters with the least flow among those
whose {0,1} form is within the limit. -/
theorem C116_result (mc : Machine) (n : ℕ) (hn : 1 ≤ n) (X : Data) (hX : SpinData n X) (model : Option ModelObj)
    (hmodel : ∀ m, model = some m → m.kind = .ising) (rng : ℕ) :
    ∃ o, mpfObjInit mc (.data n X) model .ising false false rng = .ok o ∧
      ∀ uniq lib (guess : Option (List ℝ)) (L : ℝ) (uselog : Bool), UniqSpec uniq → 0 < L →
        (∀ f x0, (∃ x, BoxMinimum (n + n * (n - 1) / 2) L f x) → BoxMinimum (n + n * (n - 1) / 2) L f (lib f x0 L)) →
        (∀ g, guess = some g → g.length = n + n * (n - 1) / 2) →
        ∃ r, mpfObjSolve uniq lib o ⟨guess, true, L, uselog⟩ = .ok r ∧ LeastFlowWithin n L X r := by
  obtain ⟨o, h1, h2⟩ := C116_solve mc n hn X hX model hmodel rng
  refine ⟨o, h1, fun uniq lib guess L uselog hu hL hlib hg => ?_⟩
  obtain ⟨f, x0, -, -, hmin, hres⟩ := h2 uniq lib guess L uselog hu hL hg
  have hex : ∃ x, BoxMinimum (n + n * (n - 1) / 2) L f x := by
    obtain ⟨r, hr⟩ := C116_exists n hn X hX L hL.le
    exact ⟨_, (hmin _).2 ⟨r, rfl, hr⟩⟩
  have hbox := hlib f x0 hex
  obtain ⟨r, r1, r2, r3⟩ := hres hbox.1
  obtain ⟨r', e', hl'⟩ := (hmin _).1 hbox
  have : r = r' := by
    have a1 := converted_back n hn r r2
    have a2 := converted_back n hn r' hl'.1
    rw [r3, e'] at a1
    have b1 := (mpfConvert_iff _ _ _ _).2 a1
    have b2 := (mpfConvert_iff _ _ _ _).2 a2
    rw [b1] at b2
    exact Except.ok.inj b2
  exact ⟨r, r1, this ▸ hl'⟩

/-! ### What the bounds do -/

/-- C116. If the {0,1} form of the result is strictly within the limit, the limit had no effect: the flow is smallest among
all parameters. -/
theorem C116_inside (n : ℕ) (hn : 1 ≤ n) (X : Data) (hX : SpinData n X) (L : ℝ) (r : List ℝ)
    (h : LeastFlowWithin n L X r) (hin : ∀ c ∈ bitParams n r, |c| < L) (r' : List ℝ)
    (hr' : r'.length = n + n * (n - 1) / 2) : pairFlow n X r ≤ pairFlow n X r' := by
  obtain ⟨hr, -, hmin⟩ := h
  have l := length_bitParams n r hr
  have l' := length_bitParams n r' hr'
  rw [← bit_flow n hn X hX r hr, ← bit_flow n hn X hX r' hr', ← ofFn_getD (bitParams n r) l, ← ofFn_getD (bitParams n r') l']
  refine flow_interior n (toBits X) _ L _ (fun i => hin _ ?_) (fun w hw => ?_) _
  · rw [List.getD_eq_getElem _ _ (by rw [l]; exact i.2)]
    exact List.getElem_mem _
  · obtain ⟨q, hq, -, hqw⟩ := converted_ex n hn (List.ofFn w) List.length_ofFn
    rw [ofFn_getD (bitParams n r) l, ← hqw, bit_flow n hn X hX r hr, bit_flow n hn X hX q hq]
    refine hmin q hq ?_
    rw [hqw]
    intro c hc
    obtain ⟨i, rfl⟩ := List.mem_ofFn.1 hc
    exact hw i

/-- C116. If some pairwise energy keeps all rows of the data stable against single flips (C110; for example if a pattern of
two spins does not occur), some {0,1} parameter of the result is at the limit: the result is decided by the limit. -/
theorem C116_boundary (n : ℕ) (hn : 1 ≤ n) (X : Data) (hX : SpinData n X) (w : List ℝ)
    (hw : w.length = n + n * (n - 1) / 2) (hst : StableData n X w) (L : ℝ) (r : List ℝ) (h : LeastFlowWithin n L X r) :
    ∃ c ∈ bitParams n r, |c| = L := by
  by_contra hc
  push Not at hc
  have hin : ∀ c ∈ bitParams n r, |c| < L := fun c hm => lt_of_le_of_ne (h.2.1 c hm) (hc c hm)
  have : FlowAttained n X := ⟨r, h.1, fun θ' hθ' => C116_inside n hn X hX L r h hin θ' hθ'⟩
  exact (flow_iff n hn X hX).1 this w hw hst

/-- C116. Data at the Boltzmann frequencies of `θ`: the result is `θ` exactly if the {0,1} form of `θ` is within the limit;
otherwise some {0,1} parameter of the result is at the limit. -/
theorem C116_consistent (n : ℕ) (hn : 1 ≤ n) (θ : List ℝ) (hθ : θ.length = n + n * (n - 1) / 2) (X : Data)
    (hX : SpinData n X)
    (hdist : ∀ s ∈ words [1, -1] n, (X.count s : ℝ) / X.length =
      boltzmann (words [1, -1] n) (fun s => isingVecE n (θ.take n) (θ.drop n) (spins s)) s)
    (L : ℝ) (r : List ℝ) (h : LeastFlowWithin n L X r) :
    (r = θ ↔ InLimit L (bitParams n θ)) ∧ (¬ InLimit L (bitParams n θ) → ∃ c ∈ bitParams n r, |c| = L) := by
  have hs : ∀ s ∈ X, s ∈ words [1, -1] n := fun s hs => by
    obtain ⟨h1, h2⟩ := mem_words.1 (hX.2 s hs)
    refine mem_words.2 ⟨h1, fun x hx => ?_⟩
    have := h2 x hx
    simp only [List.mem_cons, List.not_mem_nil, or_false] at this ⊢
    tauto
  have key : ∀ θ', θ'.length = n + n * (n - 1) / 2 → pairFlow n X θ' ≤ pairFlow n X θ → θ' = θ := fun θ' h' hle =>
    (C75_consistent n θ hθ X hX.1 hs hdist θ' h').2 hle
  have h1 : r = θ ↔ InLimit L (bitParams n θ) := by
    constructor
    · rintro rfl
      exact h.2.1
    · intro hb
      exact key r h.1 (h.2.2 θ hθ hb)
  refine ⟨h1, fun hno => ?_⟩
  by_contra hc
  push Not at hc
  have hin : ∀ c ∈ bitParams n r, |c| < L := fun c hm => lt_of_le_of_ne (h.2.1 c hm) (hc c hm)
  exact hno (h1.1 (key r h.1 (C116_inside n hn X hX L r h hin θ hθ)))

theorem sum_abs_pairCoupling (n : ℕ) (r : List ℝ) (c : ℝ) (hc : 0 ≤ c) (h : ∀ x ∈ r.drop n, |x| ≤ c) (i : ℕ) (hi : i < n) :
    |∑ j ∈ Finset.range n, pairCoupling n r i j| ≤ (n - 1) * c := by
  have hJ : ∀ a b, |couplingAt n (r.drop n) a b| ≤ c := by
    intro a b
    unfold couplingAt
    by_cases hl : (upperPairs n).idxOf (a, b) < (r.drop n).length
    · rw [List.getD_eq_getElem _ _ hl]
      exact h _ (List.getElem_mem _)
    · rw [List.getD_eq_default _ _ (by omega), abs_zero]
      exact hc
  rw [← Finset.sum_erase (a := i) (Finset.range n) (by unfold pairCoupling; simp)]
  refine (Finset.abs_sum_le_sum_abs _ _).trans ((Finset.sum_le_card_nsmul _ _ c fun j _ => ?_).trans ?_)
  · unfold pairCoupling
    split_ifs
    · exact hJ _ _
    · exact hJ _ _
    · simpa using hc
  · rw [Finset.card_erase_of_mem (Finset.mem_range.2 hi), Finset.card_range, nsmul_eq_mul, Nat.cast_sub (by omega)]
    simp

/-- C116. The argument `parameter_limits` is not the largest magnitude of the returned parameters: couplings are at most a
quarter of it, fields can be up to `(n+1)/4` times as large. -/
theorem C116_magnitudes (n : ℕ) (hn : 1 ≤ n) (L : ℝ) (hL : 0 ≤ L) :
    (∀ r : List ℝ, r.length = n + n * (n - 1) / 2 → InLimit L (bitParams n r) →
      (∀ c ∈ r.drop n, |c| ≤ L / 4) ∧ ∀ i < n, |r.getD i 0| ≤ (n + 1) / 4 * L) ∧
    ∃ r : List ℝ, r.length = n + n * (n - 1) / 2 ∧ InLimit L (bitParams n r) ∧
      (∀ c ∈ r.drop n, c = L / 4) ∧ ∀ i < n, r.getD i 0 = (n + 1) / 4 * L := by
  constructor
  · intro r hr hb
    have h1 : ∀ c ∈ r.drop n, |c| ≤ L / 4 := by
      intro c hc
      have := hb (4 * c) (List.mem_append_right _ (List.mem_map.2 ⟨c, hc, rfl⟩))
      rw [abs_mul, abs_of_pos (by norm_num : (0 : ℝ) < 4)] at this
      linarith
    refine ⟨h1, fun i hi => ?_⟩
    have h2 := hb (2 * (r.getD i 0 - ∑ j ∈ Finset.range n, pairCoupling n r i j))
      (List.mem_append_left _ (List.mem_map.2 ⟨i, List.mem_range.2 hi, rfl⟩))
    have h3 := sum_abs_pairCoupling n r (L / 4) (by linarith) h1 i hi
    rw [abs_mul, abs_of_pos (by norm_num : (0 : ℝ) < 2)] at h2
    have h4 := abs_add_le (r.getD i 0 - ∑ j ∈ Finset.range n, pairCoupling n r i j)
      (∑ j ∈ Finset.range n, pairCoupling n r i j)
    rw [sub_add_cancel] at h4
    linarith
  · obtain ⟨r, hr⟩ : ∃ r : List ℝ, r = List.replicate n ((n + 1) / 4 * L) ++ List.replicate (n * (n - 1) / 2) (L / 4) :=
      ⟨_, rfl⟩
    have hl : r.length = n + n * (n - 1) / 2 := by rw [hr]; simp
    have hd : r.drop n = List.replicate (n * (n - 1) / 2) (L / 4) := by
      rw [hr, List.drop_left' (by simp)]
    have hf : ∀ i < n, r.getD i 0 = (n + 1) / 4 * L := by
      intro i hi
      rw [hr, List.getD_append _ _ _ _ (by simpa using hi), List.getD_eq_getElem _ _ (by simpa using hi),
        List.getElem_replicate]
    have hJ : ∀ a b, a < b → b < n → couplingAt n (r.drop n) a b = L / 4 := by
      intro a b hab hb
      unfold couplingAt
      have : (upperPairs n).idxOf (a, b) < (upperPairs n).length :=
        List.idxOf_lt_length_iff.2 (mem_upperPairs.2 ⟨hab, hb⟩)
      rw [length_upperPairs] at this
      rw [hd, List.getD_eq_getElem _ _ (by simpa using this), List.getElem_replicate]
    refine ⟨r, hl, ?_, fun c hc => ?_, hf⟩
    · intro c hc
      rcases List.mem_append.1 hc with hc | hc
      · obtain ⟨i, hi, rfl⟩ := List.mem_map.1 hc
        have hi := List.mem_range.1 hi
        have hs : ∑ j ∈ Finset.range n, pairCoupling n r i j = (n - 1) * (L / 4) := by
          rw [← Finset.sum_erase (a := i) (Finset.range n) (by unfold pairCoupling; simp),
            Finset.sum_congr rfl (g := fun _ => L / 4), Finset.sum_const,
            Finset.card_erase_of_mem (Finset.mem_range.2 hi), Finset.card_range, nsmul_eq_mul, Nat.cast_sub (by omega)]
          · simp
          · intro j hj
            rw [Finset.mem_erase, Finset.mem_range] at hj
            unfold pairCoupling
            split_ifs with h1 h2
            · exact hJ _ _ h1 hj.2
            · exact hJ _ _ h2 hi
            · omega
        rw [hf i hi, hs]
        rw [show 2 * ((n + 1) / 4 * L - (n - 1) * (L / 4)) = L by ring, abs_of_nonneg hL]
      · obtain ⟨d, hd', rfl⟩ := List.mem_map.1 hc
        rw [hd] at hd'
        rw [List.eq_of_mem_replicate hd', show 4 * (L / 4) = L by ring, abs_of_nonneg hL]
    · rw [hd] at hc
      exact List.eq_of_mem_replicate hc

/-- The data: equal spins three times as often as different ones. -/
def ratioData : Data := [[1, 1], [1, 1], [1, 1], [-1, -1], [-1, -1], [-1, -1], [1, -1], [-1, 1]]

theorem ratio_dist : ∀ s ∈ words [1, -1] 2, (ratioData.count s : ℝ) / ratioData.length =
    boltzmann (words [1, -1] 2) (fun s => isingVecE 2 ([0, 0, Real.log 3 / 2].take 2) ([0, 0, Real.log 3 / 2].drop 2)
      (spins s)) s := by
  have hE : ∀ s : List ℤ, isingVecE 2 ([0, 0, Real.log 3 / 2].take 2) ([0, 0, Real.log 3 / 2].drop 2) (spins s) =
      -(Real.log 3 / 2 * (spins s 0 * spins s 1)) := by
    intro s
    have hix : (upperPairs 2).idxOf (0, 1) = 0 := by decide
    simp [isingVecE, isingE, couplingAt, Finset.sum_range_succ, hix]
    ring
  have hx : Real.exp (Real.log 3 / 2) * Real.exp (Real.log 3 / 2) = 3 := by
    rw [← Real.exp_add, add_halves, Real.exp_log (by norm_num)]
  have hw : words ([1, -1] : List ℤ) 2 = [[1, 1], [1, -1], [-1, 1], [-1, -1]] := by decide
  obtain ⟨a, ha⟩ : ∃ a, a = Real.exp (Real.log 3 / 2) := ⟨_, rfl⟩
  have ha0 : 0 < a := ha ▸ Real.exp_pos _
  rw [← ha] at hx
  have hinv : Real.exp (-(Real.log 3 / 2)) = a / 3 := by
    rw [Real.exp_neg, ← ha, ← hx]
    field_simp
  unfold boltzmann partition
  simp only [hE]
  rw [hw]
  intro s hs
  simp only [List.mem_cons, List.not_mem_nil, or_false] at hs
  have c : ratioData.length = 8 := rfl
  have c1 : ratioData.count [1, 1] = 3 := by decide
  have c2 : ratioData.count [-1, -1] = 3 := by decide
  have c3 : ratioData.count [1, -1] = 1 := by decide
  have c4 : ratioData.count [-1, 1] = 1 := by decide
  rcases hs with rfl | rfl | rfl | rfl
  all_goals
    simp only [c, c1, c2, c3, c4, spins, List.map_cons, List.map_nil, List.sum_cons, List.sum_nil, List.getD_cons_zero,
      List.getD_cons_succ, Int.cast_one, Int.cast_neg, mul_one, mul_neg, neg_neg, ← ha, hinv]
    field_simp
    push_cast
    ring

/-- C116. The limit as documented ("maximum allowed magnitude of any single parameter") does not hold: the data have exactly
the frequencies of a model whose parameters are all smaller than the limit 1, but no exact search returns them. -/
theorem C116_documented_limit : SpinData 2 ratioData ∧ InLimit 1 [0, 0, Real.log 3 / 2] ∧
    (∀ s ∈ words [1, -1] 2, (ratioData.count s : ℝ) / ratioData.length =
      boltzmann (words [1, -1] 2) (fun s => isingVecE 2 ([0, 0, Real.log 3 / 2].take 2) ([0, 0, Real.log 3 / 2].drop 2)
        (spins s)) s) ∧
    (∃ r, LeastFlowWithin 2 1 ratioData r) ∧ ∀ r, LeastFlowWithin 2 1 ratioData r → r ≠ [0, 0, Real.log 3 / 2] := by
  have hX : SpinData 2 ratioData := ⟨by decide, by decide⟩
  have h1 : Real.log 3 ≤ 2 := by
    have := Real.log_le_sub_one_of_pos (by norm_num : (0 : ℝ) < 3)
    linarith
  have h2 : 1 / 2 < Real.log 3 := by
    have := Real.one_sub_inv_le_log_of_pos (by norm_num : (0 : ℝ) < 3)
    linarith
  refine ⟨hX, ?_, ratio_dist, C116_exists 2 (by norm_num) _ hX 1 (by norm_num), fun r hr he => ?_⟩
  · intro c hc
    simp only [List.mem_cons, List.not_mem_nil, or_false] at hc
    rcases hc with rfl | rfl | rfl
    · simp
    · simp
    · rw [abs_of_pos (by linarith)]
      linarith
  · have := ((C116_consistent 2 (by norm_num) _ rfl ratioData hX ratio_dist 1 r hr).1).1 he
    have h3 := this (4 * (Real.log 3 / 2)) (by unfold bitParams; simp)
    rw [abs_of_pos (by linarith)] at h3
    linarith

/-! ### The arguments -/

theorem mpf_made (mc : Machine) (n : ℕ) (X : Data) (hne : X ≠ []) (model : Option ModelObj) (obs : ObsArg)
    (adjGiven deGiven : Bool) (rng : ℕ) :
    ∃ m, mpfObjInit mc (.data n X) model obs adjGiven deGiven rng = .ok ⟨some n, some X, some m, obs,
      mpfInit () (if adjGiven then some () else none) (if deGiven then some () else none)⟩ ∧
      (∀ m', model = some m' → m = m') ∧ (model = none → m.kind = .ising) := by
  obtain ⟨m, c, h1, h2, h3⟩ := basicSetupObs_data mc n X hne model obs rng
  refine ⟨m, ?_, h2, h3⟩
  unfold mpfObjInit
  rw [h1]
  rfl

/-- C116. What `solve` does not accept: a limit that is not positive, an object without a sample, an object made with
`calc_de` or `adj`, and `all_connected=False`. -/
theorem C116_arguments (mc : Machine) (model : Option ModelObj) (obs : ObsArg) (rng : ℕ) (uniq : Data → Data) (hu : UniqSpec uniq)
    (lib : (List ℝ → Py (Option ℝ)) → List ℝ → ℝ → List ℝ) (a : MpfArgs) :
    (a.limit ≤ 0 → ∀ o, mpfObjSolve uniq lib o a = .error .assertion) ∧
    (0 < a.limit → ∀ arg, arg.rows = none → ∀ adjGiven deGiven o,
      mpfObjInit mc arg model obs adjGiven deGiven rng = .ok o → mpfObjSolve uniq lib o a = .error .typeError) ∧
    (0 < a.limit → ∀ n X, X ≠ [] → ∀ adjGiven o, mpfObjInit mc (.data n X) model obs adjGiven true rng = .ok o →
      mpfObjSolve uniq lib o a = .error .attributeError) ∧
    (0 < a.limit → ∀ n X, 1 ≤ n → SpinData n X → (∀ g, a.guess = some g → g.length = n + n * (n - 1) / 2) →
      (∀ o, mpfObjInit mc (.data n X) model .ising true false rng = .ok o →
        mpfObjSolve uniq lib o a = .error .attributeError) ∧
      (a.allConnected = false → ∀ o, mpfObjInit mc (.data n X) model .ising false false rng = .ok o →
        mpfObjSolve uniq lib o a = .error .nameError)) := by
  refine ⟨fun h o => ?_, fun h arg harg adjGiven deGiven o ho => ?_, fun h n X hne adjGiven o ho => ?_,
    fun h n X hn hX hg => ?_⟩
  · unfold mpfObjSolve
    rw [if_pos (by simpa using h)]
  · unfold mpfObjInit at ho
    rcases hb : basicSetupObs mc arg model obs rng with e | s
    · rw [hb] at ho; cases ho
    · rw [hb] at ho
      rw [← Except.ok.inj ho]
      unfold mpfObjSolve
      rw [if_neg (by simpa using h)]
      dsimp only
      rw [harg]
  · obtain ⟨m, h1, -⟩ := mpf_made mc n X hne model obs adjGiven true rng
    rw [h1] at ho
    rw [← Except.ok.inj ho]
    unfold mpfObjSolve
    rw [if_neg (by simpa using h)]
    rfl
  · have hstart : ∃ x0, mpfStart n .ising (toBits X) a.guess = .ok x0 := by
      unfold mpfStart
      cases hgu : a.guess with
      | none => exact ⟨_, mpf_means hX⟩
      | some g => exact ⟨_, (mpfConvert_iff _ _ _ _).2 (converted_bitParams n hn g (hg g hgu))⟩
    obtain ⟨x0, hx0⟩ := hstart
    constructor
    · intro o ho
      obtain ⟨m, h1, -⟩ := mpf_made mc n X hX.1 model .ising true false rng
      rw [h1] at ho
      rw [← Except.ok.inj ho]
      unfold mpfObjSolve
      rw [if_neg (by simpa using h)]
      dsimp only [mpfInit]
      simp only [Bool.false_eq_true, if_false, if_true]
      rw [hx0]
    · intro hall o ho
      obtain ⟨m, h1, -⟩ := mpf_made mc n X hX.1 model .ising false false rng
      rw [h1] at ho
      rw [← Except.ok.inj ho]
      have hne : uniq (toBits X) ≠ [] := by
        obtain ⟨x, hx⟩ := List.exists_mem_of_ne_nil X hX.1
        exact List.ne_nil_of_mem (((hu _).2 _).2 (List.mem_map_of_mem hx))
      unfold mpfObjSolve
      rw [if_neg (by simpa using h)]
      dsimp only [mpfInit]
      simp only [Bool.false_eq_true, if_false]
      rw [hx0]
      dsimp only
      rw [hall]
      unfold listAdjacentStates
      simp [hne]

/-- C116. A guess with `2^n` entries or more: `solve` does not end. -/
theorem C116_long_guess (mc : Machine) (n : ℕ) (X : Data) (hne : X ≠ []) (model : Option ModelObj) (obs : ObsArg)
    (adjGiven : Bool) (rng : ℕ) (uniq : Data → Data) (lib : (List ℝ → Py (Option ℝ)) → List ℝ → ℝ → List ℝ) (g : List ℝ)
    (hg : 2 ^ n ≤ g.length) (allConnected uselog : Bool) (L : ℝ) (hL : 0 < L) :
    ∃ o, mpfObjInit mc (.data n X) model obs adjGiven false rng = .ok o ∧
      mpfObjSolve uniq lib o ⟨some g, allConnected, L, uselog⟩ = .error .diverge := by
  obtain ⟨m, h1, -⟩ := mpf_made mc n X hne model obs adjGiven false rng
  refine ⟨_, h1, ?_⟩
  unfold mpfObjSolve
  rw [if_neg (by simpa using hL)]
  dsimp only [mpfInit]
  simp only [Bool.false_eq_true, if_false]
  have : mpfStart n obs (toBits X) (some g) = .error .diverge := by
    show mpfConvert n .b01 g = _
    unfold mpfConvert
    rw [splitConcat_long g n hg]
  rw [this]

theorem mpfF_bits (calcE : RowEnergy) (uniq : Data → Data) (X Y : Data) (h : toBits X = toBits Y) (allConnected uselog : Bool) :
    mpfF calcE uniq X allConnected uselog = mpfF calcE uniq Y allConnected uselog := by
  funext p
  unfold mpfF
  rw [h]

/-- C116. A sample in {0,1} form gives the same result as the same sample in ±1 form; the result is in ±1 form in both cases.
In a sample with entries -1, 0 and 1, a 0 counts as -1. -/
theorem C116_bits_as_data (uniq : Data → Data) (lib : (List ℝ → Py (Option ℝ)) → List ℝ → ℝ → List ℝ) (o : MpfObj) (a : MpfArgs)
    (Y : Data) :
    ((∀ s ∈ Y, ∀ x ∈ s, x = 0 ∨ x = 1) → mpfObjSolve uniq lib { o with sample := some Y } a =
      mpfObjSolve uniq lib { o with sample := some (Y.map fun s => s.map fun x => 2 * x - 1) } a) ∧
    ((∀ s ∈ Y, ∀ x ∈ s, x = -1 ∨ x = 0 ∨ x = 1) → mpfObjSolve uniq lib { o with sample := some Y } a =
      mpfObjSolve uniq lib { o with sample := some (Y.map fun s => s.map fun x => if x = 0 then -1 else x) } a) := by
  have key : ∀ X Y : Data, toBits X = toBits Y → mpfObjSolve uniq lib { o with sample := some X } a =
      mpfObjSolve uniq lib { o with sample := some Y } a := by
    intro X Y h
    have hF : ∀ k n, mpfObjF k uniq n X a.allConnected a.uselog = mpfObjF k uniq n Y a.allConnected a.uselog := by
      intro k n
      funext p
      unfold mpfObjF
      rw [mpfF_bits _ uniq X Y h]
    unfold mpfObjSolve
    cases o.n with
    | none => rfl
    | some n =>
      dsimp only
      simp only [h, hF]
  constructor
  · intro hY
    refine key _ _ ?_
    unfold toBits
    rw [List.map_map]
    refine List.map_congr_left fun s hs => ?_
    rw [Function.comp, List.map_map]
    refine List.map_congr_left fun x hx => ?_
    rcases hY s hs x hx with rfl | rfl <;> rfl
  · intro hY
    refine key _ _ ?_
    unfold toBits
    rw [List.map_map]
    refine List.map_congr_left fun s hs => ?_
    rw [Function.comp, List.map_map]
    refine List.map_congr_left fun x hx => ?_
    rcases hY s hs x hx with rfl | rfl | rfl <;> rfl

/-- C116. A `Triplet` or `Potts3` model with the default observables and no guess: the starting point does not fit the
model, and `solve` raises. -/
theorem C116_other_models (mc : Machine) (n : ℕ) (X : Data) (hX : SpinData n X) (m : ModelObj)
    (hm : (m.kind = .triplet ∧ 3 ≤ n) ∨ (m.kind = .potts3 ∧ 1 ≤ n)) (rng : ℕ) (uniq : Data → Data)
    (lib : (List ℝ → Py (Option ℝ)) → List ℝ → ℝ → List ℝ) (uselog : Bool) (L : ℝ) (hL : 0 < L) :
    ∃ o, mpfObjInit mc (.data n X) (some m) .ising false false rng = .ok o ∧
      mpfObjSolve uniq lib o ⟨none, true, L, uselog⟩ = .error .valueError := by
  obtain ⟨m', h1, h2, -⟩ := mpf_made mc n X hX.1 (some m) .ising false false rng
  obtain rfl := h2 m rfl
  refine ⟨_, h1, ?_⟩
  have hF : mpfObjF m'.kind uniq n X true uselog (moments n (asBits X)) = .error .valueError := by
    unfold mpfObjF
    have : kindCalcERow m'.kind (moments n (asBits X)) (List.replicate n 0) = .error .valueError := by
      rcases hm with ⟨hk, hn⟩ | ⟨hk, hn⟩
      · rw [hk]
        show tripletCalcERow _ _ = _
        unfold tripletCalcERow
        rw [tripletObservables_eq]
        simp only [bind, Except.bind]
        unfold npDot
        rw [if_neg]
        rw [List.length_map, List.length_append, List.length_append, length_tuples, length_tuples, length_tuples,
          List.length_replicate, length_moments, Nat.choose_one_right, Nat.choose_two_right]
        have := Nat.choose_pos hn
        omega
      · rw [hk]
        show pottsCalcERow 3 _ _ = _
        unfold pottsCalcERow
        rw [pottsObservables_eq]
        simp only [bind, Except.bind]
        unfold npDot
        rw [if_neg]
        rw [length_moments]
        simp [pottsObs, length_upperPairs]
        omega
    rw [this]
  unfold mpfObjSolve
  rw [if_neg (by simpa using hL)]
  dsimp only [mpfInit]
  simp only [Bool.false_eq_true, if_false]
  unfold mpfStart
  dsimp only
  rw [mpf_means hX]
  dsimp only
  rw [adjacent_eq]
  dsimp only
  unfold boundedCall
  rw [hF]

/-! ### Three-spin interactions -/

theorem pm_spin (n : ℕ) (s : List ℤ) (hl : s.length = n) (hpm : ∀ x ∈ s, x = -1 ∨ x = 1) (i : ℕ) (hi : i < n) :
    2 * (spins (s.map fun x => (x + 1) / 2) i : ℝ) - 1 = spins s i := by
  rw [← pm_bits n s hl hpm i hi]
  ring

/-- C116. With a `Triplet` model and a guess that has its number of parameters, `solve` minimises the probability flow of the
energy with three-spin terms: the start is the {0,1} form of the guess, and the value of the function at the {0,1} form of
any parameters is the flow under these parameters. -/
theorem C116_triplet (mc : Machine) (n : ℕ) (hn : 3 ≤ n) (X : Data) (hX : SpinData n X) (m : ModelObj)
    (hm : m.kind = .triplet) (rng : ℕ) (uniq : Data → Data) (hu : UniqSpec uniq)
    (lib : (List ℝ → Py (Option ℝ)) → List ℝ → ℝ → List ℝ) (uselog : Bool) (L : ℝ) (hL : 0 < L) :
    ∃ o f, mpfObjInit mc (.data n X) (some m) .ising false false rng = .ok o ∧
      ∀ h J T : List ℝ, h.length = n → J.length = n * (n - 1) / 2 → T.length = n * (n - 1) * (n - 2) / 6 →
        ∃ x, mpfConvert n .b11 x = .ok (h ++ J ++ T) ∧ x.length = (h ++ J ++ T).length ∧
          (∃ F : ℝ, F = probFlow X (flips fun x => -x) (fun s => polyE n [h, J, T] (spins s)) ∧
            f x = .ok (some (if uselog then Real.log F else F))) ∧
          mpfObjSolve uniq lib o ⟨some (h ++ J ++ T), true, L, uselog⟩ = mpfConvert n .b11 (lib f x L) := by
  obtain ⟨m', h1, h2, -⟩ := mpf_made mc n X hX.1 (some m) .ising false false rng
  obtain rfl := h2 m rfl
  refine ⟨_, mpfObjF .triplet uniq n X true uselog, h1, fun h J T lh lJ lT => ?_⟩
  have l1 : (tuples n 1).length = n := by rw [length_tuples]; simp
  have l2 : (tuples n 2).length = n * (n - 1) / 2 := by rw [length_tuples, Nat.choose_two_right]
  have l3 : (tuples n 3).length = n * (n - 1) * (n - 2) / 6 := by rw [length_tuples, choose_three]
  have hshape : PolyShape n [h, J, T] := by
    intro k hk
    have hk : k < 3 := hk
    interval_cases k
    · exact lh.trans l1.symm
    · exact lJ.trans l2.symm
    · exact lT.trans l3.symm
  obtain ⟨P, e1, e2⟩ := C14_01_then_11 n h [J, T] lh hshape
  obtain ⟨P', e1', hl, hPs, c, hc⟩ := C13_to01_energy n h [J, T] lh hshape
  obtain rfl : P = P' := by
    rw [e1] at e1'
    exact Except.ok.inj e1'
  obtain ⟨h', J', T', rfl⟩ : ∃ h' J' T', P = [h', J', T'] := by
    rcases P with _ | ⟨a, _ | ⟨b, _ | ⟨d, _ | ⟨_, _⟩⟩⟩⟩
    · simp at hl
    · simp at hl
    · simp at hl
    · exact ⟨a, b, d, rfl⟩
    · simp at hl
  have lh' : h'.length = n := (hPs 0 (by simp)).trans l1
  have lJ' : J'.length = n * (n - 1) / 2 := (hPs 1 (by simp)).trans l2
  have lT' : T'.length = n * (n - 1) * (n - 2) / 6 := (hPs 2 (by simp)).trans l3
  have f1 : [h, J, T].flatten = h ++ J ++ T := by simp
  have f2 : [h', J', T'].flatten = h' ++ J' ++ T' := by simp
  have hto : mpfConvert n .b01 (h ++ J ++ T) = .ok (h' ++ J' ++ T') := by
    refine (mpfConvert_iff _ _ _ _).2 ⟨[h, J, T], ?_, ?_⟩
    · rw [← f1]
      exact (split_flatten n _ hshape (by simpa using hn) _).2 rfl
    · unfold isingConvertParamsConcat
      rw [e1, ← f2]
      rfl
  have hback : mpfConvert n .b11 (h' ++ J' ++ T') = .ok (h ++ J ++ T) := by
    refine (mpfConvert_iff _ _ _ _).2 ⟨[h', J', T'], ?_, ?_⟩
    · rw [← f2]
      exact (split_flatten n _ hPs (by simpa using hn) _).2 rfl
    · unfold isingConvertParamsConcat
      rw [e2, ← f1]
      rfl
  have hrow : ∀ s : List ℤ, s.length = n →
      kindCalcERow .triplet (h' ++ J' ++ T') s = .ok (polyE n [h', J', T'] (spins s)) := by
    rintro s rfl
    exact tripletCalcERow_eq s h' J' T' lh' lJ' lT'
  have hen : ∀ s : List ℤ, s.length = n →
      kindEnergy .triplet (h' ++ J' ++ T') s = polyE n [h', J', T'] (spins s) := by
    intro s hs
    unfold kindEnergy
    rw [hrow s hs]
  have hflow := bits_flow n X (spinData_rows hX) (kindEnergy .triplet (h' ++ J' ++ T'))
    (fun s => polyE n [h, J, T] (spins s)) (-c) (by
      intro s hsl hpm
      rw [hen _ (by simpa using hsl), hc, polyE_congr n _ _ _ fun i hi => pm_spin n s hsl hpm i hi]
      ring)
  have hX' : toBits X ≠ [] := by simpa [toBits] using hX.1
  have hval : mpfObjF .triplet uniq n X true uselog (h' ++ J' ++ T') = .ok (some (if uselog then
      Real.log (probFlow X (flips fun x => -x) (fun s => polyE n [h, J, T] (spins s))) else
      probFlow X (flips fun x => -x) (fun s => polyE n [h, J, T] (spins s)))) := by
    unfold mpfObjF
    rw [hrow _ (by simp)]
    dsimp only
    unfold mpfF
    simp only
    rw [adjacent_eq]
    cases uselog
    · simp only [Bool.false_eq_true, if_false]
      rw [C38_K uniq hu (toBits X) hX', hflow]
    · simp only [if_true]
      rw [(C38_logK uniq hu (toBits X) hX' _ n (by omega) (by
        intro s hsm
        obtain ⟨t, ht, rfl⟩ := List.mem_map.1 hsm
        simp [flips, (spinData_rows hX t ht).1]) (kindEnergy .triplet) (h' ++ J' ++ T')).1, hflow]
  refine ⟨h' ++ J' ++ T', hback, by simp [lh, lJ, lT, lh', lJ', lT'], ⟨_, rfl, hval⟩, ?_⟩
  unfold mpfObjSolve
  rw [if_neg (by simpa using hL)]
  dsimp only [mpfInit]
  simp only [Bool.false_eq_true, if_false]
  unfold mpfStart
  dsimp only
  rw [hto]
  dsimp only
  rw [adjacent_eq]
  dsimp only
  unfold boundedCall
  rw [hm, hval]

/-! ### Non-vacuity -/

/-- Data in which the first spin never differs from the second: some parameter of the result is at the limit. -/
example : SpinData 2 [[1, 1], [-1, -1]] ∧ StableData 2 [[1, 1], [-1, -1]] [0, 0, 1] ∧
    ∃ r, LeastFlowWithin 2 100 [[1, 1], [-1, -1]] r ∧ ∃ c ∈ bitParams 2 r, |c| = 100 := by
  have hX : SpinData 2 [[1, 1], [-1, -1]] := ⟨by decide, by decide⟩
  have hE : ∀ s : List ℤ, pairE 2 [0, 0, 1] s = -(spins s 0 * spins s 1) := by
    intro s
    have hix : (upperPairs 2).idxOf (0, 1) = 0 := by decide
    simp [pairE, isingVecE, isingE, couplingAt, Finset.sum_range_succ, hix]
  have hst : StableData 2 [[1, 1], [-1, -1]] [0, 0, 1] := by
    constructor
    · intro s hs r hr
      simp only [List.mem_cons, List.not_mem_nil, or_false] at hs
      rcases hs with rfl | rfl <;> interval_cases r <;> simp [hE, spins]
    · refine ⟨[1, 1], by simp, 0, by norm_num, ?_⟩
      simp [hE, spins]
  obtain ⟨r, hr⟩ := C116_exists 2 (by norm_num) _ hX 100 (by norm_num)
  exact ⟨hX, hst, r, hr, C116_boundary 2 (by norm_num) _ hX _ rfl hst 100 r hr⟩

/-- A limit that leaves room: the result is the model of the data. -/
example (r : List ℝ) (h : LeastFlowWithin 2 100 ratioData r) : r = [0, 0, Real.log 3 / 2] := by
  have hX : SpinData 2 ratioData := ⟨by decide, by decide⟩
  refine ((C116_consistent 2 (by norm_num) _ rfl ratioData hX ratio_dist 100 r h).1).2 ?_
  have h1 : Real.log 3 ≤ 2 := by
    have := Real.log_le_sub_one_of_pos (by norm_num : (0 : ℝ) < 3)
    linarith
  have h2 : 0 < Real.log 3 := Real.log_pos (by norm_num)
  have hix : (upperPairs 2).idxOf (0, 1) = 0 := by decide
  intro c hc
  simp [bitParams, pairCoupling, couplingAt, Finset.sum_range_succ, hix, List.range_succ] at hc
  rcases hc with rfl | rfl <;> rw [abs_le] <;> constructor <;> linarith

end Verif.Props
