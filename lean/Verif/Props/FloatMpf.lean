/-
C136: the objectives of MPF in floating-point arithmetic.
-/
import Verif.Lemmas.FloatMpf
import Verif.Props.FloatPotts
import Verif.Props.Mpf

namespace Verif.Props
open Verif Verif.Model Verif.Spec Verif.Lemmas FlArith

/-- A number, or 0. -/
def flVal : Fl → ℝ
  | .num x => x
  | _ => 0

theorem flips_01 {n : ℕ} {s u : List ℤ} (hs : s.length = n) (hv : ∀ x ∈ s, x = 0 ∨ x = 1) (hu : u ∈ flips (fun x => 1 - x) s) :
    u.length = n ∧ ∀ x ∈ u, x = 0 ∨ x = 1 := by
  obtain ⟨i, hi, rfl⟩ := List.mem_map.1 hu
  refine ⟨by rw [List.length_set, hs], fun x hx => ?_⟩
  have hi' : i < s.length := List.mem_range.1 hi
  rcases List.mem_or_eq_of_mem_set hx with hx | rfl
  · exact hv x hx
  · rw [List.getD_eq_getElem _ _ hi']
    rcases hv _ (List.getElem_mem hi') with e | e <;> rw [e] <;> simp

theorem length_flips (f : ℤ → ℤ) (s : List ℤ) : (flips f s).length = s.length := by simp [flips]

/-- The energies that are computed for a sample and its neighbours. -/
theorem energies_acc (A : FlArith) (ε : ℝ) (h : Ieee A) (ha : Accurate A ε) (n b : ℕ) (θ : List ℝ)
    (hθ : θ.length = n + n * (n - 1) / 2) (hb : ∀ v ∈ θ, A.rd v = v ∧ |v| ≤ b)
    (hK : b * (n + n * (n - 1) / 2) + 214 ≤ 2 ^ 50) (tE : SumTree) (htE : tE.Adds n) (s : List ℤ) (hs : s.length = n)
    (hv : ∀ x ∈ s, x = 0 ∨ x = 1) :
    isingCalcERowFl A tE (θ.map .num) s = .num (flVal (isingCalcERowFl A tE (θ.map .num) s)) ∧
      |flVal (isingCalcERowFl A tE (θ.map .num) s)| ≤ ((b * (n + n * (n - 1) / 2) : ℕ) : ℝ) ∧
      |flVal (isingCalcERowFl A tE (θ.map .num) s) - isingCalcERow θ s| ≤
        ε * (((b * (n + n * (n - 1) / 2) : ℕ) : ℝ) + 1) * ((n + n * (n - 1) / 2 : ℕ) : ℝ) := by
  obtain ⟨e, e1, -, e2, e3⟩ := energy_acc h ha n b s hs
    (fun x hx => by rcases hv x hx with e | e <;> simp [e]) θ hθ hb (by omega) tE htE
  rw [e1]
  exact ⟨rfl, e2, e3⟩

/-- C136: with `uselog=True`, the default, the objective of MPF is a finite number for every sample of {0,1} states and all
parameters up to `b`, and it differs from the logarithm of the probability flow by no more than the rounding error times a number
that depends on the sizes only. `np.sum` and `logsumexp` may add in any order. -/
theorem C136_logK (A : FlArith) (ε : ℝ) (h : Ieee A) (ha : Accurate A ε) (uniq : Data → Data) (hu : UniqSpec uniq) (n b : ℕ)
    (hn : 1 ≤ n) (X : Data) (hX : X ≠ []) (hXn : X.length ≤ 2 ^ 53) (hlen : ∀ s ∈ X, s.length = n)
    (hv : ∀ s ∈ X, ∀ x ∈ s, x = 0 ∨ x = 1) (θ : List ℝ) (hθ : θ.length = n + n * (n - 1) / 2)
    (hb : ∀ v ∈ θ, A.rd v = v ∧ |v| ≤ b) (hK : b * (n + n * (n - 1) / 2) + 214 ≤ 2 ^ 50) (hT : (uniq X).length * n ≤ 2 ^ 50)
    (hsmall : 4 * (ε * errScale ((uniq X).length * n) ((b * (n + n * (n - 1) / 2) + 214 : ℕ) : ℝ)) ≤ 1)
    (tE : SumTree) (htE : tE.Adds n) (t : SumTree) (ht : t.Adds ((uniq X).length * n)) :
    ∃ adjs L, listAdjacentStates (uniq X) true = .ok adjs ∧
      mpfLogKFl A t (isingCalcERowFl A tE (θ.map .num)) (uniq X) ((uniq X).map fun s => X.count s) adjs = .ok (.num L) ∧
      |L| ≤ A.big / 2 ∧
      |L - Real.log (probFlow X (flips fun x => 1 - x) (isingCalcERow θ))| ≤
        ε * ((b * (n + n * (n - 1) / 2 : ℕ) + 1) * (n + n * (n - 1) / 2 : ℕ) + 5 * (b * (n + n * (n - 1) / 2 : ℕ)) + 647 +
          (((uniq X).length * n) ^ 2 + 7 * ((uniq X).length * n))) := by
  obtain ⟨hnd, hmem⟩ := hu X
  have hin : ∀ x ∈ X, x ∈ uniq X := fun x hx => (hmem x).2 hx
  have hsum := sum_counts (uniq X) X hnd hin
  have hU : uniq X ≠ [] := by
    obtain ⟨x, hx⟩ := List.exists_mem_of_ne_nil X hX
    exact List.ne_nil_of_mem (hin x hx)
  obtain ⟨L, h1, h2, h3⟩ := logK_acc h ha (uniq X) hU (flips fun x => 1 - x) n hn
    (fun s hs => by rw [length_flips, hlen s ((hmem s).1 hs)]) (fun s => X.count s)
    (fun s hs => List.count_pos_iff.2 ((hmem s).1 hs)) (by rw [hsum]; exact hXn) _ hK
    (ε * (((b * (n + n * (n - 1) / 2) : ℕ) : ℝ) + 1) * ((n + n * (n - 1) / 2 : ℕ) : ℝ))
    (isingCalcERowFl A tE (θ.map .num)) (fun s => flVal (isingCalcERowFl A tE (θ.map .num) s)) (isingCalcERow θ)
    (fun s hs => energies_acc A ε h ha n b θ hθ hb hK tE htE s (hlen s ((hmem s).1 hs)) (hv s ((hmem s).1 hs)))
    (fun s hs u hu' => by
      obtain ⟨k1, k2⟩ := flips_01 (hlen s ((hmem s).1 hs)) (hv s ((hmem s).1 hs)) hu'
      exact energies_acc A ε h ha n b θ hθ hb hK tE htE u k1 k2) hT hsmall t ht
  refine ⟨_, L, adjacent_eq _, h1, h2, ?_⟩
  rw [hsum, probFlow_items (uniq X) X hnd hin (flips fun x => 1 - x) (fun _ => isingCalcERow θ) []] at h3
  refine h3.trans (le_of_eq ?_)
  push_cast
  ring

/-- C136: with `uselog=False` the objective is plus infinity as soon as half the difference of the energies of one state of the
sample and one neighbour exceeds, by the rounding errors, the numbers whose exponential is in range. -/
theorem C136_K_overflow (A : FlArith) (ε : ℝ) (h : Ieee A) (ha : Accurate A ε) (hexp : ∀ x, 0 ≤ A.expf x) (uniq : Data → Data)
    (hu : UniqSpec uniq) (n b : ℕ) (X : Data) (hlen : ∀ s ∈ X, s.length = n)
    (hv : ∀ s ∈ X, ∀ x ∈ s, x = 0 ∨ x = 1) (θ : List ℝ) (hθ : θ.length = n + n * (n - 1) / 2)
    (hb : ∀ v ∈ θ, A.rd v = v ∧ |v| ≤ b) (hK : b * (n + n * (n - 1) / 2) + 214 ≤ 2 ^ 50)
    (tE : SumTree) (htE : tE.Adds n) (t : SumTree) (ht : t.Adds n) (R : ℝ) (hR : ∀ y, R ≤ y → A.big < A.expf y)
    (s : List ℤ) (hs : s ∈ X) (u : List ℤ) (hus : u ∈ flips (fun x => 1 - x) s)
    (hdE : R + ε * ((b * (n + n * (n - 1) / 2 : ℕ) + 1) * (n + n * (n - 1) / 2 : ℕ) + 2 * (b * (n + n * (n - 1) / 2 : ℕ)) + 2) ≤
      (isingCalcERow θ s - isingCalcERow θ u) / 2) :
    ∃ adjs, listAdjacentStates (uniq X) true = .ok adjs ∧
      mpfKFl A t (isingCalcERowFl A tE (θ.map .num)) (uniq X) ((uniq X).map fun s => X.count s) adjs = .ok (.inf false) := by
  obtain ⟨hnd, hmem⟩ := hu X
  refine ⟨_, adjacent_eq _, ?_⟩
  unfold mpfKFl
  rw [mpfItems_eq]
  dsimp only
  have hpow : ∀ s ∈ X, ∀ u ∈ flips (fun x => 1 - x) s, ∃ p,
      A.mul (.num (1 / 2)) (A.sub (isingCalcERowFl A tE (θ.map .num) s) (isingCalcERowFl A tE (θ.map .num) u)) = .num p ∧
      |p - 1 / 2 * (isingCalcERow θ s - isingCalcERow θ u)| ≤ ε * (((b * (n + n * (n - 1) / 2) : ℕ) : ℝ) + 1) *
        ((n + n * (n - 1) / 2 : ℕ) : ℝ) + ε * (2 * ((b * (n + n * (n - 1) / 2) : ℕ) : ℝ) + 2) := by
    intro s hs u hu'
    obtain ⟨k1, k2⟩ := flips_01 (hlen s hs) (hv s hs) hu'
    obtain ⟨a1, a2, a3⟩ := energies_acc A ε h ha n b θ hθ hb hK tE htE s (hlen s hs) (hv s hs)
    obtain ⟨b1, b2, b3⟩ := energies_acc A ε h ha n b θ hθ hb hK tE htE u k1 k2
    obtain ⟨p, p1, p2⟩ := half_diff h ha _ hK _ _ a2 b2
    rw [a1, b1]
    refine ⟨p, p1, ?_⟩
    obtain ⟨u1, u2⟩ := abs_le.1 a3
    obtain ⟨u3, u4⟩ := abs_le.1 b3
    obtain ⟨u5, u6⟩ := abs_le.1 p2
    exact abs_le.2 ⟨by linarith, by linarith⟩
  have hcpos : ∀ s ∈ X, (0 : ℝ) < (X.count s : ℝ) := fun s hs => by exact_mod_cast List.count_pos_iff.2 hs
  have hnn : ∀ s ∈ X, ∀ v ∈ mpfDobjFl A (isingCalcERowFl A tE (θ.map .num)) (s, X.count s, flips (fun x => 1 - x) s), NonnegFl v := by
    intro s hs v hv'
    obtain ⟨u, hu', rfl⟩ := List.mem_map.1 hv'
    obtain ⟨p, p1, -⟩ := hpow s hs u hu'
    refine (mul_nonnegFl h (hcpos s hs) ?_).1
    dsimp only
    rw [p1]
    exact exp_nonnegFl hexp (by simp)
  have hfold := foldl_inf h ((uniq X).map fun s => (s, X.count s, flips (fun x => 1 - x) s))
    (fun it => A.treeSum (mpfDobjFl A (isingCalcERowFl A tE (θ.map .num)) it) t) (by
      intro it hit
      obtain ⟨s, hs, rfl⟩ := List.mem_map.1 hit
      exact (treeSum_inf h _ (hnn s ((hmem s).1 hs)) t).1) (.num 0) (Or.inr ⟨0, rfl, le_rfl⟩)
  rw [hfold.2]
  · have hsum := sum_counts (uniq X) X hnd fun x hx => (hmem x).2 hx
    rw [hsum]
    show Except.ok (Fl.inf (false != decide ((X.length : ℝ) < 0))) = _
    rw [decide_eq_false (by have : (0 : ℝ) ≤ X.length := Nat.cast_nonneg _; linarith)]
    rfl
  · refine Or.inr ⟨_, List.mem_map_of_mem ((hmem s).2 hs), ?_⟩
    obtain ⟨i, hi, rfl⟩ := List.mem_map.1 hus
    have hi' : i < s.length := List.mem_range.1 hi
    refine (treeSum_inf h _ (hnn s hs) t).2 i (ht.mem_iff.2 (by rw [← hlen s hs]; exact hi)) ?_
    unfold mpfDobjFl
    dsimp only
    have hif : i < (flips (fun x => 1 - x) s).length := by rwa [length_flips]
    rw [List.getD_eq_getElem _ _ (by rwa [List.length_map]), List.getElem_map]
    have e : (flips (fun x => 1 - x) s)[i] = s.set i (1 - s.getD i 0) := by simp [flips]
    rw [e]
    obtain ⟨p, p1, p2⟩ := hpow s hs _ hus
    rw [p1]
    refine (mul_nonnegFl h (hcpos s hs) (exp_nonnegFl hexp (by simp))).2 ?_
    show (if A.big < A.expf p then _ else _) = _
    rw [if_pos (hR p ?_)]
    obtain ⟨u1, u2⟩ := abs_le.1 p2
    push_cast at u1 hdE
    linarith

theorem cast_energy (θ : List ℤ) (s : List ℤ) : isingCalcERow (θ.map (Int.cast : ℤ → ℝ)) s = ((isingCalcERow θ s : ℤ) : ℝ) := by
  have h1 : ∀ (J : List ℤ) (L : List (ℕ × ℕ)) (w : ℤ) (k : ℕ),
      (L.foldl (fun (st : ℝ × ℕ) p => (st.1 + rd (J.map (Int.cast : ℤ → ℝ)) st.2 * ent s p.1 * ent s p.2, st.2 + 1)) ((w : ℝ), k)).1 =
      ((L.foldl (fun (st : ℤ × ℕ) p => (st.1 + rd J st.2 * ent s p.1 * ent s p.2, st.2 + 1)) (w, k)).1 : ℝ) := by
    intro J L
    induction L with
    | nil => intro w k; rfl
    | cons p L ih =>
      intro w k
      rw [List.foldl_cons, List.foldl_cons, ← ih]
      have e : ((w + rd J k * ent s p.1 * ent s p.2 : ℤ) : ℝ) = w + rd (J.map (Int.cast : ℤ → ℝ)) k * ent s p.1 * ent s p.2 := by
        have e2 : rd (J.map (Int.cast : ℤ → ℝ)) k = ((rd J k : ℤ) : ℝ) := by
          unfold rd
          rw [← Int.cast_zero (R := ℝ), List.getD_map]
        rw [e2]
        unfold ent
        push_cast
        rfl
      rw [e]
  have h2 : ∀ (s q : List ℤ), (List.zipWith (fun (x : ℤ) (p : ℝ) => (x : ℝ) * p) s (q.map Int.cast)).sum =
      ((List.zipWith (fun (x : ℤ) (p : ℤ) => (x : ℤ) * p) s q).sum : ℤ) := by
    intro s
    induction s with
    | nil => intro q; simp
    | cons x s ih =>
      intro q
      cases q with
      | nil => simp
      | cons v q => simp [ih]
  unfold isingCalcERow
  rw [← List.map_drop, ← List.map_take, h2]
  have h3 := h1 (θ.drop s.length) (loopPairs s.length) 0 0
  rw [Int.cast_zero] at h3
  unfold fastSum
  rw [h3]
  push_cast
  rfl

/-- The energies of `C136_witness`: one state, all 16 spins one. -/
theorem ones_energy : isingCalcERow (List.replicate 136 (-100 : ℝ)) (List.replicate 16 1) = 13600 ∧
    ∀ i < 16, isingCalcERow (List.replicate 136 (-100 : ℝ)) ((List.replicate 16 1).set i 0) = 12000 := by
  have e : List.replicate 136 (-100 : ℝ) = (List.replicate 136 (-100 : ℤ)).map Int.cast := by
    rw [List.map_replicate]
    norm_num
  rw [e]
  have h1 : isingCalcERow (List.replicate 136 (-100 : ℤ)) (List.replicate 16 1) = 13600 := by decide +kernel
  have h2 : ∀ i < 16, isingCalcERow (List.replicate 136 (-100 : ℤ)) ((List.replicate 16 1).set i 0) = 12000 := by decide +kernel
  refine ⟨?_, fun i hi => ?_⟩
  · rw [cast_energy, h1]
    norm_num
  · rw [cast_energy, h2 i hi]
    norm_num

theorem uniq_singleton (uniq : Data → Data) (hu : UniqSpec uniq) (s : List ℤ) : uniq [s] = [s] := by
  obtain ⟨hnd, hmem⟩ := hu [s]
  exact List.perm_singleton.1 ((List.perm_ext_iff_of_nodup hnd (List.nodup_singleton s)).2 hmem)

/-- C136: a case within the default limits of the parameters. For 16 spins that are all one and all parameters -100, `uselog=False`
gives infinity in double precision (where the exponential of 799 is too large), and `uselog=True` gives `800 + log 16` up to
rounding errors. -/
theorem C136_witness (A : FlArith) (ε : ℝ) (h : Ieee A) (ha : Accurate A ε) (hε : ε ≤ 1 / 2 ^ 40) (hexp : ∀ x, 0 ≤ A.expf x)
    (hR : ∀ y, 799 ≤ y → A.big < A.expf y) (uniq : Data → Data) (hu : UniqSpec uniq) (tE : SumTree) (htE : tE.Adds 16) (t : SumTree)
    (ht : t.Adds 16) :
    ∃ adjs L, listAdjacentStates (uniq [List.replicate 16 1]) true = .ok adjs ∧
      mpfKFl A t (isingCalcERowFl A tE ((List.replicate 136 (-100 : ℝ)).map .num)) (uniq [List.replicate 16 1])
        ((uniq [List.replicate 16 1]).map fun s => [List.replicate 16 1].count s) adjs = .ok (.inf false) ∧
      mpfLogKFl A t (isingCalcERowFl A tE ((List.replicate 136 (-100 : ℝ)).map .num)) (uniq [List.replicate 16 1])
        ((uniq [List.replicate 16 1]).map fun s => [List.replicate 16 1].count s) adjs = .ok (.num L) ∧
      |L - (800 + Real.log 16)| ≤ 1 / 1000 := by
  have hε0 := ha.nonneg
  obtain ⟨g1, g2⟩ := ones_energy
  have hlen : ∀ s ∈ [List.replicate 16 (1 : ℤ)], s.length = 16 := by simp
  have hv : ∀ s ∈ [List.replicate 16 (1 : ℤ)], ∀ x ∈ s, x = 0 ∨ x = 1 := by simp
  have hb : ∀ v ∈ List.replicate 136 (-100 : ℝ), A.rd v = v ∧ |v| ≤ ((100 : ℕ) : ℝ) := by
    intro v hv
    rw [List.eq_of_mem_replicate hv, h.neg]
    have := h.nat 100 (by norm_num)
    push_cast at this
    rw [this]
    norm_num
  have hul : (uniq [List.replicate 16 1]).length * 16 = 16 := by
    rw [uniq_singleton uniq hu]
    rfl
  have hset : ∀ i < 16, (List.replicate 16 (1 : ℤ)).set i (1 - (List.replicate 16 (1 : ℤ)).getD i 0) = (List.replicate 16 1).set i 0 := by
    decide +kernel
  obtain ⟨adjs, k1, k2⟩ := C136_K_overflow A ε h ha hexp uniq hu 16 100 [List.replicate 16 1] hlen hv (List.replicate 136 (-100 : ℝ))
    (by simp) hb (by norm_num) tE htE t ht 799 hR (List.replicate 16 1) (by simp) ((List.replicate 16 1).set 0 0)
    (List.mem_map.2 ⟨0, by simp, hset 0 (by norm_num)⟩) (by
      rw [g1, g2 0 (by norm_num)]
      norm_num at hε ⊢
      linarith)
  obtain ⟨adjs', L, l1, l2, -, l3⟩ := C136_logK A ε h ha uniq hu 16 100 (by norm_num) [List.replicate 16 1] (by simp) (by simp) hlen hv
    (List.replicate 136 (-100 : ℝ)) (by simp) hb (by norm_num) (by rw [hul]; norm_num) (by
      rw [hul]
      norm_num [errScale] at hε ⊢
      linarith) tE htE t (by rw [hul]; exact ht)
  obtain rfl : adjs = adjs' := Except.ok.inj (k1.symm.trans l1)
  refine ⟨adjs, L, k1, k2, l2, ?_⟩
  have hp : probFlow [List.replicate 16 1] (flips fun x => 1 - x) (isingCalcERow (List.replicate 136 (-100 : ℝ))) = 16 * Real.exp 800 := by
    unfold probFlow flips
    rw [List.map_singleton, List.sum_singleton, List.map_map, List.length_singleton, Nat.cast_one, div_one, List.length_replicate]
    have e : ((List.range 16).map ((fun u => Real.exp ((isingCalcERow (List.replicate 136 (-100 : ℝ)) (List.replicate 16 1) -
        isingCalcERow (List.replicate 136 (-100 : ℝ)) u) / 2)) ∘
        fun i => (List.replicate 16 (1 : ℤ)).set i (1 - (List.replicate 16 (1 : ℤ)).getD i 0))) =
        (List.range 16).map fun _ => Real.exp 800 := by
      refine List.map_congr_left fun i hi => ?_
      have hi' := List.mem_range.1 hi
      rw [Function.comp, hset i hi', g1, g2 i hi']
      norm_num
    rw [e, List.map_const', List.sum_replicate, List.length_range, nsmul_eq_mul]
    norm_num
  rw [hp, Real.log_mul (by norm_num) (Real.exp_ne_zero _), Real.log_exp, add_comm] at l3
  refine l3.trans ?_
  have hul' : (uniq [List.replicate 16 1]).length = 1 := by omega
  rw [hul']
  norm_num at hε ⊢
  linarith

theorem fineArith_close : Accurate fineArith (1 / 2 ^ 70) where
  nonneg := by norm_num
  rd x := by
    have := fine_acc x
    have h2 := abs_nonneg x
    show |fine x - x| ≤ 1 / 2 ^ 70 * (|x| + 1)
    norm_num at this ⊢
    linarith
  exp x _ := by
    have := fine_acc (Real.exp x)
    have h2 := Real.exp_pos x
    show |fine (Real.exp x) - Real.exp x| ≤ 1 / 2 ^ 70 * (Real.exp x + 1)
    norm_num at this ⊢
    linarith
  log y _ := by
    have := fine_acc (Real.log y)
    have h2 := abs_nonneg (Real.log y)
    show |fine (Real.log y) - Real.log y| ≤ 1 / 2 ^ 70 * (|Real.log y| + 1)
    norm_num at this ⊢
    linarith
  log_small := fineArith_accurate.log_small

/-- Non-vacuity of C136_witness, C136_K_overflow and C136_logK: numbers cut off after 70 binary places, up to `2 ^ 53`, sums from
left to right. -/
example (uniq : Data → Data) (hu : UniqSpec uniq) : ∃ (t : SumTree) (adjs : List Data) (L : ℝ), t.Adds 16 ∧
      mpfKFl fineArith t (isingCalcERowFl fineArith t ((List.replicate 136 (-100 : ℝ)).map .num)) (uniq [List.replicate 16 1])
        ((uniq [List.replicate 16 1]).map fun s => [List.replicate 16 1].count s) adjs = .ok (.inf false) ∧
      mpfLogKFl fineArith t (isingCalcERowFl fineArith t ((List.replicate 136 (-100 : ℝ)).map .num)) (uniq [List.replicate 16 1])
        ((uniq [List.replicate 16 1]).map fun s => [List.replicate 16 1].count s) adjs = .ok (.num L) ∧
      |L - (800 + Real.log 16)| ≤ 1 / 1000 := by
  have ht : ((List.range' 1 15).foldl (fun t i => SumTree.node t (.leaf i)) (.leaf 0)).Adds 16 := by
    show List.Perm _ _
    decide +kernel
  obtain ⟨adjs, L, -, h1, h2, h3⟩ := C136_witness fineArith (1 / 2 ^ 70) fineArith_ieee fineArith_close (by norm_num)
    fineArith_relative.exp_nonneg (fun y hy => by
      show (2 : ℝ) ^ 53 < fine (Real.exp y)
      have h1 : ((2 ^ 54 : ℕ) : ℝ) ≤ Real.exp y := by
        have h2 : (2 : ℝ) ≤ Real.exp 1 := by
          have := Real.add_one_le_exp (1 : ℝ)
          linarith
        have h3 : Real.exp 1 ^ 54 = Real.exp ((54 : ℕ) : ℝ) := by rw [← Real.exp_nat_mul, mul_one]
        have h4 := pow_le_pow_left₀ (by norm_num) h2 54
        rw [h3] at h4
        have h6 : Real.exp ((54 : ℕ) : ℝ) ≤ Real.exp y := Real.exp_le_exp.2 (by push_cast; linarith)
        have h7 : ((2 ^ 54 : ℕ) : ℝ) = 2 ^ 54 := by norm_num
        rw [h7]
        exact h4.trans h6
      have h5 := fine_mono h1
      rw [fine_nat] at h5
      refine lt_of_lt_of_le ?_ h5
      norm_num) uniq hu _ ht _ ht
  exact ⟨_, adjs, L, ht, h1, h2, h3⟩

end Verif.Props
