import Verif.Model.States
import Verif.Spec.Words
import Mathlib.Data.Nat.Digits.Lemmas
import Mathlib.Tactic.Ring
import Mathlib.Tactic.Linarith
import Mathlib.Tactic.Push

namespace Verif.Lemmas
open Verif Verif.Model Verif.Spec

theorem length_fixedDigits (b n i : ℕ) : (fixedDigits b n i).length = n := by
  simp [fixedDigits]

theorem fixedDigits_snoc (b n i : ℕ) :
    fixedDigits b (n + 1) i = fixedDigits b n (i / b) ++ [i % b] := by
  unfold fixedDigits
  rw [List.range_succ, List.map_append]
  congr 1
  · apply List.map_congr_left
    intro j hj
    have hj := List.mem_range.1 hj
    rw [Nat.div_div_eq_div_mul, show n + 1 - 1 - j = (n - 1 - j) + 1 by omega, pow_succ, mul_comm b]
  · simp

theorem fixedDigits_cons (b n i : ℕ) :
    fixedDigits b (n + 1) i = (i / b ^ n % b) :: fixedDigits b n (i % b ^ n) := by
  unfold fixedDigits
  rw [List.range_succ_eq_map, List.map_cons, List.map_map]
  congr 1
  apply List.map_congr_left
  intro j hj
  have hj := List.mem_range.1 hj
  simp only [Function.comp]
  have e : n + 1 - 1 - (j + 1) = n - 1 - j := by omega
  rw [Nat.succ_eq_add_one, e]
  have hsplit : b ^ n = b ^ (n - 1 - j) * b ^ (j + 1) := by
    rw [← pow_add]; congr 1; omega
  rw [hsplit, Nat.mod_mul_right_div_self, Nat.mod_mod_of_dvd]
  exact Dvd.intro_left (b ^ j) rfl

theorem fixedDigits_zero (b n : ℕ) : fixedDigits b n 0 = List.replicate n 0 := by
  unfold fixedDigits
  rw [List.eq_replicate_iff]
  simp

theorem pad_digits (b : ℕ) (hb : 2 ≤ b) (n i : ℕ) (hi : i < b ^ n) :
    List.replicate (n - (Nat.digits b i).length) 0 ++ (Nat.digits b i).reverse =
      fixedDigits b n i := by
  induction n generalizing i with
  | zero =>
    have : i = 0 := by simpa using hi
    subst this; simp [fixedDigits]
  | succ n ih =>
    rcases Nat.eq_zero_or_pos i with rfl | hpos
    · rw [fixedDigits_zero]; simp
    · rw [fixedDigits_snoc, Nat.digits_def' (by omega) hpos, ← ih (i / b)
        (Nat.div_lt_of_lt_mul (by rw [pow_succ] at hi; linarith))]
      simp

theorem words_eq_map (A : List α) (b : ℕ) (hA : A.length = b) (hb : 0 < b) (n : ℕ) (d : α) :
    words A n = (List.range (b ^ n)).map fun i => (fixedDigits b n i).map fun j => A.getD j d := by
  induction n with
  | zero => simp [words, fixedDigits]
  | succ n ih =>
    have hA' : A = (List.range b).map fun j => A.getD j d := by
      apply List.ext_getElem
      · simp [hA]
      · intro i h1 h2; simp [h1]
    have hr : ∀ m, List.range (m * b ^ n) =
        (List.range m).flatMap fun a => (List.range (b ^ n)).map fun r => a * b ^ n + r := by
      intro m
      induction m with
      | zero => simp
      | succ m ihm =>
        rw [Nat.succ_mul, List.range_add, ihm, List.range_succ, List.flatMap_append]
        simp
    rw [words, hA', List.flatMap_map, pow_succ, mul_comm, hr, List.map_flatMap]
    rw [← hA']
    simp only [List.flatMap_def]
    congr 1
    apply List.map_congr_left
    intro a ha
    have ha := List.mem_range.1 ha
    rw [ih, List.map_map, List.map_map]
    apply List.map_congr_left
    intro r hr
    have hr := List.mem_range.1 hr
    simp only [Function.comp]
    have hpos : 0 < b ^ n := Nat.pow_pos hb
    have e1 : (a * b ^ n + r) / b ^ n = a := by
      rw [mul_comm, Nat.mul_add_div hpos, Nat.div_eq_of_lt hr, add_zero]
    have e2 : (a * b ^ n + r) % b ^ n = r := by
      rw [mul_comm, Nat.mul_add_mod, Nat.mod_eq_of_lt hr]
    rw [fixedDigits_cons b n _, e1, e2, Nat.mod_eq_of_lt ha]
    rfl

theorem mem_words {A : List α} {n : ℕ} {w : List α} :
    w ∈ words A n ↔ w.length = n ∧ ∀ x ∈ w, x ∈ A := by
  induction n generalizing w with
  | zero =>
    simp only [words, List.mem_singleton, List.length_eq_zero_iff]
    constructor
    · rintro rfl; simp
    · exact fun h => h.1
  | succ n ih =>
    simp only [words, List.mem_flatMap, List.mem_map, ih]
    constructor
    · rintro ⟨a, ha, u, ⟨hu, hx⟩, rfl⟩
      refine ⟨by simp [hu], ?_⟩
      intro x hx'
      rcases List.mem_cons.1 hx' with rfl | h
      · exact ha
      · exact hx x h
    · rintro ⟨hl, hx⟩
      cases w with
      | nil => simp at hl
      | cons a u =>
        exact ⟨a, hx a (by simp), u, ⟨by simpa using hl, fun x h => hx x (by simp [h])⟩, rfl⟩

theorem length_words (A : List α) (n : ℕ) : (words A n).length = A.length ^ n := by
  induction n with
  | zero => simp [words]
  | succ n ih => simp [words, List.length_flatMap, ih, pow_succ, mul_comm]

theorem nodup_words {A : List α} (hA : A.Nodup) (n : ℕ) : (words A n).Nodup := by
  induction n with
  | zero => simp [words]
  | succ n ih =>
    rw [words, List.nodup_flatMap]
    refine ⟨fun a _ => ih.map (fun u v h => by simpa using h), ?_⟩
    refine hA.imp ?_
    intro a b hab
    simp only [Function.onFun, List.disjoint_left, List.mem_map]
    rintro _ ⟨u, _, rfl⟩ ⟨v, _, h⟩
    exact hab (List.cons.inj h).1.symm

theorem words_map {A : List α} (f : α → β) (n : ℕ) :
    words (A.map f) n = (words A n).map (List.map f) := by
  induction n with
  | zero => simp [words]
  | succ n ih =>
    simp only [words, ih, List.flatMap_map, List.map_flatMap, List.map_map]
    rfl

theorem binaryRepr_eq (n i : ℕ) (hn : 0 < n) (hi : i < 2 ^ n) :
    binaryRepr i n = (fixedDigits 2 n i).map (fun x : ℕ => (x : ℤ)) := by
  unfold binaryRepr
  split_ifs with h0
  · omega
  · rw [h0, fixedDigits_zero]; simp
  · rw [← pad_digits 2 le_rfl n i hi]
    simp

theorem binRows_eq (n : ℕ) (hn : 0 < n) :
    (List.range (2 ^ n)).map (fun i => binaryRepr i n) = words [(0 : ℤ), 1] n := by
  rw [words_eq_map [(0 : ℤ), 1] 2 rfl (by omega) n 0]
  apply List.map_congr_left
  intro i hi
  rw [binaryRepr_eq n i hn (List.mem_range.1 hi)]
  apply List.map_congr_left
  intro x hx
  obtain ⟨j, _, rfl⟩ := List.mem_map.1 hx
  have h2 : i / 2 ^ (n - 1 - j) % 2 < 2 := Nat.mod_lt _ (by omega)
  interval_cases i / 2 ^ (n - 1 - j) % 2 <;> rfl

end Verif.Lemmas

namespace Verif.Lemmas
open Verif Verif.Model Verif.Spec

theorem greedyDigits_eq (b : ℕ) (hb : 0 < b) (e i : ℕ) (hi : i < b ^ e) :
    greedyDigits b e i = fixedDigits b e i := by
  induction e generalizing i with
  | zero => simp [greedyDigits, fixedDigits]
  | succ e ih =>
    have hpos : 0 < b ^ e := Nat.pow_pos hb
    have hdlt : i / b ^ e < b := Nat.div_lt_of_lt_mul (by rw [pow_succ] at hi; linarith)
    rw [fixedDigits_cons, Nat.mod_eq_of_lt hdlt]
    unfold greedyDigits
    split_ifs with h
    · rw [Nat.div_eq_of_lt h, Nat.mod_eq_of_lt h, ih i h]
    · have hmod : i - i / b ^ e * b ^ e = i % b ^ e := by
        have := Nat.mod_add_div' i (b ^ e)
        generalize i / b ^ e * b ^ e = q at *
        generalize i % b ^ e = r at *
        omega
      simp only [hmod]
      rw [ih _ (Nat.mod_lt _ hpos)]

theorem baseDigits_eq (e0 i b : ℕ) (hb : 2 ≤ b) (hi : 0 < i) (h : GoodEst e0 i b) :
    baseDigits e0 i b = positional b i := by
  have hlt : i < b ^ (Nat.log b i + 1) := Nat.lt_pow_succ_log_self (by omega) i
  have hle : b ^ Nat.log b i ≤ i := Nat.pow_log_le_self b (by omega)
  have hpos : 0 < b ^ Nat.log b i := Nat.pow_pos (by omega)
  have hd : i / b ^ Nat.log b i < b := Nat.div_lt_of_lt_mul (by rw [pow_succ] at hlt; linarith)
  have hmod : i - i / b ^ Nat.log b i * b ^ Nat.log b i = i % b ^ Nat.log b i := by
    have := Nat.mod_add_div' i (b ^ Nat.log b i)
    generalize i / b ^ Nat.log b i * b ^ Nat.log b i = q at *
    generalize i % b ^ Nat.log b i = r at *
    omega
  have main : (i / b ^ Nat.log b i) :: greedyDigits b (Nat.log b i)
      (i - i / b ^ Nat.log b i * b ^ Nat.log b i) = positional b i := by
    rw [positional, fixedDigits_cons, Nat.mod_eq_of_lt hd, hmod,
      greedyDigits_eq b (by omega) _ _ (Nat.mod_lt _ hpos)]
  unfold baseDigits
  rcases h with h | ⟨h1, h2⟩
  · subst h
    have hne : i / b ^ Nat.log b i ≠ b := by omega
    simp only [hne, if_false]
    exact main
  · simp only [h2, if_true]
    rw [h1]
    have : i / b ^ Nat.log b i = 1 := by
      rw [← h1, pow_succ, ← Nat.div_div_eq_div_mul, h2, Nat.div_self (by omega)]
    rw [this] at main
    exact main

theorem mapM_ok {α β : Type*} (f : α → Py β) (g : α → β) (l : List α)
    (h : ∀ x ∈ l, f x = .ok (g x)) : l.mapM f = .ok (l.map g) := by
  induction l with
  | nil => rfl
  | cons x xs ih =>
    rw [List.mapM_cons, h x (by simp), ih fun y hy => h y (by simp [hy])]
    rfl

theorem lookupDigits_eq (A : List Char) (ds : List ℕ) (h : ∀ d ∈ ds, d < A.length) :
    lookupDigits A ds = .ok (ds.map fun d => A.getD d '0') := by
  unfold lookupDigits
  apply mapM_ok
  intro d hd
  rw [List.getElem?_eq_getElem (h d hd), List.getD_eq_getElem _ _ (h d hd)]

theorem fixedDigits_lt {b n i d : ℕ} (hb : 0 < b) (hd : d ∈ fixedDigits b n i) : d < b := by
  obtain ⟨j, _, rfl⟩ := List.mem_map.1 hd
  exact Nat.mod_lt _ hb

/-- The alphabet that `base_repr` uses for a base. -/
def alphabetOf (b : ℕ) : List Char := if b ≤ 10 then numerals else alphanum

theorem baseRepr_eq (est : ℕ → ℕ → ℕ) (i b : ℕ) (hb : 2 ≤ b) (hb' : b ≤ 36)
    (h : i ≠ 0 → GoodEst (est i b) i b) :
    baseRepr est i b = .ok ((positional b i).map fun d => (alphabetOf b).getD d '0') := by
  unfold baseRepr
  rw [if_neg (by omega)]
  by_cases h0 : i = 0
  · subst h0
    have : ∀ c, (alphabetOf b).getD 0 c = '0' := by
      intro c; unfold alphabetOf; split_ifs <;> rfl
    simp only [positional, fixedDigits, Nat.log_zero_right, List.range_one, List.map_cons,
      List.map_nil, Nat.zero_div, Nat.zero_mod, zero_add, this, if_true]
  · rw [if_neg h0, baseDigits_eq _ i b hb (Nat.pos_of_ne_zero h0) (h h0)]
    by_cases h10 : b ≤ 10
    · rw [if_pos h10, lookupDigits_eq]
      · simp [alphabetOf, h10]
      · intro d hd
        have := fixedDigits_lt (by omega) hd
        have hn : numerals.length = 10 := by decide
        omega
    · rw [if_neg h10, if_neg (by omega), lookupDigits_eq]
      · simp [alphabetOf, h10]
      · intro d hd
        have := fixedDigits_lt (by omega) hd
        have hn : alphanum.length = 36 := by decide
        omega

theorem pad_positional (b n i : ℕ) (hb : 2 ≤ b) (hn : 0 < n) (hi : i < b ^ n) :
    List.replicate (n - (positional b i).length) 0 ++ positional b i = fixedDigits b n i := by
  have hlen : (positional b i).length = Nat.log b i + 1 := length_fixedDigits _ _ _
  have hle : Nat.log b i + 1 ≤ n := by
    have : Nat.log b i < n := by
      rcases Nat.eq_zero_or_pos i with rfl | hpos
      · simpa using hn
      · exact (Nat.log_lt_iff_lt_pow (by omega) (by omega)).2 hi
    omega
  rw [hlen]
  obtain ⟨m, rfl⟩ : ∃ m, n = m + (Nat.log b i + 1) := ⟨n - (Nat.log b i + 1), by omega⟩
  rw [Nat.add_sub_cancel]
  have hlt : i < b ^ (Nat.log b i + 1) := Nat.lt_pow_succ_log_self (by omega) i
  clear hi hle hn hlen
  unfold positional
  generalize Nat.log b i + 1 = L at *
  induction m with
  | zero => simp
  | succ m ih =>
    rw [show m + 1 + L = (m + L) + 1 by ring, fixedDigits_cons]
    have hle : b ^ L ≤ b ^ (m + L) := Nat.pow_le_pow_right (by omega) (by omega)
    rw [Nat.div_eq_of_lt (by omega), Nat.mod_eq_of_lt (by omega : i < b ^ (m + L)), ← ih]
    simp [List.replicate_succ]

end Verif.Lemmas
