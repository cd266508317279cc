/-
The text of the sign arrays evaluates to the signs, wherever numpy breaks lines.
-/
import Verif.Lemmas.EqnText

namespace Verif.Lemmas
open Verif Verif.Model Verif.Spec

/-- A printed entry: what precedes its digit, the digit, and what follows it. -/
structure Item where
  pre : List Char
  d : Char
  sep : List Char

def Item.text (it : Item) : List Char := it.pre ++ it.d :: it.sep

def itemsText (l : List Item) : List Char := (l.map Item.text).flatten

/-- Effect of replacing `p x` by `p rep`. -/
def Item.pass (p x : Char) (rep : List Char) (it : Item) : Item :=
  if it.d = p ∧ it.sep.head? = some x then { it with sep := rep ++ it.sep.tail } else it

def Item.Ok (it : Item) : Prop :=
  (∀ c ∈ it.pre, c = ' ' ∨ c = '-') ∧ (∀ c ∈ it.sep, c = ' ' ∨ c = '\n' ∨ c = ',') ∧ it.sep ≠ []

theorem Item.pass_ok (p x : Char) (rep : List Char) (hr : ∀ c ∈ rep, c = ' ' ∨ c = '\n' ∨ c = ',')
    (hne : rep ≠ []) (it : Item) (h : it.Ok) : (it.pass p x rep).Ok := by
  unfold Item.pass
  split_ifs with hc
  · refine ⟨h.1, ?_, by simp [hne]⟩
    intro c hc
    rcases List.mem_append.1 hc with hc | hc
    · exact hr c hc
    · exact h.2.1 c (List.mem_of_mem_tail hc)
  · exact h

theorem subAll_items (p x : Char) (hp : p = '0' ∨ p = '1') (rep : List Char) (l : List Item) (h : ∀ it ∈ l, it.Ok)
    (t : List Char) : subAll [p, x] (p :: rep) (itemsText l ++ t) =
      itemsText (l.map (Item.pass p x rep)) ++ subAll [p, x] (p :: rep) t := by
  induction l with
  | nil => rfl
  | cons it l ih =>
    have ho := h it (by simp)
    have hne1 : ∀ c ∈ it.pre, c ≠ p := by
      intro c hc; rcases ho.1 c hc with rfl | rfl <;> rcases hp with rfl | rfl <;> decide
    have hne2 : ∀ c ∈ it.sep, c ≠ p := by
      intro c hc; rcases ho.2.1 c hc with rfl | rfl | rfl <;> rcases hp with rfl | rfl <;> decide
    have ih := ih fun i hi => h i (by simp [hi])
    simp only [itemsText, List.map_cons, List.flatten_cons, Item.text, List.append_assoc,
      List.cons_append] at ih ⊢
    rw [subAll_copy _ _ _ _ _ hne1, subAll_cons]
    obtain ⟨s, sep, hs⟩ := List.exists_cons_of_ne_nil ho.2.2
    have hne3 : ∀ c ∈ sep, c ≠ p := fun c hc => hne2 c (by simp [hs, hc])
    by_cases hc : it.d = p ∧ it.sep.head? = some x
    · have hx : s = x := by simpa [hs] using hc.2
      rw [if_pos (by simp [hs, hc.1, hx, List.isPrefixOf])]
      have hpass : it.pass p x rep = { it with sep := rep ++ it.sep.tail } := by
        simp [Item.pass, hc]
      rw [hpass]
      simp only [hs, List.cons_append, List.length_cons, List.length_nil, Nat.zero_add, Nat.reduceAdd,
        Nat.add_one_sub_one, List.drop_succ_cons, List.drop_zero, List.tail_cons, hc.1, List.append_assoc]
      rw [subAll_copy _ _ _ _ _ hne3, ih]
    · have hpass : it.pass p x rep = it := by simp only [Item.pass, hc, if_false]
      rw [if_neg, hpass]
      · rw [subAll_copy _ _ _ _ _ hne2, ih]
      · intro hpre
        apply hc
        rw [hs] at hpre ⊢
        simp only [List.cons_append, List.isPrefixOf, Bool.and_eq_true, beq_iff_eq] at hpre
        exact ⟨hpre.1.symm, by simp [hpre.2.1]⟩

theorem subAll_last (p x : Char) (hp : p = '0' ∨ p = '1') (rep pre : List Char) (d : Char)
    (h : ∀ c ∈ pre, c = ' ' ∨ c = '-') : subAll [p, x] (p :: rep) (pre ++ [d]) = pre ++ [d] := by
  have hne1 : ∀ c ∈ pre, c ≠ p := by
    intro c hc; rcases h c hc with rfl | rfl <;> rcases hp with rfl | rfl <;> decide
  rw [subAll_copy _ _ _ _ _ hne1, subAll_cons, if_neg (by simp [List.isPrefixOf]), subAll_nil]

/-- The entry `x` before its separator. -/
def signPre (w : ℕ) (x : ℤ) : List Char :=
  List.replicate (w - (intText x).length) ' ' ++ (if x < 0 then ['-'] else [])

def signDigit (x : ℤ) : Char := if x = 0 then '0' else '1'

def signItem (w : ℕ) (x : ℤ) (b : Bool) : Item :=
  ⟨signPre w x, signDigit x, if b then ['\n', ' '] else [' ']⟩

def IsSign (x : ℤ) : Prop := x = -1 ∨ x = 0 ∨ x = 1

theorem natText_one : natText 1 = ['1'] := by simp [natText]; decide

theorem intText_sign (w : ℕ) (x : ℤ) (hx : IsSign x) :
    List.replicate (w - (intText x).length) ' ' ++ intText x = signPre w x ++ [signDigit x] := by
  rcases hx with rfl | rfl | rfl
  · simp [signPre, signDigit, intText, natText_one]
  · simp [signPre, signDigit, intText, natText]
  · simp [signPre, signDigit, intText, natText_one]

theorem signPre_ok (w : ℕ) (x : ℤ) : ∀ c ∈ signPre w x, c = ' ' ∨ c = '-' := by
  intro c hc
  rcases List.mem_append.1 hc with hc | hc
  · exact Or.inl (List.eq_of_mem_replicate hc)
  · split_ifs at hc <;> simp at hc; exact Or.inr hc

theorem npText_items (w : ℕ) (brk : ℕ → Bool) (r : List ℤ) (x : ℤ) : ∀ i : ℕ, (∀ y ∈ x :: r, IsSign y) →
    ∃ (l : List (ℤ × Bool)) (z : ℤ), npText w brk i (x :: r) =
      itemsText (l.map fun q => signItem w q.1 q.2) ++ (signPre w z ++ [signDigit z]) ∧
      x :: r = l.map Prod.fst ++ [z] := by
  induction r generalizing x with
  | nil =>
    intro i h
    exact ⟨[], x, by rw [npText, intText_sign w x (h x (by simp))]; rfl, rfl⟩
  | cons y r ih =>
    intro i h
    obtain ⟨l, z, h1, h2⟩ := ih y (i + 1) fun a ha => h a (by simp at ha ⊢; right; exact ha)
    refine ⟨(x, brk i) :: l, z, ?_, by rw [List.map_cons, List.cons_append, ← h2]⟩
    rw [npText, intText_sign w x (h x (by simp)), h1]
    simp [itemsText, Item.text, signItem]

section
variable {K : Type*} [Ring K] (env : Char → ℕ → Option K)

theorem parse_sign (w : ℕ) (x : ℤ) (hx : IsSign x) (v : List K) :
    parseRun env ⟨v, 0, .ready none⟩ (signPre w x ++ [signDigit x]) = some ⟨v, (x : K), .done⟩ := by
  unfold signPre
  rw [List.append_assoc, parseRun_append, parse_ws env ⟨v, 0, .ready none⟩ trivial _ (fun c hc =>
    Or.inl (List.eq_of_mem_replicate hc))]
  rcases hx with rfl | rfl | rfl
  · simp [signDigit, parseRun, parseStep, addTerm]
  · simp [signDigit, parseRun, parseStep]
  · simp [signDigit, parseRun, parseStep, addTerm]

theorem parse_sep (v : List K) (cur : K) (b : Bool) :
    parseRun env ⟨v, cur, .done⟩ (if b then [',', '\n', ' '] else [',']) =
      some ⟨v ++ [cur], 0, .ready none⟩ := by
  cases b <;> simp [parseRun, parseStep]

theorem parse_items (w : ℕ) (l : List (ℤ × Bool)) (h : ∀ q ∈ l, IsSign q.1) (v : List K) :
    parseRun env ⟨v, 0, .ready none⟩ (itemsText (l.map fun q =>
      ⟨signPre w q.1, signDigit q.1, if q.2 then [',', '\n', ' '] else [',']⟩)) =
      some ⟨v ++ l.map (fun q => ((q.1 : ℤ) : K)), 0, .ready none⟩ := by
  induction l generalizing v with
  | nil => simp [itemsText, parseRun]
  | cons q l ih =>
    simp only [itemsText, List.map_cons, List.flatten_cons, Item.text] at ih ⊢
    rw [show signPre w q.1 ++ signDigit q.1 :: (if q.2 then [',', '\n', ' '] else [',']) =
      (signPre w q.1 ++ [signDigit q.1]) ++ (if q.2 then [',', '\n', ' '] else [',']) by simp,
      parseRun_append, parseRun_append, parse_sign env w q.1 (h q (by simp))]
    simp only [Option.bind_some]
    rw [parse_sep]
    simp only [Option.bind_some]
    rw [ih fun p hp => h p (by simp [hp])]
    simp

end

theorem signItem_ok (w : ℕ) (x : ℤ) (b : Bool) : (signItem w x b).Ok :=
  ⟨signPre_ok w x, by cases b <;> simp [signItem], by cases b <;> simp [signItem]⟩

theorem itemsOk_pass (p x : Char) (rep : List Char) (hr : ∀ c ∈ rep, c = ' ' ∨ c = '\n' ∨ c = ',')
    (hne : rep ≠ []) (l : List Item) (h : ∀ it ∈ l, it.Ok) :
    ∀ it ∈ l.map (Item.pass p x rep), it.Ok := by
  intro it hit
  obtain ⟨i, hi, rfl⟩ := List.mem_map.1 hit
  exact Item.pass_ok p x rep hr hne i (h i hi)

/-- The signs are read back exactly. -/
theorem evalList_signText {K : Type*} [Ring K] (env : Char → ℕ → Option K) (brk : ℕ → Bool)
    (sym : Bool) (sg : List ℤ)
    (h : ∀ x ∈ sg, if sym then x = -1 ∨ x = 1 else x = 0 ∨ x = 1) :
    evalList env (signText brk sym sg) = some (sg.map fun x : ℤ => (x : K)) := by
  have hs : ∀ x ∈ sg, IsSign x := by
    intro x hx
    have := h x hx
    cases sym <;> simp only [if_true, Bool.false_eq_true, if_false] at this <;>
      rcases this with rfl | rfl <;> simp [IsSign]
  cases sg with
  | nil =>
    cases sym <;> simp [signText, npText, subAll_nil, evalList, parseRun]
  | cons x r =>
    obtain ⟨l, z, h1, h2⟩ := npText_items (npWidth (x :: r)) brk r x 0 hs
    obtain ⟨w, hw⟩ : ∃ w, w = npWidth (x :: r) := ⟨_, rfl⟩
    rw [← hw] at h1
    have hz : z ∈ x :: r := by rw [h2]; simp
    have hl : ∀ q ∈ l, q.1 ∈ x :: r := by
      intro q hq; rw [h2]; exact List.mem_append_left _ (List.mem_map.2 ⟨q, hq, rfl⟩)
    have hok : ∀ it ∈ l.map (fun q => signItem w q.1 q.2), it.Ok := by
      intro it hit; obtain ⟨q, -, rfl⟩ := List.mem_map.1 hit; exact signItem_ok w q.1 q.2
    have r1 : ∀ c ∈ [','], c = ' ' ∨ c = '\n' ∨ c = ',' := by simp
    have r2 : ∀ c ∈ [',', '\n'], c = ' ' ∨ c = '\n' ∨ c = ',' := by simp
    have htext : signText brk sym (x :: r) = itemsText (l.map fun q =>
        ⟨signPre w q.1, signDigit q.1, if q.2 then [',', '\n', ' '] else [',']⟩) ++
        (signPre w z ++ [signDigit z]) := by
      unfold signText
      simp only
      rw [← hw, h1]
      cases sym
      · simp only [Bool.false_eq_true, if_false]
        rw [subAll_items '0' ' ' (Or.inl rfl) [','] _ hok, subAll_last _ _ (Or.inl rfl) _ _ _ (signPre_ok w z)]
        have hok1 := itemsOk_pass '0' ' ' [','] r1 (by simp) _ hok
        rw [subAll_items '1' ' ' (Or.inr rfl) [','] _ hok1, subAll_last _ _ (Or.inr rfl) _ _ _ (signPre_ok w z)]
        have hok2 := itemsOk_pass '1' ' ' [','] r1 (by simp) _ hok1
        rw [subAll_items '0' '\n' (Or.inl rfl) [',', '\n'] _ hok2, subAll_last _ _ (Or.inl rfl) _ _ _ (signPre_ok w z)]
        have hok3 := itemsOk_pass '0' '\n' [',', '\n'] r2 (by simp) _ hok2
        rw [subAll_items '1' '\n' (Or.inr rfl) [',', '\n'] _ hok3, subAll_last _ _ (Or.inr rfl) _ _ _ (signPre_ok w z)]
        congr 2
        simp only [List.map_map]
        apply List.map_congr_left
        intro q hq
        have hd := h q.1 (hl q hq)
        simp only [Bool.false_eq_true, if_false] at hd
        simp only [Function.comp, signItem]
        rcases hd with hd | hd <;> cases q.2 <;> simp [hd, signDigit, Item.pass]
      · simp only [if_true]
        rw [subAll_items '1' ' ' (Or.inr rfl) [','] _ hok, subAll_last _ _ (Or.inr rfl) _ _ _ (signPre_ok w z)]
        have hok1 := itemsOk_pass '1' ' ' [','] r1 (by simp) _ hok
        rw [subAll_items '1' '\n' (Or.inr rfl) [',', '\n'] _ hok1, subAll_last _ _ (Or.inr rfl) _ _ _ (signPre_ok w z)]
        congr 2
        simp only [List.map_map]
        apply List.map_congr_left
        intro q hq
        have hd := h q.1 (hl q hq)
        simp only [if_true] at hd
        simp only [Function.comp, signItem]
        rcases hd with hd | hd <;> cases q.2 <;> simp [hd, signDigit, Item.pass]
    unfold evalList
    rw [htext, parseRun_append, parse_items env w l (fun q hq => hs _ (hl q hq)) []]
    simp only [Option.bind_some]
    rw [parse_sign env w z (hs z hz)]
    simp only [List.nil_append]
    rw [h2]
    simp

end Verif.Lemmas
