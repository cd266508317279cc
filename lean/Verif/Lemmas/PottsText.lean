/-
The text of the generated Potts modules and its evaluation.
-/
import Verif.Model.EnumeratePotts
import Verif.Lemmas.EqnText

namespace Verif.Lemmas
open Verif Verif.Model Verif.Spec

/-! ### Coefficient lists -/

theorem insertNewlinesAux_spec (n : ℕ) : ∀ (fuel i : ℕ) (s : List Char),
    (insertNewlinesAux n fuel i s).filter (· != '\n') = s.filter (· != '\n') ∧
    (insertNewlinesAux n fuel i s).getLast? = s.getLast? ∧
    ∀ c ∈ insertNewlinesAux n fuel i s, c ∈ s ∨ c = '\n' := by
  intro fuel
  induction fuel with
  | zero => intro i s; exact ⟨rfl, rfl, fun c h => Or.inl h⟩
  | succ fuel ih =>
    intro i s
    simp only [insertNewlinesAux]
    split_ifs with h
    · obtain ⟨h1, h2, h3⟩ := ih (i + (n + 2)) (s.take i ++ '\n' :: s.drop i)
      refine ⟨?_, ?_, ?_⟩
      · rw [h1, List.filter_append, List.filter_cons_of_neg (by simp), ← List.filter_append,
          List.take_append_drop]
      · rw [h2]
        have hne : s.drop i ≠ [] := by simpa using h
        conv_rhs => rw [← List.take_append_drop i s]
        rw [List.getLast?_append_of_ne_nil _ (by simp), List.getLast?_append_of_ne_nil _ hne,
          List.getLast?_cons, List.getLast?_eq_some_getLast hne]
        rfl
      · intro c hc
        rcases h3 c hc with h | h
        · rcases List.mem_append.1 h with h | h
          · exact Or.inl (List.mem_of_mem_take h)
          · rcases List.mem_cons.1 h with h | h
            · exact Or.inr h
            · exact Or.inl (List.mem_of_mem_drop h)
        · exact Or.inr h
    · exact ⟨rfl, rfl, fun c h => Or.inl h⟩

section
variable {K : Type*} [Ring K] (env : Char → ℕ → Option K)

/-- Value of a coefficient. -/
def bitVal (c : Char) : K := if c = '1' then 1 else 0

theorem parse_bit (v : List K) (z : Char) (hz : z = '0' ∨ z = '1') :
    parseStep env ⟨v, 0, .ready none⟩ z = some ⟨v, bitVal z, .done⟩ := by
  rcases hz with rfl | rfl <;> simp [parseStep, bitVal, addTerm]

theorem parse_tokens (z : Char) (hz : z = '0' ∨ z = '1') (toks : List Char)
    (h : ∀ c ∈ toks, c = '0' ∨ c = '1' ∨ c = '\n') (v : List K) :
    parseRun env ⟨v, 0, .ready none⟩ (subAll ['\n', ','] ['\n'] ((toks ++ [z]).intersperse ',')) =
      some ⟨v ++ (toks.filter (· != '\n')).map bitVal, bitVal z, .done⟩ := by
  induction toks generalizing v with
  | nil =>
    have : subAll ['\n', ','] ['\n'] (([] ++ [z] : List Char).intersperse ',') = [z] := by
      rcases hz with rfl | rfl <;> rfl
    rw [this, parseRun_cons, parse_bit env v z hz]
    simp [parseRun]
  | cons c toks ih =>
    have ih := ih fun c hc => h c (by simp [hc])
    obtain ⟨x, rest, hx⟩ : ∃ x rest, toks ++ [z] = x :: rest := by
      cases toks with
      | nil => exact ⟨z, [], rfl⟩
      | cons a l => exact ⟨a, l ++ [z], rfl⟩
    have hi : ((c :: toks) ++ [z]).intersperse ',' = c :: ',' :: (toks ++ [z]).intersperse ',' := by
      rw [List.cons_append, hx]; rfl
    rw [hi]
    by_cases hc : c = '\n'
    · subst hc
      rw [subAll_cons, if_pos (by simp [List.isPrefixOf])]
      simp only [List.length_cons, List.length_nil, Nat.zero_add, Nat.reduceAdd, Nat.add_one_sub_one,
        List.drop_succ_cons, List.drop_zero]
      rw [parseRun_append, parse_ws env _ (by trivial) ['\n'] (by simp)]
      simp only [Option.bind_some]
      rw [ih]
      simp
    · have hc' : c = '0' ∨ c = '1' := by
        rcases h c (by simp) with h | h | h
        · exact Or.inl h
        · exact Or.inr h
        · exact absurd h hc
      rw [subAll_cons, if_neg (by simp [List.isPrefixOf, Ne.symm hc]), subAll_cons,
        if_neg (by simp [List.isPrefixOf]), parseRun_cons, parse_bit env v c hc']
      simp only [Option.bind_some]
      rw [parseRun_cons]
      have : parseStep env (⟨v, bitVal c, .done⟩ : ParseSt K) ',' = some ⟨v ++ [bitVal c], 0, .ready none⟩ := by
        simp [parseStep]
      rw [this]
      simp only [Option.bind_some]
      rw [ih, List.filter_cons_of_pos (by simpa using hc)]
      simp

theorem evalList_coeffText (cs : List Char) (hne : cs ≠ []) (h : ∀ c ∈ cs, c = '0' ∨ c = '1') :
    evalList env (coeffText cs) = some (cs.map bitVal) := by
  obtain ⟨h1, h2, h3⟩ := insertNewlinesAux_spec 55 cs.length 55 cs
  have hself : cs.filter (· != '\n') = cs := by
    rw [List.filter_eq_self]
    intro c hc
    rcases h c hc with rfl | rfl <;> decide
  rw [hself] at h1
  unfold coeffText
  change evalList env (subAll _ _ ((insertNewlinesAux 55 cs.length 55 cs).intersperse ',')) = _
  obtain ⟨r, hr⟩ : ∃ r, r = insertNewlinesAux 55 cs.length 55 cs := ⟨_, rfl⟩
  rw [← hr] at h1 h2 h3 ⊢
  have hrne : r ≠ [] := by rintro rfl; simp at h1; exact hne h1
  obtain ⟨toks, z, hz⟩ : ∃ toks z, r = toks ++ [z] := ⟨r.dropLast, r.getLast hrne, (List.dropLast_append_getLast hrne).symm⟩
  rw [hz] at h1 h2 h3 ⊢
  have hz' : z = '0' ∨ z = '1' := by
    apply h z
    apply List.mem_of_getLast?
    rw [← h2]; simp
  unfold evalList
  rw [parse_tokens env z hz' toks]
  · simp only [List.nil_append]
    rw [← h1, List.filter_append, List.map_append]
    congr 2
    rw [List.filter_cons_of_pos]
    · simp
    · rcases hz' with rfl | rfl <;> decide
  · intro c hc
    rcases h3 c (by simp [hc]) with h' | h'
    · rcases h c h' with h | h
      · exact Or.inl h
      · exact Or.inr (Or.inl h)
    · exact Or.inr (Or.inr h')

end

/-! ### Energies -/

/-- The text with a plus sign after instead of before every term. -/
theorem plus_shift (L : List (List Char)) (hne : L ≠ []) :
    (L.map fun b => b ++ ['+']).flatten.dropLast = (L.map fun b => '+' :: b).flatten.tail := by
  have h : ∀ L : List (List Char), '+' :: (L.map fun b => b ++ ['+']).flatten =
      (L.map fun b => '+' :: b).flatten ++ ['+'] := by
    intro L
    induction L with
    | nil => rfl
    | cons b L ih => 
      simp only [List.map_cons, List.flatten_cons, List.append_assoc, List.cons_append, List.nil_append, ih]
  cases L with
  | nil => exact absurd rfl hne
  | cons b L =>
    have := h (b :: L)
    simp only [List.map_cons, List.flatten_cons, List.cons_append, List.cons.injEq, true_and] at this
    simp only [List.map_cons, List.flatten_cons, List.cons_append, List.tail_cons, this,
      List.dropLast_concat]

section
variable {K : Type*} [Ring K] (env : Char → ℕ → Option K) (env' : Char → ℕ → K)

/-- A leading plus sign may be left out. -/
theorem parse_unsigned (p : Piece) (ps : List Piece) (hs : p.sign = '+') (hg : p.Good) (v : List K) :
    parseRun env ⟨v, 0, .ready none⟩ (render (p :: ps)).tail =
      parseRun env ⟨v, 0, .ready none⟩ (render (p :: ps)) := by
  rw [render_cons, List.tail_cons, hs, parseRun_cons]
  have h1 : parseStep env (⟨v, 0, .ready none⟩ : ParseSt K) '+' = some ⟨v, 0, .ready (some false)⟩ := by
    simp [parseStep]
  rw [h1]
  simp only [Option.bind_some]
  cases p with
  | zero => simp [Piece.body, parseRun_cons, parseStep]
  | term neg c j =>
    have hg' : c.isAlpha = true := hg
    simp only [Piece.body, List.cons_append]
    rw [parseRun_cons, parseRun_cons]
    congr 1
    have hc := isAlpha_ne hg'
    simp [parseStep, hc, hg']

/-- The list of energies as it is written. -/
theorem evalList_energies (L : List (List Piece)) (hne : ∀ ps ∈ L, ps ≠ [])
    (hs : ∀ ps ∈ L, ∀ p ∈ ps, p.sign = '+')
    (hg : ∀ ps ∈ L, ∀ p ∈ ps, p.Good) (hk : ∀ ps ∈ L, ∀ p ∈ ps, p.Known env env') :
    evalList env ((L.map fun ps => ['\t', '\t'] ++ (render ps).tail ++ [',', '\n']).flatten ++ ['\t', '\t']) =
      some (L.map fun ps => (ps.map (Piece.val env')).sum) := by
  have key : ∀ (L : List (List Piece)), (∀ ps ∈ L, ps ≠ []) → (∀ ps ∈ L, ∀ p ∈ ps, p.sign = '+') →
      (∀ ps ∈ L, ∀ p ∈ ps, p.Good) → (∀ ps ∈ L, ∀ p ∈ ps, p.Known env env') → ∀ v : List K,
      parseRun env ⟨v, 0, .ready none⟩
        (L.map fun ps => ['\t', '\t'] ++ (render ps).tail ++ [',', '\n']).flatten =
      some ⟨v ++ L.map (fun ps => (ps.map (Piece.val env')).sum), 0, .ready none⟩ := by
    intro L hne hs hg hk
    induction L with
    | nil => intro v; simp [parseRun]
    | cons ps L ih =>
      intro v
      simp only [List.map_cons, List.flatten_cons]
      rw [List.append_assoc, List.append_assoc, parseRun_append, parse_ws env _ (by trivial) ['\t', '\t'] (by simp)]
      simp only [Option.bind_some]
      rw [parseRun_append]
      have hps := hne ps (by simp)
      obtain ⟨p, qs, hpq⟩ : ∃ p qs, ps = p :: qs := by
        cases ps with
        | nil => exact absurd rfl hps
        | cons p qs => exact ⟨p, qs, rfl⟩
      have h1 : parseRun env ⟨v, 0, .ready none⟩ (render ps).tail =
          some ⟨v, 0 + (ps.map (Piece.val env')).sum, .done⟩ := by
        rw [hpq, parse_unsigned env p qs (hs ps (by simp) p (by simp [hpq])) (hg ps (by simp) p (by simp [hpq])),
          ← hpq]
        exact parse_pieces env env' ps hps (hg ps (by simp)) (hk ps (by simp)) v 0 (.ready none) trivial
      rw [h1]
      simp only [Option.bind_some]
      rw [parseRun_append]
      have : parseRun env (⟨v, 0 + (ps.map (Piece.val env')).sum, .done⟩ : ParseSt K) [',', '\n'] =
          some ⟨v ++ [(ps.map (Piece.val env')).sum], 0, .ready none⟩ := by
        simp [parseRun, parseStep]
      rw [this]
      simp only [Option.bind_some]
      rw [ih (fun q hq => hne q (by simp [hq])) (fun q hq => hs q (by simp [hq]))
        (fun q hq => hg q (by simp [hq])) (fun q hq => hk q (by simp [hq]))]
      simp
  unfold evalList
  rw [parseRun_append, key L hne hs hg hk []]
  simp only [Option.bind_some]
  rw [parse_ws env _ (by trivial) ['\t', '\t'] (by simp)]
  simp

end

end Verif.Lemmas
