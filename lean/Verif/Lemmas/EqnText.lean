/-
Lemmas on the text of the generated equations and its evaluation.
-/
import Verif.Model.Enumerate
import Verif.Lemmas.States
import Mathlib.Data.Nat.Digits.Lemmas
import Mathlib.Tactic.Ring

namespace Verif.Lemmas
open Verif Verif.Model Verif.Spec

/-! ### Replacement -/

theorem subAllAux_fuel (pat rep : List Char) (s : List Char) :
    ∀ f g : ℕ, s.length ≤ f → s.length ≤ g → subAllAux pat rep f s = subAllAux pat rep g s := by
  induction hs : s.length using Nat.strong_induction_on generalizing s with
  | _ n ih =>
    subst hs
    intro f g hf hg
    cases s with
    | nil => cases f <;> cases g <;> rfl
    | cons c cs =>
      simp only [List.length_cons] at hf hg ih
      obtain ⟨f, rfl⟩ : ∃ f', f = f' + 1 := ⟨f - 1, by omega⟩
      obtain ⟨g, rfl⟩ : ∃ g', g = g' + 1 := ⟨g - 1, by omega⟩
      simp only [subAllAux]
      split_ifs
      · rw [ih (cs.drop (pat.length - 1)).length (by rw [List.length_drop]; omega) _ rfl f g
          (by rw [List.length_drop]; omega) (by rw [List.length_drop]; omega)]
      · rw [ih cs.length (by omega) _ rfl f g (by omega) (by omega)]

theorem subAll_nil (pat rep : List Char) : subAll pat rep [] = [] := rfl

theorem subAll_cons (pat rep : List Char) (c : Char) (cs : List Char) :
    subAll pat rep (c :: cs) = if pat.isPrefixOf (c :: cs) then
      rep ++ subAll pat rep (cs.drop (pat.length - 1)) else c :: subAll pat rep cs := by
  unfold subAll
  simp only [List.length_cons, subAllAux]
  split_ifs
  · rw [subAllAux_fuel pat rep _ _ _ (by simp) le_rfl]
  · rfl

/-- Characters other than the first one of the pattern are copied. -/
theorem subAll_copy (p : Char) (pat rep s t : List Char) (h : ∀ c ∈ s, c ≠ p) :
    subAll (p :: pat) rep (s ++ t) = s ++ subAll (p :: pat) rep t := by
  induction s with
  | nil => rfl
  | cons c s ih =>
    rw [List.cons_append, subAll_cons, if_neg, ih (fun c hc => h c (by simp [hc])), List.cons_append]
    have := h c (by simp)
    simp [List.isPrefixOf, Ne.symm this]

theorem subAll_id (p : Char) (pat rep s : List Char) (h : ∀ c ∈ s, c ≠ p) :
    subAll (p :: pat) rep s = s := by
  have := subAll_copy p pat rep s [] h
  simpa [subAll_nil] using this

/-! ### Decimal numbers -/

theorem digitVal_digitCh (d : ℕ) (hd : d < 10) : digitVal (digitCh d) = some d := by
  interval_cases d <;> decide

theorem digitCh_ne (d : ℕ) (hd : d < 10) : digitCh d ≠ '+' ∧ digitCh d ≠ ']' ∧ digitCh d ≠ ')' := by
  interval_cases d <;> decide

theorem natText_digits (j : ℕ) : ∃ ds : List ℕ, (∀ d ∈ ds, d < 10) ∧ ds ≠ [] ∧
    natText j = ds.map digitCh ∧ ds.foldl (fun a d => 10 * a + d) 0 = j := by
  by_cases h : j = 0
  · exact ⟨[0], by simp, by simp, by simp [natText, h, digitCh], by simp [h]⟩
  · refine ⟨(Nat.digits 10 j).reverse, ?_, ?_, by simp [natText, h], ?_⟩
    · intro d hd
      exact Nat.digits_lt_base (by norm_num) (List.mem_reverse.1 hd)
    · simpa [Nat.digits_eq_nil_iff_eq_zero] using h
    · rw [List.foldl_reverse]
      have : ∀ l : List ℕ, l.foldr (fun d a => 10 * a + d) 0 = Nat.ofDigits 10 l := by
        intro l
        induction l with
        | nil => rfl
        | cons d l ih => rw [List.foldr_cons, ih, Nat.ofDigits_cons]; exact add_comm _ _
      rw [this, Nat.ofDigits_digits]

theorem natText_ne (j : ℕ) : ∀ c ∈ natText j, c ≠ '+' ∧ c ≠ ']' ∧ c ≠ ')' := by
  obtain ⟨ds, h1, -, h2, -⟩ := natText_digits j
  rw [h2]
  intro c hc
  obtain ⟨d, hd, rfl⟩ := List.mem_map.1 hc
  exact digitCh_ne d (h1 d hd)

/-! ### Running the reader -/

section
variable {K : Type*} [Ring K] (env : Char → ℕ → Option K)

theorem parseRun_append (st : ParseSt K) (s t : List Char) :
    parseRun env st (s ++ t) = (parseRun env st s).bind fun st' => parseRun env st' t := by
  unfold parseRun
  rw [List.foldlM_append]; rfl

theorem parseRun_cons (st : ParseSt K) (c : Char) (t : List Char) :
    parseRun env st (c :: t) = (parseStep env st c).bind fun st' => parseRun env st' t := rfl

theorem parseRun_nil (st : ParseSt K) : parseRun env st [] = some st := rfl

theorem parse_digits (v : List K) (cur : K) (neg : Bool) (c : Char) (ds : List ℕ)
    (h : ∀ d ∈ ds, d < 10) (hne : ds ≠ []) (a : Option ℕ) :
    parseRun env ⟨v, cur, .idx neg c a⟩ (ds.map digitCh) =
      some ⟨v, cur, .idx neg c (some (ds.foldl (fun a d => 10 * a + d) (a.getD 0)))⟩ := by
  induction ds generalizing a with
  | nil => exact absurd rfl hne
  | cons d ds ih =>
    have hd := h d (by simp)
    have hstep : parseStep env ⟨v, cur, .idx neg c a⟩ (digitCh d) =
        some ⟨v, cur, .idx neg c (some (10 * a.getD 0 + d))⟩ := by
      simp only [parseStep]
      rw [if_neg (digitCh_ne d hd).2.1, digitVal_digitCh d hd]
    rw [List.map_cons, parseRun_cons, hstep]
    simp only [Option.bind_some, List.foldl_cons]
    by_cases hds : ds = []
    · subst hds; rfl
    · rw [ih (fun d hd => h d (by simp [hd])) hds]
      rfl

/-- Modes in which blanks do not matter. -/
def Mode.Loose : Mode → Prop
  | .ready _ => True
  | .done => True
  | _ => False

/-- Modes in which a signed term may follow. -/
def Mode.Start : Mode → Prop
  | .ready none => True
  | .done => True
  | _ => False

theorem parse_ws (st : ParseSt K) (h : Mode.Loose st.mode) (s : List Char)
    (hs : ∀ c ∈ s, c = ' ' ∨ c = '\n' ∨ c = '\t') : parseRun env st s = some st := by
  induction s with
  | nil => rfl
  | cons c s ih =>
    have hc := hs c (by simp)
    have : parseStep env st c = some st := by
      obtain ⟨v, cur, m⟩ := st
      unfold parseStep
      cases m with
      | ready sg => simp [hc]
      | done => simp [hc]
      | name _ _ => exact absurd h (by simp [Mode.Loose])
      | idx _ _ _ => exact absurd h (by simp [Mode.Loose])
    rw [parseRun_cons, this]
    exact ih fun c hc => hs c (by simp [hc])

/-- After a `+` a term is expected. -/
theorem parseStep_plus (st st' : ParseSt K) (h : parseStep env st '+' = some st') :
    Mode.Loose st'.mode := by
  obtain ⟨v, cur, m⟩ := st
  cases m with
  | ready sg =>
    cases sg with
    | none => simp [parseStep] at h; subst h; trivial
    | some b => simp [parseStep] at h
  | done => simp [parseStep] at h; subst h; trivial
  | name _ _ => simp [parseStep] at h
  | idx _ _ _ => simp [parseStep, show digitVal '+' = none by decide] at h

end

/-! ### Sums of terms -/

/-- One summand of an energy: a literal zero, or a parameter with a sign. -/
inductive Piece where
  | zero
  | term (neg : Bool) (c : Char) (j : ℕ)

/-- Its text after the sign. -/
def Piece.body : Piece → List Char
  | .zero => ['0']
  | .term _ c j => c :: '[' :: natText j ++ [']']

/-- Its sign. -/
def Piece.sign : Piece → Char
  | .zero => '+'
  | .term neg _ _ => if neg then '-' else '+'

def Piece.text (p : Piece) : List Char := p.sign :: p.body

def render (ps : List Piece) : List Char := (ps.map Piece.text).flatten

/-- Only letters are used as names. -/
def Piece.Good : Piece → Prop
  | .zero => True
  | .term _ c _ => c.isAlpha = true

/-- Value, when all parameters exist. -/
def Piece.val {K : Type*} [Ring K] (env : Char → ℕ → K) : Piece → K
  | .zero => 0
  | .term neg c j => if neg then -env c j else env c j

theorem isAlpha_ne {c : Char} (h : c.isAlpha = true) :
    c ≠ '+' ∧ c ≠ '-' ∧ c ≠ '0' ∧ c ≠ '1' ∧ c ≠ ' ' ∧ c ≠ '\n' ∧ c ≠ '\t' ∧ c ≠ ')' := by
  refine ⟨?_, ?_, ?_, ?_, ?_, ?_, ?_, ?_⟩ <;> rintro rfl <;> revert h <;> decide

theorem Piece.body_ne (p : Piece) (hp : p.Good) : ∀ c ∈ p.body, c ≠ '+' ∧ c ≠ ')' := by
  cases p with
  | zero => intro c hc; simp [Piece.body] at hc; subst hc; decide
  | term neg c j =>
    intro x hx
    simp only [Piece.body, List.cons_append, List.mem_cons, List.mem_append,
      List.not_mem_nil, or_false] at hx
    rcases hx with rfl | rfl | hx | rfl
    · have := isAlpha_ne hp; exact ⟨this.1, this.2.2.2.2.2.2.2⟩
    · decide
    · have := natText_ne j x hx; exact ⟨this.1, this.2.2⟩
    · decide

theorem render_cons (p : Piece) (ps : List Piece) :
    render (p :: ps) = p.sign :: (p.body ++ render ps) := by
  simp [render, Piece.text]

theorem render_append (ps qs : List Piece) : render (ps ++ qs) = render ps ++ render qs := by
  simp [render]

theorem render_no_paren (ps : List Piece) (h : ∀ p ∈ ps, p.Good) : ∀ c ∈ render ps, c ≠ ')' := by
  intro c hc
  obtain ⟨l, hl, hcl⟩ := List.mem_flatten.1 hc
  obtain ⟨p, hp, rfl⟩ := List.mem_map.1 hl
  rcases List.mem_cons.1 hcl with rfl | hb
  · cases p with
    | zero => simp [Piece.sign]
    | term neg c j => cases neg <;> simp [Piece.sign]
  · exact (p.body_ne (h p hp) c hb).2

/-- Removing `+0` before another `+` only drops zeros. -/
theorem subAll_render (ps : List Piece) (h : ∀ p ∈ ps, p.Good) :
    ∃ qs : List Piece, subAll ['+', '0', '+'] ['+'] (render ps) = render qs ∧
      (∀ p ∈ qs, p ∈ ps) ∧ (ps ≠ [] → qs ≠ []) ∧
      ∀ (K : Type) [Ring K] (env : Char → ℕ → K),
        (qs.map (Piece.val env)).sum = (ps.map (Piece.val env)).sum := by
  induction hn : ps.length using Nat.strong_induction_on generalizing ps with
  | _ n ih =>
    subst hn
    cases ps with
    | nil => exact ⟨[], rfl, by simp, by simp, by simp⟩
    | cons p ps =>
      have hp := h p (by simp)
      have hps : ∀ q ∈ ps, q.Good := fun q hq => h q (by simp [hq])
      -- the case in which nothing is removed here
      have keep : List.isPrefixOf ['+', '0', '+'] (p.sign :: (p.body ++ render ps)) = false →
          ∃ qs : List Piece, subAll ['+', '0', '+'] ['+'] (render (p :: ps)) = render qs ∧
          (∀ q ∈ qs, q ∈ p :: ps) ∧ (p :: ps ≠ [] → qs ≠ []) ∧
          ∀ (K : Type) [Ring K] (env : Char → ℕ → K),
            (qs.map (Piece.val env)).sum = ((p :: ps).map (Piece.val env)).sum := by
        intro hpre
        obtain ⟨qs, h1, h2, -, h4⟩ := ih ps.length (by simp) ps hps rfl
        refine ⟨p :: qs, ?_, ?_, by simp, fun K _ env => by simp [h4]⟩
        · rw [render_cons, subAll_cons, if_neg (by simp [hpre]),
            subAll_copy _ _ _ _ _ (fun c hc => (p.body_ne hp c hc).1), h1, render_cons]
        · intro q hq
          rcases List.mem_cons.1 hq with rfl | hq
          · simp
          · simp [h2 q hq]
      cases p with
      | term neg c j =>
        apply keep
        cases neg <;> simp [Piece.sign, Piece.body, List.isPrefixOf]
      | zero =>
        cases ps with
        | nil => exact keep (by decide)
        | cons q ps =>
          have hq := h q (by simp)
          by_cases hs : q.sign = '+'
          · obtain ⟨qs, h1, h2, -, h4⟩ := ih ps.length (by simp) ps
              (fun q hq => h q (by simp [hq])) rfl
            refine ⟨q :: qs, ?_, ?_, by simp, fun K _ env => by simp [h4, Piece.val]⟩
            · rw [render_cons, render_cons, hs]
              rw [show Piece.zero.sign = '+' from rfl, show Piece.zero.body = ['0'] from rfl,
                subAll_cons, if_pos (by simp [List.isPrefixOf])]
              simp only [List.cons_append, List.nil_append, List.length_cons, List.length_nil,
                Nat.zero_add, Nat.reduceAdd, Nat.add_one_sub_one, List.drop_succ_cons, List.drop_zero]
              rw [subAll_copy _ _ _ _ _ (fun c hc => (q.body_ne hq c hc).1), h1, render_cons, hs]
            · intro r hr
              rcases List.mem_cons.1 hr with rfl | hr
              · simp
              · simp [h2 r hr]
          · apply keep
            rw [render_cons, show Piece.zero.sign = '+' from rfl, show Piece.zero.body = ['0'] from rfl]
            simp [List.isPrefixOf, Ne.symm hs]

section
variable {K : Type*} [Ring K] (env : Char → ℕ → Option K) (env' : Char → ℕ → K)

/-- A piece whose parameter exists. -/
def Piece.Known : Piece → Prop
  | .zero => True
  | .term _ c j => env c j = some (env' c j)

theorem parse_piece (p : Piece) (hg : p.Good) (hk : p.Known env env') (v : List K) (cur : K) (m : Mode)
    (hm : Mode.Start m) :
    parseRun env ⟨v, cur, m⟩ p.text = some ⟨v, cur + p.val env', .done⟩ := by
  have hsign : parseRun env ⟨v, cur, m⟩ [p.sign] = some ⟨v, cur, .ready (some (p.sign == '-'))⟩ := by
    have h1 : ∀ b : Bool, parseRun env ⟨v, cur, m⟩ [if b then '-' else '+'] =
        some ⟨v, cur, .ready (some b)⟩ := by
      intro b
      cases m with
      | ready sg =>
        cases sg with
        | none => cases b <;> simp [parseRun, parseStep]
        | some _ => exact absurd hm (by simp [Mode.Start])
      | done => cases b <;> simp [parseRun, parseStep]
      | name _ _ => exact absurd hm (by simp [Mode.Start])
      | idx _ _ _ => exact absurd hm (by simp [Mode.Start])
    cases p with
    | zero => exact h1 false
    | term neg c j =>
      cases neg
      · exact h1 false
      · exact h1 true
  have : p.text = [p.sign] ++ p.body := rfl
  rw [this, parseRun_append, hsign]
  simp only [Option.bind_some]
  cases p with
  | zero => simp [Piece.body, parseRun, parseStep, Piece.val]
  | term neg c j =>
    have hc := isAlpha_ne hg
    have hb : ((Piece.term neg c j).sign == '-') = neg := by cases neg <;> rfl
    rw [hb]
    simp only [Piece.body, List.cons_append]
    have s1 : parseStep env (⟨v, cur, .ready (some neg)⟩ : ParseSt K) c =
        some ⟨v, cur, .name neg c⟩ := by
      have hg' : c.isAlpha = true := hg
      simp [parseStep, hc, hg']
    have s2 : parseStep env (⟨v, cur, .name neg c⟩ : ParseSt K) '[' =
        some ⟨v, cur, .idx neg c none⟩ := by simp [parseStep]
    rw [parseRun_cons, s1, Option.bind_some, parseRun_cons, s2, Option.bind_some, parseRun_append]
    obtain ⟨ds, d1, d2, d3, d4⟩ := natText_digits j
    rw [d3, parse_digits env v cur neg c ds d1 d2]
    simp only [Option.bind_some, Option.getD_none, d4]
    have hk' : env c j = some (env' c j) := hk
    cases neg <;> simp [parseRun, parseStep, hk', addTerm, Piece.val, sub_eq_add_neg]

theorem parse_pieces (ps : List Piece) (hne : ps ≠ []) (hg : ∀ p ∈ ps, p.Good)
    (hk : ∀ p ∈ ps, p.Known env env') (v : List K) (cur : K) (m : Mode) (hm : Mode.Start m) :
    parseRun env ⟨v, cur, m⟩ (render ps) =
      some ⟨v, cur + (ps.map (Piece.val env')).sum, .done⟩ := by
  induction ps generalizing cur m with
  | nil => exact absurd rfl hne
  | cons p ps ih =>
    have : render (p :: ps) = p.text ++ render ps := by simp [render]
    rw [this, parseRun_append, parse_piece env env' p (hg p (by simp)) (hk p (by simp)) v cur m hm]
    simp only [Option.bind_some, List.map_cons, List.sum_cons]
    by_cases hps : ps = []
    · subst hps; simp [render, parseRun]
    · rw [ih hps (fun q hq => hg q (by simp [hq])) (fun q hq => hk q (by simp [hq])) _ .done trivial,
        add_assoc]

/-- A list of sums, each followed by a comma and a blank. -/
theorem parse_list (L : List (List Piece)) (hne : ∀ ps ∈ L, ps ≠ [])
    (hg : ∀ ps ∈ L, ∀ p ∈ ps, p.Good) (hk : ∀ ps ∈ L, ∀ p ∈ ps, p.Known env env') (v : List K) :
    parseRun env ⟨v, 0, .ready none⟩ (L.map fun ps => render ps ++ [',', ' ']).flatten =
      some ⟨v ++ L.map (fun ps => (ps.map (Piece.val env')).sum), 0, .ready none⟩ := by
  induction L generalizing v with
  | nil => simp [parseRun]
  | cons ps L ih =>
    simp only [List.map_cons, List.flatten_cons, List.append_assoc]
    rw [parseRun_append, parse_pieces env env' ps (hne ps (by simp)) (hg ps (by simp))
      (hk ps (by simp)) v 0 (.ready none) trivial]
    simp only [Option.bind_some]
    rw [parseRun_append]
    have : parseRun env (⟨v, 0 + (ps.map (Piece.val env')).sum, .done⟩ : ParseSt K) [',', ' '] =
        some ⟨v ++ [(ps.map (Piece.val env')).sum], 0, .ready none⟩ := by
      simp [parseRun, parseStep]
    rw [this]
    simp only [Option.bind_some]
    rw [ih (fun q hq => hne q (by simp [hq])) (fun q hq => hg q (by simp [hq]))
      (fun q hq => hk q (by simp [hq]))]
    simp

/-! ### Line breaks -/

theorem lineEnd_spec (cs : List Char) : ∀ (e0 : ℕ) (prev : Option Char) (e : ℕ),
    lineEnd e0 prev cs = some e →
    ∃ k, e = e0 + k ∧ k < cs.length ∧ (if k = 0 then prev else cs[k - 1]?) = some '+' := by
  induction cs with
  | nil => intro e0 prev e h; simp [lineEnd] at h
  | cons c cs ih =>
    intro e0 prev e h
    simp only [lineEnd] at h
    split_ifs at h with hp
    · refine ⟨0, by simpa using h.symm, by simp, by simpa using hp⟩
    · obtain ⟨k, h1, h2, h3⟩ := ih _ _ _ h
      refine ⟨k + 1, by omega, by simpa using h2, ?_⟩
      rw [if_neg (by omega)]
      by_cases hk : k = 0
      · subst hk; simpa using h3
      · rw [if_neg hk] at h3
        obtain ⟨k, rfl⟩ : ∃ k', k = k' + 1 := ⟨k - 1, by omega⟩
        simpa using h3

theorem parse_energyText (Z : List Char) : ∀ (fuel : ℕ) (st : ParseSt K), Z ≠ [] → Z.length ≤ fuel →
    Mode.Loose st.mode → parseRun env st (energyText fuel Z) = parseRun env st Z.dropLast := by
  induction hn : Z.length using Nat.strong_induction_on generalizing Z with
  | _ n ih =>
    subst hn
    intro fuel st hZ hf hst
    have hpos : 0 < Z.length := List.length_pos_iff.2 hZ
    obtain ⟨fuel, rfl⟩ : ∃ f', fuel = f' + 1 := ⟨fuel - 1, by omega⟩
    simp only [energyText, if_neg hZ]
    rcases hle : lineEnd 100 (Z.take 100).getLast? (Z.drop 100) with _ | e
    · simp only
      rw [parseRun_append, parse_ws env st hst _ (by decide)]
      rfl
    · simp only
      obtain ⟨k, h1, h2, h3⟩ := lineEnd_spec _ _ _ _ hle
      simp only [List.length_drop] at h2
      have hlt : e < Z.length := by omega
      have hplus : Z[e - 1]? = some '+' := by
        by_cases hk : k = 0
        · rw [if_pos hk, List.getLast?_eq_getElem?, List.length_take,
            min_eq_left (by omega : 100 ≤ Z.length), List.getElem?_take_of_lt (by omega)] at h3
          rw [h1, hk]; exact h3
        · rw [if_neg hk, List.getElem?_drop] at h3
          rw [← h3]; congr 1; omega
      have htake : Z.take e = Z.take (e - 1) ++ ['+'] := by
        have := List.take_add_one (i := e - 1) (l := Z)
        rw [show e - 1 + 1 = e by omega, hplus] at this
        simpa using this
      have hdrop : Z.dropLast = Z.take e ++ (Z.drop e).dropLast := by
        have hne : Z.drop e ≠ [] := by
          intro h0
          have := congrArg List.length h0
          simp at this; omega
        conv_lhs => rw [← List.take_append_drop e Z]
        rw [List.dropLast_append_of_ne_nil hne]
      rw [hdrop, List.append_assoc, parseRun_append, parse_ws env st hst _ (by decide)]
      simp only [Option.bind_some]
      rw [htake, List.append_assoc, List.append_assoc, parseRun_append env st (Z.take (e - 1)),
        parseRun_append env st (Z.take (e - 1))]
      congr 1
      funext st1
      simp only [List.cons_append, List.nil_append]
      rw [parseRun_cons, parseRun_cons]
      rcases hs : parseStep env st1 '+' with _ | st2
      · rfl
      · simp only [Option.bind_some]
        have hl := parseStep_plus env st1 st2 hs
        rw [parseRun_cons]
        have hnl : parseStep env st2 '\n' = some st2 := by
          have := parse_ws env st2 hl ['\n'] (by simp)
          simpa [parseRun] using this
        rw [hnl]
        simp only [Option.bind_some]
        exact ih (Z.drop e).length (by simp; omega) (Z.drop e) rfl fuel st2
          (by intro h0; have := congrArg List.length h0; simp at this; omega)
          (by simp; omega) hl

end

end Verif.Lemmas
