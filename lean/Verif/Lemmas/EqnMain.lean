/-
Reading and running a module in high precision.
-/
import Verif.Lemmas.EqnModuleRun
import Verif.Model.EqnMain

namespace Verif.Lemmas
open Verif Verif.Model

/-! ### Ordinary modules -/

/-- The state of the reader of ordinary modules, for the reader of both. -/
def liftRead (st : ReadSt) : HpSt := ⟨st.np, st.np, st.lse, false, st.doc, st.cur, 0, st.mod⟩

theorem readHpLine_lift (st st' : ReadSt) (l : List Char) (h : readLine st l = some st') :
    readHpLine (liftRead st) l = some (liftRead st') := by
  obtain ⟨np, lse, doc, cur, mod⟩ := st
  unfold readLine at h
  unfold readHpLine liftRead
  dsimp only at h ⊢
  cases doc with
  | true =>
    simp only [if_true] at h ⊢
    cases h
    split_ifs <;> rfl
  | false =>
    simp only [Bool.false_eq_true, if_false] at h ⊢
    cases hp : parseLine l with
    | none => rw [hp] at h; cases h
    | some s =>
      rw [hp] at h
      have : parseHp l = some (.old s) := by
        unfold parseHp
        rw [hp]
      rw [this]
      simp only [if_true]
      unfold HpSt.line
      cases s
      case defObs =>
        unfold HpSt.oldLine
        dsimp only at h ⊢
        split_ifs at h ⊢ <;> cases h <;> rfl
      case defP =>
        unfold HpSt.oldLine
        dsimp only at h ⊢
        split_ifs at h ⊢ <;> cases h <;> rfl
      case blank => cases h; rfl
      case importNp => cases h; rfl
      case importLse => cases h; rfl
      case quotes => cases h; rfl
      all_goals
        dsimp only at h ⊢
        rcases cur with _ | b
        · cases h
        · cases b <;> cases h <;> rfl

theorem readHp_lift (ls : List (List Char)) : ∀ st st', ls.foldlM readLine st = some st' →
    ls.foldlM readHpLine (liftRead st) = some (liftRead st') := by
  induction ls with
  | nil => intro st st' h; cases h; rfl
  | cons l ls ih =>
    intro st st' h
    rw [List.foldlM_cons] at h ⊢
    cases hl : readLine st l with
    | none => rw [hl] at h; cases h
    | some s1 =>
      rw [hl] at h
      rw [readHpLine_lift st s1 l hl]
      exact ih s1 st' h

theorem readHpModule_of (text : List Char) (m : EqModule) (h : readModule text = some m) :
    readHpModule text = some (m, false) := by
  unfold readModule at h
  cases hf : (logical false 0 [] text).foldlM readLine ⟨false, false, false, none, ⟨[], []⟩⟩ with
  | none => rw [hf] at h; cases h
  | some st =>
    rw [hf] at h
    dsimp only at h
    split_ifs at h with hc
    cases h
    unfold readHpModule
    have := readHp_lift _ _ _ hf
    rw [show HpSt.start = liftRead ⟨false, false, false, none, ⟨[], []⟩⟩ from rfl, this]
    unfold liftRead
    simp only [Bool.and_eq_true, Bool.not_eq_true'] at hc
    simp [hc.1.1, hc.1.2, hc.2]

/-! ### High precision modules -/

/-- A line that is complete and adds a given statement to a body. -/
def HpLineOf (l : List Char) (s : EqLine) : Prop :=
  IsLine l ∧ ∀ st : HpSt, st.doc = false → st.loop = 0 → readHpLine st l = st.push s

theorem hpLineOf {l : List Char} {s : EqLine} (h : LineOf l s) : HpLineOf l s := by
  refine ⟨h.1, fun st hd hl => ?_⟩
  unfold readHpLine
  rw [hd, show parseHp l = some (.old s) by unfold parseHp; rw [h.2.1]]
  simp only [Bool.false_eq_true, if_false, hl, if_true]
  have := h.2.2
  unfold HpSt.line
  cases s <;> first | rfl | exact absurd this (by decide)

theorem hp_zerosC (k : ℕ) : HpLineOf (chars! "    Cout = zeros((" ++ natText k ++ chars! "), dtype=object)") (.zerosC k) := by
  refine ⟨⟨scanD_wrap _ _ _ 2 (by decide) (scanD_natText _ _) (by decide), by simp⟩, fun st hd hl => ?_⟩
  have h : readNat none (natText k ++ chars! "), dtype=object)") = some (k, chars! "), dtype=object)") :=
    readNat_natText k _ (by intro c hc; simp at hc; subst hc; decide)
  have hp : parseHp (chars! "    Cout = zeros((" ++ natText k ++ chars! "), dtype=object)") = some (.zerosC k) := by
    simp [parseHp, hpFixed, parseLine, fixedLines, List.lookup, tryRules, lineRules, dropPre, numThen, zerosObj, h]
  unfold readHpLine
  rw [hd, hp]
  simp [hl, HpSt.line]

theorem hp_zerosP (k : ℕ) : HpLineOf (chars! "    Pout = zeros((" ++ natText k ++ chars! "), dtype=object)") (.zerosP k) := by
  refine ⟨⟨scanD_wrap _ _ _ 2 (by decide) (scanD_natText _ _) (by decide), by simp⟩, fun st hd hl => ?_⟩
  have h : readNat none (natText k ++ chars! "), dtype=object)") = some (k, chars! "), dtype=object)") :=
    readNat_natText k _ (by intro c hc; simp at hc; subst hc; decide)
  have hp : parseHp (chars! "    Pout = zeros((" ++ natText k ++ chars! "), dtype=object)") = some (.zerosP k) := by
    simp [parseHp, hpFixed, parseLine, fixedLines, List.lookup, tryRules, lineRules, dropPre, numThen, zerosObj, h]
  unfold readHpLine
  rw [hd, hp]
  simp [hl, HpSt.line]

theorem hpLines {ls : List (List Char)} {ss : List EqLine} (h : List.Forall₂ LineOf ls ss) : List.Forall₂ HpLineOf ls ss :=
  h.imp fun _ _ h => hpLineOf h

theorem hpLines_isLine {ls : List (List Char)} {ss : List EqLine} (h : List.Forall₂ HpLineOf ls ss) : ∀ l ∈ ls, IsLine l := by
  induction h with
  | nil => simp
  | cons h _ ih =>
    intro l hl
    rcases List.mem_cons.1 hl with rfl | hl
    · exact h.1
    · exact ih l hl

theorem readHps_obs (ls : List (List Char)) : ∀ (st : HpSt) (ss : List EqLine), st.doc = false → st.loop = 0 →
    st.cur = some false → List.Forall₂ HpLineOf ls ss →
    ls.foldlM readHpLine st = some { st with mod := { st.mod with obs := st.mod.obs ++ ss } } := by
  induction ls with
  | nil => intro st ss hd hl hc h; cases h; simp
  | cons l ls ih =>
    intro st ss hd hl hc h
    cases h with
    | cons h1 h2 =>
      rw [List.foldlM_cons, h1.2 st hd hl, HpSt.push, hc]
      simp only [Option.bind_eq_bind, Option.bind_some]
      refine (ih ⟨st.np, st.ex, st.lse, st.mp, st.doc, some false, st.loop, ⟨st.mod.obs ++ [_], st.mod.p⟩⟩ _ hd hl rfl h2).trans ?_
      simp

theorem readHps_p (ls : List (List Char)) : ∀ (st : HpSt) (ss : List EqLine), st.doc = false → st.loop = 0 →
    st.cur = some true → List.Forall₂ HpLineOf ls ss →
    ls.foldlM readHpLine st = some { st with mod := { st.mod with p := st.mod.p ++ ss } } := by
  induction ls with
  | nil => intro st ss hd hl hc h; cases h; simp
  | cons l ls ih =>
    intro st ss hd hl hc h
    cases h with
    | cons h1 h2 =>
      rw [List.foldlM_cons, h1.2 st hd hl, HpSt.push, hc]
      simp only [Option.bind_eq_bind, Option.bind_some]
      refine (ih ⟨st.np, st.ex, st.lse, st.mp, st.doc, some true, st.loop, ⟨st.mod.obs, st.mod.p ++ [_]⟩⟩ _ hd hl rfl h2).trans ?_
      simp

/-- `calc_observables` up to the loop. -/
def hpObsBody (brk : ℕ → Bool) (e : Eqns) : List (List Char) := hpObsDecl e ++ energyLines e ++ obsLines brk e

def hpObsStmts (brk : ℕ → Bool) (e : Eqns) : List EqLine :=
  (.zerosC (e.signs.map List.length).sum :: sliceStmts e) ++ energyStmts e ++
    (e.signs.flatten.zipIdx.flatMap fun q => [.num (signText brk e.sym q.1), .setC q.2])

theorem hpObsDecl_lines (e : Eqns) (h : e.signs.length ≤ 23) :
    List.Forall₂ HpLineOf (hpObsDecl e) (.zerosC (e.signs.map List.length).sum :: sliceStmts e) :=
  .cons (hp_zerosC _) (hpLines (slice_lines e h))

theorem hpObsBody_lines (brk : ℕ → Bool) (e : Eqns) (h : Readable brk e) :
    List.Forall₂ HpLineOf (hpObsBody brk e) (hpObsStmts brk e) :=
  append_forall₂ (append_forall₂ (hpObsDecl_lines e h.few) (hpLines (energy_lines e h.energy)))
    (hpLines (obs_lines brk e.sym _ fun q hq => h.signs q.1 (List.fst_mem_of_mem_zipIdx hq)))

/-- The body of `p`, before the empty line. -/
def hpPBody (e : Eqns) : List (List Char) :=
  hpObsDecl e ++ sliceLines e ++ [chars! "    Pout = zeros((" ++ natText (2 ^ e.n) ++ chars! "), dtype=object)"] ++
    energyLines e ++ probLines e

theorem hpPBody_lines (brk : ℕ → Bool) (e : Eqns) (h : Readable brk e) :
    List.Forall₂ HpLineOf (hpPBody e) (pBodyStmts e) := by
  refine append_forall₂ (append_forall₂ (append_forall₂ (append_forall₂ (hpObsDecl_lines e h.few)
    (hpLines (slice_lines e h.few))) ?_) (hpLines (energy_lines e h.energy))) (hpLines (prob_lines e h.terms))
  exact .cons (hp_zerosP _) .nil

theorem readHp_blank (st : HpSt) (hd : st.doc = false) (hl : st.loop = 0) : readHpLine st [] = some st := by
  unfold readHpLine
  rw [hd, show parseHp [] = some (.old .blank) by decide]
  simp [hl, HpSt.line, HpSt.oldLine]

/-- The heading leaves at most two empty lines. -/
theorem hp_logical_head (n : ℕ) (licence : Option (List (List Char))) (date : List Char) (t : List Char)
    (hl : ∀ ls, licence = some ls → ∀ l ∈ ls, '\n' ∉ l) (hd : '\n' ∉ date) :
    ∃ pre : List (List Char), (∀ l ∈ pre, l = []) ∧
      logical false 0 [] (joinLines (hpHeadLines n licence date) ++ t) =
        pre ++ (lnNpObj :: lnLseMp :: lnMp :: [] :: logical false 0 [] t) := by
  have c1 : IsComment (chars! "# Equations for " ++ natText n ++ chars! "-spin Ising model.") := by
    refine ⟨chars! " Equations for " ++ natText n ++ chars! "-spin Ising model.", rfl, ?_⟩
    have := natText_newline n
    simp [this]
  have c2 : IsComment (chars! "# Written on " ++ date ++ ['.']) :=
    ⟨chars! " Written on " ++ date ++ ['.'], rfl, by simp [hd]⟩
  have hb : IsLine [] := ⟨rfl, by simp⟩
  have hrest : ∀ u : List Char, logical false 0 []
      (joinLines [chars! "# Equations for " ++ natText n ++ chars! "-spin Ising model."] ++
        (joinLines [[]] ++ (joinLines [chars! "# Written on " ++ date ++ ['.']] ++
          (joinLines [lnNpObj, lnLseMp, lnMp, []] ++ u)))) =
      [] :: (lnNpObj :: lnLseMp :: lnMp :: [] :: logical false 0 [] u) := by
    intro u
    rw [logical_comments _ _ (by simpa using c1), logical_lines _ _ (by simpa using hb),
      logical_comments _ _ (by simpa using c2), logical_lines _ _ (by unfold IsLine; decide)]
    rfl
  have hsplit : joinLines (hpHeadLines n licence date) ++ t = joinLines (licenceLines licence) ++
      (joinLines [chars! "# Equations for " ++ natText n ++ chars! "-spin Ising model."] ++
        (joinLines [[]] ++ (joinLines [chars! "# Written on " ++ date ++ ['.']] ++
          (joinLines [lnNpObj, lnLseMp, lnMp, []] ++ t)))) := by
    unfold hpHeadLines
    rw [joinLines_append, List.append_assoc]
    congr 1
    simp only [← List.append_assoc, ← joinLines_append]
    simp only [List.cons_append, List.nil_append]
  rw [hsplit]
  cases licence with
  | none => exact ⟨[[]], by simp, hrest t⟩
  | some ls =>
    refine ⟨[[], []], by simp, ?_⟩
    rw [licenceLines, joinLines_append, List.append_assoc, logical_comments, logical_lines _ _ (by simpa using hb),
      hrest]
    · rfl
    · intro l hl'
      obtain ⟨x, hx, rfl⟩ := List.mem_map.1 hl'
      exact ⟨' ' :: x, rfl, by simpa using hl ls rfl x hx⟩

/-- From the imports to the docstring of `calc_observables`. -/
def hpFixedA : List (List Char) := [lnNpObj, lnLseMp, lnMp, [], lnObs, lnQuotes, lnGive, lnAll, lnQuotes]

/-- Reading a file written in high precision gives the same statements as the ordinary one. -/
theorem readHpModule_file (brk : ℕ → Bool) (licence : Option (List (List Char))) (date : List Char) (e : Eqns)
    (h : Readable brk e) (hl : ∀ ls, licence = some ls → ∀ l ∈ ls, '\n' ∉ l) (hd : '\n' ∉ date) :
    readHpModule (hpFileText brk licence date e) = some (⟨obsStmts brk e, pStmts e⟩, true) := by
  have hobs := hpObsBody_lines brk e h
  have hp := hpPBody_lines brk e h
  have hsplit : hpFileText brk licence date e = joinLines (hpHeadLines e.n licence date) ++
      (joinLines ([lnObs, lnQuotes, lnGive, lnAll, lnQuotes] ++ hpObsBody brk e ++ [lnFor, lnIf, lnZero, lnRetC]) ++
        (joinLines (fixedB ++ hpPBody e ++ pEnd e) ++ [])) := by
    unfold hpFileText hpObsFun hpPFun hpObsBody fixedB hpPBody pEnd
    simp only [← joinLines_append, List.append_nil, List.append_assoc, List.cons_append, List.nil_append]
  obtain ⟨pre, hpre, hlog⟩ := hp_logical_head e.n licence date
    (joinLines ([lnObs, lnQuotes, lnGive, lnAll, lnQuotes] ++ hpObsBody brk e ++ [lnFor, lnIf, lnZero, lnRetC]) ++
        (joinLines (fixedB ++ hpPBody e ++ pEnd e) ++ [])) hl hd
  have hA : ∀ l ∈ [lnObs, lnQuotes, lnGive, lnAll, lnQuotes] ++ hpObsBody brk e ++ [lnFor, lnIf, lnZero, lnRetC], IsLine l := by
    intro l hl
    rcases List.mem_append.1 hl with hl | hl
    · rcases List.mem_append.1 hl with hl | hl
      · exact fixedA_isLine l (by simp only [fixedA]; simp only [List.mem_cons] at hl ⊢; tauto)
      · exact hpLines_isLine hobs l hl
    · have : ∀ l ∈ [lnFor, lnIf, lnZero, lnRetC], IsLine l := by
        unfold IsLine
        decide
      exact this l hl
  have hB : ∀ l ∈ fixedB ++ hpPBody e ++ pEnd e, IsLine l := by
    intro l hl
    rcases List.mem_append.1 hl with hl | hl
    · rcases List.mem_append.1 hl with hl | hl
      · exact fixedB_isLine l hl
      · exact hpLines_isLine hp l hl
    · exact pEnd_isLine e l hl
  rw [logical_lines _ _ hA, logical_lines _ _ hB] at hlog
  unfold readHpModule
  rw [hsplit, hlog]
  have hpre' : ∀ st : HpSt, st.doc = false → st.loop = 0 → pre.foldlM readHpLine st = some st := by
    intro st hst hst'
    clear hlog
    induction pre with
    | nil => rfl
    | cons l pre ih =>
      obtain rfl := hpre l (by simp)
      rw [List.foldlM_cons, readHp_blank st hst hst']
      exact ih fun l hl => hpre l (by simp [hl])
  have hfix : ∀ rest : List (List Char), (hpFixedA ++ rest).foldlM readHpLine HpSt.start =
      rest.foldlM readHpLine ⟨true, true, true, true, false, some false, 0, ⟨[], []⟩⟩ := by
    intro rest
    rw [List.foldlM_append,
      show hpFixedA.foldlM readHpLine HpSt.start = some ⟨true, true, true, true, false, some false, 0, ⟨[], []⟩⟩ by decide]
    rfl
  have q1 : parseHp lnP = some (.old .defP) := by decide
  have q2 : parseHp lnQuotes = some (.old .quotes) := by decide
  have q3 : lnGive ≠ lnQuotes := by decide
  have q4 : lnProbs ≠ lnQuotes := by decide
  have q5 : parseHp lnFor = some .forNan := by decide
  have q6 : parseHp lnIf = some .ifNan := by decide
  have q7 : parseHp lnZero = some .setNan := by decide
  have q8 : parseHp lnRetC = some (.old .retC) := by decide
  have q9 : parseHp lnRev = some (.old .revP) := by decide
  have q10 : parseHp lnRetP = some (.old .retP) := by decide
  have q11 : parseHp [] = some (.old .blank) := by decide
  have hloop : ∀ m : EqModule, [lnFor, lnIf, lnZero, lnRetC].foldlM readHpLine ⟨true, true, true, true, false, some false, 0, m⟩ =
      some ⟨true, true, true, true, false, some false, 0, ⟨m.obs ++ [.nanC, .retC], m.p⟩⟩ := by
    intro m
    simp [readHpLine, q5, q6, q7, q8, HpSt.line, HpSt.inLoop, HpSt.push, HpSt.oldLine]
  have hfixB : ∀ (m : EqModule) (rest : List (List Char)), m.p = [] →
      (fixedB ++ rest).foldlM readHpLine ⟨true, true, true, true, false, some false, 0, m⟩ =
      rest.foldlM readHpLine ⟨true, true, true, true, false, some true, 0, m⟩ := by
    intro m rest hm
    obtain ⟨o, p⟩ := m
    obtain rfl : p = [] := hm
    rw [List.foldlM_append]
    have : fixedB.foldlM readHpLine ⟨true, true, true, true, false, some false, 0, ⟨o, []⟩⟩ =
        some ⟨true, true, true, true, false, some true, 0, ⟨o, []⟩⟩ := by
      simp only [fixedB, List.foldlM_cons, List.foldlM_nil]
      rw [readHp_blank _ rfl rfl]
      simp [readHpLine, q1, q2, q3, q4, HpSt.line, HpSt.oldLine]
    rw [this]; rfl
  have hend : ∀ m : EqModule, (pEnd e).foldlM readHpLine ⟨true, true, true, true, false, some true, 0, m⟩ =
      some ⟨true, true, true, true, false, some true, 0, ⟨m.obs, m.p ++ ((if e.sym then [.revP] else []) ++ [.retP])⟩⟩ := by
    intro m
    unfold pEnd
    cases e.sym <;> simp [readHpLine, q9, q10, q11, HpSt.line, HpSt.oldLine, HpSt.push]
  have hfold : (pre ++ (lnNpObj :: lnLseMp :: lnMp :: [] :: ([lnObs, lnQuotes, lnGive, lnAll, lnQuotes] ++ hpObsBody brk e ++
      [lnFor, lnIf, lnZero, lnRetC] ++ (fixedB ++ hpPBody e ++ pEnd e ++ logical false 0 [] [])))).foldlM readHpLine HpSt.start =
      some ⟨true, true, true, true, false, some true, 0, ⟨obsStmts brk e, pStmts e⟩⟩ := by
    rw [List.foldlM_append, hpre' _ rfl rfl]
    simp only [Option.bind_eq_bind, Option.bind_some]
    have e1 : (lnNpObj :: lnLseMp :: lnMp :: [] :: ([lnObs, lnQuotes, lnGive, lnAll, lnQuotes] ++ hpObsBody brk e ++
      [lnFor, lnIf, lnZero, lnRetC] ++ (fixedB ++ hpPBody e ++ pEnd e ++ logical false 0 [] []))) =
      hpFixedA ++ (hpObsBody brk e ++ ([lnFor, lnIf, lnZero, lnRetC] ++ (fixedB ++ (hpPBody e ++ (pEnd e ++ logical false 0 [] []))))) := by
      simp only [hpFixedA, List.append_assoc, List.cons_append, List.nil_append]
    rw [e1, hfix, List.foldlM_append, readHps_obs _ _ _ rfl rfl rfl hobs]
    simp only [Option.bind_eq_bind, Option.bind_some, List.nil_append]
    rw [List.foldlM_append, hloop]
    simp only [Option.bind_eq_bind, Option.bind_some]
    rw [hfixB _ _ rfl, List.foldlM_append, readHps_p _ _ _ rfl rfl rfl hp]
    simp only [Option.bind_eq_bind, Option.bind_some, List.nil_append]
    rw [List.foldlM_append, hend]
    simp only [Option.bind_eq_bind, Option.bind_some, logical]
    simp [pStmts, pBodyStmts, obsStmts, hpObsStmts]
  rw [hfold]
  rfl

/-! ### Running -/

theorem mpFastLogSumExp_eq (X : List ℝ) (c : Option (List ℝ)) : mpFastLogSumExp X c = fastLogSumExp X c := by
  unfold mpFastLogSumExp fastLogSumExp
  cases X with
  | nil => rfl
  | cons x xs =>
    cases c with
    | none => simp only [List.map_map]; rfl
    | some c =>
      have : ∀ a b : List ℝ, List.zipWith (· * ·) a b = List.zipWith (· * ·) b a := fun a b => by
        rw [List.zipWith_comm]
        congr 1
        funext u v
        exact mul_comm _ _
      dsimp only
      rw [this c, List.map_map]
      rfl

theorem execHpLine_eq (params : List ℝ) (st : EqSt) (l : EqLine) : execHpLine params st l = execLine params st l := by
  cases l
  case logZ =>
    simp only [execHpLine, execLine, mpFastLogSumExp_eq]
    cases boundVar st.energies with
    | error err => rfl
    | ok E =>
      change (fastLogSumExp E none >>= _) = (fastLogSumExp E none >>= _)
      cases fastLogSumExp E none with
      | error err => rfl
      | ok q => obtain ⟨_ | _, _⟩ := q <;> rfl
  case num t =>
    simp only [execHpLine, execLine, mpFastLogSumExp_eq]
    cases boundVar st.energies with
    | error err => rfl
    | ok E =>
      simp only [bind, Except.bind]
      cases evalList (K := ℝ) (fun _ _ => none) t <;> rfl
  all_goals simp only [execHpLine, execLine]

theorem execHpBody_eq (params : List ℝ) (ls : List EqLine) : ∀ st, execHpBody params ls st = execBody params ls st := by
  induction ls with
  | nil => intro st; rfl
  | cons l ls ih =>
    intro st
    cases l
    case retC => rfl
    case retP => rfl
    all_goals
      simp only [execHpBody, execBody, execHpLine_eq, ih]
      split <;> simp_all

theorem execAny_eq (mp : Bool) (params : List ℝ) (ls : List EqLine) : execAny mp params ls = execBody params ls EqSt.start := by
  unfold execAny
  split_ifs
  · exact execHpBody_eq params ls _
  · rfl

/-- The text of a module written in either precision, run by Python, computes what `moduleObservables` and `moduleP` say. -/
theorem run_any_file (brk : ℕ → Bool) (licence : Option (List (List Char))) (date : List Char) (f : EqnFile)
    (hl : ∀ ls, licence = some ls → ∀ l ∈ ls, '\n' ∉ l) (hd : '\n' ∉ date) (h23 : f.eqns.signs.length ≤ 23)
    (hn : f.eqns.expterms.length = 2 ^ f.eqns.n) (params o p : List ℝ)
    (ho : moduleObservables brk f.eqns params = .ok o) (hp : moduleP f.eqns params = .ok p) :
    runHpObservables (f.text brk licence date) params = .ok (some o) ∧
      runHpP (f.text brk licence date) params = .ok (some p) := by
  have hR := readable_of_ok brk f.eqns params o p h23 ho hp
  have hr : readHpModule (f.text brk licence date) = some (⟨obsStmts brk f.eqns, pStmts f.eqns⟩, f.hp) := by
    obtain ⟨name, hp', e⟩ := f
    unfold EqnFile.text
    cases hp' with
    | true => exact readHpModule_file brk licence date e hR hl hd
    | false => exact readHpModule_of _ _ (readModule_file brk licence date e hR hl hd)
  unfold runHpObservables runHpP
  rw [hr]
  dsimp only
  rw [execAny_eq, execAny_eq]
  exact ⟨exec_obs brk f.eqns params o h23 ho, exec_p f.eqns params p h23 hn hp⟩

/-! ### The command line -/

theorem digitVal_blank (c : Char) (d : ℕ) (h : digitVal c = some d) : isBlank c = false ∧ c ≠ '-' ∧ c ≠ '+' ∧ c ≠ '_' := by
  refine ⟨?_, ?_, ?_, ?_⟩
  · by_contra hb
    simp only [Bool.not_eq_false, isBlank, Bool.or_eq_true, decide_eq_true_eq] at hb
    rcases hb with ((((((((hb | hb) | hb) | hb) | hb) | hb) | hb) | hb) | hb) | hb <;> subst hb <;> exact absurd h (by decide +revert)
  all_goals rintro rfl; exact absurd h (by decide +revert)

theorem pyDigits_digits (ds : List ℕ) (h : ∀ d ∈ ds, d < 10) : ∀ acc,
    pyDigits true acc (ds.map digitCh) = some (ds.foldl (fun a d => 10 * a + d) acc) := by
  induction ds with
  | nil => intro acc; rfl
  | cons d ds ih =>
    intro acc
    have hd := digitVal_digitCh d (h d (by simp))
    rw [List.map_cons, pyDigits, if_neg (digitVal_blank _ _ hd).2.2.2, hd]
    exact ih (fun d hd => h d (by simp [hd])) _

theorem dropWhile_of_head {α : Type} (p : α → Bool) (l : List α) (h : ∀ a ∈ l, p a = false) : l.dropWhile p = l := by
  cases l with
  | nil => rfl
  | cons a l => rw [List.dropWhile_cons_of_neg (by simp [h a (by simp)])]

theorem pyInt_natText (k : ℕ) : pyInt (natText k) = .ok (k : ℤ) := by
  have hb : ∀ c ∈ natText k, isBlank c = false := fun c hc => by
    obtain ⟨d, hd⟩ := natText_digit k c hc
    exact (digitVal_blank c d hd).1
  unfold pyInt
  rw [dropWhile_of_head _ _ hb, dropWhile_of_head _ _ (fun c hc => hb c (List.mem_reverse.1 hc)), List.reverse_reverse]
  have hmain : pyDigits false 0 (natText k) = some k := by
    obtain ⟨ds, h1, h2, h3, h4⟩ := natText_digits k
    rw [h3]
    cases ds with
    | nil => exact absurd rfl h2
    | cons d ds =>
      have hd := digitVal_digitCh d (h1 d (by simp))
      rw [List.map_cons, pyDigits, if_neg (digitVal_blank _ _ hd).2.2.2, hd]
      dsimp only
      rw [pyDigits_digits ds (fun d hd => h1 d (by simp [hd])), ← h4]
      rfl
  cases hk : natText k with
  | nil => rw [hk] at hmain; cases hmain
  | cons c cs =>
    obtain ⟨d, hd⟩ := natText_digit k c (by rw [hk]; simp)
    have hc := digitVal_blank c d hd
    rw [hk] at hmain
    rw [pySigned, if_neg hc.2.1, if_neg hc.2.2.1, hmain]
    rfl

end Verif.Lemmas
