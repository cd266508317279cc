/-
Reading the text of a Potts equation module that enumerate_potts.py has written.
-/
import Verif.Model.PottsFile
import Verif.Lemmas.EqnModuleRun
import Verif.Lemmas.PottsModule

namespace Verif.Lemmas
open Verif Verif.Model

/-! ### Single lines -/

theorem natText_cons (k : ℕ) : ∃ c cs, natText k = c :: cs ∧ ∃ v, digitVal c = some v := by
  cases hk : natText k with
  | nil =>
    obtain ⟨ds, -, h2, h3, -⟩ := natText_digits k
    rw [hk] at h3; simp at h3; exact absurd h3 h2
  | cons c cs => exact ⟨c, cs, rfl, natText_digit k c (by simp [hk])⟩

theorem ptParse_size (m : ℕ) : ptParse (chars! "\tassert params.size==" ++ natText m) = some (.size m) := by
  have h : readNat none (natText m) = some (m, []) := by
    have := readNat_natText m [] (by simp); simpa using this
  simp [ptParse, ptFixed, List.lookup, ptTry, ptRules, dropPre, h]

theorem ptParse_takeH (m : ℕ) : ptParse (chars! "\th = params[:" ++ natText m ++ [']']) = some (.takeH m) := by
  have h : readNat none (natText m ++ [']']) = some (m, [']']) :=
    readNat_natText m _ (by intro c hc; simp at hc; subst hc; decide)
  simp [ptParse, ptFixed, List.lookup, ptTry, ptRules, dropPre, h]

theorem ptParse_dropJ (m : ℕ) : ptParse (chars! "\tJ = params[" ++ natText m ++ chars! ":]") = some (.dropJ m) := by
  have h : readNat none (natText m ++ chars! ":]") = some (m, chars! ":]") :=
    readNat_natText m _ (by intro c hc; simp at hc; subst hc; decide)
  simp [ptParse, ptFixed, List.lookup, ptTry, ptRules, dropPre, h]

theorem ptParse_zerosO (m : ℕ) :
    ptParse (chars! "\tobservables = zeros(" ++ natText m ++ [')']) = some (.zerosO m) := by
  have h : readNat none (natText m ++ [')']) = some (m, [')']) :=
    readNat_natText m _ (by intro c hc; simp at hc; subst hc; decide)
  simp [ptParse, ptFixed, List.lookup, ptTry, ptRules, dropPre, h]

theorem ptParse_zerosP (m : ℕ) : ptParse (chars! "\tp = zeros(" ++ natText m ++ [')']) = some (.zerosP m) := by
  have h : readNat none (natText m ++ [')']) = some (m, [')']) :=
    readNat_natText m _ (by intro c hc; simp at hc; subst hc; decide)
  simp [ptParse, ptFixed, List.lookup, ptTry, ptRules, dropPre, h]

theorem ptParse_energy (t : List Char) : ptParse (chars! "\tenergies = [" ++ t ++ [']']) = some (.energy t) := by
  have h : dropEnd [']'] (t ++ [']']) = some t := dropEnd_append _ _
  simp [ptParse, ptFixed, List.lookup, ptTry, ptRules, dropPre, h]

theorem ptParse_setO (m : ℕ) (t : List Char) :
    ptParse (chars! "\tobservables[" ++ natText m ++ chars! "] = exp(fast_logsumexp(energies, [" ++ t ++
      chars! "])[0] - logZ)") = some (.setO m t) := by
  have h : readNat none (natText m ++ (chars! "] = exp(fast_logsumexp(energies, [" ++ (t ++ chars! "])[0] - logZ)"))) =
      some (m, chars! "] = exp(fast_logsumexp(energies, [" ++ (t ++ chars! "])[0] - logZ)")) :=
    readNat_natText m _ (by intro c hc; simp at hc; subst hc; decide)
  have h2 : dropEnd (chars! "])[0] - logZ)") (t ++ chars! "])[0] - logZ)") = some t := dropEnd_append _ _
  simp only [List.cons_append, List.nil_append] at h
  simp [ptParse, ptFixed, List.lookup, ptTry, ptRules, dropPre, h, h2]

theorem ptParse_setP (i j : ℕ) :
    ptParse (chars! "\tp[" ++ natText i ++ chars! "] = exp(energies[" ++ natText j ++ chars! "] - logZ)") =
      some (.setP i j) := by
  have h : readNat none (natText i ++ (chars! "] = exp(energies[" ++ (natText j ++ chars! "] - logZ)"))) =
      some (i, chars! "] = exp(energies[" ++ (natText j ++ chars! "] - logZ)")) :=
    readNat_natText i _ (by intro c hc; simp at hc; subst hc; decide)
  have h2 : readNat none (natText j ++ chars! "] - logZ)") = some (j, chars! "] - logZ)") :=
    readNat_natText j _ (by intro c hc; simp at hc; subst hc; decide)
  simp only [List.cons_append, List.nil_append] at h
  simp [ptParse, ptFixed, List.lookup, ptTry, ptRules, dropPre, h, h2]

/-- An energy list that is not closed. -/
theorem ptParse_open (t : List Char) (h : (chars! "\tenergies = [" ++ t).getLast? ≠ some ']') :
    ptParse (chars! "\tenergies = [" ++ t) = none := by
  have hd : dropEnd [']'] t = none := by
    unfold dropEnd
    cases hr : t.reverse with
    | nil => simp [dropPre]
    | cons c cs =>
      have : t = cs.reverse ++ [c] := by rw [← List.reverse_reverse t, hr]; simp
      subst this
      have hc : ']' ≠ c := by rintro rfl; apply h; rw [← List.append_assoc, List.getLast?_concat]
      simp [dropPre, hc]
  simp [ptParse, ptFixed, List.lookup, ptTry, ptRules, dropPre, hd]

/-! ### Every line is complete -/

theorem isLine_size (m : ℕ) : IsLine (chars! "\tassert params.size==" ++ natText m) := by
  refine ⟨?_, by simp⟩
  rw [scanD_append, show scanD 0 (chars! "\tassert params.size==") = some 0 by decide]
  exact scanD_natText _ _

theorem isLine_takeH (m : ℕ) : IsLine (chars! "\th = params[:" ++ natText m ++ [']']) :=
  ⟨scanD_wrap _ _ _ 1 (by decide) (scanD_natText _ _) (by decide), by simp⟩

theorem isLine_dropJ (m : ℕ) : IsLine (chars! "\tJ = params[" ++ natText m ++ chars! ":]") :=
  ⟨scanD_wrap _ _ _ 1 (by decide) (scanD_natText _ _) (by decide), by simp⟩

theorem isLine_zerosO (m : ℕ) : IsLine (chars! "\tobservables = zeros(" ++ natText m ++ [')']) :=
  ⟨scanD_wrap _ _ _ 1 (by decide) (scanD_natText _ _) (by decide), by simp⟩

theorem isLine_ptZerosP (m : ℕ) : IsLine (chars! "\tp = zeros(" ++ natText m ++ [')']) :=
  ⟨scanD_wrap _ _ _ 1 (by decide) (scanD_natText _ _) (by decide), by simp⟩

theorem isLine_ptEnergy (t : List Char) (h : scanD 1 t = some 1) : IsLine (chars! "\tenergies = [" ++ t ++ [']']) :=
  ⟨scanD_wrap _ _ _ 1 (by decide) h (by decide), by simp⟩

theorem isLine_setO (m : ℕ) (t : List Char) (h : scanD 3 t = some 3) :
    IsLine (chars! "\tobservables[" ++ natText m ++ chars! "] = exp(fast_logsumexp(energies, [" ++ t ++
      chars! "])[0] - logZ)") := by
  refine ⟨scanD_wrap _ _ _ 3 ?_ h (by decide), by simp⟩
  rw [scanD_append, scanD_append, show scanD 0 (chars! "\tobservables[") = some 1 by decide]
  simp only [Option.bind_some, scanD_natText]
  decide

theorem isLine_ptSetP (i j : ℕ) :
    IsLine (chars! "\tp[" ++ natText i ++ chars! "] = exp(energies[" ++ natText j ++ chars! "] - logZ)") := by
  refine ⟨scanD_wrap _ _ _ 2 ?_ (scanD_natText _ _) (by decide), by simp⟩
  rw [scanD_append, scanD_append, show scanD 0 (chars! "\tp[") = some 1 by decide]
  simp only [Option.bind_some, scanD_natText]
  decide

/-! ### The heading -/

/-- A heading as `readlines` and `str(datetime.now())` give it. -/
def PlainLicence (licence : Option (List (List Char))) (date : List Char) : Prop :=
  (∀ ls, licence = some ls → ∀ l ∈ ls, '\n' ∉ l.dropLast) ∧ '\n' ∉ date

theorem logical_in_comment (s t : List Char) (hs : '\n' ∉ s) : logical true 0 [] (s ++ t) = logical true 0 [] t := by
  induction s with
  | nil => rfl
  | cons c s ih =>
    simp only [List.mem_cons, not_or] at hs
    rw [List.cons_append, logical, if_neg (Ne.symm hs.1), ih hs.2]

theorem logical_hash (b : Bool) (t : List Char) : logical b 0 [] ('#' :: t) = logical true 0 [] t := by
  cases b
  · rw [logical, if_neg (by simp), if_pos ⟨rfl, rfl, rfl⟩]
  · rw [logical, if_neg (by decide)]

theorem logical_licence (ls : List (List Char)) (t : List Char) (h : ∀ l ∈ ls, '\n' ∉ l.dropLast) :
    ∀ b : Bool, logical b 0 [] ((ls.flatMap fun l => chars! "# " ++ l) ++ '#' :: '\n' :: t) =
      logical false 0 [] t := by
  induction ls with
  | nil =>
    intro b
    show logical b 0 [] ('#' :: '\n' :: t) = _
    rw [logical_hash, logical, if_pos rfl]
  | cons l ls ih =>
    intro b
    have ih := ih fun l hl => h l (by simp [hl])
    have hl := h l (by simp)
    rw [List.flatMap_cons]
    show logical b 0 [] ('#' :: (' ' :: (l ++ (ls.flatMap fun l => chars! "# " ++ l)) ++ '#' :: '\n' :: t)) = _
    rw [logical_hash, List.cons_append, logical, if_neg (by decide), List.append_assoc]
    rcases List.eq_nil_or_concat l with rfl | ⟨l', c, rfl⟩
    · exact ih true
    · rw [List.concat_eq_append, List.dropLast_concat] at hl
      rw [List.concat_eq_append, List.append_assoc, logical_in_comment _ _ hl, List.singleton_append, logical]
      split_ifs
      · exact ih false
      · exact ih true

theorem logical_pottsHead (n k : ℕ) (licence : Option (List (List Char))) (date t : List Char)
    (h : PlainLicence licence date) :
    logical false 0 [] (pottsHead n k licence date ++ t) = logical false 0 [] t := by
  unfold pottsHead
  rw [List.append_assoc, List.append_assoc, logical_comments]
  · cases licence with
    | none => exact logical_licence [] t (by simp) false
    | some ls => exact logical_licence ls t (h.1 ls rfl) false
  · have q1 := natText_newline n
    have q2 := natText_newline k
    intro l hl
    simp only [List.mem_cons, List.not_mem_nil, or_false] at hl
    rcases hl with rfl | rfl | rfl | rfl | rfl
    · exact ⟨chars! " This file contains equations for the Potts model with " ++ natText n ++ chars! " spins and " ++
        natText k ++ chars! " states.", rfl, by simp [q1, q2]⟩
    · exact ⟨_, rfl, by decide⟩
    · exact ⟨chars! " Written on " ++ date ++ ['.'], rfl, by simp [h.2]⟩
    · exact ⟨_, rfl, by decide⟩
    · exact ⟨_, rfl, by decide⟩

/-! ### The statements of a written module -/

def ptDeclStmts (n k : ℕ) : List PtLine := [.size (pottsSize n k), .takeH (n * k), .dropJ (n * k)]

def ptObsStmts (e : PottsEqns) : List PtLine :=
  ptDeclStmts e.n e.k ++ [.zerosO (pottsSize e.n e.k)] ++ [.energy e.energies, .logZ] ++
    (e.coeffs.zipIdx.map fun q => .setO q.2 q.1) ++ [.retO]

def ptPStmts (e : PottsEqns) : List PtLine :=
  ptDeclStmts e.n e.k ++ [.zerosP (e.k ^ e.n)] ++ [.energy e.energies, .logZ] ++
    ((List.range (e.k ^ e.n)).map fun i => .setP i i) ++ [.retP]

def PtLine.plain : PtLine → Bool
  | .blank | .importNp | .importLse | .defObs | .defP => false
  | _ => true

/-- A line that is complete and is read as a given statement of a body. -/
def PtLineOf (l : List Char) (s : PtLine) : Prop := IsLine l ∧ ptParse l = some s ∧ PtLine.plain s = true

theorem ptReadLine_plain (st : PtRead) (l : List Char) (s : PtLine) (hp : ptParse l = some s)
    (hs : PtLine.plain s = true) :
    ptReadLine st l = match st.cur with
      | none => none
      | some false => some { st with obs := st.obs ++ [s] }
      | some true => some { st with p := st.p ++ [s] } := by
  unfold ptReadLine
  rw [hp]
  cases s <;> first | rfl | exact absurd hs (by decide)

theorem ptReadLines_obs (ls : List (List Char)) : ∀ (st : PtRead) (ss : List PtLine), st.cur = some false →
    List.Forall₂ PtLineOf ls ss → ls.foldlM ptReadLine st = some { st with obs := st.obs ++ ss } := by
  induction ls with
  | nil => intro st ss hc h; cases h; simp
  | cons l ls ih =>
    intro st ss hc h
    cases h with
    | cons h1 h2 =>
      rw [List.foldlM_cons, ptReadLine_plain st l _ h1.2.1 h1.2.2, hc]
      simp only [Option.bind_eq_bind, Option.bind_some]
      refine (ih ⟨st.np, st.lse, some false, st.obs ++ [_], st.p⟩ _ rfl h2).trans ?_
      simp

theorem ptReadLines_p (ls : List (List Char)) : ∀ (st : PtRead) (ss : List PtLine), st.cur = some true →
    List.Forall₂ PtLineOf ls ss → ls.foldlM ptReadLine st = some { st with p := st.p ++ ss } := by
  induction ls with
  | nil => intro st ss hc h; cases h; simp
  | cons l ls ih =>
    intro st ss hc h
    cases h with
    | cons h1 h2 =>
      rw [List.foldlM_cons, ptReadLine_plain st l _ h1.2.1 h1.2.2, hc]
      simp only [Option.bind_eq_bind, Option.bind_some]
      refine (ih ⟨st.np, st.lse, some true, st.obs, st.p ++ [_]⟩ _ rfl h2).trans ?_
      simp

theorem ptLines_isLine {ls : List (List Char)} {ss : List PtLine} (h : List.Forall₂ PtLineOf ls ss) :
    ∀ l ∈ ls, IsLine l := by
  induction h with
  | nil => simp
  | cons h _ ih =>
    intro l hl
    rcases List.mem_cons.1 hl with rfl | hl
    · exact h.1
    · exact ih l hl

theorem ptDecl_lines (n k : ℕ) : List.Forall₂ PtLineOf (pottsDecl n k) (ptDeclStmts n k) :=
  .cons ⟨isLine_size _, ptParse_size _, rfl⟩
    (.cons ⟨isLine_takeH _, ptParse_takeH _, rfl⟩ (.cons ⟨isLine_dropJ _, ptParse_dropJ _, rfl⟩ .nil))

theorem ptEnergy_lines (e : PottsEqns) (h : scanD 1 e.energies = some 1) :
    List.Forall₂ PtLineOf (pottsEnergy e) [.energy e.energies, .logZ] :=
  .cons ⟨isLine_ptEnergy _ h, ptParse_energy _, rfl⟩
    (.cons ⟨⟨by decide, by decide⟩, by decide, rfl⟩ .nil)

theorem ptObs_lines (e : PottsEqns) (h : ∀ t ∈ e.coeffs, scanD 3 t = some 3) :
    List.Forall₂ PtLineOf (pottsObsLines e) (e.coeffs.zipIdx.map fun q => .setO q.2 q.1) := by
  unfold pottsObsLines
  rw [List.forall₂_map_left_iff, List.forall₂_map_right_iff, List.forall₂_same]
  intro q hq
  exact ⟨isLine_setO _ _ (h q.1 (List.fst_mem_of_mem_zipIdx hq)), ptParse_setO _ _, rfl⟩

theorem ptP_lines (m : ℕ) : List.Forall₂ PtLineOf (pottsPLines m) ((List.range m).map fun i => .setP i i) := by
  unfold pottsPLines
  apply forall₂_map_range
  intro i _
  exact ⟨isLine_ptSetP _ _, ptParse_setP _ _, rfl⟩

theorem ptLines_one {l : List Char} {s : PtLine} (h : PtLineOf l s) : List.Forall₂ PtLineOf [l] [s] := .cons h .nil

/-- The body of `calc_observables`. -/
theorem ptObs_body (e : PottsEqns) (hE : scanD 1 e.energies = some 1) (hC : ∀ t ∈ e.coeffs, scanD 3 t = some 3) :
    List.Forall₂ PtLineOf (pottsDecl e.n e.k ++ [chars! "\tobservables = zeros(" ++ natText (pottsSize e.n e.k) ++ [')']] ++
      pottsEnergy e ++ pottsObsLines e ++ [ptRetO]) (ptObsStmts e) :=
  append_forall₂ (append_forall₂ (append_forall₂ (append_forall₂ (ptDecl_lines _ _)
    (ptLines_one ⟨isLine_zerosO _, ptParse_zerosO _, rfl⟩)) (ptEnergy_lines e hE)) (ptObs_lines e hC))
    (ptLines_one ⟨⟨by decide, by decide⟩, by decide, rfl⟩)

/-- The body of `p`. -/
theorem ptP_body (e : PottsEqns) (hE : scanD 1 e.energies = some 1) :
    List.Forall₂ PtLineOf (pottsDecl e.n e.k ++ [chars! "\tp = zeros(" ++ natText (e.k ^ e.n) ++ [')']] ++
      pottsEnergy e ++ pottsPLines (e.k ^ e.n) ++ [ptRetP]) (ptPStmts e) :=
  append_forall₂ (append_forall₂ (append_forall₂ (append_forall₂ (ptDecl_lines _ _)
    (ptLines_one ⟨isLine_ptZerosP _, ptParse_zerosP _, rfl⟩)) (ptEnergy_lines e hE)) (ptP_lines _))
    (ptLines_one ⟨⟨by decide, by decide⟩, by decide, rfl⟩)

theorem ptStart_isLine : ∀ l ∈ [ptNp, lnLse, [], lnObs], IsLine l := by unfold IsLine; decide

theorem ptMid_isLine : ∀ l ∈ [[], lnP], IsLine l := by unfold IsLine; decide

theorem ptStart_read (rest : List (List Char)) :
    ([ptNp, lnLse, [], lnObs] ++ rest).foldlM ptReadLine ⟨false, false, none, [], []⟩ =
      rest.foldlM ptReadLine ⟨true, true, some false, [], []⟩ := by
  rw [List.foldlM_append, show [ptNp, lnLse, [], lnObs].foldlM ptReadLine ⟨false, false, none, [], []⟩ =
    some ⟨true, true, some false, [], []⟩ by decide]
  rfl

theorem ptMid_read (o : List PtLine) (rest : List (List Char)) :
    ([[], lnP] ++ rest).foldlM ptReadLine ⟨true, true, some false, o, []⟩ =
      rest.foldlM ptReadLine ⟨true, true, some true, o, []⟩ := by
  have q1 : ptParse lnP = some .defP := by decide
  have q2 : ptParse [] = some .blank := by decide
  rw [List.foldlM_append]
  simp [ptReadLine, q1, q2]

/-- Reading a written file gives the statements above. -/
theorem ptReadModule_file (e : PottsEqns) (licence : Option (List (List Char))) (date : List Char)
    (h : PlainLicence licence date) (hE : scanD 1 e.energies = some 1) (hC : ∀ t ∈ e.coeffs, scanD 3 t = some 3) :
    ptReadModule (pottsHead e.n e.k licence date ++ joinLines (pottsLines e)) = some (ptObsStmts e, ptPStmts e) := by
  have ho := ptObs_body e hE hC
  have hp := ptP_body e hE
  have hsplit : pottsLines e = [ptNp, lnLse, [], lnObs] ++ ((pottsDecl e.n e.k ++
      [chars! "\tobservables = zeros(" ++ natText (pottsSize e.n e.k) ++ [')']] ++
      pottsEnergy e ++ pottsObsLines e ++ [ptRetO]) ++ ([[], lnP] ++ (pottsDecl e.n e.k ++
      [chars! "\tp = zeros(" ++ natText (e.k ^ e.n) ++ [')']] ++
      pottsEnergy e ++ pottsPLines (e.k ^ e.n) ++ [ptRetP]))) := by
    unfold pottsLines pottsObsStart
    simp only [List.append_assoc, List.cons_append, List.nil_append]
  have hlog : logical false 0 [] (pottsHead e.n e.k licence date ++ joinLines (pottsLines e)) = pottsLines e := by
    rw [logical_pottsHead _ _ _ _ _ h]
    have := logical_lines (pottsLines e) [] ?_
    · simpa [logical] using this
    · intro l hl
      rw [hsplit] at hl
      rcases List.mem_append.1 hl with hl | hl
      · exact ptStart_isLine l hl
      rcases List.mem_append.1 hl with hl | hl
      · exact ptLines_isLine ho l hl
      rcases List.mem_append.1 hl with hl | hl
      · exact ptMid_isLine l hl
      · exact ptLines_isLine hp l hl
  unfold ptReadModule
  rw [hlog, hsplit, ptStart_read, List.foldlM_append, ptReadLines_obs _ _ _ rfl ho]
  simp only [Option.bind_eq_bind, Option.bind_some, List.nil_append]
  rw [ptMid_read, ptReadLines_p _ _ _ rfl hp]
  rfl

end Verif.Lemmas
