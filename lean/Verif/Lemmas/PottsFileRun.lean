/-
Running the functions of a written Potts module, and what is left behind when writing fails.
-/
import Verif.Lemmas.PottsFile
import Verif.Lemmas.PottsHelpers

namespace Verif.Lemmas
open Verif Verif.Model Verif.Spec

/-! ### Running -/

/-- Running these statements leads from one state to the other. -/
def PtSteps (params : List ℝ) (ls : List PtLine) (st st' : PtSt) : Prop :=
  ∀ rest, ptBody params (ls ++ rest) st = ptBody params rest st'

theorem PtSteps.append {params : List ℝ} {a b : List PtLine} {s t u : PtSt} (h1 : PtSteps params a s t)
    (h2 : PtSteps params b t u) : PtSteps params (a ++ b) s u := by
  intro rest
  rw [List.append_assoc, h1, h2]

theorem PtSteps.nil (params : List ℝ) (s : PtSt) : PtSteps params [] s s := fun _ => rfl

theorem PtSteps.one {params : List ℝ} {l : PtLine} {s t : PtSt} (hl : l ≠ .retO) (hl' : l ≠ .retP)
    (h : ptExec params s l = .ok t) : PtSteps params [l] s t := by
  intro rest
  rw [List.singleton_append]
  cases l <;> first
    | exact absurd rfl hl
    | exact absurd rfl hl'
    | simp only [ptBody, h]

theorem PtSteps.cons {params : List ℝ} {l : PtLine} {ls : List PtLine} {s t u : PtSt} (hl : l ≠ .retO)
    (hl' : l ≠ .retP) (h : ptExec params s l = .ok t) (h2 : PtSteps params ls t u) :
    PtSteps params (l :: ls) s u := (PtSteps.one hl hl' h).append h2

theorem ptSteps_decl (params : List ℝ) (n k : ℕ) (h : params.length = pottsSize n k) (st : PtSt) :
    PtSteps params (ptDeclStmts n k) st
      { st with h := some (params.take (n * k)), J := some (params.drop (n * k)) } :=
  PtSteps.cons (t := st) (by simp) (by simp) (by simp [ptExec, h])
    (PtSteps.cons (t := { st with h := some (params.take (n * k)) }) (by simp) (by simp) rfl
      (PtSteps.one (by simp) (by simp) rfl))

theorem ptEnv_eq (params : List ℝ) (n k : ℕ) (st : PtSt) (h1 : st.h = some (params.take (n * k)))
    (h2 : st.J = some (params.drop (n * k))) : st.env = pottsEnv n k params := by
  funext c j
  unfold PtSt.env pottsEnv
  rw [h1, h2]
  rfl

theorem pottsZ_ok (e : PottsEqns) (params E : List ℝ) (z : ℝ) (h : pottsZ e params = .ok (E, z)) :
    params.length = pottsSize e.n e.k ∧ evalList (pottsEnv e.n e.k params) e.energies = some E ∧
      ∃ w, fastLogSumExp E none = .ok (some z, w) := by
  unfold pottsZ at h
  split_ifs at h with h0
  refine ⟨h0, ?_⟩
  cases hE : evalList (pottsEnv e.n e.k params) e.energies with
  | none => rw [hE] at h; cases h
  | some E' =>
    rw [hE] at h
    simp only at h
    cases hl : fastLogSumExp E' none with
    | error err => rw [hl] at h; cases h
    | ok v =>
      obtain ⟨v, w⟩ := v
      rw [hl] at h
      cases v with
      | none => cases h
      | some z' => cases h; exact ⟨rfl, w, hl⟩

theorem ptSteps_energy (params : List ℝ) (e : PottsEqns) (st : PtSt) (h1 : st.h = some (params.take (e.n * e.k)))
    (h2 : st.J = some (params.drop (e.n * e.k))) (E : List ℝ) (z : ℝ) (hz : pottsZ e params = .ok (E, z)) :
    PtSteps params [.energy e.energies, .logZ] st { st with energies := some E, logZ := some z } := by
  obtain ⟨-, hE, w, hl⟩ := pottsZ_ok e params E z hz
  have henv := ptEnv_eq params e.n e.k st h1 h2
  refine PtSteps.cons (t := { st with energies := some E }) (by simp) (by simp) ?_
    (PtSteps.one (by simp) (by simp) ?_)
  · simp only [ptExec, henv, hE]
  · simp only [ptExec, boundVar, bind, Except.bind, hl]

/-- The statements of the observables. -/
theorem ptSteps_obs (params : List ℝ) (E : List ℝ) (z : ℝ) (L : List (List Char)) :
    ∀ (st : PtSt) (pre o : List ℝ), st.energies = some E → st.logZ = some z →
      st.out = some (pre ++ List.replicate L.length 0) → L.mapM (pottsObsLine E z) = .ok o →
      ∃ st', PtSteps params ((L.zipIdx pre.length).map fun q => .setO q.2 q.1) st st' ∧
        st'.out = some (pre ++ o) := by
  induction L with
  | nil =>
    intro st pre o hE hz hc ho
    cases ho
    exact ⟨st, PtSteps.nil _ _, by simpa using hc⟩
  | cons t L ih =>
    intro st pre o hE hz hc ho
    obtain ⟨b, o', hb, ho', rfl⟩ := mapM_cons_ok _ _ _ _ ho
    unfold pottsObsLine at hb
    cases hev : evalList (fun _ _ => (none : Option ℝ)) t with
    | none => rw [hev] at hb; cases hb
    | some c =>
      rw [hev] at hb
      simp only at hb
      cases hf : fastLogSumExp E (some c) with
      | error err => rw [hf] at hb; cases hb
      | ok num =>
        rw [hf] at hb
        cases hb
        have hlen : pre.length < (pre ++ List.replicate (t :: L).length (0 : ℝ)).length := by simp
        obtain ⟨st', h1, h2⟩ := ih { st with out := some ((pre ++ [expLog (subLog num.1 z)]) ++
            List.replicate L.length 0) } (pre ++ [expLog (subLog num.1 z)]) o' hE hz rfl ho'
        refine ⟨st', ?_, by rw [h2]; simp⟩
        rw [List.zipIdx_cons, List.map_cons]
        have hpl : (pre ++ [expLog (subLog num.1 z)]).length = pre.length + 1 := by simp
        rw [hpl] at h1
        refine PtSteps.cons (t := { st with out := some ((pre ++ [expLog (subLog num.1 z)]) ++
            List.replicate L.length 0) }) (by simp) (by simp) ?_ h1
        simp only [ptExec, hE, boundVar, bind, Except.bind, hev, hf, hz, hc, assignAt]
        rw [if_pos hlen]
        simp only [List.length_cons]
        rw [set_append_replicate]

/-- The statements of the states. -/
theorem ptSteps_p (params : List ℝ) (E : List ℝ) (z : ℝ) (m : ℕ) :
    ∀ (st : PtSt) (a : ℕ), st.energies = some E → st.logZ = some z → a + m = E.length →
      st.p = some ((E.take a).map (fun x => Real.exp (x - z)) ++ List.replicate m 0) →
      ∃ st', PtSteps params ((List.range' a m).map fun i => .setP i i) st st' ∧
        st'.p = some (E.map fun x => Real.exp (x - z)) := by
  induction m with
  | zero =>
    intro st a hE hz ha hp
    refine ⟨st, PtSteps.nil _ _, ?_⟩
    rw [hp]
    simp at ha
    subst ha
    simp
  | succ m ih =>
    intro st a hE hz ha hp
    have hlt : a < E.length := by omega
    have hpl : ((E.take a).map fun x => Real.exp (x - z)).length = a := by simp; omega
    obtain ⟨st', h1, h2⟩ := ih { st with p := some ((E.take (a + 1)).map (fun x => Real.exp (x - z)) ++
      List.replicate m 0) } (a + 1) hE hz (by omega) rfl
    refine ⟨st', ?_, h2⟩
    rw [List.range'_succ, List.map_cons]
    refine PtSteps.cons (t := { st with p := some ((E.take (a + 1)).map (fun x => Real.exp (x - z)) ++
      List.replicate m 0) }) (by simp) (by simp) ?_ h1
    simp only [ptExec, hE, boundVar, bind, Except.bind, List.getElem?_eq_getElem hlt, hz, hp, assignAt]
    rw [if_pos (by rw [List.length_append, hpl, List.length_replicate]; omega)]
    have := set_append_replicate ((E.take a).map fun x => Real.exp (x - z)) m (Real.exp (E[a] - z))
    rw [hpl] at this
    simp only [this, List.take_add_one, List.getElem?_eq_getElem hlt, Option.toList_some, List.map_append,
      List.map_cons, List.map_nil]

/-- `calc_observables` of a written module. -/
theorem exec_ptObs (e : PottsEqns) (params o : List ℝ) (hc : e.coeffs.length = pottsSize e.n e.k)
    (ho : pottsModuleObs e params = .ok o) : ptBody params (ptObsStmts e) PtSt.start = .ok (some o) := by
  unfold pottsModuleObs at ho
  cases hz : pottsZ e params with
  | error err => rw [hz] at ho; cases ho
  | ok q =>
    obtain ⟨E, z⟩ := q
    rw [hz] at ho
    simp only at ho
    cases hm : e.coeffs.mapM (pottsObsLine E z) with
    | error err => rw [hm] at ho; cases ho
    | ok vals =>
      rw [hm] at ho
      simp only at ho
      have hvl : vals.length = e.coeffs.length := by
        have : ∀ (L : List (List Char)) (v : List ℝ), L.mapM (pottsObsLine E z) = .ok v → v.length = L.length := by
          intro L
          induction L with
          | nil => intro v hv; cases hv; rfl
          | cons a L ih =>
            intro v hv
            obtain ⟨b, v', -, hv', rfl⟩ := mapM_cons_ok _ _ _ _ hv
            simp [ih v' hv']
        exact this _ _ hm
      have hsz : vals.length = e.n * e.k + e.n * (e.n - 1) / 2 := by rw [hvl, hc]; rfl
      rw [if_pos (by omega), hsz] at ho
      simp only [Nat.sub_self, List.replicate_zero, List.append_nil] at ho
      cases ho
      obtain ⟨hlen, -, -⟩ := pottsZ_ok e params E z hz
      obtain ⟨st', h1, h2⟩ := ptSteps_obs params E z e.coeffs
        ⟨some (params.take (e.n * e.k)), some (params.drop (e.n * e.k)), some (List.replicate (pottsSize e.n e.k) 0),
          none, some E, some z⟩ [] o rfl rfl (by simp [hc]) hm
      have hd := ptSteps_decl params e.n e.k hlen PtSt.start
      have hz0 : PtSteps params [.zerosO (pottsSize e.n e.k)]
          { PtSt.start with h := some (params.take (e.n * e.k)), J := some (params.drop (e.n * e.k)) }
          ⟨some (params.take (e.n * e.k)), some (params.drop (e.n * e.k)), some (List.replicate (pottsSize e.n e.k) 0),
            none, none, none⟩ := PtSteps.one (by simp) (by simp) rfl
      have hall := (((hd.append hz0).append (ptSteps_energy params e _ rfl rfl E z hz)).append h1)
      unfold ptObsStmts
      refine (hall [.retO]).trans ?_
      simp only [ptBody, h2, boundVar, bind, Except.bind, List.nil_append]

/-- `p` of a written module. -/
theorem exec_ptP (e : PottsEqns) (params E p : List ℝ) (z : ℝ) (hz : pottsZ e params = .ok (E, z))
    (hE : E.length = e.k ^ e.n) (hp : pottsModuleP e params = .ok p) :
    ptBody params (ptPStmts e) PtSt.start = .ok (some p) := by
  unfold pottsModuleP at hp
  rw [hz] at hp
  simp only [hE, le_refl, if_true, Nat.sub_self, List.replicate_zero, List.append_nil] at hp
  cases hp
  obtain ⟨hlen, -, -⟩ := pottsZ_ok e params E z hz
  obtain ⟨st', h1, h2⟩ := ptSteps_p params E z (e.k ^ e.n)
    ⟨some (params.take (e.n * e.k)), some (params.drop (e.n * e.k)), none,
      some (List.replicate (e.k ^ e.n) 0), some E, some z⟩ 0 rfl rfl (by omega) (by simp)
  have hd := ptSteps_decl params e.n e.k hlen PtSt.start
  have hz0 : PtSteps params [.zerosP (e.k ^ e.n)]
      { PtSt.start with h := some (params.take (e.n * e.k)), J := some (params.drop (e.n * e.k)) }
      ⟨some (params.take (e.n * e.k)), some (params.drop (e.n * e.k)), none,
        some (List.replicate (e.k ^ e.n) 0), none, none⟩ := PtSteps.one (by simp) (by simp) rfl
  rw [← List.range_eq_range'] at h1
  have hall := (((hd.append hz0).append (ptSteps_energy params e _ rfl rfl E z hz)).append h1)
  unfold ptPStmts
  refine (hall [.retP]).trans ?_
  simp only [ptBody, h2, boundVar, bind, Except.bind]

/-- Another number of parameters. -/
theorem exec_pt_length (e : PottsEqns) (params : List ℝ) (h : params.length ≠ pottsSize e.n e.k) :
    ptBody params (ptObsStmts e) PtSt.start = .error .assertion ∧
      ptBody params (ptPStmts e) PtSt.start = .error .assertion := by
  constructor
  · show ptBody params (.size (pottsSize e.n e.k) :: _) _ = _
    simp only [ptBody, ptExec, if_neg h]
  · show ptBody params (.size (pottsSize e.n e.k) :: _) _ = _
    simp only [ptBody, ptExec, if_neg h]

theorem pt_readable (e : PottsEqns) (params o : List ℝ) (ho : pottsModuleObs e params = .ok o) :
    scanD 1 e.energies = some 1 ∧ ∀ t ∈ e.coeffs, scanD 3 t = some 3 := by
  unfold pottsModuleObs at ho
  cases hz : pottsZ e params with
  | error err => rw [hz] at ho; cases ho
  | ok q =>
    obtain ⟨E, z⟩ := q
    rw [hz] at ho
    simp only at ho
    refine ⟨evalList_depth _ _ _ (pottsZ_ok e params E z hz).2.1 0, ?_⟩
    cases hm : e.coeffs.mapM (pottsObsLine E z) with
    | error err => rw [hm] at ho; cases ho
    | ok vals =>
      clear ho hz
      generalize e.coeffs = L at hm
      induction L generalizing vals with
      | nil => simp
      | cons t L ih =>
        obtain ⟨b, v', hb, hv', rfl⟩ := mapM_cons_ok _ _ _ _ hm
        intro u hu
        rcases List.mem_cons.1 hu with rfl | hu
        · unfold pottsObsLine at hb
          cases hev : evalList (fun _ _ => (none : Option ℝ)) u with
          | none => rw [hev] at hb; cases hb
          | some c => exact evalList_depth _ _ _ hev 2
        · exact ih v' hv' u hu

/-! ### Writing -/

theorem pottsWriteTerms_ok (est : ℕ → ℕ → ℕ) (n k : ℕ) (is : List ℕ) : ∀ (states terms : List (List Char)),
    (is.mapM fun i => do
      let state ← baseRepr est i k
      (pure (List.replicate (n - state.length) '0' ++ state) : Py (List Char))) = .ok states →
    states.mapM (pottsTerm n) = .ok terms → (pottsWriteTerms est n k is).2 = .ok () := by
  induction is with
  | nil => intro states terms h1 h2; rfl
  | cons i is ih =>
    intro states terms h1 h2
    obtain ⟨s, r, hs, hr, rfl⟩ := mapM_cons_ok _ _ _ _ h1
    obtain ⟨t, r', ht, hr', rfl⟩ := mapM_cons_ok _ _ _ _ h2
    cases hb : baseRepr est i k with
    | error err => rw [hb] at hs; cases hs
    | ok state =>
      rw [hb] at hs
      cases hs
      simp only [pottsWriteTerms, hb]
      rw [ht]
      exact ih r r' hr hr'

theorem pottsWrite_ok (est : ℕ → ℕ → ℕ) (n k : ℕ) (licence : Option (List (List Char))) (date : List Char)
    (e : PottsEqns) (h : writePotts est n k = .ok e) :
    pottsWrite est n k licence date = (some (pottsHead n k licence date ++ joinLines (pottsLines e)), .ok ()) := by
  have h' := h
  unfold writePotts at h
  unfold pottsWrite
  split_ifs at h ⊢ with h1 h2
  cases hx : xpottsStates est n k with
  | error err => rw [hx] at h; cases h
  | ok states =>
    rw [hx] at h
    simp only at h
    cases ht : states.mapM (pottsTerm n) with
    | error err => rw [ht] at h; cases h
    | ok terms =>
      unfold xpottsStates at hx
      split_ifs at hx with h3
      have := pottsWriteTerms_ok est n k _ states terms hx ht
      rcases hw : pottsWriteTerms est n k (List.range (k ^ n)) with ⟨t, r⟩
      rw [hw] at this
      simp only at this
      subst this
      simp only [h']

/-! ### Failing -/

/-- Text that ends with a plus, with balanced brackets. -/
def PlusText (l : List Char) : Prop := scanD 1 l = some 1 ∧ (l = [] ∨ ∃ y, l = y ++ ['+'])

theorem PlusText.append {a b : List Char} (h1 : PlusText a) (h2 : PlusText b) : PlusText (a ++ b) := by
  refine ⟨by rw [scanD_append, h1.1]; exact h2.1, ?_⟩
  rcases h2.2 with rfl | ⟨y, rfl⟩
  · simpa using h1.2
  · exact Or.inr ⟨a ++ y, by simp⟩

theorem plusText_flatten (L : List (List Char)) (h : ∀ l ∈ L, PlusText l) : PlusText L.flatten := by
  induction L with
  | nil => exact ⟨rfl, Or.inl rfl⟩
  | cons l L ih =>
    rw [List.flatten_cons]
    exact (h l (by simp)).append (ih fun l hl => h l (by simp [hl]))

theorem plusText_piece (c : Char) (hc : c.isAlpha = true) (m : ℕ) :
    PlusText ([c, '['] ++ natText m ++ [']', '+']) := by
  obtain ⟨a1, a2, a3, a4⟩ := isAlpha_plain hc
  refine ⟨?_, Or.inr ⟨[c, '['] ++ natText m ++ [']'], by simp⟩⟩
  have h0 : scanD 1 [c, '['] = some 2 := by
    rw [scanD, if_neg (by simp), depthStep_plain _ _ a1 a2 a3 a4]; decide
  rw [scanD_append, scanD_append, h0]
  simp only [Option.bind_some, scanD_natText]
  decide

theorem scanD_dropLast (l : List Char) (h : PlusText l) : scanD 1 l.dropLast = some 1 := by
  rcases h.2 with rfl | ⟨y, rfl⟩
  · rfl
  · rw [List.dropLast_concat]
    have := h.1
    rw [scanD_append] at this
    cases hy : scanD 1 y with
    | none => rw [hy] at this; cases this
    | some d =>
      rw [hy] at this
      simp only [Option.bind_some, scanD] at this
      rw [if_neg (by simp), depthStep_plain _ _ (by decide) (by decide) (by decide) (by decide)] at this
      exact this

theorem pottsTerm_depth (n : ℕ) (s t : List Char) (h : pottsTerm n s = .ok t) : scanD 1 t = some 1 := by
  unfold pottsTerm at h
  cases hf : (List.range n).mapM (pottsField n s) with
  | error err => rw [hf] at h; cases h
  | ok fields =>
    rw [hf] at h
    cases h
    apply scanD_dropLast
    apply PlusText.append
    · apply plusText_flatten
      generalize List.range n = is at hf
      induction is generalizing fields with
      | nil => cases hf; simp
      | cons i is ih =>
        obtain ⟨b, r, hb, hr, rfl⟩ := mapM_cons_ok _ _ _ _ hf
        intro l hl
        rcases List.mem_cons.1 hl with rfl | hl
        · unfold pottsField at hb
          split at hb
          · cases hb
          · split at hb
            · cases hb
            · cases hb; exact plusText_piece 'h' (by decide) _
        · exact ih r hr l hl
    · rw [List.flatMap_def]
      apply plusText_flatten
      intro l hl
      obtain ⟨q, -, rfl⟩ := List.mem_map.1 hl
      split_ifs
      · exact plusText_piece 'J' (by decide) _
      · exact ⟨rfl, Or.inl rfl⟩

/-- The energies written before a failure: balanced, and not closed by a bracket. -/
theorem pottsWriteTerms_text (est : ℕ → ℕ → ℕ) (n k : ℕ) (is : List ℕ) :
    scanD 1 (pottsWriteTerms est n k is).1 = some 1 ∧
      ((pottsWriteTerms est n k is).1 = [] ∨ (pottsWriteTerms est n k is).1.getLast? = some '\n') := by
  induction is with
  | nil => exact ⟨rfl, Or.inl rfl⟩
  | cons i is ih =>
    unfold pottsWriteTerms
    split
    · exact ⟨rfl, Or.inl rfl⟩
    · rename_i state _
      split
      · exact ⟨rfl, Or.inl rfl⟩
      · rename_i t ht
        refine ⟨?_, Or.inr ?_⟩
        · rw [scanD_append, scanD_append, scanD_append, show scanD 1 ['\t', '\t'] = some 1 by decide]
          simp only [Option.bind_some, pottsTerm_depth n _ t ht]
          rw [show scanD 1 [',', '\n'] = some 1 by decide]
          exact ih.1
        · rcases ih.2 with h | h
          · simp only [h, List.append_nil]
            rw [show [',', '\n'] = [','] ++ ['\n'] from rfl, ← List.append_assoc, List.getLast?_concat]
          · simp only [List.getLast?_append, h]
            rfl

/-- The file left behind by a failure cannot be imported. -/
theorem pottsWrite_broken (est : ℕ → ℕ → ℕ) (n k : ℕ) (licence : Option (List (List Char))) (date : List Char)
    (h : PlainLicence licence date) (is : List ℕ) :
    ptReadModule (pottsHead n k licence date ++ (joinLines (pottsObsStart n k) ++
      (chars! "\tenergies = [" ++ (pottsWriteTerms est n k is).1))) = none := by
  obtain ⟨h1, h2⟩ := pottsWriteTerms_text est n k is
  generalize (pottsWriteTerms est n k is).1 = t at h1 h2
  have hbody : List.Forall₂ PtLineOf (pottsDecl n k ++ [chars! "\tobservables = zeros(" ++ natText (pottsSize n k) ++ [')']])
      (ptDeclStmts n k ++ [.zerosO (pottsSize n k)]) :=
    append_forall₂ (ptDecl_lines _ _) (ptLines_one ⟨isLine_zerosO _, ptParse_zerosO _, rfl⟩)
  have hstart : ∀ l ∈ pottsObsStart n k, IsLine l := by
    intro l hl
    unfold pottsObsStart at hl
    rw [List.append_assoc] at hl
    rcases List.mem_append.1 hl with hl | hl
    · exact ptStart_isLine l hl
    · exact ptLines_isLine hbody l hl
  have hlast : logical false 0 [] (chars! "\tenergies = [" ++ t) = [chars! "\tenergies = [" ++ t] := by
    have := logical_scan (chars! "\tenergies = [" ++ t) [] 0 1 [] (by
      rw [scanD_append, show scanD 0 (chars! "\tenergies = [") = some 1 by decide]; exact h1)
      (Or.inr (Or.inr (by simp)))
    rw [List.append_nil] at this
    rw [this, logical, if_neg (by simp)]
    simp
  have hne : ptParse (chars! "\tenergies = [" ++ t) = none := by
    apply ptParse_open
    rcases h2 with rfl | h2
    · decide
    · rw [List.getLast?_append, h2]; decide
  unfold ptReadModule
  rw [logical_pottsHead _ _ _ _ _ h, logical_lines _ _ hstart, hlast]
  unfold pottsObsStart
  rw [List.append_assoc, List.append_assoc, ptStart_read, ← List.append_assoc, List.foldlM_append,
    ptReadLines_obs _ _ _ rfl hbody]
  simp only [Option.bind_eq_bind, Option.bind_some, List.foldlM_cons, List.foldlM_nil]
  have : ∀ st : PtRead, ptReadLine st (chars! "\tenergies = [" ++ t) = none := by
    intro st; unfold ptReadLine; rw [hne]
  rw [this]
  rfl

end Verif.Lemmas
