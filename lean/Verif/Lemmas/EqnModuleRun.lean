/-
Running the functions of a written equation module.
-/
import Verif.Lemmas.EqnModuleRead

namespace Verif.Lemmas
open Verif Verif.Model

/-- Running these statements leads from one state to the other. -/
def Steps (params : List ℝ) (ls : List EqLine) (st st' : EqSt) : Prop :=
  ∀ rest, execBody params (ls ++ rest) st = execBody params rest st'

theorem Steps.append {params : List ℝ} {a b : List EqLine} {s t u : EqSt} (h1 : Steps params a s t)
    (h2 : Steps params b t u) : Steps params (a ++ b) s u := by
  intro rest
  rw [List.append_assoc, h1, h2]

theorem Steps.nil (params : List ℝ) (s : EqSt) : Steps params [] s s := fun _ => rfl

theorem Steps.one {params : List ℝ} {l : EqLine} {s t : EqSt} (hl : l ≠ .retC) (hl' : l ≠ .retP)
    (h : execLine params s l = .ok t) : Steps params [l] s t := by
  intro rest
  rw [List.singleton_append]
  cases l <;> first
    | exact absurd rfl hl
    | exact absurd rfl hl'
    | simp only [execBody, h]

theorem Steps.cons {params : List ℝ} {l : EqLine} {ls : List EqLine} {s t u : EqSt} (hl : l ≠ .retC)
    (hl' : l ≠ .retP) (h : execLine params s l = .ok t) (h2 : Steps params ls t u) :
    Steps params (l :: ls) s u := (Steps.one hl hl' h).append h2

/-- The declarations of the parameter arrays. -/
theorem steps_slices (params : List ℝ) (sizes : List ℕ) (m : ℕ) (hm : m ≤ 23) (st : EqSt) :
    Steps params ((List.range m).map fun i => .slice (abc.getD i ' ') (sizes.take i).sum (sizes.take (i + 1)).sum) st
      { st with arr := (fun x => if abc.idxOf x < m then
          some ((params.drop (sizes.take (abc.idxOf x)).sum).take
            ((sizes.take (abc.idxOf x + 1)).sum - (sizes.take (abc.idxOf x)).sum)) else st.arr x) } := by
  induction m with
  | zero => intro rest; simp
  | succ m ih =>
    rw [List.range_succ, List.map_append]
    refine (ih (by omega)).append (Steps.one (by simp) (by simp) ?_)
    simp only [execLine]
    congr 2
    funext x
    have hlt : m < abc.length := by change m < 23; omega
    by_cases hx : x = abc.getD m ' '
    · rw [if_pos hx]
      have : abc.idxOf x = m := by rw [hx, abc_getD m hlt]; exact abc_idxOf m hlt
      rw [this, if_pos (by omega)]
    · rw [if_neg hx]
      have hne : abc.idxOf x ≠ m := by
        intro h
        apply hx
        rw [abc_getD m hlt]
        have hl : abc.idxOf x < abc.length := by rw [h]; exact hlt
        have := List.getElem_idxOf hl
        simp only [h] at this
        exact this.symm
      by_cases hlt' : abc.idxOf x < m
      · rw [if_pos hlt', if_pos (by omega)]
      · rw [if_neg hlt', if_neg (by omega)]

theorem take_sum_succ (sizes : List ℕ) (i : ℕ) : (sizes.take (i + 1)).sum - (sizes.take i).sum = sizes.getD i 0 := by
  rw [List.take_add_one, List.sum_append, Nat.add_sub_cancel_left, List.getD_eq_getElem?_getD]
  cases sizes[i]? <;> simp

/-- Their values are those of `moduleEnv`. -/
theorem env_slices (e : Eqns) (params : List ℝ) (st : EqSt) (h : st.arr = fun x =>
      if abc.idxOf x < e.signs.length then
          some ((params.drop ((e.signs.map List.length).take (abc.idxOf x)).sum).take
            (((e.signs.map List.length).take (abc.idxOf x + 1)).sum -
              ((e.signs.map List.length).take (abc.idxOf x)).sum)) else none) :
    st.env = moduleEnv e params := by
  funext c j
  unfold EqSt.env moduleEnv
  rw [h]
  simp only [take_sum_succ]
  split_ifs <;> simp

/-- The array of the parameters after the declarations. -/
noncomputable def arrOf (e : Eqns) (params : List ℝ) : Char → Option (List ℝ) := fun x =>
  if abc.idxOf x < e.signs.length then
    some ((params.drop ((e.signs.map List.length).take (abc.idxOf x)).sum).take
      (((e.signs.map List.length).take (abc.idxOf x + 1)).sum -
        ((e.signs.map List.length).take (abc.idxOf x)).sum)) else none

theorem steps_decl (params : List ℝ) (e : Eqns) (h : e.signs.length ≤ 23) (st : EqSt)
    (ha : st.arr = (fun _ => none) ∨ st.arr = arrOf e params) :
    Steps params (sliceStmts e) st { st with arr := arrOf e params } := by
  have := steps_slices params (e.signs.map List.length) e.signs.length h st
  have harr : (fun x => if abc.idxOf x < e.signs.length then
          some ((params.drop ((e.signs.map List.length).take (abc.idxOf x)).sum).take
            (((e.signs.map List.length).take (abc.idxOf x + 1)).sum -
              ((e.signs.map List.length).take (abc.idxOf x)).sum)) else st.arr x) = arrOf e params := by
    funext x
    unfold arrOf
    rcases ha with ha | ha <;> rw [ha]
    unfold arrOf
    split_ifs <;> rfl
  rw [harr] at this
  exact this

theorem steps_energy (params : List ℝ) (e : Eqns) (st : EqSt) (ha : st.arr = arrOf e params) (E : List ℝ) (z : ℝ)
    (hz : moduleZ e params = .ok (E, z)) :
    Steps params (energyStmts e) st { st with energies := some E, logZ := some z } := by
  unfold moduleZ at hz
  have henv := env_slices e params st ha
  simp only at hz
  cases hE : evalList (moduleEnv e params) (energyText e.expterms.flatten.length e.expterms.flatten) with
  | none => rw [hE] at hz; cases hz
  | some E' =>
    rw [hE] at hz
    simp only at hz
    cases hl : fastLogSumExp E' none with
    | error err => rw [hl] at hz; cases hz
    | ok v =>
      obtain ⟨v, w⟩ := v
      rw [hl] at hz
      cases v with
      | none => cases hz
      | some z' =>
        cases hz
        refine Steps.cons (t := { st with energies := some E }) (by simp) (by simp) ?_ (Steps.one (by simp) (by simp) ?_)
        · simp only [execLine, henv, hE]
        · simp only [execLine, boundVar, bind, Except.bind, hl]

theorem mapM_cons_ok {α β : Type} (f : α → Py β) (a : α) (l : List α) (r : List β) (h : (a :: l).mapM f = .ok r) :
    ∃ b r', f a = .ok b ∧ l.mapM f = .ok r' ∧ r = b :: r' := by
  rw [List.mapM_cons] at h
  cases ha : f a with
  | error err => rw [ha] at h; cases h
  | ok b =>
    rw [ha] at h
    cases hl : l.mapM f with
    | error err => rw [hl] at h; cases h
    | ok r' =>
      rw [hl] at h
      cases h
      exact ⟨b, r', rfl, rfl, rfl⟩

theorem set_append_replicate (pre : List ℝ) (m : ℕ) (x : ℝ) :
    (pre ++ List.replicate (m + 1) 0).set pre.length x = (pre ++ [x]) ++ List.replicate m 0 := by
  rw [List.replicate_succ]
  simp

/-- The statements of the constraints. -/
theorem steps_obs (params : List ℝ) (brk : ℕ → Bool) (sym : Bool) (E : List ℝ) (z : ℝ) (L : List (List ℤ)) :
    ∀ (st : EqSt) (pre o : List ℝ), st.energies = some E → st.logZ = some z →
      st.cout = some (pre ++ List.replicate L.length 0) →
      (L.mapM fun sg => match evalList (fun _ _ => none) (signText brk sym sg) with
        | none => (.error .exception : Py ℝ)
        | some c => match fastLogSumExp E (some c) with
          | .error err => .error err
          | .ok num => .ok (expLog (subLog num.1 z) * num.2)) = .ok o →
      ∃ st', Steps params ((L.zipIdx pre.length).flatMap fun q => [.num (signText brk sym q.1), .setC q.2]) st st' ∧
        st'.cout = some (pre ++ o) := by
  induction L with
  | nil =>
    intro st pre o hE hz hc ho
    cases ho
    exact ⟨st, Steps.nil _ _, by simpa using hc⟩
  | cons sg L ih =>
    intro st pre o hE hz hc ho
    obtain ⟨b, o', hb, ho', rfl⟩ := mapM_cons_ok _ _ _ _ ho
    cases hev : evalList (fun _ _ => (none : Option ℝ)) (signText brk sym sg) with
    | none => rw [hev] at hb; cases hb
    | some c =>
      rw [hev] at hb
      simp only at hb
      cases hf : fastLogSumExp E (some c) with
      | error err => rw [hf] at hb; cases hb
      | ok num =>
        rw [hf] at hb
        cases hb
        have hlen : pre.length < (pre ++ List.replicate (sg :: L).length (0 : ℝ)).length := by simp
        obtain ⟨st', h1, h2⟩ := ih { st with num := some num, cout := some ((pre ++
            [expLog (subLog num.1 z) * num.2]) ++ List.replicate L.length 0) }
          (pre ++ [expLog (subLog num.1 z) * num.2]) o' hE hz rfl ho'
        refine ⟨st', ?_, by rw [h2]; simp⟩
        rw [List.zipIdx_cons, List.flatMap_cons]
        have hpl : (pre ++ [expLog (subLog num.1 z) * num.2]).length = pre.length + 1 := by simp
        rw [hpl] at h1
        refine Steps.append (t := { st with num := some num, cout := some ((pre ++
            [expLog (subLog num.1 z) * num.2]) ++ List.replicate L.length 0) }) ?_ h1
        refine Steps.cons (t := { st with num := some num }) (by simp) (by simp) ?_
          (Steps.one (by simp) (by simp) ?_)
        · simp only [execLine, hE, boundVar, bind, Except.bind, hev, hf]
        · simp only [execLine, hz, hc, boundVar, bind, Except.bind, assignAt]
          rw [if_pos hlen]
          simp only [List.length_cons]
          rw [set_append_replicate]

/-- The statements of the states. -/
theorem steps_prob (params : List ℝ) (env : Char → ℕ → Option ℝ) (z : ℝ) (L : List (List Char)) :
    ∀ (st : EqSt) (pre o : List ℝ), st.env = env → st.logZ = some z →
      st.pout = some (pre ++ List.replicate L.length 0) →
      (L.mapM fun t => evalExpr env (t.take (t.length - 2))) = some o →
      ∃ st', Steps params ((L.zipIdx pre.length).map fun q => .setP q.2 (q.1.take (q.1.length - 2))) st st' ∧
        st'.pout = some (pre ++ o.map fun x => Real.exp (x - z)) := by
  induction L with
  | nil =>
    intro st pre o hE hz hc ho
    cases ho
    exact ⟨st, Steps.nil _ _, by simpa using hc⟩
  | cons t L ih =>
    intro st pre o hE hz hc ho
    rw [List.mapM_cons] at ho
    cases hev : evalExpr env (t.take (t.length - 2)) with
    | none => rw [hev] at ho; cases ho
    | some x =>
      rw [hev] at ho
      cases hm : (L.mapM fun t => evalExpr env (t.take (t.length - 2))) with
      | none => rw [hm] at ho; cases ho
      | some o' =>
        rw [hm] at ho
        cases ho
        have hlen : pre.length < (pre ++ List.replicate (t :: L).length (0 : ℝ)).length := by simp
        obtain ⟨st', h1, h2⟩ := ih { st with pout := some ((pre ++ [Real.exp (x - z)]) ++
            List.replicate L.length 0) } (pre ++ [Real.exp (x - z)]) o' hE hz rfl hm
        refine ⟨st', ?_, by rw [h2]; simp⟩
        rw [List.zipIdx_cons, List.map_cons]
        have hpl : (pre ++ [Real.exp (x - z)]).length = pre.length + 1 := by simp
        rw [hpl] at h1
        refine Steps.cons (t := { st with pout := some ((pre ++ [Real.exp (x - z)]) ++
            List.replicate L.length 0) }) (by simp) (by simp) ?_ h1
        simp only [execLine, hE, hev, hz, hc, boundVar, bind, Except.bind, assignAt]
        rw [if_pos hlen]
        simp only [List.length_cons]
        rw [set_append_replicate]

/-- What the two functions compute makes the texts readable. -/
theorem readable_of_ok (brk : ℕ → Bool) (e : Eqns) (params o p : List ℝ) (h23 : e.signs.length ≤ 23)
    (ho : moduleObservables brk e params = .ok o) (hp : moduleP e params = .ok p) : Readable brk e := by
  unfold moduleObservables at ho
  unfold moduleP at hp
  cases hz : moduleZ e params with
  | error err => rw [hz] at ho; cases ho
  | ok q =>
    obtain ⟨E, z⟩ := q
    rw [hz] at ho hp
    simp only at ho hp
    refine ⟨h23, ?_, ?_, ?_⟩
    · unfold moduleZ at hz
      simp only at hz
      cases hE : evalList (moduleEnv e params) (energyText e.expterms.flatten.length e.expterms.flatten) with
      | none => rw [hE] at hz; cases hz
      | some E' => exact evalList_depth _ _ _ hE 1
    · cases hm : (e.expterms.mapM fun t => (evalExpr (moduleEnv e params) (t.take (t.length - 2)))) with
      | none => rw [hm] at hp; cases hp
      | some v =>
        clear hp hz ho
        generalize e.expterms = L at hm
        induction L generalizing v with
        | nil => simp
        | cons t L ih =>
          rw [List.mapM_cons] at hm
          cases hev : evalExpr (moduleEnv e params) (t.take (t.length - 2)) with
          | none => rw [hev] at hm; cases hm
          | some x =>
            rw [hev] at hm
            cases hm' : (L.mapM fun t => (evalExpr (moduleEnv e params) (t.take (t.length - 2)))) with
            | none => rw [hm'] at hm; cases hm
            | some v' =>
              intro u hu
              rcases List.mem_cons.1 hu with rfl | hu
              · exact evalExpr_depth _ _ _ hev 0
              · exact ih v' hm' u hu
    · clear hz hp
      generalize e.signs.flatten = L at ho
      induction L generalizing o with
      | nil => simp
      | cons sg L ih =>
        obtain ⟨b, o', hb, ho', rfl⟩ := mapM_cons_ok _ _ _ _ ho
        intro u hu
        rcases List.mem_cons.1 hu with rfl | hu
        · cases hev : evalList (fun _ _ => (none : Option ℝ)) (signText brk e.sym u) with
          | none => rw [hev] at hb; cases hb
          | some c => exact evalList_depth _ _ _ hev 1
        · exact ih o' ho' u hu

/-- `calc_observables` of a written module. -/
theorem exec_obs (brk : ℕ → Bool) (e : Eqns) (params o : List ℝ) (h23 : e.signs.length ≤ 23)
    (ho : moduleObservables brk e params = .ok o) :
    execBody params (obsStmts brk e) EqSt.start = .ok (some o) := by
  unfold moduleObservables at ho
  cases hz : moduleZ e params with
  | error err => rw [hz] at ho; cases ho
  | ok q =>
    obtain ⟨E, z⟩ := q
    rw [hz] at ho
    simp only at ho
    have hlen : e.signs.flatten.length = (e.signs.map List.length).sum := by rw [List.length_flatten]
    obtain ⟨st0, hst0⟩ : ∃ st0 : EqSt, st0 = { EqSt.start with
      cout := some (List.replicate (e.signs.map List.length).sum 0) } := ⟨_, rfl⟩
    obtain ⟨st', h1, h2⟩ := steps_obs params brk e.sym E z e.signs.flatten
      { st0 with arr := arrOf e params, energies := some E, logZ := some z } [] o rfl rfl
      (by simp [hst0, hlen]) ho
    have hd : Steps params (.zerosC (e.signs.map List.length).sum :: sliceStmts e) EqSt.start
        { st0 with arr := arrOf e params } :=
      Steps.cons (t := st0) (by simp) (by simp) (by simp [execLine, hst0])
        (steps_decl params e h23 st0 (Or.inl (by rw [hst0]; rfl)))
    have hall := ((hd.append (steps_energy params e _ rfl E z hz)).append h1)
    unfold obsStmts
    refine (hall [.nanC, .retC]).trans ?_
    simp only [execBody, execLine, h2, boundVar, bind, Except.bind, List.nil_append]

/-- `p` of a written module. -/
theorem exec_p (e : Eqns) (params p : List ℝ) (h23 : e.signs.length ≤ 23) (hn : e.expterms.length = 2 ^ e.n)
    (hp : moduleP e params = .ok p) :
    execBody params (pStmts e) EqSt.start = .ok (some p) := by
  unfold moduleP at hp
  cases hz : moduleZ e params with
  | error err => rw [hz] at hp; cases hp
  | ok q =>
    obtain ⟨E, z⟩ := q
    rw [hz] at hp
    simp only at hp
    cases hm : (e.expterms.mapM fun t => (evalExpr (moduleEnv e params) (t.take (t.length - 2)))) with
    | none => rw [hm] at hp; cases hp
    | some v =>
      rw [hm] at hp
      cases hp
      obtain ⟨st0, hst0⟩ : ∃ st0 : EqSt, st0 = { EqSt.start with
        cout := some (List.replicate (e.signs.map List.length).sum 0) } := ⟨_, rfl⟩
      obtain ⟨st', h1, h2⟩ := steps_prob params (moduleEnv e params) z e.expterms
        ⟨arrOf e params, st0.cout, some (List.replicate (2 ^ e.n) 0), some E, some z, st0.num⟩ [] v (env_slices e params _ rfl) rfl
        (by simp [hn]) hm
      have hd : Steps params (.zerosC (e.signs.map List.length).sum :: sliceStmts e) EqSt.start
          { st0 with arr := arrOf e params } :=
        Steps.cons (t := st0) (by simp) (by simp) (by simp [execLine, hst0])
          (steps_decl params e h23 st0 (Or.inl (by rw [hst0]; rfl)))
      have hd2 := hd.append (steps_decl params e h23 _ (Or.inr rfl))
      have hz' : Steps params [.zerosP (2 ^ e.n)] { st0 with arr := arrOf e params }
          { st0 with arr := arrOf e params, pout := some (List.replicate (2 ^ e.n) 0) } :=
        Steps.one (by simp) (by simp) rfl
      have hall := (((hd2.append hz').append (steps_energy params e _ rfl E z hz)).append h1)
      unfold pStmts
      rw [List.append_assoc]
      refine (hall _).trans ?_
      cases e.sym
      · simp [execBody, h2, boundVar, bind, Except.bind]
      · simp [execBody, execLine, h2, boundVar, bind, Except.bind]

/-- The text of a written module, run by Python, computes what `moduleObservables` and `moduleP` say. -/
theorem run_file (brk : ℕ → Bool) (licence : Option (List (List Char))) (date : List Char) (e : Eqns)
    (hl : ∀ ls, licence = some ls → ∀ l ∈ ls, '\n' ∉ l) (hd : '\n' ∉ date) (h23 : e.signs.length ≤ 23)
    (hn : e.expterms.length = 2 ^ e.n) (params o p : List ℝ)
    (ho : moduleObservables brk e params = .ok o) (hp : moduleP e params = .ok p) :
    runObservables (fileText brk licence date e) params = .ok (some o) ∧
      runP (fileText brk licence date e) params = .ok (some p) := by
  have hr := readModule_file brk licence date e (readable_of_ok brk e params o p h23 ho hp) hl hd
  unfold runObservables runP
  rw [hr]
  exact ⟨exec_obs brk e params o h23 ho, exec_p e params p h23 hn hp⟩

end Verif.Lemmas
