/-
The generated `p` and `calc_observables` in closed form.
-/
import Verif.Lemmas.Enumerate

namespace Verif.Lemmas
open Verif Verif.Model Verif.Spec

/-- All pieces of the energy of a state. -/
def allPieces (sym : Bool) (groups : List Group) (b : ℕ → Bool) : List Piece :=
  groups.zipIdx.flatMap fun q => piecesOf sym (abc.getD q.2 ' ') q.1 b

theorem zipIdx_lt {α : Type*} {l : List α} {q : α × ℕ} (h : q ∈ l.zipIdx) :
    q.2 < l.length ∧ l[q.2]? = some q.1 := by
  have := List.mem_zipIdx_iff_getElem?.1 h
  exact ⟨(List.getElem?_eq_some_iff.1 this).1, this⟩

theorem abc_getD (i : ℕ) (hi : i < abc.length) : abc.getD i ' ' = abc[i] :=
  List.getD_eq_getElem _ _ hi

theorem allPieces_good (sym : Bool) (groups : List Group) (hl : groups.length ≤ abc.length)
    (b : ℕ → Bool) : ∀ p ∈ allPieces sym groups b, p.Good := by
  intro p hp
  obtain ⟨q, hq, hp⟩ := List.mem_flatMap.1 hp
  have hlt : q.2 < abc.length := lt_of_lt_of_le (zipIdx_lt hq).1 hl
  refine piecesOf_good sym _ ?_ _ _ p hp
  rw [abc_getD _ hlt]
  exact abc_alpha _ (List.getElem_mem _)

theorem allPieces_ne (sym : Bool) (groups : List Group) (hne : ∃ g ∈ groups, g.2 ≠ [])
    (b : ℕ → Bool) : allPieces sym groups b ≠ [] := by
  obtain ⟨g, hg, hg2⟩ := hne
  obtain ⟨i, hi, rfl⟩ := List.getElem_of_mem hg
  intro h0
  have h1 : (groups[i], i) ∈ groups.zipIdx := List.mem_zipIdx_iff_getElem?.2 (by simp [hi])
  have h2 : piecesOf sym (abc.getD i ' ') groups[i] b = [] :=
    List.flatMap_eq_nil_iff.1 h0 _ h1
  unfold piecesOf at h2
  cases sym
  · simp only [Bool.false_eq_true, if_false] at h2
    split_ifs at h2 with h3
    exact h3 (by rw [h2]; rfl)
  · simp only [if_true, List.map_eq_nil_iff, List.range_eq_nil, List.length_eq_zero_iff] at h2
    exact hg2 h2

theorem expTerm_eq (n : ℕ) (sym : Bool) (groups : List Group) (hg : GoodGroups n groups)
    (hl : groups.length ≤ abc.length) (hne : ∃ g ∈ groups, g.2 ≠ []) (state : ℕ)
    (hb : (binText n state).length = n) :
    ∃ qs : List Piece, expTerm n sym (groups.map subixOf) state = some (render qs ++ [',', ' ']) ∧
      (∀ p ∈ qs, p ∈ allPieces sym groups (bitAt (binText n state))) ∧ qs ≠ [] ∧
      ∀ env : Char → ℕ → ℝ, (qs.map (Piece.val env)).sum =
        ((allPieces sym groups (bitAt (binText n state))).map (Piece.val env)).sum := by
  have hgood := allPieces_good sym groups hl (bitAt (binText n state))
  obtain ⟨qs, h1, h2, h3, h4⟩ := subAll_render (allPieces sym groups (bitAt (binText n state))) hgood
  refine ⟨qs, ?_, h2, h3 (allPieces_ne sym groups hne _), fun env => h4 ℝ env⟩
  have hm : (groups.map subixOf).zipIdx.mapM (fun q => do
      let pre ← abc[q.2]?
      if sym then getTerms11 q.1 pre (binText n state) else getTerms01 q.1 pre (binText n state)) =
      some (groups.zipIdx.map fun q => render (piecesOf sym (abc.getD q.2 ' ') q.1 (bitAt (binText n state)))) := by
    rw [List.zipIdx_map]
    have : ∀ l : List (Group × ℕ), (∀ q ∈ l, q ∈ groups.zipIdx) →
        (l.map (Prod.map subixOf id)).mapM (fun q => do
          let pre ← abc[q.2]?
          if sym then getTerms11 q.1 pre (binText n state) else getTerms01 q.1 pre (binText n state)) =
        some (l.map fun q => render (piecesOf sym (abc.getD q.2 ' ') q.1 (bitAt (binText n state)))) := by
      intro l hl'
      induction l with
      | nil => rfl
      | cons q l ih =>
        obtain ⟨q1, q2⟩ := zipIdx_lt (hl' q (by simp))
        have hlt : q.2 < abc.length := lt_of_lt_of_le q1 hl
        have hqm : q.1 ∈ groups := List.mem_of_getElem? q2
        rw [List.map_cons, List.mapM_cons, ih fun r hr => hl' r (by simp [hr])]
        simp only [Prod.map_fst, Prod.map_snd, id]
        rw [List.getElem?_eq_getElem hlt]
        simp only [Option.bind_eq_bind, Option.bind_some]
        rw [getTerms_eq sym n q.1 (hg q.1 hqm).1 (hg q.1 hqm).2 _ hb]
        simp only [Option.bind_some, List.map_cons, abc_getD _ hlt]
        rfl
    exact this _ fun _ h => h
  unfold expTerm
  rw [hm]
  simp only [Option.bind_eq_bind, Option.bind_some]
  have hfl : (groups.zipIdx.map fun q =>
      render (piecesOf sym (abc.getD q.2 ' ') q.1 (bitAt (binText n state)))).flatten =
      render (allPieces sym groups (bitAt (binText n state))) := by
    unfold allPieces
    induction groups.zipIdx with
    | nil => rfl
    | cons q l ih => rw [List.map_cons, List.flatten_cons, List.flatMap_cons, render_append, ih]
  rw [hfl, h1, subAll_id ')' _ _ _ (render_no_paren qs fun p hp => hgood p (h2 p hp))]
  rfl

/-- Value of a product of spins for a bit pattern, as an integer. -/
def signOf (sym : Bool) (b : ℕ → Bool) (t : List ℕ) : ℤ :=
  if sym then (if (t.map b).count true % 2 = 1 then -1 else 1) else (if (t.map b).all id then 1 else 0)

theorem signOf_mono (sym : Bool) (b : ℕ → Bool) (t : List ℕ) :
    ((signOf sym b t : ℤ) : ℝ) = mono (bitSpin sym b) t := by
  unfold signOf
  cases sym
  · rw [mono_01]; split_ifs <;> simp_all
  · rw [mono_sym]; split_ifs <;> simp_all

theorem computeSigns_eq (n : ℕ) (sym : Bool) (g : Group) (hg : 1 ≤ g.1)
    (ht : ∀ t ∈ g.2, t.length = g.1 ∧ ∀ i ∈ t, i < n) (bt : List Char) (hb : bt.length = n) :
    computeSigns (subixOf g) bt sym = some (g.2.map (signOf sym (bitAt bt))) := by
  unfold computeSigns
  rw [if_neg (subixOf_ne g hg), subLen_subixOf g hg,
    mapM_some _ (fun j => signOf sym (bitAt bt) (g.2.getD j []))]
  · congr 1
    apply List.ext_getElem
    · simp
    · intro i h1 h2
      simp at h1 h2
      simp [h1]
  · intro j hj
    rw [bitsAt_subixOf n g ht bt hb j (List.mem_range.1 hj)]
    simp only [Option.bind_eq_bind, Option.bind_some, signOf]
    cases sym
    · simp only [Bool.false_eq_true, if_false]
      have : ∀ l : List Bool, (if l.any (fun x => !x) then (0 : ℤ) else 1) = if l.all id then 1 else 0 := by
        intro l
        have : l.any (fun x => !x) = !(l.all id) := by
          induction l with
          | nil => rfl
          | cons a l ih => simp [ih, Bool.not_and]
        rw [this]
        cases l.all id <;> simp
      exact congrArg some (this _)
    · rfl

theorem binText_length (n state : ℕ) (hn : 1 ≤ n) (h : state < 2 ^ n) : (binText n state).length = n := by
  rw [binText_eq n state hn h, List.length_map, length_fixedDigits]

theorem writeEqns_eq (n : ℕ) (hn : 1 ≤ n) (sym : Bool) (groups : List Group) (hg : GoodGroups n groups)
    (hl : groups.length ≤ abc.length) (hne : ∃ g ∈ groups, g.2 ≠ []) :
    ∃ (Q : ℕ → List Piece) (e : Eqns), writeEqns n sym (groups.map subixOf) = .ok e ∧ e.n = n ∧ e.sym = sym ∧
      e.expterms = (List.range (2 ^ n)).map (fun st => render (Q st) ++ [',', ' ']) ∧
      e.signs = groups.map (fun g => g.2.map fun t =>
        (List.range (2 ^ n)).map fun st => signOf sym (bitAt (binText n st)) t) ∧
      ∀ st < 2 ^ n, (∀ p ∈ Q st, p ∈ allPieces sym groups (bitAt (binText n st))) ∧ Q st ≠ [] ∧
        ∀ env : Char → ℕ → ℝ, ((Q st).map (Piece.val env)).sum =
          ((allPieces sym groups (bitAt (binText n st))).map (Piece.val env)).sum := by
  have hex : ∀ st, ∃ qs : List Piece, st < 2 ^ n → (expTerm n sym (groups.map subixOf) st =
      some (render qs ++ [',', ' ']) ∧
      (∀ p ∈ qs, p ∈ allPieces sym groups (bitAt (binText n st))) ∧ qs ≠ [] ∧
      ∀ env : Char → ℕ → ℝ, (qs.map (Piece.val env)).sum =
        ((allPieces sym groups (bitAt (binText n st))).map (Piece.val env)).sum) := by
    intro st
    by_cases hst : st < 2 ^ n
    · obtain ⟨qs, h⟩ := expTerm_eq n sym groups hg hl hne st (binText_length n st hn hst)
      exact ⟨qs, fun _ => h⟩
    · exact ⟨[], fun h => absurd h hst⟩
  choose Q hQ using hex
  have e1 : (List.range (2 ^ n)).mapM (expTerm n sym (groups.map subixOf)) =
      some ((List.range (2 ^ n)).map fun st => render (Q st) ++ [',', ' ']) :=
    mapM_some _ _ _ fun st hst => (hQ st (List.mem_range.1 hst)).1
  have e2 : (groups.map subixOf).mapM (fun subix => (List.range (2 ^ n)).mapM fun state =>
      computeSigns subix (binText n state) sym) =
      some (groups.map fun g => (List.range (2 ^ n)).map fun st => g.2.map (signOf sym (bitAt (binText n st)))) := by
    have : ∀ l : List Group, (∀ g ∈ l, g ∈ groups) → (l.map subixOf).mapM (fun subix =>
        (List.range (2 ^ n)).mapM fun state => computeSigns subix (binText n state) sym) =
        some (l.map fun g => (List.range (2 ^ n)).map fun st => g.2.map (signOf sym (bitAt (binText n st)))) := by
      intro l hl'
      induction l with
      | nil => rfl
      | cons g l ih =>
        have hgg := hg g (hl' g (by simp))
        rw [List.map_cons, List.mapM_cons, ih fun r hr => hl' r (by simp [hr]),
          mapM_some _ (fun st => g.2.map (signOf sym (bitAt (binText n st))))]
        · rfl
        · intro st hst
          exact computeSigns_eq n sym g hgg.1 hgg.2 _ (binText_length n st hn (List.mem_range.1 hst))
    exact this _ fun _ h => h
  refine ⟨Q, _, by unfold writeEqns; rw [e1, e2], rfl, rfl, rfl, ?_, fun st hst => (hQ st hst).2⟩
  rw [List.zip_map, List.map_map]
  have hz : ∀ l : List Group, (∀ g ∈ l, g ∈ groups) → (l.zip l).map ((fun q : List (List ℕ) × List (List ℤ) =>
      (List.range (subLen q.1)).map fun j => q.2.map fun row => row.getD j 0) ∘
      Prod.map subixOf (fun g => (List.range (2 ^ n)).map fun st => g.2.map (signOf sym (bitAt (binText n st))))) =
      l.map (fun g => g.2.map fun t =>
        (List.range (2 ^ n)).map fun st => signOf sym (bitAt (binText n st)) t) := by
    intro l hl'
    induction l with
    | nil => rfl
    | cons g l ih =>
      rw [List.zip_cons_cons, List.map_cons, List.map_cons, ih fun r hr => hl' r (by simp [hr])]
      congr 1
      simp only [Function.comp, Prod.map_fst, Prod.map_snd, subLen_subixOf g (hg g (hl' g (by simp))).1,
        List.map_map]
      apply List.ext_getElem
      · simp
      · intro i h1 h2
        simp at h1 h2
        simp [h1]
  exact hz _ fun _ h => h

/-! ### Evaluating the module -/

/-- The energy of a bit pattern is read from the text. -/
theorem allPieces_val (sym : Bool) (groups : List Group) (P : List (List ℝ))
    (hl : groups.length ≤ abc.length) (hfit : ParamsFit groups P) (b : ℕ → Bool) (env' : Char → ℕ → ℝ)
    (henv : ∀ i (hi : i < abc.length), i < groups.length → ∀ j < (P.getD i []).length, env' abc[i] j = (P.getD i []).getD j 0) :
    ((allPieces sym groups b).map (Piece.val env')).sum = -groupE groups P (bitSpin sym b) := by
  unfold allPieces groupE
  rw [neg_neg]
  have hlen : P.length = groups.length := by simpa using congrArg List.length hfit
  have gen : ∀ (gs : List Group) (ps : List (List ℝ)) (k : ℕ), k + gs.length ≤ groups.length →
      ps.length = gs.length → (∀ i < gs.length, ps.getD i [] = P.getD (k + i) []) →
      (∀ i < gs.length, (ps.getD i []).length = (gs.getD i (0, [])).2.length) →
      (((gs.zipIdx k).flatMap fun q => piecesOf sym (abc.getD q.2 ' ') q.1 b).map (Piece.val env')).sum =
        (List.zipWith (fun (g : Group) p => dot p (g.2.map (mono (bitSpin sym b)))) gs ps).sum := by
    intro gs
    induction gs with
    | nil => intro ps k _ _ _ _; simp
    | cons g gs ih =>
      intro ps k hk hps hP hL
      obtain ⟨p, ps, rfl⟩ : ∃ p ps', ps = p :: ps' := by
        cases ps with
        | nil => simp at hps
        | cons p ps => exact ⟨p, ps, rfl⟩
      simp only [List.length_cons] at hk hps
      rw [List.zipIdx_cons, List.flatMap_cons, List.map_append, List.sum_append,
        List.zipWith_cons_cons, List.sum_cons]
      congr 1
      · have h0 := hP 0 (by simp)
        have h1 := hL 0 (by simp)
        simp only [List.getD_cons_zero, Nat.add_zero] at h0 h1
        have hkl : k < abc.length := by omega
        refine piecesOf_val sym _ g b env' p h1 fun j hj => ?_
        simp only
        rw [abc_getD k hkl, henv k hkl (by omega) j (by rw [← h0]; omega), ← h0]
      · refine ih ps (k + 1) (by omega) (by omega) (fun i hi => ?_) (fun i hi => ?_)
        · have := hP (i + 1) (by simp; omega)
          simp only [List.getD_cons_succ] at this
          rw [this]; congr 1; omega
        · have := hL (i + 1) (by simp; omega)
          simpa using this
  refine gen groups P 0 (by omega) hlen (fun i _ => by simp) (fun i hi => ?_)
  have : (P.map List.length).getD i 0 = (groups.map fun g => g.2.length).getD i 0 := by rw [hfit]
  rw [List.getD_eq_getElem _ _ (by simp; omega), List.getD_eq_getElem _ _ (by simp; omega)] at this
  rw [List.getD_eq_getElem _ _ (by omega), List.getD_eq_getElem _ _ hi]
  simpa using this

theorem moduleEnv_eq (groups : List Group) (P : List (List ℝ)) (hfit : ParamsFit groups P)
    (e : Eqns) (hs : e.signs.map List.length = groups.map fun g => g.2.length)
    (i : ℕ) (hi : i < abc.length) (hi' : i < groups.length) (j : ℕ) (hj : j < (P.getD i []).length) :
    moduleEnv e P.flatten abc[i] j = some ((P.getD i []).getD j 0) := by
  have hlen : P.length = groups.length := by simpa using congrArg List.length hfit
  have hlen' : e.signs.length = groups.length := by simpa using congrArg List.length hs
  unfold moduleEnv
  simp only [abc_idxOf i hi]
  rw [if_pos (by omega), hs, ← hfit, slice_flatten P i (by omega)]
  rw [List.getD_eq_getElem _ _ (by omega : i < P.length)] at hj ⊢
  rw [List.getD_eq_getElem _ _ hj, List.getElem?_eq_getElem hj]

/-- The state whose text is number `st`. -/
def textState (sym : Bool) (n st : ℕ) : List ℤ :=
  (fixedDigits 2 n st).map fun d : ℕ => if sym then 1 - 2 * (d : ℤ) else (d : ℤ)

/-- All states in the order of the text. -/
def textStates (sym : Bool) (n : ℕ) : List (List ℤ) := (List.range (2 ^ n)).map (textState sym n)

theorem textState_spins (sym : Bool) (n st : ℕ) (hn : 1 ≤ n) (hst : st < 2 ^ n) (i : ℕ) (hi : i < n) :
    bitSpin sym (bitAt (binText n st)) i = spins (textState sym n st) i := by
  have hlen : i < (fixedDigits 2 n st).length := by rw [length_fixedDigits]; exact hi
  have hd := fixedDigits_lt (b := 2) (by norm_num) (List.getElem_mem hlen)
  unfold bitSpin bitAt spins textState
  rw [binText_eq n st hn hst, List.getD_eq_getElem _ _ (by simpa using hlen),
    List.getD_eq_getElem _ _ (by simpa using hlen)]
  simp only [List.getElem_map]
  generalize (fixedDigits 2 n st)[i] = d at hd
  have h0 : digitCh 0 = '0' := by decide
  have h1 : digitCh 1 = '1' := by decide
  interval_cases d
  · cases sym <;> simp [h0]
  · cases sym <;> norm_num [h1]

theorem mono_congr {K : Type*} [CommRing K] (x y : ℕ → K) (t : List ℕ) (h : ∀ i ∈ t, x i = y i) :
    mono x t = mono y t := by
  unfold mono
  congr 1
  exact List.map_congr_left h

theorem groupE_congr (n : ℕ) (groups : List Group) (hg : GoodGroups n groups) (P : List (List ℝ))
    (x y : ℕ → ℝ) (h : ∀ i < n, x i = y i) : groupE groups P x = groupE groups P y := by
  unfold groupE
  congr 2
  induction groups generalizing P with
  | nil => rfl
  | cons g gs ih =>
    cases P with
    | nil => rfl
    | cons p ps =>
      rw [List.zipWith_cons_cons, List.zipWith_cons_cons, ih (fun g hg' => hg g (by simp [hg']))]
      congr 2
      apply List.map_congr_left
      intro t ht
      exact mono_congr _ _ _ fun i hi => h i (((hg g (by simp)).2 t ht).2 i hi)

theorem flatten_ne {α : Type*} (L : List (List α)) (h : L ≠ []) (h' : ∀ l ∈ L, l ≠ []) : L.flatten ≠ [] := by
  obtain ⟨l, L, rfl⟩ := List.exists_cons_of_ne_nil h
  simp [h' l (by simp)]

theorem textStates_ne (sym : Bool) (n : ℕ) : textStates sym n ≠ [] := by
  simp [textStates]

/-- The energies and the logarithm of the partition function of the module. -/
theorem moduleZ_eq (n : ℕ) (hn : 1 ≤ n) (sym : Bool) (groups : List Group) (hg : GoodGroups n groups)
    (hl : groups.length ≤ abc.length) (P : List (List ℝ))
    (hfit : ParamsFit groups P) (Q : ℕ → List Piece) (e : Eqns)
    (he : e.expterms = (List.range (2 ^ n)).map (fun st => render (Q st) ++ [',', ' ']))
    (hs : e.signs.map List.length = groups.map fun g => g.2.length)
    (hQ : ∀ st < 2 ^ n, (∀ p ∈ Q st, p ∈ allPieces sym groups (bitAt (binText n st))) ∧ Q st ≠ [] ∧
        ∀ env : Char → ℕ → ℝ, ((Q st).map (Piece.val env)).sum =
          ((allPieces sym groups (bitAt (binText n st))).map (Piece.val env)).sum) :
    moduleZ e P.flatten = .ok ((textStates sym n).map (fun s => -groupE groups P (spins s)),
      Real.log (partition (textStates sym n) fun s => groupE groups P (spins s))) ∧
    e.expterms.mapM (fun t => evalExpr (moduleEnv e P.flatten) (t.take (t.length - 2))) =
      some ((textStates sym n).map fun s => -groupE groups P (spins s)) := by
  have hlen : P.length = groups.length := by simpa using congrArg List.length hfit
  obtain ⟨env', henv'⟩ : ∃ env' : Char → ℕ → ℝ, ∀ c j, env' c j = (moduleEnv e P.flatten c j).getD 0 :=
    ⟨_, fun _ _ => rfl⟩
  have hknown : ∀ i (hi : i < abc.length), i < groups.length → ∀ j < (P.getD i []).length,
      moduleEnv e P.flatten abc[i] j = some (env' abc[i] j) ∧ env' abc[i] j = (P.getD i []).getD j 0 := by
    intro i hi hi' j hj
    have := moduleEnv_eq groups P hfit e hs i hi hi' j hj
    rw [henv', this]
    exact ⟨rfl, rfl⟩
  have hgood : ∀ st < 2 ^ n, ∀ p ∈ Q st, p.Good := fun st hst p hp =>
    allPieces_good sym groups hl _ p ((hQ st hst).1 p hp)
  have hkn : ∀ st < 2 ^ n, ∀ p ∈ Q st, p.Known (moduleEnv e P.flatten) env' := by
    intro st hst p hp
    obtain ⟨q, hq, hp'⟩ := List.mem_flatMap.1 ((hQ st hst).1 p hp)
    obtain ⟨q1, q2⟩ := zipIdx_lt hq
    have hlt : q.2 < abc.length := lt_of_lt_of_le q1 hl
    rw [abc_getD _ hlt] at hp'
    refine piecesOf_known sym _ _ _ _ _ (fun j hj => (hknown q.2 hlt q1 j ?_).1) p hp'
    have : (P.map List.length).getD q.2 0 = (groups.map fun g => g.2.length).getD q.2 0 := by rw [hfit]
    rw [List.getD_eq_getElem _ _ (by simp; omega), List.getD_eq_getElem _ _ (by simp; omega)] at this
    simp only [List.getElem_map] at this
    rw [List.getD_eq_getElem _ _ (by omega), this]
    have hq1 : groups[q.2] = q.1 := by
      have := List.getElem?_eq_getElem q1
      rw [this] at q2
      exact Option.some.inj q2
    rw [hq1]; exact hj
  have hval : ∀ st < 2 ^ n, ((Q st).map (Piece.val env')).sum =
      -groupE groups P (spins (textState sym n st)) := by
    intro st hst
    rw [(hQ st hst).2.2 env', allPieces_val sym groups P hl hfit _ env'
      (fun i hi hi' j hj => (hknown i hi hi' j hj).2)]
    rw [groupE_congr n groups hg P _ _ fun i hi => textState_spins sym n st hn hst i hi]
  obtain ⟨E, hE⟩ : ∃ E : List ℝ, E = (textStates sym n).map (fun s => -groupE groups P (spins s)) := ⟨_, rfl⟩
  have hElist : (List.range (2 ^ n)).map (fun st => ((Q st).map (Piece.val env')).sum) = E := by
    rw [hE, textStates, List.map_map]
    exact List.map_congr_left fun st hst => hval st (List.mem_range.1 hst)
  constructor
  · have hflat : e.expterms.flatten = ((List.range (2 ^ n)).map Q |>.map fun ps => render ps ++ [',', ' ']).flatten := by
      rw [he, List.map_map]; rfl
    have hrun := parse_list (moduleEnv e P.flatten) env' ((List.range (2 ^ n)).map Q)
      (by intro ps hps; obtain ⟨st, hst, rfl⟩ := List.mem_map.1 hps
          exact (hQ st (List.mem_range.1 hst)).2.1)
      (by intro ps hps; obtain ⟨st, hst, rfl⟩ := List.mem_map.1 hps
          exact hgood st (List.mem_range.1 hst))
      (by intro ps hps; obtain ⟨st, hst, rfl⟩ := List.mem_map.1 hps
          exact hkn st (List.mem_range.1 hst)) []
    rw [← hflat, List.map_map, List.nil_append] at hrun
    have hZne : e.expterms.flatten ≠ [] := by
      rw [he]
      apply flatten_ne
      · simp
      · intro l hl; obtain ⟨st, -, rfl⟩ := List.mem_map.1 hl; simp
    have hlast : e.expterms.flatten = e.expterms.flatten.dropLast ++ [' '] := by
      obtain ⟨m, hm⟩ : ∃ m, 2 ^ n = m + 1 := ⟨2 ^ n - 1, by have := Nat.two_pow_pos n; omega⟩
      have : ∃ u, e.expterms.flatten = u ++ [' '] := by
        rw [he, hm, List.range_succ, List.map_append, List.flatten_append]
        exact ⟨((List.range m).map fun st => render (Q st) ++ [',', ' ']).flatten ++ (render (Q m) ++ [',']), by simp⟩
      obtain ⟨u, hu⟩ := this
      rw [hu, List.dropLast_concat]
    have hdl : parseRun (moduleEnv e P.flatten) ⟨[], 0, .ready none⟩ e.expterms.flatten.dropLast =
        some ⟨E, 0, .ready none⟩ := by
      rw [hlast, parseRun_append] at hrun
      rcases hp : parseRun (moduleEnv e P.flatten) ⟨[], 0, .ready none⟩ e.expterms.flatten.dropLast with _ | st'
      · rw [hp] at hrun; simp at hrun
      · rw [hp] at hrun
        simp only [Option.bind_some] at hrun
        have hE' : (List.range (2 ^ n)).map ((fun ps => (ps.map (Piece.val env')).sum) ∘ Q) = E := hElist
        rw [hE'] at hrun
        obtain ⟨v, cur, m⟩ := st'
        have hst : Mode.Loose m := by
          cases m with
          | ready _ => trivial
          | done => trivial
          | name _ _ => simp [parseRun, parseStep] at hrun
          | idx _ _ _ => simp [parseRun, parseStep, show digitVal ' ' = none by decide] at hrun
        rw [parse_ws _ _ hst _ (by simp)] at hrun
        exact hrun
    unfold moduleZ
    simp only
    have hev : evalList (moduleEnv e P.flatten) (energyText e.expterms.flatten.length e.expterms.flatten) = some E := by
      unfold evalList
      rw [parse_energyText _ _ _ ⟨[], 0, .ready none⟩ hZne le_rfl trivial, hdl]
    have hEne : E ≠ [] := by
      rw [hE]; simpa using textStates_ne sym n
    rw [hev]
    simp only
    rw [fastLogSumExp_none E hEne]
    simp only
    rw [hE]
    congr 2
    unfold partition
    rw [List.map_map]
    rfl
  · rw [he]
    have : ∀ l : List ℕ, (∀ st ∈ l, st < 2 ^ n) → (l.map fun st => render (Q st) ++ [',', ' ']).mapM
        (fun t => evalExpr (moduleEnv e P.flatten) (t.take (t.length - 2))) =
        some (l.map fun st => -groupE groups P (spins (textState sym n st))) := by
      intro l hl'
      induction l with
      | nil => rfl
      | cons st l ih =>
        have hst := hl' st (by simp)
        rw [List.map_cons, List.mapM_cons, ih fun r hr => hl' r (by simp [hr])]
        have htake : (render (Q st) ++ [',', ' ']).take ((render (Q st) ++ [',', ' ']).length - 2) = render (Q st) := by
          simp
        rw [htake]
        have : evalExpr (moduleEnv e P.flatten) (render (Q st)) =
            some (-groupE groups P (spins (textState sym n st))) := by
          unfold evalExpr evalList
          rw [parse_pieces _ env' (Q st) (hQ st hst).2.1 (hgood st hst) (hkn st hst) [] 0 (.ready none) trivial]
          simp [hval st hst]
        rw [this]; rfl
    rw [this _ fun st hst => List.mem_range.1 hst, textStates, List.map_map]
    rfl

/-! ### Order of the states -/

theorem words_reverse {α : Type*} (A : List α) (n : ℕ) : (words A n).reverse = words A.reverse n := by
  induction n with
  | zero => rfl
  | succ n ih =>
    rw [words, words, List.reverse_flatMap, ← ih]
    congr 1
    funext a
    simp [Function.comp]

theorem textStates_eq (sym : Bool) (n : ℕ) :
    textStates sym n = if sym then (words (spinValues sym) n).reverse else words (spinValues sym) n := by
  cases sym
  · simp only [Bool.false_eq_true, if_false, spinValues, textStates]
    rw [words_eq_map [(0 : ℤ), 1] 2 rfl (by norm_num) n 0]
    apply List.map_congr_left
    intro st _
    apply List.map_congr_left
    intro d hd
    have := fixedDigits_lt (by norm_num) hd
    interval_cases d <;> rfl
  · simp only [if_true, spinValues, textStates, words_reverse]
    rw [show [(-1 : ℤ), 1].reverse = [1, -1] from rfl, words_eq_map [(1 : ℤ), -1] 2 rfl (by norm_num) n 0]
    apply List.map_congr_left
    intro st _
    apply List.map_congr_left
    intro d hd
    have := fixedDigits_lt (by norm_num) hd
    interval_cases d <;> rfl

theorem partition_textStates (sym : Bool) (n : ℕ) (E : List ℤ → ℝ) :
    partition (textStates sym n) E = partition (words (spinValues sym) n) E := by
  rw [textStates_eq]
  cases sym
  · rfl
  · simp only [if_true, partition, List.map_reverse, List.sum_reverse]

theorem words_spinValues_ne (sym : Bool) (n : ℕ) : words (spinValues sym) n ≠ [] := by
  intro h
  have := congrArg List.length h
  rw [length_words] at this
  cases sym <;> simp [spinValues] at this

theorem binStates_words (n : ℕ) (h1 : 1 ≤ n) (h30 : n ≤ 30) (sym : Bool) :
    binStates n sym = .ok (words (spinValues sym) n) := by
  have hrows := binRows_eq n (by omega)
  unfold binStates
  rw [if_neg (by omega), if_neg (by omega)]
  simp only [Int.toNat_natCast, hrows]
  cases sym
  · rfl
  · have hmap : (words [(0 : ℤ), 1] n).map (fun row => row.map fun x => x * 2 - 1) =
        words [-1, 1] n := by
      rw [← words_map]; rfl
    rw [hmap]; rfl

/-- The generated module in closed form. -/
theorem module_eq (n : ℕ) (hn : 1 ≤ n) (sym : Bool) (groups : List Group) (hg : GoodGroups n groups)
    (hl : groups.length ≤ 23) (hne : ∃ g ∈ groups, g.2 ≠ []) :
    ∃ e, writeEqns n sym (groups.map subixOf) = .ok e ∧
      ∀ P : List (List ℝ), ParamsFit groups P →
        moduleP e P.flatten = .ok ((words (spinValues sym) n).map
          (boltzmann (words (spinValues sym) n) fun s => groupE groups P (spins s))) ∧
        ∀ brk, moduleObservables brk e P.flatten = .ok ((groups.flatMap fun g => g.2).map fun t =>
          expect (words (spinValues sym) n) (fun s => groupE groups P (spins s)) fun s => mono (spins s) t) := by
  obtain ⟨Q, e, h1, h2, h3, h4, h5, h6⟩ := writeEqns_eq n hn sym groups hg hl hne
  refine ⟨e, h1, fun P hfit => ?_⟩
  have hs : e.signs.map List.length = groups.map fun g => g.2.length := by
    rw [h5, List.map_map]
    exact List.map_congr_left fun g _ => by simp
  obtain ⟨z1, z2⟩ := moduleZ_eq n hn sym groups hg hl P hfit Q e h4 hs h6
  obtain ⟨E, hE⟩ : ∃ E : List ℤ → ℝ, E = fun s => groupE groups P (spins s) := ⟨_, rfl⟩
  have hE' : ∀ s, groupE groups P (spins s) = E s := fun s => by rw [hE]
  simp only [hE'] at z1 z2 ⊢
  have hZ := partition_pos (words (spinValues sym) n) E (words_spinValues_ne sym n)
  rw [partition_textStates] at z1
  constructor
  · unfold moduleP
    rw [z1]
    simp only
    rw [z2]
    simp only [List.map_map, h3]
    congr 1
    have hb : ((fun x => Real.exp (x - Real.log (partition (words (spinValues sym) n) E))) ∘ fun s => -E s) =
        boltzmann (words (spinValues sym) n) E := by
      funext s
      simp only [Function.comp, boltzmann, Real.exp_sub, Real.exp_log hZ]
    rw [hb, textStates_eq]
    cases sym
    · rfl
    · simp only [if_true, List.map_reverse, List.reverse_reverse]
  · intro brk
    unfold moduleObservables
    rw [z1]
    simp only [h3]
    have hsig : e.signs.flatten = (groups.flatMap fun g => g.2).map fun t =>
        (List.range (2 ^ n)).map fun st => signOf sym (bitAt (binText n st)) t := by
      rw [h5, List.map_flatMap, List.flatMap_def]
    rw [hsig]
    have htup : ∀ t ∈ groups.flatMap (fun g => g.2), ∀ i ∈ t, i < n := by
      intro t ht
      obtain ⟨g, hgm, htg⟩ := List.mem_flatMap.1 ht
      exact ((hg g hgm).2 t htg).2
    revert htup
    generalize groups.flatMap (fun g => g.2) = L
    intro htup
    induction L with
    | nil => rfl
    | cons t L ih =>
      rw [List.map_cons, List.mapM_cons, ih fun u hu => htup u (by simp [hu])]
      have hread : evalList (fun _ _ => none) (signText brk sym
          ((List.range (2 ^ n)).map fun st => signOf sym (bitAt (binText n st)) t)) =
          some ((textStates sym n).map fun s => mono (K := ℝ) (spins s) t) := by
        rw [evalList_signText]
        · congr 1
          rw [textStates, List.map_map, List.map_map]
          apply List.map_congr_left
          intro st hst
          simp only [Function.comp, signOf_mono]
          exact mono_congr _ _ _ fun i hi =>
            textState_spins sym n st hn (List.mem_range.1 hst) i (htup t (by simp) i hi)
        · intro x hx
          obtain ⟨st, -, rfl⟩ := List.mem_map.1 hx
          unfold signOf
          cases sym
          · simp only [Bool.false_eq_true, if_false]; split_ifs <;> simp
          · simp only [if_true]; split_ifs <;> simp
      rw [hread]
      simp only
      obtain ⟨num, n1, n2⟩ := expLog_ratio ((textStates sym n).map fun s => -E s)
        ((textStates sym n).map fun s => mono (K := ℝ) (spins s) t)
        (by simpa using textStates_ne sym n) (by simp) (Real.log (partition (words (spinValues sym) n) E))
      rw [n1]
      simp only [n2, Real.exp_log hZ]
      have hfin : (List.zipWith (fun x c => c * Real.exp x) ((textStates sym n).map fun s => -E s)
          ((textStates sym n).map fun s => mono (K := ℝ) (spins s) t)).sum / partition (words (spinValues sym) n) E =
          expect (words (spinValues sym) n) E fun s => mono (spins s) t := by
        rw [expect_eq_div, ← partition_textStates]
        have hz : List.zipWith (fun x c => c * Real.exp x) ((textStates sym n).map fun s => -E s)
            ((textStates sym n).map fun s => mono (K := ℝ) (spins s) t) =
            (textStates sym n).map fun s => Real.exp (-E s) * mono (spins s) t := by
          rw [List.zipWith_map, List.zipWith_self]
          exact List.map_congr_left fun s _ => mul_comm _ _
        rw [hz]
        congr 1
        rw [textStates_eq]
        cases sym
        · rfl
        · simp only [if_true, List.map_reverse, List.sum_reverse]
      rw [hfin]
      rfl

end Verif.Lemmas
