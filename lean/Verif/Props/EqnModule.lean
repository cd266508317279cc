/-
C100: the text of the equation modules, written by coniii/enumerate.py or shipped in coniii/ising_eqn,
and what Python computes when it runs that text.
-/
import Verif.Lemmas.EqnModuleRun
import Verif.Lemmas.Shipped.Eqn6Sym
import Verif.Props.Enumerate

namespace Verif.Props
open Verif Verif.Model Verif.Spec Verif.Lemmas

/-- No line ends in the heading. -/
def PlainHeading (licence : Option (List (List Char))) (date : List Char) : Prop :=
  (∀ ls, licence = some ls → ∀ l ∈ ls, '\n' ∉ l) ∧ '\n' ∉ date

theorem mapM_some_length {α β : Type} (f : α → Option β) (l : List α) : ∀ r, l.mapM f = some r →
    r.length = l.length := by
  induction l with
  | nil => intro r h; cases h; rfl
  | cons a l ih =>
    intro r h
    rw [List.mapM_cons] at h
    cases ha : f a with
    | none => rw [ha] at h; cases h
    | some b =>
      rw [ha] at h
      cases hl : l.mapM f with
      | none => rw [hl] at h; cases h
      | some r' =>
        rw [hl] at h
        cases h
        simp [ih r' hl]

theorem writeEqns_shape (n : ℕ) (sym : Bool) (corr : List (List (List ℕ))) (e : Eqns)
    (h : writeEqns n sym corr = .ok e) :
    e.n = n ∧ e.sym = sym ∧ e.expterms.length = 2 ^ n ∧ e.signs.length = corr.length := by
  unfold writeEqns at h
  split at h
  · rename_i x y h1 h2
    cases h
    refine ⟨rfl, rfl, ?_, ?_⟩
    · simpa using mapM_some_length _ _ _ h1
    · simp [mapM_some_length _ _ _ h2]
  · cases h
  · cases h

/-- C100. Any groups of constraints: the file that is written can be imported; its `p(params)` returns the
Boltzmann distribution over all states, and its `calc_observables(params)` the expectations of all
products of spins, whatever the heading and wherever numpy breaks lines. -/
theorem C100_any_constraints (n : ℕ) (hn : 1 ≤ n) (sym : Bool) (groups : List Group)
    (hg : GoodGroups n groups) (hl : groups.length ≤ 23) (hne : ∃ g ∈ groups, g.2 ≠ []) :
    ∃ e, writeEqns n sym (groups.map subixOf) = .ok e ∧
      ∀ brk licence date, PlainHeading licence date →
      ∀ P : List (List ℝ), ParamsFit groups P →
        runP (fileText brk licence date e) P.flatten = .ok (some ((words (spinValues sym) n).map
          (boltzmann (words (spinValues sym) n) fun s => groupE groups P (spins s)))) ∧
        runObservables (fileText brk licence date e) P.flatten =
          .ok (some ((groups.flatMap fun g => g.2).map fun t =>
            expect (words (spinValues sym) n) (fun s => groupE groups P (spins s))
              fun s => mono (spins s) t)) := by
  obtain ⟨e, h1, h2⟩ := module_eq n hn sym groups hg hl hne
  refine ⟨e, h1, fun brk licence date hh P hP => ?_⟩
  obtain ⟨s1, -, s3, s4⟩ := writeEqns_shape _ _ _ _ h1
  have := run_file brk licence date e hh.1 hh.2 (by rw [s4, List.length_map]; exact hl) (by rw [s3, s1])
    P.flatten _ _ ((h2 P hP).2 brk) (h2 P hP).1
  exact ⟨this.2, this.1⟩

/-- A file with the equations of a pairwise model: importing it and calling its functions gives, for all
fields and couplings, the Boltzmann distribution over the rows of `bin_states(n, sym)`, the means and
the pair correlations. -/
def PairwiseFile (n : ℕ) (sym : Bool) (text : List Char) : Prop :=
  ∀ h J : List ℝ, h.length = n → J.length = n * (n - 1) / 2 →
    runP text (h ++ J) = .ok (some ((words (spinValues sym) n).map
      (boltzmann (words (spinValues sym) n) fun s => isingVecE n h J (spins s)))) ∧
    runObservables text (h ++ J) = .ok (some
      ((List.range n).map (fun i => expect (words (spinValues sym) n)
          (fun s => isingVecE n h J (spins s)) fun s => spins s i) ++
        (upperPairs n).map fun q => expect (words (spinValues sym) n)
          (fun s => isingVecE n h J (spins s)) fun s => spins s q.1 * spins s q.2))

/-- The same for interactions up to order three. -/
def TripletFile (n : ℕ) (sym : Bool) (text : List Char) : Prop :=
  ∀ h J T : List ℝ, PolyShape n [h, J, T] →
    runP text (h ++ J ++ T) = .ok (some ((words (spinValues sym) n).map
      (boltzmann (words (spinValues sym) n) fun s => polyE n [h, J, T] (spins s)))) ∧
    runObservables text (h ++ J ++ T) = .ok (some
      ((tuples n 1 ++ tuples n 2 ++ tuples n 3).map fun t =>
        expect (words (spinValues sym) n) (fun s => polyE n [h, J, T] (spins s)) fun s => mono (spins s) t))

/-- C100. The pairwise files, for every number of spins. -/
theorem C100_pairwise (n : ℕ) (hn : 1 ≤ n) (sym : Bool) :
    ∃ e, writeEqns n sym (pairwiseIx n) = .ok e ∧
      ∀ brk licence date, PlainHeading licence date → PairwiseFile n sym (fileText brk licence date e) := by
  obtain ⟨e, h1, h2⟩ := pairwise_module n hn sym
  refine ⟨e, h1, fun brk licence date hh h J hlh hlJ => ?_⟩
  obtain ⟨s1, -, s3, s4⟩ := writeEqns_shape _ _ _ _ h1
  have := run_file brk licence date e hh.1 hh.2 (by rw [s4]; simp [pairwiseIx]) (by rw [s3, s1])
    (h ++ J) _ _ ((h2 h J hlh hlJ).2 brk) (h2 h J hlh hlJ).1
  exact ⟨this.2, this.1⟩

/-- C100. The triplet files, for every number of spins from three on. -/
theorem C100_triplet (n : ℕ) (hn : 3 ≤ n) (sym : Bool) :
    ∃ e, writeEqns n sym (tripletIx n) = .ok e ∧
      ∀ brk licence date, PlainHeading licence date → TripletFile n sym (fileText brk licence date e) := by
  obtain ⟨e, h1, h2⟩ := C28_triplet n hn sym
  obtain ⟨e', h1', h2'⟩ := C29_triplet n hn sym
  obtain rfl : e = e' := by rw [h1] at h1'; cases h1'; rfl
  refine ⟨e, h1, fun brk licence date hh h J T hs => ?_⟩
  obtain ⟨s1, -, s3, s4⟩ := writeEqns_shape _ _ _ _ h1
  have := run_file brk licence date e hh.1 hh.2 (by rw [s4]; simp [tripletIx]) (by rw [s3, s1])
    (h ++ J ++ T) _ _ (h2' h J T hs brk) (h2 h J T hs)
  exact ⟨this.2, this.1⟩

theorem isWritten_text (n : ℕ) (sym : Bool) (corr : List (List (List ℕ))) (date : List Char)
    (file : List (List Char)) (h : isWritten n sym corr date file = true) :
    ∃ e, writeEqns n sym corr = .ok e ∧
      joinLines file = fileText (numpyBreak sym) (some repoLicence) date e := by
  unfold isWritten at h
  cases hw : writeEqns n sym corr with
  | error err => rw [hw] at h; cases h
  | ok e =>
    rw [hw] at h
    exact ⟨e, rfl, by rw [of_decide_eq_true h]; rfl⟩

theorem repoLicence_plain : ∀ l ∈ repoLicence, '\n' ∉ l := by decide +kernel

theorem pairwiseFile_of (n : ℕ) (hn : 1 ≤ n) (sym : Bool) (date : List Char) (hd : '\n' ∉ date)
    (file : List (List Char)) (h : isWritten n sym (pairwiseIx n) date file = true) :
    PairwiseFile n sym (joinLines file) := by
  obtain ⟨e, h1, h2⟩ := isWritten_text n sym _ date file h
  obtain ⟨e', h1', h2'⟩ := C100_pairwise n hn sym
  obtain rfl : e = e' := by rw [h1] at h1'; cases h1'; rfl
  rw [h2]
  exact h2' _ _ _ ⟨fun ls hls => by cases hls; exact repoLicence_plain, hd⟩

theorem tripletFile_of (n : ℕ) (hn : 3 ≤ n) (sym : Bool) (date : List Char) (hd : '\n' ∉ date)
    (file : List (List Char)) (h : isWritten n sym (tripletIx n) date file = true) :
    TripletFile n sym (joinLines file) := by
  obtain ⟨e, h1, h2⟩ := isWritten_text n sym _ date file h
  obtain ⟨e', h1', h2'⟩ := C100_triplet n hn sym
  obtain rfl : e = e' := by rw [h1] at h1'; cases h1'; rfl
  rw [h2]
  exact h2' _ _ _ ⟨fun ls hls => by cases hls; exact repoLicence_plain, hd⟩

/-- C100. The files ising_eqn_2.py to ising_eqn_6.py shipped in coniii/ising_eqn ({0,1} spins). -/
theorem C100_shipped :
    PairwiseFile 2 false (joinLines ising_eqn_2) ∧ PairwiseFile 3 false (joinLines ising_eqn_3) ∧
    PairwiseFile 4 false (joinLines ising_eqn_4) ∧ PairwiseFile 5 false (joinLines ising_eqn_5) ∧
    PairwiseFile 6 false (joinLines ising_eqn_6) :=
  ⟨pairwiseFile_of 2 (by norm_num) _ _ (by decide) _ ising_eqn_2_text,
   pairwiseFile_of 3 (by norm_num) _ _ (by decide) _ ising_eqn_3_text,
   pairwiseFile_of 4 (by norm_num) _ _ (by decide) _ ising_eqn_4_text,
   pairwiseFile_of 5 (by norm_num) _ _ (by decide) _ ising_eqn_5_text,
   pairwiseFile_of 6 (by norm_num) _ _ (by decide) _ ising_eqn_6_text⟩

/-- C100. The files ising_eqn_2_sym.py to ising_eqn_6_sym.py ({-1,1} spins). -/
theorem C100_shipped_sym :
    PairwiseFile 2 true (joinLines ising_eqn_2_sym) ∧ PairwiseFile 3 true (joinLines ising_eqn_3_sym) ∧
    PairwiseFile 4 true (joinLines ising_eqn_4_sym) ∧ PairwiseFile 5 true (joinLines ising_eqn_5_sym) ∧
    PairwiseFile 6 true (joinLines ising_eqn_6_sym) :=
  ⟨pairwiseFile_of 2 (by norm_num) _ _ (by decide) _ ising_eqn_2_sym_text,
   pairwiseFile_of 3 (by norm_num) _ _ (by decide) _ ising_eqn_3_sym_text,
   pairwiseFile_of 4 (by norm_num) _ _ (by decide) _ ising_eqn_4_sym_text,
   pairwiseFile_of 5 (by norm_num) _ _ (by decide) _ ising_eqn_5_sym_text,
   pairwiseFile_of 6 (by norm_num) _ _ (by decide) _ ising_eqn_6_sym_text⟩

/-- C100. The files ising_eqn_5_triplet.py and ising_eqn_5_sym_triplet.py. -/
theorem C100_shipped_triplet :
    TripletFile 5 false (joinLines ising_eqn_5_triplet) ∧
    TripletFile 5 true (joinLines ising_eqn_5_sym_triplet) :=
  ⟨tripletFile_of 5 (by norm_num) _ _ (by decide) _ ising_eqn_5_triplet_text,
   tripletFile_of 5 (by norm_num) _ _ (by decide) _ ising_eqn_5_sym_triplet_text⟩

/-- Non-vacuity of C100: parameters of three spins, and a heading. -/
example : ([1, -2, 1/2] : List ℝ).length = 3 ∧ ([3, -1, 2] : List ℝ).length = 3 * (3 - 1) / 2 := by
  simp

example : PlainHeading (some repoLicence) (chars! "2019/09/19") :=
  ⟨fun ls hls => by cases hls; exact repoLicence_plain, by decide⟩

/-- The statements of ising_eqn_2.py as they are read from its text. -/
example : readModule (joinLines ising_eqn_2) = some
    ⟨[.zerosC 3, .slice 'H' 0 2, .slice 'J' 2 3,
      .energy (chars! "            +0, +H[1]+0, +H[0]+0, +H[0]+H[1]+J[0],"), .logZ,
      .num (chars! "0,0,1,1"), .setC 0, .num (chars! "0,1,0,1"), .setC 1, .num (chars! "0,0,0,1"), .setC 2,
      .nanC, .retC],
     [.zerosC 3, .slice 'H' 0 2, .slice 'J' 2 3, .slice 'H' 0 2, .slice 'J' 2 3, .zerosP 4,
      .energy (chars! "            +0, +H[1]+0, +H[0]+0, +H[0]+H[1]+J[0],"), .logZ,
      .setP 0 (chars! "+0"), .setP 1 (chars! "+H[1]+0"), .setP 2 (chars! "+H[0]+0"),
      .setP 3 (chars! "+H[0]+H[1]+J[0]"), .retP]⟩ := by decide +kernel

end Verif.Props
