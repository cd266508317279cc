/-
C126: the command line of coniii/enumerate.py, and the modules in high precision.
-/
import Verif.Lemmas.EqnMain
import Verif.Props.EqnModule

namespace Verif.Props
open Verif Verif.Model Verif.Spec Verif.Lemmas

/-- What the functions `p` and `calc_observables` of a module must compute for interactions up to order two. -/
def ComputesPairwise (n : ℕ) (sym : Bool) (p obs : List ℝ → Py (Option (List ℝ))) : Prop :=
  ∀ h J : List ℝ, h.length = n → J.length = n * (n - 1) / 2 →
    p (h ++ J) = .ok (some ((words (spinValues sym) n).map
      (boltzmann (words (spinValues sym) n) fun s => isingVecE n h J (spins s)))) ∧
    obs (h ++ J) = .ok (some
      ((List.range n).map (fun i => expect (words (spinValues sym) n)
          (fun s => isingVecE n h J (spins s)) fun s => spins s i) ++
        (upperPairs n).map fun q => expect (words (spinValues sym) n)
          (fun s => isingVecE n h J (spins s)) fun s => spins s q.1 * spins s q.2))

/-- The same up to order three. -/
def ComputesTriplet (n : ℕ) (sym : Bool) (p obs : List ℝ → Py (Option (List ℝ))) : Prop :=
  ∀ h J T : List ℝ, PolyShape n [h, J, T] →
    p (h ++ J ++ T) = .ok (some ((words (spinValues sym) n).map
      (boltzmann (words (spinValues sym) n) fun s => polyE n [h, J, T] (spins s)))) ∧
    obs (h ++ J ++ T) = .ok (some
      ((tuples n 1 ++ tuples n 2 ++ tuples n 3).map fun t =>
        expect (words (spinValues sym) n) (fun s => polyE n [h, J, T] (spins s)) fun s => mono (spins s) t))

/-- One of the two. -/
def Computes (n : ℕ) (sym triplet : Bool) (p obs : List ℝ → Py (Option (List ℝ))) : Prop :=
  if triplet then ComputesTriplet n sym p obs else ComputesPairwise n sym p obs

/-- The name of the file as documented. -/
def documentedName (n : ℕ) (sym triplet hp : Bool) : List Char :=
  chars! "ising_eqn/ising_eqn_" ++ natText n ++ (if sym then chars! "_sym" else []) ++
    (if triplet then chars! "_triplet" else []) ++ (if hp then chars! "_hp" else []) ++ chars! ".py"

/-- The command line as a mixture of arguments and of options, which begin with a dash. -/
inductive Mixture : List (List Char) → List (List Char) → List (List Char) → Prop
  | nil : Mixture [] [] []
  | arg (c : Char) (w : List Char) (l args opts : List (List Char)) : c ≠ '-' → Mixture l args opts →
      Mixture ((c :: w) :: l) ((c :: w) :: args) opts
  | opt (w : List Char) (l args opts : List (List Char)) : Mixture l args opts →
      Mixture (('-' :: w) :: l) args (('-' :: w) :: opts)

/-- The documented arguments: a size, then perhaps the basis, then perhaps the order. -/
inductive Request : List (List Char) → ℕ → Bool → Bool → Prop
  | size (n : ℕ) : Request [natText n] n false false
  | basis (n : ℕ) (sym : Bool) : Request [natText n, if sym then ['1'] else ['0']] n sym false
  | order (n : ℕ) (sym triplet : Bool) :
      Request [natText n, if sym then ['1'] else ['0'], if triplet then ['3'] else ['2']] n sym triplet

/-- The precision asked for: what the first option says, if it is `-hp=`. -/
inductive Precision : List (List Char) → Bool → Prop
  | default : Precision [] false
  | hp (v : List Char) (rest : List (List Char)) (b : Bool) :
      v.map Char.toLower = (if b then chars! "true" else chars! "false") → Precision ((chars! "-hp=" ++ v) :: rest) b
  | other (w : List Char) (rest : List (List Char)) : ¬ chars! "-hp=" <+: w → Precision (w :: rest) false

theorem mixture_filter {l args opts : List (List Char)} (h : Mixture l args opts) :
    firstChars l = .ok () ∧ (l.filter fun w => w.head? ≠ some '-') = args ∧ (l.filter fun w => w.head? = some '-') = opts := by
  have : [] ∉ l ∧ (l.filter fun w => w.head? ≠ some '-') = args ∧ (l.filter fun w => w.head? = some '-') = opts := by
    induction h with
    | nil => simp
    | arg c w l args opts hc _ ih =>
      obtain ⟨h1, h2, h3⟩ := ih
      refine ⟨by simp [h1], ?_, ?_⟩
      · rw [List.filter_cons_of_pos (by simp [hc]), h2]
      · rw [List.filter_cons_of_neg (by simp [hc]), h3]
    | opt w l args opts _ ih =>
      obtain ⟨h1, h2, h3⟩ := ih
      refine ⟨by simp [h1], ?_, ?_⟩
      · rw [List.filter_cons_of_neg (by simp), h2]
      · rw [List.filter_cons_of_pos (by simp), h3]
  exact ⟨by unfold firstChars; rw [if_neg this.1], this.2⟩

theorem pyInt_bit (b : Bool) : pyInt (if b then ['1'] else ['0']) = .ok (if b then 1 else 0) := by
  cases b <;> rfl

theorem pyInt_order (b : Bool) : pyInt (if b then ['3'] else ['2']) = .ok (if b then 3 else 2) := by
  cases b <;> rfl

theorem mainArgs_request (prog : List Char) {args : List (List Char)} {n : ℕ} {sym triplet : Bool}
    (h : Request args n sym triplet) :
    mainArgs (prog :: args) = .ok ((n : ℤ), (if sym then 1 else 0), (if triplet then 3 else 2)) := by
  cases h with
  | size => simp [mainArgs, pyInt_natText, bind, Except.bind]
  | basis =>
    simp only [mainArgs, pyInt_natText, pyInt_bit, bind, Except.bind]
    cases sym <;> rfl
  | order =>
    simp only [mainArgs, pyInt_natText, pyInt_bit, pyInt_order, bind, Except.bind]

theorem mainHp_precision {opts : List (List Char)} {b : Bool} (h : Precision opts b) : mainHp opts = .ok b := by
  cases h with
  | default => rfl
  | hp v rest b hv =>
    have h1 : (chars! "-hp=" ++ v).take 4 = chars! "-hp=" := by simp
    have h2 : (chars! "-hp=" ++ v).drop 4 = v := by simp
    rw [mainHp, if_pos h1, h2, hv]
    cases b <;> decide
  | other w rest hw =>
    rw [mainHp, if_neg]
    intro h
    exact hw ⟨w.drop 4, by rw [← h]; exact List.take_append_drop 4 w⟩

theorem computes_file (f : EqnFile) (n : ℕ) (sym triplet : Bool)
    (hf : writeEqns n sym (if triplet then tripletIx n else pairwiseIx n) = .ok f.eqns) (hn : 1 ≤ n) (h3 : triplet = true → 3 ≤ n)
    (brk : ℕ → Bool) (licence : Option (List (List Char))) (date : List Char) (hh : PlainHeading licence date) :
    Computes n sym triplet (runHpP (f.text brk licence date)) (runHpObservables (f.text brk licence date)) := by
  cases triplet with
  | false =>
    simp only [Computes, Bool.false_eq_true, if_false] at hf ⊢
    obtain ⟨e, h1, h2⟩ := pairwise_module n hn sym
    obtain rfl : e = f.eqns := by rw [h1] at hf; cases hf; rfl
    intro h J hlh hlJ
    obtain ⟨s1, -, s3, s4⟩ := writeEqns_shape _ _ _ _ h1
    have := run_any_file brk licence date f hh.1 hh.2 (by rw [s4]; simp [pairwiseIx]) (by rw [s3, s1])
      (h ++ J) _ _ ((h2 h J hlh hlJ).2 brk) (h2 h J hlh hlJ).1
    exact ⟨this.2, this.1⟩
  | true =>
    simp only [Computes, if_true] at hf ⊢
    obtain ⟨e, h1, h2⟩ := C28_triplet n (h3 rfl) sym
    obtain ⟨e', h1', h2'⟩ := C29_triplet n (h3 rfl) sym
    obtain rfl : e = e' := by rw [h1] at h1'; cases h1'; rfl
    obtain rfl : e = f.eqns := by rw [h1] at hf; cases hf; rfl
    intro h J T hs
    obtain ⟨s1, -, s3, s4⟩ := writeEqns_shape _ _ _ _ h1
    have := run_any_file brk licence date f hh.1 hh.2 (by rw [s4]; simp [tripletIx]) (by rw [s3, s1])
      (h ++ J ++ T) _ _ (h2' h J T hs brk) (h2 h J T hs)
    exact ⟨this.2, this.1⟩

/-- C126. The modules in high precision: the file that is written can be imported; its `p` and its `calc_observables` compute
the Boltzmann distribution and the expectations of the pairwise model, for every number of spins, in both bases. -/
theorem C126_high_precision_pairwise (n : ℕ) (hn : 1 ≤ n) (sym : Bool) :
    ∃ e, writeEqns n sym (pairwiseIx n) = .ok e ∧ ∀ brk licence date, PlainHeading licence date →
      ComputesPairwise n sym (runHpP (hpFileText brk licence date e)) (runHpObservables (hpFileText brk licence date e)) := by
  obtain ⟨e, h1, -⟩ := pairwise_module n hn sym
  exact ⟨e, h1, fun brk licence date hh => computes_file ⟨[], true, e⟩ n sym false h1 hn (by simp) brk licence date hh⟩

/-- C126. The same with triplets. -/
theorem C126_high_precision_triplet (n : ℕ) (hn : 3 ≤ n) (sym : Bool) :
    ∃ e, writeEqns n sym (tripletIx n) = .ok e ∧ ∀ brk licence date, PlainHeading licence date →
      ComputesTriplet n sym (runHpP (hpFileText brk licence date e)) (runHpObservables (hpFileText brk licence date e)) := by
  obtain ⟨e, h1, -⟩ := C28_triplet n hn sym
  exact ⟨e, h1, fun brk licence date hh => computes_file ⟨[], true, e⟩ n sym true h1 (by omega) (fun _ => hn) brk licence date hh⟩

theorem pairwiseFileOf_ok (n : ℕ) (hn : 1 ≤ n) (sym hp : Bool) :
    ∃ f, pairwiseFileOf n (if sym then 1 else 0) hp = .ok f ∧ f.name = documentedName n sym false hp ∧ f.hp = hp ∧
      writeEqns n sym (pairwiseIx n) = .ok f.eqns := by
  obtain ⟨e, h1, -⟩ := pairwise_module n hn sym
  refine ⟨⟨documentedName n sym false hp, hp, e⟩, ?_, rfl, rfl, h1⟩
  cases sym <;> simp [pairwiseFileOf, h1, eqnFileName, documentedName]

theorem tripletFileOf_ok (n : ℕ) (hn : 3 ≤ n) (sym hp : Bool) :
    ∃ f, tripletFileOf n (if sym then 1 else 0) hp = .ok f ∧ f.name = documentedName n sym true hp ∧ f.hp = hp ∧
      writeEqns n sym (tripletIx n) = .ok f.eqns := by
  obtain ⟨e, h1, -⟩ := C28_triplet n hn sym
  refine ⟨⟨documentedName n sym true hp, hp, e⟩, ?_, rfl, rfl, h1⟩
  cases sym <;> simp [tripletFileOf, h1, eqnFileName, documentedName]

/-- C126. The documented command lines: whatever the options and wherever they stand, the file has the documented name, is
written in the precision that the first option asks for, and computes the model of that size, basis and order. -/
theorem C126_command (argv args opts : List (List Char)) (prog : List Char) (n : ℕ) (sym triplet hp : Bool)
    (hm : Mixture argv (prog :: args) opts) (hr : Request args n sym triplet) (hp' : Precision opts hp)
    (hn : 1 ≤ n) (h3 : triplet = true → 3 ≤ n) :
    ∃ f, eqnMain argv = .ok f ∧ f.name = documentedName n sym triplet hp ∧ f.hp = hp ∧
      ∀ brk licence date, PlainHeading licence date →
        Computes n sym triplet (runHpP (f.text brk licence date)) (runHpObservables (f.text brk licence date)) := by
  obtain ⟨m1, m2, m3⟩ := mixture_filter hm
  have hmain : eqnMain argv = if triplet then tripletFileOf n (if sym then 1 else 0) hp else
      pairwiseFileOf n (if sym then 1 else 0) hp := by
    unfold eqnMain
    rw [m1]
    simp only [bind, Except.bind]
    rw [m2, m3, mainArgs_request prog hr, mainHp_precision hp']
    cases triplet <;> simp
  cases triplet with
  | false =>
    obtain ⟨f, h1, h2, h3', h4⟩ := pairwiseFileOf_ok n hn sym hp
    exact ⟨f, by rw [hmain]; exact h1, h2, h3', fun brk licence date hh => computes_file f n sym false h4 hn h3 brk licence date hh⟩
  | true =>
    obtain ⟨f, h1, h2, h3', h4⟩ := tripletFileOf_ok n (h3 rfl) sym hp
    exact ⟨f, by rw [hmain]; exact h1, h2, h3', fun brk licence date hh => computes_file f n sym true h4 hn h3 brk licence date hh⟩

theorem tripletIx_small (n : ℕ) (hn : n < 3) (sym : Bool) : writeEqns n sym (tripletIx n) = .error .attributeError := by
  interval_cases n <;> cases sym <;> decide +kernel

/-- C126. Nothing else is ever written: whatever the command line, if a file is written then for some size, basis, order and
precision it has the documented name, and it computes that model (unless the size is zero). -/
theorem C126_only_right_files (argv : List (List Char)) (f : EqnFile) (h : eqnMain argv = .ok f) :
    ∃ n sym triplet, f.name = documentedName n sym triplet f.hp ∧ (triplet = true → 3 ≤ n) ∧
      (1 ≤ n → ∀ brk licence date, PlainHeading licence date →
        Computes n sym triplet (runHpP (f.text brk licence date)) (runHpObservables (f.text brk licence date))) := by
  have hP : ∀ (n sym : ℤ) (hp : Bool), pairwiseFileOf n sym hp = .ok f →
      ∃ n sym triplet, f.name = documentedName n sym triplet f.hp ∧ (triplet = true → 3 ≤ n) ∧
      (1 ≤ n → ∀ brk licence date, PlainHeading licence date →
        Computes n sym triplet (runHpP (f.text brk licence date)) (runHpObservables (f.text brk licence date))) := by
    intro n sym hp h
    unfold pairwiseFileOf at h
    by_cases hs : sym = 0 ∨ sym = 1
    swap
    · rw [if_neg hs] at h; cases h
    by_cases hn : n < 0
    · rw [if_pos hs, if_pos hn] at h; cases h
    rw [if_pos hs, if_neg hn] at h
    refine ⟨n.toNat, decide (sym = 1), false, ?_, by simp, ?_⟩
    · split at h
      · cases h
      · cases h
        by_cases h1 : sym = 1 <;> simp [eqnFileName, documentedName, h1]
    · split at h
      · cases h
      · rename_i e he
        cases h
        exact fun hn brk licence date hh => computes_file _ _ _ false he hn (by simp) brk licence date hh
  have hT : ∀ (n sym : ℤ) (hp : Bool), tripletFileOf n sym hp = .ok f →
      ∃ n sym triplet, f.name = documentedName n sym triplet f.hp ∧ (triplet = true → 3 ≤ n) ∧
      (1 ≤ n → ∀ brk licence date, PlainHeading licence date →
        Computes n sym triplet (runHpP (f.text brk licence date)) (runHpObservables (f.text brk licence date))) := by
    intro n sym hp h
    unfold tripletFileOf at h
    by_cases hs : sym = 0 ∨ sym = 1
    swap
    · rw [if_neg hs] at h; cases h
    by_cases hn : n < 0
    · rw [if_pos hs, if_pos hn] at h; cases h
    rw [if_pos hs, if_neg hn] at h
    have h3 : 3 ≤ n.toNat := by
      by_contra hc
      rw [tripletIx_small _ (by omega)] at h
      cases h
    refine ⟨n.toNat, decide (sym = 1), true, ?_, fun _ => h3, ?_⟩
    · split at h
      · cases h
      · cases h
        by_cases h1 : sym = 1 <;> simp [eqnFileName, documentedName, h1]
    · split at h
      · cases h
      · rename_i e he
        cases h
        exact fun hn brk licence date hh => computes_file _ _ _ true he hn (fun _ => h3) brk licence date hh
  unfold eqnMain at h
  cases h1 : firstChars argv with
  | error e => rw [h1] at h; cases h
  | ok u =>
    rw [h1] at h
    simp only [bind, Except.bind] at h
    split at h
    · cases h
    · split at h
      · cases h
      · split_ifs at h
        · exact hP _ _ _ h
        · exact hT _ _ _ h

/-- C126. What is refused. An empty word; no size; a size that is no number; a basis other than 0 or 1; an order other than 2
or 3; a fourth argument; another value of `-hp=`; triplets of fewer than three spins. -/
theorem C126_refused (argv args opts : List (List Char)) (prog a : List Char) (n : ℕ) (sym hp : Bool)
    (hm : Mixture argv args opts) :
    eqnMain ([] :: argv) = .error .indexError ∧
    (args = [prog] → eqnMain argv = .error .indexError) ∧
    (∀ rest, args = prog :: a :: rest → pyInt a = .error .valueError → eqnMain argv = .error .valueError) ∧
    (∀ k : ℕ, 2 ≤ k → args = [prog, natText n, natText k] → eqnMain argv = .error .assertion) ∧
    (∀ k : ℕ, 2 ≤ k → args = [prog, natText n, natText k, ['2']] → Precision opts hp → eqnMain argv = .error .assertion) ∧
    (∀ k : ℕ, k ≠ 2 → k ≠ 3 → args = [prog, natText n, if sym then ['1'] else ['0'], natText k] → Precision opts hp →
      eqnMain argv = .error .notImplemented) ∧
    (∀ b c d rest, args = prog :: natText n :: b :: c :: d :: rest → eqnMain argv = .error .exception) ∧
    (∀ triplet v rest, args = prog :: rest → Request rest n sym triplet → opts.head? = some (chars! "-hp=" ++ v) →
      v.map Char.toLower ≠ chars! "true" → v.map Char.toLower ≠ chars! "false" → eqnMain argv = .error .exception) ∧
    (∀ rest, args = prog :: rest → Request rest n sym true → n < 3 → Precision opts hp →
      eqnMain argv = .error .attributeError) := by
  obtain ⟨m1, m2, m3⟩ := mixture_filter hm
  have hmain : eqnMain argv = (do
      let a ← mainArgs args
      let hp ← mainHp opts
      if a.2.2 = 2 then pairwiseFileOf a.1 a.2.1 hp
      else if a.2.2 = 3 then tripletFileOf a.1 a.2.1 hp
      else .error .notImplemented) := by
    unfold eqnMain
    rw [m1]
    simp only [bind, Except.bind]
    rw [m2, m3]
  rw [hmain]
  refine ⟨by simp [eqnMain, firstChars, bind, Except.bind], ?_, ?_, ?_, ?_, ?_, ?_, ?_, ?_⟩
  · rintro rfl; rfl
  · rintro rest rfl ha
    simp [mainArgs, ha, bind, Except.bind]
  · rintro k hk rfl
    have : ¬ ((k : ℤ) = 0 ∨ (k : ℤ) = 1) := by omega
    simp only [mainArgs, pyInt_natText, bind, Except.bind, if_neg this]
  · rintro k hk rfl hP
    have : ¬ ((k : ℤ) = 0 ∨ (k : ℤ) = 1) := by omega
    simp only [mainArgs, pyInt_natText, show pyInt ['2'] = .ok 2 from rfl, bind, Except.bind, mainHp_precision hP]
    rw [if_pos trivial, pairwiseFileOf, if_neg this]
  · rintro k h2 h3 rfl hP
    simp only [mainArgs, pyInt_natText, pyInt_bit, bind, Except.bind, mainHp_precision hP]
    rw [if_neg (by omega), if_neg (by omega)]
  · rintro b c d rest rfl
    simp only [mainArgs, pyInt_natText, bind, Except.bind]
  · rintro triplet v rest rfl hr ho hv hv'
    rw [mainArgs_request prog hr]
    simp only [bind, Except.bind]
    cases opts with
    | nil => cases ho
    | cons k ks =>
      simp only [List.head?_cons, Option.some.injEq] at ho
      subst ho
      have h1 : (chars! "-hp=" ++ v).take 4 = chars! "-hp=" := by simp
      have h2 : (chars! "-hp=" ++ v).drop 4 = v := by simp
      rw [mainHp, if_pos h1, h2, if_neg hv, if_neg hv']
  · rintro rest rfl hr hn hP
    rw [mainArgs_request prog hr, mainHp_precision hP]
    simp only [bind, Except.bind]
    cases sym <;> simp [tripletFileOf, tripletIx_small n hn]

/-- C126. Two traps. A request for high precision that is not the first option is ignored. And a negative number counts as an
option: with `-3 1` the program writes the equations of one spin. -/
theorem C126_traps :
    (∀ (argv args opts : List (List Char)) (prog w : List Char) (n : ℕ) (sym triplet : Bool),
      Mixture argv (prog :: args) (w :: opts) → Request args n sym triplet → ¬ chars! "-hp=" <+: w → chars! "-hp=true" ∈ opts →
      1 ≤ n → (triplet = true → 3 ≤ n) →
      ∃ f, eqnMain argv = .ok f ∧ f.name = documentedName n sym triplet false ∧ f.hp = false) ∧
    ∃ f, eqnMain [chars! "enumerate.py", chars! "-3", chars! "1"] = .ok f ∧ f.name = chars! "ising_eqn/ising_eqn_1.py" := by
  constructor
  · intro argv args opts prog w n sym triplet hm hr hw _ hn h3
    obtain ⟨f, h1, h2, h4, -⟩ := C126_command argv args _ prog n sym triplet false hm hr (.other w opts hw) hn h3
    exact ⟨f, h1, h2, h4⟩
  · obtain ⟨f, h1, h2, -⟩ := C126_command [chars! "enumerate.py", chars! "-3", chars! "1"] [natText 1] [chars! "-3"]
      (chars! "enumerate.py") 1 false false false (by rw [natText_one]; exact .arg _ _ _ _ _ (by decide) (.opt _ _ _ _ (.arg _ _ _ _ _ (by decide) .nil)))
      (.size 1) (.other _ _ (by decide)) le_rfl (by simp)
    refine ⟨f, h1, ?_⟩
    rw [h2, documentedName, natText_one]
    rfl

/-- The last example of the docstring: `python enumerate.py 3 0 3 -hp=true`. -/
example : ∃ f, eqnMain [chars! "enumerate.py", ['3'], ['0'], ['3'], chars! "-hp=true"] = .ok f ∧
    f.name = chars! "ising_eqn/ising_eqn_3_triplet_hp.py" ∧ f.hp = true := by
  have h3 : natText 3 = ['3'] := by simp [natText]; decide
  obtain ⟨f, h1, h2, h4, -⟩ := C126_command [chars! "enumerate.py", ['3'], ['0'], ['3'], chars! "-hp=true"]
    [natText 3, ['0'], ['3']] [chars! "-hp=true"] (chars! "enumerate.py") 3 false true true
    (by rw [h3]; exact .arg _ _ _ _ _ (by decide) (.arg _ _ _ _ _ (by decide) (.arg _ _ _ _ _ (by decide)
          (.arg _ _ _ _ _ (by decide) (.opt _ _ _ _ .nil)))))
    (.order 3 false true) (.hp (chars! "true") [] true (by decide)) (by norm_num) (by norm_num)
  refine ⟨f, h1, ?_, h4⟩
  rw [h2, documentedName, h3]
  rfl

/-- Words that are no numbers. -/
example : pyInt (chars! "three") = .error .valueError ∧ pyInt [' '] = .error .valueError ∧ pyInt (chars! "1_") = .error .valueError := by
  decide

end Verif.Props
