/-
coniii/solvers.py: the objectives of MPF for the pairwise model in floating-point arithmetic.
-/
import Verif.Model.FloatPotts
import Verif.Model.Mpf

namespace Verif.Model
open Verif FlArith

/-- utils.py:934-943 `fast_sum(J, s)` for one row `s`: the terms `J[k]*s[i]*s[j]` are added from left to right. (Reading past the end
of `J`, which is not checked in compiled code, gives 0 here.) -/
noncomputable def fastSumFl (A : FlArith) (J : List Fl) (s : List ℤ) : Fl :=
  ((loopPairs s.length).foldl (fun (st : Fl × ℕ) p =>
    (A.add st.1 (A.mul (A.mul (J.getD st.2 (.num 0)) (.num (ent s p.1))) (.num (ent s p.2))), st.2 + 1)) (Fl.num 0, 0)).1

/-- utils.py:946-963 `calc_e(s, params)` for one row; `tE` is the order of `np.sum`. -/
noncomputable def isingCalcERowFl (A : FlArith) (tE : SumTree) (params : List Fl) (s : List ℤ) : Fl :=
  A.sub (neg (fastSumFl A (params.drop s.length) s))
    (A.treeSum (List.zipWith (fun (x : ℤ) p => A.mul (.num (x : ℝ)) p) s (params.take s.length)) tE)

/-- solvers.py:600-603 one row of `power`; `E` is the energy of a state. -/
noncomputable def mpfPowerRowFl (A : FlArith) (E : List ℤ → Fl) (m : ℕ) (it : MpfItem) : Py (List Fl) :=
  assignRow m (it.2.2.map fun t => A.mul (.num (1 / 2)) (A.sub (E it.1) (E t)))

/-- solvers.py:578-609 `logK` without a gradient (`calc_de` is `None`); `t` is the order in which `logsumexp` adds. The function of
scipy subtracts the largest number, adds the exponentials, takes the logarithm and adds the largest number again, as
`fast_logsumexp` does. -/
noncomputable def mpfLogKFl (A : FlArith) (t : SumTree) (E : List ℤ → Fl) (Xuniq : Data) (Xcount : List ℕ) (adjs : List Data) : Py Fl :=
  match adjs.head? with
  | none => .error .indexError
  | some a0 => match mpfItems Xuniq Xcount adjs with
    | .error e => .error e
    | .ok its => match its.mapM (mpfPowerRowFl A E a0.length) with
      | .error e => .error e
      | .ok power =>
        if Xcount.length ≠ Xuniq.length then .error .valueError
        else match fastLseFl A t (List.zipWith (fun row (c : ℕ) => row.map fun p =>
            A.sub (A.add p (A.log (.num (c : ℝ)))) (A.log (.num (Xcount.sum : ℝ)))) power Xcount).flatten none with
          | .error e => .error e
          | .ok z => .ok z.1

/-- solvers.py:530-531 `dobj`. -/
noncomputable def mpfDobjFl (A : FlArith) (E : List ℤ → Fl) (it : MpfItem) : List Fl :=
  it.2.2.map fun t => A.mul (.num (it.2.1 : ℝ)) (A.exp (A.mul (.num (1 / 2)) (A.sub (E it.1) (E t))))

/-- solvers.py:527-555 `K` without a gradient (`calc_de` is `None`); `t` is the order in which `dobj.sum()` adds. -/
noncomputable def mpfKFl (A : FlArith) (t : SumTree) (E : List ℤ → Fl) (Xuniq : Data) (Xcount : List ℕ) (adjs : List Data) : Py Fl :=
  match mpfItems Xuniq Xcount adjs with
  | .error e => .error e
  | .ok its => .ok (A.div (its.foldl (fun o it => A.add o (A.treeSum (mpfDobjFl A E it) t)) (.num 0)) (.num (Xcount.sum : ℝ)))

end Verif.Model
