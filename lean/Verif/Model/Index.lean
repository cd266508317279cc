/-
Model of the index arithmetic of coniii/utils.py.
-/
import Verif.Basic
import Mathlib.Data.Nat.Choose.Basic

namespace Verif.Model

/-- utils.py:16-48 `sub_to_ind(n, i, j)`. The sum loop is written as the sum over the same
range; integers as in Python (no overflow). -/
def subToInd (n i j : ℤ) : Py ℤ :=
  if i < j then
    let k := ((pyRangeZ 1 (i + 2)).map fun l => n - l).sum
    if k ≥ 0 then .ok (k - n + j) else .error .assertion
  else if i > j then
    let k := ((pyRangeZ 1 (j + 2)).map fun l => n - l).sum
    if k ≥ 0 then .ok (k - n + i) else .error .assertion
  else .error .exception

/-- utils.py:68-69 the order in which the double loop
`for i in range(n-1): for j in range(i+1,n)` visits the pairs. The same double loop occurs all
over the package. -/
def loopPairs (n : ℕ) : List (ℕ × ℕ) :=
  (pyRange 0 (n - 1)).flatMap fun i => (pyRange (i + 1) n).map fun j => (i, j)

/-- utils.py:67-72 the scan of `ind_to_sub`: `k` counts the visited pairs, the first pair
visited with `k == ix` is returned, and falling off the end returns `None`. -/
def indToSubScan (ix : ℕ) : List (ℕ × ℕ) → ℕ → Option (ℕ × ℕ)
  | [], _ => none
  | p :: rest, k => if k = ix then some p else indToSubScan ix rest (k + 1)

/-- utils.py:50-72 `ind_to_sub(n, ix)`. -/
def indToSub (n ix : ℕ) : Option (ℕ × ℕ) := indToSubScan ix (loopPairs n) 0

/-- `itertools.combinations(l, k)`: recursion on the list of choices, first choice first
(library call used at utils.py:181,243,453,460 and elsewhere). -/
def combos {α : Type*} : ℕ → List α → List (List α)
  | 0, _ => [[]]
  | _ + 1, [] => []
  | k + 1, x :: xs => (combos k xs).map (x :: ·) ++ combos (k + 1) xs

/-- utils.py:485-516 `unravel_index(ijk, n)` for a tuple of naturals. `binom` is exact
(scipy's float binomial rounded down is taken to be the exact integer). -/
def unravelIndex (ijk : List ℕ) (n : ℕ) : Py ℕ :=
  match ijk with
  | [] => .error .indexError
  | [i] => .ok i
  | _ =>
    let len := ijk.length
    if ¬ (∀ d ∈ pyRange 1 len, rd ijk (d - 1) < rd ijk d) then .error .assertion
    else if ¬ (∀ i ∈ ijk, i < n) then .error .assertion
    else
      let ix0 := ((pyRange 0 (rd ijk 0)).map fun i => (n - 1 - i).choose (len - 1)).sum
      let ix1 := (pyRange 1 (len - 1)).foldl (fun ix d =>
        if rd ijk d - rd ijk (d - 1) > 1 then
          ix + ((pyRange (rd ijk (d - 1) + 1) (rd ijk d)).map
            fun i => (n - i - 1).choose (len - d - 1)).sum
        else ix) ix0
      .ok (ix1 + (rd ijk (len - 1) - rd ijk (len - 2) - 1))

end Verif.Model
