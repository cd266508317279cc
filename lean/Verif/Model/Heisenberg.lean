/-
Heisenberg model: coniii/samplers.py calc_e, grad_e, grad_e_theta, jit_sample, Heisenberg3DSampler.grad_E, cross,
sample_nearby_vector, jit_sample_nearby_vector.
-/
import Verif.Model.Index
import Verif.Model.Matrix
import Mathlib.Analysis.SpecialFunctions.Trigonometric.Arctan
import Mathlib.Analysis.SpecialFunctions.Trigonometric.Inverse
import Mathlib.Analysis.Real.Sqrt

namespace Verif.Model
open Verif Real

/-- Python `range(a, b, 2)`. -/
def pyRange2 (a b : ℕ) : List ℕ := (List.range ((b - a + 1) / 2)).map fun k => a + 2 * k

/-- The product of the spins at angle positions `i` and `j` (samplers.py:122-124, 162-163). -/
noncomputable def heisTerm (x : List ℝ) (i j : ℕ) : ℝ :=
  sin (rd x i) * sin (rd x j) * (cos (rd x (i + 1)) * cos (rd x (j + 1)) + sin (rd x (i + 1)) * sin (rd x (j + 1))) +
    cos (rd x i) * cos (rd x j)

/-- samplers.py:120-121 the double loop `for i in range(0,2*(n-1),2): for j in range(i+2,2*n,2)`. -/
def heisPairs (n : ℕ) : List (ℕ × ℕ) :=
  (pyRange2 0 (2 * (n - 1))).flatMap fun i => (pyRange2 (i + 2) (2 * n)).map fun j => (i, j)

/-- samplers.py:105-127 `calc_e(theta, x)`. Compiled without bounds checks there; the theorems carry the lengths. -/
noncomputable def heisCalcE (theta x : List ℝ) : ℝ :=
  -((heisPairs (x.length / 2)).foldl
    (fun (st : ℝ × ℕ) (p : ℕ × ℕ) => (st.1 + rd theta st.2 * heisTerm x p.1 p.2, st.2 + 1)) (0, 0)).1

/-- `g[i] += v`. -/
noncomputable def incAt (g : List ℝ) (i : ℕ) (v : ℝ) : List ℝ := g.set i (rd g i + v)

/-- samplers.py:139-147 the body of the loop of `grad_e`. -/
noncomputable def heisGradBody (theta x : List ℝ) (n : ℕ) (g : List ℝ) (i j : ℕ) : Py (List ℝ) :=
  if i ≠ j then
    match subToInd n ((i / 2 : ℕ) : ℤ) ((j / 2 : ℕ) : ℤ) with
    | .error e => .error e
    | .ok k =>
      let t := rd theta k.toNat
      let g := incAt g i (t * (cos (rd x i) * sin (rd x j) *
        (cos (rd x (i + 1)) * cos (rd x (j + 1)) + sin (rd x (i + 1)) * sin (rd x (j + 1))) - sin (rd x i) * cos (rd x j)))
      .ok (incAt g (i + 1) (t * (sin (rd x i) * sin (rd x j) *
        (-sin (rd x (i + 1)) * cos (rd x (j + 1)) + cos (rd x (i + 1)) * sin (rd x (j + 1))))))
  else .ok g

/-- samplers.py:129-148 `grad_e(theta, x)`. -/
noncomputable def heisGradE (theta x : List ℝ) : Py (List ℝ) :=
  let n := x.length / 2
  match (pyRange2 0 (2 * n)).foldlM (fun g i => (pyRange2 0 (2 * n)).foldlM (fun g j => heisGradBody theta x n g i j) g)
      (List.replicate x.length 0) with
  | .error e => .error e
  | .ok g => .ok (g.map fun v => -v)

/-- samplers.py:151-166 `grad_e_theta(theta, x)`. -/
noncomputable def heisGradTheta (theta x : List ℝ) : List ℝ :=
  ((heisPairs (x.length / 2)).foldl
    (fun (st : List ℝ × ℕ) (p : ℕ × ℕ) => (st.1.set st.2 (heisTerm x p.1 p.2), st.2 + 1))
    (List.replicate theta.length 0, 0)).1.map fun v => -v

/-- samplers.py:2266-2286 `Heisenberg3DSampler.grad_E(X)` with `self.Jmat = J`, for a state with two angles per
spin. (The constructor of the class raises NotImplementedError, samplers.py:2132.) -/
noncomputable def heis3dGradE (J X : Mat ℝ) : Mat ℝ :=
  (List.range X.length).map fun i => (List.range X.length).foldl (fun (g : List ℝ) (j : ℕ) =>
    if i ≠ j then
      [rd g 0 + -(J.at' i j * (cos (X.at' i 0) * sin (X.at' j 0) * cos (X.at' i 1 - X.at' j 1) -
          sin (X.at' i 0) * cos (X.at' j 0))),
        rd g 1 + J.at' i j * sin (X.at' j 0) * sin (X.at' i 1 - X.at' j 1)]
    else g) [0, 0]

/-! ### Leapfrog and Hamiltonian Monte Carlo -/

/-- `p -= dt*g/2.` -/
noncomputable def hmcKick (dt : ℝ) (g p : List ℝ) : List ℝ := List.zipWith (fun p g => p - dt * g / 2) p g

/-- `x += dt*p` -/
noncomputable def hmcDrift (dt : ℝ) (p x : List ℝ) : List ℝ := List.zipWith (fun x p => x + dt * p) x p

/-- samplers.py:2082-2087 the leapfrog loop: positions, momenta and gradient. The gradient function is a parameter. -/
noncomputable def leapfrog (grad : List ℝ → List ℝ) (dt : ℝ) : ℕ → List ℝ × List ℝ × List ℝ → List ℝ × List ℝ × List ℝ
  | 0, st => st
  | k + 1, (x, p, g) =>
    let p1 := hmcKick dt g p
    let x1 := hmcDrift dt p1 x
    let g1 := grad x1
    leapfrog grad dt k (x1, hmcKick dt g1 p1, g1)

/-- `(p*p).sum()/2.` -/
noncomputable def kinetic (p : List ℝ) : ℝ := (p.map fun a => a * a).sum / 2

/-- samplers.py:2070-2101 one round of the loop of `jit_sample`. The state is the array `x0` (to which `x` and `xnew`
are bound too, so that `xnew += dt*p` changes all three), the stored energy and the stored gradient. `r` is the row of
normal numbers, `u` the uniform number. -/
noncomputable def jitRound (energy : List ℝ → ℝ) (grad : List ℝ → List ℝ) (dt : ℝ) (leapfrogN : ℕ)
    (r : List ℝ) (u : ℝ) (st : List ℝ × ℝ × List ℝ) : List ℝ × ℝ × List ℝ :=
  let H := kinetic r + st.2.1
  let out := leapfrog grad dt leapfrogN (st.1, r, st.2.2)
  let Enew := energy out.1
  let dH := kinetic out.2.1 + Enew - H
  if dH < 0 ∨ u < exp (-dH) then (out.1, Enew, out.2.2) else (out.1, st.2.1, st.2.2)

/-- samplers.py:2050-2101 `jit_sample`: what the array `x0` holds afterwards (nothing is returned). -/
noncomputable def jitSample (energy : List ℝ → ℝ) (grad : List ℝ → List ℝ) (dt : ℝ) (leapfrogN : ℕ)
    (draws : List (List ℝ × ℝ)) (x0 : List ℝ) : List ℝ :=
  (draws.foldl (fun st d => jitRound energy grad dt leapfrogN d.1 d.2 st) (x0, energy x0, grad x0)).1

/-! ### Nearby vectors -/

/-- samplers.py:2341-2359 `cross(vec1, vec2)`. -/
def cross3 (a b : List ℝ) : List ℝ :=
  [rd a 1 * rd b 2 - rd a 2 * rd b 1, rd a 2 * rd b 0 - rd a 0 * rd b 2, rd a 0 * rd b 1 - rd a 1 * rd b 0]

/-- samplers.py:2202-2208 the polar angles of `v` in `sample_nearby_vector`; `none` stands for NaN (both angles are
NaN or meaningless if `r` is 0). -/
noncomputable def polarAngles (v : List ℝ) : Option (ℝ × ℝ) :=
  let r := sqrt (rd v 0 * rd v 0 + rd v 1 * rd v 1)
  if r = 0 then none
  else
    let otheta := π / 2 - arctan (rd v 2 / r)
    if rd v 1 ≥ 0 then some (otheta, arccos (rd v 0 / r)) else some (otheta, 2 * π - arccos (rd v 0 / r))

/-- samplers.py:2373-2376 the random vector about the z axis. -/
noncomputable def aboutZ (theta phi : ℝ) : List ℝ := [sin theta * cos phi, sin theta * sin phi, cos theta]

/-- samplers.py:2379-2386 the rotation of `r` by `otheta` about the horizontal axis at azimuth `ophi + π/2`. -/
noncomputable def rotateTo (otheta ophi : ℝ) (r : List ℝ) : List ℝ :=
  let k := [-sin ophi, cos ophi, 0]
  let c := cross3 k r
  let d := rd k 0 * rd r 0 + rd k 1 * rd r 1 + rd k 2 * rd r 2
  (List.range 3).map fun j => rd r j * cos otheta + rd c j * sin otheta + rd k j * d * (1 - cos otheta)

/-- samplers.py:2361-2387 `jit_sample_nearby_vector`, given the normal and uniform numbers it draws. With `sigma == 0`
there is a single polar angle, and reading beyond it is an error (undefined there, the bounds are not checked). -/
noncomputable def nearbyVectors (normals uniforms : List ℝ) (nSamples : ℕ) (otheta ophi sigma : ℝ) :
    Py (List (List ℝ)) :=
  let theta := if sigma = 0 then [0] else (List.range nSamples).map fun i => rd normals i * sigma
  let phi := (List.range nSamples).map fun i => rd uniforms i * 2 * π
  if theta.length < nSamples then .error .indexError
  else .ok ((List.range nSamples).map fun i => rotateTo otheta ophi (aboutZ (rd theta i) (rd phi i)))

end Verif.Model
