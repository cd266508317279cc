/-
Programs that draw random numbers. Not a piece of coniii: the random generators the samplers use
(`np.random.RandomState`, `std::mt19937_64`) are represented by the two draws below, and a sampler is a
tree of draws. Verif/Spec/Rand.lean says what such a tree returns for a given generator and what its
expectations are for ideal random numbers.
-/
import Verif.Basic
import Mathlib.Data.Real.Basic

namespace Verif.Model
open Verif

/-- A program with random draws: it returns, raises, draws an integer uniformly from `0, ..., n`, or
draws a real number uniformly from `[0, 1)`. -/
inductive Prog (α : Type) : Type
  | ret (a : α)
  | fail (e : PyErr)
  | unif (n : ℕ) (k : ℕ → Prog α)
  | rand (k : ℝ → Prog α)

namespace Prog
variable {α β ι σ : Type}

/-- One program after another. -/
def bind : Prog α → (α → Prog β) → Prog β
  | ret a, f => f a
  | fail e, _ => fail e
  | unif n k, f => unif n fun i => (k i).bind f
  | rand k, f => rand fun u => (k u).bind f

instance : Monad Prog where
  pure := ret
  bind := bind

/-- A computation that may raise but draws nothing. -/
def ofPy : Py α → Prog α
  | .error e => fail e
  | .ok a => ret a

/-- `rng.randint(n)`: an integer from `0, ..., n-1`; numpy raises ValueError for `n <= 0`. -/
def randint (n : ℕ) : Prog ℕ :=
  match n with
  | 0 => fail .valueError
  | n + 1 => unif n ret

/-- `rng.rand()`. -/
def rand01 : Prog ℝ := rand ret

/-- `for i in l: state = body(i, state)`. -/
def forEach (body : ι → σ → Prog σ) : List ι → σ → Prog σ
  | [], s => ret s
  | i :: l, s => (body i s).bind (forEach body l)

/-- `[f(i) for i in l]`. -/
def mapEach (f : ι → Prog α) : List ι → Prog (List α)
  | [] => ret []
  | i :: l => (f i).bind fun a => (mapEach f l).bind fun as => ret (a :: as)

end Prog
end Verif.Model
