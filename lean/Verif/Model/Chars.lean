/-
Notation for the list of the characters of a string literal, written out when the file is read (so
that the kernel sees the characters, and nothing has to be computed).
-/
import Lean.Elab.Term

namespace Verif

/-- `chars! "ab"` is `['a', 'b']`. -/
syntax (name := charsLit) "chars! " str : term

open Lean Elab Term Meta in
@[term_elab charsLit] def elabChars : TermElab := fun stx _ =>
  match stx[1].isStrLit? with
  | some s => return toExpr s.toList
  | none => throwUnsupportedSyntax

example : chars! "ab\n" = ['a', 'b', '\n'] := rfl

end Verif
