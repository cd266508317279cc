/-
LICENSE.txt, and the comparison of a shipped equation file with the generator.
-/
import Verif.Model.EqnModule

namespace Verif.Model

/-- LICENSE.txt:1-21. -/
def repoLicence : List (List Char) :=
  [chars! "MIT License",
   [],
   chars! "Copyright (c) 2019 Edward D. Lee, Bryan C. Daniels",
   [],
   chars! "Permission is hereby granted, free of charge, to any person obtaining a copy",
   chars! "of this software and associated documentation files (the \"Software\"), to deal",
   chars! "in the Software without restriction, including without limitation the rights",
   chars! "to use, copy, modify, merge, publish, distribute, sublicense, and/or sell",
   chars! "copies of the Software, and to permit persons to whom the Software is",
   chars! "furnished to do so, subject to the following conditions:",
   [],
   chars! "The above copyright notice and this permission notice shall be included in all",
   chars! "copies or substantial portions of the Software.",
   [],
   chars! "THE SOFTWARE IS PROVIDED \"AS IS\", WITHOUT WARRANTY OF ANY KIND, EXPRESS OR",
   chars! "IMPLIED, INCLUDING BUT NOT LIMITED TO THE WARRANTIES OF MERCHANTABILITY,",
   chars! "FITNESS FOR A PARTICULAR PURPOSE AND NONINFRINGEMENT. IN NO EVENT SHALL THE",
   chars! "AUTHORS OR COPYRIGHT HOLDERS BE LIABLE FOR ANY CLAIM, DAMAGES OR OTHER",
   chars! "LIABILITY, WHETHER IN AN ACTION OF CONTRACT, TORT OR OTHERWISE, ARISING FROM,",
   chars! "OUT OF OR IN CONNECTION WITH THE SOFTWARE OR THE USE OR OTHER DEALINGS IN THE",
   chars! "SOFTWARE."]

/-- Where numpy breaks the lines of an array of 0 and 1 (37 entries in a line) and of an array of 1 and
-1 (24 entries). -/
def numpyBreak (sym : Bool) (i : ℕ) : Bool := if sym then i % 24 == 23 else i % 37 == 36

/-- Whether a text is what `write_py` writes for these constraints on that date. -/
def isWritten (n : ℕ) (sym : Bool) (corr : List (List (List ℕ))) (date : List Char) (file : List (List Char)) :
    Bool :=
  match writeEqns n sym corr with
  | .ok e => decide (file = fileLines (numpyBreak sym) (some repoLicence) date e)
  | .error _ => false

end Verif.Model
