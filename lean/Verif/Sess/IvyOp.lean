import Verif.Sess.OutModel

/-!
# The lines of the operator `ivy`

`eval` (`run/run.go:104-129`), which `IvyEval` (`:28-38`) calls.
-/

namespace Verif.Sess.Out
variable {ν : Type}

/-- A line of the text: what is written while it is read and evaluated (by `print` and commands), and its values: none for blank lines, comments, commands and definitions,
for which `Line` gives nil (`parse/parse.go:157-171`). -/
structure Line (ν : Type) where
  out : List Char
  vals : List (V ν)

/-- `run/run.go:109-128`: the loop of `eval`, with `prevValues`; what is written, and the result, which may be nil. Simplified: no errors, no `)debug types`. -/
def evalLoop (text : ν → List Char) : List (Line ν) → List (V ν) → List Char × Option (V ν)
  | [], prev =>
    if prev.isEmpty then ([], none)
    else ((printValues false (fun _ => []) text prev.dropLast).1, prev.getLast?)
  | l :: ls, prev =>
    let r := evalLoop text ls l.vals
    (l.out ++ (printValues false (fun _ => []) text prev).1 ++ r.1, r.2)

/-- `run/run.go:104-108`: `eval`. -/
def eval (text : ν → List Char) (ls : List (Line ν)) : List Char × Option (V ν) := evalLoop text ls []

end Verif.Sess.Out
