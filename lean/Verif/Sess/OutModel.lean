/-!
# Printing the values of a line

`printValues` (`run/run.go:131-163`) and what `Run` does with its result (`run/run.go:78-92`). How a value is printed and the name of its type are parameters.
-/

namespace Verif.Sess.Out

/-- `value/assign.go:10-15`: a value, or the result of an assignment or of `print`, which is a `QuietValue`. -/
inductive V (ν : Type) where
  | plain (v : ν)
  | quiet (v : ν)
deriving DecidableEq

variable {ν : Type}

/-- `run/run.go:139-145`: the names of the types (`)debug types`). -/
def types (typ : V ν → List Char) : List (V ν) → Nat → List Char
  | [], _ => ['\n']
  | v :: vs, i => (if 0 < i then [','] else []) ++ typ v ++ types typ vs (i + 1)

/-- `run/run.go:153`: whether a blank comes before the text, if something was printed before. -/
def needsBlank (s : List Char) : Bool :=
  match s.getLast? with
  | some c => c != '\n'
  | none => false

/-- `run/run.go:147-162`: the loop over the values, with the newline after it; the text written, and `printed`. -/
def values (text : ν → List Char) : List (V ν) → Bool → List Char × Bool
  | [], printed => (if printed then ['\n'] else [], printed)
  | .quiet _ :: vs, printed => values text vs printed
  | .plain v :: vs, printed =>
    let r := values text vs true
    ((if printed && needsBlank (text v) then [' '] else []) ++ text v ++ r.1, r.2)

/-- `run/run.go:134-163`: `printValues`: the text written, and the result. -/
def printValues (debugTypes : Bool) (typ : V ν → List Char) (text : ν → List Char) (vs : List (V ν)) : List Char × Bool :=
  if vs.isEmpty then ([], false)
  else
    let r := values text vs false
    ((if debugTypes then types typ vs 0 else []) ++ r.1, r.2)

/-- `run/run.go:87-89`: the text written for a line, and the variable `_` afterwards. `values[len(values)-1]` is there if something was printed. -/
def after (debugTypes : Bool) (typ : V ν → List Char) (text : ν → List Char) (vs : List (V ν)) (u : Option (V ν)) : List Char × Option (V ν) :=
  let r := printValues debugTypes typ text vs
  (r.1, if r.2 then vs.getLast? else u)

/-- `run/run.go:74-101`: the lines of a session. A line is the function that gives its values, which may depend on `_` (evaluation is modelled in `Verif/Exec`). The
result: the values of each line and the text written for it, and `_` at the end. Simplified: not interactive, no errors. -/
def session (debugTypes : Bool) (typ : V ν → List Char) (text : ν → List Char) : List (Option (V ν) → List (V ν)) → Option (V ν) →
    List (List (V ν) × List Char) × Option (V ν)
  | [], u => ([], u)
  | l :: ls, u =>
    let a := after debugTypes typ text (l u) u
    let r := session debugTypes typ text ls a.2
    ((l u, a.1) :: r.1, r.2)

/-- `parse/special.go:438-448`: the values of a line of a file (`)get`, `runUntilError`), each printed on a line of its own; the text written, and `_` afterwards. Simplified:
the expressions are evaluated before, in place of one after the other. -/
def fileLine (text : ν → List Char) : List (V ν) → Option (V ν) → List Char × Option (V ν)
  | [], u => ([], u)
  | .quiet _ :: vs, u => fileLine text vs u
  | .plain v :: vs, _ =>
    let r := fileLine text vs (some (.plain v))
    (text v ++ '\n' :: r.1, r.2)

end Verif.Sess.Out
