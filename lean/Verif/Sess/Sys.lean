/-!
# The operator sys

`sys` and `sysRead` (`value/sys.go:48-180`), with the lines of a file as `bufio.Scanner` finds them. Simplified: files are texts (valid UTF-8) that can be read as a whole or
cannot be opened; what the verbs without arguments give is a parameter.
-/

namespace Verif.Sess.Sys

/-- A character, a vector, or any other value. -/
inductive Val where
  | char (c : Char)
  | vec (l : List Val)
  | other (n : Nat)

/-- A value or an error. -/
inductive Res where
  | ok (v : Val)
  | err (e : String)

/-- `value/unary.go:125-131`: `newCharVector`. -/
def newCharVector (s : List Char) : Val := .vec (s.map .char)

/-- `parse/parse.go:508-518`: the value of a string in a program. -/
def evalString (s : List Char) : Val :=
  match s with
  | [c] => .char c
  | s => .vec (s.map .char)

/-- `value/vector.go:343-350` with `value/sys.go:48-51`: the text of a vector, if `AllChars`. -/
def text : List Val → Option (List Char)
  | [] => some []
  | .char c :: l => (text l).map (c :: ·)
  | _ :: _ => none

/-- `bufio.dropCR`, used at `value/sys.go:171` through `bufio.ScanLines`. -/
def dropCR (l : List Char) : List Char := if l.getLast? = some '\r' then l.dropLast else l

/-- `bufio.ScanLines` until the end of the file (`value/sys.go:168-172`); `acc` is the line so far, backwards. -/
def scanLines (acc : List Char) : List Char → List (List Char)
  | [] => if acc.isEmpty then [] else [dropCR acc.reverse]
  | c :: l => if c = '\n' then dropCR acc.reverse :: scanLines [] l else scanLines (c :: acc) l

/-- `value/sys.go:149-177`: `sysRead`. `files` is what `os.Open` and reading give. -/
def sysRead (files : List Char → Option (List Char)) : List Val → Res
  | [.vec l] =>
    match text l with
    | none => .err "usage"
    | some name =>
      match files name with
      | none => .err "open"
      | some content => .ok (.vec ((scanLines [] content).map newCharVector))
  | _ => .err "usage"

/-- `value/sys.go:87-143`: the verbs without arguments. -/
def sys1 : List String :=
  ["help", "base", "cpu", "date", "format", "ibase", "maxbits", "maxdigits", "maxstack", "now", "obase", "origin", "prompt", "sec", "time"]

/-- `value/sys.go:54-85`: `sys`, applied to a vector. `get` is what the functions in `sys1` give. -/
def sys (get : String → Val) (files : List Char → Option (List Char)) (v : List Val) : Res :=
  match text v with
  | some verb =>
    if String.ofList verb ∈ sys1 then .ok (get (String.ofList verb))
    else if String.ofList verb = "read" then sysRead files [] else .err "not defined"
  | none =>
    match v with
    | .vec l :: args =>
      match text l with
      | some verb =>
        if String.ofList verb = "read" then sysRead files args
        else if String.ofList verb ∈ sys1 then .err "takes no arguments" else .err "not defined"
      | none => .err "requires string argument"
    | _ => .err "requires string argument"

end Verif.Sess.Sys
