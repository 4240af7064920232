import Verif.Flt.Consts
/-
The constants of package `value` and the variables `e` and `pi`: `Consts` (`value/const.go`), `NewContext`, `SetConstants` (`exec/context.go`), and the
places that call it (`parse/parse.go`), for any number of contexts in one program.

Modelled of a context: the precision of its configuration and its global variables.  Modelled of a special command: whether it sets the precision, runs a
file, or neither, and whether it fails.  The rest of `special` is in `Verif/Sess`.
-/
namespace Verif.Ctx
open Verif.Flt

/-- The package variables `floatE`, `floatPi`, `floatLog2`, `floatLog10` (`value/const.go:60-65`). -/
structure Consts where
  e : Rat
  pi : Rat
  log2 : Rat
  log10 : Rat
  deriving DecidableEq

/-- The values `Consts` assigns (`value/const.go:88-121`). -/
def constsOf (p : Nat) : Consts := ⟨floatE p, floatPi p, floatLog2 p, floatLog10 p⟩

/-- A value of a variable: a float with its precision, or anything else. -/
inductive Val where
  | float (p : Nat) (q : Rat)
  | other (n : Nat)
  deriving DecidableEq

/-- `exec/context.go:22-39`: the precision (`config/config.go:44`) and the global variables. -/
structure Context where
  prec : Nat
  globals : String → Option Val

/-- The package variables and the contexts of a program. -/
structure State where
  consts : Consts
  ctxs : List Context

/-- `exec/context.go:72-79`: `AssignGlobal`. -/
def Context.assign (c : Context) (x : String) (v : Val) : Context := { c with globals := fun y => if y = x then some v else c.globals y }

/-- `exec/context.go:60-64`: `SetConstants`, with `value/const.go:88-121`, `Consts`: the package variables are assigned, and copies of two of them. -/
def setConstants (i : Nat) (s : State) : State :=
  match s.ctxs[i]? with
  | none => s
  | some c => ⟨constsOf c.prec, s.ctxs.set i ((c.assign "e" (.float c.prec (constsOf c.prec).e)).assign "pi" (.float c.prec (constsOf c.prec).pi))⟩

/-- `exec/context.go:43-52`: `NewContext` with a configuration of precision `p`. -/
def newContext (p : Nat) (s : State) : State := setConstants s.ctxs.length ⟨s.consts, s.ctxs ++ [⟨p, fun _ => none⟩]⟩

mutual
/-- What a special command does: `)prec`, `)get` with the lines of the file, failing before it does anything, or nothing that is modelled. -/
inductive Cmd where
  | prec (n : Nat)
  | get (ls : List Line)
  | fail
  | other

/-- A line: a special command, with or without further tokens, which are an error once it is done (`parse/special.go:373`); an assignment; a line that fails; another line. -/
inductive Line where
  | special (c : Cmd) (junk : Bool)
  | assign (x : String) (v : Val)
  | fail
  | other
end

/-- The context `i` is changed. -/
def State.update (s : State) (i : Nat) (f : Context → Context) : State :=
  match s.ctxs[i]? with
  | none => s
  | some c => { s with ctxs := s.ctxs.set i (f c) }

/-- The end of a special command: the error if there are further tokens (`parse/special.go:373`), or else `SetConstants` (`parse/parse.go:161-164`). -/
def finish (i : Nat) (junk : Bool) (s : State) : Bool × State := if junk then (false, s) else (true, setConstants i s)

mutual
/-- `parse/parse.go:151-178`: a line in the context `i`; whether it went without error, and the state after it.  Of special commands: `parse/special.go:92-374`. -/
def runLine (i : Nat) : Line → State → Bool × State
  | .special (.prec n) junk, s =>
    if n = 0 ∨ 1000000 < n then (false, s) else finish i junk (s.update i fun c => { c with prec := n })
  | .special (.get ls) junk, s => finish i junk (runLines i ls s)
  | .special .fail _, s => (false, s)
  | .special .other junk, s => finish i junk s
  | .assign x v, s => (true, s.update i fun c => c.assign x v)
  | .fail, s => (false, s)
  | .other, s => (true, s)

/-- `parse/special.go:393-455`: the lines of a file up to an error, which is reported and forgotten. -/
def runLines (i : Nat) : List Line → State → State
  | [], s => s
  | l :: ls, s => if (runLine i l s).1 then runLines i ls (runLine i l s).2 else (runLine i l s).2
end

/-- What happens in a program: a context is made, or a context runs a line. -/
inductive Event where
  | new (p : Nat)
  | line (i : Nat) (l : Line)

/-- One event. -/
def step (s : State) : Event → State
  | .new p => newContext p s
  | .line i l => (runLine i l s).2

/-- A program; it begins without contexts. -/
def run (es : List Event) : State := es.foldl step ⟨⟨0, 0, 0, 0⟩, []⟩

/-- What the floating-point functions use in a context (`Verif.Flt.Ctx`): the precision of its configuration, and the package variables. -/
def floatCtx (s : State) (c : Context) : Flt.Ctx := ⟨c.prec, s.consts.pi, s.consts.log2⟩

end Verif.Ctx
