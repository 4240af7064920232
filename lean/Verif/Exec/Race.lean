import Verif.Exec.Spec

/-!
# Execution: user-defined operators called from two goroutines

`safeUnary` and `safeBinary` (`value/eval.go:168-180`) take an operator for safe to run in parallel if its name is that
of a built-in one.  A user-defined operator of the same name is called instead (`exec/context.go:167-176`), so on large
operands `pfor` calls it from several goroutines, all with the same `*Context`.  This is the call as one goroutine
executes it, one Go statement at a time; the schedule says who moves.
-/

namespace Verif.Exec.Race

/-- The call stack (`exec/context.go:25-26`), `frames` with the last frame first. -/
structure Stack where
  slot : List Int
  len : Nat
  frames : List Nat
  deriving DecidableEq, Repr

/-- One goroutine calling an operator with one parameter and no other local variables: the statement it is at, the
local variable `n` of `push` and `pop`, the argument and what the body read back from the parameter. -/
structure Thread where
  pc : Nat
  n : Nat
  arg : Int
  got : Option Int
  deriving DecidableEq, Repr

/-- `exec/function.go:75-83` with `exec/context.go:91-105`: the next statement.  `none` is a run-time panic. -/
def step (t : Thread) (s : Stack) : Option (Thread × Stack) :=
  match t.pc with
  | 0 => some ({ t with pc := 1, n := s.len }, s)                                -- n := len(c.stack)
  | 1 => some ({ t with pc := 2 }, { s with frames := 1 :: s.frames })            -- append(c.frameSizes, 1)
  | 2 => some ({ t with pc := 3 }, { s with len := t.n + 1 })                     -- c.stack = c.stack[:n+1]
  | 3 => if s.len = 0 then none                                                   -- Assign(fn.Right, right)
         else some ({ t with pc := 4 }, { s with slot := s.slot.set (s.len - 1) t.arg })
  | 4 => if s.len = 0 then none                                                   -- the body: read the parameter
         else some ({ t with pc := 5, got := s.slot[s.len - 1]? }, s)
  | 5 => match s.frames with                                                      -- n := frameSizes[len-1]; shrink it
         | [] => none
         | n :: rest => some ({ t with pc := 6, n := n }, { s with frames := rest })
  | 6 => if s.len < t.n then none                                                 -- c.stack = c.stack[:len-n]
         else some ({ t with pc := 7 }, { s with len := s.len - t.n })
  | _ => some (t, s)

/-- Two goroutines under a schedule: `true` moves the first. -/
def runBoth : List Bool → Thread → Thread → Stack → Option (Thread × Thread × Stack)
  | [], a, b, s => some (a, b, s)
  | true :: w, a, b, s => (step a s).bind fun p => runBoth w p.1 b p.2
  | false :: w, a, b, s => (step b s).bind fun p => runBoth w a p.1 p.2

/-- A goroutine about to call the operator with argument `x`. -/
def start (x : Int) : Thread := ⟨0, 0, x, none⟩

end Verif.Exec.Race
