/-!
# The shared numbers of `iota`

`constIota` and `growIota` (`value/index.go:401-439`) run by any number of goroutines at a time, one small step after the other.
The lock is that of Go's `sync.RWMutex`: whoever wants to write first keeps other writers and new readers out, then waits for the readers that have the lock. The steps are taken in one order
(sequential consistency), which Go promises if there are no races; that there are none is part of what is proved.
-/

namespace Verif.Iota

/-- Where a goroutine is. `value/index.go:409-418` for the first five, `:429-438` for the rest; a number `r` names an array. -/
inductive PC where
  /-- line 410: about to take the lock for reading -/
  | start
  /-- line 411: with the lock -/
  | reading
  /-- line 413: with the slice and the lock -/
  | got (r : Nat)
  /-- line 414: returned -/
  | done (r : Nat)
  /-- line 416: the slice is too short, lock still held -/
  | leaving
  /-- line 430: about to ask for the lock for writing -/
  | asking
  /-- line 430: next to write, as soon as all readers have released the lock -/
  | waiting
  /-- line 431: with the lock -/
  | writing
  /-- lines 433-435: about to set element `i` of the new array -/
  | filling (r i : Nat)
  /-- line 438: about to release the lock -/
  | releasing
deriving DecidableEq

/-- A goroutine in `constIota(origin, n)` (`value/index.go:408`). -/
structure Thread where
  origin : Nat
  n : Nat
  pc : PC
deriving DecidableEq

/-- `value/index.go:401-404`: `iotaLock` (the readers that have it, and whether there is a writer that has it or is the next) and `staticIota`, with all arrays ever made; `none` is an element not yet set (a nil `Value`). -/
structure State where
  heap : List (List (Option Nat))
  static : Nat
  readers : Nat
  writer : Bool
  threads : List Thread
deriving DecidableEq

/-- The elements of an array. -/
def State.arr (s : State) (r : Nat) : List (Option Nat) := s.heap.getD r []

/-- `len(staticIota)`, `value/index.go:411` and `:431`. -/
def State.len (s : State) : Nat := (s.arr s.static).length

/-- The state in which goroutine `i` is at `pc`. -/
def State.goto (s : State) (i : Nat) (t : Thread) (pc : PC) : State := { s with threads := s.threads.set i { t with pc := pc } }

/-- The next step of goroutine `i`, which is `t`; `none` if it has to wait or has returned. `value/index.go:408-419` and `:429-439`. -/
def next (s : State) (i : Nat) (t : Thread) : Option State :=
  match t.pc with
  | .start => if s.writer then none else some ({ s with readers := s.readers + 1 }.goto i t .reading)
  | .reading => if t.origin + t.n ≤ s.len then some (s.goto i t (.got s.static)) else some (s.goto i t .leaving)
  | .got r => some ({ s with readers := s.readers - 1 }.goto i t (.done r))
  | .done _ => none
  | .leaving => some ({ s with readers := s.readers - 1 }.goto i t .asking)
  | .asking => if s.writer then none else some ({ s with writer := true }.goto i t .waiting)
  | .waiting => if s.readers ≠ 0 then none else some (s.goto i t .writing)
  | .writing =>
    if s.len < t.origin + t.n then
      some ({ s with heap := s.heap ++ [List.replicate (t.origin + t.n + 32) none] }.goto i t (.filling s.heap.length 0))
    else some (s.goto i t .releasing)
  | .filling r k =>
    if k < (s.arr r).length then some ({ s with heap := s.heap.set r ((s.arr r).set k (some k)) }.goto i t (.filling r (k + 1)))
    else some ({ s with static := r }.goto i t .releasing)
  | .releasing => some ({ s with writer := false }.goto i t .start)

/-- A step of goroutine `i`, if there is one (`value/index.go:408-439`). -/
def step (s : State) (i : Nat) : Option State :=
  match s.threads[i]? with
  | none => none
  | some t => next s i t

/-- The program begins with `staticIota` nil (`value/index.go:403`); the goroutines call `constIota` with the given arguments. -/
def init (calls : List (Nat × Nat)) : State :=
  { heap := [[]], static := 0, readers := 0, writer := false, threads := calls.map fun c => { origin := c.1, n := c.2, pc := .start } }

/-- An execution: the scheduler chooses a goroutine that need not wait, again and again. -/
def run (s : State) : List Nat → Option State
  | [] => some s
  | i :: l => (step s i).bind fun s => run s l

end Verif.Iota
