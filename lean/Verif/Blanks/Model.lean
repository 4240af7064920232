/-!
# The shared blanks of the printer

`blanks` (`value/vector.go:287-311`) run by any number of goroutines at a time, one small step after the other. The lock is that of Go's `sync.RWMutex`: whoever wants to
write first keeps other writers and new readers out, then waits for the readers that have the lock. Negative lengths, for which the program ends with a run-time fault, are
the subject of C59. The steps are taken in one order (sequential consistency), which Go promises if there are no races; that there are none is part of what is proved.
-/

namespace Verif.Blanks

/-- Where a goroutine is in `value/vector.go:293-311`; `r` is the string it is about to return. -/
inductive PC where
  /-- line 295: about to take the lock for reading -/
  | start
  /-- line 296: with the lock -/
  | reading
  /-- line 298: with the string and the lock -/
  | got (r : List Char)
  /-- line 299: returned -/
  | done (r : List Char)
  /-- line 301: the string is too short, lock still held -/
  | leaving
  /-- line 302: about to ask for the lock for writing -/
  | asking
  /-- line 302: next to write, as soon as all readers have released the lock -/
  | waiting
  /-- line 303: with the lock -/
  | writing
  /-- line 306: about to release the lock -/
  | releasing
deriving DecidableEq

/-- A goroutine in `blanks(n)` (`value/vector.go:293`). -/
structure Thread where
  n : Nat
  pc : PC
deriving DecidableEq

/-- `value/vector.go:287-290`: `blanksLock` (the readers that have it, and whether there is a writer that has it or is the next) and `staticBlanks`. -/
structure State where
  static : List Char
  readers : Nat
  writer : Bool
  threads : List Thread
deriving DecidableEq

/-- The state in which goroutine `i` is at `pc`. -/
def State.goto (s : State) (i : Nat) (t : Thread) (pc : PC) : State := { s with threads := s.threads.set i { t with pc := pc } }

/-- The next step of goroutine `i`, which is `t`; `none` if it has to wait or has returned. `value/vector.go:293-311`. -/
def next (s : State) (i : Nat) (t : Thread) : Option State :=
  match t.pc with
  | .start => if s.writer then none else some ({ s with readers := s.readers + 1 }.goto i t .reading)
  | .reading => if t.n ≤ s.static.length then some (s.goto i t (.got (s.static.take t.n))) else some (s.goto i t .leaving)
  | .got r => some ({ s with readers := s.readers - 1 }.goto i t (.done r))
  | .done _ => none
  | .leaving => some ({ s with readers := s.readers - 1 }.goto i t .asking)
  | .asking => if s.writer then none else some ({ s with writer := true }.goto i t .waiting)
  | .waiting => if s.readers ≠ 0 then none else some (s.goto i t .writing)
  | .writing =>
    if s.static.length < t.n then some ({ s with static := List.replicate (t.n + 32) ' ' }.goto i t .releasing)
    else some (s.goto i t .releasing)
  | .releasing => some ({ s with writer := false }.goto i t .start)

/-- A step of goroutine `i`, if there is one (`value/vector.go:293-311`). -/
def step (s : State) (i : Nat) : Option State :=
  match s.threads[i]? with
  | none => none
  | some t => next s i t

/-- The program begins with `staticBlanks` empty (`value/vector.go:289`); the goroutines call `blanks` with the given numbers. -/
def init (calls : List Nat) : State :=
  { static := [], readers := 0, writer := false, threads := calls.map fun n => { n := n, pc := .start } }

/-- An execution: the scheduler chooses a goroutine that need not wait, again and again. -/
def run (s : State) : List Nat → Option State
  | [] => some s
  | i :: l => (step s i).bind fun s => run s l

end Verif.Blanks
