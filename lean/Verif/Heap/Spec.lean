import Verif.Heap.Model
/-
Programs over values instead of cells: what a user believes assignments and operators do.
-/
namespace Verif.Heap
open Verif.Num

/-- The value of a variable. -/
def State.value (st : State) (k : Nat) : Num := (st.vars k).deref st.heap

/-- The value of a right side in terms of the values of the variables. -/
def Rhs.valueOf (vals : Nat → Num) : Rhs → Res Num
  | .const r => .ok (litNum r)
  | .var s => .ok (vals s)
  | .un op s => op.impl.eval (vals s)
  | .bin s op t => (op.impl 0).eval (vals s) (vals t)

/-- One assignment over values. -/
def stepV (vals : Nat → Num) (d : Nat) (e : Rhs) : Nat → Num :=
  match e.valueOf vals with
  | .ok r => fun k => if k = d then r else vals k
  | _ => vals

/-- A program over values. -/
def runV (vals : Nat → Num) : List (Nat × Rhs) → Nat → Num
  | [] => vals
  | (d, e) :: rest => runV (stepV vals d e) rest

/-- A state some program leads to. -/
def Reachable (st : State) : Prop := ∃ prog, st = run .init prog

/-- The assignment does not take `mod` of numbers of which one is a negative rational (a fraction). -/
def Gentle (vals : Nat → Num) : Rhs → Prop
  | .bin s .mod t => ∀ r : Rat, vals s = .bigRat r ∨ vals t = .bigRat r → 0 ≤ r
  | _ => True

/-- Every assignment of the program is gentle at the time it is made. -/
def AllGentle (vals : Nat → Num) : List (Nat × Rhs) → Prop
  | [] => True
  | (d, e) :: rest => Gentle vals e ∧ AllGentle (stepV vals d e) rest

end Verif.Heap
