import Verif.Arr.RadixModel

/-!
# Positional notation, without reference to the interpreter
-/

namespace Verif.Arr

/-- The product. -/
def prodQ : List Rat → Rat
  | [] => 1
  | a :: A => a * prodQ A

/-- The value of the digits `D` with radices `A`: every digit counts as often as the product of the radices to its right. -/
def radixVal : List Rat → List Rat → Rat
  | _ :: A, d :: D => d * prodQ A + radixVal A D
  | _, _ => 0

/-- A list of one element stands for as many as needed. -/
def spread {β : Type} (n : Nat) (l : List β) : List β :=
  match l with
  | [x] => List.replicate n x
  | l => l

/-- A digit in range for a radix: no condition for the radix zero, which stands for an open end. -/
def DigitFor (a d : Rat) : Prop := a ≠ 0 → 0 ≤ d ∧ d < |a|

/-- An integer. -/
def IsInt (x : Rat) : Prop := ∃ k : Int, x = k

end Verif.Arr
