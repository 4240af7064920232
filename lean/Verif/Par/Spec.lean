import Verif.Persist.Spec
/-
What users of element-wise operators rely on: one element after the other, in order, stopping at the first
failure.
-/
namespace Verif.Par
variable {α β γ ε : Type}

/-- The elements `g 0, …, g (n-1)`, or the first error. -/
def inOrder (g : Nat → Except ε α) (n : Nat) : Except ε (List α) := (List.range n).mapM g

/-- Scalar extension of a binary operator to vectors: a one-element operand is used with every element of the
other, otherwise the lengths must agree (`none`: length error). -/
def pointwise (f : α → β → Except ε γ) (xs : List α) (ys : List β) : Option (Except ε (List γ)) :=
  match xs, ys with
  | [x], ys => some (ys.mapM (f x))
  | xs, [y] => some (xs.mapM (fun x => f x y))
  | xs, ys => if xs.length = ys.length then some ((xs.zip ys).mapM (fun p => f p.1 p.2)) else none

end Verif.Par
