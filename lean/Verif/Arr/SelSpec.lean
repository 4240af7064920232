import Verif.Arr.EvalSpec
import Verif.Arr.RadixSpec
import Verif.Arr.SelModel

/-!
# What `sel`, `fill` and `part` mean
-/

namespace Verif.Arr
open Verif.Num (Num)
open Verif.Order (Val)
variable {α : Type}

/-- Every element `n` times; when `n` is negative, `-n` times what replaces the element. -/
def repeats (z : α → α) : List Int → List α → List α
  | n :: ns, x :: xs => List.replicate n.natAbs (if n < 0 then z x else x) ++ repeats z ns xs
  | _, _ => []

/-- The next element `n` times when `n` is positive; otherwise one fill value for zero, and `-n` of them for a negative `n`. -/
def expand (zero : α) : List Int → List α → List α
  | [], _ => []
  | n :: ns, xs =>
    if n ≤ 0 then List.replicate (max 1 n.natAbs) zero ++ expand zero ns xs
    else match xs with
      | x :: xs => List.replicate n.natAbs x ++ expand zero ns xs
      | [] => []

/-- The element, where the mask is one; the fill value, where it is zero. -/
def masked (zero : α) : List Int → List α → List α
  | n :: ns, x :: xs => (if n = 1 then x else zero) :: masked zero ns xs
  | _, _ => []

mutual
/-- The scalars of a nested value, from left to right. -/
def scalars : Val → List Val
  | .vec l => scalarsList l
  | .mat _ l => scalarsList l
  | v => [v]

/-- Those of the elements of a list. -/
def scalarsList : List Val → List Val
  | [] => []
  | x :: xs => scalars x ++ scalarsList xs
end

mutual
/-- A nested value without its scalars. -/
def bones : Val → Val
  | .vec l => .vec (bonesList l)
  | .mat s l => .mat s (bonesList l)
  | _ => .vec []

/-- The elements of a list without their scalars. -/
def bonesList : List Val → List Val
  | [] => []
  | x :: xs => bones x :: bonesList xs
end

/-- A blank for a character, zero for a number. -/
def zeroOf : Val → Val
  | .num (.char _) => .num (.char 32)
  | _ => .num (.int 0)

/-- Position `j` goes on with the run that position `i` is in: it comes next, and its score is not higher. -/
def Follows (score : List Nat) (i j : Nat) : Prop := j = i + 1 ∧ score.getD j 0 ≤ score.getD i 0

/-- The maximal runs of positions on which the score is positive and does not increase, from left to right: together they are the
positions of positive score; within a run each position follows the one before; the first position of a run does not follow
the last one of the run before. -/
structure Runs (score : List Nat) (gs : List (List Nat)) : Prop where
  all : gs.flatten = (List.range score.length).filter fun i => decide (score.getD i 0 ≠ 0)
  ne : ∀ g ∈ gs, g ≠ []
  inside : ∀ g ∈ gs, g.IsChain (Follows score)
  maximal : gs.IsChain fun g h => ∀ i j, g.getLast? = some i → h.head? = some j → ¬ Follows score i j

/-- The elements at the given positions. -/
def pick (v : List α) (g : List Nat) : List α := g.filterMap fun i => v[i]?

end Verif.Arr
