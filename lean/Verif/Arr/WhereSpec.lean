import Verif.Arr.EvalSpec
import Verif.Arr.WhereModel

/-!
# What coordinates mean
-/

namespace Verif.Arr

/-- Coordinates as the user writes them: counted from the origin; a single one is a number. -/
def written (origin : Nat) : List Nat → V Int
  | [i] => .elem ((i + origin : Nat) : Int)
  | c => .vec (c.map fun i => ((i + origin : Nat) : Int))

/-- The same for a matrix, where one coordinate alone is a vector too. -/
def writtenVec (origin : Nat) (c : List Nat) : V Int := .vec (c.map fun i => ((i + origin : Nat) : Int))

/-- Row-major order of coordinates: that of the dictionary. -/
def LexLe : List Nat → List Nat → Prop
  | [], _ => True
  | _ :: _, [] => False
  | a :: as, b :: bs => a < b ∨ (a = b ∧ LexLe as bs)

/-- The list `r` gives each of the coordinates in an array `v`, as `wr` writes them, as many times as the number there says, in row-major order. -/
structure Where (v : V Small) (wr : List Nat → V Int) (r : List (V Int)) : Prop where
  times : ∀ c, InB v.shape c → ∃ n : Nat, v.at c = some (some (n : Int)) ∧ r.count (wr c) = n
  only : ∀ x ∈ r, ∃ c, InB v.shape c ∧ x = wr c
  order : ∃ cs : List (List Nat), r = cs.map wr ∧ cs.Pairwise LexLe

end Verif.Arr
