import Verif.Arr.Basic

/-!
# The inverse of matrices and vectors

`inv` (`value/unary.go:331-357`), `Matrix.inverse` (`value/matrix.go:1078-1175`) and `Vector.inverse`
(`value/vector.go:568-596`), for elements of any type with given operators.
-/

namespace Verif.Arr
variable {α σ : Type}

/-- The operators `inv` uses on elements: `IsScalarType` (`value/eval.go:761-763`), `isZero` (`value/eval.go:790-804`), `one` and
`zero` (`value/const.go:33-34`), `c.EvalUnary("/", v)`, the conjugate taken of complex elements (`value/vector.go:581-583`; others are
left as they are), and `c.EvalBinary` with `+`, `*`, `-`, `/`. -/
structure Ops (α : Type) where
  scalar : α → Bool
  isZero : α → Bool
  one : α
  zero : α
  recip : α → R α
  conj : α → R α
  add : α → α → R α
  mul : α → α → R α
  sub : α → α → R α
  div : α → α → R α

/-- A loop that computes the elements of a list one after the other (`value/matrix.go:1129-1135, 1158-1164`). -/
def mapR {β : Type} (f : Nat → R β) : List Nat → R (List β)
  | [] => .ok []
  | k :: ks => (f k).bind fun x => (mapR f ks).bind fun l => .ok (x :: l)

/-- One row of the double-wide matrix (`value/matrix.go:1104-1115`); `i` in the code is `y * dim + x`. -/
def invRow (o : Ops α) (data : List α) (dim y : Nat) : R (List α) :=
  (mapR (fun x => vAt data (y * dim + x)) (List.range dim)).bind fun l =>
    .ok (l ++ (List.range dim).map fun x => if x % dim = y then o.one else o.zero)

/-- The double-wide matrix (`value/matrix.go:1097-1116`). -/
def invTable (o : Ops α) (data : List α) (dim : Nat) : R (List (List α)) := mapR (invRow o data dim) (List.range dim)

/-- A row multiplied by `scale` (`value/matrix.go:1129-1135`). -/
def scaleRow (o : Ops α) (dim x : Nat) (scale : α) (row : List α) : R (List α) :=
  mapR (fun i => if i = x then .ok o.one else (vAt row i).bind fun v => o.mul v scale) (List.range (2 * dim))

/-- A multiple of `row` subtracted from `this` (`value/matrix.go:1158-1164`). -/
def subRow (o : Ops α) (dim x : Nat) (ratio : α) (this row : List α) : R (List α) :=
  mapR (fun i => if i = x then .ok o.zero else
    (vAt this i).bind fun a => (vAt row i).bind fun b => (o.mul ratio b).bind fun p => o.sub a p) (List.range (2 * dim))

/-- A row with an element other than zero in column `x` (`value/matrix.go:1145-1151`). -/
def findRow (o : Ops α) (t : List (List α)) (x y : Nat) : List Nat → R (Option Nat)
  | [] => .ok none
  | r :: rs =>
    if r = y then findRow o t x y rs
    else (vAt t r).bind fun row => (vAt row x).bind fun v =>
      if o.isZero v then findRow o t x y rs else .ok (some r)

/-- `value/matrix.go:1080`. -/
def nonInvertible : String := "inverse of non-invertible matrix"

/-- `value/matrix.go:1081`. -/
def nonScalar : String := "inverse of matrix with non-scalar element"

/-- The body of the two loops (`value/matrix.go:1121-1165`). -/
def invStep (o : Ops α) (dim x y : Nat) (t : List (List α)) : R (List (List α)) :=
  (vAt t y).bind fun this => (vAt this x).bind fun val =>
    if o.scalar val = false then .err nonScalar
    else if y = x then
      if o.isZero val then .err nonInvertible
      else (o.recip val).bind fun scale => (scaleRow o dim x scale this).bind fun row => .ok (t.set y row)
    else if o.isZero val then .ok t
    else (findRow o t x y (List.range' x (dim - x))).bind fun target =>
      match target with
      | none => .err nonInvertible
      | some r => (vAt t r).bind fun row => (vAt row x).bind fun p => (o.div val p).bind fun ratio =>
        (subRow o dim x ratio this row).bind fun this' => .ok (t.set y this')

/-- The loops (`value/matrix.go:1119-1166`). -/
def eliminate (o : Ops α) (dim : Nat) (t : List (List α)) : R (List (List α)) :=
  loop (fun x => loop (fun y => invStep o dim x y) (List.range dim)) (List.range dim) t

/-- The loop over the elements at `value/vector.go:577-584`. -/
def conjAll (o : Ops α) : List α → R (List α)
  | [] => .ok []
  | x :: xs => if o.scalar x = false then .err "inverse of vector with non-scalar element" else
    (o.conj x).bind fun y => (conjAll o xs).bind fun ys => .ok (y :: ys)

/-- The loop at `value/vector.go:586-588`. -/
def magnitude (o : Ops α) (mag : α) : List (α × α) → R α
  | [] => .ok mag
  | (x, c) :: l => (o.mul x c).bind fun p => (o.add mag p).bind fun mag' => magnitude o mag' l

/-- The loop at `value/vector.go:592-594`. -/
def divideAll (o : Ops α) (mag : α) : List α → R (List α)
  | [] => .ok []
  | x :: xs => (o.div x mag).bind fun y => (divideAll o mag xs).bind fun ys => .ok (y :: ys)

/-- `Vector.inverse` (`value/vector.go:568-596`).  For a vector of one element it calls `inverse` with the vector
(`value/eval.go:886-900`), which is an error. -/
def vecInverse (o : Ops α) (v : List α) : R (List α) :=
  if v.length = 0 then .err "inverse of empty vector"
  else if v.length = 1 then .err "inverse of non-scalar"
  else (conjAll o v).bind fun conj => (magnitude o o.zero (v.zip conj)).bind fun mag =>
    if o.isZero mag then .err "inverse of zero vector" else divideAll o mag conj

/-- `Matrix.inverse` (`value/matrix.go:1078-1175`).  `m.shape[1]` is there if the rank is two or more than three. -/
def matInverse (o : Ops α) (m : Mat α) : R (Mat α) :=
  match m.shape with
  | [] => .err "inverse of empty matrix"
  | [_] => (vecInverse o m.data).bind fun l => newMatrix m.shape l
  | [_, _, _] => .err "cannot compute inverse of matrix with dimension > 2"
  | dim :: dim' :: _ =>
    if dim' ≠ dim then .err "inverse of non-square matrix"
    else (invTable o m.data dim).bind fun t => (eliminate o dim t).bind fun t' =>
      newMatrix m.shape (t'.flatMap fun row => row.drop dim)

/-- `inv` (`value/unary.go:331-357`). -/
def inv (o : Ops α) : V α → R (V α)
  | .elem x => (o.recip x).bind fun y => .ok (.elem y)
  | .vec l => (vecInverse o l).bind fun l' => .ok (.vec l')
  | .mat m => (matInverse o m).bind fun m' => .ok (.mat m')

end Verif.Arr
