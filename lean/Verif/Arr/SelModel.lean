import Verif.Arr.EvalModel
import Verif.Order.Model

/-!
# `sel`, `fill` and `part`

`value/vector.go:429-538`, `value/matrix.go:888-918` and `value/binary.go:1444-1540`.  What replaces an element when its
count is negative (`allZeros`) is a parameter `z` of `sel`; it is modelled on nested values by `allZeros` below.
-/

namespace Verif.Arr
open Verif.Num (Num)
open Verif.Order (Val)
variable {α : Type}

mutual
/-- `value/vector.go:456-471`: `allZeros`. -/
def allZeros : Val → Val
  | .num (.char _) => .num (.char 32)
  | .num _ => .num (.int 0)
  | .cplx _ _ => .num (.int 0)
  | .vec l => .vec (allZerosList l)
  | .mat s l => .mat s (allZerosList l)

/-- `value/vector.go:461-465`: the loop over the elements. -/
def allZerosList : List Val → List Val
  | [] => []
  | x :: xs => allZeros x :: allZerosList xs
end

/-- `value/vector.go:442-450`: one turn of the loop of `sel`. Simplified: the `count` appends are one. -/
def selStep (z : α → α) (v : List α) (n : List Small) (i : Nat) (r : List α) : R (List α) :=
  (intAt n (i % n.length) "sel count").bind fun count => (vAt v i).bind fun val =>
  .ok (if count < 0 then r ++ List.replicate (-count).toNat (z val) else r ++ List.replicate count.toNat val)

/-- `value/vector.go:436-453`: `sel`. The index `i % n.Len()` with `n` empty, a division by zero in Go, is out of range here. -/
def selVec (z : α → α) (v : List α) (n : List Small) (elemCount : Nat) : R (List α) :=
  if n.length ≠ 1 ∧ n.length ≠ elemCount then .err "sel length mismatch" else
  loop (selStep z v n) (List.range v.length) []

/-- `value/binary.go:1515-1525`: `sel` with a matrix on either side. -/
def selMat (z : α → α) (count : Mat Small) (m : Mat α) : R (Mat α) :=
  if count.shape.length ≠ 1 then .err "sel count cannot be matrix" else
  (vAt m.shape (m.shape.length - 1)).bind fun d =>
  (selVec z m.data count.data d).bind fun result =>
  (size (m.shape.take (m.shape.length - 1))).bind fun rows =>
  if rows = 0 then .crash else
  newMatrix (m.shape.take (m.shape.length - 1) ++ [result.length / rows]) result

/-- `value/binary.go:1507-1527`: `sel`; `atLeastVectorType` is `value/eval.go:150-156`. -/
def sel [Wide α] (z : α → α) (u : V Small) (v : V α) : R (V α) :=
  if u.isMat ∨ v.isMat then
    u.toMat.bind fun count => v.toMat.bind fun m => (selMat z count m).bind fun r => .ok (.mat r)
  else u.toVec.bind fun count => v.toVec.bind fun data => (selVec z data count data.length).bind fun r => .ok (.vec r)

/-- `value/binary.go:1456-1471`: the first loop of `fill`: the length of the result and the number of positive counts. -/
def fillCount : List Small → Nat × Nat → R (Nat × Nat)
  | [], s => .ok s
  | none :: _, _ => .err "fill: left operand must be small integers"
  | some y :: r, s =>
    if y = 0 then fillCount r (s.1 + 1, s.2)
    else if y < 0 then fillCount r (s.1 + (-y).toNat, s.2)
    else fillCount r (s.1 + y.toNat, s.2 + 1)

/-- `value/binary.go:1486-1501`: the second loop of `fill`: the result so far and the next element of the right operand.
Simplified: the appends of a turn are one. -/
def fillStep (zero : α) (j : List α) (x : Small) (s : List α × Nat) : R (List α × Nat) :=
  match x with
  | none => .crash
  | some y =>
    if y = 0 then .ok (s.1 ++ [zero], s.2)
    else if y < 0 then .ok (s.1 ++ List.replicate (-y).toNat zero, s.2)
    else (vAt j s.2).bind fun e => .ok (s.1 ++ List.replicate y.toNat e, s.2 + 1)

/-- `value/binary.go:1449-1503`: `fill` of vectors. -/
def fillVec (isChar : α → Bool) (blank zero : α) (i : List Small) (j : List α) : R (List α) :=
  if i.length = 0 then .ok [] else
  (fillCount i (0, 0)).bind fun s =>
  if s.2 ≠ j.length then .err "fill: count > 0 on left must equal length of right" else
  if s.1 > 100000000 then .err "fill: result too large" else
  (loopOver (fillStep (if j.all isChar then blank else zero) j) i ([], 0)).bind fun r => .ok r.1

/-- `value/binary.go:1444-1505`: `fill`, which is only defined on vectors. -/
def fill (isChar : α → Bool) (blank zero : α) (u : V Small) (v : V α) : R (V α) :=
  if u.isMat ∨ v.isMat then .err "binary fill not implemented on type matrix"
  else u.toVec.bind fun i => v.toVec.bind fun j => (fillVec isChar blank zero i j).bind fun r => .ok (.vec r)

/-- `value/vector.go:517-520`: the variables of `doPartition`. -/
structure PartSt (α : Type) where
  accum : List α
  result : List (List α)
  dim : Int
  prev : Nat

/-- `value/vector.go:520-533`: one turn of the loop of `doPartition`. -/
def partStep (v : List α) (score : List Small) (i : Nat) (s : PartSt α) : R (PartSt α) :=
  let j := i % score.length
  (uintAt score j "part: score").bind fun sc =>
  (if sc ≠ 0 then
    (vAt v i).bind fun x =>
    if 0 < i ∧ (s.prev < sc ∨ j = 0) ∧ 0 < s.accum.length then .ok ([x], s.result ++ [s.accum])
    else R.ok (s.accum ++ [x], s.result)
  else .ok (s.accum, s.result)).bind fun ar =>
  .ok ⟨ar.1, ar.2, if s.dim < 0 ∧ 0 < i ∧ j = 0 then ar.2.length else s.dim, sc⟩

/-- `value/vector.go:516-538`: `doPartition`. -/
def doPartition (v : List α) (score : List Small) : R (List (List α) × Int) :=
  (loop (partStep v score) (List.range v.length) ⟨[], [], -1, 0⟩).bind fun s =>
  .ok (if 0 < s.accum.length then s.result ++ [s.accum] else s.result, s.dim)

/-- `value/vector.go:504-510`: `partition` of a vector. -/
def partVec (v : List α) (score : List Small) : R (List (List α)) :=
  if score.length ≠ v.length then .err "part: length mismatch" else
  (doPartition v score).bind fun r => .ok r.1

/-- `value/matrix.go:359-366`: the loop of `NewMatrix` for dimensions that can be negative. -/
def prodCheckZ (n : Int) : List Int → R Int
  | [] => .ok n
  | d :: ds => if n * d > maxInt then .err "matrix too large" else prodCheckZ (n * d) ds

/-- `value/matrix.go:354-375`: `NewMatrix` for a shape that can be negative: the shape and the data it stores. -/
def newMatrixZ (shape : List Int) (data : List α) : R (List Int × List α) :=
  (match shape with
    | [] => R.ok 0
    | d :: ds => prodCheckZ d ds).bind fun nelems =>
  if nelems ≠ data.length then .err "inconsistent shape and data size" else .ok (shape, data)

/-- `value/matrix.go:892-918`: `partition` of a matrix: the shape, of which dimensions can be negative, and the elements. -/
def partMat (scoreM : Mat Small) (m : Mat α) : R (List Int × List (List α)) :=
  if scoreM.shape.length ≠ 1 then .err "part: left argument must be scalar or vector" else
  (vAt m.shape (m.shape.length - 1)).bind fun lastDim =>
  (vAt scoreM.shape 0).bind fun n0 =>
  (if n0 = 1 then
    (uintAt scoreM.data 0 "part: score").bind fun n => R.ok (List.replicate lastDim (some (n : Int)))
  else .ok scoreM.data).bind fun score =>
  if score.length ≠ lastDim then .err "part: length mismatch" else
  (doPartition m.data score).bind fun rd =>
  newMatrixZ ((m.shape.take (m.shape.length - 1)).map (fun d : Nat => (d : Int)) ++ [rd.2]) rd.1

/-- `value/binary.go:1529-1540`: `part`. The shape and the elements of the result, each of which is a vector. -/
def part [Wide α] (u : V Small) (v : V α) : R (List Int × List (List α)) :=
  if u.isMat ∨ v.isMat then u.toMat.bind fun score => v.toMat.bind fun m => partMat score m
  else u.toVec.bind fun score => v.toVec.bind fun l => (partVec l score).bind fun r => .ok ([(r.length : Int)], r)

end Verif.Arr
