import Verif.Arr.EvalModel

/-!
# Catenation

`value/matrix.go:610-747`, `value/vector.go:656-662`, `value/binary.go:1301-1327`.
-/

namespace Verif.Arr
variable {α : Type}

/-- `value/matrix.go:633-635` and `:638-640`: one of the two loops of `copyElems`. -/
def copyRun (src : List α) (off dst n : Nat) (e : Ed α) : R (Ed α) :=
  loop (fun k e => (vAt src (off + k)).bind fun a => e.put (dst + k) a) (List.range n) e

/-- `value/matrix.go:630-644`: `copyElems`; the variables are `di`, `li`, `ri` and the data. -/
def copyElems (x y : List α) (nLeft advLeft nRight advRight nrows : Nat) (e : Ed α) : R (Ed α) :=
  (loop (fun _ (s : Nat × Nat × Nat × Ed α) =>
    (copyRun x s.2.1 s.1 nLeft s.2.2.2).bind fun e =>
    (copyRun y s.2.2.1 (s.1 + nLeft) nRight e).bind fun e =>
    .ok (s.1 + nLeft + nRight, s.2.1 + advLeft, s.2.2.1 + advRight, e)) (List.range nrows) (0, 0, 0, e)).bind fun s => .ok s.2.2.2

/-- The end of each case of `catenate`: the copying and `NewMatrix` (`value/matrix.go:687`); `shape` is `m.shape` but for the last dimension, which is
`last` with the extra (`value/matrix.go:625-629`). -/
def catRows (lead : List Nat) (last : Nat) (x y : List α) (len nLeft advLeft nRight advRight nrows : Nat) : R (Mat α) :=
  (copyElems x y nLeft advLeft nRight advRight nrows (newEd len)).bind fun e => e.publish.bind fun d => newMatrix (lead ++ [last]) d

/-- `value/matrix.go:610-688`: `catenate`. The divisions (`:659`, `:667`) panic if there are no rows. -/
def catenate (x y : Mat α) : R (Mat α) :=
  if x.shape.length = 0 ∨ y.shape.length = 0 then .err "rank 0 matrix for ," else
  (vAt x.shape (x.shape.length - 1)).bind fun xl =>
  (vAt y.shape (y.shape.length - 1)).bind fun yl =>
  let xs := x.shape.take (x.shape.length - 1)
  let ys := y.shape.take (y.shape.length - 1)
  if x.shape.length = y.shape.length ∧ xs = ys then
    (size xs).bind fun nrows =>
    catRows xs (xl + yl) x.data y.data (x.data.length + y.data.length) xl xl yl yl nrows
  else if x.shape.length = y.shape.length + 1 ∧ xs = y.shape then
    (size xs).bind fun nrows =>
    (size y.shape).bind fun n =>
    if nrows = 0 then .crash else
    catRows xs (xl + 1) x.data y.data (x.data.length + y.data.length) xl xl (n / nrows) (n / nrows) nrows
  else if x.shape.length + 1 = y.shape.length ∧ x.shape = ys then
    (size ys).bind fun nrows =>
    (size x.shape).bind fun n =>
    if nrows = 0 then .crash else
    catRows ys (yl + 1) x.data y.data (y.data.length + x.data.length) (n / nrows) (n / nrows) yl yl nrows
  else if x.shape.length = 1 ∧ x.shape.head? = some 1 ∧ 1 < y.shape.length then
    (size ys).bind fun nrows =>
    catRows ys (yl + 1) x.data y.data (y.data.length + nrows) 1 0 yl yl nrows
  else if 1 < x.shape.length ∧ y.shape.length = 1 ∧ y.shape.head? = some 1 then
    (size xs).bind fun nrows =>
    catRows xs (xl + 1) x.data y.data (x.data.length + nrows) xl xl 1 0 nrows
  else .err "catenate shape mismatch"

/-- `value/matrix.go:690-747`: `catenateFirst`. -/
def catenateFirst (x y : Mat α) : R (Mat α) :=
  if x.shape.length = 0 ∨ y.shape.length = 0 then .err "rank 0 matrix for ,%" else
  (vAt x.shape 0).bind fun x0 =>
  (vAt y.shape 0).bind fun y0 =>
  if x.shape.length = y.shape.length ∧ x.shape.drop 1 = y.shape.drop 1 then newMatrix ((x0 + y0) :: x.shape.drop 1) (x.data ++ y.data)
  else if x.shape.length = y.shape.length + 1 ∧ x.shape.drop 1 = y.shape then newMatrix ((x0 + 1) :: x.shape.drop 1) (x.data ++ y.data)
  else if x.shape.length + 1 = y.shape.length ∧ x.shape = y.shape.drop 1 then newMatrix ((y0 + 1) :: y.shape.drop 1) (x.data ++ y.data)
  else if x.shape.length = 1 ∧ x0 = 1 ∧ 1 < y.shape.length then
    (vAt x.data 0).bind fun a => (size (y.shape.drop 1)).bind fun n => newMatrix ((y0 + 1) :: y.shape.drop 1) (List.replicate n a ++ y.data)
  else if 1 < x.shape.length ∧ y.shape.length = 1 ∧ y0 = 1 then
    (size (x.shape.drop 1)).bind fun n => (vAt y.data 0).bind fun b => newMatrix ((x0 + 1) :: x.shape.drop 1) (x.data ++ List.replicate n b)
  else .err "catenateFirst shape mismatch"

/-- `value/binary.go:1301-1313`: the operator `,`, and `value/vector.go:656-662`. -/
def catOp [Wide α] (u v : V α) : R (V α) :=
  if u.isMat ∨ v.isMat then u.toMat.bind fun x => v.toMat.bind fun y => (catenate x y).bind fun r => .ok (.mat r)
  else u.toVec.bind fun x => v.toVec.bind fun y => .ok (.vec (x ++ y))

/-- `value/binary.go:1315-1327`: the operator `,%`. -/
def catFirstOp [Wide α] (u v : V α) : R (V α) :=
  if u.isMat ∨ v.isMat then u.toMat.bind fun x => v.toMat.bind fun y => (catenateFirst x y).bind fun r => .ok (.mat r)
  else u.toVec.bind fun x => v.toVec.bind fun y => .ok (.vec (x ++ y))

end Verif.Arr
