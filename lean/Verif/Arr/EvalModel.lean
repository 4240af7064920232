import Verif.Arr.IndexModel
import Verif.Arr.Model

/-!
# Reductions, scans, products and elementwise operators

The operator applied to elements is `f`, the effect of `c.EvalBinary(x, op, y)` (`exec/context.go:187-213`); elements may
be nested values.  Simplified: `f` depends on its operands only, so operators of the user that print or assign global
variables are left out.
-/

namespace Verif.Arr
variable {α : Type}

/-- `value/eval.go:183-189`: `knownAssoc`. -/
def knownAssoc (op : String) : Bool := op ∈ ["+", "*", "min", "max", "or", "and", "xor", "|", "&", "^"]

/-- `exec/context.go:187-225`: `EvalBinary` of a name that is not a product or an each: an operator of the user is looked
up before the one built in. -/
def evalBinary (user builtin : String → Option (α → α → R α)) (op : String) (x y : α) : R α :=
  match user op with
  | some f => f x y
  | none =>
    match builtin op with
    | some f => f x y
    | none => .err "binary not implemented"

/-- The step `acc = c.EvalBinary(v.At(i), op, acc)` (`value/eval.go:335`, `:357`, `:396`). -/
def accStep (f : α → α → R α) (l : List α) (i : Nat) (acc : α) : R α := (vAt l i).bind fun x => f x acc

/-- `value/eval.go:329-337`: `Reduce` of a vector that is not empty. -/
def reduceList (f : α → α → R α) (l : List α) : R α :=
  (vAt l (l.length - 1)).bind fun acc => loop (accStep f l) (List.range (l.length - 1)).reverse acc

/-- `value/eval.go:350-360`: row `i` in `Reduce`; `pos` is `index + stride - 1 - j`. -/
def reduceRow (f : α → α → R α) (data : List α) (stride i : Nat) : R α :=
  (vAt data (stride * i + stride - 1)).bind fun acc =>
  loop (fun j acc => accStep f data (stride * i + stride - 1 - j) acc) (List.range' 1 (stride - 1)) acc

/-- `value/eval.go:323-368`: `Reduce`. `num` says whether a single value is a number (`value/eval.go:327`). -/
def reduce (S : Sched) (num : α → Bool) (f : α → α → R α) : V α → R (V α)
  | .elem x => if num x then .ok (.elem x) else .err "can't do reduce"
  | .vec l => if l.length = 0 then .ok (.vec l) else (reduceList f l).bind fun x => .ok (.elem x)
  | .mat m =>
    if m.shape.length < 2 then .err "shape for matrix is degenerate" else
    (vAt m.shape (m.shape.length - 1)).bind fun stride =>
    if stride = 0 then .err "shape for matrix is degenerate" else
    (size (m.shape.take (m.shape.length - 1))).bind fun n =>
    (pfor (S.ranges stride n) (each fun i e => (reduceRow f m.data stride i).bind fun x => e.put i x) (newEd n)).bind fun e =>
    e.publish.bind fun d =>
    if (m.shape.take (m.shape.length - 1)).length = 1 then .ok (.vec d)
    else (newMatrix (m.shape.take (m.shape.length - 1)) d).bind fun r => .ok (.mat r)

/-- `value/eval.go:391-399`: column `i` in `ReduceFirst`; the loop `for j := pos - stride; j >= 0; j -= stride`. -/
def reduceCol (f : α → α → R α) (data : List α) (stride i : Nat) : R α :=
  (vAt data (i + data.length - stride)).bind fun acc =>
  loop (accStep f data)
    ((List.range ((i + data.length - stride) / stride)).map fun k => i + data.length - stride - stride * (k + 1)) acc

/-- `value/eval.go:372-406`: `ReduceFirst`. -/
def reduceFirst (S : Sched) (num : α → Bool) (f : α → α → R α) : V α → R (V α)
  | .mat m =>
    if m.shape.length < 2 then .err "shape for matrix is degenerate" else
    (vAt m.shape 0).bind fun d0 =>
    if d0 = 0 then .err "shape for matrix is degenerate" else
    (size (m.shape.drop 1)).bind fun stride =>
    if stride = 0 then .err "shape for matrix is degenerate" else
    (size (m.shape.drop 1)).bind fun n =>
    (pfor (S.ranges stride n) (each fun i e => (reduceCol f m.data stride i).bind fun x => e.put i x) (newEd n)).bind fun e =>
    e.publish.bind fun d =>
    if (m.shape.drop 1).length = 1 then .ok (.vec d)
    else (newMatrix (m.shape.drop 1) d).bind fun r => .ok (.mat r)
  | v => reduce S num f v

/-- `value/eval.go:425-433` and `:450-459`: the values of `Scan` of the `n` elements from `index`, by the short way for
operators known to be associative or by a reduction for each prefix. -/
def scanRow (assoc : Bool) (f : α → α → R α) (data : List α) (index n : Nat) (e : Ed α) : R (Ed α) :=
  (vAt data index).bind fun x =>
  (e.put index x).bind fun e =>
  if assoc then
    loop (fun j e => (e.get (index + j - 1)).bind fun a => (vAt data (index + j)).bind fun x =>
      (f a x).bind fun y => e.put (index + j) y) (List.range' 1 (n - 1)) e
  else
    loop (fun j e => (reduceList f ((data.drop index).take (j + 1))).bind fun y => e.put (index + j) y) (List.range' 1 (n - 1)) e

/-- `value/eval.go:411-464`: `Scan`. -/
def scan (S : Sched) (num : α → Bool) (op : String) (f : α → α → R α) : V α → R (V α)
  | .elem x => if num x then .ok (.elem x) else .err "can't do scan"
  | .vec l =>
    if l.length = 0 then .ok (.vec l) else
    (scanRow (knownAssoc op) f l 0 l.length (newEd l.length)).bind fun e => e.publish.bind fun d => .ok (.vec d)
  | .mat m =>
    if m.shape.length < 2 then .err "shape for matrix is degenerate" else
    (vAt m.shape (m.shape.length - 1)).bind fun stride =>
    if stride = 0 then .err "shape for matrix is degenerate" else
    (size (m.shape.take (m.shape.length - 1))).bind fun nrows =>
    (pfor (S.ranges stride nrows) (each fun i e => scanRow (knownAssoc op) f m.data (i * stride) stride e) (newEd m.data.length)).bind fun e =>
    e.publish.bind fun d => (newMatrix m.shape d).bind fun r => .ok (.mat r)

/-- `value/eval.go:470-490`: `ScanFirst`. -/
def scanFirst (S : Sched) (origin : Nat) (num : α → Bool) (op : String) (f : α → α → R α) : V α → R (V α)
  | .mat m =>
    if m.shape.length < 2 then .err "shape for matrix is degenerate" else
    (vAt m.shape (m.shape.length - 1)).bind fun stride =>
    if stride = 0 then .err "shape for matrix is degenerate" else
    (transpose S origin m).bind fun t =>
    (scan S num op f (.mat t)).bind fun r =>
    match r with
    | .mat r => (transpose S origin r).bind fun r => .ok (.mat r)
    | _ => .crash
  | v => scan S num op f v

/-! ## Products -/

/-- `value/int.go:155-173`, `value/vector.go:398-407`: `toType` to a vector. -/
def V.toVec : V α → R (List α)
  | .elem x => .ok [x]
  | .vec l => .ok l
  | .mat _ => .err "cannot convert matrix to vector"

/-- Which single values become a matrix of rank two rather than one: fractions (`value/bigrat.go:195-196`) and complex numbers
(`value/complex.go:78-79`), but not other numbers nor characters (`value/int.go:169-170`, `value/bigint.go:165-166`, `value/bigfloat.go:159-160`,
`value/char.go:53-54`). -/
class Wide (α : Type) where
  wide : α → Bool

/-- `value/int.go:169-170`: integers. -/
instance : Wide Int := ⟨fun _ => false⟩

/-- `value/int.go:169-170`: natural numbers, for the examples. -/
instance : Wide Nat := ⟨fun _ => false⟩

/-- `value/int.go:169-170`: counts and indexes. Simplified: for `none`, anything but a small integer, the operators that use them end in an
error whichever matrix it becomes. -/
instance : Wide Small := ⟨fun _ => false⟩

/-- `value/int.go:155-173`, `value/bigrat.go:180-200`, `value/vector.go:398-407`: `toType` to a matrix. -/
def V.toMat [Wide α] : V α → R (Mat α)
  | .elem x => newMatrix (if Wide.wide x then [1, 1] else [1]) [x]
  | .vec l => newMatrix [l.length] l
  | .mat m => .ok m

/-- `value/eval.go:86-107`: whether a value is a matrix. -/
def V.isMat : V α → Bool
  | .mat _ => true
  | _ => false

/-- `value/eval.go:254-258` and `:277-280`: an element of an inner product; element `k` of the row and of the column are at
`p k` and `q k`. -/
def innerAcc (f g : α → α → R α) (u v : List α) (p q : Nat → Nat) (n : Nat) : R α :=
  ((vAt u (p (n - 1))).bind fun a => (vAt v (q (n - 1))).bind fun b => g a b).bind fun acc =>
  loop (fun k acc => ((vAt u (p k)).bind fun a => (vAt v (q k)).bind fun b => g a b).bind fun x => f x acc)
    (List.range (n - 1)).reverse acc

/-- `value/eval.go:246-259`: the inner product of vectors. -/
def innerVec (f g : α → α → R α) (u v : List α) : R (V α) :=
  if u.length ≠ v.length then .err "length mismatch" else
  if u.length = 0 then .err "empty inner product" else
  (innerAcc f g u v id id u.length).bind fun x => .ok (.elem x)

/-- `value/eval.go:260-290`: the inner product of matrices; the division by `n` (`:270`) panics if `n` is zero. -/
def innerMat (S : Sched) (f g : α → α → R α) (u v : Mat α) : R (V α) :=
  if u.shape.length < 1 ∨ v.shape.length < 1 ∨ u.shape.getLast? ≠ v.shape.head? then .err "inner product: mismatched shapes" else
  (vAt v.shape 0).bind fun n =>
  if n = 0 then .crash else
  let vstride := v.data.length / n
  let len := u.data.length / n * vstride
  (pfor (S.ranges 1 len) (each fun x e =>
      (innerAcc f g u.data v.data (fun k => x / vstride * n + k) (fun k => x % vstride + k * vstride) n).bind fun y => e.put x y)
    (newEd len)).bind fun e =>
  e.publish.bind fun d =>
  if u.shape.length + v.shape.length - 2 = 1 then .ok (.vec d)
  else (newMatrix (u.shape.take (u.shape.length - 1) ++ v.shape.drop 1) d).bind fun r => .ok (.mat r)

/-- `value/eval.go:295-320`: the elements of an outer product. -/
def outerData (S : Sched) (f : α → α → R α) (u v : List α) : R (List α) :=
  (pfor (S.ranges 1 (u.length * v.length)) (each fun x e =>
      (vAt u (x / v.length)).bind fun a => (vAt v (x % v.length)).bind fun b => (f a b).bind fun y => e.put x y)
    (newEd (u.length * v.length))).bind fun e => e.publish

/-- `value/eval.go:155-167` with `:243-291`: the inner product `f.g`. -/
def inner [Wide α] (S : Sched) (f g : α → α → R α) (u v : V α) : R (V α) :=
  if u.isMat ∨ v.isMat then u.toMat.bind fun u => v.toMat.bind fun v => innerMat S f g u v
  else u.toVec.bind fun u => v.toVec.bind fun v => innerVec f g u v

/-- `value/eval.go:155-167` with `:295-320`: the outer product `o.f`. That `append(u.Shape(), …)` may overwrite the shape of
another matrix is the subject of C33. -/
def outer [Wide α] (S : Sched) (f : α → α → R α) (u v : V α) : R (V α) :=
  if u.isMat ∨ v.isMat then u.toMat.bind fun u => v.toMat.bind fun v =>
    (outerData S f u.data v.data).bind fun d => (newMatrix (u.shape ++ v.shape) d).bind fun r => .ok (.mat r)
  else u.toVec.bind fun u => v.toVec.bind fun v =>
    (outerData S f u v).bind fun d => (newMatrix [u.length, v.length] d).bind fun r => .ok (.mat r)

/-! ## Elementwise operators -/

/-- The body of the loops of `binaryVectorOp` and `binaryMatrixOp` (`value/eval.go:674-757`): element `k` comes from `p k` and `q k`. -/
def zipData (S : Sched) (f : α → α → R α) (u v : List α) (p q : Nat → Nat) (n : Nat) : R (List α) :=
  (pfor (S.ranges 1 n) (each fun k e =>
      (vAt u (p k)).bind fun a => (vAt v (q k)).bind fun b => (f a b).bind fun y => e.put k y) (newEd n)).bind fun e => e.publish

/-- `value/eval.go:673-701`: `binaryVectorOp`. -/
def binaryVec (S : Sched) (f : α → α → R α) (u v : List α) : R (List α) :=
  if u.length = 1 then zipData S f u v (fun _ => 0) id v.length else
  if v.length = 1 then zipData S f u v id (fun _ => 0) u.length else
  if u.length ≠ v.length then .err "length mismatch" else zipData S f u v id id u.length

/-- `value/eval.go:766-773`: `isScalar`. -/
def isScalarShape (s : List Nat) : Bool := s.all (· == 1)

/-- `value/eval.go:777-787`: `isVector`. -/
def isVectorShape (u shape : List Nat) : Bool :=
  !(u.length == 0 || shape.length == 0 || u.head? != shape.getLast?) && (u.drop 1).all (· == 1)

/-- `value/eval.go:704-758`: `binaryMatrixOp`. `k % dim` with `dim` zero is never reached, as there are then no elements. -/
def binaryMat (S : Sched) (f : α → α → R α) (u v : Mat α) : R (Mat α) :=
  if isScalarShape u.shape then (zipData S f u.data v.data (fun _ => 0) id v.data.length).bind (newMatrix v.shape)
  else if isScalarShape v.shape then (zipData S f u.data v.data id (fun _ => 0) u.data.length).bind (newMatrix u.shape)
  else if isVectorShape u.shape v.shape then
    (zipData S f u.data v.data (fun k => k % u.shape.headD 0) id v.data.length).bind (newMatrix v.shape)
  else if isVectorShape v.shape u.shape then
    (zipData S f u.data v.data id (fun k => k % v.shape.headD 0) u.data.length).bind (newMatrix u.shape)
  else if u.shape ≠ v.shape then .err "shape mismatch"
  else (zipData S f u.data v.data id id u.data.length).bind (newMatrix u.shape)

/-- `value/eval.go:109-129`: an elementwise operator. -/
def elementwise [Wide α] (S : Sched) (f : α → α → R α) : V α → V α → R (V α)
  | .elem x, .elem y => (f x y).bind fun z => .ok (.elem z)
  | u, v =>
    if u.isMat ∨ v.isMat then u.toMat.bind fun u => v.toMat.bind fun v => (binaryMat S f u v).bind fun r => .ok (.mat r)
    else u.toVec.bind fun u => v.toVec.bind fun v => (binaryVec S f u v).bind fun r => .ok (.vec r)

/-- `value/eval.go:649-670`: `unaryVectorOp` and `unaryMatrixOp`. -/
def mapData (S : Sched) (f : α → R α) (u : List α) : R (List α) :=
  (pfor (S.ranges 1 u.length) (each fun k e => (vAt u k).bind fun a => (f a).bind fun y => e.put k y) (newEd u.length)).bind fun e => e.publish

/-- `value/eval.go:649-670`: an elementwise unary operator. -/
def unaryElementwise (S : Sched) (f : α → R α) : V α → R (V α)
  | .elem x => (f x).bind fun y => .ok (.elem y)
  | .vec l => (mapData S f l).bind fun d => .ok (.vec d)
  | .mat m => (mapData S f m.data).bind fun d => (newMatrix m.shape d).bind fun r => .ok (.mat r)

end Verif.Arr
