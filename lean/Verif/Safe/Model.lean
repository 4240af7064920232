import Verif.Num.CModel
import Verif.Order.Model
import Verif.Arr.SelModel
import Verif.Arr.CatModel
import Verif.Arr.WhereModel
import Verif.Arr.MixModel
import Verif.Arr.InvModel
import Verif.Arr.RadixModel
import Verif.Arr.EachModel
import Verif.Arr.IndexModel
import Verif.Arr.Model
import Verif.Exec.Model

/-!
# The interpreter with its built-in operators

The models of the operators are for elements of any type. Here they are put together on nested values: `F1` and `F2` are the unary and binary
operators that names stand for, `ivy` the evaluator's view of them (`Verif.Exec.Sem`).

Simplified: floating-point numbers do not exist, an operation that would make one is an error; complex numbers are not ordered, and `decode` and
`encode` work on real numbers only (an error otherwise); operators that need more than the values they are given (`?`, `print`, `ivy`, `text`,
`sys`, functions on floating-point numbers, `mdiv`) are not there; operators defined by the user are not found inside derived operators such as
reductions (an error).

`guard` is not in the code: if it is set, what is known to end in a run-time fault is refused with the error `refused`. Without it this is the
code.
-/

namespace Verif.Safe
open Verif.Arr Verif.Num
open Verif.Order (Val)

/-- What an evaluation depends on besides the values: how parallel loops are divided (`value/eval.go:202-235`), `)maxbits`, `)origin`, and Go's
sorting functions. `guard` is explained above. -/
structure Conf where
  S : Sched
  mb : Nat
  origin : Nat
  lib : Order.SortLib
  guard : Bool

/-- The error of an operation that is refused. -/
def refused : String := "refused"

/-- An operation that is known to fault unless `b`. Not in the code. -/
def need (c : Conf) (b : Bool) (r : R Val) : R Val := if c.guard && !b then .err refused else r

/-! ## Values -/

/-- A value as the operators on arrays see it (`value/eval.go:86-107`). -/
def toV : Val → V Val
  | .vec l => .vec l
  | .mat s d => .mat ⟨s, d⟩
  | x => .elem x

/-- A value as it is kept. -/
def ofV : V Val → Val
  | .elem x => x
  | .vec l => .vec l
  | .mat m => .mat m.shape m.data

/-- The same array of other elements. -/
def mapV {α β : Type} (f : α → β) : V α → V β
  | .elem x => .elem (f x)
  | .vec l => .vec (l.map f)
  | .mat m => .mat ⟨m.shape, m.data.map f⟩

/-- A scalar (`value/eval.go:761-763`). -/
def toC : Val → Option CNum
  | .num n => some (.num n)
  | .cplx a b => some (.cx ⟨a, b⟩)
  | _ => none

/-- A scalar as a value. -/
def ofC : CNum → Val
  | .num n => .num n
  | .cx c => .cplx c.re c.im

/-- An integer made by the interpreter: Go's `int` has 64 bits. -/
def intVal (i : Int) : Val := .num (.int (Num.wrap64 i))

/-- A value where a small integer is wanted: the assertion `.(Int)` (`value/eval.go:1010-1015` and others). -/
def small : Val → Small
  | .num (.int i) => some i
  | _ => none

/-- `value/bigrat.go:195-196`, `value/complex.go:78-79`: which single values become a matrix of rank two. -/
instance : Wide Val := ⟨fun
  | .num (.bigRat _) => true
  | .cplx _ _ => true
  | _ => false⟩

/-- `value/const.go:33`. -/
def zeroV : Val := .num (.int 0)

/-- `value/const.go:34`. -/
def oneV : Val := .num (.int 1)

/-- `value/char.go:16`: a character. -/
def isChar : Val → Bool
  | .num (.char _) => true
  | _ => false

/-- `value/vector.go:343-350`: `AllChars`. -/
def allChar (l : List Val) : Bool := l.all isChar

/-- `value/vector.go:311-335`: `fillValue`: a zero, or a blank if there are only characters, of the shape of the first element. Simplified: `NewMatrix`,
which cannot fail with the shape of a matrix, is left out. -/
def fillValue (l : List Val) : Val :=
  let fill : Val := if allChar l then .num (.char 32) else zeroV
  match l with
  | [] => zeroV
  | .vec d :: _ => .vec (List.replicate d.length fill)
  | .mat s d :: _ => .mat s (List.replicate d.length fill)
  | _ => fill

/-- A single value that is not a character: the types that `value/eval.go:310-316` lets through. -/
def isNumber : Val → Bool
  | .num (.char _) => false
  | .num _ => true
  | .cplx _ _ => true
  | _ => false

/-- The outcome of an operation on scalars; floating point is not modelled. -/
def ofRes : Res CNum → R Val
  | .ok x => .ok (ofC x)
  | .err => .err "arithmetic"
  | .crash => .crash
  | .float => .err "floating point is not modelled"

/-- The elements, if all are real numbers or characters. -/
def nums : List Val → Option (List Num)
  | [] => some []
  | .num n :: r => (nums r).map (n :: ·)
  | _ :: _ => none

/-- An array of real numbers or characters; for others `decode` and `encode` are not modelled. -/
def toNums : Val → R (V Num)
  | .num n => .ok (.elem n)
  | .vec l => match nums l with | some d => .ok (.vec d) | none => .err "not modelled"
  | .mat s l => match nums l with | some d => .ok (.mat ⟨s, d⟩) | none => .err "not modelled"
  | .cplx _ _ => .err "not modelled"

/-- An optional value; none is an error. -/
def orErr : Option Val → R Val
  | some v => .ok v
  | none => .err "invalid argument"

/-- The Go value as the result of an operator on arrays. -/
def back (r : R (V Val)) : R Val := r.bind fun v => .ok (ofV v)

/-- An array of integers, or of vectors of integers, as a value. -/
def ofInts (v : V (V Int)) : Val := ofV (mapV (fun w => ofV (mapV intVal w)) v)

/-- Whether a matrix has elements; anything but a matrix is fine. -/
def solid : Val → Bool
  | .mat _ d => !d.isEmpty
  | _ => true

/-! ## Elementwise operators -/

/-- The unary operators on scalars: `value/unary.go:217-239, 288-330, 360-621, 1166-1180`. -/
inductive S1 where
  | base (o : COp1)
  | floor | ceil | abs | sgn | fac | compl | char | code
deriving DecidableEq

/-- The binary operators on scalars: `value/binary.go:197-925, 1203-1283`. -/
inductive S2 where
  | j
  | op (o : Op2)
deriving DecidableEq

/-- A unary operator that is modelled on real numbers only. -/
def real1 (o : Op1) : CNum → Res CNum
  | .num n => asNum (o.impl.eval n)
  | .cx _ => .float

/-- `value/char.go:60-65` and Go's `utf8.ValidRune`. The conversion of an `Int` to `Char` takes 32 bits. -/
def toChar (i : Int) : Res CNum :=
  let r := (i + 2 ^ 31) % 2 ^ 32 - 2 ^ 31
  if (0 ≤ r ∧ r < 0xD800) ∨ (0xDFFF < r ∧ r ≤ 0x10FFFF) then .ok (.num (.char r)) else .err

/-- The operators on one scalar. The complex operand of `floor` is its own argument, so `same` is true (`value/complex.go`, C57). -/
def S1.eval (mb : Nat) : S1 → CNum → Res CNum
  | .base o => o.eval mb
  | .floor => cFloor mb true
  | .ceil => cCeil mb
  | .abs => real1 .abs
  | .sgn => real1 .sgn
  | .fac => real1 .fac
  | .compl => real1 .compl
  | .char => fun x => match x with | .num (.int i) => toChar i | _ => .err
  | .code => fun x => match x with | .num (.char k) => .ok (.num (.int (Num.wrap64 k))) | _ => .err

/-- The binary operators that are modelled on complex numbers too. -/
def Op2.cplx : Op2 → Option COp2
  | .add => some .add | .sub => some .sub | .mul => some .mul | .quo => some .quo | .eq => some .eq | .ne => some .ne
  | _ => none

/-- A binary operator that is modelled on real numbers only. -/
def real2 (mb : Nat) (o : Op2) : CNum → CNum → Res CNum
  | .num a, .num b => asNum ((o.impl mb).eval a b)
  | _, _ => .float

/-- The operators on two scalars. -/
def S2.eval (mb : Nat) : S2 → CNum → CNum → Res CNum
  | .j => COp2.j.eval mb
  | .op o => match Op2.cplx o with
    | some d => d.eval mb
    | none => real2 mb o

/-- `value/eval.go:28-58` and `:649-670`: an elementwise unary operator on a value of any depth; the elements are operands of the same operator. The
first argument bounds the depth. -/
def un1 (c : Conf) (o : S1) : Nat → Val → R Val
  | 0, _ => .hang
  | n + 1, v => match toC v with
    | some x => ofRes (o.eval c.mb x)
    | none => back (unaryElementwise c.S (un1 c o n) (toV v))

/-- `value/eval.go:60-84`, `:109-129` and `:672-757`: an elementwise binary operator on values of any depth. -/
def bin2 (c : Conf) (o : S2) : Nat → Val → Val → R Val
  | 0, _, _ => .hang
  | n + 1, u, v => match toC u, toC v with
    | some x, some y => ofRes (o.eval c.mb x y)
    | _, _ => back (elementwise c.S (bin2 c o n) (toV u) (toV v))

mutual
/-- How deep a value is nested; for the bounds above. -/
def depth : Val → Nat
  | .num _ => 0
  | .cplx _ _ => 0
  | .vec l => depths l + 1
  | .mat _ l => depths l + 1

/-- The depth of the deepest. -/
def depths : List Val → Nat
  | [] => 0
  | x :: xs => max (depth x) (depths xs)
end

/-- An elementwise unary operator. -/
def elem1 (c : Conf) (o : S1) (v : Val) : R Val := un1 c o (depth v + 1) v

/-- An elementwise binary operator. -/
def elem2 (c : Conf) (o : S2) (u v : Val) : R Val := bin2 c o (max (depth u) (depth v) + 1) u v

/-! ## Binary operators -/

/-- The binary operators: elementwise ones, those of `value/binary.go:953-1630` and the derived ones (`value/eval.go:150-166`, `:577-618`). The
name of an `each` is kept with its `@`s; the operator itself is `f`. `no` is an operator that is not there. -/
inductive F2 where
  | s (o : S2)
  | rho | rot | flip | transp | take | drop | decode | encode | mem | iota | cat | catFirst | fill | sel | part | same | notSame | intersect | union
  | inner (f g : F2)
  | outer (f : F2)
  | each (op : List Char) (f : F2)
  | no (msg : String)
deriving DecidableEq

/-- `value/eval.go:577-618`: `BinaryEach`, with what remains of the name evaluated by `context.EvalBinary` (`exec/context.go:199-202`) down to the
operator itself. The first number bounds how often. -/
def eachB (h : Val → Val → R Val) : Nat → List Char → Val → Val → R Val
  | 0, _, _, _ => .hang
  | n + 1, op, u, v =>
    if op.head? = some '@' ∨ op.getLast? = some '@' then
      (BinaryEach (fun name x y (s : Unit) => (eachB h n name (ofV x) (ofV y)).bind fun z => .ok (z, s)) op (toV u) (toV v) ()).bind fun r =>
        .ok (ofV r.1)
    else h u v

/-- `value/binary.go:1285-1301`: `rho`. -/
def rhoOp (u v : Val) : R Val :=
  if (toV u).isMat ∨ (toV v).isMat then
    (toV u).toMat.bind fun a => (toV v).toMat.bind fun b =>
    if a.shape.length ≠ 1 then .err "lhs of rho cannot be matrix" else back (reshape zeroV (a.data.map small) b.data)
  else (toV u).toVec.bind fun a => (toV v).toVec.bind fun b => back (reshape zeroV (a.map small) b)

/-- `value/binary.go:1403-1443`: `rot` and `flip`. -/
def rotOp (f : Mat Small → Mat Val → R (Mat Val)) (u v : Val) : R Val :=
  if (toV u).isMat ∨ (toV v).isMat then
    (toV u).toMat.bind fun a => (toV v).toMat.bind fun b => (f ⟨a.shape, a.data.map small⟩ b).bind fun m => .ok (.mat m.shape m.data)
  else (toV u).toVec.bind fun a => (toV v).toVec.bind fun b => back (rotVec (a.map small) b)

/-- `value/binary.go:1543-1556`: `transp`. -/
def transpOp (c : Conf) (u v : Val) : R Val :=
  (toV u).toVec.bind fun a => (toV v).toMat.bind fun b => back (transpBy c.S c.origin (a.map small) b)

/-- `value/binary.go:1330-1401`: `take` and `drop`. -/
def takeDrop (f : List Small → V Val → R (V Val)) (u v : Val) : R Val :=
  (toV u).toVec.bind fun a => back (f (a.map small) (toV v))

/-- `value/binary.go:1116-1132`: `in`. -/
def memOp (c : Conf) (u v : Val) : R Val :=
  if (toV u).isMat ∨ (toV v).isMat then
    (toV u).toMat.bind fun a => (toV v).toMat.bind fun b =>
    let d := (Order.membership c.lib a.data b.data).map Val.num
    if a.shape.length ≤ 1 then .ok (Order.shrinkVec d) else (newMatrix a.shape d).bind fun m => .ok (.mat m.shape m.data)
  else (toV u).toVec.bind fun a => (toV v).toVec.bind fun b => .ok (Order.inOp c.lib a b)

/-- `value/binary.go:1169-1198`: `iota` on matrices. -/
def iotaRows (c : Conf) (a b : Mat Val) : R Val :=
  if a.shape.length - 1 > b.shape.length ∨ a.shape.drop 1 ≠ b.shape.drop (b.shape.length - (a.shape.length - 1)) then .err "iota: mismatched shapes"
  else
    (vAt a.shape 0).bind fun rows =>
    if rows = 0 then .crash
    else if a.data.length / rows = 0 then .crash
    else
      let shape := b.shape.take (b.shape.length - (a.shape.length - 1))
      let d := (Order.indexOfRows c.origin rows a.data b.data).map intVal
      if shape.length ≤ 1 then .ok (.vec d) else back ((newMatrix shape d).bind fun m => .ok (.mat m))

/-- `value/binary.go:1135-1200`: `iota`. -/
def iotaOp2 (c : Conf) (u v : Val) : R Val :=
  if (toV u).isMat ∨ (toV v).isMat then (toV u).toMat.bind fun a => (toV v).toMat.bind fun b => iotaRows c a b
  else (toV u).toVec.bind fun a => (toV v).toVec.bind fun b => .ok (.vec ((Order.indexOf c.lib c.origin a b).map intVal))

/-- `value/binary.go:1530-1541`: `part`: every part is a vector. A dimension below zero, which the code allows itself to make, counts as a fault. -/
def partOp (u v : Val) : R Val :=
  (part (mapV small (toV u)) (toV v)).bind fun r =>
  if (toV u).isMat ∨ (toV v).isMat then
    if r.1.all (0 ≤ ·) then .ok (.mat (r.1.map Int.toNat) (r.2.map Val.vec)) else .crash
  else .ok (.vec (r.2.map Val.vec))

/-- `value/binary.go:953-1114`: `decode` and `encode`, on real numbers. -/
def radixOp (f : V Num → V Num → R (V Num)) (u v : Val) : R Val :=
  (toNums u).bind fun a => (toNums v).bind fun b => (f a b).bind fun r => .ok (ofV (mapV Val.num r))

/-- What `decode` of a matrix must not be: without rows, a vector, or one row of digits but no base. -/
def decodeFine (u v : Val) : Bool :=
  match toV u, toV v with
  | .mat _, _ => true
  | a, .mat b => 2 ≤ b.shape.length && b.shape.head? ≠ some 0 && (b.shape.head? ≠ some 1 || b.data.isEmpty || !a.data.isEmpty)
  | _, _ => true

/-- Whether, if one operand is a matrix, the second has elements. -/
def dense (u v : Val) : Bool := !((toV u).isMat || (toV v).isMat) || !(toV v).data.isEmpty

/-- The binary operators at work. -/
def F2.eval (c : Conf) : F2 → Val → Val → R Val
  | .s o => elem2 c o
  | .rho => rhoOp
  | .rot => fun u v => need c (dense u v) (rotOp (rotMat c.S) u v)
  | .flip => fun u v => need c (dense u v) (rotOp (flipMat c.S) u v)
  | .transp => transpOp c
  | .take => takeDrop (takeOp fillValue)
  | .drop => takeDrop (dropOp fillValue)
  | .decode => fun u v => need c (decodeFine u v) (radixOp (Arr.decode c.S c.mb) u v)
  | .encode => radixOp (Arr.encode c.S)
  | .mem => memOp c
  | .iota => fun u v => need c (dense v u) (iotaOp2 c u v)
  | .cat => fun u v => need c (solid u && solid v) (back (catOp (toV u) (toV v)))
  | .catFirst => fun u v => back (catFirstOp (toV u) (toV v))
  | .fill => fun u v => back (Arr.fill isChar (.num (.char 32)) zeroV (mapV small (toV u)) (toV v))
  | .sel => fun u v => need c (solid v) (back (Arr.sel allZeros (mapV small (toV u)) (toV v)))
  | .part => fun u v => need c (solid v) (partOp u v)
  | .same => fun u v => .ok (Order.equal u v)
  | .notSame => fun u v => .ok (Order.notEqual u v)
  | .intersect => fun u v => orErr (Order.intersect c.lib u v)
  | .union => fun u v => orErr (Order.union c.lib u v)
  | .inner f g => fun u v => need c (solid u && solid v) (back (Arr.inner c.S (f.eval c) (g.eval c) (toV u) (toV v)))
  | .outer f => fun u v => back (Arr.outer c.S (f.eval c) (toV u) (toV v))
  | .each op f => eachB (f.eval c) (op.length + 1) op
  | .no msg => fun _ _ => .err msg

/-! ## Unary operators -/

/-- The unary operators: elementwise ones, those of `value/unary.go:241-1290` and the derived ones (`exec/context.go:131-155`). A scan keeps the name of
its operator, which tells whether it is associative (`value/eval.go:182-190`). -/
inductive F1 where
  | s (o : S1)
  | plus | iota | where_ | rho | count | flatten | ravel | up | down | rot | flip | transp | inv | split | mix | unique | box | first
  | reduce (f : F2)
  | reduceFirst (f : F2)
  | scan (name : String) (f : F2)
  | scanFirst (name : String) (f : F2)
  | each (op : List Char) (f : F1)
  | no (msg : String)
deriving DecidableEq

/-- `value/eval.go:626-646`: `Each`, with what remains of the name evaluated by `context.EvalUnary` (`exec/context.go:151-153`) down to the operator
itself. -/
def eachU (h : Val → R Val) : Nat → List Char → Val → R Val
  | 0, _, _ => .hang
  | n + 1, op, v =>
    if 1 < op.length ∧ op.getLast? = some '@' then
      (Each (fun name x (s : Unit) => (eachU h n name (ofV x)).bind fun y => .ok (y, s)) op (toV v) ()).bind fun r => .ok (ofV r.1)
    else h v

mutual
/-- `value/eval.go:1033-1062`: `flatten`. -/
def flattenV : Val → List Val
  | .vec l => flattenL l
  | .mat _ l => flattenL l
  | x => [x]

/-- `value/eval.go:1048-1054`: the loop over the elements. -/
def flattenL : List Val → List Val
  | [] => []
  | x :: xs => flattenV x ++ flattenL xs
end

/-- `value/unary.go:674-701`: `rho`. -/
def shapeOp : Val → Val
  | .vec l => .vec [intVal l.length]
  | .mat s _ => .vec (s.map fun d => intVal d)
  | _ => .vec []

/-- `value/unary.go:704-735`: `count`. -/
def countOp : Val → Val
  | .vec l => intVal l.length
  | .mat s _ => intVal (s.headD 0)
  | _ => oneV

/-- `value/unary.go:858-889` and `value/matrix.go:1037-1061`: `up`. -/
def upOp (c : Conf) : Val → R Val
  | .num n => .ok (.num n)
  | .cplx _ _ => .err "unary up not implemented on type complex"
  | .vec l => .ok (.vec ((Order.grade c.lib c.origin l).map intVal))
  | .mat s d => match s with
    | [] => .crash
    | 0 :: _ => .crash
    | (rows + 1) :: _ => .ok (.vec ((Order.gradeRows c.lib c.origin rows d).map intVal))

/-- `value/unary.go:875-889`: `down`. -/
def downOp (c : Conf) (v : Val) : R Val :=
  match v with
  | .num n => .ok (.num n)
  | v => (upOp c v).bind fun r => match r with
    | .vec l => (Arr.reverse l).bind fun l => .ok (.vec l)
    | r => .ok r

/-- `value/unary.go:892-964`: `rot` and `flip`. -/
def turnOp (f : Mat Val → R (Mat Val)) : Val → R Val
  | .vec l => (Arr.reverse l).bind fun l => .ok (.vec l)
  | .mat s d => (f ⟨s, d⟩).bind fun m => .ok (.mat m.shape m.data)
  | x => .ok x

/-- `value/unary.go:966-984`: `transp`. -/
def transpose1 (c : Conf) : Val → R Val
  | .mat s d => (Arr.transp c.S c.origin ⟨s, d⟩).bind fun m => .ok (.mat m.shape m.data)
  | x => .ok x

/-- What `transp` must not be: rows but no columns. -/
def transpFine : Val → Bool
  | .mat [_, y] _ => 0 < y
  | _ => true

/-- `value/eval.go:790-804`: `isZero`. -/
def zeroVal : Val → Bool
  | .num n => Order.isZero n
  | .cplx a b => Order.isZero a && Order.isZero b
  | _ => false

/-- What `inv` uses on the elements (`value/matrix.go:1078-1175`, `value/vector.go:568-596`). -/
def valOps (c : Conf) : Ops Val where
  scalar := fun x => (toC x).isSome
  isZero := zeroVal
  one := oneV
  zero := zeroV
  recip := elem1 c (.base .recip)
  conj := fun x => match x with
    | .cplx a b => elem1 c (.base .conj) (.cplx a b)
    | x => .ok x
  add := elem2 c (.op .add)
  mul := elem2 c (.op .mul)
  sub := elem2 c (.op .sub)
  div := elem2 c (.op .quo)

/-- `value/unary.go:241-272`: what `split` and `mix` do to a single value. -/
def selfNum : Val → R Val
  | .num (.char _) => .err "unary not implemented on type char"
  | x => .ok x

/-- `value/unary.go:241-253`: `split`. -/
def splitOp : Val → R Val
  | .mat s d => (Arr.split ⟨s, d⟩).bind fun v => .ok (ofV (mapV ofV v))
  | .vec _ => .err "unary split not implemented on type vector"
  | x => selfNum x

/-- `value/unary.go:256-272`: `mix`. -/
def mixOp1 : Val → R Val
  | .mat s d => back (Arr.mixOp fillValue (mapV toV (.mat ⟨s, d⟩)))
  | .vec l => back (Arr.mixOp fillValue (mapV toV (.vec l)))
  | x => selfNum x

/-- `value/unary.go:1257-1281`: `first`. -/
def firstOp (v : Val) : Val := (toV v).data.headD zeroV

/-- The unary operators at work. -/
def F1.eval (c : Conf) : F1 → Val → R Val
  | .s o => elem1 c o
  | .plus => fun v => match v with
    | .num (.char _) => .err "unary + not implemented on type char"
    | v => .ok v
  | .iota => fun v => (Arr.iotaOp c.origin (mapV small (toV v))).bind fun r => .ok (ofInts r)
  | .where_ => fun v => (Arr.whereOp c.origin (mapV small (toV v))).bind fun r => .ok (ofInts r)
  | .rho => fun v => .ok (shapeOp v)
  | .count => fun v => .ok (countOp v)
  | .flatten => fun v => .ok (.vec (flattenV v))
  | .ravel => fun v => .ok (.vec (toV v).data)
  | .up => fun v => need c (solid v) (upOp c v)
  | .down => fun v => need c (solid v) (downOp c v)
  | .rot => fun v => need c (solid v) (turnOp rotRows v)
  | .flip => turnOp flipRows
  | .transp => fun v => need c (transpFine v) (transpose1 c v)
  | .inv => fun v => need c (solid v) (back (Arr.inv (valOps c) (toV v)))
  | .split => splitOp
  | .mix => mixOp1
  | .unique => fun v => orErr (Order.unique c.lib v)
  | .box => fun v => .ok (.vec [v])
  | .first => fun v => .ok (firstOp v)
  | .reduce f => fun v => back (Arr.reduce c.S isNumber (f.eval c) (toV v))
  | .reduceFirst f => fun v => back (Arr.reduceFirst c.S isNumber (f.eval c) (toV v))
  | .scan name f => fun v => back (Arr.scan c.S isNumber name (f.eval c) (toV v))
  | .scanFirst name f => fun v => back (Arr.scanFirst c.S c.origin isNumber name (f.eval c) (toV v))
  | .each op f => eachU (f.eval c) (op.length + 1) op
  | .no msg => fun _ => .err msg

/-! ## Names -/

/-- `value/binary.go:192-1640`: `BinaryOps`, as far as modelled. -/
def table2 (op : String) : Option F2 :=
  match op with
  | "j" => some (.s .j)
  | "+" => some (.s (.op .add)) | "-" => some (.s (.op .sub)) | "*" => some (.s (.op .mul)) | "/" => some (.s (.op .quo))
  | "idiv" => some (.s (.op .idiv)) | "imod" => some (.s (.op .imod)) | "div" => some (.s (.op .div)) | "mod" => some (.s (.op .mod))
  | "**" => some (.s (.op .pow)) | "!" => some (.s (.op .choose))
  | "&" => some (.s (.op .band)) | "|" => some (.s (.op .bor)) | "^" => some (.s (.op .bxor))
  | "<<" => some (.s (.op .shl)) | ">>" => some (.s (.op .shr))
  | "==" => some (.s (.op .eq)) | "!=" => some (.s (.op .ne))
  | "<" => some (.s (.op .lt)) | "<=" => some (.s (.op .le)) | ">" => some (.s (.op .gt)) | ">=" => some (.s (.op .ge))
  | "and" => some (.s (.op .and)) | "or" => some (.s (.op .or)) | "xor" => some (.s (.op .xor))
  | "nand" => some (.s (.op .nand)) | "nor" => some (.s (.op .nor))
  | "min" => some (.s (.op .min)) | "max" => some (.s (.op .max))
  | "rho" => some .rho | "rot" => some .rot | "flip" => some .flip | "transp" => some .transp
  | "take" => some .take | "drop" => some .drop | "decode" => some .decode | "encode" => some .encode
  | "in" => some .mem | "iota" => some .iota | "," => some .cat | ",%" => some .catFirst
  | "fill" => some .fill | "sel" => some .sel | "part" => some .part
  | "===" => some .same | "!==" => some .notSame | "intersect" => some .intersect | "union" => some .union
  | _ => none

/-- `value/unary.go:136-1300`: `UnaryOps`, as far as modelled. -/
def table1 (op : String) : Option F1 :=
  match op with
  | "j" => some (.s (.base .turn)) | "-" => some (.s (.base .neg)) | "/" => some (.s (.base .recip)) | "conj" => some (.s (.base .conj))
  | "not" => some (.s (.base .not)) | "real" => some (.s (.base .real)) | "imag" => some (.s (.base .imag))
  | "floor" => some (.s .floor) | "ceil" => some (.s .ceil) | "abs" => some (.s .abs) | "sgn" => some (.s .sgn)
  | "!" => some (.s .fac) | "^" => some (.s .compl) | "char" => some (.s .char) | "code" => some (.s .code)
  | "+" => some .plus | "iota" => some .iota | "where" => some .where_ | "rho" => some .rho | "count" => some .count
  | "flatten" => some .flatten | "," => some .ravel | "up" => some .up | "down" => some .down
  | "rot" => some .rot | "flip" => some .flip | "transp" => some .transp | "inv" => some .inv
  | "split" => some .split | "mix" => some .mix | "unique" => some .unique | "box" => some .box | "first" => some .first
  | _ => none

/-- Whether a name begins or ends with `@` (`exec/context.go:199`). -/
def hasAt (op : List Char) : Bool := op.head? == some '@' || op.getLast? == some '@'

/-- Without the `@`s on the right. -/
def trimR (op : List Char) : List Char := (op.reverse.dropWhile (· == '@')).reverse

/-- `exec/context.go:187-213`: what a binary name stands for. `user` tells which operators the user has defined. A name of nothing but `@`s, which
the scanner does not make an operator, is not there. The number bounds the length. -/
def parse2 (user : String → Bool) : Nat → List Char → F2
  | 0, _ => .no "binary not implemented"
  | n + 1, op =>
    if hasAt op then
      if op.all (· == '@') then .no "binary not implemented" else .each op (parse2 user n (trimR (op.dropWhile (· == '@'))))
    else if '.' ∈ op then
      let left := op.takeWhile (· != '.')
      let right := (op.dropWhile (· != '.')).drop 1
      if left = ['o'] then .outer (parse2 user n right) else .inner (parse2 user n left) (parse2 user n right)
    else if user (String.ofList op) then .no "operators of the user are not modelled here"
    else (table2 (String.ofList op)).getD (.no "binary not implemented")

/-- A binary name. -/
def binaryOf (user : String → Bool) (op : List Char) : F2 := parse2 user (op.length + 1) op

/-- `exec/context.go:131-165`: what a unary name stands for, and whether it is one of the derived ones. -/
def parse1 (user1 user2 : String → Bool) : Nat → List Char → F1
  | 0, _ => .no "unary not implemented"
  | n + 1, op =>
    let plain : F1 :=
      if user1 (String.ofList op) then .no "operators of the user are not modelled here"
      else (table1 (String.ofList op)).getD (.no "unary not implemented")
    if op.length ≤ 1 then plain
    else match op.reverse with
      | '/' :: r => .reduce (binaryOf user2 r.reverse)
      | '\\' :: r => .scan (String.ofList r.reverse) (binaryOf user2 r.reverse)
      | '%' :: '/' :: x :: r => .reduceFirst (binaryOf user2 (x :: r).reverse)
      | '%' :: '\\' :: x :: r => .scanFirst (String.ofList (x :: r).reverse) (binaryOf user2 (x :: r).reverse)
      | '@' :: _ => .each op (parse1 user1 user2 n (trimR op))
      | _ => plain

/-- `exec/context.go:131-155`: whether a unary name is that of a derived operator. -/
def derived1 (op : List Char) : Bool :=
  1 < op.length && match op.reverse with
    | '/' :: _ => true
    | '\\' :: _ => true
    | '%' :: '/' :: _ :: _ => true
    | '%' :: '\\' :: _ :: _ => true
    | '@' :: _ => true
    | _ => false

/-- `exec/context.go:199-206`: whether a binary name is that of a derived operator. -/
def derived2 (op : List Char) : Bool := hasAt op || op.contains '.'

/-! ## The evaluator -/

mutual
/-- `value/eval.go:853-878`: `isTrue`. -/
def isTrueV : Val → R Bool
  | .num (.int i) => .ok (i != 0)
  | .num (.char i) => .ok (i != 0)
  | .num _ => .ok true
  | .cplx a b => .ok (!(Order.isZero a && Order.isZero b))
  | .vec l => isTrueL l
  | .mat _ l => isTrueL l

/-- `value/eval.go:866-873`: an array of one element is as true as the element. -/
def isTrueL : List Val → R Bool
  | [x] => isTrueV x
  | _ => .err "invalid expression for conditional"
end

/-- An element of an index. -/
def ixElem : Val → IxElem
  | .num (.int k) => .int k
  | .vec l => .vec (l.map small)
  | _ => .other

/-- `value/index.go:44-67`: an index. -/
def ixOf : Option Val → Ix
  | none => .missing
  | some (.num (.int k)) => .int k
  | some (.vec l) => .vec (l.map ixElem)
  | some (.mat s d) => .mat ⟨s, d.map ixElem⟩
  | some _ => .other

/-- A single index of which the first element is a vector (`value/index.go:155-205`). -/
def firstVec : List Ix → Bool
  | [.vec (.vec _ :: _)] => true
  | [.mat ⟨_, .vec _ :: _⟩] => true
  | _ => false

/-- What an indexed value must not be: a matrix without elements, or a vector without elements that is indexed by vectors. -/
def indexFine (u : Val) (ixs : List Ix) : Bool :=
  match toV u with
  | .elem _ => true
  | .vec l => !l.isEmpty || !firstVec ixs
  | .mat m => !m.data.isEmpty

/-- `value/index.go:207-273`: `Index` once everything is evaluated. -/
def indexVal (c : Conf) (u : Val) (ixs : List Ix) : R Val := need c (indexFine u ixs) (back (index c.origin (toV u) ixs))

/-- `value/index.go:275-330`: `IndexAssign` once everything is evaluated, for a variable whose value is `old`: its new value. -/
def setIndexVal (c : Conf) (old : Val) (ixs : List Ix) (rhs : Val) : R Val :=
  need c (indexFine old ixs)
    (let p := Arr.indexAssign c.S c.origin ofV ⟨toV old, none⟩ ixs (toV rhs)
     p.2.bind fun _ => p.1.read.bind fun q => .ok (ofV q.2))

/-- `value/index.go:51-67`: the check of the type of an index. -/
def okIndexV : Val → Option String
  | .num (.int _) => none
  | .vec _ => none
  | .mat _ _ => none
  | _ => some "invalid index"

/-- The assertion `.(*Vector)` (`value/assign.go:42`). -/
def asVectorV : Val → Option (List Val)
  | .vec l => some l
  | _ => none

/-- Which operators the user has defined. -/
def userOps (t : String → Option (Exec.Fn Val)) (op : String) : Bool := (t op).isSome

/-- The values and operators of ivy as the evaluator sees them. Simplified: values do not remember whether they should be printed (`QuietValue`,
`value/assign.go:10-15`). -/
def ivy (c : Conf) : Exec.Sem Val where
  inner := id
  quiet := id
  ofList := Val.vec
  asVector := asVectorV
  isTrue := isTrueV
  isZero := fun v => decide (v = zeroV)
  okIndex := okIndexV
  index := fun u is => indexVal c u (is.map ixOf)
  setIndex := fun old is rhs => setIndexVal c old (is.map ixOf) rhs
  unaryDerived := fun op =>
    if derived1 op.toList then
      some fun v => .look fun env => .done ((parse1 (userOps env.unaryFn) (userOps env.binaryFn) (op.toList.length + 1) op.toList).eval c v)
    else none
  binaryDerived := fun u op v =>
    if derived2 op.toList then some (.look fun env => .done ((binaryOf (userOps env.binaryFn) op.toList).eval c u v)) else none
  unary := fun op => (table1 op).map fun f v => .done (f.eval c v)
  binary := fun op => (table2 op).map fun f u v => .done (f.eval c u v)

/-! ## Sessions -/

/-- A line of input once parsed (`parse/parse.go:151-178`): expressions; the definition of an operator, whose header is `f` and the reading of whose body
may fail; or its declaration, which has no body (`parse/function.go:147`). -/
inductive Line where
  | exprs (es : List (Exec.Expr Val))
  | define (f : Exec.Fn Val) (body : Option (List (Exec.Expr Val)))
  | declare (f : Exec.Fn Val)

/-- `exec/context.go:119-129`: `Eval`: the expressions of a line, one after the other. -/
def evalAll (c : Conf) (maxStack fuel : Nat) : List (Exec.Expr Val) → Exec.Ctx Val → Exec.Res Val (List Val)
  | [], s => (.ok [], s)
  | e :: es, s =>
    Exec.andThen (Exec.run (ivy c) maxStack fuel (.expr e) s) fun v s1 =>
    Exec.andThen (evalAll c maxStack fuel es s1) fun vs s2 => (.ok (v :: vs), s2)

/-- `parse/function.go:104-147`: what reading the body of an operator gives. The reading itself is modelled elsewhere (`Verif.Syn`). -/
def bodyOf (body : Option (List (Exec.Expr Val))) (_ : Exec.Env Val) : R (Option (List (Exec.Expr Val))) :=
  match body with
  | some b => .ok (some b)
  | none => .err "syntax"

/-- `run/run.go:75-101`: one turn of the loop of `Run`: the values of a line; the last becomes the variable `_`. Simplified: printing is left out, and
`_` is assigned even if all values are quiet. -/
def runLine (c : Conf) (maxStack fuel : Nat) (l : Line) (s : Exec.Ctx Val) : Exec.Res Val (List Val) :=
  match l with
  | .exprs es =>
    Exec.andThen (evalAll c maxStack fuel es s) fun vs s1 =>
      match vs.getLast? with
      | some v => (.ok vs, { s1 with env := s1.env.assign "_" v })
      | none => (.ok vs, s1)
  | .define f body =>
    let p := Exec.definition (ivy c) s.env f (bodyOf body)
    (p.1.bind fun _ => .ok [], { s with env := p.2 })
  | .declare f =>
    let p := Exec.definition (ivy c) s.env f fun _ => .ok none
    (p.1.bind fun _ => .ok [], { s with env := p.2 })

/-- `run/run.go:40-101` and its callers (`ivy.go:120-121`: `for !run.Run(...) {}`): what becomes of the lines of a session. An error is
reported and the next line is read; a run-time fault, which `recover` passes on (`run/run.go:71`), ends the program. -/
def session (c : Conf) (maxStack fuel : Nat) : List Line → Exec.Ctx Val → List (R (List Val))
  | [], _ => []
  | l :: ls, s =>
    match runLine c maxStack fuel l s with
    | (.crash, _) => [.crash]
    | (r, s1) => r :: session c maxStack fuel ls s1

end Verif.Safe
