import Verif.Num.FacModel
import Mathlib.Data.Int.Bitwise
/-
Model of the exact numbers of Ivy (value/int.go, value/bigint.go, value/bigrat.go, value/char.go) and of the
scalar cases of the arithmetic, comparison, boolean and bit operators in value/binary.go, value/unary.go and
value/eval.go.

`big.Int` is `Int` and `big.Rat` is `Rat` (both always reduced, positive denominator); their methods are the
mathematical operations. Floating-point and complex numbers are not values of this model; a computation that
would continue with them is the outcome `float`.
-/
set_option linter.dupNamespace false
namespace Verif.Num

/-- The scalar values of Ivy other than floats and complex numbers: `Int` (value/int.go:18), `Char`
(value/char.go:15), `BigInt` (value/bigint.go:15-17), `BigRat` (value/bigrat.go:17-19). -/
inductive Num where
  | int (i : Int)
  | char (c : Int)
  | bigInt (i : Int)
  | bigRat (r : Rat)
deriving DecidableEq

/-- valueType, in its order; value/eval.go:17-27. Types above bigRatType are not modelled here. -/
inductive Ty where
  | int | char | bigInt | bigRat
deriving DecidableEq, Repr

/-- Position of a type in the order; value/eval.go:17-27. -/
def Ty.rank : Ty → Nat
  | .int => 0 | .char => 1 | .bigInt => 2 | .bigRat => 3

/-- Outcome of an operator: a value, an Ivy error (Errorf, value/value.go:55-57), a Go run-time panic (failed
type assertion, `panic("...")`), or continuation in floating point. -/
inductive Res (α : Type) where
  | ok (v : α)
  | err
  | crash
  | float
deriving DecidableEq

/-- Sequencing: a panic in the first computation ends both (Go panics, raised by Errorf at value/value.go:55). -/
def Res.bind {α β : Type} : Res α → (α → Res β) → Res β
  | .ok v, f => f v
  | .err, _ => .err
  | .crash, _ => .crash
  | .float, _ => .float

/-- minInt; value/int.go:24. -/
def minInt : Int := -(2 ^ 31)
/-- maxInt; value/int.go:25. -/
def maxInt : Int := 2 ^ 31 - 1

/-- `zero`, `one`, `minusOne`; value/const.go:33-35. -/
def zero : Num := .int 0
@[inherit_doc zero] def one : Num := .int 1
@[inherit_doc zero] def minusOne : Num := .int (-1)

/-- Length of the absolute value in bits, `(*big.Int).BitLen`; used at value/bigint.go:191, 198. -/
def bitLen (i : Int) : Nat := if i = 0 then 0 else Nat.log2 i.natAbs + 1

/-- Int.maybeBig; value/int.go:180-185. -/
def maybeBig (i : Int) : Num := if minInt ≤ i ∧ i ≤ maxInt then .int i else .bigInt i

/-- BigInt.shrink; value/bigint.go:190-195 (intBits is 32). -/
def shrinkBig (i : Int) : Num := if bitLen i < 32 then .int i else .bigInt i

/-- BigRat.shrink; value/bigrat.go:203-208. -/
def shrinkRat (r : Rat) : Num := if r.den = 1 then shrinkBig r.num else .bigRat r

/-- The method shrink of each scalar: value/int.go:61-63 (itself), value/char.go:25-27 (itself),
value/bigint.go:190-195, value/bigrat.go:203-208. -/
def Num.shrink : Num → Num
  | .int i => .int i
  | .char c => .char c
  | .bigInt i => shrinkBig i
  | .bigRat r => shrinkRat r

/-- mustFit: true if it raises the error; value/bigint.go:202-207. `maxBits` is `conf.MaxBits()`. -/
def tooBig (maxBits : Nat) (n : Int) : Bool := maxBits != 0 && decide (n > wrap64 maxBits)

/-- whichType on scalars; value/eval.go:86-107. -/
def Num.ty : Num → Ty
  | .int _ => .int
  | .char _ => .char
  | .bigInt _ => .bigInt
  | .bigRat _ => .bigRat

/-- toType on scalars, target a scalar type; value/int.go:155-174, value/char.go:47-58,
value/bigint.go:151-170, value/bigrat.go:184-200. -/
def Num.toType : Num → Ty → Res Num
  | .int i, .int => .ok (.int i)
  | .int i, .bigInt => .ok (.bigInt i)
  | .int i, .bigRat => .ok (.bigRat i)
  | .char c, .char => .ok (.char c)
  | .bigInt i, .bigInt => .ok (.bigInt i)
  | .bigInt i, .bigRat => .ok (.bigRat i)
  | .bigRat r, .bigRat => .ok (.bigRat r)
  | _, _ => .err

/-- binaryArithType; value/binary.go:25-30. -/
def arithType (t1 t2 : Ty) : Ty × Ty := if t1.rank > t2.rank then (t1, t1) else (t2, t2)

/-- divType; value/binary.go:34-39. -/
def divType (t1 t2 : Ty) : Ty × Ty := arithType (if t1 = .int then .bigInt else t1) t2

/-- rationalType; value/binary.go:42-47. -/
def rationalType (t1 t2 : Ty) : Ty × Ty := arithType (if t1.rank < Ty.rank .bigRat then .bigRat else t1) t2

/-- A binary operator: how it promotes its operands, and its implementation for each operand type (`none` is
the nil of the Go table); value/eval.go:77-84. -/
structure BinOp where
  whichType : Ty → Ty → Ty × Ty
  fn : Ty → Option (Num → Num → Res Num)

/-- EvalBinary on scalars; value/eval.go:109-130. -/
def BinOp.eval (op : BinOp) (u v : Num) : Res Num :=
  let (tu, tv) := op.whichType u.ty v.ty
  (u.toType tu).bind fun u' =>
    (v.toType tv).bind fun v' =>
      match op.fn tv with
      | none => .err
      | some f => f u' v'

/-- A unary operator: its implementation for each operand type; value/eval.go:35-41. -/
structure UnOp where
  fn : Ty → Option (Num → Res Num)

/-- EvalUnary on scalars; value/eval.go:57-75. -/
def UnOp.eval (op : UnOp) (v : Num) : Res Num :=
  match op.fn v.ty with
  | none => .err
  | some f => f v

/-- The type assertions `u.(Int)`, `v.(Int)` with the body that follows; a failed assertion is a run-time
panic (for instance value/binary.go:230). -/
def onInt (f : Int → Int → Res Num) : Num → Num → Res Num
  | .int a, .int b => f a b
  | _, _ => .crash

/-- The type assertions `u.(Char)`, `v.(Char)`; for instance value/binary.go:636. -/
def onChar (f : Int → Int → Res Num) : Num → Num → Res Num
  | .char a, .char b => f a b
  | _, _ => .crash

/-- The type assertions `u.(BigInt)`, `v.(BigInt)`; for instance value/binary.go:92. -/
def onBig (f : Int → Int → Res Num) : Num → Num → Res Num
  | .bigInt a, .bigInt b => f a b
  | _, _ => .crash

/-- The type assertions `u.(BigRat)`, `v.(BigRat)`; for instance value/binary.go:99. -/
def onRat (f : Rat → Rat → Res Num) : Num → Num → Res Num
  | .bigRat a, .bigRat b => f a b
  | _, _ => .crash

/-- `v.(Int)`; for instance value/unary.go:292. -/
def onInt1 (f : Int → Res Num) : Num → Res Num
  | .int a => f a
  | _ => .crash

/-- `v.(BigInt)`; for instance value/unary.go:20. -/
def onBig1 (f : Int → Res Num) : Num → Res Num
  | .bigInt a => f a
  | _ => .crash

/-- `v.(BigRat)`; for instance value/unary.go:34. -/
def onRat1 (f : Rat → Res Num) : Num → Res Num
  | .bigRat a => f a
  | _ => .crash

/-- toInt; value/binary.go:153-158. -/
def toInt (t : Bool) : Num := if t then one else zero

/-- toBool; value/binary.go:161-178. -/
def toBool : Num → Bool
  | .int i => i ≠ 0
  | .char c => c ≠ 0
  | .bigInt i => i ≠ 0
  | .bigRat r => r ≠ 0

/-- A table with entries for int, char, bigInt, bigRat; value/eval.go:83. -/
def table {α : Type} (i c b r : Option α) : Ty → Option α
  | .int => i
  | .char => c
  | .bigInt => b
  | .bigRat => r

/-! ## Arithmetic -/

/-- Binary `+`; value/binary.go:216-247. -/
def opAdd (maxBits : Nat) : BinOp where
  whichType := arithType
  fn := table
    (some (onInt fun a b => .ok (if a = 0 then .int b else if b = 0 then .int a else maybeBig (wrap64 (a + b)))))
    none
    (some (onBig fun a b =>
      if tooBig maxBits (bitLen a + 1) then .err else if tooBig maxBits (bitLen b + 1) then .err
      else .ok (shrinkBig (a + b))))
    (some (onRat fun a b => .ok (shrinkRat (a + b))))

/-- Binary `-`; value/binary.go:249-277. -/
def opSub (maxBits : Nat) : BinOp where
  whichType := arithType
  fn := table
    (some (onInt fun a b => .ok (if b = 0 then .int a else maybeBig (wrap64 (a - b)))))
    none
    (some (onBig fun a b =>
      if tooBig maxBits (bitLen a + 1) then .err else if tooBig maxBits (bitLen b + 1) then .err
      else .ok (shrinkBig (a - b))))
    (some (onRat fun a b => .ok (shrinkRat (a - b))))

/-- Binary `*`; value/binary.go:279-309. -/
def opMul (maxBits : Nat) : BinOp where
  whichType := arithType
  fn := table
    (some (onInt fun a b => .ok (if a = 1 ∨ b = 0 then .int b else if b = 1 ∨ a = 0 then .int a else maybeBig (wrap64 (a * b)))))
    none
    (some (onBig fun a b => if tooBig maxBits (bitLen a + bitLen b) then .err else .ok (shrinkBig (a * b))))
    (some (onRat fun a b => .ok (shrinkRat (a * b))))

/-- Binary `/`; value/binary.go:311-329. -/
def opDivide : BinOp where
  whichType := rationalType
  fn := table none none none (some (onRat fun a b => if b = 0 then .err else .ok (shrinkRat (a / b))))

/-- `idiv`; value/binary.go:331-352. Go's `/` on Int is truncated division modulo 2^64. -/
def opIdiv : BinOp where
  whichType := arithType
  fn := table
    (some (onInt fun a b => if b = 0 then .err else .ok (.int (wrap64 (a.tdiv b)))))
    none
    (some (onBig fun a b => if b = 0 then .err else .ok (shrinkBig (a.tdiv b))))
    none

/-- `imod`; value/binary.go:354-375. -/
def opImod : BinOp where
  whichType := arithType
  fn := table
    (some (onInt fun a b => if b = 0 then .err else .ok (.int (a.tmod b))))
    none
    (some (onBig fun a b => if b = 0 then .err else .ok (shrinkBig (a.tmod b))))
    none

/-- `div`; value/binary.go:403-418. `(*big.Int).Div` is Euclidean, as Lean's `/` on `Int`. -/
def opDiv : BinOp where
  whichType := divType
  fn := table none none (some (onBig fun a b => if b = 0 then .err else .ok (shrinkBig (a / b)))) none

/-- QuoRem, integer case, on machine integers; value/eval.go:927-947. The divisor is not zero here. -/
def quoRemInt (x y : Int) : Int × Int :=
  let negX := decide (x < 0)
  let x := if negX then wrap64 (-x) else x
  let negY := decide (y < 0)
  let y := if negY then wrap64 (-y) else y
  let quo := wrap64 (x.tdiv y)
  let rem := x.tmod y
  let (quo, rem) := if negX && decide (rem ≠ 0) then (wrap64 (quo + 1), wrap64 (y - rem)) else (quo, rem)
  (if negX ≠ negY then wrap64 (-quo) else quo, rem)

/-- QuoRem, rational case; value/eval.go:956-982. The divisor is not zero here. (What lines 960 and 966 do to
the operands is the subject of C12, in a model of its own.) -/
def quoRemRat (x y : Rat) : Int × Rat :=
  let negX := decide (x < 0)
  let x := if negX then -x else x
  let negY := decide (y < 0)
  let y := if negY then -y else y
  let quo := x / y
  let iquo := quo.num.tdiv quo.den
  let rem := (quo - iquo) * y
  let (iquo, rem) := if negX && decide (rem ≠ 0) then (iquo + 1, y - rem) else (iquo, rem)
  (if negX ≠ negY then -iquo else iquo, rem)

/-- QuoRem; value/eval.go:917-1013. -/
def quoRem (a b : Num) : Res (Num × Num) :=
  if b.shrink = .int 0 then .ok (zero, a)
  else
    match (arithType a.ty b.ty).1 with
    | .int =>
      match a, b with
      | .int x, .int y => let r := quoRemInt x y; .ok (.int r.1, .int r.2)
      | _, _ => .crash
    | .bigInt =>
      (a.toType .bigInt).bind fun a => (b.toType .bigInt).bind fun b =>
        match a, b with
        | .bigInt x, .bigInt y => .ok (shrinkBig (x / y), shrinkBig (x % y))
        | _, _ => .crash
    | .bigRat =>
      (a.toType .bigRat).bind fun a => (b.toType .bigRat).bind fun b =>
        match a, b with
        | .bigRat x, .bigRat y => let r := quoRemRat x y; .ok (shrinkBig r.1, shrinkRat r.2)
        | _, _ => .crash
    | .char => .err

/-- mod; value/eval.go:903-906. -/
def modFn (a b : Num) : Res Num := (quoRem a b).bind fun r => .ok r.2

/-- `mod`; value/binary.go:420-430. -/
def opMod : BinOp where
  whichType := arithType
  fn := table (some modFn) none (some modFn) (some modFn)

/-- Int.inverse and BigInt.inverse; value/int.go:110-118, value/bigint.go:134-141. -/
def inverseInt (i : Int) : Res Num := if i = 0 then .err else .ok (shrinkRat (mkRat 1 1 / (i : Rat)))

/-- BigRat.inverse; value/bigrat.go:167-174. -/
def inverseRat (r : Rat) : Res Num := if r = 0 then .err else .ok (shrinkRat ((r.den : Rat) / (r.num : Rat)))

/-- Unary `/`; value/unary.go:309-329. -/
def opRecip : UnOp where
  fn := table (some (onInt1 inverseInt)) none (some (onBig1 inverseInt)) (some (onRat1 inverseRat))

/-- Unary `-`; value/unary.go:287-307. -/
def opNeg : UnOp where
  fn := table
    (some (onInt1 fun a => .ok (.int (wrap64 (-a)))))
    none
    (some (onBig1 fun a => .ok (shrinkBig (-a))))
    (some (onRat1 fun a => .ok (shrinkRat (-a))))

/-- `abs`; value/unary.go:463-487. -/
def opAbs : UnOp where
  fn := table
    (some (onInt1 fun a => .ok (.int (if a < 0 then wrap64 (-a) else a))))
    none
    (some (onBig1 fun a => .ok (shrinkBig (a.natAbs : Int))))
    (some (onRat1 fun a => .ok (shrinkRat (if a < 0 then -a else a))))

/-- `Sign` of a `big.Int`; used at value/unary.go:374. -/
def sign (i : Int) : Int := if i < 0 then -1 else if i = 0 then 0 else 1

/-- `Sign` of a `big.Rat`; used at value/unary.go:377. -/
def signRat (r : Rat) : Int := sign r.num

/-- `sgn`; value/unary.go:359-386. -/
def opSgn : UnOp where
  fn := table
    (some (onInt1 fun a => .ok (if a > 0 then one else if a < 0 then minusOne else zero)))
    none
    (some (onBig1 fun a => .ok (.int (sign a))))
    (some (onRat1 fun a => .ok (.int (signRat a))))

/-- `floor`; value/unary.go:531-556. -/
def opFloor : UnOp where
  fn := table
    (some (onInt1 fun a => .ok (.int a)))
    none
    (some (onBig1 fun a => .ok (.bigInt a)))
    (some (onRat1 fun a =>
      if a.den = 1 then .crash
      else
        let i := if a.num ≥ 0 then a else -a
        let z := i.num.tdiv i.den
        .ok (shrinkBig (if a.num ≥ 0 then z else -(z + 1)))))

/-- `ceil`; value/unary.go:577-603. -/
def opCeil : UnOp where
  fn := table
    (some (onInt1 fun a => .ok (.int a)))
    none
    (some (onBig1 fun a => .ok (.bigInt a)))
    (some (onRat1 fun a =>
      if a.den = 1 then .crash
      else
        let i := if a.num ≥ 0 then a else -a
        let z := i.num.tdiv i.den
        .ok (shrinkBig (if a.num ≥ 0 then z + 1 else -z))))

/-- `not`; value/unary.go:426-447. -/
def opNot : UnOp where
  fn := table
    (some (onInt1 fun a => .ok (if a = 0 then one else zero)))
    none
    (some (onBig1 fun a => .ok (if a = 0 then one else zero)))
    (some (onRat1 fun a => .ok (if a = 0 then one else zero)))

/-- The value returned by factorial as a big integer; value/fac.go:97-109. -/
def facRes : FacRes → Res Int
  | .ok v => .ok v
  | .err => .err
  | .diverge => .crash

/-- Unary `!`; value/unary.go:402-410. -/
def opFac : UnOp where
  fn := table (some (onInt1 fun a => (facRes (factorial a)).bind fun f => .ok (shrinkBig f))) none none none

/-- Binary `!`; value/binary.go:507-529. `(*big.Int).Div` is Euclidean division. -/
def opChoose : BinOp where
  whichType := arithType
  fn := table
    (some (onInt fun a b =>
      if a = 0 ∨ b = 0 ∨ a = b then .ok one
      else if a < 0 ∨ b < 0 ∨ a > b then .ok zero
      else
        (facRes (factorial a)).bind fun aFac =>
          (facRes (factorial b)).bind fun bFac =>
            (facRes (factorial (b - a))).bind fun bMinusAFac =>
              .ok (shrinkBig (bFac / aFac / bMinusAFac))))
    none none none

/-! ## Powers -/

/-- The exponent as a positive int64; value/binary.go:132-135. `Int64` of a larger number is its low 64 bits. -/
def exponent (k : Int) : Int :=
  let e := wrap64 k
  if e < 0 then wrap64 (-e) else e

/-- bigIntExp: the value it stores in `i`; value/binary.go:115-143. `(*big.Int).Exp` with a nil modulus is the
power for a positive exponent, 1 otherwise. -/
def bigIntExp (maxBits : Nat) (j k : Int) : Res Int :=
  if j = 1 ∨ j = 0 then .ok j
  else if j = -1 then .ok (if k % 2 = 0 then -j else j)
  else if bitLen k > 63 then .err
  else
    let exp := exponent k
    if j = 2 ∧ exp ≥ 0 then .ok (2 ^ exp.toNat)
    else if tooBig maxBits (wrap64 (bitLen j * exp)) then .err
    else .ok (j ^ k.toNat)

/-- Binary `**`; value/binary.go:432-492. -/
def opPow (maxBits : Nat) : BinOp where
  whichType := divType
  fn := table none none
    (some fun u v => onBig (fun a b =>
      if b = 0 then .ok one
      else if b < 0 then
        if a = 0 then .err
        else (bigIntExp maxBits a (-b)).bind fun p => opRecip.eval (shrinkBig p)
      else if a = 1 ∨ a = 0 then .ok u
      else (bigIntExp maxBits a b).bind fun p => .ok (shrinkBig p)) u v)
    (some (onRat fun a b =>
      if b = 0 then .ok one
      else if b < 0 ∧ a = 0 then .err
      else
        let positive := ¬ b < 0
        (if b < 0 then (opNeg.eval (.bigRat b)).bind fun n => n.toType .bigRat else .ok (.bigRat b)).bind fun rexp =>
          match rexp with
          | .bigRat e =>
            if e.den ≠ 1 then .float
            else
              (bigIntExp maxBits a.num e.num).bind fun num =>
                (bigIntExp maxBits a.den e.num).bind fun den =>
                  .ok (shrinkRat (if positive then (num : Rat) / (den : Rat) else (den : Rat) / (num : Rat)))
          | _ => .crash))

/-! ## Bits -/

/-- Go's `&`, `|`, `^` on int64, through 64-bit vectors; used at value/binary.go:545, 567, 589. -/
def and64 (a b : Int) : Int := (BitVec.ofInt 64 a &&& BitVec.ofInt 64 b).toInt
@[inherit_doc and64] def or64 (a b : Int) : Int := (BitVec.ofInt 64 a ||| BitVec.ofInt 64 b).toInt
@[inherit_doc and64] def xor64 (a b : Int) : Int := (BitVec.ofInt 64 a ^^^ BitVec.ofInt 64 b).toInt

/-- Go's unary `^` on int64; used at value/unary.go:417. -/
def not64 (a : Int) : Int := (~~~ BitVec.ofInt 64 a).toInt

/-- Binary `&`; value/binary.go:531-551. -/
def opAnd : BinOp where
  whichType := arithType
  fn := table
    (some (onInt fun a b => .ok (.int (if a = 0 ∨ b = -1 then a else if b = 0 ∨ a = -1 then b else and64 a b))))
    none
    (some (onBig fun a b => .ok (shrinkBig (Int.land a b))))
    none

/-- Binary `|`; value/binary.go:553-573. -/
def opOr : BinOp where
  whichType := arithType
  fn := table
    (some (onInt fun a b => .ok (.int (if a = 0 ∨ b = -1 then b else if b = 0 ∨ a = -1 then a else or64 a b))))
    none
    (some (onBig fun a b => .ok (shrinkBig (Int.lor a b))))
    none

/-- Binary `^`; value/binary.go:575-595. -/
def opXor : BinOp where
  whichType := arithType
  fn := table
    (some (onInt fun a b => .ok (.int (if a = 0 then b else if b = 0 then a else xor64 a b))))
    none
    (some (onBig fun a b => .ok (shrinkBig (Int.xor a b))))
    none

/-- Unary `^`; value/unary.go:412-424. -/
def opCompl : UnOp where
  fn := table
    (some (onInt1 fun a => .ok (.int (not64 a))))
    none
    (some (onBig1 fun a => .ok (shrinkBig (Int.xor a (-1)))))
    none

/-- shiftCount on a BigInt; value/binary.go:72-89. -/
def shiftCount (j : Int) : Res Nat :=
  match shrinkBig j with
  | .int count => if count < 0 ∨ count ≥ maxInt then .err else .ok count.toNat
  | _ => .err

/-- `<<`; value/binary.go:597-610. -/
def opShl : BinOp where
  whichType := divType
  fn := table none none (some (onBig fun a b => (shiftCount b).bind fun n => .ok (shrinkBig (a * 2 ^ n)))) none

/-- `>>`; value/binary.go:612-625. `(*big.Int).Rsh` is the arithmetic shift: division by 2^n rounding down. -/
def opShr : BinOp where
  whichType := divType
  fn := table none none (some (onBig fun a b => (shiftCount b).bind fun n => .ok (shrinkBig (a / 2 ^ n)))) none

/-! ## Comparisons and booleans -/

/-- The comparison operators: one comparison for each type; value/binary.go:627-795. -/
def opCmp (f : Int → Int → Bool) (g : Rat → Rat → Bool) : BinOp where
  whichType := arithType
  fn := table
    (some (onInt fun a b => .ok (toInt (f a b))))
    (some (onChar fun a b => .ok (toInt (f a b))))
    (some (onBig fun a b => .ok (toInt (f a b))))
    (some (onRat fun a b => .ok (toInt (g a b))))

/-- `==`; value/binary.go:627-658. -/
def opEq : BinOp := opCmp (fun a b => a = b) (fun a b => a = b)
/-- `!=`; value/binary.go:660-691. -/
def opNe : BinOp := opCmp (fun a b => a ≠ b) (fun a b => a ≠ b)
/-- `<`; value/binary.go:693-717. -/
def opLt : BinOp := opCmp (fun a b => a < b) (fun a b => a < b)
/-- `<=`; value/binary.go:719-743. -/
def opLe : BinOp := opCmp (fun a b => a ≤ b) (fun a b => a ≤ b)
/-- `>`; value/binary.go:745-769. -/
def opGt : BinOp := opCmp (fun a b => a > b) (fun a b => a > b)
/-- `>=`; value/binary.go:771-795. -/
def opGe : BinOp := opCmp (fun a b => a ≥ b) (fun a b => a ≥ b)

/-- EvalCharEqual on scalars: the answer of `==` (`isEqualOp`) or `!=` when exactly one operand is a
character; value/eval.go:137-149. -/
def evalCharEqual (u : Num) (isEqualOp : Bool) (v : Num) : Option Num :=
  if u.ty ≠ v.ty ∧ (u.ty = .char ∨ v.ty = .char) then some (if isEqualOp then zero else one) else none

/-- The boolean operators; value/binary.go:797-925. -/
def opBool (f : Bool → Bool → Bool) : BinOp where
  whichType := arithType
  fn := fun _ => some fun u v => .ok (toInt (f (toBool u) (toBool v)))

/-- `min`; value/binary.go:1202-1241. -/
def opMin : BinOp where
  whichType := arithType
  fn := table
    (some (onInt fun a b => .ok (.int (if a < b then a else b))))
    (some (onChar fun a b => .ok (.char (if a < b then a else b))))
    (some (onBig fun a b => .ok (if a < b then shrinkBig a else shrinkBig b)))
    (some (onRat fun a b => .ok (if a < b then shrinkRat a else shrinkRat b)))

/-- `max`; value/binary.go:1243-1282. The big integer case returns the operand as it is. -/
def opMax : BinOp where
  whichType := arithType
  fn := table
    (some (onInt fun a b => .ok (.int (if a > b then a else b))))
    (some (onChar fun a b => .ok (.char (if a > b then a else b))))
    (some (onBig fun a b => .ok (.bigInt (if a > b then a else b))))
    (some (onRat fun a b => .ok (if a > b then shrinkRat a else shrinkRat b)))

/-- isTrue on scalars; value/eval.go:853-862. -/
def isTrue : Num → Bool
  | .char c => c ≠ 0
  | .int i => i ≠ 0
  | .bigInt _ => true
  | .bigRat _ => true

/-! ## Expressions -/

/-- The modelled binary operators by name; value/binary.go:195-1282. -/
inductive Op2 where
  | add | sub | mul | quo | idiv | imod | div | mod | pow | choose | band | bor | bxor | shl | shr
  | eq | ne | lt | le | gt | ge | and | or | xor | nand | nor | min | max
deriving DecidableEq

/-- The modelled unary operators by name; value/unary.go:287-603. -/
inductive Op1 where
  | neg | recip | abs | sgn | floor | ceil | not | fac | compl
deriving DecidableEq

/-- BinaryOps: the implementation of a name; value/binary.go:192-195. -/
def Op2.impl (maxBits : Nat) : Op2 → BinOp
  | .add => opAdd maxBits | .sub => opSub maxBits | .mul => opMul maxBits | .quo => opDivide
  | .idiv => opIdiv | .imod => opImod | .div => opDiv | .mod => opMod | .pow => opPow maxBits
  | .choose => opChoose | .band => opAnd | .bor => opOr | .bxor => opXor | .shl => opShl | .shr => opShr
  | .eq => opEq | .ne => opNe | .lt => opLt | .le => opLe | .gt => opGt | .ge => opGe
  | .and => opBool (fun a b => a && b) | .or => opBool (fun a b => a || b) | .xor => opBool (fun a b => a != b)
  | .nand => opBool (fun a b => !(a && b)) | .nor => opBool (fun a b => !(a || b))
  | .min => opMin | .max => opMax

/-- UnaryOps: the implementation of a name; value/unary.go:136, 205. -/
def Op1.impl : Op1 → UnOp
  | .neg => opNeg | .recip => opRecip | .abs => opAbs | .sgn => opSgn | .floor => opFloor | .ceil => opCeil
  | .not => opNot | .fac => opFac | .compl => opCompl

/-- Expressions over exact number literals; value/expr.go:24-41. -/
inductive Expr where
  | lit (r : Rat)
  | un (op : Op1) (e : Expr)
  | bin (e₁ : Expr) (op : Op2) (e₂ : Expr)

/-- The value Parse gives a literal denoting `r`: an Int if it fits 32 bits (value/int.go:28-31), else a
shrunk BigInt or BigRat; value/value.go:87-125. -/
def litNum (r : Rat) : Num :=
  if r.den = 1 then (if minInt ≤ r.num ∧ r.num ≤ maxInt then .int r.num else shrinkBig r.num) else shrinkRat r

/-- Evaluation: the right operand first; value/expr.go:33-35, 53-60. -/
def Expr.eval (maxBits : Nat) : Expr → Res Num
  | .lit r => .ok (litNum r)
  | .un op e => (e.eval maxBits).bind op.impl.eval
  | .bin e₁ op e₂ => (e₂.eval maxBits).bind fun v => (e₁.eval maxBits).bind fun u => (op.impl maxBits).eval u v

end Verif.Num
