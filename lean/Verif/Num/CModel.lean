import Verif.Num.Model
/-
Model of complex numbers with exact components (value/complex.go) and of the scalar cases of the operators
that accept them (value/binary.go, value/unary.go, value/eval.go). Floating-point components, and the
operators that lead to them (`abs`, `phase`, `sgn`, `sqrt`, powers, logarithms, trigonometry), are not modelled.
-/
set_option linter.dupNamespace false
namespace Verif.Num

/-- Complex; value/complex.go:13-16. -/
structure Cx where
  re : Num
  im : Num
deriving DecidableEq

/-- A scalar value: a number or character, or a Complex; value/eval.go:17-27. -/
inductive CNum where
  | num (n : Num)
  | cx (c : Cx)
deriving DecidableEq

/-- simpleNumber; value/complex.go:29-35. -/
def simpleNumber : Num → Bool
  | .char _ => false
  | _ => true

/-- NewComplex; value/complex.go:18-23. -/
def newComplex (u v : Num) : Res Cx := if !simpleNumber u || !simpleNumber v then .err else .ok ⟨u, v⟩

/-- isZero on scalars other than complex; value/eval.go:790-799, 803. -/
def isZeroNum : Num → Bool
  | .int i => i = 0
  | .char _ => false
  | .bigInt i => i = 0
  | .bigRat r => r = 0

/-- isZero of a Complex; value/eval.go:800-801. -/
def Cx.isZero (c : Cx) : Bool := isZeroNum c.re && isZeroNum c.im

/-- isZero; value/eval.go:790-804. -/
def CNum.isZero : CNum → Bool
  | .num n => isZeroNum n
  | .cx c => c.isZero

/-- Complex.isReal; value/complex.go:88-90. -/
def Cx.isReal (c : Cx) : Bool := isZeroNum c.im

/-- Complex.shrink; value/complex.go:94-103. -/
def Cx.shrink (c : Cx) : CNum :=
  let sc : Cx := ⟨c.re.shrink, c.im.shrink⟩
  if sc.isReal then .num sc.re else .cx sc

/-- A method that returns a Complex, followed by `.shrink()`; for instance value/binary.go:244. -/
def shrunk (r : Res Cx) : Res CNum := r.bind fun c => .ok c.shrink

/-- toType of a scalar, target complexType; value/int.go:165-166, value/bigint.go:161-162,
value/bigrat.go:191-192, value/char.go:47-58 (refused), value/complex.go:75-78. -/
def CNum.toComplex : CNum → Res Cx
  | .num (.char _) => .err
  | .num n => newComplex n zero
  | .cx c => .ok c

/-- A number as a scalar value; value/eval.go:109-130. -/
def asNum (r : Res Num) : Res CNum := r.bind fun n => .ok (.num n)

/-! ## Methods -/

section
variable (mb : Nat)

/-- `ctx.EvalBinary(u, "+", v)` on components; value/complex.go:157. -/
def plus (u v : Num) : Res Num := (opAdd mb).eval u v
/-- `ctx.EvalBinary(u, "-", v)` on components; value/complex.go:161. -/
def minus (u v : Num) : Res Num := (opSub mb).eval u v
/-- `ctx.EvalBinary(u, "*", v)` on components; value/complex.go:165. -/
def times (u v : Num) : Res Num := (opMul mb).eval u v

/-- Complex.neg; value/complex.go:107-109. -/
def Cx.neg (c : Cx) : Res Cx :=
  (opNeg.eval c.re).bind fun r => (opNeg.eval c.im).bind fun i => newComplex r i

/-- `u*u + v*v`; value/complex.go:115, 184. -/
def sumSquares (u v : Num) : Res Num :=
  (times mb u u).bind fun a => (times mb v v).bind fun b => plus mb a b

/-- Complex.inverse; value/complex.go:111-119. -/
def Cx.inverse (c : Cx) : Res Cx :=
  if isZeroNum c.re && isZeroNum c.im then .err
  else
    (sumSquares mb c.re c.im).bind fun denom =>
      (opDivide.eval c.re denom).bind fun r =>
        (opDivide.eval c.im denom).bind fun q =>
          (opNeg.eval q).bind fun i => newComplex r i

/-- Complex.add; value/complex.go:156-158. -/
def Cx.add (c d : Cx) : Res Cx :=
  (plus mb c.re d.re).bind fun r => (plus mb c.im d.im).bind fun i => newComplex r i

/-- Complex.sub; value/complex.go:160-162. -/
def Cx.sub (c d : Cx) : Res Cx :=
  (minus mb c.re d.re).bind fun r => (minus mb c.im d.im).bind fun i => newComplex r i

/-- Complex.mul; value/complex.go:164-168. -/
def Cx.mul (c d : Cx) : Res Cx :=
  (times mb c.re d.re).bind fun a => (times mb c.im d.im).bind fun b => (minus mb a b).bind fun r =>
    (times mb d.im c.re).bind fun e => (times mb d.re c.im).bind fun f => (plus mb e f).bind fun i =>
      newComplex r i

/-- Complex.div, the divisor real; value/complex.go:174-181. -/
def Cx.divReal (c d : Cx) : Res Cx :=
  (times mb d.re d.re).bind fun denom =>
    (times mb c.re d.re).bind fun r => (opDivide.eval r denom).bind fun r =>
      (times mb c.im d.re).bind fun i => (opDivide.eval i denom).bind fun i => newComplex r i

/-- Complex.div, the divisor not real; value/complex.go:182-188. -/
def Cx.divComplex (c d : Cx) : Res Cx :=
  (sumSquares mb d.re d.im).bind fun denom =>
    (times mb c.re d.re).bind fun a => (times mb c.im d.im).bind fun b => (plus mb a b).bind fun r =>
      (opDivide.eval r denom).bind fun r =>
        (times mb c.im d.re).bind fun e => (times mb c.re d.im).bind fun f => (minus mb e f).bind fun i =>
          (opDivide.eval i denom).bind fun i => newComplex r i

/-- Complex.div; value/complex.go:170-189. -/
def Cx.div (c d : Cx) : Res Cx :=
  if isZeroNum d.re && isZeroNum d.im then .err
  else if d.isReal then c.divReal mb d
  else c.divComplex mb d

/-- What `mod` leaves in its left operand: a negative BigRat is negated in place (`x.Set(x)` is not a copy);
value/eval.go:957-963. -/
def afterMod : Num → Num
  | .bigRat r => .bigRat (if r < 0 then -r else r)
  | n => n

/-- Complex.floor; value/complex.go:196-208. `same` tells whether both components are the same `*big.Rat`, as
they are in `x j x` (binary.go:205-207 and bigrat.go:203-208 keep the pointers); then the imaginary part read at
line 202 is what line 201 has left there. -/
def Cx.floor (same : Bool) (c : Cx) : Res Cx :=
  (opFloor.eval c.re).bind fun fr => (opFloor.eval c.im).bind fun fi => (newComplex fr fi).bind fun b =>
    (opMod.eval c.re one).bind fun x =>
      (opMod.eval (if same then afterMod c.re else c.im) one).bind fun y =>
        (plus mb x y).bind fun s => (opGt.eval one s).bind fun lt =>
          if isTrue lt then .ok b
          else
            (opGe.eval x y).bind fun ge =>
              if isTrue ge then b.add mb ⟨one, zero⟩
              else (newComplex zero one).bind fun i => b.add mb i

/-- Complex.ceil; value/complex.go:215-217. The components of the negation are the same `*big.Rat` never: each
`-` allocates its result (value/unary.go:300). -/
def Cx.ceil (c : Cx) : Res Cx := c.neg.bind fun n => (n.floor mb false).bind fun f => f.neg

/-! ## Operators -/

/-- EvalBinary on scalars, for an operator with the promotion binaryArithType or rationalType and an entry for
complexType: both operands are promoted if either is complex; value/eval.go:109-130, value/binary.go:25-47. -/
def evalC (real : Num → Num → Res Num) (cplx : Cx → Cx → Res CNum) : CNum → CNum → Res CNum
  | .num u, .num v => asNum (real u v)
  | u, v => u.toComplex.bind fun c => v.toComplex.bind fun d => cplx c d

/-- Binary `+`; value/binary.go:216-247. -/
def cAdd : CNum → CNum → Res CNum := evalC (plus mb) fun c d => shrunk (c.add mb d)

/-- Binary `-`; value/binary.go:249-277. -/
def cSub : CNum → CNum → Res CNum := evalC (minus mb) fun c d => shrunk (c.sub mb d)

/-- Binary `*`; value/binary.go:279-309. -/
def cMul : CNum → CNum → Res CNum := evalC (times mb) fun c d => shrunk (c.mul mb d)

/-- Binary `/`; value/binary.go:311-329. -/
def cDiv : CNum → CNum → Res CNum := evalC opDivide.eval fun c d => shrunk (c.div mb d)

/-- `==`; value/binary.go:627-658. `zero` is the Int 0 (value/const.go:33). -/
def cEq : CNum → CNum → Res CNum := evalC opEq.eval fun c d =>
  (opEq.eval c.re d.re).bind fun r => if r = zero then .ok (.num zero) else asNum (opEq.eval c.im d.im)

/-- `!=`; value/binary.go:660-691. -/
def cNe : CNum → CNum → Res CNum := evalC opNe.eval fun c d =>
  (opNe.eval c.re d.re).bind fun r => if r = one then .ok (.num one) else asNum (opNe.eval c.im d.im)

/-- Binary `j` on scalars; value/binary.go:195-214. There is no entry for characters nor for complex numbers. -/
def cJ : CNum → CNum → Res CNum
  | .num u, .num v =>
    let (tu, tv) := arithType u.ty v.ty
    (u.toType tu).bind fun u' => (v.toType tv).bind fun v' =>
      if tv = .char then .err else shrunk (newComplex u' v')
  | _, _ => .err

/-- A unary operator with an entry for complexType; value/eval.go:57-75. -/
def evalC1 (real : Num → Res CNum) (cplx : Cx → Res CNum) : CNum → Res CNum
  | .num v => real v
  | .cx c => cplx c

/-- Refuses characters: the nil entry for charType in the tables of unary.go. -/
def noChar (f : Num → Res CNum) : Num → Res CNum
  | .char _ => .err
  | v => f v

/-- Unary `-`; value/unary.go:287-307. -/
def cNeg : CNum → Res CNum := evalC1 (fun v => asNum (opNeg.eval v)) fun c => shrunk c.neg

/-- Unary `/`; value/unary.go:309-329. -/
def cRecip : CNum → Res CNum := evalC1 (fun v => asNum (opRecip.eval v)) fun c => shrunk (c.inverse mb)

/-- `conj`; value/unary.go:387-401. Line 397 shrinks twice; the second time is a no-op on scalars. -/
def cConj : CNum → Res CNum :=
  evalC1 (noChar fun v => .ok (.num v)) fun c => (opNeg.eval c.im).bind fun i => shrunk (newComplex c.re i)

/-- Unary `j`; value/unary.go:216-237. -/
def cTurn : CNum → Res CNum :=
  evalC1 (noChar fun v => shrunk (newComplex zero v)) fun c => (opNeg.eval c.im).bind fun r => shrunk (newComplex r c.re)

/-- `real`; value/unary.go:489-501. -/
def cReal : CNum → Res CNum := evalC1 (noChar fun v => .ok (.num v)) fun c => .ok (.num c.re)

/-- `imag`; value/unary.go:503-515. -/
def cImag : CNum → Res CNum := evalC1 (noChar fun _ => .ok (.num zero)) fun c => .ok (.num c.im)

/-- `not`; value/unary.go:426-461. -/
def cNot : CNum → Res CNum :=
  evalC1 (fun v => asNum (opNot.eval v)) fun c => .ok (.num (if c.isZero then one else zero))

/-- `floor`; value/unary.go:531-575. `same`: see `Cx.floor`. -/
def cFloor (same : Bool) : CNum → Res CNum := evalC1 (fun v => asNum (opFloor.eval v)) fun c => shrunk (c.floor mb same)

/-- `ceil`; value/unary.go:577-621. -/
def cCeil : CNum → Res CNum := evalC1 (fun v => asNum (opCeil.eval v)) fun c => shrunk (c.ceil mb)

end

/-! ## Expressions -/

/-- The modelled binary operators. -/
inductive COp2 where
  | add | sub | mul | quo | eq | ne | j
deriving DecidableEq

/-- The modelled unary operators other than `floor` and `ceil`. -/
inductive COp1 where
  | neg | recip | conj | turn | real | imag | not
deriving DecidableEq

/-- BinaryOps; value/binary.go:192-195. -/
def COp2.eval (mb : Nat) : COp2 → CNum → CNum → Res CNum
  | .add => cAdd mb | .sub => cSub mb | .mul => cMul mb | .quo => cDiv mb | .eq => cEq | .ne => cNe | .j => cJ

/-- UnaryOps; value/unary.go:136, 205. -/
def COp1.eval (mb : Nat) : COp1 → CNum → Res CNum
  | .neg => cNeg | .recip => cRecip mb | .conj => cConj | .turn => cTurn | .real => cReal | .imag => cImag
  | .not => cNot

/-- Expressions over exact literals; value/expr.go:24-41. -/
inductive CExpr where
  | lit (r : Rat)
  | un (op : COp1) (e : CExpr)
  | bin (e₁ : CExpr) (op : COp2) (e₂ : CExpr)

/-- Evaluation: the right operand first; value/expr.go:33-35, 53-60. A literal `1j2` is read as the expression
`1 j 2` is evaluated (value/value.go:94-96). -/
def CExpr.eval (mb : Nat) : CExpr → Res CNum
  | .lit r => .ok (.num (litNum r))
  | .un op e => (e.eval mb).bind (op.eval mb)
  | .bin e₁ op e₂ => (e₂.eval mb).bind fun v => (e₁.eval mb).bind fun u => op.eval mb u v

end Verif.Num
