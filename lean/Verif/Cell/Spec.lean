import Verif.Cell.Model

/-!
# Values instead of objects

What an expression means if numbers are values: a function from the values of the variables to a value. There is no heap here.
-/

namespace Verif.Cell.Spec
open Verif.Arr (R)
open Verif.Flt

/-- The result, without the operand. -/
def fst (r : R (Rat × Fl)) : R Rat := r.bind fun s => .ok s.1

/-- A result of two parts. -/
def pair (c : Ctx) (re im : Rat) : PV := shrinkC (.flt ⟨c.p, re⟩) (.flt ⟨c.p, im⟩)

/-- `sin (x + iy) = sin x cosh y + i cos x sinh y`. Here and below, the second function of `x` is applied to `x` as the first one has reduced it. -/
def complexSin (c : Ctx) (fuel : Nat) (x y : Fl) : R PV :=
  (floatSin c fuel x).bind fun s => (floatCosh c fuel y.val).bind fun ch => (floatCos c fuel s.2).bind fun cs => (floatSinh c fuel y.val).bind fun sh =>
    .ok (pair c (mul c.p s.1 ch) (mul c.p cs.1 sh))

/-- `cos (x + iy) = cos x cosh y - i sin x sinh y`. -/
def complexCos (c : Ctx) (fuel : Nat) (x y : Fl) : R PV :=
  (floatCos c fuel x).bind fun cs => (floatCosh c fuel y.val).bind fun ch => (floatSin c fuel cs.2).bind fun s => (floatSinh c fuel y.val).bind fun sh =>
    .ok (pair c (mul c.p cs.1 ch) (-mul c.p s.1 sh))

/-- Twice a float. -/
def twice (c : Ctx) (x : Fl) : Fl := ⟨x.prec, mul x.prec x.val (rnd c.p 2)⟩

/-- Two quotients. -/
def quotients (c : Ctx) (re im den : Rat) : R PV :=
  if den = 0 then .err "tangent is infinite" else (quo c.p re den).bind fun r => (quo c.p im den).bind fun i => .ok (pair c r i)

/-- `tan (x + iy) = (sin 2x + i sinh 2y) / (cos 2x + cosh 2y)`. -/
def complexTan (c : Ctx) (fuel : Nat) (x y : Fl) : R PV :=
  (floatSin c fuel (twice c x)).bind fun s => (floatSinh c fuel (twice c y).val).bind fun sh => (floatCos c fuel s.2).bind fun cs =>
    (floatCosh c fuel (twice c y).val).bind fun ch => quotients c s.1 sh (add c.p cs.1 ch)

/-- `sinh (x + iy) = sinh x cos y + i cosh x sin y`. -/
def complexSinh (c : Ctx) (fuel : Nat) (x y : Fl) : R PV :=
  (floatSinh c fuel x.val).bind fun sh => (floatCos c fuel y).bind fun cs => (floatCosh c fuel x.val).bind fun ch => (floatSin c fuel cs.2).bind fun s =>
    .ok (pair c (mul c.p sh cs.1) (mul c.p ch s.1))

/-- `cosh (x + iy) = cosh x cos y + i sinh x sin y`. -/
def complexCosh (c : Ctx) (fuel : Nat) (x y : Fl) : R PV :=
  (floatCosh c fuel x.val).bind fun ch => (floatCos c fuel y).bind fun cs => (floatSinh c fuel x.val).bind fun sh => (floatSin c fuel cs.2).bind fun s =>
    .ok (pair c (mul c.p ch cs.1) (mul c.p sh s.1))

/-- `tanh (x + iy) = (sinh 2x + i sin 2y) / (cosh 2x + cos 2y)`. -/
def complexTanh (c : Ctx) (fuel : Nat) (x y : Fl) : R PV :=
  (floatSinh c fuel (twice c x).val).bind fun sh => (floatSin c fuel (twice c y)).bind fun s => (floatCosh c fuel (twice c x).val).bind fun ch =>
    (floatCos c fuel s.2).bind fun cs => quotients c sh s.1 (add c.p ch cs.1)

/-- `exp (x + iy) = exp x (cos y + i sin y)`. -/
def expComplex (c : Ctx) (fuel : Nat) (x y : Fl) : R PV :=
  (exponential c fuel x.val).bind fun e => (floatCos c fuel y).bind fun cs => (floatSin c fuel cs.2).bind fun s =>
    .ok (.cplx (.flt ⟨c.p, mul c.p cs.1 e⟩) (.flt ⟨c.p, mul c.p s.1 e⟩))

/-- A function of real and complex numbers. -/
def trig (c : Ctx) (real : Fl → R Rat) (complex : Fl → Fl → R PV) (v : PV) : R PV :=
  if v.parts.2.val ≠ 0 then complex (v.parts.1.float c) (v.parts.2.float c) else
    (real (v.parts.1.float c)).bind fun r => .ok (.real (shrinkF ⟨c.p, r⟩))

/-- The phase of a complex number. -/
def phaseC (c : Ctx) (fuel : Nat) (re im : PS) : R PS :=
  if im.val = 0 then .ok (realPhase c re) else
    if re.val = 0 then .ok (.flt ⟨c.p, if im.val < 0 then -rnd c.p (c.pi / 2) else rnd c.p (c.pi / 2)⟩) else quadrant c fuel re im

/-- The phase. -/
def phase (c : Ctx) (fuel : Nat) : PV → R PV
  | .real s => .ok (.real (realPhase c s))
  | .cplx a b => (phaseC c fuel a b).bind fun s => .ok (.real s.shrink)

/-- The logarithm. -/
def log (c : Ctx) (fuel : Nat) (v : PV) : R PV :=
  let r := v.parts.1
  let i := v.parts.2
  if i.val ≠ 0 ∨ r.val < 0 then
    (cAbs c fuel (r, i)).bind fun a => (phaseC c fuel r i).bind fun ph => (realLog c fuel a).bind fun l => .ok (shrinkC l ph)
  else (realLog c fuel r).bind fun l => .ok (.real l)

/-- Unary operators. -/
def unary (c : Ctx) (fuel : Nat) : Un → PV → R PV
  | .plus, v => .ok v
  | .minus, v => negV c v
  | .abs, v => absV c fuel v
  | .sqrt, v => sqrtV c fuel v
  | .real, v => .ok (.real v.parts.1)
  | .imag, v => .ok (.real v.parts.2)
  | .float, .real s => .ok (.real (.flt (s.float c)))
  | .float, .cplx a b => .ok (.cplx (.flt (a.float c)) (.flt (b.float c)))
  | .phase, v => phase c fuel v
  | .log, v => log c fuel v
  | .sin, v => trig c (fun x => fst (floatSin c fuel x)) (complexSin c fuel) v
  | .cos, v => trig c (fun x => fst (floatCos c fuel x)) (complexCos c fuel) v
  | .tan, v => trig c (fun x => fst (floatTan c fuel x)) (complexTan c fuel) v
  | .sinh, v => trig c (fun x => floatSinh c fuel x.val) (complexSinh c fuel) v
  | .cosh, v => trig c (fun x => floatCosh c fuel x.val) (complexCosh c fuel) v
  | .tanh, v => trig c (fun x => floatTanh c fuel x.val) (complexTanh c fuel) v
  | .exp, v => trig c (fun x => exponential c fuel x.val) (expComplex c fuel) v

/-- `x j y`. -/
def join (c : Ctx) : PV → PV → R PV
  | .real (.exact a), .real (.exact b) => .ok (shrinkC (.exact a) (.exact b))
  | .real s, .real t => .ok (shrinkC (.flt (s.float c)) (.flt (t.float c)))
  | _, _ => .err "binary j not implemented on type complex"

/-- The value of an expression, given the values of the variables. -/
def value (c : Ctx) (fuel : Nat) (env : List (String × PV)) : Ex → R PV
  | .num re im => .ok (if im = 0 then .real (.exact re) else .cplx (.exact re) (.exact im))
  | .var x => match env.lookup x with
    | some v => .ok v
    | none => .err "undefined variable"
  | .un op e => (value c fuel env e).bind (unary c fuel op)
  | .bin op l r => (value c fuel env r).bind fun v => (value c fuel env l).bind fun u => binary c op u v
  | .j l r => (value c fuel env r).bind fun v => (value c fuel env l).bind fun u => join c u v

/-- What a session prints. -/
def session (c : Ctx) (fuel : Nat) : List Line → List (String × PV) → R (List PV)
  | [], _ => .ok []
  | .assign x e :: ls, env => (value c fuel env e).bind fun v => session c fuel ls ((x, v) :: env)
  | .show e :: ls, env => (value c fuel env e).bind fun v => (session c fuel ls env).bind fun vs => .ok (v :: vs)

/-- The functions that may change their operand. -/
def changes : Un → Bool
  | .sin | .cos | .tan | .sinh | .cosh | .tanh | .exp => true
  | _ => false

/-- The value of the expression is new: no variable and no constant has the same object. -/
def isNew : Ex → Bool
  | .num _ _ => true
  | .var _ => false
  | .un .plus e | .un .real e | .un .imag e | .un .float e => isNew e
  | .un .phase _ | .un .log _ => false
  | .un _ _ => true
  | .bin _ _ _ => true
  | .j l r => isNew l && isNew r

/-- Functions that may change their operand are applied to new values only. -/
def careful : Ex → Bool
  | .num _ _ | .var _ => true
  | .un op e => careful e && (!changes op || isNew e)
  | .bin _ l r | .j l r => careful l && careful r

/-- The expression of a line. -/
def lineExpr : Line → Ex
  | .assign _ e => e
  | .show e => e

end Verif.Cell.Spec
