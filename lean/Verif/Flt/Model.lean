import Verif.Arr.Basic

/-!
# Floating-point functions

`value/loop.go`, `value/power.go`, `value/sqrt.go`, `value/log.go`, `value/sin.go`, `value/asin.go`, `value/sinh.go`, `value/asinh.go`: the functions
ivy computes with series and iterations over Go's `big.Float`.

A `big.Float` is a rational number (its exact value) and a precision in bits; an operation of package `math/big` is the exact operation followed by
rounding to the precision of the object receiving the result, to nearest, ties to even (`rnd`).

Simplified: exponents are not limited (in Go to 32 bits), so infinities come only from dividing by zero; such a division is `R.crash` here, and
`Verif.Flt.Props` shows that it never happens. Zero has no sign. `R.hang` means that the fuel given was not enough.
-/

namespace Verif.Flt
open Verif.Arr (R)

/-! ## `math/big` -/

/-- The power of two `2 ^ e`. -/
def pow2 : Int → Rat
  | .ofNat n => ((2 ^ n : Nat) : Rat)
  | .negSucc n => mkRat 1 (2 ^ (n + 1))

/-- The number of bits of a number below `2 ^ 2 ^ j`. -/
def bitsBelow : Nat → Nat → Nat
  | 0, n => n
  | j + 1, n => if n < 2 ^ 2 ^ j then bitsBelow j n else 2 ^ j + bitsBelow j (n / 2 ^ 2 ^ j)

/-- Go's `(*big.Int).BitLen`: the number of bits. Halving the range of the answer (first case) is only for the benefit of the kernel, which has to
compute it. -/
def bitLen (n : Nat) : Nat := if n < 2 ^ 2 ^ 13 then bitsBelow 13 n else Nat.log2 n + 1

/-- Go's `(*big.Float).MantExp(nil)`: the exponent `e` with `2 ^ (e - 1) ≤ |q| < 2 ^ e`, and `0` for zero. The logarithms of numerator and denominator give
it up to one. -/
def expo (q : Rat) : Int :=
  if q.num = 0 then 0 else
    let e : Int := (bitLen q.num.natAbs : Int) - (bitLen q.den : Int)
    if pow2 e ≤ mkRat (q.num.natAbs : Int) q.den then e + 1 else e

/-- The nearest integer, of two the even one. -/
def nearest (t : Rat) : Int :=
  let f := t.floor
  let r := t - (f : Rat)
  if r < mkRat 1 2 then f else if mkRat 1 2 < r then f + 1 else if f % 2 = 0 then f else f + 1

/-- Rounding to `p` bits as in `math/big` (`ToNearestEven`). -/
def rnd (p : Nat) (q : Rat) : Rat :=
  let e := expo q - (p : Int)
  ((nearest (q * pow2 (-e)) : Int) : Rat) * pow2 e

/-- `z.Add(x, y)` for `z` of precision `p`. -/
def add (p : Nat) (x y : Rat) : Rat := rnd p (x + y)

/-- `z.Sub(x, y)` for `z` of precision `p`. -/
def sub (p : Nat) (x y : Rat) : Rat := rnd p (x - y)

/-- `z.Mul(x, y)` for `z` of precision `p`. -/
def mul (p : Nat) (x y : Rat) : Rat := rnd p (x * y)

/-- `z.Quo(x, y)` for `z` of precision `p`; dividing by zero leaves the model (an infinity, or the panic `ErrNaN`). -/
def quo (p : Nat) (x y : Rat) : R Rat := if y = 0 then .crash else .ok (rnd p (x / y))

/-- `z.Abs(x)`. -/
def absOf (x : Rat) : Rat := if x < 0 then -x else x

/-- A `big.Float` object: its precision and its value. -/
structure Fl where
  prec : Nat
  val : Rat
deriving DecidableEq, Repr

/-- What the functions take from the context: the precision in bits (`config/config.go:309-314`) and the constants computed at that precision
(`value/const.go:88-123`; Go's `SetString` can differ from `rnd` of the digits in the last bit, so the values are parameters). -/
structure Ctx where
  p : Nat
  pi : Rat
  log2 : Rat

/-- `value/unary.go:101-116`: `floatSelf` of a number that is not a float yet (`value/int.go:163-164`, `value/bigint.go:158-160`,
`value/bigrat.go:188-190`). A float is returned as it is: the same object. -/
def floatOf (c : Ctx) (q : Rat) : Fl := ⟨c.p, rnd c.p q⟩

/-! ## `value/loop.go` -/

/-- `value/loop.go:13-20`: `loop`, without the name and the argument, which are for the message only. -/
structure Loop where
  i : Nat
  maxIterations : Nat
  prevZ : Rat

/-- `value/loop.go:27-35`: `newLoop`. -/
def newLoop (c : Ctx) (itersPerBit : Nat) : Loop := ⟨0, 10 + itersPerBit * c.p, 0⟩

/-- `value/loop.go:41-66`: `done`; `none` when it reports that it is done, the next loop otherwise. `pz` is the precision of `z`. -/
def Loop.done (c : Ctx) (l : Loop) (pz : Nat) (z : Rat) : R (Option Loop) :=
  let delta := sub c.p l.prevZ z
  if delta = 0 ∧ 3 ≤ l.i then .ok none else
    let delta := absOf delta
    let eps := pow2 (expo z - (pz : Int))
    if delta ≤ eps ∧ 3 ≤ l.i then .ok none else
      if l.i + 1 = l.maxIterations then .err "did not converge" else
        .ok (some ⟨l.i + 1, l.maxIterations, rnd c.p z⟩)

/-- The loops `for loop := newLoop(…); ; { body; if loop.done(z) { break }; advance }`. The body gets the loop count, and so does the advance
(increased by one). `pz` is the precision of `z`. -/
def iterate {σ : Type} (c : Ctx) (pz : Nat) (body : Nat → σ → R σ) (zOf : σ → Rat) (advance : Nat → σ → R σ) : Nat → Loop → σ → R σ
  | 0, _, _ => .hang
  | fuel + 1, l, s =>
    (body l.i s).bind fun s => (l.done c pz (zOf s)).bind fun d =>
      match d with
      | none => .ok s
      | some l => (advance l.i s).bind fun s => iterate c pz body zOf advance fuel l s

/-! ## `value/power.go` -/

/-- The variables of `exponential`, `floatSinh` and `floatCosh`: `xN`, `nFactorial` and `z`. -/
structure Series where
  xN : Rat
  fact : Rat
  z : Rat

/-- `value/power.go:112-114`, `value/sinh.go:53-55`, `value/sinh.go:84-86`: add the next term. -/
def seriesBody (c : Ctx) (s : Series) : R Series :=
  (quo c.p s.xN s.fact).bind fun term => .ok { s with z := add c.p s.z term }

/-- `value/power.go:119-122`: the next power and the next factorial. -/
def expAdvance (c : Ctx) (x : Rat) (i : Nat) (s : Series) : R Series :=
  .ok { s with xN := mul c.p s.xN x, fact := mul c.p s.fact (rnd c.p ((i : Rat) + 1)) }

/-- `value/power.go:102-126`: `exponential`. -/
def exponential (c : Ctx) (fuel : Nat) (x : Rat) : R Rat :=
  (iterate c c.p (fun _ => seriesBody c) Series.z (expAdvance c x) fuel (newLoop c 10) ⟨rnd c.p x, rnd c.p 1, rnd c.p 1⟩).bind fun s => .ok s.z

/-- `value/power.go:133-141`: the loop of `integerPower`. Every turn halves the exponent, so the exponent's own bits are fuel enough. -/
def integerPowerLoop (p : Nat) : Nat → Nat → Rat → Rat → Rat
  | 0, _, _, z => z
  | fuel + 1, exp, y, z =>
    if exp = 0 then z else
      integerPowerLoop p fuel (exp / 2) (mul p y y) (if exp % 2 = 1 then mul p z y else z)

/-- `value/power.go:129-142`: `integerPower`; the exponents met are not negative. -/
def integerPower (c : Ctx) (x : Rat) (exp : Nat) : Rat := integerPowerLoop c.p (exp + 1) exp (rnd c.p x) (rnd c.p 1)

/-! ## `value/sqrt.go` -/

/-- `value/sqrt.go:74-78`: a step of Newton's iteration. The root has precision `pz`. -/
def sqrtStep (c : Ctx) (pz : Nat) (x z : Rat) : R Rat :=
  (quo c.p (sub c.p (mul c.p z z) x) (mul c.p (rnd c.p 2) z)).bind fun num => .ok (sub pz z num)

/-- `value/sqrt.go:52-84`: `floatSqrt`. `x.MantExp(z)` gives `z` the precision of `x`; Go's division rounds towards zero. -/
def floatSqrt (c : Ctx) (fuel : Nat) (x : Fl) : R Fl :=
  if x.val < 0 then .err "square root of negative number" else
    if x.val = 0 then .ok ⟨c.p, 0⟩ else
      let exp := expo x.val
      let z := rnd x.prec (x.val * pow2 (-exp)) * pow2 (exp.tdiv 2)
      (iterate c x.prec (fun _ => sqrtStep c x.prec x.val) id (fun _ z => .ok z) fuel (newLoop c 1) z).bind fun z => .ok ⟨x.prec, z⟩

/-! ## `value/log.go` -/

/-- `value/log.go:145-148`: `yN` and `z`, the next term of the series for `log(1-y)`. -/
def logBody (c : Ctx) (i : Nat) (s : Rat × Rat) : R (Rat × Rat) :=
  (quo c.p s.1 (rnd c.p ((i : Rat) + 1))).bind fun term => .ok (s.1, sub c.p s.2 term)

/-- `value/log.go:108-166`: `floatLog`. -/
def floatLog (c : Ctx) (fuel : Nat) (x : Rat) : R Rat :=
  if x ≤ 0 then .err "log of non-positive value" else
    if x = 1 then .ok 0 else
      let invert := decide (1 < rnd c.p x)
      (if invert then quo c.p 1 (rnd c.p x) else .ok (rnd c.p x)).bind fun x =>
        let exp2 := expo x
        let exp := mul c.p (rnd c.p (exp2 : Rat)) c.log2
        let exp := if invert then -exp else exp
        let y := sub c.p (rnd c.p 1) (x * pow2 (-exp2))
        (iterate c c.p (logBody c) Prod.snd (fun _ s => .ok (mul c.p s.1 y, s.2)) fuel (newLoop c 40) (y, 0)).bind fun s =>
          let z := if invert then -s.2 else s.2
          .ok (add c.p z exp)

/-- `value/log.go:61-81`: `uint64Log`, for `b` and `v` below `2 ^ 64`. The base is squared in every call, so 7 calls are enough. -/
def uint64Log : Nat → Nat → Nat → Nat × Nat
  | 0, _, v => (0, v)
  | fuel + 1, b, v =>
    if b ≤ 1 ∨ v < b ∨ v % b ≠ 0 then (0, v) else
      let r := if b < 2 ^ 32 then let r := uint64Log fuel (b * b) v; (2 * r.1, r.2) else (0, v)
      if b ≤ r.2 then (r.1 ||| 1, r.2 / b) else r

/-- `value/log.go:51-59`: `intLog`, for `Int`s. -/
def intLog (b v : Int) : Int × Int :=
  if b ≤ 1 ∨ v < 0 then (0, v) else
    let r := uint64Log 64 b.toNat v.toNat
    (r.1, r.2)

/-- `value/log.go:83-105`: `bigIntLog`. The base grows with every call, so the
length of `v` is fuel enough. -/
def bigIntLogLoop : Nat → Nat → Int → Nat × Int
  | 0, _, v => (0, v)
  | fuel + 1, b, v =>
    if b ≤ 1 ∨ v < b ∨ v % (b : Int) ≠ 0 then (0, v) else
      let r := if 2 * bitLen b - 1 ≤ bitLen v.toNat then let r := bigIntLogLoop fuel (b * b) v; (2 * r.1, r.2) else (0, v)
      if (b : Int) ≤ r.2 then (r.1 ||| 1, r.2 / (b : Int)) else r

/-- `value/log.go:83-105`: `bigIntLog`. -/
def bigIntLog (b v : Int) : Nat × Int := if b ≤ 1 then (0, v) else bigIntLogLoop (bitLen v.toNat + 1) b.toNat v

/-- `value/log.go:29-49`: `logBaseU` of two integers; the first function is used when both are `Int`s, the second otherwise. The quotient of logarithms
is a parameter. -/
def logBaseU {α : Type} (int : Bool) (quotient : Int → Int → α) (u v : Int) : (Int × Option α) :=
  let r := if int then intLog u v else let r := bigIntLog u v; ((r.1 : Int), r.2)
  if r.2 = 1 then (r.1, none) else (r.1, some (quotient r.2 u))

/-! ## `value/sin.go` -/

/-- `value/sin.go:139-147`: the multiples of 2π, each sixteen times the one before, that do not exceed `x`; the last one first. -/
def multiples (p : Nat) (x : Rat) : Nat → Rat → List Rat → R (List Rat)
  | 0, _, _ => .hang
  | fuel + 1, m, acc =>
    let m := mul p m (rnd p 16)
    if x < m then .ok acc else multiples p x fuel m (rnd p m :: acc)

/-- `value/sin.go:151-153`, `154-156`: `for x.Cmp(m) >= 0 { x.Sub(x, m) }`, in place: the precision is that of `x`. -/
def subtractLoop (px : Nat) (m : Rat) : Nat → Rat → R Rat
  | 0, _ => .hang
  | fuel + 1, x => if m ≤ x then subtractLoop px m fuel (sub px x m) else .ok x

/-- `value/sin.go:149-153`: subtract big multiples. -/
def subtractAll (px fuel : Nat) : List Rat → Rat → R Rat
  | [], x => .ok x
  | m :: ms, x => (subtractLoop px m fuel x).bind (subtractAll px fuel ms)

/-- `value/sin.go:129-157`: `twoPiReduce`. The argument is changed in place: what is returned is its new value. -/
def twoPiReduce (c : Ctx) (fuel : Nat) (x : Fl) : R Fl :=
  let twoPi := mul c.p (rnd c.p (rnd c.p 2)) c.pi
  (if rnd c.p 1000 < x.val then (multiples c.p x.val fuel (rnd c.p twoPi) []).bind fun ms => subtractAll x.prec fuel ms x.val else .ok x.val).bind fun y =>
    (subtractLoop x.prec twoPi fuel y).bind fun y => .ok ⟨x.prec, y⟩

/-- The variables of `sincos`: `term`, `xN`, `factorial`, `z` and `exp`. -/
structure Trig where
  term : Rat
  xN : Rat
  fact : Rat
  z : Rat
  exp : Nat

/-- `value/sin.go:110-113`. -/
def trigBody (c : Ctx) (s : Trig) : R Trig :=
  (quo c.p s.term (-s.fact)).bind fun t => .ok { s with term := t, fact := -s.fact, z := add c.p s.z t }

/-- `value/sin.go:118-124`. -/
def trigAdvance (c : Ctx) (x2 : Rat) (s : Trig) : R Trig :=
  let t := mul c.p s.xN x2
  .ok { s with term := t, xN := t, exp := s.exp + 2,
               fact := mul c.p (mul c.p s.fact (rnd c.p ((s.exp : Rat) + 1))) (rnd c.p ((s.exp : Rat) + 2)) }

/-- `value/sin.go:101-104`: the power of `x` the series begins with. -/
def powerOf (c : Ctx) (x : Rat) : Nat → Rat
  | 0 => rnd c.p 1
  | n + 1 => mul c.p (powerOf c x n) x

/-- `value/sin.go:99-127`: `sincos`. -/
def sincos (c : Ctx) (fuel index : Nat) (x z : Rat) (exp : Nat) (factorial : Rat) : R Rat :=
  let term := powerOf c x index
  (iterate c c.p (fun _ => trigBody c) Trig.z (fun _ => trigAdvance c (mul c.p x x)) fuel (newLoop c 4)
    ⟨term, rnd c.p term, factorial, z, exp⟩).bind fun s => .ok s.z

/-- `value/sin.go:60-83`: `floatSin`; the result, and the argument as the function leaves it. -/
def floatSin (c : Ctx) (fuel : Nat) (x : Fl) : R (Rat × Fl) :=
  let negate := decide (x.val < 0)
  let x : Fl := if negate then ⟨x.prec, -x.val⟩ else x
  (twoPiReduce c fuel x).bind fun x => (sincos c fuel 3 x.val (rnd c.p x.val) 3 (rnd c.p 6)).bind fun r =>
    .ok (if negate then -r else r, x)

/-- `value/sin.go:85-97`: `floatCos`; the result, and the argument as the function leaves it. -/
def floatCos (c : Ctx) (fuel : Nat) (x : Fl) : R (Rat × Fl) :=
  (twoPiReduce c fuel x).bind fun x => (sincos c fuel 2 x.val (rnd c.p 1) 2 (rnd c.p (rnd c.p 2))).bind fun r => .ok (r, x)

/-- `value/sin.go:38-57`: `tan` of a real number; the result, and the argument as the function leaves it. -/
def floatTan (c : Ctx) (fuel : Nat) (x : Fl) : R (Rat × Fl) :=
  let negate := decide (x.val < 0)
  let x : Fl := if negate then ⟨x.prec, -x.val⟩ else x
  (twoPiReduce c fuel x).bind fun x => (floatSin c fuel x).bind fun s => (floatCos c fuel s.2).bind fun d =>
    if d.1 = 0 then .err "tangent is infinite" else
      (quo c.p s.1 d.1).bind fun r => .ok (if negate then -r else r, d.2)

/-! ## `value/asin.go` -/

/-- `value/asin.go:141-146`: `xN` and `z`, the next term of the series. -/
def atanBody (c : Ctx) (i : Nat) (s : Rat × Rat) : R (Rat × Rat) :=
  (quo c.p (rnd c.p s.1) (rnd c.p (2 * (i : Rat) + 1))).bind fun term => .ok (-s.1, add c.p s.2 term)

/-- `value/asin.go:169-175`: the next term of the series for large arguments. -/
def atanLargeBody (c : Ctx) (i : Nat) (s : Rat × Rat) : R (Rat × Rat) :=
  (quo c.p 1 (mul c.p (rnd c.p (-s.1)) (rnd c.p (2 * (i : Rat) + 1)))).bind fun term => .ok (-s.1, add c.p s.2 term)

/-- `value/asin.go:152`, `180`: the next odd power. -/
def atanAdvance (c : Ctx) (x2 : Rat) (s : Rat × Rat) : R (Rat × Rat) := .ok (mul c.p s.1 x2, s.2)

/-- `value/asin.go:128-155`: the series for small arguments. -/
def atanSmall (c : Ctx) (fuel : Nat) (x : Rat) : R Rat :=
  (iterate c c.p (atanBody c) Prod.snd (fun _ => atanAdvance c (mul c.p x x)) fuel (newLoop c 4) (rnd c.p x, 0)).bind fun s => .ok s.2

/-- `value/asin.go:157-186`: `floatAtanLarge`. -/
def floatAtanLarge (c : Ctx) (fuel : Nat) (x : Rat) : R Rat :=
  (quo c.p (rnd c.p c.pi) (rnd c.p 2)).bind fun z =>
    (iterate c c.p (atanLargeBody c) Prod.snd (fun _ => atanAdvance c (mul c.p x x)) fuel (newLoop c 4) (rnd c.p x, z)).bind fun s => .ok s.2

/-- `value/asin.go:108-127`: the argument of the Euler formula, `(x-y)/(1+xy)` for `y = √2 - 1`. -/
def eulerArg (c : Ctx) (fuel : Nat) (x : Rat) : R Rat :=
  (floatSqrt c fuel ⟨c.p, rnd c.p 2⟩).bind fun r =>
    let y := sub c.p r.val 1
    quo c.p (sub c.p (rnd c.p x) y) (add c.p (mul c.p (rnd c.p x) y) 1)

/-- `value/asin.go:83-155`: `floatAtan` of an argument that is not negative; the fuel bounds the depth of the recursion. -/
def atanPos (c : Ctx) : Nat → Rat → R Rat
  | 0, _ => .hang
  | fuel + 1, x =>
    if absOf (sub c.p (rnd c.p 1) x) < rnd c.p (mkRat 1 2) then
      (quo c.p (rnd c.p c.pi) (rnd c.p 8)).bind fun z => (eulerArg c (fuel + 1) x).bind fun a =>
        (if a < 0 then (atanPos c fuel (-rnd c.p a)).bind fun r => .ok (-r) else atanPos c fuel a).bind fun r => .ok (add c.p z r)
    else if 1 < x then floatAtanLarge c (fuel + 1) x
    else atanSmall c (fuel + 1) x

/-- `value/asin.go:83-155`: `floatAtan`. -/
def floatAtan (c : Ctx) (fuel : Nat) (x : Rat) : R Rat :=
  if x < 0 then (atanPos c fuel (-rnd c.p x)).bind fun r => .ok (-r) else atanPos c fuel x

/-- `value/asin.go:51-72`: `floatAsin`. -/
def floatAsin (c : Ctx) (fuel : Nat) (x : Rat) : R Rat :=
  if x = 1 then quo c.p (rnd c.p c.pi) (rnd c.p 2) else
    if x = -1 then (quo c.p (rnd c.p c.pi) (rnd c.p 2)).bind fun z => .ok (-z) else
      (floatSqrt c fuel ⟨c.p, sub c.p 1 (mul c.p x x)⟩).bind fun r => (quo r.prec x r.val).bind fun z => floatAtan c fuel z

/-- `value/asin.go:74-79`: `floatAcos`. -/
def floatAcos (c : Ctx) (fuel : Nat) (x : Rat) : R Rat :=
  (quo c.p (rnd c.p c.pi) (rnd c.p 2)).bind fun z => (floatAsin c fuel x).bind fun a => .ok (sub c.p z a)

/-! ## `value/sinh.go` -/

/-- `value/sinh.go:60-65`: two further powers and factors. -/
def sinhAdvance (c : Ctx) (x : Rat) (i : Nat) (s : Series) : R Series :=
  .ok { s with xN := mul c.p (mul c.p s.xN x) x,
               fact := mul c.p (mul c.p s.fact (rnd c.p (2 * (i : Rat)))) (rnd c.p (2 * (i : Rat) + 1)) }

/-- `value/sinh.go:91-96`. -/
def coshAdvance (c : Ctx) (x : Rat) (i : Nat) (s : Series) : R Series :=
  .ok { s with xN := mul c.p (mul c.p s.xN x) x,
               fact := mul c.p (mul c.p s.fact (rnd c.p (2 * (i : Rat) + 1))) (rnd c.p (2 * (i : Rat) + 2)) }

/-- `value/sinh.go:42-70`: `floatSinh`. -/
def floatSinh (c : Ctx) (fuel : Nat) (x : Rat) : R Rat :=
  (iterate c c.p (fun _ => seriesBody c) Series.z (sinhAdvance c x) fuel (newLoop c 10) ⟨rnd c.p x, rnd c.p 1, 0⟩).bind fun s => .ok s.z

/-- `value/sinh.go:72-101`: `floatCosh`. -/
def floatCosh (c : Ctx) (fuel : Nat) (x : Rat) : R Rat :=
  (iterate c c.p (fun _ => seriesBody c) Series.z (coshAdvance c x) fuel (newLoop c 10)
    ⟨mul c.p (rnd c.p x) x, rnd c.p 2, rnd c.p 1⟩).bind fun s => .ok s.z

/-- `value/sinh.go:103-113`: `floatTanh`. -/
def floatTanh (c : Ctx) (fuel : Nat) (x : Rat) : R Rat :=
  (floatCosh c fuel x).bind fun d => if d = 0 then .err "tanh is infinite" else (floatSinh c fuel x).bind fun n => quo c.p n d

/-! ## `value/asinh.go` -/

/-- `value/asinh.go:49-58`: `floatAsinh`. The root has the precision of the context. -/
def floatAsinh (c : Ctx) (fuel : Nat) (x : Rat) : R Rat :=
  (floatSqrt c fuel ⟨c.p, add c.p (mul c.p (rnd c.p x) x) 1⟩).bind fun z => floatLog c fuel (add z.prec z.val x)

/-- `value/asinh.go:60-72`: `floatAcosh`. -/
def floatAcosh (c : Ctx) (fuel : Nat) (x : Rat) : R Rat :=
  if x < 1 then .err "real acosh out of range [1, +∞ )" else
    (floatSqrt c fuel ⟨c.p, sub c.p (mul c.p (rnd c.p x) x) 1⟩).bind fun z => floatLog c fuel (add z.prec z.val x)

/-- `value/asinh.go:74-83`: `floatAtanh`. -/
def floatAtanh (c : Ctx) (fuel : Nat) (x : Rat) : R Rat :=
  if x ≤ -1 ∨ 1 ≤ x then .err "real atanh out of range (-1, 1)" else
    (quo c.p (add c.p 1 x) (sub c.p 1 x)).bind fun q => (floatLog c fuel q).bind fun z => quo c.p z (rnd c.p 2)

/-! ## Powers -/

/-- Go's `(*big.Float).Int64` of a number that is not negative: its integer part, at most `2 ^ 63 - 1`. -/
def int64Of (q : Rat) : Nat := min q.floor.toNat (2 ^ 63 - 1)

/-- `value/power.go:50-98`: `floatPower` of a base that is not negative (`power`, `value/power.go:13-23`, takes the complex function otherwise).
Negating the exponent (`c.EvalUnary("-", bexp)`) rounds to the precision of the context. -/
def floatPower (c : Ctx) (fuel : Nat) (x fexp : Fl) : R Fl :=
  if rnd c.p fexp.val = 0 then .ok ⟨c.p, rnd c.p 1⟩ else
    if fexp.val < 0 ∧ x.val = 0 then .err "negative exponent of zero" else
      let positive := decide (0 ≤ fexp.val)
      let e := absOf (rnd c.p fexp.val)
      if x.val = 1 ∨ x.val = 0 then .ok x else
        if e = mkRat 1 2 then
          (floatSqrt c fuel x).bind fun z => if positive then .ok z else (quo z.prec 1 z.val).bind fun r => .ok ⟨z.prec, r⟩
        else
          let exp := int64Of e
          let z := integerPower c x.val exp
          (if e = (exp : Rat) then .ok z else
            let frac := sub c.p e (rnd c.p (exp : Rat))
            (floatLog c fuel x.val).bind fun logx => (exponential c fuel (mul c.p frac logx)).bind fun r => .ok (mul c.p z r)).bind fun z =>
          if positive then .ok ⟨c.p, z⟩ else (quo c.p 1 z).bind fun r => .ok ⟨c.p, r⟩

end Verif.Flt
