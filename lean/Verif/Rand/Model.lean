import Verif.Par.Model
import Verif.Num.Model
/-
Model of the operators that use the random number generator (value/unary.go, value/binary.go, config/config.go).

The generator (`math/rand/v2`'s ChaCha8 source and the `Rand` around it, config/config.go:71-72) is a state and
four functions on it, supplied by the library; nothing about them is assumed here. What the theorems assume is
written in Spec.lean. `rand.Int` reads from the source, which never fails, so the loop of `bigIntRand`
(unary.go:58-64) runs once.

A call of the generator happens with `randLock` held (config.go:262-272), so the calls made by the goroutines of
one loop are made one after another, in an order nobody controls: a schedule is the list of the goroutines
that get the lock, in turn.
Simplifications: complex operands are left out; floating-point numbers are rationals that the operations round;
an operand of `rand` is the rational its conversion to `big.Float` gives; the arrays given to `rand` are flat (for
`?` they may be nested).
-/
namespace Verif.Rand
open Verif.Num Verif.Par

/-- What the library provides: `Rand.Int64N` (unary.go:174), `rand.Int` of package crypto/rand reading from the
source (unary.go:59), `Rand.Perm` (binary.go:941), and the state that `ChaCha8.Seed` sets for a seed of 32 bytes
(config.go:258). -/
structure Gen (σ : Type) where
  int64N : Nat → σ → Nat × σ
  bigInt : Nat → σ → Nat × σ
  perm : Nat → σ → List Nat × σ
  seeded : List Nat → σ

variable {σ : Type}

/-- The word of makeSeed (config.go:241-245): the eight bytes of the seed, the low one first. -/
def seedWord (seed : Nat) : List Nat := (List.range 8).map fun i => seed / 256 ^ i % 256

/-- makeSeed (config.go:239-251): the word four times. -/
def makeSeed (seed : Nat) : List Nat := (List.replicate 4 (seedWord seed)).flatten

/-- A number or an array of values. -/
inductive T where
  | num (x : Num)
  | arr (l : List T)

/-- Unary `?` of a number (unary.go:167-187): the result, or nothing for an error, and the generator afterwards. -/
def roll1 (G : Gen σ) (origin : Int) (x : Num) (s : σ) : Option Num × σ :=
  match x with
  | .int i =>
    if i ≤ 0 then (none, s) else
    let r := G.int64N i.toNat s
    (some (.int (origin + r.1)), r.2)
  | .bigInt i =>
    if i ≤ 0 then (none, s) else
    let r := G.bigInt i.toNat s
    (some (shrinkBig r.1), r.2)
  | _ => (none, s)

mutual
/-- Unary `?` of a value: of an array, element by element in one goroutine, since `safeUnary` is false of `?`
(eval.go:176-180) and `pfor` then calls its function once for all the elements (eval.go:210-213; 649-669). -/
def roll (G : Gen σ) (origin : Int) : T → σ → Option T × σ
  | .num x, s =>
    match roll1 G origin x s with
    | (some y, s) => (some (.num y), s)
    | (none, s) => (none, s)
  | .arr l, s =>
    match rolls G origin l s with
    | (some ys, s) => (some (.arr ys), s)
    | (none, s) => (none, s)
/-- The loop over the elements (eval.go:653-655). -/
def rolls (G : Gen σ) (origin : Int) : List T → σ → Option (List T) × σ
  | [], s => (some [], s)
  | x :: l, s =>
    match roll G origin x s with
    | (some y, s) =>
      match rolls G origin l s with
      | (some ys, s) => (some (y :: ys), s)
      | (none, s) => (none, s)
    | (none, s) => (none, s)
end

/-- Binary `?` of two machine integers (binary.go:933-948): the first `a` of a permutation of `b` numbers. -/
def deal (G : Gen σ) (origin : Int) (a b : Int) (s : σ) : Option (List Num) × σ :=
  if a < 0 ∨ maxInt < a ∨ b < 0 ∨ maxInt < b then (none, s) else
  if b < a then (none, s) else
  let r := G.perm b.toNat s
  (some ((List.range a.toNat).map fun i => Num.int ((r.1.getD i 0 : Nat) + origin)), r.2)

/-- The exponent of 2 that `big.Float` gives the last bit of a positive rational at precision `p`: the least `e`
with `q < 2 ^ (e + p)`. -/
def lastBit (p : Nat) (q : Rat) : Int :=
  let n := q.num.toNat
  let d := q.den
  let k : Int := (n.log2 : Int) - d.log2
  (if (if 0 ≤ k then n < d * 2 ^ k.toNat else n * 2 ^ (-k).toNat < d) then k else k + 1) - p

/-- The nearest integer, halves to the even one: the rounding mode ToNearestEven of `big.Float`. -/
def nearest (q : Rat) : Int :=
  let f := q.floor
  let r := q - f
  if r < 1 / 2 then f else if 1 / 2 < r then f + 1 else if f % 2 = 0 then f else f + 1

/-- The rounding of a nonnegative rational to `p` bits, as `big.Float` does with results. -/
def rnd (p : Nat) (q : Rat) : Rat :=
  if q ≤ 0 then 0 else
  let e := lastBit p q
  nearest (q / (2 : Rat) ^ e) * (2 : Rat) ^ e

/-- The arithmetic of bigFloatRand (unary.go:154-161) on the integer drawn: `big.NewFloat` makes numbers of 53
bits, and the operations round to the precision of their destination. -/
def scale (prec drawn : Nat) (f : Rat) : Rat :=
  rnd 53 (rnd 53 (rnd 53 drawn / rnd 53 ((2 ^ prec + 1 : Nat) : Rat)) * f)

/-- bigFloatRand (unary.go:144-162): nothing for an error; the number drawn is less than `2 ^ prec + 1`. -/
def rand1 (G : Gen σ) (prec : Nat) (f : Rat) (s : σ) : Option Rat × σ :=
  if f < 0 then (none, s) else
  let r := G.bigInt (2 ^ prec + 1) s
  (some (scale prec r.1 f), r.2)

/-- The goroutines of one `pfor` applying `rand`: for each the elements still to do; the results so far; whether
an element failed; the generator. -/
structure Run (σ : Type) where
  todo : List (List Nat)
  out : List (Option Rat)
  bad : Bool
  gen : σ

/-- Goroutine `k` does its next element (eval.go:653-655); after an error it is over (eval.go:222, 237-239). -/
def Run.step (G : Gen σ) (prec : Nat) (l : List Rat) (r : Run σ) (k : Nat) : Run σ :=
  match r.todo[k]? with
  | some (i :: rest) =>
    match rand1 G prec (l.getD i 0) r.gen with
    | (some y, s) => { r with todo := r.todo.set k rest, out := r.out.set i (some y), gen := s }
    | (none, s) => { r with todo := r.todo.set k [], bad := true, gen := s }
  | _ => r

/-- The goroutines under a schedule. -/
def Run.steps (G : Gen σ) (prec : Nat) (l : List Rat) (r : Run σ) (sched : List Nat) : Run σ :=
  sched.foldl (Run.step G prec l) r

/-- The start of the loop (eval.go:218-225): one goroutine for each range. -/
def Run.start (ranges : List (Nat × Nat)) (n : Nat) (s : σ) : Run σ :=
  ⟨ranges.map fun r => List.range' r.1 (r.2 - r.1), List.replicate n none, false, s⟩

/-- All goroutines have finished (eval.go:227). -/
def Run.over (r : Run σ) : Prop := ∀ w ∈ r.todo, w = []

/-- What the loop returns once all goroutines have finished (eval.go:226-235; 657): nothing after an error. -/
def Run.result (r : Run σ) : Option (List (Option Rat)) := if r.bad then none else some r.out

/-- The ranges of the loop of unaryVectorOp or unaryMatrixOp for `rand` (eval.go:652, 664): `safeUnary` is true of
`rand` (eval.go:176-180). `minWork` is `pforMinWork`, 100 (eval.go:191). -/
def randRanges (procs minWork n : Nat) : List (Nat × Nat) := ranges true procs minWork 1 n

/-- `rand` of an array under a schedule which lets all goroutines finish, as a relation between the generator
before, the result, and the generator after. -/
def Rands (G : Gen σ) (procs minWork prec : Nat) (l : List Rat) (s : σ) (out : Option (List (Option Rat))) (s' : σ) : Prop :=
  ∃ sched, let r := (Run.start (randRanges procs minWork l.length) l.length s).steps G prec l sched
    r.over ∧ r.result = out ∧ r.gen = s'

/-- The commands of a session which use the generator: `)seed` (parse/special.go:327-332), unary `?`, binary `?`,
and `rand`. -/
inductive Cmd where
  | seed (n : Nat)
  | roll (x : T)
  | deal (a b : Int)
  | rand (l : List Rat)

/-- What a command shows. -/
inductive Out where
  | quiet
  | roll (r : Option T)
  | deal (r : Option (List Num))
  | rand (r : Option (List (Option Rat)))

/-- One command. `)seed` reseeds the one source that both `Random` and `Source` use (config.go:254-260). -/
inductive Step (G : Gen σ) (procs minWork prec : Nat) (origin : Int) : Cmd → σ → Out → σ → Prop where
  | seed {n s} : Step G procs minWork prec origin (.seed n) s .quiet (G.seeded (makeSeed n))
  | roll {x s r s'} (h : Rand.roll G origin x s = (r, s')) : Step G procs minWork prec origin (.roll x) s (.roll r) s'
  | deal {a b s r s'} (h : Rand.deal G origin a b s = (r, s')) : Step G procs minWork prec origin (.deal a b) s (.deal r) s'
  | rand {l s r s'} (h : Rands G procs minWork prec l s r s') : Step G procs minWork prec origin (.rand l) s (.rand r) s'

/-- A session. -/
inductive Session (G : Gen σ) (procs minWork prec : Nat) (origin : Int) : List Cmd → σ → List Out → σ → Prop where
  | nil {s} : Session G procs minWork prec origin [] s [] s
  | cons {c cs s o s' os s''} (h : Step G procs minWork prec origin c s o s') (t : Session G procs minWork prec origin cs s' os s'') :
      Session G procs minWork prec origin (c :: cs) s (o :: os) s''

end Verif.Rand
