import Verif.Par.Model

/-!
# Arrays: the pieces every array operator is made of

Vectors are lists (that the persistent representation behaves like a list is C01 to C04), elements are of an
arbitrary type.  Go's `int` is 64 bits wide; lengths and offsets of existing vectors are far smaller and are natural
numbers here, and the places where a product can overflow are written out (`size`, `newMatrix`, `take`).
-/

namespace Verif.Arr
variable {α σ τ : Type}

/-- How an operator ends: with a value; with an Ivy error (`value.Errorf`, `value/value.go:45-48`), which the
interpreter reports; with a Go run-time panic (index out of range, division by zero, use of a nil value); or never. -/
inductive R (α : Type) where
  | ok (a : α)
  | err (msg : String)
  | crash
  | hang
  deriving DecidableEq, Repr

/-- Go statements one after the other: anything but a value ends the operator. -/
def R.bind (r : R σ) (f : σ → R τ) : R τ :=
  match r with
  | .ok a => f a
  | .err m => .err m
  | .crash => .crash
  | .hang => .hang

instance : Monad R where
  pure := R.ok
  bind := R.bind

/-- `value/int.go:23-25`: the largest `Int`. -/
def maxInt : Nat := 2147483647

/-- `value/int.go:23-25`: the smallest `Int`. -/
def minInt : Int := -2147483648

/-- A value used as a count, an index or a dimension: `some n` is the `Int` `n`, `none` any other value, for which the
type assertion `.(Int)` fails (`value/vector.go:482-498`). -/
abbrev Small := Option Int

/-- `value/vector.go:28`: `v.At(i)`, which panics out of range. -/
def vAt (l : List α) (i : Nat) : R α :=
  match l[i]? with
  | some x => .ok x
  | none => .crash

/-- `value/vector.go:492-498`: `intAt`. -/
def intAt (l : List Small) (i : Nat) (msg : String) : R Int :=
  match l[i]? with
  | none => .crash
  | some none => .err msg
  | some (some n) => .ok n

/-- `value/vector.go:482-488`: `uintAt`. -/
def uintAt (l : List Small) (i : Nat) (msg : String) : R Nat :=
  match l[i]? with
  | none => .crash
  | some none => .err msg
  | some (some n) => if n < 0 then .err msg else .ok n.toNat

/-- `value/vector.go:46-48`: a vector being made; `none` is Go's nil. -/
abbrev Ed (α : Type) := List (Option α)

/-- `value/vector.go:52-61` with `def` nil. -/
def newEd (n : Nat) : Ed α := List.replicate n none

/-- `value/vector.go:40-42`: `v.edit()`. -/
def edit (l : List α) : Ed α := l.map some

/-- `value/vector.go:73`: `Set`, which panics out of range. -/
def Ed.put (e : Ed α) (i : Nat) (x : α) : R (Ed α) :=
  if i < e.length then .ok (e.set i (some x)) else .crash

/-- `value/vector.go:70`: `At`. Simplified: reading a nil element is a crash at once, not when it is used. -/
def Ed.get (e : Ed α) (i : Nat) : R α :=
  match e[i]? with
  | some (some x) => .ok x
  | _ => .crash

/-- Whether no nil element is left. -/
def Ed.full (e : Ed α) : Option (List α) :=
  match e with
  | [] => some []
  | none :: _ => none
  | some x :: r => (Ed.full r).map (x :: ·)

/-- `value/vector.go:85-87`: `Publish`. Simplified: a nil element left is a crash at once, not when it is used. -/
def Ed.publish (e : Ed α) : R (List α) :=
  match e.full with
  | some l => .ok l
  | none => .crash

/-- A Go loop `for k := …` over the given values of `k` with the variables `s`. -/
def loop (f : Nat → σ → R σ) : List Nat → σ → R σ
  | [], s => .ok s
  | k :: ks, s => (f k s).bind (loop f ks)

/-- A loop over the elements of a list. -/
def loopOver {β : Type} (f : β → σ → R σ) : List β → σ → R σ
  | [], s => .ok s
  | x :: xs, s => (f x s).bind (loopOver f xs)

/-- The ranges `pfor` (`value/eval.go:202-235`) calls its function with, for each size and count: they cover every
index exactly once, in any order, and small loops are not split (`value/eval.go:210-213`). -/
structure Sched where
  ranges : Nat → Nat → List (Nat × Nat)
  cover : ∀ size n, ((ranges size n).flatMap (fun r => List.range' r.1 (r.2 - r.1))).Perm (List.range n)
  small : ∀ size n, n ≤ 1 → ranges size n = [(0, n)]

/-- `pfor` (`value/eval.go:202-235`). Simplified: the ranges are done one after the other in the order given; that the
schedule of the goroutines does not matter when they set different elements is C05 to C07. -/
def pfor (rs : List (Nat × Nat)) (f : Nat → Nat → σ → R σ) (s : σ) : R σ :=
  loopOver (fun r => f r.1 r.2) rs s

/-- The body most calls of `pfor` have: `for i := lo; i < hi; i++ { f }`. -/
def each (f : Nat → σ → R σ) (lo hi : Nat) (s : σ) : R σ := loop f (List.range' lo (hi - lo)) s

/-- `value/matrix.go:27-30`: a matrix. -/
structure Mat (α : Type) where
  shape : List Nat
  data : List α
  deriving DecidableEq, Repr

/-- A result that is a vector, a matrix or a single element. -/
inductive V (α : Type) where
  | elem (x : α)
  | vec (l : List α)
  | mat (m : Mat α)
  deriving DecidableEq, Repr

/-- `value/matrix.go:341-351`: `size`. -/
def sizeFrom (n : Nat) : List Nat → R Nat
  | [] => .ok n
  | d :: ds => if n * d ≥ 2 ^ 63 then .err "matrix too large" else sizeFrom (n * d) ds

/-- `value/matrix.go:341-351`: `size`. -/
def size (shape : List Nat) : R Nat := sizeFrom 1 shape

/-- `value/matrix.go:359-366`: the loop of `NewMatrix`, `n` being the product so far. -/
def prodCheck (n : Nat) : List Nat → R Nat
  | [] => .ok n
  | d :: ds => if n * d > maxInt then .err "matrix too large" else prodCheck (n * d) ds

/-- `value/matrix.go:354-375`: `NewMatrix`. -/
def newMatrix (shape : List Nat) (data : List α) : R (Mat α) :=
  (match shape with
    | [] => R.ok 0
    | d :: ds => prodCheck d ds).bind fun nelems =>
  if nelems ≠ data.length then .err "inconsistent shape and data size" else .ok ⟨shape, data⟩

end Verif.Arr
