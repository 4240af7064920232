import Verif.Arr.InvModel
import Mathlib.LinearAlgebra.Matrix.Determinant.Basic

/-!
# What the inverse is

Square matrices as Mathlib has them, over any field `K` in which the elements have their values.
-/

namespace Verif.Arr
variable {α K : Type} [Field K]

/-- The operators do what they are named after, on elements of the kind `P`, unless they refuse. -/
structure Ops.Exact (o : Ops α) (P : α → Prop) (val : α → K) : Prop where
  scalar : ∀ a, P a → o.scalar a = true
  isZero : ∀ a, P a → (o.isZero a = true ↔ val a = 0)
  one : P o.one ∧ val o.one = 1
  zero : P o.zero ∧ val o.zero = 0
  recip : ∀ a b, P a → o.recip a = .ok b → P b ∧ val b * val a = 1
  add : ∀ a b c, P a → P b → o.add a b = .ok c → P c ∧ val c = val a + val b
  mul : ∀ a b c, P a → P b → o.mul a b = .ok c → P c ∧ val c = val a * val b
  sub : ∀ a b c, P a → P b → o.sub a b = .ok c → P c ∧ val c = val a - val b
  div : ∀ a b c, P a → P b → o.div a b = .ok c → P c ∧ val c * val b = val a

/-- They refuse only to divide by zero. -/
structure Ops.Total (o : Ops α) (P : α → Prop) (val : α → K) : Prop where
  recip : ∀ a, P a → val a ≠ 0 → ∃ b, o.recip a = .ok b
  add : ∀ a b, P a → P b → ∃ c, o.add a b = .ok c
  mul : ∀ a b, P a → P b → ∃ c, o.mul a b = .ok c
  sub : ∀ a b, P a → P b → ∃ c, o.sub a b = .ok c
  div : ∀ a b, P a → P b → val b ≠ 0 → ∃ c, o.div a b = .ok c

/-- The values of the elements, row by row. -/
def asMatrix (val : α → K) (n : Nat) (data : List α) : Matrix (Fin n) (Fin n) K :=
  fun i j => match data[(i : Nat) * n + j]? with
    | some a => val a
    | none => 0

/-- The first `k` rows and columns. -/
def leading {n : Nat} (M : Matrix (Fin n) (Fin n) K) (k : Nat) (h : k ≤ n) : Matrix (Fin k) (Fin k) K :=
  fun i j => M ⟨i, by omega⟩ ⟨j, by omega⟩

end Verif.Arr
