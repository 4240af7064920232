import Verif.Arr.IndexSpec
import Verif.Arr.EvalModel

/-!
# What reductions, scans, products and elementwise operators mean
-/

namespace Verif.Arr
variable {α : Type}

/-- `x1 f (x2 f (… xn))`, if all applications give values. -/
def foldR (f : α → α → R α) : List α → R α
  | [] => .err "empty"
  | [x] => .ok x
  | x :: y :: r => (foldR f (y :: r)).bind (f x)

/-- All of the results, if they are all values. -/
def allR : List (R α) → R (List α)
  | [] => .ok []
  | r :: rs => r.bind fun x => (allR rs).bind fun l => .ok (x :: l)

/-- The elements of a value along the last axis, which has length `d`, at the other coordinates `c`. -/
def V.lastLine (v : V α) (d : Nat) (c : List Nat) : List α := (List.range d).filterMap fun k => v.at (c ++ [k])

/-- The elements of a value along the first axis, which has length `d`, at the other coordinates `c`. -/
def V.firstLine (v : V α) (d : Nat) (c : List Nat) : List α := (List.range d).filterMap fun k => v.at (k :: c)

/-- What a product sees: a single element counts as a vector of length one (`value/eval.go:153-154`). -/
def V.promote : V α → V α
  | .elem x => .vec [x]
  | v => v

/-- A value of a rank below two is not a matrix. -/
def V.Plain (v : V α) : Prop := v.isMat = true ↔ 2 ≤ v.shape.length

instance (v : V α) : Decidable v.Plain := inferInstanceAs (Decidable (_ ↔ _))

/-- Not a single fraction or complex number. -/
def V.Narrow [Wide α] : V α → Prop
  | .elem x => Wide.wide x = false
  | _ => True

instance [Wide α] (v : V α) : Decidable v.Narrow := by
  cases v <;> unfold V.Narrow <;> infer_instance

/-- A matrix is not paired with a single fraction or complex number. -/
def Joins [Wide α] (u v : V α) : Prop := (u.isMat = true → v.Narrow) ∧ (v.isMat = true → u.Narrow)

instance [Wide α] (u v : V α) : Decidable (Joins u v) := inferInstanceAs (Decidable (_ ∧ _))

/-- A value can be used with a result of shape `s`: it has this shape, or is a single element, or a vector as long as the last axis. -/
def V.Extends (u : V α) (s : List Nat) : Prop := u.shape = s ∨ u.shape = [] ∨ (u.shape.length = 1 ∧ ∃ s0, s = s0 ++ u.shape)

/-- The element of `u` used for the element at `c` of the result: that at the last coordinates of `c`. -/
def V.src (u : V α) (c : List Nat) : Option α := u.at (c.drop (c.length - u.shape.length))

/-- All dimensions are one. -/
def Ones (s : List Nat) : Prop := ∀ d ∈ s, d = 1

instance (s : List Nat) : Decidable (Ones s) := inferInstanceAs (Decidable (∀ d ∈ s, d = 1))

end Verif.Arr
