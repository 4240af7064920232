import Verif.Arr.EvalSpec
import Verif.Arr.EachModel

/-!
# What `@` means
-/

namespace Verif.Arr
variable {α β σ : Type}

/-- `s` is the part of `v` whose first coordinates are `c`. -/
structure IsSub (v : V α) (c : List Nat) (s : V α) : Prop where
  ok : s.Ok
  plain : s.Plain
  shape : s.shape = v.shape.drop c.length
  elems : ∀ j, s.at j = v.at (c ++ j)

/-- `xs` are the parts of `v` for all coordinates on the first `d` axes, in row-major order. -/
structure Items (v : V α) (d : Nat) (xs : List (V α)) : Prop where
  len : xs.length = vol (v.shape.take d)
  sub : ∀ c, InB (v.shape.take d) c → ∃ s, xs[ravel (v.shape.take d) c]? = some s ∧ IsSub v c s

/-- An operator applied to all of a list, in order, up to the first that does not give a value. -/
def seqR (g : α → σ → R (β × σ)) : List α → σ → R (List β × σ)
  | [], s => .ok ([], s)
  | x :: xs, s => (g x s).bind fun y => (seqR g xs y.2).bind fun r => .ok (y.1 :: r.1, r.2)

/-- Results arranged by shape. -/
def arrange (s : List Nat) (l : List β) : V β := if s.length = 1 then .vec l else .mat ⟨s, l⟩

/-- All pairs, the first member varying slowest. -/
def allPairs {γ : Type} (xs : List α) (ys : List γ) : List (α × γ) := xs.flatMap fun x => ys.map fun y => (x, y)

/-- Going down the first `d` axes misses nothing: if there are coordinates on them, there are elements. -/
def NoGap (v : V α) (d : Nat) : Prop := vol (v.shape.take d) ≠ 0 → vol v.shape ≠ 0

instance (v : V α) (d : Nat) : Decidable (NoGap v d) := inferInstanceAs (Decidable (_ → _))

end Verif.Arr
