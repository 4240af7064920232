import Verif.Arr.EvalSpec
import Verif.Arr.CatModel

/-!
# What catenation means
-/

namespace Verif.Arr
variable {α : Type}

/-- A value taken as a number `n` of elements for every list of coordinates below `s`: an array of rank one more; an array of shape `s`, of which there is one; or a
single element, repeated. The last argument gives the elements. -/
inductive Lines (last : Bool) (s : List Nat) (u : V α) : Nat → (List Nat → Nat → Option α) → Prop
  | list {n : Nat} (h : u.shape = if last then s ++ [n] else n :: s) : Lines last s u n (fun c i => u.at (if last then c ++ [i] else i :: c))
  | elem (h : u.shape = s) : Lines last s u 1 (fun c _ => u.at c)
  | single (h : u.shape = []) : Lines last s u 1 (fun _ _ => u.at [])
  | one (h : u.shape = [1]) : Lines last s u 1 (fun _ _ => u.at [0])

/-- At least one of two values is more than one line: has `s` and another axis as its shape. For two single values it does not matter. -/
def Grows (last : Bool) (s : List Nat) (u v : V α) : Prop :=
  s = [] ∨ (∃ n, u.shape = if last then s ++ [n] else n :: s) ∨ ∃ n, v.shape = if last then s ++ [n] else n :: s

/-- `r` is `u` followed by `v` along the last or the first axis. -/
structure Abuts (last : Bool) (s : List Nat) (n m : Nat) (f g : List Nat → Nat → Option α) (r : V α) : Prop where
  shape : r.shape = if last then s ++ [n + m] else (n + m) :: s
  left : ∀ c i, InB s c → i < n → r.at (if last then c ++ [i] else i :: c) = f c i
  right : ∀ c i, InB s c → i < m → r.at (if last then c ++ [n + i] else (n + i) :: c) = g c i

end Verif.Arr
