import Verif.Arr.EvalSpec
import Verif.Arr.MixModel

/-!
# What split and mix mean
-/

namespace Verif.Arr
variable {α : Type}

/-- The greatest rank of the elements. -/
def topRank (l : List (V α)) : Nat := l.foldr (fun e r => max e.shape.length r) 0

/-- The shape of an element with ones put in front, up to rank `r`. -/
def padShape (r : Nat) (e : V α) : List Nat := List.replicate (r - e.shape.length) 1 ++ e.shape

/-- The smallest shape of rank `r` in which all elements fit. -/
def topShape (r : Nat) (l : List (V α)) : List Nat := l.foldr (fun e s => List.zipWith max (padShape r e) s) (List.replicate r 0)

/-- `r` is the mix of `v`: its axes are those of `v` and then those of the elements, each element being put in the corner with the smallest coordinates and the rest being filled. -/
structure Mixed (fill : List α → α) (v : V (V α)) (s : List Nat) (r : V α) : Prop where
  shape : r.shape = v.shape ++ s
  elems : ∀ c, InB v.shape c → ∃ e, v.at c = some e ∧
    (∀ d, InB e.shape d → r.at (c ++ (List.replicate (s.length - e.shape.length) 0 ++ d)) = e.at d) ∧
    ∀ d, InB s d → (¬ ∃ d', InB e.shape d' ∧ d = List.replicate (s.length - e.shape.length) 0 ++ d') → r.at (c ++ d) = some (fill e.data)

/-- All the elements are arrays of rank `r`; with vectors there may be single ones. -/
def SameRank (r : Nat) (l : List (V α)) : Prop := ∀ e ∈ l, e.shape.length = r ∨ (r = 1 ∧ e.shape = [])

end Verif.Arr
