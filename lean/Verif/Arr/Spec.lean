import Verif.Arr.Basic

/-!
# What an array is

An array of shape `s` gives an element for every list of coordinates, one below each dimension, stored in row-major
order: the last coordinate varies fastest.
-/

namespace Verif.Arr
variable {α : Type}

/-- The number of elements of an array of the given shape. -/
def vol : List Nat → Nat
  | [] => 1
  | d :: s => d * vol s

/-- The coordinates (second argument) are below the dimensions. -/
def InB : List Nat → List Nat → Prop
  | [], [] => True
  | d :: s, i :: c => i < d ∧ InB s c
  | _, _ => False

def InB.dec : (s c : List Nat) → Decidable (InB s c)
  | [], [] => .isTrue trivial
  | d :: s, i :: c => have := InB.dec s c; inferInstanceAs (Decidable (i < d ∧ InB s c))
  | [], _ :: _ => .isFalse id
  | _ :: _, [] => .isFalse id

instance (s c : List Nat) : Decidable (InB s c) := InB.dec s c

/-- Row-major order. -/
def ravel : List Nat → List Nat → Nat
  | _ :: s, i :: c => i * vol s + ravel s c
  | _, _ => 0

/-- The element of a matrix at the given coordinates. -/
def Mat.at (m : Mat α) (c : List Nat) : Option α := if InB m.shape c then m.data[ravel m.shape c]? else none

/-- A matrix has as many elements as the product of its dimensions, of which it has at least one. -/
structure Mat.WF (m : Mat α) : Prop where
  rank : m.shape ≠ []
  len : m.data.length = vol m.shape

/-- The sizes Ivy allows: a product of two or more leading dimensions is at most 2^31-1. -/
def Fits (shape : List Nat) : Prop := ∀ k, 2 ≤ k → k ≤ shape.length → vol (shape.take k) ≤ 2147483647

/-- The matrices `NewMatrix` makes. -/
structure Mat.Ok (m : Mat α) : Prop extends Mat.WF m where
  fits : Fits m.shape

theorem fits_iff (shape : List Nat) :
    (∀ k ∈ List.range (shape.length + 1), k < 2 ∨ vol (shape.take k) ≤ 2147483647) ↔ Fits shape :=
  ⟨fun h k h2 hk => (h k (List.mem_range.mpr (by omega))).resolve_left (by omega),
   fun h k hk => (Nat.lt_or_ge k 2).imp id (fun h2 => h k h2 (by have := List.mem_range.mp hk; omega))⟩

instance (shape : List Nat) : Decidable (Fits shape) := decidable_of_iff _ (fits_iff shape)

instance (m : Mat α) : Decidable m.Ok :=
  decidable_of_iff (m.shape ≠ [] ∧ m.data.length = vol m.shape ∧ Fits m.shape)
    ⟨fun h => ⟨⟨h.1, h.2.1⟩, h.2.2⟩, fun h => ⟨h.rank, h.len, h.fits⟩⟩

/-- The shape after `o transp`, `o` moving axis `i` to position `o[i]`: dimension `j` is the least of those of the axes moved to `j`. -/
structure NewShape (o shape s' : List Nat) (r : Nat) : Prop where
  len : s'.length = r
  mem : ∀ j d : Nat, s'[j]? = some d → ∃ i : Nat, o[i]? = some j ∧ shape[i]? = some d
  le : ∀ i j d e : Nat, o[i]? = some j → shape[i]? = some d → s'[j]? = some e → e ≤ d

/-- The coordinates, before `o transp`, of the element at `c` after it. -/
def oldCoords (o c : List Nat) : List Nat := o.map fun j => c.getD j 0

/-- `take` along one axis: coordinate `i` of the result comes from this coordinate of the operand, or is filled; `y` is the count, `d` the dimension. The first `y` are taken, or the last `-y`. -/
def takeSrc1 (y : Int) (d i : Nat) : Option Nat :=
  if y < 0 then (if y.natAbs ≤ i + d then some (i + d - y.natAbs) else none) else (if i < d then some i else none)

/-- `take` along all axes. -/
def takeSrc : List Int → List Nat → List Nat → Option (List Nat)
  | y :: ys, d :: ds, i :: is =>
    match takeSrc1 y d i, takeSrc ys ds is with
    | some j, some js => some (j :: js)
    | _, _ => none
  | _, _, _ => some []

/-- The counts of `take` for all the axes: those not given are taken whole. -/
def fullCounts (v : List Int) (shape : List Nat) : List Int := v ++ (shape.drop v.length).map (fun d : Nat => (d : Int))

/-- The counts of `drop` for all the axes: of those not given nothing is dropped. -/
def fullDrops (v : List Int) (shape : List Nat) : List Int := v ++ List.replicate (shape.length - v.length) 0

end Verif.Arr
