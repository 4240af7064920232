import Verif.Arr.Spec
import Verif.Arr.IndexModel

/-!
# What indexing means
-/

namespace Verif.Arr
variable {α : Type}

/-- The shape of a value: that of a single element is empty. -/
def V.shape : V α → List Nat
  | .elem _ => []
  | .vec l => [l.length]
  | .mat m => m.shape

/-- The element of a value at the given coordinates. -/
def V.at (v : V α) (c : List Nat) : Option α := if InB v.shape c then v.data[ravel v.shape c]? else none

/-- Values that can be: matrices as `NewMatrix` makes them, of at most 2^31-1 elements, as vectors; dimensions are small
integers of Ivy. -/
def V.Ok : V α → Prop
  | .elem _ => True
  | .vec l => l.length ≤ 2147483647
  | .mat m => m.Ok ∧ m.data.length ≤ 2147483647 ∧ ∀ d ∈ m.shape, d ≤ 2147483647

instance : (v : V α) → Decidable v.Ok
  | .elem _ => .isTrue trivial
  | .vec l => inferInstanceAs (Decidable (l.length ≤ 2147483647))
  | .mat m => inferInstanceAs (Decidable (m.Ok ∧ m.data.length ≤ 2147483647 ∧ ∀ d ∈ m.shape, d ≤ 2147483647))

/-- Indexes that can be: matrices have as many elements as their shape says. -/
def Ix.Ok : Ix → Prop
  | .mat m => m.WF
  | _ => True

instance : (ix : Ix) → Decidable ix.Ok
  | .missing => .isTrue trivial
  | .int _ => .isTrue trivial
  | .vec _ => .isTrue trivial
  | .mat m => decidable_of_iff (m.shape ≠ [] ∧ m.data.length = vol m.shape) ⟨fun h => ⟨h.1, h.2⟩, fun h => ⟨h.rank, h.len⟩⟩
  | .other => .isTrue trivial

/-- The shape of an index of an axis of length `d`: a missing index stands for the whole axis. -/
def Ix.shape (d : Nat) : Ix → List Nat
  | .missing => [d]
  | .int _ => []
  | .vec l => [l.length]
  | .mat m => m.shape
  | .other => []

/-- The place along an axis of length `d` that an element of an index denotes. -/
def IxElem.place (origin d : Nat) : IxElem → Option Nat
  | .int k => if (origin : Int) ≤ k ∧ k < origin + d then some (k - origin).toNat else none
  | _ => none

/-- The places an index denotes, in row-major order, if they are all on the axis. -/
def Ix.places (origin d : Nat) : Ix → Option (List Nat)
  | .missing => some (List.range d)
  | .int k => [IxElem.int k].mapM (IxElem.place origin d)
  | .vec l => l.mapM (IxElem.place origin d)
  | .mat m => m.data.mapM (IxElem.place origin d)
  | .other => none

/-- The shapes of the indexes of the leading axes. -/
def ixShapes (ixs : List Ix) (shape : List Nat) : List (List Nat) := List.zipWith (fun ix d => ix.shape d) ixs shape

/-- The shape of `x[ixs]`. -/
def selShape (ixs : List Ix) (shape : List Nat) : List Nat := (ixShapes ixs shape).flatten ++ shape.drop ixs.length

/-- The indexes are at most as many as the axes, and `ks` are the places they denote. -/
def Denote (origin : Nat) (ixs : List Ix) (shape : List Nat) (ks : List (List Nat)) : Prop :=
  ixs.length ≤ shape.length ∧ List.zipWith (fun ix d => ix.places origin d) ixs shape = ks.map some

instance (origin : Nat) (ixs : List Ix) (shape : List Nat) (ks : List (List Nat)) : Decidable (Denote origin ixs shape ks) :=
  inferInstanceAs (Decidable (_ ∧ _))

/-- The coordinates selected: those of the places at the coordinates `cs` of the indexes. -/
def pickAll : List (List Nat) → List (List Nat) → List (List Nat) → List Nat
  | k :: ks, s :: ss, c :: cs => k.getD (ravel s c) 0 :: pickAll ks ss cs
  | _, _, _ => []

/-- Coordinates of each of the indexes. -/
def InBs : List (List Nat) → List (List Nat) → Prop
  | [], [] => True
  | s :: ss, c :: cs => InB s c ∧ InBs ss cs
  | _, _ => False

/-- The lengths of the axes whose index is missing. -/
def missingDims : List Ix → List Nat → List Nat
  | .missing :: ixs, d :: ds => d :: missingDims ixs ds
  | _ :: ixs, _ :: ds => missingDims ixs ds
  | _, _ => []

/-- The `w`-th element, in row-major order, of what is stored into a selection of shape `out`: a single place holds the
value itself, whatever it is; an element goes to all the places. -/
def storedVal (out : List Nat) (toElem : V α → α) (y : V α) (w : Nat) : Option α :=
  if out = [] then some (toElem y)
  else
    match y with
    | .elem x => some x
    | .vec l => l[w]?
    | .mat m => m.data[w]?

/-- Variables that can be: the editor, if there is one, holds as many elements as the value. -/
def Var.Ok (x : Var α) : Prop :=
  x.value.Ok ∧ (x.edit = none ∨ ∃ l, x.edit = some (Verif.Arr.edit l) ∧ l.length = x.value.data.length ∧ ∀ a, x.value ≠ .elem a)

/-- The elements of a vector or matrix of indexes. -/
def Ix.elems : Ix → List IxElem
  | .vec l => l
  | .mat m => m.data
  | _ => []

/-- A vector or matrix of vectors: each of them gives the coordinates, on the leading `n` axes, of a point. -/
structure Points (origin : Nat) (ix : Ix) (shape : List Nat) (n : Nat) (ps : List (List Nat)) : Prop where
  elems : ix.elems = ps.map fun p => IxElem.vec (p.map fun k : Nat => some ((k + origin : Nat) : Int))
  some : ps ≠ []
  le : n ≤ shape.length
  inB : ∀ p ∈ ps, InB (shape.take n) p

end Verif.Arr
