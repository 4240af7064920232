import Verif.Num.Model

/-!
# The order of values, and the set and search operators built on it

`value/sets.go`, the searching and sorting parts of `value/vector.go`, `value/matrix.go` and `value/binary.go`.

Simplified: a value is a tree (`Val`), so the persistent vectors of `value/vector.go` are lists here; that the real
representation behaves like a list is C01 to C04.  `BigFloat` is not modelled, as in `Verif.Num`.  The operators
that run in parallel (`pfor`, `eval.go:202-235`) are written as sequential loops; that the two agree is C05 to C07.
The sorting functions of Go's library are a parameter (`SortLib`) constrained only by their documentation.
-/

namespace Verif.Order
open Verif.Num

/-- `value/value.go:17-40`, the interface `Value`, with the concrete types `Int`, `Char`, `BigInt`, `BigRat`
(`Num`), `Complex` (`value/complex.go:13-16`), `*Vector` (`value/vector.go`) and `*Matrix` (`value/matrix.go:27-30`). -/
inductive Val where
  | num (n : Num)
  | cplx (re im : Num)
  | vec (l : List Val)
  | mat (shape : List Nat) (data : List Val)

mutual
/-- Equality of values as trees is decidable (used in examples only). -/
def Val.decEq : (a b : Val) → Decidable (a = b)
  | .num a, .num b => if h : a = b then .isTrue (by rw [h]) else .isFalse (by intro e; cases e; exact h rfl)
  | .cplx a b, .cplx c d =>
    if h : a = c ∧ b = d then .isTrue (by rw [h.1, h.2]) else .isFalse (by intro e; cases e; exact h ⟨rfl, rfl⟩)
  | .vec l, .vec m => match Val.decEqList l m with
    | .isTrue h => .isTrue (by rw [h])
    | .isFalse h => .isFalse (by intro e; cases e; exact h rfl)
  | .mat s l, .mat t m => match Val.decEqList l m with
    | .isTrue h => if h' : s = t then .isTrue (by rw [h, h']) else .isFalse (by intro e; cases e; exact h' rfl)
    | .isFalse h => .isFalse (by intro e; cases e; exact h rfl)
  | .num _, .cplx _ _ => .isFalse nofun
  | .num _, .vec _ => .isFalse nofun
  | .num _, .mat _ _ => .isFalse nofun
  | .cplx _ _, .num _ => .isFalse nofun
  | .cplx _ _, .vec _ => .isFalse nofun
  | .cplx _ _, .mat _ _ => .isFalse nofun
  | .vec _, .num _ => .isFalse nofun
  | .vec _, .cplx _ _ => .isFalse nofun
  | .vec _, .mat _ _ => .isFalse nofun
  | .mat _ _, .num _ => .isFalse nofun
  | .mat _ _, .cplx _ _ => .isFalse nofun
  | .mat _ _, .vec _ => .isFalse nofun
/-- Equality of lists of values is decidable. -/
def Val.decEqList : (l m : List Val) → Decidable (l = m)
  | [], [] => .isTrue rfl
  | [], _ :: _ => .isFalse nofun
  | _ :: _, [] => .isFalse nofun
  | a :: l, b :: m => match Val.decEq a b with
    | .isTrue h => match Val.decEqList l m with
      | .isTrue h' => .isTrue (by rw [h, h'])
      | .isFalse h' => .isFalse (by intro e; cases e; exact h' rfl)
    | .isFalse h => .isFalse (by intro e; cases e; exact h rfl)
end

instance : DecidableEq Val := Val.decEq

/-- `value/eval.go:17-27`, the constants of `valueType`, without `bigFloatType`. -/
inductive VTy where
  | int | char | bigInt | bigRat | complex | vector | matrix
deriving DecidableEq, Repr

/-- The numeric values of the constants in `value/eval.go:17-27`. -/
def VTy.idx : VTy → Nat
  | .int => 0 | .char => 1 | .bigInt => 2 | .bigRat => 3 | .complex => 5 | .vector => 6 | .matrix => 7

/-- `value/eval.go:86-107`, `whichType`. -/
def Val.ty : Val → VTy
  | .num (.int _) => .int
  | .num (.char _) => .char
  | .num (.bigInt _) => .bigInt
  | .num (.bigRat _) => .bigRat
  | .cplx _ _ => .complex
  | .vec _ => .vector
  | .mat _ _ => .matrix

/-- `value/eval.go:790-804`, `isZero`, on real numbers. -/
def isZero : Num → Bool
  | .int i => i == 0
  | .char _ => false
  | .bigInt i => i == 0
  | .bigRat r => r == 0

/-- `value/complex.go:85-87`, `isReal`. -/
def isReal (im : Num) : Bool := isZero im

/-- `value/sets.go:304-312`, `sgn2Int`; also the result of `big.Int.Cmp`, called at `sets.go:246`. -/
def sgn2Int (a b : Int) : Int := if a < b then -1 else if a = b then 0 else 1

/-- The result of `big.Rat.Cmp`, called at `value/sets.go:248`. -/
def ratCmp (a b : Rat) : Int := if a < b then -1 else if a = b then 0 else 1

/-- `value/sets.go:293-301`, `sgn2`. -/
def sgn2 (a b : Num) : Int :=
  if opLt.eval a b = .ok one then -1 else if opEq.eval a b = .ok one then 0 else 1

/-- `value/sets.go:198-290`, `OrderedCompare`, on two scalars that are not complex: lines 203-208 and 238 when the
types differ, lines 241-248 when they agree. -/
def cmpNum (u v : Num) : Int :=
  if u.ty ≠ v.ty then
    if u.ty = .char then -1
    else if v.ty = .char then 1
    else sgn2 u v
  else
    match u, v with
    | .int a, .int b => sgn2Int a b
    | .char a, .char b => sgn2Int a b
    | .bigInt a, .bigInt b => sgn2Int a b
    | .bigRat a, .bigRat b => ratCmp a b
    | _, _ => -1

/-- `value/sets.go:201-239`, `OrderedCompare` of values of different types. -/
def cmpMixed (u v : Val) : Int :=
  if u.ty = .char then -1
  else if v.ty = .char then 1
  else if u.ty = .matrix then 1
  else if v.ty = .matrix then -1
  else if u.ty = .vector then 1
  else if v.ty = .vector then -1
  else
    match u, v with
    | .cplx re im, .num b => if isReal im then cmpNum re b else 1
    | .num a, .cplx re im => if isReal im then cmpNum a re else -1
    | .num a, .num b => sgn2 a b
    | _, _ => -1

mutual
/-- `value/sets.go:198-290`, `OrderedCompare`. -/
def cmp : Val → Val → Int
  | .num a, .num b => cmpNum a b
  | .cplx a b, .cplx c d => if cmpNum a c ≠ 0 then cmpNum a c else cmpNum b d
  | .vec l, .vec m => if l.length ≠ m.length then sgn2Int l.length m.length else cmpList l m
  | .mat _ l, .mat _ m => if l.length ≠ m.length then sgn2Int l.length m.length else cmpList l m
  | u, v => cmpMixed u v
/-- `value/sets.go:266-272` and `279-285`, the loops over the elements of two vectors of the same length. -/
def cmpList : List Val → List Val → Int
  | x :: xs, y :: ys => if cmp x y ≠ 0 then cmp x y else cmpList xs ys
  | _, _ => 0
end

/-- `value/sets.go:161-163`, `scalarEqual`. -/
def scalarEqual (u v : Val) : Bool := cmp u v == 0

/-- `value/sets.go:167-169`, `equal`, the implementation of `===` (`value/binary.go:1557-1570`). -/
def equal (u v : Val) : Val := .num (toInt (cmp u v == 0))

/-- `value/sets.go:172-174`, `notEqual`, the implementation of `!==` (`value/binary.go:1572-1585`). -/
def notEqual (u v : Val) : Val := .num (toInt (cmp u v != 0))

/-! ## The sorting functions of the Go library -/

/-- What the documentation of Go's package `sort` asks of a `less` function: a strict weak ordering of the elements
that are sorted. -/
structure StrictWeakOn {α : Type} (less : α → α → Bool) (l : List α) : Prop where
  irrefl : ∀ a ∈ l, less a a = false
  trans : ∀ a ∈ l, ∀ b ∈ l, ∀ c ∈ l, less a b = true → less b c = true → less a c = true
  tie : ∀ a ∈ l, ∀ b ∈ l, ∀ c ∈ l, less a b = false → less b a = false → less b c = false → less c b = false →
    less a c = false ∧ less c a = false

/-- Two elements that a sort may put in either order. -/
def tied {α : Type} (less : α → α → Bool) (a b : α) : Bool := !less a b && !less b a

/-- The documented behaviour of `sort.Sort`, `sort.Slice` (`slice`) and `sort.SliceStable` (`stable`), called at
`value/vector.go:546, 635`, `value/matrix.go:1044`, `value/sets.go:131, 149`, `value/binary.go:1150`.  Nothing is
assumed about the order in which `sort.Slice` leaves elements that are tied, nor about the outcome if `less` is not a
strict weak ordering. -/
structure SortLib where
  slice : {α : Type} → (α → α → Bool) → List α → List α
  slice_perm : ∀ {α : Type} (less : α → α → Bool) (l : List α), (slice less l).Perm l
  slice_sorted : ∀ {α : Type} (less : α → α → Bool) (l : List α), StrictWeakOn less l →
    (slice less l).Pairwise fun a b => less b a = false
  stable : {α : Type} → (α → α → Bool) → List α → List α
  stable_perm : ∀ {α : Type} (less : α → α → Bool) (l : List α), (stable less l).Perm l
  stable_sorted : ∀ {α : Type} (less : α → α → Bool) (l : List α), StrictWeakOn less l →
    (stable less l).Pairwise fun a b => less b a = false
  stable_ties : ∀ {α : Type} (less : α → α → Bool) (l : List α), StrictWeakOn less l → ∀ a ∈ l,
    (stable less l).filter (tied less a) = l.filter (tied less a)

/-- The loop of Go's `sort.Search` on the interval from `i` to `j`:
`for i < j { h := (i+j)/2; if !f(h) { i = h + 1 } else { j = h } }; return i`. -/
def searchLoop (f : Nat → Bool) (i j : Nat) : Nat :=
  if h : i < j then
    if f ((i + j) / 2) = false then searchLoop f ((i + j) / 2 + 1) j else searchLoop f i ((i + j) / 2)
  else i
termination_by j - i

/-- Go's `sort.Search(n, f)`, called at `value/vector.go:642` and `value/binary.go:1159`. -/
def search (n : Nat) (f : Nat → Bool) : Nat := searchLoop f 0 n

/-! ## Membership and index-of -/

/-- `value/vector.go:628-630`, `Less`, used by `sortedCopy`. -/
def lessVal (a b : Val) : Bool := decide (cmp a b < 0)

/-- `value/vector.go:633-637`, `sortedCopy`. -/
def sortedCopy (lib : SortLib) (v : List Val) : List Val := lib.slice lessVal v

/-- `value/vector.go:641-646`, `contains`. -/
def contains (v : List Val) (x : Val) : Bool :=
  let pos := search v.length fun j => match v[j]? with
    | some y => decide (cmp y x ≥ 0)
    | none => false
  match v[pos]? with
  | some y => cmp y x == 0
  | none => false

/-- `value/vector.go:601-611`, `membership`. -/
def membership (lib : SortLib) (u v : List Val) : List Num := u.map fun x => toInt (contains (sortedCopy lib v) x)

/-- `value/binary.go:1142-1152`, the sorted array of elements with their indexes. -/
def sortedIndexed (lib : SortLib) (origin : Int) (A : List Val) : List (Val × Int) :=
  lib.stable (fun p q => decide (cmp p.1 q.1 < 0)) (A.zipIdx.map fun p => (p.1, (p.2 : Int) + origin))

/-- `value/binary.go:1155-1168`, the loop of `iota` on two vectors, for one element. -/
def findIndex (origin : Int) (s : List (Val × Int)) (b : Val) : Int :=
  let pos := search s.length fun j => match s[j]? with
    | some p => decide (cmp p.1 b ≥ 0)
    | none => false
  match s[pos]? with
  | some p => if cmp p.1 b = 0 then p.2 else origin - 1
  | none => origin - 1

/-- `value/binary.go:1135-1170`, binary `iota` on two vectors. -/
def indexOf (lib : SortLib) (origin : Int) (A B : List Val) : List Int :=
  B.map (findIndex origin (sortedIndexed lib origin A))

/-- `value/binary.go:183-190`, `allEqual`: `n` elements of `A` from position `i` and of `B` from position `j`. -/
def allEqual (A : List Val) (i : Nat) (B : List Val) (j : Nat) : Nat → Bool
  | 0 => true
  | n + 1 =>
    match A[i]?, B[j]? with
    | some x, some y => if cmp x y ≠ 0 then false else allEqual A (i + 1) B (j + 1) n
    | _, _ => false

/-- `value/binary.go:1185-1191`, the loop of `iota` on matrices that looks for the row of `B` at position `j` among
the rows of `A`, which have `n` elements each; `k` rows have been looked at and `left` are left. -/
def findRow (origin : Int) (A B : List Val) (j n : Nat) (k : Nat) : Nat → Int
  | 0 => origin - 1
  | left + 1 => if allEqual A (k * n) B j n then (k : Int) + origin else findRow origin A B j n (k + 1) left

/-- `value/binary.go:1169-1198`, binary `iota` of a matrix `A` of `rows` rows and the data of a matrix `B` that is cut
into pieces of the size of a row of `A`.  Simplified: the check of the shapes (lines 1172-1174) is left out, and the
sizes are not zero (for zero sizes lines 1181-1182 divide by zero; see C45). -/
def indexOfRows (origin : Int) (rows : Nat) (A B : List Val) : List Int :=
  let n := A.length / rows
  (List.range (B.length / n)).map fun i => findRow origin A B (i * n) n 0 rows

/-- `value/vector.go:648-653`, `shrink`. -/
def shrinkVec : List Val → Val
  | [x] => x
  | l => .vec l

/-- `value/binary.go:1121-1123`, `in` on two vectors. -/
def inOp (lib : SortLib) (u v : List Val) : Val := shrinkVec ((membership lib u v).map .num)

/-! ## Grade -/

/-- `value/vector.go:546-548`, the `less` function of `grade`: the elements at two positions are compared. -/
def lessAt (v : List Val) (i j : Nat) : Bool :=
  match v[i]?, v[j]? with
  | some x, some y => decide (cmp x y < 0)
  | _, _ => false

/-- `value/vector.go:541-554`, `grade`, the implementation of `up` on vectors (`value/unary.go:866-868`). -/
def grade (lib : SortLib) (origin : Int) (v : List Val) : List Int :=
  (lib.stable (lessAt v) (List.range v.length)).map fun (i : Nat) => (i : Int) + origin

/-- `value/vector.go:557-565`, `reverse`; the loop of swaps is proved equal to list reversal in `Verif.Arr`. -/
def down (lib : SortLib) (origin : Int) (v : List Val) : List Int := (grade lib origin v).reverse

/-- `value/matrix.go:1047-1053`, the comparison of two rows of `stride` elements. -/
def lessRowAt (v : List Val) (i j : Nat) : Nat → Bool
  | 0 => false
  | k + 1 =>
    match v[i]?, v[j]? with
    | some x, some y => if cmp x y = 0 then lessRowAt v (i + 1) (j + 1) k else decide (cmp x y < 0)
    | _, _ => false

/-- `value/matrix.go:1037-1061`, `Matrix.grade`, for a matrix whose first dimension is `rows + 1`.  (For a first
dimension of zero line 1043 divides by zero; see C45.) -/
def gradeRows (lib : SortLib) (origin : Int) (rows : Nat) (data : List Val) : List Int :=
  let stride := data.length / (rows + 1)
  (lib.slice (fun i j => lessRowAt data (i * stride) (j * stride) stride) (List.range (rows + 1))).map
    fun (i : Nat) => (i : Int) + origin

/-! ## Sets -/

/-- `value/sets.go:131-138`, the `less` function of `unique`. -/
def lessIndexed (a b : Nat × Val) : Bool :=
  if cmp a.2 b.2 = 0 then decide (a.2.ty.idx < b.2.ty.idx) else decide (cmp a.2 b.2 < 0)

/-- `value/sets.go:142-147`, the loop that drops the values that compare equal to `prev`. -/
def dedup (prev : Nat × Val) : List (Nat × Val) → List (Nat × Val)
  | [] => []
  | x :: xs => if cmp prev.2 x.2 ≠ 0 then x :: dedup x xs else dedup prev xs

/-- `value/sets.go:126-157`, `unique` on a vector. -/
def uniqueVec (lib : SortLib) (v : List Val) : List Val :=
  match lib.slice lessIndexed (v.zipIdx.map fun p => (p.2, p.1)) with
  | [] => []
  | p :: rest => (lib.slice (fun a b => decide (a.1 < b.1)) (p :: dedup p rest)).map (·.2)

/-- `value/sets.go:107-157`, `unique`; `none` is an error. -/
def unique (lib : SortLib) : Val → Option Val
  | .mat _ _ => none
  | .vec v => if v.length = 0 then some (.vec v) else some (.vec (uniqueVec lib v))
  | v => some v

/-- The elements of `l` that pair up with a mark, `value/sets.go:54-58` (mark 0) and `98-102` (mark 1). -/
def marked (present : List Num) (want : Num → Bool) (l : List Val) : List Val :=
  ((present.zip l).filter fun p => want p.1).map (·.2)

/-- `value/sets.go:13-61`, `union`; `none` is an error. -/
def union (lib : SortLib) (u v : Val) : Option Val :=
  match u, v with
  | .mat _ _, _ => none
  | _, .mat _ _ => none
  | .vec uu, .vec vv => some (.vec (uu ++ marked (membership lib vv uu) (· ≠ one) vv))
  | .vec uu, v => if uu.any fun x => scalarEqual x v then some (.vec uu) else some (.vec (uu ++ [v]))
  | u, .vec vv => some (.vec (u :: vv.filter fun x => !scalarEqual u x))
  | u, v => if scalarEqual u v then some u else some (.vec [u, v])

/-- `value/sets.go:63-105`, `intersect`; `none` is an error. -/
def intersect (lib : SortLib) (u v : Val) : Option Val :=
  match u, v with
  | .mat _ _, _ => none
  | _, .mat _ _ => none
  | .vec uu, .vec vv => some (.vec (marked (membership lib uu vv) (· = one) uu))
  | .vec uu, v => some (.vec (uu.filter fun x => scalarEqual x v))
  | u, .vec vv => if vv.any fun x => scalarEqual u x then some (.vec [u]) else some (.vec [])
  | u, v => if scalarEqual u v then some u else some (.vec [])

end Verif.Order
