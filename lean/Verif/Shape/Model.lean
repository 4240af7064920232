/-!
# Shapes of matrices as Go slices

A `Matrix` keeps its shape as a `[]int` (`value/matrix.go:27-30`), which is a window on an array that other matrices may
share.  Here are the arrays, the windows, Go's `append`, and every place where the code makes the shape of a new matrix out
of the shapes of others.

Simplifications.  What numbers a fresh shape holds is left open (operations carry them), as is how much room `append`
leaves when it moves to a new array.  Values that end up without shape, because they are vectors or refused by `NewMatrix`,
are kept as if they had one.  One goroutine.
-/

namespace Verif.Shape

/-- The arrays there are; the length of one is its capacity. -/
abbrev Mem := List (List Nat)

/-- A slice: part of an array.  Its capacity is what remains of the array after `off`; the code never limits it. -/
structure Slice where
  arr : Nat
  off : Nat
  len : Nat
  deriving DecidableEq

/-- The array of a slice. -/
def Mem.arr (m : Mem) (a : Nat) : List Nat := m.getD a []

/-- Go's `cap`. -/
def cap (m : Mem) (s : Slice) : Nat := (m.arr s.arr).length - s.off

/-- The elements of a slice. -/
def read (m : Mem) (s : Slice) : List Nat := ((m.arr s.arr).drop s.off).take s.len

/-- A new array with room for `extra` more. -/
def alloc (m : Mem) (l : List Nat) (extra : Nat) : Slice × Mem :=
  (⟨m.length, 0, l.length⟩, m ++ [l ++ List.replicate extra 0])

/-- `s[i] = v`. -/
def set (m : Mem) (s : Slice) (i v : Nat) : Mem := m.set s.arr ((m.arr s.arr).set (s.off + i) v)

/-- Elements written one after the other, the first to place `i`. -/
def writeAll (m : Mem) (s : Slice) (i : Nat) : List Nat → Mem
  | [] => m
  | v :: vs => writeAll (set m s i v) s (i + 1) vs

/-- Go's `append`: in place if there is room, otherwise in a new array. -/
def append (m : Mem) (s : Slice) (vs : List Nat) (extra : Nat) : Slice × Mem :=
  if s.len + vs.length ≤ cap m s then ({ s with len := s.len + vs.length }, writeAll m s s.len vs)
  else alloc m (read m s ++ vs) extra

/-- `s[lo:hi]`. -/
def sub (s : Slice) (lo hi : Nat) : Slice := ⟨s.arr, s.off + lo, hi - lo⟩

/-- Elements appended one at a time (`value/index.go:48, 59, 65`). -/
def appendEach (m : Mem) (s : Slice) (extra : Nat → Nat) : List Nat → Slice × Mem
  | [] => (s, m)
  | v :: vs => appendEach (append m s [v] (extra vs.length)).2 (append m s [v] (extra vs.length)).1 extra vs

/-- Stores `s[i] = v`, one after the other. -/
def setEach (m : Mem) (s : Slice) : List (Nat × Nat) → Mem
  | [] => m
  | (i, v) :: ps => setEach (if i < s.len then set m s i v else m) s ps

/-- What one index adds to the shape of the result (`value/index.go:43-67`): nothing known yet, nothing, the length of a
vector, the shape of a matrix. -/
inductive Piece where
  | missing
  | scalar
  | vector (n : Nat)
  | matrix (i : Nat)

/-- The ways shapes are made.  Numbers `i`, `j` are those of earlier matrices. -/
inductive Op where
  /-- `make` and literals, then filled: `matrix.go:424-433` (reshape), `522`, `559-567` (transpose), `809-813`, `823-848` (take, drop),
  `1006-1023`, `eval.go:284-286` (inner product), `305` (outer product of vectors), `unary.go:641-646` (iota),
  `binary.go:1090` (encode), `1521-1523` (sel), `vector.go:403` and others (`toType`). -/
  | fresh (l : List Nat)
  /-- The same shape: `matrix.go:469, 501, 1087, 1174`, `eval.go:460, 669, 757`, `binary.go:1129`, `unary.go:921, 960`,
  `context.go:60`, `vector.go:332, 467`. -/
  | share (i : Nat)
  /-- `shape[:k]`: `eval.go:346` (Reduce), `645` (Each), `binary.go:1177` (iota), `matrix.go:964` (split). -/
  | prefix (i k : Nat)
  /-- `shape[k:]`: `eval.go:390` (ReduceFirst), `544` (each), `binary.go:996` (decode), `matrix.go:246, 262, 288` (printing). -/
  | suffix (i k : Nat)
  /-- `slices.Clone`, or `append` to an empty slice, then stores: `matrix.go:626-627` (catenate), `702-732` (catenateFirst), `773-774`
  (sel), `915-916` (partition). -/
  | clone (i : Nat) (stores : List (Nat × Nat)) (extra : Nat)
  /-- `append([]int{n}, shape...)`: `binary.go:1098` (encode). -/
  | encode (n i extra : Nat)
  /-- `append(append([]int{}, l[:k]...), r[:l]...)`: `eval.go:620` (BinaryEach). -/
  | each (i k j l extra extra' : Nat)
  /-- `index.go:38-77, 121-130, 199` (Index): pieces from the last index to the first, reversed, stores, and what is left of the
  shape of the matrix indexed, `shape[n:]`. -/
  | index (ps : List Piece) (stores : List (Nat × Nat)) (j n : Nat) (extra : Nat → Nat) (extra' : Nat)
  /-- `append(u.Shape(), v.Shape()...)`: `eval.go:316` (outerProduct). -/
  | outer (i j extra : Nat)
  /-- `append(m.shape, shape...)`: `matrix.go:1032` (mix); `l` is the shape of the elements. -/
  | mix (i : Nat) (l : List Nat) (extra : Nat)

/-- The arrays, and the shapes of all matrices so far. -/
structure St where
  mem : Mem
  vals : List Slice

/-- What a piece appends, in the order of appending (`value/index.go:43-67`). -/
def pieceDims (m : Mem) (vals : List Slice) : Piece → List Nat
  | .missing => [0]
  | .scalar => []
  | .vector n => [n]
  | .matrix i => match vals[i]? with
    | some s => (read m s).reverse
    | none => []

/-- `slices.Clone` and stores (`value/matrix.go:626-627, 702-732, 773-774, 915-916`). -/
def makeClone (m : Mem) (s : Slice) (stores : List (Nat × Nat)) (extra : Nat) : Slice × Mem :=
  let p := append (alloc m [] 0).2 (alloc m [] 0).1 (read m s) extra
  (p.1, setEach p.2 p.1 stores)

/-- `value/eval.go:620`. -/
def makeEach (m : Mem) (s t : Slice) (k l extra extra' : Nat) : Slice × Mem :=
  let p := append (alloc m [] 0).2 (alloc m [] 0).1 (read m (sub s 0 k)) extra
  append p.2 p.1 (read p.2 (sub t 0 l)) extra'

/-- `value/index.go:38-77, 121-130, 199`; `ds` is what the indexes append, one after the other. -/
def makeIndex (m : Mem) (ds : List Nat) (stores : List (Nat × Nat)) (t : Slice) (n : Nat) (extra : Nat → Nat)
    (extra' : Nat) : Slice × Mem :=
  let p := appendEach (alloc m [] 0).2 (alloc m [] 0).1 extra ds
  let m1 := writeAll p.2 p.1 0 (read p.2 p.1).reverse
  let m2 := setEach m1 p.1 stores
  append m2 p.1 (read m2 (sub t n t.len)) extra'

/-- The shape of a new matrix (source at the constructors of `Op`); nothing if an operand does not exist or a bound is out
of range. -/
def make (m : Mem) (vals : List Slice) : Op → Option (Slice × Mem)
  | .fresh l => some (alloc m l 0)
  | .share i => match vals[i]? with
    | some s => some (s, m)
    | none => none
  | .prefix i k => match vals[i]? with
    | some s => if k ≤ s.len then some (sub s 0 k, m) else none
    | none => none
  | .suffix i k => match vals[i]? with
    | some s => if k ≤ s.len then some (sub s k s.len, m) else none
    | none => none
  | .clone i stores extra => match vals[i]? with
    | some s => some (makeClone m s stores extra)
    | none => none
  | .encode n i extra => match vals[i]? with
    | some s => some (append (alloc m [n] 0).2 (alloc m [n] 0).1 (read m s) extra)
    | none => none
  | .each i k j l extra extra' => match vals[i]?, vals[j]? with
    | some s, some t =>
      if k ≤ s.len ∧ l ≤ t.len then some (makeEach m s t k l extra extra') else none
    | _, _ => none
  | .index ps stores j n extra extra' => match vals[j]? with
    | some t =>
      if n ≤ t.len then some (makeIndex m (ps.flatMap (pieceDims m vals)) stores t n extra extra') else none
    | none => none
  | .outer i j extra => match vals[i]?, vals[j]? with
    | some s, some t => some (append m s (read m t) extra)
    | _, _ => none
  | .mix i l extra => match vals[i]? with
    | some s => some (append m s l extra)
    | none => none

/-- One operation: the new matrix is put at the end. -/
def step (w : St) (op : Op) : St :=
  match make w.mem w.vals op with
  | some p => ⟨p.2, w.vals ++ [p.1]⟩
  | none => w

/-- A history of operations. -/
def run (w : St) (ops : List Op) : St := ops.foldl step w

/-- The shapes of all matrices, as `rho` shows them. -/
def St.shapes (w : St) : List (List Nat) := w.vals.map (read w.mem)

/-- Nothing yet. -/
def start : St := ⟨[], []⟩

end Verif.Shape
