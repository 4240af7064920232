import Verif.Arr.Basic

/-!
# Reshape, rotate, reverse, transpose, take and drop

`value/matrix.go`, `value/vector.go` and the tables of `value/binary.go` and `value/unary.go`.
-/

namespace Verif.Arr
variable {α : Type}

/-! ## rho -/

/-- `value/matrix.go:422-433`: the loop of `reshape` over the dimensions; the shape and the number of elements. -/
def shapeOf : List Small → Nat → R (List Nat × Nat)
  | [], n => .ok ([], n)
  | none :: _, _ => .err "bad shape for rho"
  | some d :: r, n =>
    if d < 0 ∨ (maxInt : Int) < d then .err "bad shape for rho"
    else if n * d.toNat > maxInt then .err "rho has too many elements"
    else (shapeOf r (n * d.toNat)).bind fun p => .ok (d.toNat :: p.1, p.2)

/-- `value/matrix.go:414-449`: `reshape`; `zero` is the element of `NewIntVector(0)`. -/
def reshape (zero : α) (A : List Small) (B : List α) : R (V α) :=
  let B := if B.length = 0 then [zero] else B
  if A.length = 0 then .ok (.vec [])
  else
    (shapeOf A 1).bind fun p =>
    let nelems := p.2
    let blen := B.length
    (loop (fun i t => (vAt B i).bind fun x => Ed.put t i x) (List.range (min blen nelems)) (newEd nelems)).bind fun t =>
    (loop (fun i t => (Ed.get t (i - blen)).bind fun x => Ed.put t i x) (List.range' blen (nelems - blen)) t).bind fun t =>
    t.publish.bind fun v =>
    if A.length = 1 then .ok (.vec v) else (newMatrix p.1 v).bind fun m => .ok (.mat m)

/-- `value/unary.go:674-701`: unary `rho` of a vector or a matrix. -/
def rho : V α → List Nat
  | .elem _ => []
  | .vec l => [l.length]
  | .mat m => m.shape

/-! ## rot and flip -/

/-- `value/vector.go:473-477`: `doRotate`. -/
def doRotate (dst : Ed α) (i n : Nat) (src : List α) (j off : Nat) : R (Ed α) :=
  loop (fun k dst => (vAt src (j + (off + k) % n)).bind fun x => Ed.put dst (i + k) x) (List.range n) dst

/-- `value/vector.go:423-426`, `value/matrix.go:459-462` and `483-486`: `n %= d; if n < 0 { n += d }`. -/
def wrapMod (n : Int) (d : Nat) : Nat :=
  let n := n.tmod d
  (if n < 0 then n + d else n).toNat

/-- `value/vector.go:416-430`: `rotate` of a vector. -/
def vecRotate (v : List α) (n : Int) : R (V α) :=
  match v with
  | [] => .ok (.vec v)
  | [x] => .ok (.elem x)
  | _ => (doRotate (edit v) 0 v.length v 0 (wrapMod n v.length)).bind fun e => e.publish.bind fun l => .ok (.vec l)

/-- `value/matrix.go:453-470`: `rotate` of a matrix along the last axis. -/
def rotate (S : Sched) (m : Mat α) (n : Int) : R (Mat α) :=
  match m.shape.getLast? with
  | none => .ok ⟨[], []⟩
  | some dim =>
    if dim = 0 then .crash else
    (pfor (S.ranges dim (m.data.length / dim))
      (each fun i e => doRotate e (i * dim) dim m.data (i * dim) (wrapMod n dim)) (newEd m.data.length)).bind fun e =>
    e.publish.bind fun d => newMatrix m.shape d

/-- `value/matrix.go:474-502`: `vrotate`, rotation along the first axis. -/
def vrotate (S : Sched) (m : Mat α) (n : Int) : R (Mat α) :=
  match m.shape with
  | [] => .ok ⟨[], []⟩
  | [_] => .ok m
  | d0 :: _ =>
    if d0 = 0 then .crash else
    let dim := m.data.length / d0
    if m.data.length = 0 then .crash else
    let n := wrapMod (n * dim) m.data.length
    if dim = 0 then .crash else
    (pfor (S.ranges dim (m.data.length / dim)) (each fun i e =>
        let j := i * dim
        let n := (n + j) % m.data.length
        loop (fun k e => (vAt m.data (n + k)).bind fun x => Ed.put e (j + k) x) (List.range dim) e)
      (newEd m.data.length)).bind fun e =>
    e.publish.bind fun d => newMatrix m.shape d

/-- `value/binary.go:1408-1414` and `1429-1435`: the count of `rot` and `flip` on vectors. -/
def rotVec (count : List Small) (v : List α) : R (V α) :=
  if count.length ≠ 1 then .err "rot: count must be small integer"
  else (intAt count 0 "rot count").bind fun n => vecRotate v n

/-- `value/binary.go:1415-1421`: `rot` on matrices. -/
def rotMat (S : Sched) (count : Mat Small) (m : Mat α) : R (Mat α) :=
  if count.shape.length ≠ 1 ∨ count.data.length ≠ 1 then .err "rot: count must be small integer"
  else (intAt count.data 0 "rot count").bind fun n => rotate S m n

/-- `value/binary.go:1436-1442`: `flip` on matrices. -/
def flipMat (S : Sched) (count : Mat Small) (m : Mat α) : R (Mat α) :=
  if count.shape.length ≠ 1 ∨ count.data.length ≠ 1 then .err "flip: count must be small integer"
  else (intAt count.data 0 "flip count").bind fun n => vrotate S m n

/-- Exchange of two elements (`value/vector.go:559-561`, `value/unary.go:915-917` and `952-954`). -/
def Ed.swap (e : Ed α) (i j : Nat) : R (Ed α) :=
  (e.get i).bind fun ei => (e.get j).bind fun ej => (e.put i ej).bind fun e => e.put j ei

/-- `value/vector.go:559-563` and `value/unary.go:914-918`: the loop `for i, j := 0, n-1; i < j; i, j = i+1, j-1` that
exchanges elements, at an offset; the number of its iterations is `n / 2`. -/
def swapLoop (off n : Nat) (e : Ed α) : R (Ed α) :=
  loop (fun i e => e.swap (off + i) (off + (n - 1 - i))) (List.range (n / 2)) e

/-- `value/vector.go:557-565`: `reverse`. -/
def reverse (v : List α) : R (List α) := (swapLoop 0 v.length (edit v)).bind fun e => e.publish

/-- `value/unary.go:913-920`: the loop of unary `rot` over the rows. `fuel` bounds the number of iterations tried; when
it runs out the loop does not end. -/
def rotLoop (size ncols : Nat) : Nat → Nat → Ed α → R (Ed α)
  | 0, _, _ => .hang
  | fuel + 1, index, e =>
    if index + ncols ≤ size then (swapLoop index ncols e).bind fun e => rotLoop size ncols fuel (index + ncols) e
    else .ok e

/-- `value/unary.go:902-922`: unary `rot` of a matrix. -/
def rotRows (m : Mat α) : R (Mat α) :=
  match m.shape.getLast? with
  | none => .ok m
  | some ncols =>
    if m.shape.length = 1 then .err "rot: matrix is vector" else
    (size m.shape).bind fun sz =>
    (rotLoop sz ncols (sz + 2) 0 (edit m.data)).bind fun e => e.publish.bind fun d => .ok ⟨m.shape, d⟩

/-- `value/unary.go:950-959`: the loop of unary `flip`. -/
def flipLoop (elemSize : Nat) : Nat → Nat → Int → Ed α → R (Ed α)
  | 0, _, _, _ => .hang
  | fuel + 1, lo, hi, e =>
    if (lo : Int) < hi then
      (loop (fun i e => e.swap (lo + i) (hi.toNat + i)) (List.range elemSize) e).bind fun e =>
      flipLoop elemSize fuel (lo + elemSize) (hi - elemSize) e
    else .ok e

/-- `value/unary.go:937-961`: unary `flip` of a matrix. -/
def flipRows (m : Mat α) : R (Mat α) :=
  match m.shape with
  | [] => .ok m
  | [_] => .err "flip: matrix is vector"
  | _ :: ds =>
    (size ds).bind fun elemSize =>
    (size m.shape).bind fun sz =>
    (flipLoop elemSize (sz + 1) 0 (sz - elemSize) (edit m.data)).bind fun e => e.publish.bind fun d => .ok ⟨m.shape, d⟩

/-! ## transp -/

/-- `value/matrix.go:513-523`: one step of the loop of the two-dimensional case, with the variables `nx`, `ny`. -/
def transStep (xdim ydim : Nat) (data : List α) (k : Nat) (s : Nat × Nat × Ed α) : R (Nat × Nat × Ed α) :=
  (vAt data k).bind fun v =>
  (s.2.2.put (s.2.1 * xdim + s.1) v).bind fun e =>
  if s.2.1 + 1 ≥ ydim then .ok (s.1 + 1, 0, e) else .ok (s.1, s.2.1 + 1, e)

/-- `value/matrix.go:507-524`: the two-dimensional case of `transpose`. -/
def transpose2 (S : Sched) (xdim ydim : Nat) (data : List α) : R (Mat α) :=
  (pfor (S.ranges 1 data.length) (fun lo hi e =>
      if ydim = 0 then .crash else
      (loop (transStep xdim ydim data) (List.range' lo (hi - lo)) (lo / ydim, lo % ydim, e)).bind fun s => .ok s.2.2)
    (newEd data.length)).bind fun e =>
  e.publish.bind fun d => newMatrix [ydim, xdim] d

/-- `value/matrix.go:543-555`: the loop of `binaryTranspose` over the index vector; `oldToNew` and the rank. -/
def axes (origin rank : Nat) : List Small → R (List Nat)
  | [] => .ok []
  | none :: _ => .err "transp index"
  | some vi :: r =>
    if vi < origin ∨ vi ≥ (origin + rank : Nat) then .err "transp: out-of-range index"
    else (axes origin rank r).bind fun l => .ok ((vi - origin).toNat :: l)

/-- `value/matrix.go:551-553`: `if rank <= vi { rank = vi + 1 }`, from -1. -/
def newRank (oldToNew : List Nat) : Nat := oldToNew.foldl (fun r vi => if r ≤ vi then vi + 1 else r) 0

/-- `value/matrix.go:564-568`: one step of the loop that computes the shape, `none` being -1. -/
def axisStep (s : List (Option Nat)) (p : Nat × Nat) : List (Option Nat) :=
  match s[p.1]? with
  | some (some d) => if d > p.2 then s.set p.1 (some p.2) else s
  | some none => s.set p.1 (some p.2)
  | none => s

/-- `value/matrix.go:560-568`: the loop that computes the shape. -/
def newShape (oldToNew shape : List Nat) (rank : Nat) : List (Option Nat) :=
  (oldToNew.zip shape).foldl axisStep (List.replicate rank none)

/-- `value/matrix.go:569-575`: the check that no dimension is missing. -/
def noMissing : List (Option Nat) → R (List Nat)
  | [] => .ok []
  | none :: _ => .err "transp: partial index"
  | some d :: r => (noMissing r).bind fun l => .ok (d :: l)

/-- `value/matrix.go:582-588`: the starting index, from the last dimension; `i` is what is left of `lo`. -/
def startIndex : List Nat → Nat → List Nat × Nat
  | [], i => ([], i)
  | d :: ds, i =>
    let p := startIndex ds i
    if d > 0 then ((p.2 % d) :: p.1, p.2 / d) else (0 :: p.1, p.2)

/-- `value/matrix.go:599-604`, `value/matrix.go:879-886` and `value/unary.go:786-791`: the odometer, from the last
coordinate; the flag says that all the coordinates were reset. -/
def tick : List Nat → List Nat → List Nat × Bool
  | d :: ds, i :: is =>
    let p := tick ds is
    if p.2 then (if i + 1 < d then ((i + 1) :: p.1, false) else (0 :: p.1, true)) else (i :: p.1, false)
  | _, is => (is, true)

/-- `value/matrix.go:591-594`: the old offset for the new index. -/
def oldOffset (oldToNew shape index : List Nat) : R Nat :=
  loopOver (fun p oi => (vAt index p.1).bind fun x => .ok (oi * p.2 + x)) (oldToNew.zip shape) 0

/-- `value/matrix.go:535-608`: `binaryTranspose`. -/
def binaryTranspose (S : Sched) (origin : Nat) (m : Mat α) (v : List Small) : R (Mat α) :=
  if v.length ≠ m.shape.length then .err "transp: vector length != matrix rank"
  else
    (axes origin m.shape.length v).bind fun oldToNew =>
    (noMissing (newShape oldToNew m.shape (newRank oldToNew))).bind fun shape =>
    let sz := shape.foldl (· * ·) 1
    (pfor (S.ranges 1 sz) (fun lo hi e =>
        (loop (fun i s =>
            (oldOffset oldToNew m.shape s.1).bind fun oi =>
            (vAt m.data oi).bind fun x =>
            (s.2.put i x).bind fun e => .ok ((tick shape s.1).1, e))
          (List.range' lo (hi - lo)) ((startIndex shape lo).1, e)).bind fun s => .ok s.2)
      (newEd sz)).bind fun e =>
    e.publish.bind fun d => newMatrix shape d

/-- `value/matrix.go:505-530`: `transpose`. -/
def transpose (S : Sched) (origin : Nat) (m : Mat α) : R (Mat α) :=
  match m.shape with
  | [xdim, ydim] => transpose2 S xdim ydim m.data
  | _ => binaryTranspose S origin m ((List.range m.shape.length).map (fun i => some ((m.shape.length - 1 - i + origin : Nat) : Int)))

/-- `value/unary.go:976-982`: unary `transp` of a matrix. -/
def transp (S : Sched) (origin : Nat) (m : Mat α) : R (Mat α) :=
  if m.shape.length = 1 then .err "transp: matrix is vector" else transpose S origin m

/-- `value/binary.go:1547-1553`: binary `transp`. -/
def transpBy (S : Sched) (origin : Nat) (v : List Small) (m : Mat α) : R (V α) :=
  (binaryTranspose S origin m v).bind fun m => if m.shape.length ≤ 1 then .ok (.vec m.data) else .ok (.mat m)

/-! ## take and drop -/

/-- `value/binary.go:1341-1361`: `take` of a vector with one count. -/
def takeVec (fill : α) (n : Int) (v : List α) : List α :=
  let nElems := n.natAbs
  if n < 0 then
    if nElems > v.length then List.replicate (nElems - v.length) fill ++ v else v.drop (v.length - nElems)
  else if n = 0 then []
  else if nElems > v.length then v ++ List.replicate (nElems - v.length) fill else v.take nElems

/-- `value/binary.go:1374-1396`: `drop` of a vector. -/
def dropVec (n : Int) (v : List α) : List α :=
  if n < 0 then if n.natAbs > v.length then [] else v.take (v.length - n.natAbs)
  else if n = 0 then v
  else if n.natAbs > v.length then [] else v.drop n.natAbs

/-- `AllInts` (`value/vector.go:363-370`) and the assertion `x.(Int)` made of each element afterwards. -/
def allInts (msg : String) : List Small → R (List Int)
  | [] => .ok []
  | none :: _ => .err msg
  | some n :: r => (allInts msg r).bind fun l => .ok (n :: l)

/-- Go's `int64` multiplication: the result modulo 2^64, between -2^63 and 2^63-1. -/
def wrap64 (n : Int) : Int := (n + 2 ^ 63) % 2 ^ 64 - 2 ^ 63

/-- One axis of `take` (`value/matrix.go:831-851`): the new dimension, the bounds of the part of `m` taken, and the
location of `m`'s corner in the result. -/
structure Axis where
  dim : Nat
  min : Nat
  max : Nat
  origin : Int

/-- `value/matrix.go:832-850`: the loop body that computes the bounds for one axis. -/
def axis (y : Int) (d : Nat) : Axis :=
  if y < 0 then ⟨y.natAbs, d - y.natAbs, d, (y.natAbs : Int) - d⟩ else ⟨y.toNat, 0, min d y.toNat, 0⟩

/-- `value/matrix.go:866-874`: the location in `m` of a location of the result: `none` if outside. -/
def inside : List Axis → List Nat → List Nat → Int → R (Option Nat)
  | a :: as, rc :: rcs, d :: ds, mi =>
    let loc := (rc : Int) - a.origin
    if loc < a.min ∨ (a.max : Int) ≤ loc then .ok none else inside as rcs ds (mi * d + loc)
  | _, [], _, mi => if mi < 0 then .crash else .ok (some mi.toNat)
  | _, _ :: _, _, _ => .crash

/-- `value/matrix.go:799-890`: `take`. -/
def take (fill : α) (m : Mat α) (v : List Small) : R (Mat α) :=
  (allInts "take: left operand must be small integers" v).bind fun v =>
  (if v.length > m.shape.length then
      (size m.shape).bind fun sz =>
      if sz ≠ 1 then .err "take: bad rank" else newMatrix (List.replicate v.length 1) m.data
    else .ok m).bind fun m =>
  let v : List Int := v ++ (m.shape.drop v.length).map (fun d : Nat => (d : Int))
  let as := List.zipWith axis v m.shape
  let shape := as.map (·.dim)
  let count : Int := shape.foldl (fun (c : Int) (y : Nat) => wrap64 (c * y)) 1
  if count > maxInt then .err "take: result matrix too large"
  else
    let n := count.toNat
    (loop (fun i s =>
        (inside as s.1 m.shape 0).bind fun o =>
        (match o with
          | some mi => (vAt m.data mi).bind fun x => s.2.put i x
          | none => s.2.put i fill).bind fun e => .ok ((tick shape s.1).1, e))
      (List.range n) (List.replicate shape.length 0, newEd n)).bind fun s =>
    s.2.publish.bind fun d => newMatrix shape d

/-- `value/matrix.go:941-952`: one count of `drop` as a count of `take`. -/
def dropCount (x : Int) (d : Nat) : Int :=
  if x < -d ∨ x > d then 0 else if x ≥ 0 then x - d else d + x

/-- `value/matrix.go:921-955`: `drop`. -/
def drop (fill : α) (m : Mat α) (v : List Small) : R (Mat α) :=
  if v.length > m.shape.length then .err "take: argument too large for matrix"
  else
    (allInts "drop: left operand must be small integers" v).bind fun v =>
    let v := v ++ List.replicate (m.shape.length - v.length) 0
    take fill m ((List.zipWith dropCount v m.shape).map some)

/-- `vectorAndAtLeastVectorType` (`value/binary.go:62-69`) and the conversion of a single element to a vector. -/
def V.atLeastVec : V α → V α
  | .elem x => .vec [x]
  | v => v

/-- `value/binary.go:1334-1367`: `take` of a vector or a matrix. -/
def takeOp (fill : List α → α) (u : List Small) (v : V α) : R (V α) :=
  match v.atLeastVec with
  | .elem _ => .crash
  | .vec l =>
    if u.length ≠ 1 then
      (newMatrix [l.length] l).bind fun m => (take (fill l) m u).bind fun m => .ok (.mat m)
    else (intAt u 0 "take count").bind fun n => .ok (.vec (takeVec (fill l) n l))
  | .mat m => (take (fill m.data) m u).bind fun m => .ok (.mat m)

/-- `value/binary.go:1374-1400`: `drop` of a vector or a matrix. -/
def dropOp (fill : List α → α) (u : List Small) (v : V α) : R (V α) :=
  match v.atLeastVec with
  | .elem _ => .crash
  | .vec l =>
    if u.length ≠ 1 then .err "bad count in drop"
    else (intAt u 0 "drop count").bind fun n => .ok (.vec (dropVec n l))
  | .mat m => (drop (fill m.data) m u).bind fun m => .ok (.mat m)

end Verif.Arr
