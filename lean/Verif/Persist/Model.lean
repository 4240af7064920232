/-
Model of value/persist/slice.go: the 16-way copy-on-write tree behind every Ivy vector.

Storage is explicit. Inodes, leaves and tail arrays live in a heap and are named by addresses, so
two slices can share them. Go panics (index out of range, nil dereference, inconsistent type stored in
an atomic.Value, slice bounds) are `none`.

This file is the sequential semantics; `Verif/Persist/Conc.lean` splits `Set` into atomic steps.
-/
namespace Verif.Persist

/-- A value stored in an `atomic.Value` of the tree (slice.go:39-48, 134-137):
`nil` is `any(nil)`, `tnil` is the typed nil `(*inode)(nil)` (slice.go:335, 360), `ref a` is a pointer to
the inode or leaf at address `a`. -/
inductive Ptr where
  | nil
  | tnil
  | ref (a : Nat)
  deriving DecidableEq, Repr

/-- `leaf[T]` (slice.go:128-131) and `inode` (slice.go:134-137). The fixed arrays `[chunk]T` and
`[chunk]atomic.Value` are functions on the index; every index used in slice.go is masked with `chunkMask`
so only 0..15 matter. -/
inductive Node (α : Type) where
  | inode (id : Nat) (ptr : Nat → Ptr)
  | leaf (id : Nat) (val : Nat → α)

namespace Node
variable {α : Type}
/-- The owner id of a node (slice.go:130, 136). -/
def id : Node α → Nat
  | .inode i _ => i
  | .leaf i _ => i

/-- Which of the two node types it is: `*leaf[T]` or `*inode` (slice.go:128, 134). -/
def isLeaf : Node α → Bool
  | .inode .. => false
  | .leaf .. => true
end Node

/-- The memory shared by all slices: tree nodes, tail backing arrays, and the global counter
`transientID` (slice.go:91). `next`/`nextArr` are the first unused addresses. -/
structure Heap (α : Type) where
  node : Nat → Option (Node α)
  next : Nat
  arr : Nat → Nat → α
  nextArr : Nat
  lastId : Nat

/-- The Go slice header `tail []T` (slice.go:51): a backing array, a length and a capacity. All tails
start at offset 0 of their array (slice.go:409, 258, 432, 439, 453, 514, 539). -/
structure Tail where
  base : Nat
  len : Nat
  cap : Nat
  deriving DecidableEq, Repr

/-- `Slice[T]` (slice.go:30-52). -/
structure Slice where
  tree : Ptr
  height : Nat
  tlen : Nat
  tail : Tail
  deriving DecidableEq, Repr

/-- `TransientSlice[T]` (slice.go:56-87) without the mutex, which only matters for concurrency. -/
structure Trans where
  s : Slice
  aid : Nat
  tailLen : Nat
  wtail : Bool
  deriving DecidableEq, Repr

/-- The zero `Slice[T]{}` (Go zero value of slice.go:30-52; nil tail has length and capacity 0). -/
def Slice.zero : Slice := ⟨.nil, 0, 0, ⟨0, 0, 0⟩⟩

/-- The zero `TransientSlice[T]{}` (Go zero value of slice.go:56-87). -/
def Trans.zero : Trans := ⟨.zero, 0, 0, false⟩

/-- `chunk` (slice.go:116). -/
abbrev chunk : Nat := 16

/-- `math/bits.Len`, used at slice.go:124. -/
def bitsLen (n : Nat) : Nat := if n = 0 then 0 else Nat.log2 n + 1

/-- `height` (slice.go:120-125). -/
def height (tlen : Nat) : Nat :=
  if tlen = 0 then 0 else max 2 (1 + bitsLen (tlen - 1) / 4)

/-- `(i >> (level*chunkBits)) & chunkMask` (slice.go:161, 389, 487, 526). -/
def digit (level i : Nat) : Nat := i / 16 ^ level % 16

/-- `Slice.Len` (slice.go:140-142). -/
def Slice.len (s : Slice) : Nat := s.tlen + s.tail.len

/-- `TransientSlice.Len` (slice.go:145-149), through the cached `tailLen`. -/
def Trans.len (t : Trans) : Nat := t.s.tlen + t.tailLen

variable {α : Type}

/-- The loop of `At` (slice.go:160-162) from `level` down to the leaf level. `none` is the crash on
dereferencing a typed nil or on a failed type assertion `p.(*inode)`. -/
def atLoop (h : Heap α) (i : Nat) : Nat → Ptr → Option Ptr
  | 0, p => some p
  | _ + 1, .nil => some .nil
  | _ + 1, .tnil => none
  | level + 1, .ref a =>
    match h.node a with
    | some (.inode _ ptr) => atLoop h i level (ptr (digit (level + 1) i))
    | _ => none

/-- `Slice.At` (slice.go:152-168). -/
def Slice.at [Inhabited α] (h : Heap α) (s : Slice) (i : Int) : Option α :=
  if i < 0 ∨ i ≥ s.len then none
  else
    let i := i.toNat
    if i ≥ s.tlen then
      if i % 16 < s.tail.len then some (h.arr s.tail.base (i % 16)) else none
    else
      match atLoop h i (s.height - 1) s.tree with
      | none => none
      | some .nil => some default
      | some .tnil => none
      | some (.ref a) =>
        match h.node a with
        | some (.leaf _ val) => some (val (i % 16))
        | _ => none

/-- `TransientSlice.At` (slice.go:171). -/
def Trans.at [Inhabited α] (h : Heap α) (t : Trans) (i : Int) : Option α := t.s.at h i

/-- `Slice.Transient` (slice.go:246-250). -/
def Slice.transient (s : Slice) : Trans := ⟨s, 0, s.tail.len, false⟩

/-- The location a `*atomic.Value` points to: `&t.s.tree` or `&ip.ptr[j]` (slice.go:387-389). -/
inductive Slot where
  | root
  | child (a j : Nat)
  deriving DecidableEq, Repr

/-- The heap together with the transient being edited. -/
structure St (α : Type) where
  h : Heap α
  t : Trans

/-- `p.Load()` (slice.go:268, 294). `none` if the slot is inside something that is not an inode, which
cannot be expressed in Go and never happens. -/
def St.load (st : St α) : Slot → Option Ptr
  | .root => some st.t.s.tree
  | .child a j =>
    match st.h.node a with
    | some (.inode _ ptr) => some (ptr j)
    | _ => none

/-- Replace the node at address `a`. -/
def Heap.setNode (h : Heap α) (a : Nat) (n : Node α) : Heap α :=
  { h with node := fun b => if b = a then some n else h.node b }

/-- `new(leaf[T])` / `new(inode)` with given contents (slice.go:272, 298, 342). -/
def Heap.alloc (h : Heap α) (n : Node α) : Heap α :=
  { h with node := fun b => if b = h.next then some n else h.node b, next := h.next + 1 }

/-- The store half of a successful `p.CompareAndSwap(pl, new)` (slice.go:279, 309). -/
def St.store (st : St α) (sl : Slot) (p : Ptr) : Option (St α) :=
  match sl with
  | .root => some { st with t := { st.t with s := { st.t.s with tree := p } } }
  | .child a j =>
    match st.h.node a with
    | some (.inode id ptr) =>
      some { st with h := st.h.setNode a (.inode id (fun k => if k = j then p else ptr k)) }
    | _ => none

/-- `TransientSlice.id` (slice.go:96-108) without contention: the state with a nonzero `aid`. -/
def St.withId (st : St α) : St α :=
  if st.t.aid = 0 then
    { h := { st.h with lastId := st.h.lastId + 1 }, t := { st.t with aid := st.h.lastId + 1 } }
  else st

/-- `wnode` (slice.go:292-317) without contention. Returns the address of the writable inode. A `*leaf`
in the slot makes `CompareAndSwap` panic (inconsistent type). -/
def St.wnode (st : St α) (sl : Slot) : Option (St α × Nat) := do
  let pl ← st.load sl
  let st := st.withId
  let fresh (ptr : Nat → Ptr) : Option (St α × Nat) := do
    let a := st.h.next
    let st := { st with h := st.h.alloc (.inode st.t.aid ptr) }
    let st ← st.store sl (.ref a)
    some (st, a)
  match pl with
  | .nil => fresh (fun _ => .nil)
  | .tnil => fresh (fun _ => .nil)
  | .ref a =>
    match st.h.node a with
    | some (.inode id ptr) => if id = st.t.aid then some (st, a) else fresh ptr
    | _ => none

/-- `wleaf` (slice.go:266-287) without contention. A typed nil `*inode` or an inode in the slot makes
`CompareAndSwap` panic (inconsistent type). -/
def St.wleaf [Inhabited α] (st : St α) (sl : Slot) : Option (St α × Nat) := do
  let pl ← st.load sl
  let st := st.withId
  let fresh (val : Nat → α) : Option (St α × Nat) := do
    let a := st.h.next
    let st := { st with h := st.h.alloc (.leaf st.t.aid val) }
    let st ← st.store sl (.ref a)
    some (st, a)
  match pl with
  | .nil => fresh (fun _ => default)
  | .tnil => none
  | .ref a =>
    match st.h.node a with
    | some (.leaf id val) => if id = st.t.aid then some (st, a) else fresh val
    | _ => none

/-- Assignment to (part of) `l.val` (slice.go:391, 477). -/
def St.leafWrite (st : St α) (a : Nat) (f : (Nat → α) → Nat → α) : Option (St α) :=
  match st.h.node a with
  | some (.leaf id val) => some { st with h := st.h.setNode a (.leaf id (f val)) }
  | _ => none

/-- `setTail` (slice.go:415-420). -/
def Trans.setTail (t : Trans) (tail : Tail) : Trans :=
  { t with s := { t.s with tail := tail }, tailLen := tail.len }

/-- `writeTail` (slice.go:399-413) without contention: `make([]T, len, chunk)` plus `copy`. -/
def St.writeTail [Inhabited α] (st : St α) : St α :=
  if st.t.wtail then st
  else
    let old := st.t.s.tail
    let b := st.h.nextArr
    { h := { st.h with
              arr := fun c => if c = b then fun k => if k < old.len then st.h.arr old.base k else default
                              else st.h.arr c
              nextArr := b + 1 }
      t := { st.t.setTail ⟨b, old.len, chunk⟩ with wtail := true } }

/-- A store `t.s.tail[k] = x` into the tail array (slice.go:382, and element-wise 431, 453, 533, 535). -/
def St.tailWrite (st : St α) (f : (Nat → α) → Nat → α) : St α :=
  let b := st.t.s.tail.base
  { st with h := { st.h with arr := fun c => if c = b then f (st.h.arr b) else st.h.arr c } }

/-- The descent of `Set` (slice.go:387-391), `level` counting down to the leaves. -/
def St.setLoop [Inhabited α] (i : Nat) (x : α) : Nat → St α → Slot → Option (St α)
  | 0, st, sl => do
    let (st, a) ← st.wleaf sl
    st.leafWrite a (fun v k => if k = i % 16 then x else v k)
  | level + 1, st, sl => do
    let (st, a) ← st.wnode sl
    setLoop i x level st (.child a (digit (level + 1) i))

/-- `Set` (slice.go:374-392). -/
def St.set [Inhabited α] (st : St α) (i : Int) (x : α) : Option (St α) :=
  if i < 0 ∨ i ≥ st.t.len then none
  else
    let i := i.toNat
    if i ≥ st.t.s.tlen then
      let st := st.writeTail
      if i % 16 < st.t.s.tail.len then
        some (st.tailWrite (fun v k => if k = i % 16 then x else v k))
      else none
    else st.setLoop i x (st.t.s.height - 1) .root

/-- The loop of `growTree` that adds levels (slice.go:341-346); `n` is the number of levels to add. -/
def St.growLoop (st : St α) (rt : Ptr) : Nat → St α × Ptr
  | 0 => (st, rt)
  | n + 1 =>
    let a := st.h.next
    let h := st.h.alloc (.inode st.t.aid (fun k => if k = 0 then rt else .nil))
    growLoop { h := h, t := { st.t with s := { st.t.s with height := st.t.s.height + 1 } } } (.ref a) n

/-- `root, _ := x.(*inode)` (slice.go:339, 364, 367) and storing the result back: a nil interface or a
pointer of another type becomes the typed nil. -/
def asInode (h : Heap α) : Ptr → Ptr
  | .ref a =>
    match h.node a with
    | some (.inode ..) => .ref a
    | _ => .tnil
  | _ => .tnil

/-- `growTree` (slice.go:323-348). -/
def St.growTree (st : St α) (tlen : Nat) : Option (St α) :=
  if tlen < st.t.s.tlen then none
  else
    let st := { st with t := { st.t with s := { st.t.s with tlen := tlen } } }
    let h := height tlen
    if h = st.t.s.height then some st
    else if st.t.s.height = 0 then
      some { st with t := { st.t with s := { st.t.s with tree := .tnil, height := h } } }
    else
      let root := asInode st.h st.t.s.tree
      let st := st.withId
      let (st, root) := st.growLoop root (h - st.t.s.height)
      some { st with t := { st.t with s := { st.t.s with tree := root } } }

/-- The loop of `shrinkTree` (slice.go:365-369); `n` is the number of levels to drop. -/
def shrinkLoop (h : Heap α) (rt : Ptr) : Nat → Ptr
  | 0 => rt
  | n + 1 =>
    shrinkLoop h
      (match rt with
        | .ref a =>
          match h.node a with
          | some (.inode _ ptr) => asInode h (ptr 0)
          | _ => rt
        | _ => rt) n

/-- `shrinkTree` (slice.go:352-371). -/
def St.shrinkTree (st : St α) (tlen : Nat) : St α :=
  let h := height tlen
  let st := { st with t := { st.t with s := { st.t.s with tlen := tlen } } }
  if h = st.t.s.height then st
  else if h = 0 then
    { st with t := { st.t with s := { st.t.s with tree := .tnil, height := 0 } } }
  else
    let root := shrinkLoop st.h (asInode st.h st.t.s.tree) (st.t.s.height - h)
    { st with t := { st.t with s := { st.t.s with tree := root, height := min st.t.s.height h } } }

/-- The child loop of `copy` (slice.go:487-498); `fuel` is `chunk - j`, `width = 1 << shift`,
`rec` is the recursive call one level down. -/
def copyLoop (rec : St α → Slot → Nat → List α → Nat → Option (St α)) (a width : Nat) :
    Nat → Nat → St α → Nat → List α → Nat → Option (St α)
  | 0, _, st, _, _, total => if total = 0 then some st else none
  | fuel + 1, j, st, off, src, total =>
    if total = 0 then some st
    else
      let m := min total (width - off % width)
      if src.length < m then none
      else do
        let st ← rec st (.child a j) off (src.take m) m
        copyLoop rec a width fuel (j + 1) st (off + m) (src.drop m) (total - m)

/-- `copy` (slice.go:473-499). -/
def St.copy [Inhabited α] : Nat → St α → Slot → Nat → List α → Nat → Option (St α)
  | 0, st, sl, _, src, _ => do
    let (st, a) ← st.wleaf sl
    if src.length < chunk then none
    else st.leafWrite a (fun _ k => (src[k]?).getD default)
  | level + 1, st, sl, off, src, total => do
    let (st, a) ← st.wnode sl
    let j := digit (level + 1) off
    copyLoop (St.copy level) a (16 ^ (level + 1)) (chunk - j) j st off src total

/-- `appendTree` (slice.go:457-469). -/
def St.appendTree [Inhabited α] (st : St α) (src : List α) (total : Nat) : Option (St α) :=
  if total % 16 ≠ 0 ∨ total = 0 then none
  else do
    let off := st.t.s.tlen
    let st ← st.growTree (off + total)
    st.copy (st.t.s.height - 1) .root off src total

/-- The contents of `t.s.tail[:n]` as a list. -/
def St.tailList (st : St α) (n : Nat) : List α := (List.range n).map (st.h.arr st.t.s.tail.base)

/-- `copy(t.s.tail[len:cap], src)` then extending the length (slice.go:431-432), and
`append(t.s.tail, src...)` within capacity (slice.go:453). -/
def St.tailAppend [Inhabited α] (st : St α) (src : List α) : St α :=
  let len := st.t.s.tail.len
  let n := min (st.t.s.tail.cap - len) src.length
  let st' := st.tailWrite (fun v k => if len ≤ k ∧ k < len + n then (src[k - len]?).getD default else v k)
  { st' with t := st'.t.setTail { st'.t.s.tail with len := len + n } }

/-- Last part of `Append` (slice.go:451-453). `append` on a tail with not enough capacity would move it to
a new array; `none` marks that this does not happen (the fragment is shorter than a chunk and the tail is
empty). -/
def St.appendFrag [Inhabited α] (st : St α) (src : List α) : Option (St α) :=
  let st := st.writeTail
  if st.t.s.tail.cap < st.t.s.tail.len + src.length then none
  else some (st.tailAppend src)

/-- Middle part of `Append` (slice.go:442-453). -/
def St.appendRest [Inhabited α] (st : St α) (src : List α) : Option (St α) :=
  if src.length ≥ chunk then do
    let n := src.length / 16 * 16
    let st ← st.appendTree src n
    let src := src.drop n
    if src.length = 0 then some st else st.appendFrag src
  else st.appendFrag src

/-- `Append` (slice.go:423-454). -/
def St.append [Inhabited α] (st : St α) (src : List α) : Option (St α) :=
  if src.length = 0 then some st
  else if st.t.s.tail.len > 0 then
    let st := st.writeTail
    let n := min (st.t.s.tail.cap - st.t.s.tail.len) src.length
    let st := st.tailAppend src
    let src := src.drop n
    if src.length = 0 then some st
    else do
      let st ← st.appendTree (st.tailList st.t.s.tail.len) chunk
      let st := { st with t := st.t.setTail { st.t.s.tail with len := 0 } }
      st.appendRest src
  else st.appendRest src

/-- The walk of `Resize` to the leaf that becomes the tail (slice.go:519-531): the leaf pointer or nil. -/
def resizeLeaf (h : Heap α) (i : Nat) : Nat → Ptr → Ptr
  | 0, p => p
  | level + 1, .ref a =>
    match h.node a with
    | some (.inode _ ptr) => resizeLeaf h i level (ptr (digit (level + 1) i))
    | _ => .nil
  | _ + 1, _ => .nil

/-- `t.setTail(t.s.tail[:n])`, which panics beyond the capacity (slice.go:514, 539). -/
def St.cutTail (st : St α) (n : Nat) : Option (St α) :=
  if n ≤ st.t.s.tail.cap then some { st with t := st.t.setTail { st.t.s.tail with len := n } } else none

/-- Growing case of `Resize` (slice.go:506-514). -/
def St.resizeGrow [Inhabited α] (st : St α) (n : Nat) : Option (St α) := do
  let tlen := n / 16 * 16
  let st := st.writeTail
  if tlen ≠ st.t.s.tlen then
    if st.t.s.tail.cap < chunk then none
    else
      let st ← st.appendTree (st.tailList chunk) chunk
      let st ← st.growTree tlen
      st.cutTail (n % 16)
  else st.cutTail (n % 16)

/-- `clear(t.s.tail[:tail])` or `copy(t.s.tail[:tail], l.val[:tail])` (slice.go:528-536), as a change of the
tail array. -/
def leafFill [Inhabited α] (h : Heap α) (p : Ptr) (tail : Nat) (v : Nat → α) (k : Nat) : α :=
  match p with
  | .ref a =>
    match h.node a with
    | some (.leaf _ val) => if k < tail then val k else v k
    | _ => if k < tail then default else v k
  | _ => if k < tail then default else v k

/-- Shrinking case of `Resize` (slice.go:515-539). -/
def St.resizeShrink [Inhabited α] (st : St α) (n : Nat) : Option (St α) :=
  let tlen := n / 16 * 16
  let tail := n % 16
  if tlen ≠ st.t.s.tlen then
    let st := st.writeTail
    if st.t.s.tail.cap < tail then none
    else
      let st := st.tailWrite (leafFill st.h (resizeLeaf st.h tlen (st.t.s.height - 1) st.t.s.tree) tail)
      (st.shrinkTree tlen).cutTail tail
  else st.cutTail tail

/-- `Resize` (slice.go:503-546); the final internal check (541-544) is the last `if`. -/
def St.resize [Inhabited α] (st : St α) (n : Nat) : Option (St α) := do
  let st ←
    if n > st.t.len then st.resizeGrow n
    else if n < st.t.len then st.resizeShrink n
    else some st
  if n ≠ st.t.len then none else some st

/-- `Persist` (slice.go:254-261). `slices.Clone` gives the copy a capacity of at least its length; only
that much is assumed. -/
def St.persist (st : St α) : St α × Slice :=
  let s := st.t.s
  let t := { st.t with aid := 0 }
  if t.wtail then
    let b := st.h.nextArr
    let h := { st.h with
                arr := fun c => if c = b then st.h.arr s.tail.base else st.h.arr c
                nextArr := b + 1 }
    ({ h := h, t := t }, { s with tail := ⟨b, s.tail.len, s.tail.len⟩ })
  else ({ st with t := t }, s)

/-- The child loop of `yield` (slice.go:231-242) for a `yield` function that never stops; the elements
visited, in order. -/
def yieldLoop (rec : Ptr → Nat → Nat → Option (List α)) (ptr : Nat → Ptr) (width : Nat) :
    Nat → Nat → Nat → Nat → Option (List α)
  | 0, _, start, stop => if start ≠ stop then none else some []
  | fuel + 1, j, start, stop =>
    if start < stop then do
      let m := min (stop - start) (width - start % width)
      let xs ← rec (ptr j) start (start + m)
      let ys ← yieldLoop rec ptr width fuel (j + 1) (start + m) stop
      some (xs ++ ys)
    else if start ≠ stop then none else some []

/-- `Slice.yield` (slice.go:204-243) with a `yield` that never stops early. -/
def yieldTree [Inhabited α] (h : Heap α) : Nat → Ptr → Nat → Nat → Option (List α)
  | _, .nil, start, stop => some (List.replicate (stop - start) default)
  | _, .tnil, _, _ => none
  | 0, .ref a, start, stop =>
    match h.node a with
    | some (.leaf _ val) => some ((List.range (stop - start)).map (fun k => val (start % 16 + k)))
    | _ => none
  | level + 1, .ref a, start, stop =>
    match h.node a with
    | some (.inode _ ptr) =>
      let j := digit (level + 1) start
      yieldLoop (yieldTree h level) ptr (16 ^ (level + 1)) (chunk - j) j start stop
    | _ => none

/-- `Slice.Slice(i, j)` (slice.go:182-196) run to the end: the elements produced. -/
def Slice.slice [Inhabited α] (h : Heap α) (s : Slice) (i j : Int) : Option (List α) :=
  if i < 0 ∨ j < i ∨ j > s.len then none
  else
    let i := i.toNat
    let j := j.toNat
    do
      let xs ← if i < s.tlen then yieldTree h (s.height - 1) s.tree i (min j s.tlen) else some []
      let ys := (List.range (j - max i s.tlen)).map (fun k => h.arr s.tail.base (max i s.tlen + k - s.tlen))
      some (xs ++ ys)

/-! ## Histories -/

/-- Everything a program can hold: persistent slices and transients sharing one memory. -/
structure World (α : Type) where
  h : Heap α
  slices : List Slice
  trans : List Trans

/-- Empty memory; `transientID` starts at 0 (slice.go:91). Array address 0 is the nil slice. -/
def Heap.empty [Inhabited α] : Heap α := ⟨fun _ => none, 0, fun _ _ => default, 1, 0⟩

/-- The start of a program: nothing allocated. -/
def World.init [Inhabited α] : World α := ⟨Heap.empty, [], []⟩

/-- The calls a program can make, by handle number. -/
inductive Op (α : Type) where
  | newSlice                                -- a zero Slice
  | newTrans                                -- a zero TransientSlice
  | transient (k : Nat)                     -- slices[k].Transient()
  | persist (k : Nat)                       -- trans[k].Persist()
  | set (k : Nat) (i : Int) (x : α)         -- trans[k].Set(i, x)
  | append (k : Nat) (src : List α)         -- trans[k].Append(src...)
  | resize (k : Nat) (n : Nat)              -- trans[k].Resize(n), n >= 0

/-- Run a method of transient number `k`. -/
def World.onTrans (w : World α) (k : Nat) (f : St α → Option (St α)) : Option (World α) := do
  let t ← w.trans[k]?
  let st ← f ⟨w.h, t⟩
  some { w with h := st.h, trans := w.trans.set k st.t }

/-- One call; `none` is a panic. -/
def World.step [Inhabited α] (w : World α) : Op α → Option (World α)
  | .newSlice => some { w with slices := w.slices ++ [Slice.zero] }
  | .newTrans => some { w with trans := w.trans ++ [Trans.zero] }
  | .transient k => do
    let s ← w.slices[k]?
    some { w with trans := w.trans ++ [s.transient] }
  | .persist k => do
    let t ← w.trans[k]?
    let (st, s) := St.persist ⟨w.h, t⟩
    some { h := st.h, slices := w.slices ++ [s], trans := w.trans.set k st.t }
  | .set k i x => w.onTrans k (fun st => st.set i x)
  | .append k src => w.onTrans k (fun st => st.append src)
  | .resize k n => w.onTrans k (fun st => st.resize n)

/-- A history. A call that panics changes nothing (the panicking calls are exactly those refused by their
bounds check, which comes first; see the theorems). -/
def World.run [Inhabited α] (w : World α) : List (Op α) → World α
  | [] => w
  | op :: ops => ((w.step op).getD w).run ops

end Verif.Persist
