import Verif.Persist.Model
/-
Model of concurrent `Set` calls on one `TransientSlice` (value/persist/slice.go): each goroutine runs a
sequence of `Set` calls, as the workers of `pfor` do (value/index.go:335-405). The atomic steps are the
individual loads, compare-and-swaps, atomic adds, element copies, element stores and mutex operations; a
schedule picks the goroutine that moves next.

Simplifications: `new(leaf)`/`new(inode)` gets its address when it is published by a successful
compare-and-swap (until then it is private to the goroutine); a store of one element is one step (elements
written concurrently are different memory locations, see the theorems). Sequential consistency of the Go
atomics is assumed, and plain loads of `t.s.tlen`, `t.s.height` (never written by `Set`) are not steps.
-/
namespace Verif.Persist
variable {α : Type}

/-- Where a goroutine stands inside `Set(i, x)`. `level` counts down to the leaves (0). -/
inductive Pc (α : Type) where
  | idle                                                           -- before the call (slice.go:374)
  | load (level : Nat) (sl : Slot)                                 -- pl := p.Load() (slice.go:268, 294)
  | aidLoad (level : Nat) (sl : Slot) (pl : Ptr)                   -- id := t.aid.Load() (slice.go:98)
  | aidAdd (level : Nat) (sl : Slot) (pl : Ptr)                    -- transientID.Add(1) (slice.go:100)
  | aidCas (level : Nat) (sl : Slot) (pl : Ptr) (id : Nat)         -- t.aid.CompareAndSwap(0, id) (slice.go:101)
  | check (level : Nat) (sl : Slot) (pl : Ptr) (tid : Nat)         -- l == nil || l.id != tid (slice.go:271, 297)
  | copy (level : Nat) (sl : Slot) (a : Nat) (j : Nat) (new : Node α) -- element j of the copy (slice.go:276, 302-306)
  | cas (level : Nat) (sl : Slot) (pl : Ptr) (new : Node α)        -- p.CompareAndSwap(pl, new) (slice.go:279, 309)
  | leafStore (a : Nat)                                            -- l.val[i&chunkMask] = x (slice.go:391)
  | tailLoad                                                       -- t.wtail.Load() (slice.go:400)
  | tailLock                                                       -- t.tailMu.Lock() (slice.go:403)
  | tailCheck                                                      -- t.wtail.Load() (slice.go:405)
  | tailCopy (j : Nat) (new : Nat → α)                             -- element j of copy(tail, t.s.tail) (slice.go:410)
  | tailFlag                                                       -- t.wtail.Store(true) (slice.go:412)
  | tailUnlock                                                     -- deferred t.tailMu.Unlock() (slice.go:404)
  | tailStore                                                      -- t.s.tail[i&chunkMask] = x (slice.go:382)

/-- A goroutine: the calls still to be made (the current one first), its position, and the calls finished,
newest first. -/
structure Th (α : Type) where
  todo : List (Nat × α)
  pc : Pc α
  past : List (Nat × α)

/-- All goroutines together: memory and transient, the holder of `tailMu`, the goroutines. -/
structure Cfg (α : Type) where
  st : St α
  mu : Option Nat
  ths : List (Th α)

/-- Outcome of letting a goroutine move. -/
inductive Res (α : Type) where
  | finished                                        -- no call left
  | wait                                            -- blocked on the mutex
  | crash                                           -- run-time panic
  | go (st : St α) (mu : Option Nat) (th : Th α)

/-- The dynamic type stored in an `atomic.Value`: `none` if nothing has been stored, else whether it is a
`*leaf`. -/
def ptrKind (h : Heap α) : Ptr → Option (Option Bool)
  | .nil => some none
  | .tnil => some (some false)
  | .ref a => (h.node a).map (fun n => some n.isLeaf)

/-- `Value.CompareAndSwap(pl, new)` panics if `pl` or the current value has another dynamic type than
`new`. -/
def casTypesOK (h : Heap α) (pl cur : Ptr) (new : Node α) : Bool :=
  match ptrKind h pl, ptrKind h cur with
  | some kp, some kc => (kp == none || kp == some new.isLeaf) && (kc == none || kc == some new.isLeaf)
  | _, _ => false

/-- Copy element `j` of `src` into `dst` (slice.go:276 and 302-306). -/
def Node.put (dst src : Node α) (j : Nat) : Option (Node α) :=
  match dst, src with
  | .inode id p, .inode _ q => some (.inode id (fun k => if k = j then q j else p k))
  | .leaf id v, .leaf _ u => some (.leaf id (fun k => if k = j then u j else v k))
  | _, _ => none

/-- `new(leaf[T])` at level 0, `new(inode)` above, with the id filled in (slice.go:272-278, 298-308). -/
def freshNode [Inhabited α] (level tid : Nat) : Node α :=
  match level with
  | 0 => .leaf tid (fun _ => default)
  | _ + 1 => .inode tid (fun _ => .nil)

/-- `pl.(*leaf[T])` at level 0, `pl.(*inode)` above: the address when the assertion yields a non-nil
pointer (slice.go:269, 295). -/
def asLevel (h : Heap α) (level : Nat) (p : Ptr) : Option (Nat × Node α) :=
  match p with
  | .ref a =>
    match h.node a with
    | some n => if n.isLeaf = decide (level = 0) then some (a, n) else none
    | none => none
  | _ => none

/-- Where `Set` goes once it has a writable node (slice.go:387-391). -/
def afterNode (i : Nat) (level a : Nat) : Pc α :=
  match level with
  | 0 => .leafStore a
  | l + 1 => .load l (.child a (digit (l + 1) i))

/-- One step of goroutine number `me` inside `Set(i, x)`; `rest` are its later calls. -/
def setStep [Inhabited α] (st : St α) (mu : Option Nat) (me : Nat) (i : Nat) (x : α) (th : Th α) : Res α :=
  let goto (pc : Pc α) : Res α := .go st mu { th with pc := pc }
  match th.pc with
  | .idle =>
    if i ≥ st.t.len then .crash
    else if i ≥ st.t.s.tlen then goto .tailLoad
    else goto (.load (st.t.s.height - 1) .root)
  | .load level sl =>
    match st.load sl with
    | none => .crash
    | some pl => goto (.aidLoad level sl pl)
  | .aidLoad level sl pl =>
    if st.t.aid = 0 then goto (.aidAdd level sl pl) else goto (.check level sl pl st.t.aid)
  | .aidAdd level sl pl =>
    .go { st with h := { st.h with lastId := st.h.lastId + 1 } } mu
      { th with pc := .aidCas level sl pl (st.h.lastId + 1) }
  | .aidCas level sl pl id =>
    if st.t.aid = 0 then
      .go { st with t := { st.t with aid := id } } mu { th with pc := .check level sl pl id }
    else goto (.aidLoad level sl pl)
  | .check level sl pl tid =>
    match asLevel st.h level pl with
    | some (a, n) => if n.id = tid then goto (afterNode i level a) else goto (.copy level sl a 0 (freshNode level tid))
    | none => goto (.cas level sl pl (freshNode level tid))
  | .copy level sl a j new =>
    if j < chunk then
      match st.h.node a with
      | some n =>
        match new.put n j with
        | some new' => goto (.copy level sl a (j + 1) new')
        | none => .crash
      | none => .crash
    else goto (.cas level sl (.ref a) new)
  | .cas level sl pl new =>
    match st.load sl with
    | none => .crash
    | some cur =>
      if casTypesOK st.h pl cur new then
        if cur = pl then
          match St.store { st with h := st.h.alloc new } sl (.ref st.h.next) with
          | some st' => .go st' mu { th with pc := afterNode i level st.h.next }
          | none => .crash
        else goto (.load level sl)
      else .crash
  | .leafStore a =>
    match st.leafWrite a (fun v k => if k = i % 16 then x else v k) with
    | some st' => .go st' mu { todo := th.todo.tail, pc := .idle, past := (i, x) :: th.past }
    | none => .crash
  | .tailLoad => if st.t.wtail then goto .tailStore else goto .tailLock
  | .tailLock =>
    match mu with
    | none => .go st (some me) { th with pc := .tailCheck }
    | some _ => .wait
  | .tailCheck => if st.t.wtail then goto .tailUnlock else goto (.tailCopy 0 (fun _ => default))
  | .tailCopy j new =>
    if j < st.t.s.tail.len then
      goto (.tailCopy (j + 1) (fun k => if k = j then st.h.arr st.t.s.tail.base j else new k))
    else
      -- t.setTail(tail) with cap(tail) = chunk (slice.go:409-411)
      let b := st.h.nextArr
      .go { h := { st.h with arr := fun c => if c = b then new else st.h.arr c, nextArr := b + 1 }
            t := st.t.setTail ⟨b, st.t.s.tail.len, chunk⟩ } mu { th with pc := .tailFlag }
  | .tailFlag => .go { st with t := { st.t with wtail := true } } mu { th with pc := .tailUnlock }
  | .tailUnlock => .go st none { th with pc := .tailStore }
  | .tailStore =>
    if i % 16 < st.t.s.tail.len then
      .go (st.tailWrite (fun v k => if k = i % 16 then x else v k)) mu
        { todo := th.todo.tail, pc := .idle, past := (i, x) :: th.past }
    else .crash

/-- One step of a goroutine. -/
def Th.step [Inhabited α] (st : St α) (mu : Option Nat) (me : Nat) (th : Th α) : Res α :=
  match th.todo with
  | [] => .finished
  | (i, x) :: _ => setStep st mu me i x th

/-- Goroutine `k` moves. -/
inductive CStep [Inhabited α] : Cfg α → Cfg α → Prop where
  | go {c : Cfg α} {k : Nat} {th th' : Th α} {st' : St α} {mu' : Option Nat} (hk : c.ths[k]? = some th)
      (hs : th.step c.st c.mu k = .go st' mu' th') : CStep c ⟨st', mu', c.ths.set k th'⟩

/-- Any number of steps, in any order, counted. -/
inductive CRun [Inhabited α] : Nat → Cfg α → Cfg α → Prop where
  | refl {c} : CRun 0 c c
  | snoc {n c c' c''} (r : CRun n c c') (s : CStep c' c'') : CRun (n + 1) c c''

/-- The goroutines at the start: nothing done, each with its own list of `Set` calls. -/
def Cfg.start (st : St α) (calls : List (List (Nat × α))) : Cfg α :=
  ⟨st, none, calls.map (fun l => ⟨l, .idle, []⟩)⟩

/-- All goroutines have made all their calls. -/
def Cfg.finished (c : Cfg α) : Prop := ∀ th, th ∈ c.ths → th.todo = []

end Verif.Persist
