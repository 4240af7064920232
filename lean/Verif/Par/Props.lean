import Verif.Par.AssignLemmas
import Verif.Persist.ConcProps
/-
Properties C05, C06, C07: the parallel loop `pfor`, element-wise operators, and the stores of an indexed
assignment, under every schedule of the goroutines.

`procs` is the number of processors Go reports (at least 1), `minWork` is `pforMinWork` (100, or 1 in the
repository's own stress tests).
-/
namespace Verif.Par
open Verif.Persist
variable {α β γ ε : Type}

/-- **C05 (exact cover).** The ranges `pfor` hands out, in order, list each index `0 … n-1` exactly once and
nothing else; none is inverted or out of bounds; and each index is in the range of exactly one worker. -/
theorem C05_exact_cover (safe : Bool) (procs minWork size n : Nat) (hp : 0 < procs) (hw : 0 < minWork) :
    (ranges safe procs minWork size n).flatMap (fun r => List.range' r.1 (r.2 - r.1)) = List.range n ∧
    (∀ r ∈ ranges safe procs minWork size n, r.1 ≤ r.2 ∧ r.2 ≤ n) ∧
    ∀ k, k < n → ∃ (i : Nat) (r : Nat × Nat), (ranges safe procs minWork size n)[i]? = some r ∧ r.1 ≤ k ∧ k < r.2 ∧
      ∀ (j : Nat) (r' : Nat × Nat), (ranges safe procs minWork size n)[j]? = some r' → r'.1 ≤ k → k < r'.2 → j = i := by
  refine ⟨ranges_flat hp hw, fun r hr => ranges_bound hr, fun k hk => ?_⟩
  have h1 : k ∈ List.range n := List.mem_range.2 hk
  rw [← ranges_flat (safe := safe) (procs := procs) (minWork := minWork) (size := size) hp hw, List.mem_flatMap] at h1
  obtain ⟨r, hr, hk2⟩ := h1
  rw [List.mem_range'_1] at hk2
  obtain ⟨i, hi⟩ := List.getElem?_of_mem hr
  refine ⟨i, r, hi, hk2.1, by omega, fun j r' hj h2 h3 => ?_⟩
  rcases Nat.lt_trichotomy j i with h | h | h
  · have := ranges_ord hj hi h
    omega
  · exact h
  · have := ranges_ord hi hj h
    omega

/-- Sixteen goroutines share 7000 indexes unevenly; a small loop is not split. -/
example : (ranges true 4 100 1 7000).length = 16 ∧ (ranges true 4 100 1 7000)[3]? = some (1312, 1750) ∧
    ranges true 4 100 1 150 = [(0, 150)] ∧ ranges true 4 100 1000 2 ≠ [(0, 2)] := by decide +kernel

/-- **C05 (the loop waits for everyone and reports).** From every state a program can reach, let goroutines
call `Set` on one transient, each then reporting an error or none, no index used by two of them. Under every
schedule: the loop never gets stuck, it ends after a bounded number of steps, and once it returns every
goroutine has done all its work, an error it reports is one some goroutine reported, and it reports one if
any goroutine did. -/
theorem C05_waits_and_reports [Inhabited α] (es : List (Event α)) (w : World α) (hw : EReach es w) (k : Nat) (t : Trans)
    (ht : w.trans[k]? = some t) (ws : List (List (Nat × α) × Option ε)) (hr : InRange t.len (ws.map (·.1)))
    (hd : Disjoint (ws.map (·.1))) (n : Nat) (p : PCfg α ε) (r : PRun n (PCfg.start ⟨w.h, t⟩ ws) p) :
    (¬ p.returned → ∃ p', PStep p p') ∧
    n ≤ 200 * (t.s.height + 2) * (ws.map (·.1)).flatten.length + 2 * ws.length ∧
    (p.returned →
      p.c.finished ∧
      (∀ e, p.err = some e → some e ∈ ws.map (·.2)) ∧
      (p.err = none → ∀ o ∈ ws.map (·.2), o = none)) := by
  have I := pi_run r
  obtain ⟨m, hm, hn⟩ := I.run
  obtain ⟨_, hprog, hbound⟩ := C04_never_stuck es w hw k t ht _ hr hd m p.c hm
  have hol : p.outs.length = ws.length := by rw [I.outs]; simp
  refine ⟨fun hnr => ?_, ?_, fun hret => ?_⟩
  · by_cases hf : p.c.finished
    · by_cases hall : ∃ j : Nat, p.sent[j]? = some false
      · obtain ⟨j, hj⟩ := hall
        have hjl := (List.getElem?_eq_some_iff.1 hj).1
        rw [I.lsent] at hjl
        have h1 := List.getElem?_eq_getElem (l := p.c.ths) (i := j) (by rw [I.lths]; exact hjl)
        have h2 := List.getElem?_eq_getElem (l := p.outs) (i := j) (by rw [hol]; exact hjl)
        exact ⟨_, .send h1 (hf _ (List.mem_of_getElem? h1)) hj h2⟩
      · have hc : p.sent.count true = p.sent.length := by
          rw [List.count_eq_length]
          intro b hb
          cases b with
          | true => rfl
          | false =>
            obtain ⟨j, hj⟩ := List.getElem?_of_mem hb
            exact absurd ⟨j, hj⟩ hall
        have := I.count
        rw [hc, I.lsent] at this
        have hg : p.got < p.outs.length := by
          have := I.gotle
          have hne : p.got ≠ p.outs.length := hnr
          omega
        cases hch : p.chan with
        | nil =>
          rw [hch] at this
          simp only [List.length_nil] at this
          omega
        | cons o rest => exact ⟨_, .recv hch hg⟩
    · obtain ⟨c', hc'⟩ := hprog hf
      exact ⟨_, .work hc'⟩
  · have h1 : p.sent.count true ≤ p.sent.length := List.count_le_length
    rw [I.lsent] at h1
    have h2 := I.gotle
    omega
  · obtain ⟨hf, hch, hs⟩ := pi_returned I hret
    refine ⟨hf, fun e he => by rw [← I.outs]; exact I.err1 e he, fun hne o ho => ?_⟩
    cases o with
    | none => rfl
    | some e =>
      exfalso
      obtain ⟨j, hj⟩ := List.getElem?_of_mem ho
      have hjl : j < ws.length := by
        have := (List.getElem?_eq_some_iff.1 hj).1
        simpa using this
      rcases I.err2 j e (hs j hjl) (by rw [I.outs]; exact hj) with h | ⟨e', h⟩
      · rw [hne] at h; cases h
      · rw [hch] at h; cases h

/-- **C06 (schedule independence).** Run an element-wise operator in any state a program can reach, with any
number of processors and any schedule. If the operation returns a vector, then evaluating the elements one by
one in order succeeds too and the published vector reads exactly as that list. If it fails, the error is the
error of one of the elements, and no vector is published. All vectors published before read as before in both
cases, and the program can go on. -/
theorem C06_schedule_independent [Inhabited α] (safe : Bool) (procs minWork size n : Nat) (hp : 0 < procs)
    (hm : 0 < minWork) (g : Nat → Except ε α) (d : α) (es : List (Event α)) (w w' : World α) (res : Except ε Nat)
    (hw : EReach es w) (E : ElemOp safe procs minWork size n g d w w' res) :
    (∃ es', EReach es' w') ∧
    (∀ k, res = .ok k → ∃ l s, inOrder g n = .ok l ∧ w'.slices[k]? = some s ∧ Reads w'.h s l ∧
      w'.slices.length = w.slices.length + 1) ∧
    (∀ e, res = .error e → w'.slices.length = w.slices.length ∧ ∃ i, i < n ∧ g i = .error e) ∧
    (∀ (j : Nat) s l, w.slices[j]? = some s → Reads w.h s l → ∃ s', w'.slices[j]? = some s' ∧ Reads w'.h s' l) := by
  obtain ⟨⟨es', r'⟩, h⟩ := elemOp_sim hp hm hw E
  have I := (ereach_sim hw).1
  have I' := (ereach_sim r').1
  have get : ∀ (j : Nat) l, (abs w').slices[j]? = some l → ∃ s', w'.slices[j]? = some s' ∧ Reads w'.h s' l := by
    intro j l hj
    have hjl := (List.getElem?_eq_some_iff.1 hj).1
    rw [← abs_slices_length] at hjl
    exact ⟨_, List.getElem?_eq_getElem hjl, (shows_abs I').slices j _ l (List.getElem?_eq_getElem hjl) hj⟩
  have old : ∀ (j : Nat) s l, w.slices[j]? = some s → Reads w.h s l → (abs w).slices[j]? = some l := by
    intro j s l hj hr
    have h1 : (abs w).slices[j]? = some (contents w.h s) := by simp [abs, hj]
    rw [h1, reads_unique hr (reads_contents (I.slice s (List.mem_of_getElem? hj)).1)]
  refine ⟨⟨es', r'⟩, fun k hk => ?_, fun e he => ?_, fun j s l hj hr => ?_⟩
  · subst hk
    obtain ⟨l, hl, hk, hs⟩ := h
    have : (abs w').slices[k]? = some l := by
      rw [hs, hk, abs_slices_length]
      simp
    obtain ⟨s, h1, h2⟩ := get k l this
    refine ⟨l, s, hl, h1, h2, ?_⟩
    rw [abs_slices_length, hs, abs_slices_length]
    simp
  · subst he
    obtain ⟨hs, hi⟩ := h
    exact ⟨by rw [abs_slices_length, hs, abs_slices_length], hi⟩
  · have h1 := old j s l hj hr
    apply get
    cases res with
    | ok k =>
      obtain ⟨l', _, _, hs⟩ := h
      rw [hs, List.getElem?_append_left (List.getElem?_eq_some_iff.1 h1).1]
      exact h1
    | error e =>
      rw [h.1]
      exact h1

/-- **C06 (same outcome every time).** If every element evaluates, every schedule returns a vector, and any
two runs (different processors, schedules, thresholds) return vectors that read the same; if some element
fails, every run fails. -/
theorem C06_deterministic [Inhabited α] (safe safe2 : Bool) (procs procs2 minWork minWork2 size size2 n : Nat)
    (hp : 0 < procs) (hp2 : 0 < procs2) (hm : 0 < minWork) (hm2 : 0 < minWork2)
    (g : Nat → Except ε α) (d : α) (es : List (Event α)) (w w1 w2 : World α) (r1 r2 : Except ε Nat) (hw : EReach es w)
    (E1 : ElemOp safe procs minWork size n g d w w1 r1) (E2 : ElemOp safe2 procs2 minWork2 size2 n g d w w2 r2) :
    ((∃ k, r1 = .ok k) ↔ ∀ i, i < n → ∃ v, g i = .ok v) ∧
    (∀ k1 k2, r1 = .ok k1 → r2 = .ok k2 → k1 = k2 ∧ ∃ s1 s2 l, w1.slices[k1]? = some s1 ∧ w2.slices[k2]? = some s2 ∧
      Reads w1.h s1 l ∧ Reads w2.h s2 l) := by
  obtain ⟨_, a1, a2, _⟩ := C06_schedule_independent safe procs minWork size n hp hm g d es w w1 r1 hw E1
  obtain ⟨_, b1, _, _⟩ := C06_schedule_independent safe2 procs2 minWork2 size2 n hp2 hm2 g d es w w2 r2 hw E2
  refine ⟨⟨?_, ?_⟩, ?_⟩
  · rintro ⟨k, hk⟩ i hi
    obtain ⟨l, s, hl, _⟩ := a1 k hk
    obtain ⟨v, hv, _⟩ := (inOrder_ok.1 hl).2 i hi
    exact ⟨v, hv⟩
  · intro hall
    cases r1 with
    | ok k => exact ⟨k, rfl⟩
    | error e =>
      obtain ⟨_, i, hi, he⟩ := a2 e rfl
      obtain ⟨v, hv⟩ := hall i hi
      rw [he] at hv
      cases hv
  · intro k1 k2 h1 h2
    obtain ⟨l1, s1, hl1, hs1, hr1, _⟩ := a1 k1 h1
    obtain ⟨l2, s2, hl2, hs2, hr2, _⟩ := b1 k2 h2
    rw [hl1] at hl2
    cases hl2
    have e1 := (elemOp_sim hp hm hw E1).2
    have e2 := (elemOp_sim hp2 hm2 hw E2).2
    subst h1
    subst h2
    obtain ⟨_, _, hk1, _⟩ := e1
    obtain ⟨_, _, hk2, _⟩ := e2
    exact ⟨by omega, s1, s2, l1, hs1, hs2, hr1, hr2⟩

/-- **C06 (binary operators are scalar extension).** The elements `binaryVectorOp` combines exist, and
evaluating them in order is exactly the pointwise operation with one-element operands extended; unequal
lengths are the only refusal. -/
theorem C06_pointwise (f : α → β → Except ε γ) (xs : List α) (ys : List β) :
    match binaryPlan xs.length ys.length with
    | none => pointwise f xs ys = none
    | some (n, idx) =>
      (∀ k, k < n → (idx k).1 < xs.length ∧ (idx k).2 < ys.length) ∧
      ∀ g : Nat → Except ε γ, (∀ k x y, k < n → xs[(idx k).1]? = some x → ys[(idx k).2]? = some y → g k = f x y) →
        pointwise f xs ys = some (inOrder g n) := by
  have lift : ∀ {δ : Type} (l : List δ) (h : δ → Except ε γ) (g : Nat → Except ε γ),
      (∀ k x, l[k]? = some x → g k = h x) → l.mapM h = inOrder g l.length := by
    intro δ l h g hg
    unfold inOrder
    have : l.mapM h = (l.mapM' h) := by rw [List.mapM'_eq_mapM]
    rw [this, ← List.mapM'_eq_mapM]
    suffices H : ∀ (l : List δ) (s : Nat), (∀ k x, l[k]? = some x → g (s + k) = h x) →
        l.mapM' h = (List.range' s l.length).mapM' g by
      rw [List.range_eq_range']
      exact H l 0 (fun k x hx => by rw [Nat.zero_add]; exact hg k x hx)
    intro l
    induction l with
    | nil => intro s _; rfl
    | cons a l ih =>
      intro s hs
      simp only [List.length_cons, List.range'_succ, List.mapM']
      have h0 := hs 0 a rfl
      rw [Nat.add_zero] at h0
      rw [h0, ih (s + 1) (fun k x hx => by
        have := hs (k + 1) x (by simpa using hx)
        rw [← this]; congr 1; omega)]
  unfold binaryPlan
  by_cases h1 : xs.length = 1
  · rw [if_pos h1]
    obtain ⟨x, rfl⟩ := List.length_eq_one_iff.1 h1
    refine ⟨fun k hk => ⟨by simp, hk⟩, fun g hg => ?_⟩
    simp only [pointwise]
    rw [lift ys (f x) g (fun k y hy => hg k x y (List.getElem?_eq_some_iff.1 hy).1 rfl hy)]
  · rw [if_neg h1]
    by_cases h2 : ys.length = 1
    · rw [if_pos h2]
      obtain ⟨y, rfl⟩ := List.length_eq_one_iff.1 h2
      refine ⟨fun k hk => ⟨hk, by simp⟩, fun g hg => ?_⟩
      have : pointwise f xs [y] = some (xs.mapM (fun x => f x y)) := by
        unfold pointwise
        split
        · simp at h1
        · rename_i h; cases h; rfl
        · rename_i h; exact absurd rfl (h y)
      rw [this, lift xs (fun x => f x y) g (fun k x hx => hg k x y (List.getElem?_eq_some_iff.1 hx).1 hx rfl)]
    · rw [if_neg h2]
      have hp : pointwise f xs ys =
          if xs.length = ys.length then some ((xs.zip ys).mapM (fun p => f p.1 p.2)) else none := by
        unfold pointwise
        split
        · simp at h1
        · simp at h2
        · rfl
      by_cases h3 : xs.length = ys.length
      · rw [if_pos h3, hp, if_pos h3]
        refine ⟨fun k hk => ⟨hk, by simp only; omega⟩, fun g hg => ?_⟩
        have hz : (xs.zip ys).length = xs.length := by rw [List.length_zip]; omega
        rw [lift (xs.zip ys) (fun p => f p.1 p.2) g (fun k p hk => by
          rw [List.getElem?_zip_eq_some] at hk
          exact hg k p.1 p.2 (List.getElem?_eq_some_iff.1 hk.1).1 hk.1 hk.2), hz]
      · rw [if_neg h3]
        show pointwise f xs ys = none
        rw [hp, if_neg h3]

/-- Multi-element vectors, a one-element left operand, and a refusal; an error in the middle. -/
example :
    let div : Nat → Nat → Except String Nat := fun x y => if y = 0 then .error "division by zero" else .ok (x / y)
    pointwise div [10, 20, 30] [1, 2, 3] = some (.ok [10, 10, 10]) ∧
    pointwise div [12] [1, 2, 3] = some (.ok [12, 6, 4]) ∧
    pointwise div [10, 20, 30] [1, 0, 3] = some (.error "division by zero") ∧
    pointwise div [1, 2] [1, 2, 3] = none := by
  refine ⟨rfl, rfl, rfl, rfl⟩

/-! ### Running the goroutines, for examples and witnesses -/

/-- A scheduling decision. -/
inductive Move where
  | work (k : Nat)
  | send (k : Nat)
  | recv

/-- One move; a move that is not possible changes nothing. -/
def PCfg.move [Inhabited α] (p : PCfg α ε) : Move → PCfg α ε
  | .work k =>
    match p.c.ths[k]? with
    | none => p
    | some th =>
      match th.step p.c.st p.c.mu k with
      | .go st' mu' th' => { p with c := ⟨st', mu', p.c.ths.set k th'⟩ }
      | _ => p
  | .send k =>
    match p.c.ths[k]?, p.sent[k]?, p.outs[k]? with
    | some th, some false, some o =>
      match th.todo with
      | [] => { p with sent := p.sent.set k true, chan := p.chan ++ [o] }
      | _ => p
    | _, _, _ => p
  | .recv =>
    match p.chan with
    | [] => p
    | o :: rest =>
      if p.got < p.outs.length then
        { p with chan := rest, got := p.got + 1, err := keepErr o p.err }
      else p

/-- The moves one after the other. -/
def PCfg.exec [Inhabited α] (p : PCfg α ε) (ms : List Move) : PCfg α ε := ms.foldl PCfg.move p

theorem exec_prun [Inhabited α] (ms : List Move) : ∀ (n : Nat) (p0 p : PCfg α ε), PRun n p0 p → ∃ m, PRun m p0 (p.exec ms) := by
  induction ms with
  | nil => intro n p0 p r; exact ⟨n, r⟩
  | cons a ms ih =>
    intro n p0 p r
    have : ∃ m, PRun m p0 (p.move a) := by
      cases a with
      | work k =>
        unfold PCfg.move
        simp only
        split
        · exact ⟨n, r⟩
        · rename_i th hk
          split
          · rename_i st' mu' th' hs
            exact ⟨n + 1, r.snoc (.work (.go hk hs))⟩
          · exact ⟨n, r⟩
      | send k =>
        unfold PCfg.move
        simp only
        split
        · rename_i th o h1 h2 h3
          split
          · rename_i ht
            exact ⟨n + 1, r.snoc (.send h1 ht h2 h3)⟩
          · exact ⟨n, r⟩
        · exact ⟨n, r⟩
      | recv =>
        unfold PCfg.move
        simp only
        split
        · exact ⟨n, r⟩
        · rename_i o rest hch
          split
          · rename_i hg
            exact ⟨n + 1, r.snoc (.recv hch hg)⟩
          · exact ⟨n, r⟩
    obtain ⟨m, hm⟩ := this
    exact ih m p0 _ hm

/-- Objects of the example below. -/
def Ex.g : Nat → Except String Nat := fun k => .ok (k * k)
/-- The editor of the example. -/
def Ex.e : World Nat := newEditor World.init 24 0
/-- Its transient. -/
def Ex.t : Trans := Ex.e.trans[0]?.getD Trans.zero
/-- The goroutines of the example at the start. -/
def Ex.p0 : PCfg Nat String := PCfg.start ⟨Ex.e.h, Ex.t⟩ (mkWorkers Ex.g (tiles 2 10 1 24))
/-- An interleaved schedule. -/
def Ex.ms : List Move := (List.replicate 160 [Move.work 1, .work 0]).flatten ++ [.send 1, .recv, .send 0, .recv]
/-- The world after the loop. -/
def Ex.w1 : World Nat :=
  { Ex.e with h := (Ex.p0.exec Ex.ms).c.st.h, trans := Ex.e.trans.set 0 (Ex.p0.exec Ex.ms).c.st.t }

/-- An element-wise operation on 24 elements really split between two goroutines (threshold 10): a successful
run publishing 24 squares. -/
example : ∃ w', EReach [] (World.init (α := Nat)) ∧ ElemOp true 2 10 1 24 Ex.g 0 World.init w' (.ok 0) ∧
    w'.slices.map (fun s => s.at w'.h 23) = [some 529] := by
  obtain ⟨m, hm⟩ := exec_prun Ex.ms 0 Ex.p0 Ex.p0 .refl
  refine ⟨Ex.w1.run [.persist 0], .init, ?_, by decide +kernel⟩
  have hs : Ex.w1.slices.length = 0 := by decide +kernel
  have key : ∀ p, PRun m Ex.p0 p → p.returned → p.err = none → ∀ w1 : World Nat,
      w1 = { Ex.e with h := p.c.st.h, trans := Ex.e.trans.set 0 p.c.st.t } →
      ElemOp true 2 10 1 24 Ex.g 0 World.init (w1.run [.persist 0]) (.ok w1.slices.length) := by
    intro p h1 h2 h3 w1 h4
    refine ElemOp.parOk (t := Ex.t) (m := m) (p := p) (w1 := w1) (by decide) ?_ h1 h2 h3 h4
    show Ex.e.trans[0]? = some (Ex.e.trans[0]?.getD Trans.zero)
    have : Ex.e.trans.length = 1 := by decide +kernel
    rw [List.getElem?_eq_getElem (by omega)]; rfl
  have k2 := key (Ex.p0.exec Ex.ms) hm ?_ ?_ Ex.w1 rfl
  · rw [hs] at k2
    exact k2
  · unfold PCfg.returned
    decide +kernel
  · have h : (Ex.p0.exec Ex.ms).err.isSome = false := by decide +kernel
    cases he : (Ex.p0.exec Ex.ms).err with
    | none => rfl
    | some x => rw [he] at h; cases h

/-- **C07 (distinct cells).** Let an indexed assignment store `n` groups of `copySize` elements into a variable
of any reachable state, under any schedule. If positions handled by different goroutines never denote the same
group, in particular if no group is denoted twice, the variable ends up exactly as after storing them one
after the other in order: the last position that denotes a cell decides it, and cells that no position denotes
are unchanged. Nothing published changes. -/
theorem C07_assignment_deterministic_partial [Inhabited α] (procs minWork copySize n : Nat) (hp : 0 < procs) (hm : 0 < minWork)
    (offs : Nat → Nat) (val : Nat → α) (k : Nat) (es : List (Event α)) (w w' : World α) (hw : EReach es w) (t : Trans)
    (l : List α) (ht : w.trans[k]? = some t) (hl : ReadsT w.h t l)
    (hin : ∀ i, i < n → (offs i + 1) * copySize ≤ l.length)
    (hd : ∀ (a b : Nat) (r r' : Nat × Nat), a ≠ b → (ranges true procs minWork copySize n)[a]? = some r →
      (ranges true procs minWork copySize n)[b]? = some r' →
      ∀ i j, r.1 ≤ i → i < r.2 → r'.1 ≤ j → j < r'.2 → offs i ≠ offs j)
    (A : AssignOp procs minWork copySize n offs val k w w') :
    ∃ t' l', w'.trans[k]? = some t' ∧ ReadsT w'.h t' l' ∧ l'.length = l.length ∧
      (∀ i j, i < n → j < copySize → (∀ i', i < i' → i' < n → offs i' ≠ offs i) →
        l'[offs i * copySize + j]? = some (val (j + i * copySize))) ∧
      (∀ q, (∀ i, i < n → q / copySize ≠ offs i) → l'[q]? = l[q]?) ∧
      (∀ (j : Nat) s l0, w.slices[j]? = some s → Reads w.h s l0 → ∃ s', w'.slices[j]? = some s' ∧ Reads w'.h s' l0) := by
  have I := (ereach_sim hw).1
  have hl0 : (abs w).trans[k]? = some l := by
    have h1 : (abs w).trans[k]? = some (contents w.h t.s) := by simp [abs, ht]
    have hl2 : t.len = t.s.len := trans_len I ht
    rw [h1, reads_unique (h := w.h) (s := t.s) ⟨by rw [← hl2]; exact hl.1, hl.2⟩ (reads_contents (I.tr k t ht).readable)]
  have hd' : parallel true procs minWork copySize n = true → ∀ (a b : Nat) (r r' : Nat × Nat), a ≠ b →
      (tiles procs minWork copySize n)[a]? = some r → (tiles procs minWork copySize n)[b]? = some r' →
      ∀ i j, r.1 ≤ i → i < r.2 → r'.1 ≤ j → j < r'.2 → offs i ≠ offs j := by
    intro hpp a b r r' hab ha hb
    have hrr : ranges true procs minWork copySize n = tiles procs minWork copySize n := by unfold ranges; rw [if_pos hpp]
    exact hd a b r r' hab (by rw [hrr]; exact ha) (by rw [hrr]; exact hb)
  obtain ⟨⟨es', r'⟩, ha⟩ := assignOp_sim hp hm hw hl0 hin hd' A
  have I' := (ereach_sim r').1
  have S' := shows_abs I'
  have hk := (List.getElem?_eq_some_iff.1 hl0).1
  have hl1 : (abs w').trans[k]? = some (setAll l (rangeCalls copySize offs val (0, n))) := by rw [ha]; simp [hk]
  have hk' : k < w'.trans.length := by
    have := (List.getElem?_eq_some_iff.1 hl1).1
    rw [← S'.ntrans] at this
    exact this
  refine ⟨w'.trans[k], _, List.getElem?_eq_getElem hk', S'.trans k _ _ (List.getElem?_eq_getElem hk') hl1, setAll_length _ _,
    fun i j hi hj hlast => ?_, fun q hq => ?_, fun j s l0 hj hr => ?_⟩
  · refine setAll_assign i j hi hj hlast ?_
    have := hin i hi
    rw [Nat.add_mul] at this
    omega
  · refine setAll_untouched (fun c hc e => ?_)
    obtain ⟨i, _, h2, h3⟩ := rangeCalls_mem hc
    refine hq i h2 ?_
    rw [← e]
    exact (cellCalls_mem h3).1
  · have h1 : (abs w').slices[j]? = some l0 := by
      have h2 : (abs w).slices[j]? = some (contents w.h s) := by simp [abs, hj]
      rw [ha]
      show (abs w).slices[j]? = some l0
      rw [h2, reads_unique hr (reads_contents (I.slice s (List.mem_of_getElem? hj)).1)]
    have hjl := (List.getElem?_eq_some_iff.1 h1).1
    rw [← abs_slices_length] at hjl
    exact ⟨_, List.getElem?_eq_getElem hjl, S'.slices j _ l0 (List.getElem?_eq_getElem hjl) h1⟩

/-- The hypotheses are met by a reversal of 40 elements split over two goroutines. -/
example : ranges true 2 20 1 40 = [(0, 20), (20, 40)] ∧ ∀ i j, i < 20 → 20 ≤ j → j < 40 → (39 - i) ≠ 39 - j :=
  ⟨by decide, fun i j h1 h2 h3 => by omega⟩

/-- Objects of the witness below: a variable holding a one-element vector. -/
def Ex.w : World Nat := World.init.run [.newTrans, .append 0 [7]]
/-- Its editor. -/
def Ex.u : Trans := Ex.w.trans[0]?.getD Trans.zero
/-- The goroutines at the start. -/
def Ex.q0 : PCfg Nat Empty := PCfg.start ⟨Ex.w.h, Ex.u⟩
    ((tiles 4 100 1 200).map (fun r => (rangeCalls 1 (fun _ => 0) (fun q => q + 1) r, none)))
/-- First goroutine `a`, then `b`. -/
def Ex.sched (a b : Nat) : List Move :=
  List.replicate 300 (.work a) ++ List.replicate 300 (.work b) ++ [.send 0, .send 1, .recv, .recv]

/-- **C07 is violated by repeated indexes.** On four processors, `x[200 rho 1] = iota 200` for a one-element
vector `x` leaves the last value 200 under one schedule and the value 100 under another. -/
theorem C07_repeated_indexes_race :
    ∃ (es : List (Event Nat)) (w w1 w2 : World Nat), EReach es w ∧
      AssignOp 4 100 1 200 (fun _ => 0) (fun q => q + 1) 0 w w1 ∧
      AssignOp 4 100 1 200 (fun _ => 0) (fun q => q + 1) 0 w w2 ∧
      w1.trans.map (fun t => t.at w1.h 0) = [some 200] ∧
      w2.trans.map (fun t => t.at w2.h 0) = [some 100] := by
  obtain ⟨es, hes⟩ := ereach_run (α := Nat) .init [.newTrans, .append 0 [7]]
  have ht : Ex.w.trans[0]? = some Ex.u := by
    have : Ex.w.trans.length = 1 := by decide +kernel
    show Ex.w.trans[0]? = some (Ex.w.trans[0]?.getD Trans.zero)
    rw [List.getElem?_eq_getElem (by omega)]; rfl
  obtain ⟨m1, h1⟩ := exec_prun (Ex.sched 0 1) 0 Ex.q0 Ex.q0 .refl
  obtain ⟨m2, h2⟩ := exec_prun (Ex.sched 1 0) 0 Ex.q0 Ex.q0 .refl
  refine ⟨es, Ex.w, _, _, hes, .par (by decide) ht h1 ?_, .par (by decide) ht h2 ?_, ?_, ?_⟩
  · unfold PCfg.returned
    decide +kernel
  · unfold PCfg.returned
    decide +kernel
  · decide +kernel
  · decide +kernel

end Verif.Par
