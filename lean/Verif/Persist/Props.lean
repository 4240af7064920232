import Verif.Persist.PropLemmas
/-
Properties C01-C03: persistent slices (value/persist/slice.go).

The specification is `Verif/Persist/Spec.lean` (plain lists); the model is `Verif/Persist/Model.lean`.
`World.init.run ops` is the state after an arbitrary history of calls; calls that panic change nothing.
-/
namespace Verif.Persist
variable {α : Type} [Inhabited α]

/-- **C01.** A slice that exists at some point of a history reads the same, at every index, over every
sub-range, and with the same length, after any later history on anything. -/
theorem C01_published_slices_never_change (before after : List (Op α)) (k : Nat) (s : Slice)
    (hs : (World.init.run before).slices[k]? = some s) :
    let w := World.init.run before
    let w' := World.init.run (before ++ after)
    w'.slices[k]? = some s ∧ (∀ i, s.at w'.h i = s.at w.h i) ∧ (∀ i j, s.slice w'.h i j = s.slice w.h i j) ∧
      (∀ l, Reads w.h s l → Reads w'.h s l) := by
  intro w w'
  have I := wi_run (α := α) before
  have I' := wi_run (α := α) (before ++ after)
  have e : w' = w.run after := run_append _ _ _
  have hs' : w'.slices[k]? = some s := by rw [e]; exact run_slices after hs
  have h1 : (abs w).slices[k]? = some (contents w.h s) := by simp [abs, w, hs]
  have h2 := spec_run_slices (run_sim after I).2 h1
  rw [← e] at h2
  have h3 : (abs w').slices[k]? = some (contents w'.h s) := by simp [abs, hs']
  have h4 : contents w'.h s = contents w.h s := by
    rw [h2] at h3
    exact (Option.some.inj h3).symm
  have r := (I.slice s (List.mem_of_getElem? hs)).1
  have r' := (I'.slice s (List.mem_of_getElem? hs')).1
  have hat : ∀ i, s.at w'.h i = s.at w.h i := by
    intro i
    have c1 := (reads_contents r).2 i
    have c2 := (reads_contents r').2 i
    rw [h4] at c2
    rw [c2, c1]
  exact ⟨hs', hat, fun i j => slice_of_reads r' r h4 i j, fun l hl => ⟨hl.1, fun i => (hat i).trans (hl.2 i)⟩⟩

/-- A slice of 20 elements is published, edited through two transients and republished; the first slice
still reads its original elements. -/
example :
    let before : List (Op Nat) := [.newTrans, .append 0 (List.range 20), .persist 0]
    let after : List (Op Nat) := [.set 0 3 99, .set 0 18 98, .append 0 [7, 8], .persist 0, .transient 0, .set 1 3 55, .resize 0 2]
    let w := World.init.run before
    let w' := World.init.run (before ++ after)
    (w.slices[0]?.map (fun s => (s.len, s.at w.h 3, s.at w.h 18))) = some (20, some 3, some 18) ∧
    (w'.slices[0]?.map (fun s => (s.len, s.at w'.h 3, s.at w'.h 18))) = some (20, some 3, some 18) ∧
    (w'.slices[1]?.map (fun s => (s.len, s.at w'.h 3, s.at w'.h 18))) = some (22, some 99, some 98) ∧
    (w'.trans[1]?.map (fun t => (t.len, t.at w'.h 3, t.at w'.h 18))) = some (20, some 55, some 18) := by
  decide +kernel

/-- **C01 (transients).** A call made on anything else does not change what a transient shows. -/
theorem C01_transients_do_not_interfere (before : List (Op α)) (op : Op α) (k : Nat) (t : Trans)
    (ht : (World.init.run before).trans[k]? = some t) (hop : op.on ≠ some k) :
    let w := World.init.run before
    let w' := World.init.run (before ++ [op])
    ∃ t', w'.trans[k]? = some t' ∧ t'.len = t.len ∧ ∀ i, t'.at w'.h i = t.at w.h i := by
  intro w w'
  have I := wi_run (α := α) before
  have I' := wi_run (α := α) (before ++ [op])
  have e : w' = (w.step op).getD w := run_append _ _ _
  by_cases hl : Spec.Legal (abs w) op
  · obtain ⟨w1, e1, _, s⟩ := step_sim I op hl
    have e2 : w' = w1 := by rw [e, e1]; rfl
    have h1 : (abs w).trans[k]? = some (contents w.h t.s) := by simp [abs, w, ht]
    have h2 := spec_step_trans s (.inl hop) h1
    rw [← e2] at h2
    cases ht' : w'.trans[k]? with
    | none => simp [abs, ht'] at h2
    | some t' =>
      simp only [abs, List.getElem?_map, ht', Option.map_some, Option.some.injEq] at h2
      have r := (I.tr k t ht).readable
      have r' := (I'.tr k t' ht').readable
      refine ⟨t', rfl, ?_, fun i => ?_⟩
      · rw [trans_len I' ht', trans_len I ht]
        have := congrArg List.length h2
        rw [contents_length, contents_length] at this
        exact this
      · have c1 := (reads_contents r).2 i
        have c2 := (reads_contents r').2 i
        have h2' : contents w'.h t'.s = contents w.h t.s := h2
        rw [h2'] at c2
        exact c2.trans c1.symm
  · have e1 := step_refuse I op hl
    have e2 : w' = w := by rw [e, e1]; rfl
    rw [e2]
    exact ⟨t, ht, rfl, fun _ => rfl⟩

example :
    let before : List (Op Nat) := [.newTrans, .append 0 (List.range 40), .persist 0, .transient 0]
    let w := World.init.run before
    let w' := World.init.run (before ++ [.set 1 5 77])
    (Op.set 1 5 77 : Op Nat).on ≠ some 0 ∧
    (w.trans[0]?.map (fun t => t.at w.h 5)) = some (some 5) ∧
    (w'.trans[0]?.map (fun t => t.at w'.h 5)) = some (some 5) ∧
    (w'.trans[1]?.map (fun t => t.at w'.h 5)) = some (some 77) := by
  decide +kernel

/-- **C02.** Every history behaves as one on plain lists: there is a run of the list specification, with the
same calls, whose lists are exactly what every slice and every transient shows through `Len` and `At`. -/
theorem C02_behaves_as_lists (ops : List (Op α)) :
    ∃ a, Spec.Run ⟨[], []⟩ ops a ∧ Shows (World.init.run ops) a := by
  obtain ⟨I, r⟩ := run_sim ops (wi_init (α := α))
  exact ⟨_, r, shows_abs I⟩

example :
    let w := World.init.run ([.newTrans, .append 0 (List.range 300), .set 0 256 1000, .resize 0 257] : List (Op Nat))
    (w.trans[0]?.map (fun t => (t.len, t.at w.h 0, t.at w.h 255, t.at w.h 256, t.at w.h 257))) =
      some (257, some 0, some 255, some 1000, none) := by
  decide +kernel

/-- **C02 (one call).** In every reachable state, if the lists shown are `a`, then a legal call shows the
lists of one specification step, and an illegal one panics. -/
theorem C02_each_call_is_a_list_step (before : List (Op α)) (op : Op α) (a : Spec.World α)
    (ha : Shows (World.init.run before) a) :
    (Spec.Legal a op → ∃ w' a', (World.init.run before).step op = some w' ∧ Spec.Step a op a' ∧ Shows w' a') ∧
    (¬ Spec.Legal a op → (World.init.run before).step op = none) := by
  have I := wi_run (α := α) before
  have e := shows_unique I ha
  subst e
  constructor
  · intro hl
    obtain ⟨w', e1, I', s⟩ := step_sim I op hl
    exact ⟨w', _, e1, s, shows_abs I'⟩
  · exact step_refuse I op

/-- Iteration: `Slice(i, j)` yields exactly the elements `i … j-1`, in order, and panics for bad bounds. -/
theorem C02_iteration (ops : List (Op α)) (k : Nat) (s : Slice) (l : List α)
    (hs : (World.init.run ops).slices[k]? = some s) (hl : Reads (World.init.run ops).h s l) (i j : Int) :
    s.slice (World.init.run ops).h i j =
      if 0 ≤ i ∧ i ≤ j ∧ j ≤ l.length then some ((l.drop i.toNat).take (j.toNat - i.toNat)) else none := by
  have I := wi_run (α := α) ops
  have r := (I.slice s (List.mem_of_getElem? hs)).1
  have e := reads_unique hl (reads_contents r)
  rw [slice_spec r, e, contents_length]

example :
    let w := World.init.run ([.newTrans, .append 0 (List.range 40), .persist 0] : List (Op Nat))
    (w.slices[0]?.map (fun s => (s.slice w.h 14 18, s.slice w.h 30 34, s.slice w.h 30 41))) =
      some (some [14, 15, 16, 17], some [30, 31, 32, 33], none) := by
  decide +kernel

/-- **C03.** No history reaches an internal failure: every allowed call succeeds, every index below the
length can be read on every slice and transient, and every sub-range can be iterated. -/
theorem C03_never_fails_internally (ops : List (Op α)) :
    let w := World.init.run ops
    (∀ op, Callable w op → (w.step op).isSome) ∧
    (∀ s, s ∈ w.slices → ∀ i : Int, 0 ≤ i → i < s.len → (s.at w.h i).isSome) ∧
    (∀ t, t ∈ w.trans → ∀ i : Int, 0 ≤ i → i < t.len → (t.at w.h i).isSome) ∧
    (∀ s, s ∈ w.slices → ∀ i j : Int, 0 ≤ i → i ≤ j → j ≤ s.len → (s.slice w.h i j).isSome) ∧
    (∀ t, t ∈ w.trans → ∀ i j : Int, 0 ≤ i → i ≤ j → j ≤ t.len → (t.s.slice w.h i j).isSome) := by
  intro w
  have I := wi_run (α := α) ops
  refine ⟨fun op h => ?_, fun s hs i h0 h1 => ?_, fun t ht i h0 h1 => ?_, fun s hs i j h0 h1 h2 => ?_,
    fun t ht i j h0 h1 h2 => ?_⟩
  · obtain ⟨w', e, _, _⟩ := step_sim I op ((callable_legal I op).1 h)
    rw [e]
    rfl
  · rw [at_spec (I.slice s hs).1, if_pos ⟨h0, h1⟩]
    rfl
  · obtain ⟨k, hk⟩ := List.getElem?_of_mem ht
    unfold Trans.at
    rw [at_spec (I.tr k t hk).readable, if_pos ⟨h0, by rw [← trans_len I hk]; exact h1⟩]
    rfl
  · rw [slice_spec (I.slice s hs).1, if_pos ⟨h0, h1, h2⟩]
    rfl
  · obtain ⟨k, hk⟩ := List.getElem?_of_mem ht
    rw [slice_spec (I.tr k t hk).readable, if_pos ⟨h0, h1, by rw [← trans_len I hk]; exact h2⟩]
    rfl

/-- **C03 (shape of the representation).** The stored height is the one computed from the length and the
tail never exceeds a chunk. -/
theorem C03_height_and_tail (ops : List (Op α)) (s : Slice)
    (hs : s ∈ (World.init.run ops).slices ∨ ∃ t, t ∈ (World.init.run ops).trans ∧ t.s = s) :
    s.height = height s.tlen ∧ s.tlen % 16 = 0 ∧ s.tail.len ≤ 16 ∧ s.tlen ≤ 16 ^ s.height := by
  have I := wi_run (α := α) ops
  have r : Readable (World.init.run ops).h s := by
    rcases hs with hs | ⟨t, ht, rfl⟩
    · exact (I.slice s hs).1
    · obtain ⟨k, hk⟩ := List.getElem?_of_mem ht
      exact (I.tr k t hk).readable
  refine ⟨r.shape.height, r.shape.mod, r.len, ?_⟩
  rw [r.shape.height]
  exact le_pow_height _

example :
    let w := World.init.run ([.newTrans, .append 0 (List.range 300), .resize 0 20, .resize 0 40] : List (Op Nat))
    Callable w (.set 0 39 5) ∧ ¬ Callable w (.set 0 40 5) ∧ (w.step (.set 0 39 5)).isSome ∧
      (w.step (.set 0 40 5)).isNone ∧ (w.trans[0]?.map (fun t => (t.s.height, t.s.tail.len))) = some (2, 8) := by
  intro w
  have hl : w.trans[0]?.map (fun t => t.len) = some 40 := by decide +kernel
  refine ⟨?_, ?_, by decide +kernel⟩
  · cases ht : w.trans[0]? with
    | none => rw [ht] at hl; cases hl
    | some t =>
      rw [ht] at hl
      have : t.len = 40 := Option.some.inj hl
      exact ⟨t, ht, by omega, by omega⟩
  · rintro ⟨t, ht, _, h⟩
    rw [ht] at hl
    have : t.len = 40 := Option.some.inj hl
    omega

end Verif.Persist
