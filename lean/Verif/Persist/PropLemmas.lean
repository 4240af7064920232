import Verif.Persist.Yield
/-
Helper lemmas for the property theorems on persistent slices.
-/
namespace Verif.Persist
variable {α : Type} [Inhabited α]
set_option linter.unusedSectionVars false

theorem spec_step_slices {a a' : Spec.World α} {op : Op α} (s : Spec.Step a op a') {k : Nat} {l : List α}
    (h : a.slices[k]? = some l) : a'.slices[k]? = some l := by
  have hk : k < a.slices.length := by
    by_cases hk : k < a.slices.length
    · exact hk
    · rw [List.getElem?_eq_none (by omega)] at h; cases h
  cases s <;> first
    | exact h
    | (show (a.slices ++ _)[k]? = _
       rw [List.getElem?_append_left hk, h])

theorem spec_run_slices {a a' : Spec.World α} {ops : List (Op α)} (r : Spec.Run a ops a') {k : Nat} {l : List α}
    (h : a.slices[k]? = some l) : a'.slices[k]? = some l := by
  induction r with
  | nil => exact h
  | step s _ ih => exact ih (spec_step_slices s h)
  | refuse _ _ ih => exact ih h

theorem spec_step_trans {a a' : Spec.World α} {op : Op α} (s : Spec.Step a op a') {k : Nat} {l : List α}
    (hn : op.on ≠ some k ∨ ∃ j, op = .persist j) (h : a.trans[k]? = some l) : a'.trans[k]? = some l := by
  have hk : k < a.trans.length := by
    by_cases hk : k < a.trans.length
    · exact hk
    · rw [List.getElem?_eq_none (by omega)] at h; cases h
  have key : ∀ (j : Nat) (l' : List α), j ≠ k → (a.trans.set j l')[k]? = some l := by
    intro j l' hj
    rw [List.getElem?_set, if_neg hj, h]
  cases s with
  | newSlice => exact h
  | persist => exact h
  | newTrans =>
    show (a.trans ++ _)[k]? = _
    rw [List.getElem?_append_left hk, h]
  | transient =>
    show (a.trans ++ _)[k]? = _
    rw [List.getElem?_append_left hk, h]
  | set =>
    rcases hn with hn | ⟨j, hn⟩
    · exact key _ _ (fun e => hn (by rw [← e]; rfl))
    · cases hn
  | append =>
    rcases hn with hn | ⟨j, hn⟩
    · exact key _ _ (fun e => hn (by rw [← e]; rfl))
    · cases hn
  | resize =>
    rcases hn with hn | ⟨j, hn⟩
    · exact key _ _ (fun e => hn (by rw [← e]; rfl))
    · cases hn

theorem step_slices {w w' : World α} {op : Op α} (h : w.step op = some w') {k : Nat} {s : Slice}
    (hs : w.slices[k]? = some s) : w'.slices[k]? = some s := by
  have hk : k < w.slices.length := by
    by_cases hk : k < w.slices.length
    · exact hk
    · rw [List.getElem?_eq_none (by omega)] at hs; cases hs
  have key : ∀ (f : St α → Option (St α)) (j : Nat), w.onTrans j f = some w' → w'.slices[k]? = some s := by
    intro f j e
    simp only [World.onTrans, Option.bind_eq_bind, Option.bind_eq_some_iff] at e
    obtain ⟨t, _, st, _, e⟩ := e
    cases e
    exact hs
  cases op with
  | newSlice =>
    cases h
    show (w.slices ++ _)[k]? = _
    rw [List.getElem?_append_left hk, hs]
  | newTrans => cases h; exact hs
  | transient j =>
    simp only [World.step, Option.bind_eq_bind, Option.bind_eq_some_iff] at h
    obtain ⟨t, _, e⟩ := h
    cases e
    exact hs
  | persist j =>
    simp only [World.step, Option.bind_eq_bind, Option.bind_eq_some_iff] at h
    obtain ⟨t, _, e⟩ := h
    cases e
    show (w.slices ++ _)[k]? = _
    rw [List.getElem?_append_left hk, hs]
  | set j i x => exact key (fun st => st.set i x) j h
  | append j i => exact key (fun st => st.append i) j h
  | resize j i => exact key (fun st => st.resize i) j h

theorem run_slices (ops : List (Op α)) : ∀ {w : World α} {k : Nat} {s : Slice}, w.slices[k]? = some s →
    (w.run ops).slices[k]? = some s := by
  induction ops with
  | nil => intro w k s h; exact h
  | cons op ops ih =>
    intro w k s h
    show (((w.step op).getD w).run ops).slices[k]? = _
    apply ih
    cases e : w.step op with
    | none => exact h
    | some w' => exact step_slices e h

theorem run_append (w : World α) (ops1 ops2 : List (Op α)) : w.run (ops1 ++ ops2) = (w.run ops1).run ops2 := by
  induction ops1 generalizing w with
  | nil => rfl
  | cons op ops ih => exact ih _

theorem wi_run (ops : List (Op α)) : WI (World.init.run ops) := (run_sim ops wi_init).1

theorem trans_len {w : World α} (I : WI w) {k : Nat} {t : Trans} (ht : w.trans[k]? = some t) : t.len = t.s.len := by
  have h2 := (I.tr k t ht).tl
  simp only [Trans.len, Slice.len] at *
  omega

theorem callable_legal {w : World α} (I : WI w) (op : Op α) : Callable w op ↔ Spec.Legal (abs w) op := by
  cases op with
  | newSlice => exact Iff.rfl
  | newTrans => exact Iff.rfl
  | transient k => simp [Callable, Spec.Legal, abs]
  | persist k => simp [Callable, Spec.Legal, abs]
  | append k xs => simp [Callable, Spec.Legal, abs]
  | resize k n => simp [Callable, Spec.Legal, abs]
  | set k i x =>
    constructor
    · rintro ⟨t, ht, h0, h1⟩
      refine ⟨contents w.h t.s, by simp [abs, ht], h0, ?_⟩
      rw [contents_length]
      rw [trans_len I ht] at h1
      exact h1
    · rintro ⟨l, hl, h0, h1⟩
      cases ht : w.trans[k]? with
      | none => simp [abs, ht] at hl
      | some t =>
        simp only [abs, List.getElem?_map, ht, Option.map_some, Option.some.injEq] at hl
        subst hl
        rw [contents_length, ← trans_len I ht] at h1
        exact ⟨t, ht, h0, h1⟩

theorem slice_of_reads {h h' : Heap α} {s : Slice} (r : Readable h s) (r' : Readable h' s)
    (e : contents h s = contents h' s) (i j : Int) : s.slice h i j = s.slice h' i j := by
  rw [slice_spec r, slice_spec r', e]

end Verif.Persist
