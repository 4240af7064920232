import Verif.Par.Assign
import Verif.Par.Lemmas
/-
Helper lemmas for the store loop of an indexed assignment.
-/
namespace Verif.Par
open Verif.Persist
variable {α : Type} [Inhabited α]
set_option linter.unusedSectionVars false

theorem cellCalls_mem {copySize : Nat} {offs : Nat → Nat} {val : Nat → α} {i : Nat} {c : Nat × α}
    (h : c ∈ cellCalls copySize offs val i) : c.1 / copySize = offs i ∧ ∃ j, j < copySize ∧ c = (offs i * copySize + j, val (j + i * copySize)) := by
  simp only [cellCalls, List.mem_map, List.mem_range] at h
  obtain ⟨j, hj, rfl⟩ := h
  refine ⟨?_, j, hj, rfl⟩
  show (offs i * copySize + j) / copySize = offs i
  rw [Nat.mul_comm, Nat.mul_add_div (by omega), Nat.div_eq_of_lt hj, Nat.add_zero]

theorem rangeCalls_mem {copySize : Nat} {offs : Nat → Nat} {val : Nat → α} {r : Nat × Nat} {c : Nat × α}
    (h : c ∈ rangeCalls copySize offs val r) : ∃ i, r.1 ≤ i ∧ i < r.2 ∧ c ∈ cellCalls copySize offs val i := by
  simp only [rangeCalls, List.mem_flatMap, List.mem_range'_1] at h
  obtain ⟨i, ⟨h1, h2⟩, h3⟩ := h
  exact ⟨i, h1, by omega, h3⟩

theorem range_join {copySize : Nat} {offs : Nat → Nat} {val : Nat → α} (rs : List (Nat × Nat)) :
    (rs.map (rangeCalls copySize offs val)).flatten =
      (rs.flatMap (fun r => List.range' r.1 (r.2 - r.1))).flatMap (cellCalls copySize offs val) := by
  induction rs with
  | nil => rfl
  | cons r rs ih =>
    simp only [List.map_cons, List.flatten_cons, ih, List.flatMap_cons, List.flatMap_append]
    rfl

theorem tiles_flatten {procs minWork copySize n : Nat} (hp0 : 0 < procs) (hw0 : 0 < minWork)
    (hp : parallel true procs minWork copySize n = true) (offs : Nat → Nat) (val : Nat → α) :
    ((tiles procs minWork copySize n).map (rangeCalls copySize offs val)).flatten = rangeCalls copySize offs val (0, n) := by
  have hrr : ranges true procs minWork copySize n = tiles procs minWork copySize n := by unfold ranges; rw [if_pos hp]
  rw [range_join, ← hrr, ranges_flat hp0 hw0]
  simp [rangeCalls, List.range_eq_range']

theorem assign_disjoint {procs minWork copySize n : Nat} {offs : Nat → Nat} (val : Nat → α)
    (h : ∀ (a b : Nat) (r r' : Nat × Nat), a ≠ b → (tiles procs minWork copySize n)[a]? = some r →
      (tiles procs minWork copySize n)[b]? = some r' →
      ∀ i j, r.1 ≤ i → i < r.2 → r'.1 ≤ j → j < r'.2 → offs i ≠ offs j) :
    Disjoint ((tiles procs minWork copySize n).map (rangeCalls copySize offs val)) := by
  intro k k' l l' hne h1 h2 a ha b hb hab
  simp only [List.getElem?_map, Option.map_eq_some_iff] at h1 h2
  obtain ⟨r, hr, rfl⟩ := h1
  obtain ⟨r', hr', rfl⟩ := h2
  obtain ⟨i, hi1, hi2, hi3⟩ := rangeCalls_mem ha
  obtain ⟨j, hj1, hj2, hj3⟩ := rangeCalls_mem hb
  refine h k k' r r' hne hr hr' i j hi1 hi2 hj1 hj2 ?_
  rw [← (cellCalls_mem hi3).1, ← (cellCalls_mem hj3).1, hab]

theorem rangeCalls_inRange {copySize n len : Nat} {offs : Nat → Nat} (val : Nat → α)
    (h : ∀ i, i < n → (offs i + 1) * copySize ≤ len) {r : Nat × Nat} (hr : r.2 ≤ n) :
    ∀ c ∈ rangeCalls copySize offs val r, c.1 < len := by
  intro c hc
  obtain ⟨i, hi1, hi2, hi3⟩ := rangeCalls_mem hc
  obtain ⟨_, j, hj, rfl⟩ := cellCalls_mem hi3
  have := h i (by omega)
  rw [Nat.add_mul] at this
  simp only
  omega

/-- The store loop on lists: under every schedule as one loop from first to last. -/
theorem assignOp_sim {procs minWork copySize n : Nat} (hp0 : 0 < procs) (hw0 : 0 < minWork) {offs : Nat → Nat}
    {val : Nat → α} {k : Nat} {es : List (Event α)} {w w' : World α} (hw : EReach es w) {l : List α}
    (hl : (abs w).trans[k]? = some l) (hin : ∀ i, i < n → (offs i + 1) * copySize ≤ l.length)
    (hd : parallel true procs minWork copySize n = true →
      ∀ (a b : Nat) (r r' : Nat × Nat), a ≠ b → (tiles procs minWork copySize n)[a]? = some r →
      (tiles procs minWork copySize n)[b]? = some r' →
      ∀ i j, r.1 ≤ i → i < r.2 → r'.1 ≤ j → j < r'.2 → offs i ≠ offs j)
    (A : AssignOp procs minWork copySize n offs val k w w') :
    (∃ es', EReach es' w') ∧
    abs w' = { abs w with trans := (abs w).trans.set k (setAll l (rangeCalls copySize offs val (0, n))) } := by
  have I := (ereach_sim hw).1
  cases A with
  | seq hp => exact ⟨ereach_run hw _, run_sets I hl _ (rangeCalls_inRange val hin (Nat.le_refl n))⟩
  | @par t m p hp ht r hr =>
    have PIp := pi_run r
    obtain ⟨q, hq, _⟩ := PIp.run
    have hf := (pi_returned PIp hr).1
    have hrr : ranges true procs minWork copySize n = tiles procs minWork copySize n := by unfold ranges; rw [if_pos hp]
    have hmm : ((tiles procs minWork copySize n).map
        (fun r => ((rangeCalls copySize offs val r, none) : List (Nat × α) × Option Empty))).map (·.1) =
        (tiles procs minWork copySize n).map (rangeCalls copySize offs val) := by
      rw [List.map_map]; rfl
    rw [hmm] at hq
    have htl : t.len = l.length := by
      have h2 := trans_len I ht
      have h3 : (abs w).trans[k]? = some (contents w.h t.s) := by simp [abs, ht]
      rw [hl] at h3
      have h4 := contents_length w.h t.s
      rw [← Option.some.inj h3] at h4
      omega
    have hir : InRange t.len ((tiles procs minWork copySize n).map (rangeCalls copySize offs val)) := by
      intro cs hcs c hc
      obtain ⟨r, hr1, rfl⟩ := List.mem_map.1 hcs
      rw [htl]
      exact rangeCalls_inRange val hin (ranges_bound (safe := true) (by rw [hrr]; exact hr1)).2 c hc
    have hst : EStep w (.parallel k ((tiles procs minWork copySize n).map (rangeCalls copySize offs val)))
        { w with h := p.c.st.h, trans := w.trans.set k p.c.st.t } :=
      .parallel ht hir (assign_disjoint val (hd hp)) hq hf
    refine ⟨⟨_, hw.snoc hst⟩, ?_⟩
    have h5 := (estep_sim I hst).2
    generalize hev : (Event.parallel k ((tiles procs minWork copySize n).map (rangeCalls copySize offs val)) : Event α) = ev at h5
    generalize hab : abs { w with h := p.c.st.h, trans := w.trans.set k p.c.st.t } = b at h5 ⊢
    cases h5 <;> cases hev
    rename_i l0 h6
    rw [hl] at h6
    rw [← Option.some.inj h6, tiles_flatten hp0 hw0 hp]

/-- What the loop leaves in cell `q`: the value for the last position that denotes its group. -/
theorem setAll_assign {l : List α} {copySize n : Nat} {offs : Nat → Nat} {val : Nat → α} (i j : Nat) (hi : i < n)
    (hj : j < copySize) (hlast : ∀ i', i < i' → i' < n → offs i' ≠ offs i) (hr : offs i * copySize + j < l.length) :
    (setAll l (rangeCalls copySize offs val (0, n)))[offs i * copySize + j]? = some (val (j + i * copySize)) := by
  obtain ⟨x, hx⟩ : ∃ x, l[offs i * copySize + j]? = some x := ⟨_, List.getElem?_eq_getElem hr⟩
  rw [setAll_get l _ _ hr x hx]
  have hsplit : rangeCalls copySize offs val (0, n) =
      rangeCalls copySize offs val (0, i) ++ (cellCalls copySize offs val i ++ rangeCalls copySize offs val (i + 1, n)) := by
    simp only [rangeCalls, Nat.sub_zero]
    have h1 := List.range'_append (s := 0) (m := i) (n := n - i) (step := 1)
    have h2 : List.range' i (n - i) = i :: List.range' (i + 1) (n - (i + 1)) := by
      have : n - i = (n - (i + 1)) + 1 := by omega
      rw [this, List.range'_succ]
    have h3 : i + (n - i) = n := by omega
    simp only [Nat.zero_add, Nat.one_mul, h2, h3] at h1
    rw [← h1]
    simp
  have hne : ∀ c ∈ rangeCalls copySize offs val (i + 1, n), c.1 ≠ offs i * copySize + j := by
    intro c hc e
    obtain ⟨i', h1, h2, h3⟩ := rangeCalls_mem hc
    have h4 := (cellCalls_mem h3).1
    rw [e, Nat.mul_comm, Nat.mul_add_div (by omega), Nat.div_eq_of_lt hj, Nat.add_zero] at h4
    exact hlast i' (by simp only at h1; omega) h2 h4.symm
  have hnone : (rangeCalls copySize offs val (i + 1, n)).reverse.lookup (offs i * copySize + j) = none := by
    cases h : (rangeCalls copySize offs val (i + 1, n)).reverse.lookup (offs i * copySize + j) with
    | none => rfl
    | some y => exact absurd rfl (hne _ (by simpa using lookup_mem h))
  have hcell : (cellCalls copySize offs val i).reverse.lookup (offs i * copySize + j) = some (val (j + i * copySize)) := by
    have hmem : (offs i * copySize + j, val (j + i * copySize)) ∈ (cellCalls copySize offs val i).reverse := by
      rw [List.mem_reverse]
      simp only [cellCalls, List.mem_map, List.mem_range]
      exact ⟨j, hj, rfl⟩
    cases h : (cellCalls copySize offs val i).reverse.lookup (offs i * copySize + j) with
    | none =>
      exfalso
      have : ∀ l' : List (Nat × α), (offs i * copySize + j, val (j + i * copySize)) ∈ l' →
          l'.lookup (offs i * copySize + j) ≠ none := by
        intro l'
        induction l' with
        | nil => intro h; cases h
        | cons a l' ih =>
          intro h
          obtain ⟨a1, a2⟩ := a
          simp only [List.lookup]
          split
          · simp
          · rename_i hne
            rcases List.mem_cons.1 h with h | h
            · cases h
              simp at hne
            · exact ih h
      exact this _ hmem h
    | some y =>
      have := lookup_mem h
      rw [List.mem_reverse] at this
      obtain ⟨_, j', hj', e⟩ := cellCalls_mem this
      have e1 := (Prod.mk.injEq _ _ _ _ ▸ e).1
      have e2 := (Prod.mk.injEq _ _ _ _ ▸ e).2
      have : j' = j := by omega
      rw [e2, this]
  rw [hsplit, List.reverse_append, List.reverse_append, lookup_append, lookup_append, hnone, hcell]
  rfl

theorem setAll_untouched {l : List α} {cs : List (Nat × α)} {q : Nat} (h : ∀ c ∈ cs, c.1 ≠ q) :
    (setAll l cs)[q]? = l[q]? := by
  unfold setAll
  induction cs generalizing l with
  | nil => rfl
  | cons c cs ih =>
    rw [List.foldl_cons, ih (fun d hd => h d (List.mem_cons_of_mem _ hd)), List.getElem?_set_ne]
    exact h c List.mem_cons_self

end Verif.Par
