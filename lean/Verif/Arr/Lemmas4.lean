import Verif.Arr.Lemmas3
import Mathlib.Algebra.Order.BigOperators.Group.Finset
import Mathlib.Algebra.BigOperators.Fin
import Mathlib.Logic.Equiv.Fin.Basic

/-! # Lemmas about transposition -/

namespace Verif.Arr
variable {α : Type}

/-! ## Two dimensions -/

/-- The target of `transpose2`. -/
def transData (data : List α) (xdim ydim : Nat) (x : α) : List α :=
  (List.range data.length).map fun q => data.getD (q % xdim * ydim + q / xdim) x

theorem transpose2_core (S : Sched) {xdim ydim : Nat} {data : List α} (hy : 0 < ydim) (hx : 0 < xdim) (hl : data.length = xdim * ydim) (x : α) :
    transpose2 S xdim ydim data = newMatrix [ydim, xdim] (transData data xdim ydim x) := by
  unfold transpose2
  have hlen : (transData data xdim ydim x).length = data.length := by simp [transData]
  have hpos : ∀ k, k < data.length → k % ydim * xdim + k / ydim < data.length := by
    intro k hk
    have h1 : k / ydim < xdim := (Nat.div_lt_iff_lt_mul hy).mpr (by rw [← hl]; exact hk)
    have h2 := Nat.mod_lt k hy
    rw [hl]
    calc k % ydim * xdim + k / ydim < k % ydim * xdim + xdim := by omega
      _ = (k % ydim + 1) * xdim := by rw [Nat.succ_mul]
      _ ≤ ydim * xdim := Nat.mul_le_mul_right _ h2
      _ = xdim * ydim := Nat.mul_comm _ _
  have hT : ∀ k (hk : k < data.length), (transData data xdim ydim x)[k % ydim * xdim + k / ydim]? = some data[k] := by
    intro k hk
    have h1 : k / ydim < xdim := (Nat.div_lt_iff_lt_mul hy).mpr (by rw [← hl]; exact hk)
    have e1 : (k % ydim * xdim + k / ydim) % xdim = k / ydim := by rw [Nat.mul_comm, Nat.mul_add_mod, Nat.mod_eq_of_lt h1]
    have e2 : (k % ydim * xdim + k / ydim) / xdim = k % ydim := by rw [Nat.mul_comm, Nat.mul_add_div hx, Nat.div_eq_of_lt h1]; simp
    have e3 : k / ydim * ydim + k % ydim = k := by rw [Nat.mul_comm]; exact Nat.div_add_mod _ _
    simp only [transData, List.getElem?_map, List.getElem?_range (hpos k hk), Option.map_some, e1, e2, e3, List.getD_eq_getElem?_getD,
      List.getElem?_eq_getElem hk, Option.getD_some]
  obtain ⟨e, h1, h2⟩ := pfor_toward (t := transData data xdim ydim x) S 1 data.length (fun lo hi e =>
      if ydim = 0 then .crash else
      (loop (transStep xdim ydim data) (List.range' lo (hi - lo)) (lo / ydim, lo % ydim, e)).bind fun s => .ok s.2.2)
    (fun k p => p = k % ydim * xdim + k / ydim) (by
      intro r hr W e he
      rw [if_neg (by omega)]
      obtain ⟨s, l, hs1, hs2, hs3⟩ := loop_range (f := transStep xdim ydim data)
        (fun k s => s.1 = k / ydim ∧ s.2.1 = k % ydim ∧
          Toward (transData data xdim ydim x) (fun i => W i ∨ ∃ k', r.1 ≤ k' ∧ k' < k ∧ i = k' % ydim * xdim + k' / ydim) s.2.2)
        r.1 (r.2 - r.1) (r.1 / ydim, r.1 % ydim, e)
        ⟨rfl, rfl, toward_mono he (fun i _ h => h.elim id (fun ⟨k', a, b, _⟩ => by omega))⟩ (by
          rintro k ⟨nx, ny, e⟩ hk1 hk2 ⟨rfl, rfl, he⟩
          have hk : k < data.length := sched_bound S 1 data.length hr hk1 (by omega)
          obtain ⟨e', h3, h4⟩ := toward_put he (hT k hk)
          simp only [transStep, vAt_lt hk, bind_ok, h3]
          have h5 : Toward (transData data xdim ydim x) (fun i => W i ∨ ∃ k', r.1 ≤ k' ∧ k' < k + 1 ∧ i = k' % ydim * xdim + k' / ydim) e' := by
            refine toward_mono h4 ?_
            rintro i _ (h | ⟨k', a, b, c⟩)
            · exact .inl (.inl h)
            · rcases Nat.lt_or_ge k' k with hlt | hge
              · exact .inl (.inr ⟨k', a, hlt, c⟩)
              · exact .inr (by rw [c, show k' = k by omega])
          have hml := Nat.mod_lt k hy
          have hdm := Nat.div_add_mod k ydim
          by_cases c : k % ydim + 1 ≥ ydim
          · rw [if_pos c]
            have hq : k + 1 = ydim * (k / ydim + 1) := by rw [Nat.mul_add]; omega
            exact ⟨_, rfl, by rw [hq, Nat.mul_div_cancel_left _ hy], by rw [hq, Nat.mul_mod_right], h5⟩
          · rw [if_neg c]
            have hq : k + 1 = ydim * (k / ydim) + (k % ydim + 1) := by omega
            refine ⟨_, rfl, ?_, ?_, h5⟩
            · show k / ydim = (k + 1) / ydim
              rw [hq, Nat.mul_add_div hy, Nat.div_eq_of_lt (by omega : k % ydim + 1 < ydim)]; simp
            · show k % ydim + 1 = (k + 1) % ydim
              rw [hq, Nat.mul_add_mod, Nat.mod_eq_of_lt (by omega : k % ydim + 1 < ydim)])
      rw [l, bind_ok]
      refine ⟨s.2.2, rfl, toward_mono hs3 ?_⟩
      rintro i _ (h | ⟨k, a, b, c⟩)
      · exact .inl h
      · exact .inr ⟨k, a, by omega, c⟩) hlen.symm (by
    intro q hq
    rw [hlen] at hq
    have h1 : q / xdim < ydim := (Nat.div_lt_iff_lt_mul hx).mpr (by rw [Nat.mul_comm, ← hl]; exact hq)
    have h2 := Nat.mod_lt q hx
    refine ⟨q % xdim * ydim + q / xdim, ?_, ?_⟩
    · rw [hl]
      calc q % xdim * ydim + q / xdim < q % xdim * ydim + ydim := by omega
        _ = (q % xdim + 1) * ydim := by rw [Nat.succ_mul]
        _ ≤ xdim * ydim := Nat.mul_le_mul_right _ h2
    · have e1 : (q % xdim * ydim + q / xdim) % ydim = q / xdim := by rw [Nat.mul_comm, Nat.mul_add_mod, Nat.mod_eq_of_lt h1]
      have e2 : (q % xdim * ydim + q / xdim) / ydim = q % xdim := by rw [Nat.mul_comm, Nat.mul_add_div hy, Nat.div_eq_of_lt h1]; simp
      rw [e1, e2, Nat.mul_comm, Nat.div_add_mod])
  rw [h1, bind_ok, h2, bind_ok]

/-! ## The odometer -/

theorem startIndex_eq : ∀ {s : List Nat}, (∀ d ∈ s, 0 < d) → ∀ k, startIndex s k = (unravel s (k % vol s), k / vol s)
  | [], _, k => by simp [startIndex, unravel, vol]
  | d :: s, h, k => by
    have hd := h d (by simp)
    have hs : ∀ d ∈ s, 0 < d := fun x hx => h x (by simp [hx])
    unfold startIndex
    rw [startIndex_eq hs k]
    simp only [if_pos hd, unravel, vol]
    rw [Nat.div_div_eq_div_mul, Nat.mul_comm (vol s) d]
    have e1 : k % (d * vol s) / vol s = k / vol s % d := by rw [Nat.mul_comm, Nat.mod_mul_right_div_self]
    have e2 : k % (d * vol s) % vol s = k % vol s := by rw [Nat.mul_comm, Nat.mod_mul_right_mod]
    rw [e1, e2]

theorem vol_pos {s : List Nat} : 0 < vol s ↔ ∀ d ∈ s, 0 < d := by
  induction s with
  | nil => simp [vol]
  | cons d s ih =>
    simp only [vol, List.mem_cons, forall_eq_or_imp, ← ih]
    exact ⟨fun h => ⟨Nat.pos_of_mul_pos_right h, Nat.pos_of_mul_pos_left h⟩, fun h => Nat.mul_pos h.1 h.2⟩

theorem tick_eq : ∀ {s c : List Nat}, InB s c → (tick s c).1 = unravel s ((ravel s c + 1) % vol s) ∧ ((tick s c).2 = true ↔ ravel s c + 1 = vol s)
  | [], [], _ => by simp [tick, unravel, ravel, vol]
  | d :: s, i :: c, h => by
    obtain ⟨ih1, ih2⟩ := tick_eq h.2
    have hk := ravel_lt h.2
    have hi := h.1
    have hp : 0 < vol s := by omega
    unfold tick
    simp only [ravel, vol]
    by_cases h1 : ravel s c + 1 = vol s
    · simp only [ih2.mpr h1, if_true]
      have e1 : i * vol s + ravel s c + 1 = (i + 1) * vol s := by rw [Nat.succ_mul]; omega
      rw [e1, ih1, h1]
      by_cases h2 : i + 1 < d
      · have hlt : (i + 1) * vol s < d * vol s := Nat.mul_lt_mul_of_pos_right h2 hp
        rw [if_pos h2, Nat.mod_eq_of_lt hlt]
        simp only [unravel, Nat.mul_div_cancel _ hp, Nat.mul_mod_left, Nat.mod_self]
        exact ⟨trivial, by simp; omega⟩
      · have hd : i + 1 = d := by omega
        rw [if_neg h2, hd]
        simp [unravel]
    · have hlt : ravel s c + 1 < vol s := by omega
      have e1 : i * vol s + ravel s c + 1 < d * vol s := by
        calc i * vol s + ravel s c + 1 < i * vol s + vol s := by omega
          _ = (i + 1) * vol s := by rw [Nat.succ_mul]
          _ ≤ d * vol s := Nat.mul_le_mul_right _ hi
      have h2 : (tick s c).2 = false := by
        cases h3 : (tick s c).2 with
        | false => rfl
        | true => exact absurd (ih2.mp h3) h1
      rw [Nat.mod_eq_of_lt hlt] at ih1
      rw [h2, Nat.mod_eq_of_lt e1, ih1]
      have e2 : (i * vol s + ravel s c + 1) / vol s = i := by
        rw [Nat.add_assoc, Nat.mul_comm, Nat.mul_add_div hp, Nat.div_eq_of_lt hlt]; simp
      have e3 : (i * vol s + ravel s c + 1) % vol s = ravel s c + 1 := by
        rw [Nat.add_assoc, Nat.mul_comm, Nat.mul_add_mod, Nat.mod_eq_of_lt hlt]
      simp only [unravel, e2, e3]
      refine ⟨rfl, ?_⟩
      constructor
      · intro h; cases h
      · intro h; omega

theorem tick_unravel {s : List Nat} {k : Nat} (h : k < vol s) : (tick s (unravel s k)).1 = unravel s ((k + 1) % vol s) := by
  rw [(tick_eq (unravel_inB h)).1, ravel_unravel h]

/-! ## The axes -/

theorem axes_ok (origin rank : Nat) : ∀ (v : List Small) (o : List Nat), axes origin rank v = .ok o ↔
    v = o.map (fun j : Nat => some ((j + origin : Nat) : Int)) ∧ ∀ j ∈ o, j < rank
  | [], o => by
    simp only [axes, R.ok.injEq]
    constructor
    · rintro rfl; simp
    · rintro ⟨h, _⟩; simpa using h
  | none :: r, o => by
    simp only [axes]
    constructor
    · intro h; cases h
    · rintro ⟨h, _⟩; cases o <;> simp at h
  | some vi :: r, o => by
    unfold axes
    by_cases h : vi < origin ∨ vi ≥ (origin + rank : Nat)
    · rw [if_pos h]
      constructor
      · intro h; cases h
      · rintro ⟨e, h2⟩
        cases o with
        | nil => simp at e
        | cons j o =>
          simp only [List.map_cons, List.cons.injEq, Option.some.injEq] at e
          have := h2 j (by simp)
          omega
    · rw [if_neg h, bind_eq_ok]
      constructor
      · rintro ⟨l, h1, h2⟩
        cases h2
        obtain ⟨e1, e2⟩ := (axes_ok origin rank r l).mp h1
        refine ⟨by rw [e1]; simp; omega, ?_⟩
        intro j hj
        rcases List.mem_cons.mp hj with rfl | hj
        · omega
        · exact e2 j hj
      · rintro ⟨e, h2⟩
        cases o with
        | nil => simp at e
        | cons j o =>
          simp only [List.map_cons, List.cons.injEq, Option.some.injEq] at e
          refine ⟨o, (axes_ok origin rank r o).mpr ⟨e.2, fun j hj => h2 j (by simp [hj])⟩, ?_⟩
          congr 2; omega

theorem axes_total (origin rank : Nat) : ∀ (v : List Small), (∃ o, axes origin rank v = .ok o) ∨ ∃ e, axes origin rank v = .err e
  | [] => .inl ⟨_, rfl⟩
  | none :: _ => .inr ⟨_, rfl⟩
  | some vi :: r => by
    unfold axes
    split
    · exact .inr ⟨_, rfl⟩
    · rcases axes_total origin rank r with ⟨p, h⟩ | ⟨e, h⟩
      · exact .inl ⟨_, by rw [h]; rfl⟩
      · exact .inr ⟨e, by rw [h]; rfl⟩

theorem newRank_eq {o : List Nat} {r : Nat} (h : ∀ j, j ∈ o → j < r) (hr : r = 0 ∨ r - 1 ∈ o) : newRank o = r := by
  have gen : ∀ (o : List Nat) (a : Nat), (∀ j ∈ o, j < o.foldl (fun r vi => if r ≤ vi then vi + 1 else r) a) ∧
      a ≤ o.foldl (fun r vi => if r ≤ vi then vi + 1 else r) a ∧
      (∀ b, a ≤ b → (∀ j ∈ o, j < b) → o.foldl (fun r vi => if r ≤ vi then vi + 1 else r) a ≤ b) := by
    intro o
    induction o with
    | nil => intro a; simp
    | cons x o ih =>
      intro a
      simp only [List.foldl_cons]
      obtain ⟨h1, h2, h3⟩ := ih (if a ≤ x then x + 1 else a)
      have hx : a ≤ (if a ≤ x then x + 1 else a) ∧ x < (if a ≤ x then x + 1 else a) := by split <;> omega
      refine ⟨?_, by omega, ?_⟩
      · intro j hj
        rcases List.mem_cons.mp hj with rfl | hj
        · omega
        · exact h1 j hj
      · intro b hb hj
        apply h3 b _ (fun j h => hj j (by simp [h]))
        have := hj x (by simp)
        split <;> omega
  obtain ⟨h1, h2, h3⟩ := gen o 0
  have := h3 r (by omega) h
  unfold newRank
  rcases hr with rfl | hr
  · omega
  · have := h1 _ hr; omega

/-- The least of the dimensions mapped to axis `j`. -/
def axisMin (l : List (Nat × Nat)) (j : Nat) (a : Option Nat) : Option Nat :=
  l.foldl (fun a p => if p.1 = j then (match a with | some d => if d > p.2 then some p.2 else some d | none => some p.2) else a) a

theorem newShape_get (l : List (Nat × Nat)) : ∀ (s : List (Option Nat)) (j : Nat), (l.foldl axisStep s)[j]? = s[j]?.map (axisMin l j) := by
  induction l with
  | nil => intro s j; cases h : s[j]? <;> simp [axisMin, h]
  | cons p l ih =>
    intro s j
    simp only [List.foldl_cons]
    rw [ih]
    unfold axisMin
    simp only [List.foldl_cons]
    by_cases hj : p.1 = j
    · subst hj
      simp only [if_true]
      cases h : s[p.1]? with
      | none => simp [axisStep, h]
      | some a =>
        have hlt : p.1 < s.length := (List.getElem?_eq_some_iff.mp h).1
        cases a with
        | none =>
          have e : axisStep s p = s.set p.1 (some p.2) := by unfold axisStep; rw [h]
          rw [e, List.getElem?_set_self hlt]; rfl
        | some d =>
          by_cases hd : d > p.2
          · have e : axisStep s p = s.set p.1 (some p.2) := by unfold axisStep; rw [h]; exact if_pos hd
            rw [e, List.getElem?_set_self hlt]; simp only [Option.map_some, if_pos hd]
          · have e : axisStep s p = s := by unfold axisStep; rw [h]; exact if_neg hd
            rw [e, h]; simp only [Option.map_some, if_neg hd]
    · simp only [if_neg hj]
      congr 1
      unfold axisStep
      split
      · split
        · rw [List.getElem?_set_ne hj]
        · rfl
      · rw [List.getElem?_set_ne hj]
      · rfl

theorem axisMin_some (l : List (Nat × Nat)) (j : Nat) : ∀ (a : Option Nat) (d : Nat), axisMin l j a = some d →
    ((j, d) ∈ l ∨ a = some d) ∧ (∀ p ∈ l, p.1 = j → d ≤ p.2) ∧ ∀ x, a = some x → d ≤ x := by
  induction l with
  | nil => intro a d h; simp [axisMin] at h; subst h; simp
  | cons p l ih =>
    intro a d h
    unfold axisMin at h
    simp only [List.foldl_cons] at h
    obtain ⟨h1, h2, h3⟩ := ih _ d h
    by_cases hj : p.1 = j
    · simp only [if_pos hj] at h1 h3
      have hp : (j, p.2) = p := by rw [← hj]
      cases a with
      | none =>
        simp only [Option.some.injEq] at h1 h3
        have h4 := h3 p.2 rfl
        refine ⟨?_, ?_, by simp⟩
        · rcases h1 with h1 | h1
          · exact .inl (by simp [h1])
          · exact .inl (by rw [← h1, hp]; simp)
        · intro q hq hqj
          rcases List.mem_cons.mp hq with rfl | hq
          · exact h4
          · exact h2 q hq hqj
      | some x =>
        by_cases hx : x > p.2
        · simp only [if_pos hx, Option.some.injEq] at h1 h3
          have h4 := h3 p.2 rfl
          refine ⟨?_, ?_, by intro y hy; cases hy; omega⟩
          · rcases h1 with h1 | h1
            · exact .inl (by simp [h1])
            · exact .inl (by rw [← h1, hp]; simp)
          · intro q hq hqj
            rcases List.mem_cons.mp hq with rfl | hq
            · exact h4
            · exact h2 q hq hqj
        · simp only [if_neg hx, Option.some.injEq] at h1 h3
          have h4 := h3 x rfl
          refine ⟨?_, ?_, by intro y hy; cases hy; omega⟩
          · rcases h1 with h1 | h1
            · exact .inl (by simp [h1])
            · exact .inr (by rw [h1])
          · intro q hq hqj
            rcases List.mem_cons.mp hq with rfl | hq
            · omega
            · exact h2 q hq hqj
    · simp only [if_neg hj] at h1 h3
      refine ⟨?_, ?_, h3⟩
      · rcases h1 with h1 | h1
        · exact .inl (by simp [h1])
        · exact .inr h1
      · intro q hq hqj
        rcases List.mem_cons.mp hq with rfl | hq
        · exact absurd hqj hj
        · exact h2 q hq hqj

theorem axisMin_none (l : List (Nat × Nat)) (j : Nat) : ∀ a, axisMin l j a = none ↔ a = none ∧ ∀ p ∈ l, p.1 ≠ j := by
  induction l with
  | nil => intro a; simp [axisMin]
  | cons p l ih =>
    intro a
    have := ih (if p.1 = j then (match a with | some d => if d > p.2 then some p.2 else some d | none => some p.2) else a)
    unfold axisMin at this ⊢
    simp only [List.foldl_cons]
    rw [this]
    by_cases hj : p.1 = j
    · simp only [if_pos hj, List.mem_cons, forall_eq_or_imp]
      constructor
      · rintro ⟨h, _⟩
        cases a with
        | none => cases h
        | some x => simp only at h; split at h <;> cases h
      · rintro ⟨_, h, _⟩; exact absurd hj h
    · simp [hj]

theorem noMissing_ok : ∀ (l : List (Option Nat)) (s : List Nat), noMissing l = .ok s ↔ l = s.map some
  | [], s => by
    simp only [noMissing, R.ok.injEq]
    constructor
    · rintro rfl; rfl
    · intro h; simpa using h
  | none :: l, s => by
    simp only [noMissing]
    constructor
    · intro h; cases h
    · intro h; cases s <;> simp at h
  | some d :: l, s => by
    simp only [noMissing, bind_eq_ok]
    constructor
    · rintro ⟨t, h1, h2⟩
      cases h2
      rw [(noMissing_ok l t).mp h1]; rfl
    · intro h
      cases s with
      | nil => simp at h
      | cons x s =>
        simp only [List.map_cons, List.cons.injEq, Option.some.injEq] at h
        exact ⟨s, (noMissing_ok l s).mpr h.2, by rw [h.1]⟩

theorem noMissing_total : ∀ (l : List (Option Nat)), (∃ o, noMissing l = .ok o) ∨ ∃ e, noMissing l = .err e
  | [] => .inl ⟨_, rfl⟩
  | none :: _ => .inr ⟨_, rfl⟩
  | some d :: r => by
    unfold noMissing
    rcases noMissing_total r with ⟨p, h⟩ | ⟨e, h⟩
    · exact .inl ⟨_, by rw [h]; rfl⟩
    · exact .inr ⟨e, by rw [h]; rfl⟩

theorem newShape_length (o s : List Nat) (r : Nat) : (newShape o s r).length = r := by
  unfold newShape
  have gen : ∀ (l : List (Nat × Nat)) (s : List (Option Nat)), (l.foldl axisStep s).length = s.length := by
    intro l
    induction l with
    | nil => intro s; rfl
    | cons p l ih =>
      intro s
      simp only [List.foldl_cons]
      rw [ih]
      unfold axisStep
      split
      · split <;> simp
      · simp
      · rfl
  rw [gen]; simp

theorem newShape_spec {o shape : List Nat} {r : Nat} (hl : o.length = shape.length) (h : ∀ j, j < r → j ∈ o) :
    ∃ s', noMissing (newShape o shape r) = .ok s' ∧ NewShape o shape s' r := by
  have hget : ∀ j, j < r → ∃ d, (newShape o shape r)[j]? = some (some d) ∧ axisMin (o.zip shape) j none = some d := by
    intro j hj
    have h1 : (newShape o shape r)[j]? = (List.replicate r none)[j]?.map (axisMin (o.zip shape) j) := newShape_get _ _ _
    rw [List.getElem?_replicate, if_pos hj, Option.map_some] at h1
    cases ha : axisMin (o.zip shape) j none with
    | some d => exact ⟨d, by rw [h1, ha], rfl⟩
    | none =>
      have := ((axisMin_none _ _ _).mp ha).2
      obtain ⟨i, hi⟩ := List.getElem?_of_mem (h j hj)
      have hi' : i < shape.length := by rw [← hl]; exact (List.getElem?_eq_some_iff.mp hi).1
      exact absurd rfl (this (j, shape[i]) (List.mem_of_getElem? (i := i) (by rw [List.getElem?_zip_eq_some]; exact ⟨hi, List.getElem?_eq_getElem hi'⟩)))
  let s' := (List.range r).map fun j => (axisMin (o.zip shape) j none).getD 0
  have hs' : newShape o shape r = s'.map some := by
    apply List.ext_getElem?
    intro j
    rcases Nat.lt_or_ge j r with hj | hj
    · obtain ⟨d, h1, h2⟩ := hget j hj
      rw [h1]; simp [s', List.getElem?_range hj, h2]
    · rw [List.getElem?_eq_none (by rw [newShape_length]; exact hj), List.getElem?_eq_none (by simp [s']; exact hj)]
  refine ⟨s', (noMissing_ok _ _).mpr hs', by simp [s'], ?_, ?_⟩
  · intro j d hd
    have hj : j < r := by have := (List.getElem?_eq_some_iff.mp hd).1; simpa [s'] using this
    obtain ⟨d', h1, h2⟩ := hget j hj
    have : d' = d := by simpa [s', List.getElem?_range hj, h2] using hd
    subst this
    obtain ⟨h3, _, _⟩ := axisMin_some _ _ _ _ h2
    rcases h3 with h3 | h3
    · obtain ⟨i, hi⟩ := List.getElem?_of_mem h3
      rw [List.getElem?_zip_eq_some] at hi
      exact ⟨i, hi⟩
    · cases h3
  · intro i j d e hi hd he
    have hj : j < r := by have := (List.getElem?_eq_some_iff.mp he).1; simpa [s'] using this
    obtain ⟨d', h1, h2⟩ := hget j hj
    have : d' = e := by simpa [s', List.getElem?_range hj, h2] using he
    subst this
    obtain ⟨_, h4, _⟩ := axisMin_some _ _ _ _ h2
    exact h4 (j, d) (List.mem_of_getElem? (i := i) (by rw [List.getElem?_zip_eq_some]; exact ⟨hi, hd⟩)) rfl

theorem noMissing_missing {o shape : List Nat} {r j : Nat} (hj : j < r) (h : j ∉ o) : ∃ e, noMissing (newShape o shape r) = .err e := by
  rcases noMissing_total (newShape o shape r) with ⟨s, hs⟩ | h'
  · exfalso
    have h1 : (newShape o shape r)[j]? = (List.replicate r none)[j]?.map (axisMin (o.zip shape) j) := newShape_get _ _ _
    rw [List.getElem?_replicate, if_pos hj, Option.map_some, (noMissing_ok _ _).mp hs] at h1
    have h2 : axisMin (o.zip shape) j none = none := by
      rw [axisMin_none]
      refine ⟨rfl, ?_⟩
      intro p hp e
      exact h (e ▸ (List.of_mem_zip hp).1)
    rw [h2] at h1
    rcases List.getElem?_eq_some_iff.mp h1 with ⟨_, h3⟩
    simp at h3
  · exact h'

/-! ## The elements -/

theorem oldOffset_eq (index : List Nat) : ∀ (o shape : List Nat) (acc : Nat), o.length = shape.length → (∀ j ∈ o, j < index.length) →
    loopOver (fun (p : Nat × Nat) oi => (vAt index p.1).bind fun x => .ok (oi * p.2 + x)) (o.zip shape) acc =
      .ok (acc * vol shape + ravel shape (o.map fun j => index.getD j 0))
  | [], [], acc, _, _ => by simp [loopOver, vol, ravel]
  | [], _ :: _, _, h, _ => by simp at h
  | _ :: _, [], _, h, _ => by simp at h
  | j :: o, d :: shape, acc, h, hj => by
    have hj0 := hj j (by simp)
    simp only [List.zip_cons_cons, loopOver, vAt_lt hj0, bind_ok]
    rw [oldOffset_eq index o shape _ (by simpa using h) (fun k hk => hj k (by simp [hk]))]
    simp only [List.map_cons, ravel, vol, List.getD_eq_getElem?_getD, List.getElem?_eq_getElem hj0, Option.getD_some]
    congr 1
    rw [Nat.add_mul, Nat.mul_assoc, Nat.add_assoc]

theorem inB_iff : ∀ {s c : List Nat}, InB s c ↔ c.length = s.length ∧ ∀ i x d : Nat, c[i]? = some x → s[i]? = some d → x < d
  | [], [] => by simp [InB]
  | [], _ :: _ => by simp [InB]
  | _ :: _, [] => by simp [InB]
  | d :: s, x :: c => by
    simp only [InB, inB_iff (s := s) (c := c), List.length_cons, Nat.add_right_cancel_iff]
    constructor
    · rintro ⟨h1, h2, h3⟩
      refine ⟨h2, ?_⟩
      intro i y e hy he
      cases i with
      | zero => simp at hy he; omega
      | succ i => simp at hy he; exact h3 i y e hy he
    · rintro ⟨h1, h2⟩
      exact ⟨h2 0 x d (by simp) (by simp), h1, fun i y e hy he => h2 (i + 1) y e (by simpa using hy) (by simpa using he)⟩

theorem oldCoords_inB {o shape s' : List Nat} {r : Nat} (hl : o.length = shape.length) (hs : NewShape o shape s' r) (ho : ∀ j ∈ o, j < r)
    {c : List Nat} (hc : InB s' c) : InB shape (oldCoords o c) := by
  rw [inB_iff] at hc ⊢
  refine ⟨by simp [oldCoords, hl], ?_⟩
  intro i x d hx hd
  simp only [oldCoords, List.getElem?_map, Option.map_eq_some_iff] at hx
  obtain ⟨j, hj, hx⟩ := hx
  have hjr := ho j (List.mem_of_getElem? hj)
  have hjc : j < c.length := by rw [hc.1, hs.len]; exact hjr
  have hjs : j < s'.length := by rw [hs.len]; exact hjr
  rw [List.getD_eq_getElem?_getD, List.getElem?_eq_getElem hjc, Option.getD_some] at hx
  have h1 := hc.2 j c[j] s'[j] (List.getElem?_eq_getElem hjc) (List.getElem?_eq_getElem hjs)
  have h2 := hs.le i j d s'[j] hj hd (List.getElem?_eq_getElem hjs)
  omega

theorem foldl_vol (s : List Nat) : ∀ n, s.foldl (· * ·) n = n * vol s := by
  induction s with
  | nil => intro n; simp [vol]
  | cons d s ih => intro n; simp [vol, ih, Nat.mul_assoc]

theorem binaryTranspose_core (S : Sched) (origin : Nat) {m : Mat α} (hm : m.WF) {o s' : List Nat} {r : Nat} (hl : o.length = m.shape.length)
    (ho : ∀ j, j ∈ o ↔ j < r) (hr : r ≤ m.shape.length) (hs : NewShape o m.shape s' r)
    (hn : noMissing (newShape o m.shape r) = .ok s') {t : List α} (hlen : t.length = vol s')
    (ht : ∀ k, k < vol s' → t[k]? = m.data[ravel m.shape (oldCoords o (unravel s' k))]?) :
    binaryTranspose S origin m (o.map (fun j : Nat => some ((j + origin : Nat) : Int))) = newMatrix s' t := by
  unfold binaryTranspose
  rw [if_neg (by simp [hl]), (axes_ok origin _ _ o).mpr ⟨rfl, fun j hj => by have := (ho j).mp hj; omega⟩, bind_ok]
  have hnr : newRank o = r := newRank_eq (fun j hj => (ho j).mp hj) (by
    rcases Nat.eq_zero_or_pos r with h | h
    · exact .inl h
    · exact .inr ((ho (r - 1)).mpr (by omega)))
  rw [hnr, hn, bind_ok]
  simp only [foldl_vol, Nat.one_mul]
  have hgood : ∀ k, k < vol s' → ∃ y, m.data[ravel m.shape (oldCoords o (unravel s' k))]? = some y ∧ t[k]? = some y := by
    intro k hk
    have h1 := ravel_lt (oldCoords_inB hl hs (fun j hj => (ho j).mp hj) (unravel_inB hk))
    rw [← hm.len] at h1
    exact ⟨_, List.getElem?_eq_getElem h1, by rw [ht k hk, List.getElem?_eq_getElem h1]⟩
  obtain ⟨e, h1, h2⟩ := pfor_toward (t := t) S 1 (vol s') (fun lo hi e =>
        (loop (fun i (s : List Nat × Ed α) =>
            (oldOffset o m.shape s.1).bind fun oi =>
            (vAt m.data oi).bind fun x =>
            (s.2.put i x).bind fun e => .ok ((tick s' s.1).1, e))
          (List.range' lo (hi - lo)) ((startIndex s' lo).1, e)).bind fun s => .ok s.2) (fun k p => p = k) (by
      intro rg hrg W e he
      rcases Nat.lt_or_ge rg.1 rg.2 with hlt | hge
      · have hlo := sched_bound S 1 (vol s') hrg (Nat.le_refl _) hlt
        have hpos : ∀ d ∈ s', 0 < d := vol_pos.mp (by omega)
        obtain ⟨s, l, q1, q2⟩ := loop_range (f := fun i (s : List Nat × Ed α) =>
            (oldOffset o m.shape s.1).bind fun oi =>
            (vAt m.data oi).bind fun x =>
            (s.2.put i x).bind fun e => .ok ((tick s' s.1).1, e))
          (fun k s => s.1 = unravel s' (k % vol s') ∧ Toward t (fun i => W i ∨ ∃ k', rg.1 ≤ k' ∧ k' < k ∧ i = k') s.2)
          rg.1 (rg.2 - rg.1) ((startIndex s' rg.1).1, e)
          ⟨by rw [startIndex_eq hpos], toward_mono he (fun i _ h => h.elim id (fun ⟨k', a, b, _⟩ => by omega))⟩ (by
            rintro k ⟨ix, e⟩ hk1 hk2 ⟨rfl, he⟩
            have hk : k < vol s' := sched_bound S 1 (vol s') hrg hk1 (by omega)
            obtain ⟨y, g1, g2⟩ := hgood k hk
            obtain ⟨e', g3, g4⟩ := toward_put he g2
            have g5 : oldOffset o m.shape (unravel s' k) = .ok (ravel m.shape (oldCoords o (unravel s' k))) := by
              have := oldOffset_eq (unravel s' k) o m.shape 0 hl (fun j hj => by rw [unravel_length, hs.len]; exact (ho j).mp hj)
              rw [Nat.zero_mul, Nat.zero_add] at this
              exact this
            simp only [Nat.mod_eq_of_lt hk, g5, bind_ok, vAt_ok.mpr g1, g3]
            refine ⟨_, rfl, tick_unravel hk, toward_mono g4 ?_⟩
            rintro i _ (h | ⟨k', a, b, rfl⟩)
            · exact .inl (.inl h)
            · rcases Nat.lt_or_ge i k with h | h
              · exact .inl (.inr ⟨i, a, h, rfl⟩)
              · exact .inr (by omega))
        rw [l, bind_ok]
        refine ⟨s.2, rfl, toward_mono q2 ?_⟩
        rintro i _ (h | ⟨k', a, b, c⟩)
        · exact .inl h
        · exact .inr ⟨k', a, by omega, c⟩
      · rw [show rg.2 - rg.1 = 0 by omega]
        exact ⟨e, rfl, toward_mono he (fun i _ h => h.elim id (fun ⟨k', a, b, _⟩ => by omega))⟩) hlen.symm
    (fun i hi => ⟨i, by omega, rfl⟩)
  rw [h1, bind_ok, h2, bind_ok]

theorem vol_prod (s : List Nat) : vol s = s.prod := by
  induction s with
  | nil => rfl
  | cons d s ih => simp [vol, ih]

/-- A transposed array is not larger. -/
theorem vol_newShape {o shape s' : List Nat} {r : Nat} (hs : NewShape o shape s' r) (hp : 0 < vol shape) : vol s' ≤ vol shape := by
  have h1 : ∀ j : Fin s'.length, ∃ i : Fin shape.length, o[i.1]? = some j.1 ∧ shape[i.1] = s'[j.1] := by
    intro j
    obtain ⟨i, hi, hd⟩ := hs.mem j.1 s'[j.1] (List.getElem?_eq_getElem j.2)
    obtain ⟨hi', hd'⟩ := List.getElem?_eq_some_iff.mp hd
    exact ⟨⟨i, hi'⟩, hi, hd'⟩
  choose f hf using h1
  have inj : Function.Injective f := by
    intro a b hab
    have h2 := (hf a).1
    rw [hab, (hf b).1] at h2
    exact Fin.ext (Option.some.inj h2).symm
  rw [vol_prod] at hp ⊢
  rw [vol_prod]
  rw [← Fin.prod_univ_getElem, ← Fin.prod_univ_getElem] at *
  apply Nat.le_of_dvd hp
  have : (∏ j : Fin s'.length, s'[j.1]) = ∏ i ∈ Finset.univ.image f, shape[i.1] := by
    rw [Finset.prod_image (fun a _ b _ h => inj h)]
    exact Finset.prod_congr rfl (fun j _ => (hf j).2.symm)
  rw [this]
  exact Finset.prod_dvd_prod_of_subset _ _ _ (Finset.subset_univ _)

theorem binaryTranspose_at (S : Sched) (origin : Nat) {m : Mat α} (hm : m.Ok) {o : List Nat} {r : Nat} (hl : o.length = m.shape.length)
    (ho : ∀ j, j ∈ o ↔ j < r) :
    ∃ s', NewShape o m.shape s' r ∧
    (Fits s' → ∃ m', binaryTranspose S origin m (o.map (fun j : Nat => some ((j + origin : Nat) : Int))) = .ok m' ∧ m'.Ok ∧ m'.shape = s' ∧
      ∀ c, InB s' c → m'.at c = m.at (oldCoords o c)) ∧
    (¬ Fits s' → ∃ e, binaryTranspose S origin m (o.map (fun j : Nat => some ((j + origin : Nat) : Int))) = .err e) := by
  have hr : r ≤ m.shape.length := by
    rw [← hl]
    have : List.range r ⊆ o := fun j hj => (ho j).mpr (by simpa using hj)
    have := (List.nodup_range (n := r)).length_le_of_subset this
    simpa using this
  have hrank : 0 < r := by
    have h0 : 0 < o.length := by rw [hl]; exact List.length_pos_iff.mpr hm.rank
    have := (ho o[0]).mp (List.getElem_mem h0)
    omega
  obtain ⟨s', hn, hs⟩ := newShape_spec hl (fun j hj => (ho j).mpr hj)
  have hs' : s' ≠ [] := by
    intro h; have := hs.len; rw [h] at this; simp at this; omega
  -- the data of the result
  have hdat : ∀ k, k < vol s' → ∃ y, m.data[ravel m.shape (oldCoords o (unravel s' k))]? = some y := by
    intro k hk
    have h1 := ravel_lt (oldCoords_inB hl hs (fun j hj => (ho j).mp hj) (unravel_inB hk))
    rw [← hm.len] at h1
    exact ⟨_, List.getElem?_eq_getElem h1⟩
  obtain ⟨t, hlen, ht⟩ : ∃ t : List α, t.length = vol s' ∧ ∀ k, k < vol s' → t[k]? = m.data[ravel m.shape (oldCoords o (unravel s' k))]? := by
    rcases Nat.eq_zero_or_pos (vol s') with h0 | h0
    · exact ⟨[], by simp [h0], fun k hk => by omega⟩
    · obtain ⟨y, _⟩ := hdat 0 h0
      refine ⟨(List.range (vol s')).map fun k => m.data.getD (ravel m.shape (oldCoords o (unravel s' k))) y, by simp, ?_⟩
      intro k hk
      obtain ⟨z, hz⟩ := hdat k hk
      simp only [List.getElem?_map, List.getElem?_range hk, Option.map_some, List.getD_eq_getElem?_getD, hz, Option.getD_some]
  have core := binaryTranspose_core S origin hm.toWF hl ho hr hs hn hlen ht
  refine ⟨s', hs, ?_, ?_⟩
  · intro hf
    refine ⟨⟨s', t⟩, by rw [core]; exact newMatrix_fits hs' hlen hf, ⟨⟨hs', hlen⟩, hf⟩, rfl, ?_⟩
    intro c hc
    have hi := oldCoords_inB hl hs (fun j hj => (ho j).mp hj) hc
    unfold Mat.at
    rw [if_pos hc, if_pos hi]
    show t[ravel s' c]? = _
    rw [ht _ (ravel_lt hc), unravel_ravel hc]
  · intro hf
    rw [core]
    cases s' with
    | nil => exact absurd rfl hs'
    | cons d ds =>
      unfold newMatrix
      have total : ∀ (ds : List Nat) (n : Nat), (∃ p, prodCheck n ds = .ok p) ∨ ∃ e, prodCheck n ds = .err e := by
        intro ds
        induction ds with
        | nil => intro n; exact .inl ⟨_, rfl⟩
        | cons d ds ih =>
          intro n
          unfold prodCheck
          split
          · exact .inr ⟨_, rfl⟩
          · exact ih _
      simp only
      rcases total ds d with ⟨p, hp⟩ | ⟨e, he⟩
      · rw [hp, bind_ok]
        split
        · exact ⟨_, rfl⟩
        · rename_i hne
          exfalso
          have : newMatrix (d :: ds) t = .ok ⟨d :: ds, t⟩ := by unfold newMatrix; simp only [hp, bind_ok]; rw [if_neg hne]
          exact hf ((newMatrix_ok hs').mp this).2.2
      · exact ⟨e, by rw [he]; rfl⟩

end Verif.Arr
