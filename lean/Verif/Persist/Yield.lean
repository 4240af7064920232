import Verif.Persist.Sim
/-
Helper lemmas: iteration yields the elements in order.
-/
namespace Verif.Persist
variable {α : Type} [Inhabited α]

/-- The part `[start, stop)` of the tree below depth `k`. -/
def YieldOK (h : Heap α) (root : Ptr) (top level : Nat) : Prop :=
  ∀ start stop, start ≤ stop → stop ≤ 16 ^ (top + 1) →
    (start < stop → start / 16 ^ (level + 1) = (stop - 1) / 16 ^ (level + 1)) →
    start < stop →
    yieldTree h level (pp h root top start (top - level)) start stop =
      some ((List.range (stop - start)).map (fun k => tv h root top (start + k)))

theorem range_map_split (f : Nat → α) (m n : Nat) :
    (List.range (m + n)).map f = (List.range m).map f ++ (List.range n).map (fun k => f (m + k)) := by
  rw [List.range_add, List.map_append, List.map_map]
  rfl

theorem yieldLoop_spec {h : Heap α} {root : Ptr} {top level : Nat} (ptr : Nat → Ptr) (hy : YieldOK h root top level)
    (P : Nat) (hptr : ∀ x, x / 16 ^ (level + 1) / 16 = P → pp h root top x (top - level) = ptr (digit (level + 1) x)) :
    ∀ fuel j start stop, fuel + j = 16 → start ≤ stop → stop ≤ 16 ^ (top + 1) → stop ≤ 16 * (P + 1) * 16 ^ (level + 1) →
      (start < stop → start / 16 ^ (level + 1) = 16 * P + j) →
      yieldLoop (yieldTree h level) ptr (16 ^ (level + 1)) fuel j start stop =
        some ((List.range (stop - start)).map (fun k => tv h root top (start + k))) := by
  have hW : 0 < 16 ^ (level + 1) := pow16_pos _
  intro fuel
  induction fuel with
  | zero =>
    intro j start stop hf h1 h2 h3 h4
    have : start = stop := by
      by_cases h5 : start < stop
      · have h6 := h4 h5
        have : start < 16 * (P + 1) * 16 ^ (level + 1) := by omega
        have := Nat.div_lt_of_lt_mul (Nat.mul_comm _ _ ▸ this)
        omega
      · omega
    simp [yieldLoop, this]
  | succ fuel ih =>
    intro j start stop hf h1 h2 h3 h4
    unfold yieldLoop
    by_cases h5 : start < stop
    · have h6 := h4 h5
      rw [if_pos h5]
      generalize hm : min (stop - start) (16 ^ (level + 1) - start % 16 ^ (level + 1)) = m
      have hmod := Nat.mod_lt start hW
      have hdm := Nat.div_add_mod start (16 ^ (level + 1))
      have hm0 : 0 < m := by omega
      have hpre : (start + m - 1) / 16 ^ (level + 1) = start / 16 ^ (level + 1) := by
        apply Nat.div_eq_of_lt_le
        · rw [Nat.mul_comm]; omega
        · rw [Nat.add_mul, Nat.mul_comm]; omega
      have e1 := hy start (start + m) (by omega) (by omega) (fun _ => hpre.symm) (by omega)
      have hd : digit (level + 1) start = j := by unfold digit; omega
      rw [hptr start (by omega), hd] at e1
      have hnext : start + m < stop → (start + m) / 16 ^ (level + 1) = 16 * P + (j + 1) := by
        intro h7
        have e : start + m = 16 ^ (level + 1) * (16 * P + (j + 1)) := by
          rw [← Nat.add_assoc, ← h6, Nat.mul_add]; omega
        rw [e, Nat.mul_div_cancel_left _ hW]
      have e2 := ih (j + 1) (start + m) stop (by omega) (by omega) h2 h3 hnext
      simp only [e1, e2, Option.bind_eq_bind, Option.bind_some]
      have : stop - start = m + (stop - (start + m)) := by omega
      rw [this, range_map_split, Nat.add_sub_cancel_left]
      simp only [Nat.add_assoc]
    · have : start = stop := by omega
      simp [this]

theorem yieldTree_spec {h : Heap α} {root : Ptr} {top : Nat} (wf : WF h root top) (hr : ∃ r, root = .ref r) :
    ∀ level, level ≤ top → YieldOK h root top level := by
  intro level
  induction level with
  | zero =>
    intro _ start stop h1 h2 h3 h4
    have h3 := h3 h4
    have hpp : ∀ k, k < stop - start → pp h root top (start + k) top = pp h root top start top := by
      intro k hk
      apply pp_pfx (n := 1) (Nat.le_refl _) (by omega)
      simp only [Nat.zero_add, Nat.pow_one] at h3 ⊢
      omega
    rcases wf start (by omega) top (Nat.le_refl _) with w | ⟨w, h0⟩ | ⟨a, nd, w, hn, hld⟩
    · rw [Nat.sub_zero, w]
      unfold yieldTree
      rw [List.eq_replicate_of_mem (l := (List.range (stop - start)).map _) (a := default)]
      · simp
      · intro b hb
        obtain ⟨k, hk, rfl⟩ := List.mem_map.1 hb
        unfold tv
        rw [hpp k (List.mem_range.1 hk), w]
        rfl
    · obtain ⟨r, hr⟩ := hr
      rw [h0] at w
      simp [pp, hr] at w
    · cases nd with
      | inode => simp [Node.isLeaf] at hld
      | leaf id val =>
        rw [Nat.sub_zero, w]
        simp only [yieldTree, hn, Option.some.injEq]
        apply List.map_congr_left
        intro k hk
        have hk := List.mem_range.1 hk
        unfold tv
        rw [hpp k hk, w]
        simp only [leafVal, hn]
        congr 1
        simp only [Nat.zero_add, Nat.pow_one] at h3
        omega
  | succ level ih =>
    intro hl start stop h1 h2 h3 h4
    have ih := ih (by omega)
    have h3 := h3 h4
    have ek : top - level = top - (level + 1) + 1 := by omega
    have ed : top - (top - (level + 1)) = level + 1 := by omega
    have hpp : ∀ x, x / 16 ^ (level + 1 + 1) = start / 16 ^ (level + 1 + 1) →
        pp h root top x (top - (level + 1)) = pp h root top start (top - (level + 1)) :=
      fun x hx => pp_pfx (n := level + 1 + 1) (by omega) (by omega) hx
    rcases wf start (by omega) (top - (level + 1)) (by omega) with w | ⟨w, h0⟩ | ⟨a, nd, w, hn, hld⟩
    · rw [w]
      unfold yieldTree
      rw [List.eq_replicate_of_mem (l := (List.range (stop - start)).map _) (a := default)]
      · simp
      · intro b hb
        obtain ⟨k, hk, rfl⟩ := List.mem_map.1 hb
        have hk := List.mem_range.1 hk
        have hpx : (start + k) / 16 ^ (level + 1 + 1) = start / 16 ^ (level + 1 + 1) := by
          apply Nat.le_antisymm
          · rw [h3]; exact Nat.div_le_div_right (by omega)
          · exact Nat.div_le_div_right (by omega)
        have hd := pp_nil_down (top := top) ((hpp _ hpx).trans w) (level + 1)
        rw [show top - (level + 1) + (level + 1) = top by omega] at hd
        unfold tv
        rw [hd]
        rfl
    · obtain ⟨r, hr⟩ := hr
      rw [h0] at w
      simp [pp, hr] at w
    · cases nd with
      | leaf => simp [Node.isLeaf] at hld; omega
      | inode id ptr =>
        rw [w]
        simp only [yieldTree, hn]
        have epow : ∀ x, x / 16 ^ (level + 1) / 16 = x / 16 ^ (level + 1 + 1) := by
          intro x; rw [Nat.div_div_eq_div_mul, ← Nat.pow_succ]
        have hdlt : digit (level + 1) start < 16 := Nat.mod_lt _ (by decide)
        apply yieldLoop_spec ptr ih (start / 16 ^ (level + 1 + 1))
        · intro x hx
          rw [epow] at hx
          rw [ek, pp, ed, hpp x hx, w]
          simp only [childOf, hn]
        · show 16 - _ + _ = 16
          omega
        · exact h1
        · exact h2
        · have : stop - 1 < (start / 16 ^ (level + 1 + 1) + 1) * 16 ^ (level + 1 + 1) := by
            rw [h3, Nat.mul_comm]
            have := Nat.div_add_mod (stop - 1) (16 ^ (level + 1 + 1))
            have := Nat.mod_lt (stop - 1) (pow16_pos (level + 1 + 1))
            rw [Nat.mul_add]
            omega
          have e : 16 * (start / 16 ^ (level + 1 + 1) + 1) * 16 ^ (level + 1) =
              (start / 16 ^ (level + 1 + 1) + 1) * 16 ^ (level + 1 + 1) := by
            rw [Nat.pow_succ 16 (level + 1), Nat.mul_comm 16, Nat.mul_assoc, Nat.mul_comm 16]
          rw [e]
          omega
        · intro _
          rw [← epow]
          unfold digit
          omega

/-- `Slice.Slice(i, j)` produces exactly the elements `i … j-1` in order and panics outside the bounds. -/
theorem slice_spec {h : Heap α} {s : Slice} (r : Readable h s) (i j : Int) :
    s.slice h i j = if 0 ≤ i ∧ i ≤ j ∧ j ≤ s.len then
      some (((contents h s).drop i.toNat).take (j.toNat - i.toNat)) else none := by
  unfold Slice.slice
  by_cases hb : 0 ≤ i ∧ i ≤ j ∧ j ≤ s.len
  · rw [if_pos hb, if_neg (by omega)]
    obtain ⟨h0, h1, h2⟩ := hb
    obtain ⟨a, rfl⟩ : ∃ a : Nat, i = a := ⟨i.toNat, by omega⟩
    obtain ⟨b, rfl⟩ : ∃ b : Nat, j = b := ⟨j.toNat, by omega⟩
    have ea : (a : Int).toNat = a := rfl
    have eb : (b : Int).toNat = b := rfl
    rw [ea, eb]
    have hlen : s.len = s.tlen + s.tail.len := rfl
    have hgoal : ((contents h s).drop a).take (b - a) = (List.range (b - a)).map (fun k => ev h s (a + k)) := by
      apply List.ext_getElem?
      intro k
      rw [List.getElem?_take, List.getElem?_drop, contents_get, List.getElem?_map]
      by_cases hk : k < b - a
      · rw [if_pos hk, if_pos (by omega), List.getElem?_eq_getElem (by simpa using hk)]
        simp
      · rw [if_neg hk, List.getElem?_eq_none (by simpa using hk)]
        rfl
    rw [hgoal]
    by_cases hat : a < s.tlen
    · obtain ⟨hh, hfit⟩ := r.fits hat
      have hcap : s.tlen ≤ 16 ^ (s.height - 1 + 1) := by
        rw [show s.height - 1 + 1 = s.height by omega, r.shape.height]
        exact le_pow_height _
      by_cases hab : a < b
      · have hp : a / 16 ^ (s.height - 1 + 1) = (min b s.tlen - 1) / 16 ^ (s.height - 1 + 1) := by
          rw [pfx_top hfit, pfx_top (by omega)]
        have e := yieldTree_spec (r.wf (by omega)) (r.root (by omega)) (s.height - 1) (Nat.le_refl _) a (min b s.tlen)
          (by omega) (by omega) (fun _ => hp) (by omega)
        rw [Nat.sub_self] at e
        simp only [pp] at e
        simp only [hat, if_true, e, Option.bind_eq_bind, Option.bind_some, Option.some.injEq]
        have : b - a = (min b s.tlen - a) + (b - max a s.tlen) := by omega
        rw [this, range_map_split]
        congr 1
        · apply List.map_congr_left
          intro k hk
          have hk := List.mem_range.1 hk
          unfold ev
          rw [if_pos (by omega)]
        · apply List.map_congr_left
          intro k hk
          have hk := List.mem_range.1 hk
          unfold ev
          rw [if_neg (by omega)]
          congr 1
          omega
      · have hab : b = a := by omega
        subst hab
        have : min b s.tlen = b := by omega
        have e3 : b - max b s.tlen = 0 := by omega
        simp only [hat, if_true, this, Nat.sub_self, e3, List.range_zero, List.map_nil, List.append_nil]
        have ey : yieldTree h (s.height - 1) s.tree b b = some [] := by
          obtain ⟨ra, hra⟩ := r.root (by omega)
          have hw := r.wf (by omega) b hfit 0 (Nat.zero_le _)
          rcases hw with w | ⟨w, _⟩ | ⟨a, nd, w, hn, hld⟩
          · simp only [pp] at w; rw [w]; simp [yieldTree]
          · simp only [pp, hra] at w; cases w
          · simp only [pp] at w
            rw [w]
            cases hlv : s.height - 1 with
            | zero => omega
            | succ lv =>
              cases nd with
              | leaf => simp [Node.isLeaf] at hld; omega
              | inode id ptr =>
                simp only [yieldTree, hn]
                generalize chunk - _ = f
                cases f <;> simp [yieldLoop]
        rw [ey]
        rfl
    · have e1 : max a s.tlen = a := by omega
      simp only [hat, if_false, e1, Option.bind_eq_bind, Option.bind_some, List.nil_append, Option.some.injEq]
      apply List.map_congr_left
      intro k hk
      unfold ev
      rw [if_neg (by omega)]
  · rw [if_neg hb, if_pos (by omega)]

end Verif.Persist
