import Verif.Persist.Tree
/-
Helper lemmas: `Set` into the tree, `copy`, `growTree`, `shrinkTree`, and reading.
-/
namespace Verif.Persist
variable {α : Type} [Inhabited α]

theorem setLoop_spec {top i : Nat} (x : α) (htop : 0 < top) (hi : i < 16 ^ (top + 1)) :
    ∀ level, level ≤ top → ∀ (st : St α) (sl : Slot), HeapInv st.h →
      (∃ pos, TreeInv st.h st.t.aid pos st.t.s.tree top) →
      (0 < st.t.aid ∧ st.t.aid ≤ st.h.lastId) → SlotAt st top i (top - level) sl →
      ∃ st', St.setLoop i x level st sl = some st' ∧ R top st st' ∧
        ∀ i', i' < 16 ^ (top + 1) → tv st'.h st'.t.s.tree top i' =
          if i' = i then x else tv st.h st.t.s.tree top i' := by
  intro level
  induction level with
  | zero =>
    intro _ st sl HI TI haid s
    rw [Nat.sub_zero] at s
    obtain ⟨st1, a, val, e1, r1, t1, p1, n1⟩ := wleaf_spec HI TI haid htop hi s
    have haid1 : 0 < st1.t.aid ∧ st1.t.aid ≤ st1.h.lastId := by rw [r1.aid, r1.lastId]; exact haid
    obtain ⟨st2, e2, r2, t2⟩ := leafWrite_spec r1.heap (r1.aid ▸ r1.tree) hi p1 n1
      (fun v k => if k = i % 16 then x else v k)
    refine ⟨st2, ?_, r1.trans r2, ?_⟩
    · simp only [St.setLoop, e1, Option.bind_eq_bind, Option.bind_some]
      exact e2
    · intro i' hi'
      rw [t2 i' hi']
      by_cases hq : i' / 16 = i / 16
      · rw [if_pos hq]
        by_cases hr : i' % 16 = i % 16
        · rw [if_pos hr, if_pos (by omega)]
        · rw [if_neg hr, if_neg (by rintro rfl; exact hr rfl), ← t1 i' hi']
          unfold tv
          rw [pp_pfx (n := 1) (i := i) (Nat.le_refl _) (by omega) (by simpa using hq), p1]
          simp [leafVal, n1]
      · rw [if_neg hq, if_neg (by rintro rfl; exact hq rfl), t1 i' hi']
  | succ level ih =>
    intro hl st sl HI TI haid s
    obtain ⟨st1, a, ptr, e1, r1, t1, p1, n1⟩ := wnode_spec HI TI haid hi (by omega) s
    have haid1 : 0 < st1.t.aid ∧ st1.t.aid ≤ st1.h.lastId := by rw [r1.aid, r1.lastId]; exact haid
    have s1 := SlotAt.child p1 n1
    have ek : top - (level + 1) + 1 = top - level := by omega
    have ed : top - (top - (level + 1)) = level + 1 := by omega
    rw [ek, ed] at s1
    obtain ⟨st2, e2, r2, t2⟩ := ih (by omega) st1 _ r1.heap (r1.aid ▸ r1.tree) haid1 s1
    refine ⟨st2, ?_, r1.trans r2, ?_⟩
    · simp only [St.setLoop, e1, Option.bind_eq_bind, Option.bind_some]
      exact e2
    · intro i' hi'
      rw [t2 i' hi', t1 i' hi']

/-- What `copy` at one level guarantees. -/
def CopySpec (top level : Nat) (f : St α → Slot → Nat → List α → Nat → Option (St α)) : Prop :=
  ∀ (st : St α) (sl : Slot) (off : Nat) (src : List α) (total : Nat), HeapInv st.h →
    (∃ pos, TreeInv st.h st.t.aid pos st.t.s.tree top) →
    (0 < st.t.aid ∧ st.t.aid ≤ st.h.lastId) → SlotAt st top off (top - level) sl →
    off % 16 = 0 → total % 16 = 0 → 0 < total → off % 16 ^ (level + 1) + total ≤ 16 ^ (level + 1) →
    off + total ≤ 16 ^ (top + 1) → total ≤ src.length →
    ∃ st', f st sl off src total = some st' ∧ R top st st' ∧
      (∀ i', i' < 16 ^ (top + 1) → tv st'.h st'.t.s.tree top i' =
        if off ≤ i' ∧ i' < off + total then (src[i' - off]?).getD default else tv st.h st.t.s.tree top i') ∧
      ∀ k, top - level ≤ k → k ≤ top → ∃ a, pp st'.h st'.t.s.tree top off k = .ref a

theorem copyLoop_spec {top level : Nat} (hl : level < top)
    {f : St α → Slot → Nat → List α → Nat → Option (St α)} (hf : CopySpec top level f) (a : Nat) :
    ∀ fuel j (st : St α) (off : Nat) (src : List α) (total : Nat), HeapInv st.h →
    (∃ pos, TreeInv st.h st.t.aid pos st.t.s.tree top) →
    (0 < st.t.aid ∧ st.t.aid ≤ st.h.lastId) →
    off % 16 = 0 → total % 16 = 0 →
    (0 < total → j = digit (level + 1) off ∧ pp st.h st.t.s.tree top off (top - (level + 1)) = .ref a ∧
      (∃ ptr, st.h.node a = some (.inode st.t.aid ptr)) ∧
      off % 16 ^ (level + 2) + total ≤ 16 ^ (level + 2)) →
    j + fuel = 16 →
    off + total ≤ 16 ^ (top + 1) → total ≤ src.length →
    ∃ st', copyLoop f a (16 ^ (level + 1)) fuel j st off src total = some st' ∧ R top st st' ∧
      (∀ i', i' < 16 ^ (top + 1) → tv st'.h st'.t.s.tree top i' =
        if off ≤ i' ∧ i' < off + total then (src[i' - off]?).getD default else tv st.h st.t.s.tree top i') ∧
      (0 < total → ∀ k, top - level ≤ k → k ≤ top → ∃ a, pp st'.h st'.t.s.tree top off k = .ref a) := by
  intro fuel
  induction fuel with
  | zero =>
    intro j st off src total HI TI haid hoff htot hj hfu hbd hlen
    by_cases h0 : total = 0
    · subst h0
      refine ⟨st, by simp [copyLoop], R.refl HI TI, ?_, by omega⟩
      intro i' _
      rw [if_neg (by omega)]
    · have := hj (by omega)
      have : digit (level + 1) off < 16 := Nat.mod_lt _ (by decide)
      omega
  | succ fuel ih =>
    intro j st off src total HI TI haid hoff htot hj hfu hbd hlen
    by_cases h0 : total = 0
    · subst h0
      refine ⟨st, by simp [copyLoop], R.refl HI TI, ?_, by omega⟩
      intro i' _
      rw [if_neg (by omega)]
    · obtain ⟨hjd, hpa, ⟨ptr, hna⟩, hspan⟩ := hj (by omega)
      -- arithmetic facts about W = 16^(level+1)
      have hWpos := pow16_pos (level + 1)
      have hW16 : 16 ^ (level + 1) % 16 = 0 := by rw [Nat.pow_succ]; omega
      have hWW : 16 ^ (level + 2) = 16 ^ (level + 1) * 16 := Nat.pow_succ ..
      rw [hWW] at hspan
      rw [Nat.mod_mul] at hspan
      have hrlt := Nat.mod_lt off hWpos
      have hr16 : off % 16 ^ (level + 1) % 16 = 0 := by
        rw [Nat.mod_mod_of_dvd _ (Nat.dvd_of_mod_eq_zero hW16)]; exact hoff
      have hdm := Nat.div_add_mod off (16 ^ (level + 1))
      have hfit : 16 ^ (level + 1) ≤ 16 ^ (top + 1) := Nat.pow_le_pow_right (by decide) (by omega)
      have hdig : digit (level + 1) off = off / 16 ^ (level + 1) % 16 := rfl
      -- facts about the next offset when more remains
      have hnext : 16 ^ (level + 1) - off % 16 ^ (level + 1) < total →
          (off + (16 ^ (level + 1) - off % 16 ^ (level + 1))) / 16 ^ (level + 1) = off / 16 ^ (level + 1) + 1 ∧
          (off + (16 ^ (level + 1) - off % 16 ^ (level + 1))) % 16 ^ (level + 1) = 0 ∧
          off / 16 ^ (level + 1) % 16 < 15 := by
        intro hlt
        have e : off + (16 ^ (level + 1) - off % 16 ^ (level + 1)) =
            16 ^ (level + 1) * (off / 16 ^ (level + 1) + 1) := by
          rw [Nat.mul_add, Nat.mul_one]; omega
        refine ⟨?_, ?_, ?_⟩
        · rw [e, Nat.mul_div_cancel_left _ hWpos]
        · rw [e, Nat.mul_mod_right]
        · have h16 : off / 16 ^ (level + 1) % 16 < 16 := Nat.mod_lt _ (by decide)
          by_cases h15 : off / 16 ^ (level + 1) % 16 = 15
          · rw [h15] at hspan; omega
          · omega
      simp only [copyLoop]
      rw [if_neg h0]
      generalize hm : min total (16 ^ (level + 1) - off % 16 ^ (level + 1)) = m
      have hmpos : 0 < m := by omega
      have hm16 : m % 16 = 0 := by omega
      have hmt : m ≤ total := by omega
      rw [if_neg (by omega)]
      have s1 : SlotAt st top off (top - level) (.child a j) := by
        have s := SlotAt.child hpa hna
        have ek : top - (level + 1) + 1 = top - level := by omega
        have ed : top - (top - (level + 1)) = level + 1 := by omega
        rw [ek, ed, ← hjd] at s
        exact s
      obtain ⟨st1, e1, r1, t1, p1⟩ := hf st (.child a j) off (src.take m) m HI TI haid s1 hoff hm16 hmpos
        (by omega) (by omega) (by simp; omega)
      have haid1 : 0 < st1.t.aid ∧ st1.t.aid ≤ st1.h.lastId := by rw [r1.aid, r1.lastId]; exact haid
      have hstay : pp st1.h st1.t.s.tree top off (top - (level + 1)) = .ref a :=
        r1.own off (by omega) _ (by omega) a _ hpa hna rfl
      have hna1 : ∃ ptr, st1.h.node a = some (.inode st1.t.aid ptr) := by
        obtain ⟨nd', hn', hid', hl'⟩ := r1.ext.same a _ hna
        cases nd' with
        | leaf => simp [Node.isLeaf] at hl'
        | inode id p' =>
          have : id = st.t.aid := hid'
          exact ⟨p', by rw [hn', this, r1.aid]⟩
      obtain ⟨st2, e2, r2, t2, p2⟩ := ih (j + 1) st1 (off + m) (src.drop m) (total - m) r1.heap
        (r1.aid ▸ r1.tree) haid1 (by omega) (by omega) (by
          intro hmore
          have hmeq : m = 16 ^ (level + 1) - off % 16 ^ (level + 1) := by omega
          obtain ⟨n1, n2, n3⟩ := hnext (by omega)
          rw [← hmeq] at n1 n2
          have hd1 : digit (level + 1) (off + m) = j + 1 := by
            unfold digit
            rw [n1, hjd, hdig]; omega
          refine ⟨hd1.symm, ?_, hna1, ?_⟩
          · rw [← hstay]
            refine pp_pfx (n := level + 2) (by omega) (by omega) ?_
            rw [hWW, ← Nat.div_div_eq_div_mul, ← Nat.div_div_eq_div_mul, n1]
            omega
          · rw [hWW, Nat.mod_mul, n1, n2]
            have hj1 : (off / 16 ^ (level + 1) + 1) % 16 = off / 16 ^ (level + 1) % 16 + 1 := by omega
            rw [hj1, Nat.mul_add]
            omega) (by omega) (by omega) (by simp; omega)
      refine ⟨st2, ?_, r1.trans r2, ?_, ?_⟩
      · rw [e1]; exact e2
      · intro i' hi'
        rw [t2 i' hi', t1 i' hi']
        by_cases hA : off ≤ i' ∧ i' < off + total
        · rw [if_pos hA]
          by_cases hB : i' < off + m
          · rw [if_neg (by omega), if_pos (by omega), List.getElem?_take_of_lt (by omega)]
          · rw [if_pos (by omega), List.getElem?_drop]
            congr 2
            omega
        · rw [if_neg (by omega), if_neg (by omega), if_neg hA]
      · intro _ k hk1 hk2
        exact r2.nonnil off (by omega) k hk2 (p1 k hk1 hk2)

theorem copy_spec {top : Nat} (htop : 0 < top) : ∀ level, level ≤ top → CopySpec (α := α) top level (St.copy level) := by
  intro level
  induction level with
  | zero =>
    intro _ st sl off src total HI TI haid s hoff htot hpos hspan hbd hlen
    have h16 : total = 16 := by
      have : (16 : Nat) ^ (0 + 1) = 16 := rfl
      omega
    subst h16
    rw [Nat.sub_zero] at s
    obtain ⟨st1, a, val, e1, r1, t1, p1, n1⟩ := wleaf_spec HI TI haid htop (by omega) s
    obtain ⟨st2, e2, r2, t2⟩ := leafWrite_spec r1.heap (r1.aid ▸ r1.tree) (by omega : off < _) p1 n1
      (fun _ k => (src[k]?).getD default)
    refine ⟨st2, ?_, r1.trans r2, ?_, ?_⟩
    · simp only [St.copy, e1, Option.bind_eq_bind, Option.bind_some]
      rw [if_neg (show ¬ src.length < 16 by omega)]
      exact e2
    · intro i' hi'
      rw [t2 i' hi']
      by_cases hA : off ≤ i' ∧ i' < off + 16
      · rw [if_pos (by omega), if_pos hA]
        congr 2
        omega
      · rw [if_neg (by omega), if_neg hA, t1 i' hi']
    · intro k hk1 hk2
      have : k = top := by omega
      subst this
      exact r2.nonnil off (by omega) k hk2 ⟨a, p1⟩
  | succ level ih =>
    intro hl st sl off src total HI TI haid s hoff htot hpos hspan hbd hlen
    obtain ⟨st1, a, ptr, e1, r1, t1, p1, n1⟩ := wnode_spec HI TI haid (by omega) (by omega) s
    have haid1 : 0 < st1.t.aid ∧ st1.t.aid ≤ st1.h.lastId := by rw [r1.aid, r1.lastId]; exact haid
    have hdlt : digit (level + 1) off < 16 := Nat.mod_lt _ (by decide)
    obtain ⟨st2, e2, r2, t2, p2⟩ := copyLoop_spec (by omega) (ih (by omega)) a (16 - digit (level + 1) off)
      (digit (level + 1) off) st1 off src total r1.heap (r1.aid ▸ r1.tree) haid1 hoff htot
      (fun _ => ⟨rfl, p1, ⟨ptr, n1⟩, hspan⟩) (by omega) hbd hlen
    refine ⟨st2, ?_, r1.trans r2, ?_, ?_⟩
    · simp only [St.copy, e1, Option.bind_eq_bind, Option.bind_some]
      exact e2
    · intro i' hi'
      rw [t2 i' hi', t1 i' hi']
    · intro k hk1 hk2
      by_cases hk : k = top - (level + 1)
      · subst hk
        exact r2.nonnil off (by omega) _ hk2 ⟨a, p1⟩
      · exact p2 hpos k (by omega) hk2

/-! ### Height -/

theorem lt_pow_bitsLen (n : Nat) : n < 2 ^ bitsLen n := by
  unfold bitsLen
  split
  · omega
  · exact Nat.lt_log2_self

theorem le_pow_height (n : Nat) : n ≤ 16 ^ height n := by
  unfold height
  split
  · omega
  · have h1 := lt_pow_bitsLen (n - 1)
    have h2 : 2 ^ bitsLen (n - 1) ≤ 16 ^ max 2 (1 + bitsLen (n - 1) / 4) := by
      have : (16 : Nat) = 2 ^ 4 := rfl
      rw [this, ← Nat.pow_mul]
      exact Nat.pow_le_pow_right (by decide) (by omega)
    omega

theorem height_pos {n : Nat} (h : n ≠ 0) : 2 ≤ height n := by
  unfold height
  rw [if_neg h]
  omega

theorem height_zero : height 0 = 0 := rfl

theorem bitsLen_mono {m n : Nat} (h : m ≤ n) : bitsLen m ≤ bitsLen n := by
  unfold bitsLen
  by_cases hm : m = 0
  · simp [hm]
  · rw [if_neg hm, if_neg (by omega)]
    have : Nat.log2 m ≤ Nat.log2 n := by
      rw [Nat.le_log2 (by omega)]
      exact Nat.le_trans (Nat.log2_self_le hm) h
    omega

theorem height_mono {m n : Nat} (h : m ≤ n) : height m ≤ height n := by
  unfold height
  by_cases hm : m = 0
  · simp [hm]
  · rw [if_neg hm, if_neg (by omega)]
    have := bitsLen_mono (m := m - 1) (n := n - 1) (by omega)
    omega

end Verif.Persist
