import Verif.Num.Lemmas2
/-
Helper lemmas for C08-C17: shifts, comparisons, booleans, min, max, and the bits of machine integers.
-/
namespace Verif.Num

theorem shiftCount_ok {j : Int} {n : Nat} (h : shiftCount j = .ok n) : j = n := by
  unfold shiftCount at h
  split at h
  · rename_i c hc
    have : c = j := by
      have := congrArg Num.val hc
      simp at this
      exact_mod_cast this.symm
    subst this
    split at h
    · cases h
    · cases h
      omega
  · cases h

theorem shiftCount_cases (j : Int) : shiftCount j = .err ∨ ∃ n, shiftCount j = .ok n := by
  unfold shiftCount
  split
  · split
    · left; rfl
    · right; exact ⟨_, rfl⟩
  · left; rfl

theorem shl_ok {u v : Num} (hu : u.Small) (hv : v.Small) :
    Yields (fun c => Op2.Spec .shl u.val v.val c) (opShl.eval u v) := by
  refine div_elim rfl hu.isNum hv.isNum _ ?_ ?_
  · intro a b _ _ ha hb
    rw [ha, hb]
    show Yields _ ((shiftCount b).bind fun n => .ok (shrinkBig (a * 2 ^ n)))
    rcases shiftCount_cases b with h | ⟨n, h⟩
    · rw [h]; exact yields_err
    · rw [h]
      have := shiftCount_ok h
      subst this
      exact yields_big ⟨a, n, rfl, rfl, by push_cast; rfl⟩
  · intro a b _ _ _
    exact yields_err

theorem shr_ok {u v : Num} (hu : u.Small) (hv : v.Small) :
    Yields (fun c => Op2.Spec .shr u.val v.val c) (opShr.eval u v) := by
  refine div_elim rfl hu.isNum hv.isNum _ ?_ ?_
  · intro a b _ _ ha hb
    rw [ha, hb]
    show Yields _ ((shiftCount b).bind fun n => .ok (shrinkBig (a / 2 ^ n)))
    rcases shiftCount_cases b with h | ⟨n, h⟩
    · rw [h]; exact yields_err
    · rw [h]
      have := shiftCount_ok h
      subst this
      have hp : (0 : Int) < 2 ^ n := by positivity
      refine yields_big ⟨a, a / 2 ^ n, n, rfl, rfl, rfl, ?_, ?_⟩
      · have := Int.ediv_mul_le a hp.ne'
        exact_mod_cast this
      · have := Int.lt_ediv_add_one_mul_self a hp
        exact_mod_cast this
  · intro a b _ _ _
    exact yields_err

theorem yields_bool {b : Bool} {p : Prop} [Decidable p] (h : b = true ↔ p) : Yields (fun c => c = truth p) (.ok (toInt b)) := by
  refine yields_ok (small_toInt b) ?_
  rw [val_toInt, truth]
  by_cases hp : p
  · rw [if_pos hp, if_pos (h.2 hp)]
  · rw [if_neg hp, if_neg (fun h2 => hp (h.1 h2))]

theorem cmp_ok {f : Int → Int → Bool} {g : Rat → Rat → Bool} {u v : Num} (hu : u.Small) (hv : v.Small) (p : Prop) [Decidable p]
    (h1 : ∀ a b : Int, u.val = a → v.val = b → (f a b = true ↔ p)) (h2 : ∀ a b : Rat, u.val = a → v.val = b → (g a b = true ↔ p)) :
    Yields (fun c => c = truth p) ((opCmp f g).eval u v) := by
  refine arith_elim rfl hu.isNum hv.isNum _ ?_ ?_ ?_
  · rintro a b rfl rfl
    exact yields_bool (h1 a b rfl rfl)
  · intro a b _ _ ha hb
    exact yields_bool (h1 a b ha hb)
  · intro a b ha hb _
    exact yields_bool (h2 a b ha hb)

theorem eq_ok {u v : Num} (hu : u.Small) (hv : v.Small) : Yields (fun c => Op2.Spec .eq u.val v.val c) (opEq.eval u v) := by
  refine cmp_ok hu hv (u.val = v.val) ?_ ?_ <;> intro a b ha hb <;> rw [ha, hb] <;> simp
theorem ne_ok {u v : Num} (hu : u.Small) (hv : v.Small) : Yields (fun c => Op2.Spec .ne u.val v.val c) (opNe.eval u v) := by
  refine cmp_ok hu hv (u.val ≠ v.val) ?_ ?_ <;> intro a b ha hb <;> rw [ha, hb] <;> simp
theorem lt_ok {u v : Num} (hu : u.Small) (hv : v.Small) : Yields (fun c => Op2.Spec .lt u.val v.val c) (opLt.eval u v) := by
  refine cmp_ok hu hv (u.val < v.val) ?_ ?_ <;> intro a b ha hb <;> rw [ha, hb] <;> simp
theorem le_ok {u v : Num} (hu : u.Small) (hv : v.Small) : Yields (fun c => Op2.Spec .le u.val v.val c) (opLe.eval u v) := by
  refine cmp_ok hu hv (u.val ≤ v.val) ?_ ?_ <;> intro a b ha hb <;> rw [ha, hb] <;> simp
theorem gt_ok {u v : Num} (hu : u.Small) (hv : v.Small) : Yields (fun c => Op2.Spec .gt u.val v.val c) (opGt.eval u v) := by
  refine cmp_ok hu hv (v.val < u.val) ?_ ?_ <;> intro a b ha hb <;> rw [ha, hb] <;> simp
theorem ge_ok {u v : Num} (hu : u.Small) (hv : v.Small) : Yields (fun c => Op2.Spec .ge u.val v.val c) (opGe.eval u v) := by
  refine cmp_ok hu hv (v.val ≤ u.val) ?_ ?_ <;> intro a b ha hb <;> rw [ha, hb] <;> simp

theorem toBool_val {n : Num} (h : n.isNum) : toBool n = true ↔ n.val ≠ 0 := by
  cases n <;> first | exact h.elim | simp [toBool]

theorem bool_ok {f : Bool → Bool → Bool} {u v : Num} (hu : u.Small) (hv : v.Small) (p : Prop) [Decidable p]
    (h : ∀ a b : Bool, (a = true ↔ u.val ≠ 0) → (b = true ↔ v.val ≠ 0) → (f a b = true ↔ p)) :
    Yields (fun c => c = truth p) ((opBool f).eval u v) := by
  refine arith_elim rfl hu.isNum hv.isNum _ ?_ ?_ ?_
  · rintro a b rfl rfl
    exact yields_bool (h _ _ (toBool_val hu.isNum) (toBool_val hv.isNum))
  · intro a b _ _ ha hb
    exact yields_bool (h _ _ (by rw [ha]; exact toBool_val (n := .bigInt a) trivial) (by rw [hb]; exact toBool_val (n := .bigInt b) trivial))
  · intro a b ha hb _
    exact yields_bool (h _ _ (by rw [ha]; exact toBool_val (n := .bigRat a) trivial) (by rw [hb]; exact toBool_val (n := .bigRat b) trivial))

theorem and_ok {mb : Nat} {u v : Num} (hu : u.Small) (hv : v.Small) : Yields (fun c => Op2.Spec .and u.val v.val c) ((Op2.and.impl mb).eval u v) := by
  refine bool_ok hu hv (u.val ≠ 0 ∧ v.val ≠ 0) ?_
  intro a b ha hb; rw [← ha, ← hb]; simp
theorem or_ok {mb : Nat} {u v : Num} (hu : u.Small) (hv : v.Small) : Yields (fun c => Op2.Spec .or u.val v.val c) ((Op2.or.impl mb).eval u v) := by
  refine bool_ok hu hv (u.val ≠ 0 ∨ v.val ≠ 0) ?_
  intro a b ha hb; rw [← ha, ← hb]; simp
theorem xor_ok {mb : Nat} {u v : Num} (hu : u.Small) (hv : v.Small) : Yields (fun c => Op2.Spec .xor u.val v.val c) ((Op2.xor.impl mb).eval u v) := by
  refine bool_ok hu hv ((u.val ≠ 0) ≠ (v.val ≠ 0)) ?_
  intro a b ha hb
  have h1 : (u.val ≠ 0) = (a = true) := propext ha.symm
  have h2 : (v.val ≠ 0) = (b = true) := propext hb.symm
  rw [h1, h2]; cases a <;> cases b <;> simp
theorem nand_ok {mb : Nat} {u v : Num} (hu : u.Small) (hv : v.Small) : Yields (fun c => Op2.Spec .nand u.val v.val c) ((Op2.nand.impl mb).eval u v) := by
  refine bool_ok (f := fun a b => !(a && b)) hu hv (¬ (u.val ≠ 0 ∧ v.val ≠ 0)) ?_
  intro a b ha hb; rw [← ha, ← hb]; cases a <;> cases b <;> simp
theorem nor_ok {mb : Nat} {u v : Num} (hu : u.Small) (hv : v.Small) : Yields (fun c => Op2.Spec .nor u.val v.val c) ((Op2.nor.impl mb).eval u v) := by
  refine bool_ok (f := fun a b => !(a || b)) hu hv (u.val = 0 ∧ v.val = 0) ?_
  intro a b ha hb
  by_cases h1 : u.val = 0 <;> by_cases h2 : v.val = 0 <;> simp [h1, h2] at ha hb ⊢ <;> simp [ha, hb]

theorem min_ok {u v : Num} (hu : u.Small) (hv : v.Small) : Yields (fun c => Op2.Spec .min u.val v.val c) (opMin.eval u v) := by
  refine arith_elim rfl hu.isNum hv.isNum _ ?_ ?_ ?_
  · rintro a b rfl rfl
    show Yields _ (.ok (.int (if a < b then a else b)))
    split
    · rename_i h
      exact yields_int hu ⟨Or.inl rfl, le_refl _, by simp; omega⟩
    · rename_i h
      exact yields_int hv ⟨Or.inr rfl, by simp; omega, le_refl _⟩
  · intro a b _ _ ha hb
    rw [ha, hb]
    show Yields _ (.ok (if a < b then shrinkBig a else shrinkBig b))
    split
    · rename_i h
      exact yields_big ⟨Or.inl rfl, le_refl _, by simp; omega⟩
    · rename_i h
      exact yields_big ⟨Or.inr rfl, by simp; omega, le_refl _⟩
  · intro a b ha hb _
    rw [ha, hb]
    show Yields _ (.ok (if a < b then shrinkRat a else shrinkRat b))
    split
    · rename_i h
      exact yields_rat ⟨Or.inl rfl, le_refl _, h.le⟩
    · rename_i h
      exact yields_rat ⟨Or.inr rfl, not_lt.1 h, le_refl _⟩

theorem max_ok {u v : Num} (hu : u.Small) (hv : v.Small) : Yields (fun c => Op2.Spec .max u.val v.val c) (opMax.eval u v) := by
  refine arith_elim rfl hu.isNum hv.isNum _ ?_ ?_ ?_
  · rintro a b rfl rfl
    show Yields _ (.ok (.int (if a > b then a else b)))
    split
    · rename_i h
      exact yields_int hu ⟨Or.inl rfl, le_refl _, by simp; omega⟩
    · rename_i h
      exact yields_int hv ⟨Or.inr rfl, by simp; omega, le_refl _⟩
  · intro a b _ _ ha hb
    rw [ha, hb]
    show Yields _ (.ok (.bigInt (if a > b then a else b)))
    refine yields_ok trivial ?_
    split
    · rename_i h
      exact ⟨Or.inl rfl, le_refl _, by simp; omega⟩
    · rename_i h
      exact ⟨Or.inr rfl, by simp; omega, le_refl _⟩
  · intro a b ha hb _
    rw [ha, hb]
    show Yields _ (.ok (if a > b then shrinkRat a else shrinkRat b))
    split
    · rename_i h
      exact yields_rat ⟨Or.inl rfl, le_refl _, le_of_lt h⟩
    · rename_i h
      exact yields_rat ⟨Or.inr rfl, not_lt.1 h, le_refl _⟩

/-! Bits -/

theorem bit_toInt (x : BitVec 64) (k : Nat) : bit x.toInt k = if k < 64 then x.getLsbD k else x.msb := by
  have hlt := x.isLt
  unfold bit
  rw [BitVec.toInt_eq_msb_cond]
  by_cases hk : k < 64
  · rw [if_pos hk]
    have hb : x.getLsbD k = ((x.toNat / 2 ^ k) % 2 == 1) := by
      rw [BitVec.getLsbD, Nat.testBit_eq_decide_div_mod_eq]
      simp [beq_eq_decide]
    rw [hb]
    obtain ⟨m, hm⟩ : ∃ m, 64 = k + (m + 1) := ⟨63 - k, by omega⟩
    split
    · have e : ((x.toNat : Int) - ((2 ^ 64 : Nat) : Int)) / 2 ^ k = (x.toNat : Int) / 2 ^ k - 2 * 2 ^ m := by
        generalize x.toNat = n
        have : (2 : Int) ^ k ≠ 0 := by positivity
        have h64 : ((2 ^ 64 : Nat) : Int) = 2 ^ k * (2 ^ m * 2) := by
          rw [← pow_succ, ← pow_add, ← hm]; norm_num
        rw [h64, show (n : Int) - 2 ^ k * (2 ^ m * 2) = n + 2 ^ k * (-(2 * 2 ^ m)) by ring, Int.add_mul_ediv_left _ _ this]
        ring
      rw [e]
      have e2 : ((x.toNat : Int) / 2 ^ k - 2 * 2 ^ m) % 2 = ((x.toNat / 2 ^ k % 2 : Nat) : Int) := by
        have : ((x.toNat : Int) / 2 ^ k) = ((x.toNat / 2 ^ k : Nat) : Int) := by push_cast; rfl
        rw [this]; omega
      rw [e2]
      rcases Nat.mod_two_eq_zero_or_one (x.toNat / 2 ^ k) with h | h <;> rw [h] <;> rfl
    · have e2 : ((x.toNat : Int) / 2 ^ k) % 2 = ((x.toNat / 2 ^ k % 2 : Nat) : Int) := by
        push_cast; rfl
      rw [e2]
      rcases Nat.mod_two_eq_zero_or_one (x.toNat / 2 ^ k) with h | h <;> rw [h] <;> rfl
  · rw [if_neg hk]
    have hp : (2 : Nat) ^ 64 ≤ 2 ^ k := Nat.pow_le_pow_right (by omega) (by omega)
    have hp2 : (2 : Int) ^ 64 ≤ 2 ^ k := by exact_mod_cast hp
    split
    · rename_i h
      rw [h]
      have hm : 2 ^ 63 ≤ x.toNat := by
        have := BitVec.msb_eq_true_iff_two_mul_ge.1 h
        omega
      have e : ((x.toNat : Int) - ((2 ^ 64 : Nat) : Int)) / 2 ^ k = -1 := by
        have hpos : (0 : Int) < 2 ^ k := by positivity
        have h1 : -1 ≤ ((x.toNat : Int) - ((2 ^ 64 : Nat) : Int)) / 2 ^ k := by
          rw [Int.le_ediv_iff_mul_le hpos]; omega
        have h2 : ((x.toNat : Int) - ((2 ^ 64 : Nat) : Int)) / 2 ^ k < 0 := by
          rw [Int.ediv_lt_iff_lt_mul hpos]; omega
        omega
      rw [e]; rfl
    · rename_i h
      have : ((x.toNat : Int)) / 2 ^ k = 0 := Int.ediv_eq_zero_of_lt (by omega) (by omega)
      rw [this]
      simp at h
      rw [h]; rfl

theorem bit_of_small {a : Int} (h1 : -2 ^ 63 ≤ a) (h2 : a < 2 ^ 63) (k : Nat) :
    bit a k = if k < 64 then (BitVec.ofInt 64 a).getLsbD k else (BitVec.ofInt 64 a).msb := by
  rw [← bit_toInt, BitVec.toInt_ofInt]
  have := wrap64_small h1 h2
  unfold wrap64 at this
  rw [this]

theorem bit_and64 {a b : Int} (ha : -2 ^ 63 ≤ a ∧ a < 2 ^ 63) (hb : -2 ^ 63 ≤ b ∧ b < 2 ^ 63) (k : Nat) :
    bit (and64 a b) k = (bit a k && bit b k) := by
  rw [and64, bit_toInt, bit_of_small ha.1 ha.2, bit_of_small hb.1 hb.2]
  split <;> simp

theorem bit_or64 {a b : Int} (ha : -2 ^ 63 ≤ a ∧ a < 2 ^ 63) (hb : -2 ^ 63 ≤ b ∧ b < 2 ^ 63) (k : Nat) :
    bit (or64 a b) k = (bit a k || bit b k) := by
  rw [or64, bit_toInt, bit_of_small ha.1 ha.2, bit_of_small hb.1 hb.2]
  split <;> simp

theorem bit_xor64 {a b : Int} (ha : -2 ^ 63 ≤ a ∧ a < 2 ^ 63) (hb : -2 ^ 63 ≤ b ∧ b < 2 ^ 63) (k : Nat) :
    bit (xor64 a b) k = (bit a k ^^ bit b k) := by
  rw [xor64, bit_toInt, bit_of_small ha.1 ha.2, bit_of_small hb.1 hb.2]
  split <;> simp

theorem bit_not64 {a : Int} (ha : -2 ^ 63 ≤ a ∧ a < 2 ^ 63) (k : Nat) :
    bit (not64 a) k = !bit a k := by
  rw [not64, bit_toInt, bit_of_small ha.1 ha.2]
  split
  · rename_i h; simp [h]
  · simp

theorem bit_eq_testBit (z : Int) (k : Nat) : bit z k = z.testBit k := by
  cases z with
  | ofNat n =>
    show _ = n.testBit k
    rw [Nat.testBit_eq_decide_div_mod_eq]
    unfold bit
    have : (Int.ofNat n) / 2 ^ k % 2 = ((n / 2 ^ k % 2 : Nat) : Int) := by push_cast; rfl
    rw [this]
    rcases Nat.mod_two_eq_zero_or_one (n / 2 ^ k) with h | h <;> rw [h] <;> rfl
  | negSucc n =>
    show _ = !n.testBit k
    rw [Nat.testBit_eq_decide_div_mod_eq]
    unfold bit
    have hpos : (0 : Int) < 2 ^ k := by positivity
    have e : (Int.negSucc n) / 2 ^ k = -((n / 2 ^ k : Nat) : Int) - 1 := by
      have hd := Nat.div_add_mod n (2 ^ k)
      have hm := Nat.mod_lt n (y := 2 ^ k) (by positivity)
      have h1 : -((n / 2 ^ k : Nat) : Int) - 1 ≤ (Int.negSucc n) / 2 ^ k := by
        rw [Int.le_ediv_iff_mul_le hpos, Int.negSucc_eq]
        have : ((2 ^ k : Nat) : Int) = 2 ^ k := by push_cast; rfl
        rw [← this]
        have : (-((n / 2 ^ k : Nat) : Int) - 1) * ((2 ^ k : Nat) : Int) = -((2 ^ k * (n / 2 ^ k) : Nat) : Int) - ((2 ^ k : Nat) : Int) := by
          push_cast; ring
        rw [this]; omega
      have h2 : (Int.negSucc n) / 2 ^ k < -((n / 2 ^ k : Nat) : Int) := by
        rw [Int.ediv_lt_iff_lt_mul hpos, Int.negSucc_eq]
        have : ((2 ^ k : Nat) : Int) = 2 ^ k := by push_cast; rfl
        rw [← this]
        have : (-((n / 2 ^ k : Nat) : Int)) * ((2 ^ k : Nat) : Int) = -((2 ^ k * (n / 2 ^ k) : Nat) : Int) := by
          push_cast; ring
        rw [this]; omega
      omega
    rw [e]
    rcases Nat.mod_two_eq_zero_or_one (n / 2 ^ k) with h | h
    · have : (-((n / 2 ^ k : Nat) : Int) - 1) % 2 = 1 := by omega
      rw [this, h]; rfl
    · have : (-((n / 2 ^ k : Nat) : Int) - 1) % 2 = 0 := by omega
      rw [this, h]; rfl

theorem bit_zero (k : Nat) : bit 0 k = false := by simp [bit]
theorem bit_neg_one (k : Nat) : bit (-1) k = true := by
  rw [bit_eq_testBit]; show (!Nat.testBit 0 k) = true; simp

theorem bit_ext {y z : Int} (h : ∀ k, bit y k = bit z k) : y = z := by
  have ht : ∀ k, y.testBit k = z.testBit k := fun k => by rw [← bit_eq_testBit, ← bit_eq_testBit, h]
  have far : ∀ n : Nat, ∃ k, n.testBit k = false ∧ ∀ m : Nat, m ≤ n → m.testBit k = false := fun n =>
    ⟨n, Nat.testBit_lt_two_pow Nat.lt_two_pow_self,
      fun m hm => Nat.testBit_lt_two_pow (Nat.lt_of_le_of_lt hm Nat.lt_two_pow_self)⟩
  cases y with
  | ofNat a =>
    cases z with
    | ofNat b => exact congrArg Int.ofNat (Nat.eq_of_testBit_eq fun k => ht k)
    | negSucc b =>
      exfalso
      obtain ⟨k, h1, h2⟩ := far (max a b)
      have := ht k
      simp only [Int.testBit] at this
      have ha := h2 a (by omega)
      have hb := h2 b (by omega)
      rw [ha, hb] at this
      exact absurd this (by decide)
  | negSucc a =>
    cases z with
    | ofNat b =>
      exfalso
      obtain ⟨k, h1, h2⟩ := far (max a b)
      have := ht k
      simp only [Int.testBit] at this
      have ha := h2 a (by omega)
      have hb := h2 b (by omega)
      rw [ha, hb] at this
      exact absurd this (by decide)
    | negSucc b =>
      refine congrArg Int.negSucc (Nat.eq_of_testBit_eq fun k => ?_)
      have := ht k
      simp only [Int.testBit] at this
      simpa using this

theorem bit_div (z : Int) (m k : Nat) : bit (z / 2 ^ m) k = bit z (m + k) := by
  unfold bit
  rw [Int.ediv_ediv_of_nonneg (by positivity), ← pow_add]

theorem bit_two31 (k : Nat) : bit (2 ^ 31) k = decide (k = 31) := by
  rw [bit_eq_testBit]
  show Nat.testBit (2 ^ 31) k = _
  rw [Nat.testBit_two_pow]
  exact decide_eq_decide.mpr eq_comm

/-- The range of `&` on small integers. -/
theorem band_range {a b r : Int} (hr : ∀ k, bit r k = (bit a k && bit b k))
    (ha : -(2 ^ 31) ≤ a ∧ a ≤ 2 ^ 31) (hb : -(2 ^ 31) ≤ b ∧ b ≤ 2 ^ 31) :
    -(2 ^ 31) ≤ r ∧ r ≤ 2 ^ 31 := by
  have one : ∀ a b : Int, (∀ k, bit r k = (bit a k && bit b k)) → 0 ≤ a → a ≤ 2 ^ 31 → 0 ≤ r ∧ r ≤ 2 ^ 31 := by
    intro a b hr h0 h1
    by_cases e : a = 2 ^ 31
    · cases hbb : bit b 31
      · have : r = 0 := bit_ext fun k => by
          rw [hr, e, bit_two31, bit_zero]
          by_cases hk : k = 31
          · subst hk; rw [hbb]; rfl
          · simp [hk]
        omega
      · have : r = 2 ^ 31 := bit_ext fun k => by
          rw [hr, e, bit_two31]
          by_cases hk : k = 31
          · subst hk; rw [hbb]; rfl
          · simp [hk]
        omega
    · have : a / 2 ^ 31 = 0 := by omega
      have : r / 2 ^ 31 = 0 := bit_ext fun k => by
        rw [bit_div, hr, ← bit_div a, this, bit_zero, Bool.false_and]
      omega
  by_cases h : 0 ≤ a
  · have := one a b hr h ha.2; omega
  · by_cases h' : 0 ≤ b
    · have := one b a (fun k => by rw [hr, Bool.and_comm]) h' hb.2; omega
    · have e1 : a / 2 ^ 31 = -1 := by omega
      have e2 : b / 2 ^ 31 = -1 := by omega
      have : r / 2 ^ 31 = -1 := bit_ext fun k => by
        rw [bit_div, hr, ← bit_div a, ← bit_div b, e1, e2, bit_neg_one]; rfl
      omega

theorem yieldsV_int {P : Rat → Prop} {i : Int} (h : P i) : YieldsV P (.ok (.int i)) :=
  ⟨by simp, fun w' e => by cases e; exact ⟨trivial, h⟩⟩

theorem yieldsV_of {P : Rat → Prop} {r : Res Num} (h : Yields P r) : YieldsV P r :=
  ⟨h.1, fun w hw => ⟨(h.2 w hw).1.isNum, (h.2 w hw).2⟩⟩

theorem in64 {a : Int} (h : -(2 ^ 31) ≤ a ∧ a ≤ 2 ^ 31) : -2 ^ 63 ≤ a ∧ a < 2 ^ 63 := by omega

theorem and_cases {a b : Int} (ha : -2 ^ 63 ≤ a ∧ a < 2 ^ 63) (hb : -2 ^ 63 ≤ b ∧ b < 2 ^ 63) (k : Nat) :
    bit (if a = 0 ∨ b = -1 then a else if b = 0 ∨ a = -1 then b else and64 a b) k = (bit a k && bit b k) := by
  split
  · rename_i h; rcases h with rfl | rfl
    · simp [bit_zero]
    · simp [bit_neg_one]
  · split
    · rename_i h; rcases h with rfl | rfl
      · simp [bit_zero]
      · simp [bit_neg_one]
    · exact bit_and64 ha hb k

theorem or_cases {a b : Int} (ha : -2 ^ 63 ≤ a ∧ a < 2 ^ 63) (hb : -2 ^ 63 ≤ b ∧ b < 2 ^ 63) (k : Nat) :
    bit (if a = 0 ∨ b = -1 then b else if b = 0 ∨ a = -1 then a else or64 a b) k = (bit a k || bit b k) := by
  split
  · rename_i h; rcases h with rfl | rfl
    · simp [bit_zero]
    · simp [bit_neg_one]
  · split
    · rename_i h; rcases h with rfl | rfl
      · simp [bit_zero]
      · simp [bit_neg_one]
    · exact bit_or64 ha hb k

theorem xor_cases {a b : Int} (ha : -2 ^ 63 ≤ a ∧ a < 2 ^ 63) (hb : -2 ^ 63 ≤ b ∧ b < 2 ^ 63) (k : Nat) :
    bit (if a = 0 then b else if b = 0 then a else xor64 a b) k = (bit a k ^^ bit b k) := by
  split
  · rename_i h; subst h; simp [bit_zero]
  · split
    · rename_i h; subst h; simp [bit_zero]
    · exact bit_xor64 ha hb k

theorem band_ok {u v : Num} (hu : u.Small) (hv : v.Small) :
    Yields (fun c => Op2.Spec .band u.val v.val c) (opAnd.eval u v) := by
  refine arith_elim rfl hu.isNum hv.isNum _ ?_ ?_ ?_
  · rintro a b rfl rfl
    exact yields_int (band_range (and_cases (in64 hu) (in64 hv)) hu hv) ⟨a, b, _, rfl, rfl, rfl, and_cases (in64 hu) (in64 hv)⟩
  · intro a b _ _ ha hb
    rw [ha, hb]
    exact yields_big ⟨a, b, _, rfl, rfl, rfl, fun k => by simp only [bit_eq_testBit, Int.testBit_land]⟩
  · intro a b ha hb _
    exact yields_err

theorem bor_ok {u v : Num} (hu : u.Small) (hv : v.Small) :
    YieldsV (fun c => Op2.Spec .bor u.val v.val c) (opOr.eval u v) := by
  refine arith_elim rfl hu.isNum hv.isNum _ ?_ ?_ ?_
  · rintro a b rfl rfl
    exact yieldsV_int ⟨a, b, _, rfl, rfl, rfl, or_cases (in64 hu) (in64 hv)⟩
  · intro a b _ _ ha hb
    rw [ha, hb]
    exact yieldsV_of (yields_big ⟨a, b, _, rfl, rfl, rfl, fun k => by simp only [bit_eq_testBit, Int.testBit_lor]⟩)
  · intro a b ha hb _
    exact yieldsV_of yields_err

theorem bxor_ok {u v : Num} (hu : u.Small) (hv : v.Small) :
    YieldsV (fun c => Op2.Spec .bxor u.val v.val c) (opXor.eval u v) := by
  refine arith_elim rfl hu.isNum hv.isNum _ ?_ ?_ ?_
  · rintro a b rfl rfl
    exact yieldsV_int ⟨a, b, _, rfl, rfl, rfl, xor_cases (in64 hu) (in64 hv)⟩
  · intro a b _ _ ha hb
    rw [ha, hb]
    exact yieldsV_of (yields_big ⟨a, b, _, rfl, rfl, rfl, fun k => by simp only [bit_eq_testBit, Int.testBit_lxor]⟩)
  · intro a b ha hb _
    exact yieldsV_of yields_err

theorem compl_ok {u : Num} (hu : u.Small) : YieldsV (fun c => Op1.Spec .compl u.val c) (opCompl.eval u) := by
  refine un_elim hu.isNum _ ?_ ?_ ?_
  · rintro a rfl
    exact yieldsV_int ⟨a, _, rfl, rfl, bit_not64 (in64 hu)⟩
  · rintro a rfl
    exact yieldsV_of (yields_big ⟨a, _, rfl, rfl, fun k => by
      have h1 := bit_neg_one k
      rw [bit_eq_testBit] at h1
      simp only [bit_eq_testBit, Int.testBit_lxor, h1, Bool.xor_true]⟩)
  · rintro a rfl
    exact yieldsV_of yields_err

end Verif.Num
