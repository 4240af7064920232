import Verif.Num.Lemmas3
/-
When the operators succeed (no limit on the number of bits).
-/
set_option linter.dupNamespace false
namespace Verif.Num

/-- The outcome is a value. -/
def IsOk (r : Res Num) : Prop := ∃ w, r = .ok w

theorem isOk_ok (w : Num) : IsOk (.ok w) := ⟨w, rfl⟩

theorem tooBig_zero (n : Int) : tooBig 0 n = false := rfl

theorem add_some {u v : Num} (hu : u.isNum) (hv : v.isNum) : IsOk ((opAdd 0).eval u v) :=
  arith_elim rfl hu hv _ (fun _ _ _ _ => isOk_ok _) (fun _ _ _ _ _ _ => isOk_ok _) (fun _ _ _ _ _ => isOk_ok _)

theorem sub_some {u v : Num} (hu : u.isNum) (hv : v.isNum) : IsOk ((opSub 0).eval u v) :=
  arith_elim rfl hu hv _ (fun _ _ _ _ => isOk_ok _) (fun _ _ _ _ _ _ => isOk_ok _) (fun _ _ _ _ _ => isOk_ok _)

theorem mul_some {u v : Num} (hu : u.isNum) (hv : v.isNum) : IsOk ((opMul 0).eval u v) :=
  arith_elim rfl hu hv _ (fun _ _ _ _ => isOk_ok _) (fun _ _ _ _ _ _ => isOk_ok _) (fun _ _ _ _ _ => isOk_ok _)

theorem divide_some {u v : Num} (hu : u.isNum) (hv : v.isNum) (h : v.val ≠ 0) : IsOk (opDivide.eval u v) := by
  refine rat_elim rfl hu hv _ ?_
  intro a b _ hb
  show IsOk (if b = 0 then _ else _)
  rw [if_neg (hb ▸ h)]
  exact isOk_ok _

theorem val_int_ne {v : Num} {b : Int} (hb : v.val = b) (h : v.val ≠ 0) : b ≠ 0 := by
  rintro rfl; exact h (by rw [hb]; rfl)

theorem not_rat_of_isInt {u : Num} (h : u.isInt) (a : Rat) : u ≠ .bigRat a := by
  rintro rfl; exact h

theorem idiv_some {u v : Num} (hu : u.isInt) (hv : v.isInt) (h : v.val ≠ 0) : IsOk (opIdiv.eval u v) := by
  have hu' : u.isNum := by cases u <;> first | exact hu.elim | trivial
  have hv' : v.isNum := by cases v <;> first | exact hv.elim | trivial
  refine arith_elim rfl hu' hv' _ ?_ ?_ ?_
  · rintro a b rfl rfl
    show IsOk (if b = 0 then _ else _)
    rw [if_neg (val_int_ne rfl h)]; exact isOk_ok _
  · intro a b _ _ _ hb
    show IsOk (if b = 0 then _ else _)
    rw [if_neg (val_int_ne hb h)]; exact isOk_ok _
  · intro a b _ _ hr
    rcases hr with hr | hr
    · exact (not_rat_of_isInt hu _ hr).elim
    · exact (not_rat_of_isInt hv _ hr).elim

theorem imod_some {u v : Num} (hu : u.isInt) (hv : v.isInt) (h : v.val ≠ 0) : IsOk (opImod.eval u v) := by
  have hu' : u.isNum := by cases u <;> first | exact hu.elim | trivial
  have hv' : v.isNum := by cases v <;> first | exact hv.elim | trivial
  refine arith_elim rfl hu' hv' _ ?_ ?_ ?_
  · rintro a b rfl rfl
    show IsOk (if b = 0 then _ else _)
    rw [if_neg (val_int_ne rfl h)]; exact isOk_ok _
  · intro a b _ _ _ hb
    show IsOk (if b = 0 then _ else _)
    rw [if_neg (val_int_ne hb h)]; exact isOk_ok _
  · intro a b _ _ hr
    rcases hr with hr | hr
    · exact (not_rat_of_isInt hu _ hr).elim
    · exact (not_rat_of_isInt hv _ hr).elim

theorem div_some {u v : Num} (hu : u.isInt) (hv : v.isInt) (h : v.val ≠ 0) : IsOk (opDiv.eval u v) := by
  have hu' : u.isNum := by cases u <;> first | exact hu.elim | trivial
  have hv' : v.isNum := by cases v <;> first | exact hv.elim | trivial
  refine div_elim rfl hu' hv' _ ?_ ?_
  · intro a b _ _ _ hb
    show IsOk (if b = 0 then _ else _)
    rw [if_neg (val_int_ne hb h)]; exact isOk_ok _
  · intro a b _ _ hr
    rcases hr with hr | hr
    · exact (not_rat_of_isInt hu _ hr).elim
    · exact (not_rat_of_isInt hv _ hr).elim

theorem modFn_some_int (a b : Int) : IsOk (modFn (.int a) (.int b)) := by
  unfold modFn quoRem
  split
  · exact isOk_ok _
  · exact isOk_ok _

theorem modFn_some_big (a b : Int) : IsOk (modFn (.bigInt a) (.bigInt b)) := by
  unfold modFn quoRem
  split
  · exact isOk_ok _
  · exact isOk_ok _

theorem modFn_some_rat (a b : Rat) : IsOk (modFn (.bigRat a) (.bigRat b)) := by
  unfold modFn quoRem
  split
  · exact isOk_ok _
  · exact isOk_ok _

theorem mod_some {u v : Num} (hu : u.isNum) (hv : v.isNum) : IsOk (opMod.eval u v) :=
  arith_elim rfl hu hv _ (fun _ _ _ _ => modFn_some_int _ _) (fun _ _ _ _ _ _ => modFn_some_big _ _)
    (fun _ _ _ _ _ => modFn_some_rat _ _)

theorem recip_isOk {u : Num} (hu : u.isNum) (h : u.val ≠ 0) : IsOk (opRecip.eval u) := by
  refine un_elim hu _ ?_ ?_ ?_
  · rintro a rfl
    show IsOk (if a = 0 then _ else _)
    rw [if_neg (val_int_ne rfl h)]; exact isOk_ok _
  · rintro a rfl
    show IsOk (if a = 0 then _ else _)
    rw [if_neg (val_int_ne rfl h)]; exact isOk_ok _
  · rintro a rfl
    show IsOk (if a = 0 then _ else _)
    rw [if_neg (show a ≠ 0 from h)]; exact isOk_ok _

theorem bigIntExp_some {j k : Int} (h : bitLen k ≤ 63) : ∃ r, bigIntExp 0 j k = .ok r := by
  unfold bigIntExp
  simp only [tooBig_zero, gt_iff_lt]
  split
  · exact ⟨_, rfl⟩
  · split
    · exact ⟨_, rfl⟩
    · rw [if_neg (by omega)]
      split
      · exact ⟨_, rfl⟩
      · exact ⟨_, rfl⟩

theorem neg_isOk {u : Num} (hu : u.isNum) : IsOk (opNeg.eval u) :=
  un_elim hu _ (fun _ _ => isOk_ok _) (fun _ _ => isOk_ok _) (fun _ _ => isOk_ok _)

theorem abs_isOk {u : Num} (hu : u.isNum) : IsOk (opAbs.eval u) :=
  un_elim hu _ (fun _ _ => isOk_ok _) (fun _ _ => isOk_ok _) (fun _ _ => isOk_ok _)

theorem sgn_isOk {u : Num} (hu : u.isNum) : IsOk (opSgn.eval u) :=
  un_elim hu _ (fun _ _ => isOk_ok _) (fun _ _ => isOk_ok _) (fun _ _ => isOk_ok _)

theorem not_isOk {u : Num} (hu : u.isNum) : IsOk (opNot.eval u) :=
  un_elim hu _ (fun _ _ => isOk_ok _) (fun _ _ => isOk_ok _) (fun _ _ => isOk_ok _)

theorem floor_isOk {u : Num} (hu : u.Small) : IsOk (opFloor.eval u) := by
  refine un_elim hu.isNum _ (fun _ _ => isOk_ok _) (fun _ _ => isOk_ok _) ?_
  rintro a rfl
  show IsOk (if a.den = 1 then _ else _)
  rw [if_neg hu]; exact isOk_ok _

theorem ceil_isOk {u : Num} (hu : u.Small) : IsOk (opCeil.eval u) := by
  refine un_elim hu.isNum _ (fun _ _ => isOk_ok _) (fun _ _ => isOk_ok _) ?_
  rintro a rfl
  show IsOk (if a.den = 1 then _ else _)
  rw [if_neg hu]; exact isOk_ok _

theorem cmp_isOk {f : Int → Int → Bool} {g : Rat → Rat → Bool} {u v : Num} (hu : u.isNum) (hv : v.isNum) :
    IsOk ((opCmp f g).eval u v) :=
  arith_elim rfl hu hv _ (fun _ _ _ _ => isOk_ok _) (fun _ _ _ _ _ _ => isOk_ok _) (fun _ _ _ _ _ => isOk_ok _)

theorem bool_isOk {f : Bool → Bool → Bool} {u v : Num} (hu : u.isNum) (hv : v.isNum) : IsOk ((opBool f).eval u v) :=
  arith_elim rfl hu hv _ (fun _ _ _ _ => isOk_ok _) (fun _ _ _ _ _ _ => isOk_ok _) (fun _ _ _ _ _ => isOk_ok _)

theorem min_isOk {u v : Num} (hu : u.isNum) (hv : v.isNum) : IsOk (opMin.eval u v) :=
  arith_elim rfl hu hv _ (fun _ _ _ _ => isOk_ok _) (fun _ _ _ _ _ _ => isOk_ok _) (fun _ _ _ _ _ => isOk_ok _)

theorem max_isOk {u v : Num} (hu : u.isNum) (hv : v.isNum) : IsOk (opMax.eval u v) :=
  arith_elim rfl hu hv _ (fun _ _ _ _ => isOk_ok _) (fun _ _ _ _ _ _ => isOk_ok _) (fun _ _ _ _ _ => isOk_ok _)

theorem isInt.isNum {u : Num} (hu : u.isInt) : u.isNum := by cases u <;> first | exact hu.elim | trivial

theorem bits_isOk {op : BinOp} (h : op.whichType = arithType)
    (hi : ∀ a b, IsOk (app2 (op.fn .int) (.int a) (.int b)))
    (hb : ∀ a b, IsOk (app2 (op.fn .bigInt) (.bigInt a) (.bigInt b)))
    {u v : Num} (hu : u.isInt) (hv : v.isInt) : IsOk (op.eval u v) := by
  refine arith_elim h (isInt.isNum hu) (isInt.isNum hv) _ (fun _ _ _ _ => hi _ _) (fun _ _ _ _ _ _ => hb _ _) ?_
  intro a b _ _ hr
  rcases hr with hr | hr
  · exact (not_rat_of_isInt hu _ hr).elim
  · exact (not_rat_of_isInt hv _ hr).elim

theorem compl_isOk {u : Num} (hu : u.isInt) : IsOk (opCompl.eval u) :=
  un_elim (isInt.isNum hu) _ (fun _ _ => isOk_ok _) (fun _ _ => isOk_ok _) (fun a h => (not_rat_of_isInt hu a h).elim)

theorem shiftCount_some {b : Int} (h : 0 ≤ b ∧ b < 2 ^ 31 - 1) : shiftCount b = .ok b.toNat := by
  unfold shiftCount shrinkBig
  have : bitLen b < 32 := (bitLen_lt_32 b).2 (by omega)
  rw [if_pos this]
  show (if b < 0 ∨ b ≥ maxInt then _ else _) = _
  rw [if_neg (by unfold maxInt; omega)]

theorem shift_isOk {op : BinOp} (h : op.whichType = divType)
    (hb : ∀ a b, 0 ≤ b ∧ b < 2 ^ 31 - 1 → IsOk (app2 (op.fn .bigInt) (.bigInt a) (.bigInt b)))
    {u v : Num} (hu : u.isInt) (hv : v.isInt) (hr : 0 ≤ v.val ∧ v.val < 2 ^ 31 - 1) : IsOk (op.eval u v) := by
  refine div_elim h (isInt.isNum hu) (isInt.isNum hv) _ ?_ ?_
  · intro a b _ _ _ hbv
    refine hb a b ?_
    rw [hbv] at hr
    exact ⟨by exact_mod_cast hr.1, by exact_mod_cast hr.2⟩
  · intro a b _ _ hr
    rcases hr with hr | hr
    · exact (not_rat_of_isInt hu _ hr).elim
    · exact (not_rat_of_isInt hv _ hr).elim

theorem shl_isOk {u v : Num} (hu : u.isInt) (hv : v.isInt) (hr : 0 ≤ v.val ∧ v.val < 2 ^ 31 - 1) : IsOk (opShl.eval u v) :=
  shift_isOk rfl (fun a b h => by show IsOk ((shiftCount b).bind _); rw [shiftCount_some h]; exact isOk_ok _) hu hv hr

theorem shr_isOk {u v : Num} (hu : u.isInt) (hv : v.isInt) (hr : 0 ≤ v.val ∧ v.val < 2 ^ 31 - 1) : IsOk (opShr.eval u v) :=
  shift_isOk rfl (fun a b h => by show IsOk ((shiftCount b).bind _); rw [shiftCount_some h]; exact isOk_ok _) hu hv hr

/-- Integer powers: the exponent below 2^63 in absolute value; a negative exponent needs a nonzero base. -/
theorem pow_isOk {u v : Num} (hu : u.isInt) (hv : v.isInt) (hb : |v.val| < 2 ^ 63) (h0 : v.val < 0 → u.val ≠ 0) :
    IsOk ((opPow 0).eval u v) := by
  refine div_elim rfl (isInt.isNum hu) (isInt.isNum hv) _ ?_ ?_
  · intro a b _ _ ha hbv
    show IsOk (if b = 0 then _ else if b < 0 then if a = 0 then _ else _ else _)
    have hbb : |b| < 2 ^ 63 := by rw [hbv] at hb; exact_mod_cast hb
    rw [Int.abs_eq_natAbs] at hbb
    split
    · exact isOk_ok _
    · split
      · rename_i hneg
        have ha0 : a ≠ 0 := val_int_ne ha (h0 (by rw [hbv]; exact_mod_cast hneg))
        rw [if_neg ha0]
        obtain ⟨p, hp⟩ := bigIntExp_some (j := a) (k := -b) ((bitLen_le_iff _ _).2 (by omega))
        rw [hp]
        have hpv : p ≠ 0 := by
          have := bigIntExp_ok (mb := 0) (j := a) (k := -b) (by omega) hp
          rw [this]; exact pow_ne_zero _ ha0
        obtain ⟨w, hw⟩ := recip_isOk (u := shrinkBig p) (small_shrinkBig p).isNum (by rw [val_shrinkBig]; exact_mod_cast hpv)
        exact ⟨w, hw⟩
      · split
        · exact isOk_ok _
        · obtain ⟨p, hp⟩ := bigIntExp_some (j := a) (k := b) ((bitLen_le_iff _ _).2 (by omega))
          rw [hp]; exact isOk_ok _
  · intro a b _ _ hr
    rcases hr with hr | hr
    · exact (not_rat_of_isInt hu _ hr).elim
    · exact (not_rat_of_isInt hv _ hr).elim

theorem fac_isOk {n : Int} (h : 0 ≤ n ∧ n < 2 ^ 63) : IsOk (opFac.eval (.int n)) := by
  obtain ⟨m, rfl⟩ := Int.eq_ofNat_of_zero_le h.1
  show IsOk ((facRes (factorial m)).bind _)
  rw [factorial_eq m (by omega)]
  exact isOk_ok _

/-! ## Canonical big integers -/

/-- If the outcome is a value, its big integer is big. -/
def YieldsB (r : Res Num) : Prop := ∀ w, r = .ok w → w.BigEnough

theorem big_shrinkBig (i : Int) : (shrinkBig i).BigEnough := by
  unfold shrinkBig
  split
  · trivial
  · rename_i h
    rw [bitLen_lt_32] at h
    show i ≤ -(2 ^ 31) ∨ 2 ^ 31 ≤ i
    omega

theorem big_maybeBig (i : Int) : (maybeBig i).BigEnough := by
  unfold maybeBig minInt maxInt
  split
  · trivial
  · show i ≤ -(2 ^ 31) ∨ 2 ^ 31 ≤ i
    omega

theorem big_shrinkRat (r : Rat) : (shrinkRat r).BigEnough := by
  unfold shrinkRat
  split
  · exact big_shrinkBig _
  · trivial

theorem yb_ok {w : Num} (h : w.BigEnough) : YieldsB (.ok w) := fun _ e => by cases e; exact h
theorem yb_err : YieldsB .err := fun _ e => by cases e
theorem yb_float : YieldsB .float := fun _ e => by cases e
theorem yb_crash : YieldsB .crash := fun _ e => by cases e
theorem yb_big (i : Int) : YieldsB (.ok (shrinkBig i)) := yb_ok (big_shrinkBig i)
theorem yb_rat (r : Rat) : YieldsB (.ok (shrinkRat r)) := yb_ok (big_shrinkRat r)
theorem yb_maybe (i : Int) : YieldsB (.ok (maybeBig i)) := yb_ok (big_maybeBig i)
theorem yb_int (i : Int) : YieldsB (.ok (.int i)) := yb_ok trivial
theorem yb_toInt (b : Bool) : YieldsB (.ok (toInt b)) := by cases b <;> exact yb_int _

theorem yb_bind {α : Type} {r : Res α} {f : α → Res Num} (h : ∀ a, YieldsB (f a)) : YieldsB (r.bind f) := by
  cases r
  · exact h _
  · exact yb_err
  · exact yb_crash
  · exact yb_float

theorem yb_ite {p : Prop} [Decidable p] {x y : Res Num} (hx : p → YieldsB x) (hy : ¬ p → YieldsB y) :
    YieldsB (if p then x else y) := by
  split
  · exact hx ‹_›
  · exact hy ‹_›

theorem yb_pick {p : Prop} [Decidable p] {x y : Num} (hx : YieldsB (.ok x)) (hy : YieldsB (.ok y)) :
    YieldsB (.ok (if p then x else y)) := by
  split
  · exact hx
  · exact hy

theorem yb_mod_big {a b : Int} (h : b = 0 → a ≤ -(2 ^ 31) ∨ 2 ^ 31 ≤ a) : YieldsB (modFn (.bigInt a) (.bigInt b)) := by
  unfold modFn quoRem
  split
  · rename_i hz
    refine yb_ok (h ?_)
    have := congrArg Num.val hz
    simp only [Num.shrink, val_shrinkBig, val_int] at this
    exact_mod_cast this
  · exact yb_big _

theorem yb_mod_rat (a b : Rat) : YieldsB (modFn (.bigRat a) (.bigRat b)) := by
  unfold modFn quoRem
  split
  · exact yb_ok trivial
  · exact yb_rat _

theorem yb_mod_int (a b : Int) : YieldsB (modFn (.int a) (.int b)) := by
  unfold modFn quoRem
  split
  · exact yb_ok trivial
  · exact yb_ok trivial

/-- The operators whose big integer results are big whenever the operands' are: all but `max`, and `**` with
base 0 or 1. -/
theorem op2_big {mb : Nat} {op : Op2} {u v : Num} (hu : u.isNum) (hv : v.isNum) (bu : u.BigEnough) (bv : v.BigEnough)
    (h1 : op ≠ .max) (h2 : op = .pow → u.val ≠ 0 ∧ u.val ≠ 1) : YieldsB ((op.impl mb).eval u v) := by
  cases op with
  | add =>
    exact arith_elim rfl hu hv _
      (fun a b _ _ => yb_pick (yb_int _) (yb_pick (yb_int _) (yb_maybe _)))
      (fun a b _ _ _ _ => yb_ite (fun _ => yb_err) fun _ => yb_ite (fun _ => yb_err) fun _ => yb_big _)
      (fun a b _ _ _ => yb_rat _)
  | sub =>
    exact arith_elim rfl hu hv _
      (fun a b _ _ => yb_pick (yb_int _) (yb_maybe _))
      (fun a b _ _ _ _ => yb_ite (fun _ => yb_err) fun _ => yb_ite (fun _ => yb_err) fun _ => yb_big _)
      (fun a b _ _ _ => yb_rat _)
  | mul =>
    exact arith_elim rfl hu hv _
      (fun a b _ _ => yb_pick (yb_int _) (yb_pick (yb_int _) (yb_maybe _)))
      (fun a b _ _ _ _ => yb_ite (fun _ => yb_err) fun _ => yb_big _)
      (fun a b _ _ _ => yb_rat _)
  | quo => exact rat_elim rfl hu hv _ (fun a b _ _ => yb_ite (fun _ => yb_err) fun _ => yb_rat _)
  | idiv =>
    exact arith_elim rfl hu hv _ (fun a b _ _ => yb_ite (fun _ => yb_err) fun _ => yb_int _)
      (fun a b _ _ _ _ => yb_ite (fun _ => yb_err) fun _ => yb_big _) (fun a b _ _ _ => yb_err)
  | imod =>
    exact arith_elim rfl hu hv _ (fun a b _ _ => yb_ite (fun _ => yb_err) fun _ => yb_int _)
      (fun a b _ _ _ _ => yb_ite (fun _ => yb_err) fun _ => yb_big _) (fun a b _ _ _ => yb_err)
  | div =>
    exact div_elim rfl hu hv _
      (fun a b _ _ _ _ => yb_ite (fun _ => yb_err) fun _ => yb_big _) (fun a b _ _ _ => yb_err)
  | mod =>
    cases u <;> cases v <;> first | exact hu.elim | exact hv.elim | skip
    · exact yb_mod_int _ _
    · exact yb_mod_big fun h => by subst h; rcases (show (0 : Int) ≤ -(2 ^ 31) ∨ (2 : Int) ^ 31 ≤ 0 from bv) with h | h <;> omega
    · exact yb_mod_rat _ _
    · exact yb_mod_big fun _ => bu
    · exact yb_mod_big fun _ => bu
    · exact yb_mod_rat _ _
    · exact yb_mod_rat _ _
    · exact yb_mod_rat _ _
    · exact yb_mod_rat _ _
  | pow =>
    obtain ⟨h0, h1⟩ := h2 rfl
    refine div_elim rfl hu hv _ ?_ ?_
    · intro a b _ _ ha hb
      refine yb_ite (fun _ => yb_int _) fun _ => yb_ite (fun _ => yb_ite (fun _ => yb_err) fun _ => yb_bind fun p => ?_)
        fun _ => yb_ite (fun hh => ?_) fun _ => yb_bind fun p => yb_big _
      · exact un_elim (small_shrinkBig p).isNum _ (fun a _ => yb_ite (fun _ => yb_err) fun _ => yb_rat _)
          (fun a _ => yb_ite (fun _ => yb_err) fun _ => yb_rat _) (fun a _ => yb_ite (fun _ => yb_err) fun _ => yb_rat _)
      · rcases hh with rfl | rfl
        · exact (h1 (by rw [ha]; norm_num)).elim
        · exact (h0 (by rw [ha]; norm_num)).elim
    · intro a b _ _ _
      refine yb_ite (fun _ => yb_int _) fun _ => yb_ite (fun _ => yb_err) fun _ => yb_bind fun p => ?_
      cases p
      · exact yb_crash
      · exact yb_crash
      · exact yb_crash
      · exact yb_ite (fun _ => yb_float) fun _ => yb_bind fun _ => yb_bind fun _ => yb_rat _
  | choose =>
    exact arith_elim rfl hu hv _
      (fun a b _ _ => yb_ite (fun _ => yb_int _) fun _ => yb_ite (fun _ => yb_int _) fun _ =>
        yb_bind fun _ => yb_bind fun _ => yb_bind fun _ => yb_big _)
      (fun a b _ _ _ _ => yb_err) (fun a b _ _ _ => yb_err)
  | band | bor | bxor =>
    exact arith_elim rfl hu hv _ (fun a b _ _ => yb_int _) (fun a b _ _ _ _ => yb_big _) (fun a b _ _ _ => yb_err)
  | shl | shr =>
    exact div_elim rfl hu hv _ (fun a b _ _ _ _ => yb_bind fun _ => yb_big _) (fun a b _ _ _ => yb_err)
  | eq | ne | lt | le | gt | ge | and | or | xor | nand | nor =>
    exact arith_elim rfl hu hv _ (fun a b _ _ => yb_toInt _) (fun a b _ _ _ _ => yb_toInt _) (fun a b _ _ _ => yb_toInt _)
  | min =>
    exact arith_elim rfl hu hv _ (fun a b _ _ => yb_int _) (fun a b _ _ _ _ => yb_pick (yb_big _) (yb_big _))
      (fun a b _ _ _ => yb_pick (yb_rat _) (yb_rat _))
  | max => exact (h1 rfl).elim

theorem op1_big {op : Op1} {u : Num} (hu : u.isNum) (bu : u.BigEnough) : YieldsB (op.impl.eval u) := by
  cases op with
  | neg | abs => exact un_elim hu _ (fun a _ => yb_int _) (fun a _ => yb_big _) (fun a _ => yb_rat _)
  | recip =>
    exact un_elim hu _ (fun a _ => yb_ite (fun _ => yb_err) fun _ => yb_rat _)
          (fun a _ => yb_ite (fun _ => yb_err) fun _ => yb_rat _) (fun a _ => yb_ite (fun _ => yb_err) fun _ => yb_rat _)
  | sgn =>
    exact un_elim hu _ (fun a _ => yb_pick (yb_int _) (yb_pick (yb_int _) (yb_int _))) (fun a _ => yb_int _) (fun a _ => yb_int _)
  | floor | ceil =>
    exact un_elim hu _ (fun a _ => yb_int _) (fun a h => yb_ok (h ▸ bu)) (fun a _ => yb_ite (fun _ => yb_crash) fun _ => yb_big _)
  | not =>
    exact un_elim hu _ (fun a _ => yb_pick (yb_int _) (yb_int _)) (fun a _ => yb_pick (yb_int _) (yb_int _)) (fun a _ => yb_pick (yb_int _) (yb_int _))
  | fac => exact un_elim hu _ (fun a _ => yb_bind fun _ => yb_big _) (fun a _ => yb_err) (fun a _ => yb_err)
  | compl => exact un_elim hu _ (fun a _ => yb_int _) (fun a _ => yb_big _) (fun a _ => yb_err)

end Verif.Num
