import Verif.Num.Spec
import Verif.Num.FacLemmas
import Mathlib.Tactic.Linarith
import Mathlib.Tactic.FieldSimp
import Mathlib.Data.Rat.Floor
/-
Helper lemmas for C08-C17: each operator on small operands.
-/
namespace Verif.Num

theorem bitLen_le_iff (i : Int) (n : Nat) : bitLen i ≤ n ↔ i.natAbs < 2 ^ n := by
  unfold bitLen
  split
  · rename_i h; subst h; simp
  · rename_i h
    have h0 : i.natAbs ≠ 0 := by omega
    rw [Nat.succ_le_iff, Nat.log2_lt h0]

theorem bitLen_lt_32 (i : Int) : bitLen i < 32 ↔ -(2 ^ 31) < i ∧ i < 2 ^ 31 := by
  have := bitLen_le_iff i 31
  constructor
  · intro h
    have := this.1 (by omega)
    omega
  · intro h
    have := this.2 (by omega)
    omega

@[simp] theorem val_int (i : Int) : (Num.int i).val = i := rfl
@[simp] theorem val_bigInt (i : Int) : (Num.bigInt i).val = i := rfl
@[simp] theorem val_bigRat (r : Rat) : (Num.bigRat r).val = r := rfl

@[simp] theorem val_shrinkBig (i : Int) : (shrinkBig i).val = i := by
  unfold shrinkBig; split <;> rfl

@[simp] theorem val_maybeBig (i : Int) : (maybeBig i).val = i := by
  unfold maybeBig; split <;> rfl

@[simp] theorem val_shrinkRat (r : Rat) : (shrinkRat r).val = r := by
  unfold shrinkRat
  split
  · rename_i h
    rw [val_shrinkBig]
    exact Rat.coe_int_num_of_den_eq_one h
  · rfl

theorem small_shrinkBig (i : Int) : (shrinkBig i).Small := by
  unfold shrinkBig
  split
  · rename_i h
    rw [bitLen_lt_32] at h
    exact ⟨by omega, by omega⟩
  · trivial

theorem small_maybeBig (i : Int) : (maybeBig i).Small := by
  unfold maybeBig
  split
  · rename_i h
    simp only [minInt, maxInt] at h
    exact ⟨by omega, by omega⟩
  · trivial

theorem small_shrinkRat (r : Rat) : (shrinkRat r).Small := by
  unfold shrinkRat
  split
  · exact small_shrinkBig _
  · rename_i h; exact h

theorem small_litNum (r : Rat) : (litNum r).Small := by
  unfold litNum
  split
  · split
    · rename_i h
      simp only [minInt, maxInt] at h
      exact ⟨by omega, by omega⟩
    · exact small_shrinkBig _
  · exact small_shrinkRat r

@[simp] theorem val_litNum (r : Rat) : (litNum r).val = r := by
  unfold litNum
  split
  · rename_i h
    split
    · exact Rat.coe_int_num_of_den_eq_one h
    · rw [val_shrinkBig]; exact Rat.coe_int_num_of_den_eq_one h
  · simp

theorem small_toInt (b : Bool) : (toInt b).Small := by
  cases b <;> exact ⟨by decide, by decide⟩

@[simp] theorem val_toInt (b : Bool) : (toInt b).val = if b then 1 else 0 := by
  cases b <;> simp [toInt, one, zero]

/-- Calling a table entry. -/
def app2 (f : Option (Num → Num → Res Num)) (u v : Num) : Res Num :=
  match f with
  | none => .err
  | some f => f u v

/-- Calling a table entry. -/
def app1 (f : Option (Num → Res Num)) (u : Num) : Res Num :=
  match f with
  | none => .err
  | some f => f u

/-- Case analysis on the operands of an operator that promotes with binaryArithType. -/
theorem arith_elim {op : BinOp} (h : op.whichType = arithType) {u v : Num} (hu : u.isNum) (hv : v.isNum) (P : Res Num → Prop)
    (hi : ∀ a b, u = .int a → v = .int b → P (app2 (op.fn .int) (.int a) (.int b)))
    (hb : ∀ a b : Int, u.isInt → v.isInt → u.val = a → v.val = b → P (app2 (op.fn .bigInt) (.bigInt a) (.bigInt b)))
    (hr : ∀ a b : Rat, u.val = a → v.val = b → (u = .bigRat a ∨ v = .bigRat b) → P (app2 (op.fn .bigRat) (.bigRat a) (.bigRat b))) : P (op.eval u v) := by
  unfold BinOp.eval
  rw [h]
  cases u <;> cases v <;> first | exact hu.elim | exact hv.elim | skip
  · exact hi _ _ rfl rfl
  · exact hb _ _ trivial trivial rfl rfl
  · exact hr _ _ rfl rfl (by simp)
  · exact hb _ _ trivial trivial rfl rfl
  · exact hb _ _ trivial trivial rfl rfl
  · exact hr _ _ rfl rfl (by simp)
  · exact hr _ _ rfl rfl (by simp)
  · exact hr _ _ rfl rfl (by simp)
  · exact hr _ _ rfl rfl (by simp)

/-- Case analysis on the operands of an operator that promotes with divType. -/
theorem div_elim {op : BinOp} (h : op.whichType = divType) {u v : Num} (hu : u.isNum) (hv : v.isNum) (P : Res Num → Prop)
    (hb : ∀ a b : Int, u.isInt → v.isInt → u.val = a → v.val = b → P (app2 (op.fn .bigInt) (.bigInt a) (.bigInt b)))
    (hr : ∀ a b : Rat, u.val = a → v.val = b → (u = .bigRat a ∨ v = .bigRat b) → P (app2 (op.fn .bigRat) (.bigRat a) (.bigRat b))) : P (op.eval u v) := by
  unfold BinOp.eval
  rw [h]
  cases u <;> cases v <;> first | exact hu.elim | exact hv.elim | skip
  · exact hb _ _ trivial trivial rfl rfl
  · exact hb _ _ trivial trivial rfl rfl
  · exact hr _ _ rfl rfl (by simp)
  · exact hb _ _ trivial trivial rfl rfl
  · exact hb _ _ trivial trivial rfl rfl
  · exact hr _ _ rfl rfl (by simp)
  · exact hr _ _ rfl rfl (by simp)
  · exact hr _ _ rfl rfl (by simp)
  · exact hr _ _ rfl rfl (by simp)

/-- Case analysis on the operands of an operator that promotes with rationalType. -/
theorem rat_elim {op : BinOp} (h : op.whichType = rationalType) {u v : Num} (hu : u.isNum) (hv : v.isNum) (P : Res Num → Prop)
    (hr : ∀ a b : Rat, u.val = a → v.val = b → P (app2 (op.fn .bigRat) (.bigRat a) (.bigRat b))) : P (op.eval u v) := by
  unfold BinOp.eval
  rw [h]
  cases u <;> cases v <;> first | exact hu.elim | exact hv.elim | exact hr _ _ rfl rfl

/-- Case analysis on the operand of a unary operator. -/
theorem un_elim {op : UnOp} {u : Num} (hu : u.isNum) (P : Res Num → Prop)
    (hi : ∀ a, u = .int a → P (app1 (op.fn .int) (.int a)))
    (hb : ∀ a, u = .bigInt a → P (app1 (op.fn .bigInt) (.bigInt a)))
    (hr : ∀ a, u = .bigRat a → P (app1 (op.fn .bigRat) (.bigRat a))) : P (op.eval u) := by
  unfold UnOp.eval
  cases u
  · exact hi _ rfl
  · exact hu.elim
  · exact hb _ rfl
  · exact hr _ rfl

theorem Num.Small.isNum {u : Num} (h : u.Small) : u.isNum := by
  cases u <;> first | trivial | exact h

/-- The result is a small number with the given value. -/
def Yields (P : Rat → Prop) (r : Res Num) : Prop := r ≠ .crash ∧ ∀ w, r = .ok w → w.Small ∧ P w.val

/-- The result is a number with the given value. -/
def YieldsV (P : Rat → Prop) (r : Res Num) : Prop := r ≠ .crash ∧ ∀ w, r = .ok w → w.isNum ∧ P w.val

theorem yields_ok {P : Rat → Prop} {w : Num} (h1 : w.Small) (h2 : P w.val) : Yields P (.ok w) := by
  exact ⟨by simp, fun w' h => by cases h; exact ⟨h1, h2⟩⟩

theorem yields_err {P : Rat → Prop} : Yields P .err := by
  exact ⟨by simp, fun w' h => by cases h⟩

theorem yields_float {P : Rat → Prop} : Yields P .float := by
  exact ⟨by simp, fun w' h => by cases h⟩

theorem yields_big {P : Rat → Prop} {i : Int} (h : P i) : Yields P (.ok (shrinkBig i)) :=
  yields_ok (small_shrinkBig i) (by rw [val_shrinkBig]; exact h)

theorem yields_rat {P : Rat → Prop} {r : Rat} (h : P r) : Yields P (.ok (shrinkRat r)) :=
  yields_ok (small_shrinkRat r) (by rw [val_shrinkRat]; exact h)

theorem yields_maybe {P : Rat → Prop} {i : Int} (h : P i) : Yields P (.ok (maybeBig i)) :=
  yields_ok (small_maybeBig i) (by rw [val_maybeBig]; exact h)

theorem yields_int {P : Rat → Prop} {i : Int} (h1 : -(2 ^ 31) ≤ i ∧ i ≤ 2 ^ 31) (h : P i) : Yields P (.ok (.int i)) :=
  yields_ok h1 h

theorem int_mul_bound {a b : Int} (ha : -(2 ^ 31) ≤ a ∧ a ≤ 2 ^ 31) (hb : -(2 ^ 31) ≤ b ∧ b ≤ 2 ^ 31) :
    -(2 ^ 62) ≤ a * b ∧ a * b ≤ 2 ^ 62 := by
  have h : (a * b).natAbs ≤ 2 ^ 31 * 2 ^ 31 := by
    rw [Int.natAbs_mul]
    exact Nat.mul_le_mul (by omega) (by omega)
  omega

theorem add_ok {mb : Nat} {u v : Num} (hu : u.Small) (hv : v.Small) :
    Yields (fun c => c = u.val + v.val) ((opAdd mb).eval u v) := by
  refine arith_elim rfl hu.isNum hv.isNum _ ?_ ?_ ?_
  · rintro a b rfl rfl
    have ha : -(2 ^ 31) ≤ a ∧ a ≤ 2 ^ 31 := hu
    have hb : -(2 ^ 31) ≤ b ∧ b ≤ 2 ^ 31 := hv
    show Yields _ (.ok (if a = 0 then .int b else if b = 0 then .int a else maybeBig (wrap64 (a + b))))
    split
    · rename_i h; subst h; exact yields_int hb (by simp)
    · split
      · rename_i h; subst h; exact yields_int ha (by simp)
      · rw [wrap64_small (by omega) (by omega)]
        exact yields_maybe (by simp)
  · intro a b _ _ ha hb
    show Yields _ (if _ then _ else _)
    rw [ha, hb]
    split
    · exact yields_err
    · split
      · exact yields_err
      · exact yields_big (by simp)
  · intro a b ha hb _
    rw [ha, hb]
    exact yields_rat rfl

theorem sub_ok {mb : Nat} {u v : Num} (hu : u.Small) (hv : v.Small) :
    Yields (fun c => c = u.val - v.val) ((opSub mb).eval u v) := by
  refine arith_elim rfl hu.isNum hv.isNum _ ?_ ?_ ?_
  · rintro a b rfl rfl
    have ha : -(2 ^ 31) ≤ a ∧ a ≤ 2 ^ 31 := hu
    have hb : -(2 ^ 31) ≤ b ∧ b ≤ 2 ^ 31 := hv
    show Yields _ (.ok (if b = 0 then .int a else maybeBig (wrap64 (a - b))))
    split
    · rename_i h; subst h; exact yields_int ha (by simp)
    · rw [wrap64_small (by omega) (by omega)]
      exact yields_maybe (by simp)
  · intro a b _ _ ha hb
    show Yields _ (if _ then _ else _)
    rw [ha, hb]
    split
    · exact yields_err
    · split
      · exact yields_err
      · exact yields_big (by simp)
  · intro a b ha hb _
    rw [ha, hb]
    exact yields_rat rfl

theorem mul_ok {mb : Nat} {u v : Num} (hu : u.Small) (hv : v.Small) :
    Yields (fun c => c = u.val * v.val) ((opMul mb).eval u v) := by
  refine arith_elim rfl hu.isNum hv.isNum _ ?_ ?_ ?_
  · rintro a b rfl rfl
    have ha : -(2 ^ 31) ≤ a ∧ a ≤ 2 ^ 31 := hu
    have hb : -(2 ^ 31) ≤ b ∧ b ≤ 2 ^ 31 := hv
    show Yields _ (.ok (if a = 1 ∨ b = 0 then .int b else if b = 1 ∨ a = 0 then .int a else maybeBig (wrap64 (a * b))))
    split
    · rename_i h; rcases h with rfl | rfl <;> exact yields_int hb (by simp)
    · split
      · rename_i h; rcases h with rfl | rfl <;> exact yields_int ha (by simp)
      · have := int_mul_bound ha hb
        rw [wrap64_small (by omega) (by omega)]
        exact yields_maybe (by simp)
  · intro a b _ _ ha hb
    show Yields _ (if _ then _ else _)
    rw [ha, hb]
    split
    · exact yields_err
    · exact yields_big (by simp)
  · intro a b ha hb _
    rw [ha, hb]
    exact yields_rat rfl

theorem divide_ok {u v : Num} (hu : u.Small) (hv : v.Small) :
    Yields (fun c => v.val ≠ 0 ∧ c * v.val = u.val) (opDivide.eval u v) := by
  refine rat_elim rfl hu.isNum hv.isNum _ ?_
  intro a b ha hb
  show Yields _ (if b = 0 then _ else _)
  rw [ha, hb]
  split
  · exact yields_err
  · rename_i h
    exact yields_rat ⟨h, div_mul_cancel₀ a h⟩

theorem truncated_tdiv {x y : Int} (h : y ≠ 0) : Truncated x y (x.tdiv y) (x.tmod y) := by
  refine ⟨?_, ?_, ?_, ?_⟩
  · have := Int.mul_tdiv_add_tmod x y
    rw [Int.mul_comm]; exact this.symm
  · have h1 := Int.natAbs_tmod x y
    have h2 := Nat.mod_lt x.natAbs (y := y.natAbs) (by omega)
    rw [Int.abs_eq_natAbs, Int.abs_eq_natAbs]
    omega
  · intro h1
    by_contra h2
    have := Int.tmod_nonneg y (a := x) (by omega)
    omega
  · intro h1
    by_contra h2
    have := Int.tmod_nonneg y (a := -x) (by omega)
    rw [Int.neg_tmod] at this
    omega

theorem natAbs_tdiv_le (x y : Int) : (x.tdiv y).natAbs ≤ x.natAbs := by
  rw [Int.natAbs_tdiv]; exact Nat.div_le_self _ _

theorem natAbs_tmod_le (x y : Int) : (x.tmod y).natAbs ≤ x.natAbs := by
  rw [Int.natAbs_tmod]; exact Nat.mod_le _ _

theorem idiv_ok {u v : Num} (hu : u.Small) (hv : v.Small) :
    Yields (fun c => Op2.Spec .idiv u.val v.val c) (opIdiv.eval u v) := by
  refine arith_elim rfl hu.isNum hv.isNum _ ?_ ?_ ?_
  · rintro a b rfl rfl
    have ha : -(2 ^ 31) ≤ a ∧ a ≤ 2 ^ 31 := hu
    show Yields _ (if b = 0 then _ else .ok (.int (wrap64 (a.tdiv b))))
    split
    · exact yields_err
    · rename_i h
      have := natAbs_tdiv_le a b
      rw [wrap64_small (by omega) (by omega)]
      exact yields_int (by omega) ⟨a, b, _, _, rfl, rfl, rfl, truncated_tdiv h⟩
  · intro a b _ _ ha hb
    show Yields _ (if b = 0 then _ else .ok (shrinkBig (a.tdiv b)))
    rw [ha, hb]
    split
    · exact yields_err
    · rename_i h
      exact yields_big ⟨a, b, _, _, rfl, rfl, rfl, truncated_tdiv h⟩
  · intro a b ha hb _
    exact yields_err

theorem imod_ok {u v : Num} (hu : u.Small) (hv : v.Small) :
    Yields (fun c => Op2.Spec .imod u.val v.val c) (opImod.eval u v) := by
  refine arith_elim rfl hu.isNum hv.isNum _ ?_ ?_ ?_
  · rintro a b rfl rfl
    have ha : -(2 ^ 31) ≤ a ∧ a ≤ 2 ^ 31 := hu
    show Yields _ (if b = 0 then _ else .ok (.int (a.tmod b)))
    split
    · exact yields_err
    · rename_i h
      have := natAbs_tmod_le a b
      exact yields_int (by omega) ⟨a, b, _, _, rfl, rfl, rfl, truncated_tdiv h⟩
  · intro a b _ _ ha hb
    show Yields _ (if b = 0 then _ else .ok (shrinkBig (a.tmod b)))
    rw [ha, hb]
    split
    · exact yields_err
    · rename_i h
      exact yields_big ⟨a, b, _, _, rfl, rfl, rfl, truncated_tdiv h⟩
  · intro a b ha hb _
    exact yields_err

theorem euclid_int {x y q r : Int} (h1 : x = q * y + r) (h2 : 0 ≤ r) (h3 : r < |y|) : Euclidean x y q r := by
  refine ⟨?_, ?_, ?_⟩
  · exact_mod_cast h1
  · exact_mod_cast h2
  · exact_mod_cast h3

theorem euclid_ediv {x y : Int} (h : y ≠ 0) : Euclidean x y (x / y : Int) (x % y : Int) := by
  refine euclid_int ?_ (Int.emod_nonneg x h) (Int.emod_lt_abs x h)
  have := Int.mul_ediv_add_emod x y
  rw [Int.mul_comm]; exact this.symm

theorem div_ok {u v : Num} (hu : u.Small) (hv : v.Small) :
    Yields (fun c => Op2.Spec .div u.val v.val c) (opDiv.eval u v) := by
  refine div_elim rfl hu.isNum hv.isNum _ ?_ ?_
  · intro a b _ _ ha hb
    show Yields _ (if b = 0 then _ else .ok (shrinkBig (a / b)))
    rw [ha, hb]
    split
    · exact yields_err
    · rename_i h
      exact yields_big ⟨a, b, a / b, (a % b : Int), rfl, rfl, rfl, euclid_ediv h⟩
  · intro a b ha hb _
    exact yields_err

theorem quoRemInt_ok {x y : Int} (hx : -(2 ^ 31) ≤ x ∧ x ≤ 2 ^ 31) (hy : -(2 ^ 31) ≤ y ∧ y ≤ 2 ^ 31) (h : y ≠ 0) :
    x = (quoRemInt x y).1 * y + (quoRemInt x y).2 ∧ 0 ≤ (quoRemInt x y).2 ∧ (quoRemInt x y).2 < |y| ∧
      -(2 ^ 31) ≤ (quoRemInt x y).1 ∧ (quoRemInt x y).1 ≤ 2 ^ 31 := by
  have w1 : wrap64 (-x) = -x := wrap64_small (by omega) (by omega)
  have w2 : wrap64 (-y) = -y := wrap64_small (by omega) (by omega)
  unfold quoRemInt
  simp only [w1, w2]
  obtain ⟨a, ha⟩ : ∃ a : Int, a = if decide (x < 0) = true then -x else x := ⟨_, rfl⟩
  obtain ⟨b, hb⟩ : ∃ b : Int, b = if decide (y < 0) = true then -y else y := ⟨_, rfl⟩
  rw [← ha, ← hb]
  have ha' : a = x.natAbs := by
    rw [ha]; simp only [decide_eq_true_eq]; split <;> omega
  have hb' : b = y.natAbs := by
    rw [hb]; simp only [decide_eq_true_eq]; split <;> omega
  clear ha hb
  have hb0 : 0 < b := by omega
  have ha0 : 0 ≤ a := by omega
  rw [Int.tdiv_eq_ediv_of_nonneg ha0, Int.tmod_eq_emod_of_nonneg ha0, Int.abs_eq_natAbs, ← hb']
  have e1 := Int.mul_ediv_add_emod a b
  have e2 := Int.emod_nonneg a (b := b) (by omega)
  have e3 := Int.emod_lt_of_pos a hb0
  have e4 : 0 ≤ a / b := Int.ediv_nonneg ha0 (by omega)
  have e5 : a / b ≤ a := Int.ediv_le_self b ha0
  generalize a / b = q at *
  generalize a % b = r at *
  have e6 : a ≤ 2 ^ 31 := by omega
  have q1 : r ≠ 0 → q + 1 ≤ 2 ^ 31 := by
    intro hr
    by_contra h
    have : b * q ≥ 1 * (2 ^ 31) := Int.mul_le_mul (by omega) (by omega) (by omega) (by omega)
    omega
  rw [wrap64_small (x := q) (by omega) (by omega), wrap64_small (x := q + 1) (by omega) (by omega), wrap64_small (x := b - r) (by omega) (by omega)]
  have w3 : wrap64 (-q) = -q := wrap64_small (by omega) (by omega)
  have w4 : wrap64 (-(q + 1)) = -(q + 1) := wrap64_small (by omega) (by omega)
  have hxa : (x < 0 → x = -a) ∧ (¬ x < 0 → x = a) := ⟨by omega, by omega⟩
  have hyb : (y < 0 → y = -b) ∧ (¬ y < 0 → y = b) := ⟨by omega, by omega⟩
  clear ha' hb'
  by_cases hxn : x < 0 <;> by_cases hyn : y < 0 <;> by_cases hr : r = 0 <;>
    simp only [hxn, hyn, hr, w3, w4, decide_true, decide_false, ne_eq, not_true, not_false_eq_true, Bool.true_and, Bool.false_and,
      Bool.false_eq_true, if_true, if_false, Bool.true_eq_false] <;>
    (first | rw [hxa.1 hxn] | rw [hxa.2 hxn]) <;>
    (first | rw [hyb.1 hyn] | rw [hyb.2 hyn]) <;>
    (refine ⟨?_, by omega, by omega, by omega, by omega⟩
     linarith)

theorem toType_rat {n : Num} (h : n.isNum) : n.toType .bigRat = .ok (.bigRat n.val) := by
  cases n <;> first | rfl | exact h.elim

theorem quoRemRat_ok {x y : Rat} (h : y ≠ 0) : Euclidean x y (quoRemRat x y).1 (quoRemRat x y).2 := by
  unfold quoRemRat Euclidean
  simp only
  obtain ⟨a, ha⟩ : ∃ a : Rat, a = if decide (x < 0) = true then -x else x := ⟨_, rfl⟩
  obtain ⟨b, hb⟩ : ∃ b : Rat, b = if decide (y < 0) = true then -y else y := ⟨_, rfl⟩
  rw [← ha, ← hb]
  simp only [decide_eq_true_eq] at ha hb
  have hb' : |y| = b := by
    rw [hb]; split
    · rename_i h; exact abs_of_neg h
    · rename_i h; exact abs_of_nonneg (not_lt.1 h)
  have hb0 : 0 < b := by rw [← hb']; exact abs_pos.2 h
  have ha0 : 0 ≤ a := by
    rw [ha]; split
    · linarith
    · linarith
  have hq0 : 0 ≤ a / b := div_nonneg ha0 hb0.le
  have e1 : (a / b).num.tdiv (a / b).den = (a / b).floor := by
    rw [Int.tdiv_eq_ediv_of_nonneg (Rat.num_nonneg.2 hq0), Rat.floor_def]
  rw [e1, hb']
  have f1 := Rat.floor_le (a / b)
  have f2 := Rat.lt_floor_add_one (a / b)
  generalize (a / b).floor = q at *
  have e2 : a / b * b = a := div_mul_cancel₀ a hb0.ne'
  obtain ⟨r, hr⟩ : ∃ r : Rat, r = (a / b - q) * b := ⟨_, rfl⟩
  have r1 : a = q * b + r := by rw [hr, sub_mul, e2]; ring
  have r2 : 0 ≤ r := by rw [hr]; exact mul_nonneg (by linarith) hb0.le
  have r3 : r < b := by
    rw [hr]
    have : a / b - q < 1 := by push_cast at f2; linarith
    calc _ < 1 * b := mul_lt_mul_of_pos_right this hb0
      _ = b := one_mul b
  rw [← hr]
  have hxa : (x < 0 → x = -a) ∧ (¬ x < 0 → x = a) := by
    constructor <;> intro h <;> rw [ha] <;> simp [h]
  have hyb : (y < 0 → y = -b) ∧ (¬ y < 0 → y = b) := by
    constructor <;> intro h <;> rw [hb] <;> simp [h]
  have r4 : r ≠ 0 → 0 < r := fun h => lt_of_le_of_ne r2 (Ne.symm h)
  clear ha hb hb' e1 f1 f2 hq0 e2
  by_cases hxn : x < 0 <;> by_cases hyn : y < 0 <;> by_cases hr0 : r = 0 <;>
    simp only [hxn, hyn, hr0, decide_true, decide_false, ne_eq, not_true, not_false_eq_true, Bool.true_and, Bool.false_and,
      Bool.false_eq_true, if_true, if_false, Bool.true_eq_false] <;>
    (first | rw [hxa.1 hxn] | rw [hxa.2 hxn]) <;>
    (first | rw [hyb.1 hyn] | rw [hyb.2 hyn]) <;>
    (push_cast
     first | have h9 := r4 hr0 | have h9 := hb0
     refine ⟨?_, ?_, ?_⟩ <;> linarith)

end Verif.Num
