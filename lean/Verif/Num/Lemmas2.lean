import Verif.Num.Lemmas
/-
Helper lemmas for C08-C17: mod, powers, factorials, bits, comparisons, unary operators.
-/
namespace Verif.Num

theorem shrink_eq_zero {n : Num} (h : n.isNum) : n.shrink = .int 0 ↔ n.val = 0 := by
  cases n with
  | int i => simp [Num.shrink]
  | char c => exact h.elim
  | bigInt i =>
    simp only [Num.shrink, val_bigInt]
    constructor
    · intro h
      have := congrArg Num.val h
      simpa using this
    · intro h
      have : i = 0 := by exact_mod_cast h
      subst this; rfl
  | bigRat r =>
    simp only [Num.shrink, val_bigRat]
    constructor
    · intro h
      have := congrArg Num.val h
      simpa using this
    · rintro rfl; rfl

theorem mod_spec_ne {a b c : Rat} (h : b ≠ 0) {q : Int} (e : Euclidean a b q c) : Op2.Spec .mod a b c := by
  show if b = 0 then c = a else ∃ q : Int, Euclidean a b q c
  rw [if_neg h]; exact ⟨q, e⟩

theorem mod_spec_zero {a b : Rat} (h : b = 0) : Op2.Spec .mod a b a := by
  show if b = 0 then a = a else ∃ q : Int, Euclidean a b q a
  rw [if_pos h]

theorem quoRem_zero {a b : Num} (h : b.isNum) (h0 : b.val = 0) : quoRem a b = .ok (zero, a) := by
  unfold quoRem
  rw [if_pos ((shrink_eq_zero h).2 h0)]

theorem mod_ok {u v : Num} (hu : u.Small) (hv : v.Small) :
    Yields (fun c => Op2.Spec .mod u.val v.val c) (opMod.eval u v) := by
  refine arith_elim rfl hu.isNum hv.isNum _ ?_ ?_ ?_
  · rintro a b rfl rfl
    show Yields _ (modFn (.int a) (.int b))
    unfold modFn
    by_cases h : b = 0
    · subst h
      rw [quoRem_zero (b := .int 0) trivial rfl]
      exact yields_ok hu (mod_spec_zero (by simp))
    · have hb : (b : Rat) ≠ 0 := by exact_mod_cast h
      unfold quoRem
      rw [if_neg (fun h2 => hb ((shrink_eq_zero (n := .int b) trivial).1 h2))]
      obtain ⟨h1, h2, h3, h4⟩ := quoRemInt_ok (x := a) (y := b) hu hv h
      have hv' : -(2 ^ 31) ≤ b ∧ b ≤ 2 ^ 31 := hv
      refine yields_int (i := (quoRemInt a b).2) ⟨by omega, ?_⟩ (mod_spec_ne hb (euclid_int h1 h2 h3))
      rw [Int.abs_eq_natAbs] at h3
      omega
  · intro a b hui hvi ha hb
    show Yields _ (modFn (.bigInt a) (.bigInt b))
    unfold modFn
    rw [ha, hb]
    by_cases h : b = 0
    · subst h
      rw [quoRem_zero (b := .bigInt 0) trivial rfl]
      exact yields_ok trivial (mod_spec_zero (by simp))
    · have hb : (b : Rat) ≠ 0 := by exact_mod_cast h
      unfold quoRem
      rw [if_neg (fun h2 => hb ((shrink_eq_zero (n := .bigInt b) trivial).1 h2))]
      exact yields_big (i := a % b) (mod_spec_ne hb (euclid_ediv h))
  · intro a b ha hb hab
    show Yields _ (modFn (.bigRat a) (.bigRat b))
    unfold modFn
    rw [ha, hb]
    by_cases h : b = 0
    · subst h
      rw [quoRem_zero (b := .bigRat 0) trivial rfl]
      have : a.den ≠ 1 := by
        rcases hab with rfl | rfl
        · exact hu
        · exact absurd rfl hv
      exact yields_ok this (mod_spec_zero rfl)
    · unfold quoRem
      rw [if_neg (fun h2 => h ((shrink_eq_zero (n := .bigRat b) trivial).1 h2))]
      exact yields_rat (mod_spec_ne h (quoRemRat_ok h))

theorem exponent_eq {k : Int} (h0 : 0 ≤ k) (h : ¬ bitLen k > 63) : exponent k = k := by
  have := (bitLen_le_iff k 63).1 (by omega)
  unfold exponent
  rw [wrap64_small (by omega) (by omega)]
  simp only
  rw [if_neg (by omega)]

theorem bigIntExp_ok {mb : Nat} {j k p : Int} (hk : 0 < k) (h : bigIntExp mb j k = .ok p) : p = j ^ k.toNat := by
  unfold bigIntExp at h
  have hkn : k.toNat ≠ 0 := by omega
  split at h
  · rename_i h1
    cases h
    rcases h1 with rfl | rfl
    · simp
    · simp [hkn]
  · split at h
    · rename_i h1 h2
      cases h
      subst h2
      split
      · rw [Even.neg_pow (by rw [Nat.even_iff]; omega)]; simp
      · rw [Odd.neg_pow (by rw [Nat.odd_iff]; omega)]; simp
    · split at h
      · cases h
      · rename_i hb
        simp only [exponent_eq (by omega) hb] at h
        split at h
        · rename_i h4; cases h; rw [h4.1]
        · split at h
          · cases h
          · cases h; rfl

theorem bigIntExp_nocrash {mb : Nat} {j k : Int} : bigIntExp mb j k ≠ .crash ∧ bigIntExp mb j k ≠ .float := by
  unfold bigIntExp
  simp only
  repeat' split
  all_goals simp

theorem recip_ok {u : Num} (hu : u.Small) : Yields (fun c => c * u.val = 1) (opRecip.eval u) := by
  refine un_elim hu.isNum _ ?_ ?_ ?_
  · rintro a rfl
    show Yields _ (if a = 0 then _ else _)
    split
    · exact yields_err
    · rename_i h
      refine yields_rat ?_
      have : (a : Rat) ≠ 0 := by exact_mod_cast h
      show mkRat 1 1 / (a : Rat) * a = 1
      rw [div_mul_cancel₀ _ this]; rfl
  · rintro a rfl
    show Yields _ (if a = 0 then _ else _)
    split
    · exact yields_err
    · rename_i h
      refine yields_rat ?_
      have : (a : Rat) ≠ 0 := by exact_mod_cast h
      show mkRat 1 1 / (a : Rat) * a = 1
      rw [div_mul_cancel₀ _ this]; rfl
  · rintro a rfl
    show Yields _ (if a = 0 then _ else _)
    split
    · exact yields_err
    · rename_i h
      refine yields_rat ?_
      show (a.den : Rat) / a.num * a = 1
      have h1 : (a.num : Rat) ≠ 0 := by
        intro h2; apply h; exact Rat.num_eq_zero.1 (by exact_mod_cast h2)
      have h2 : a = a.num / a.den := (Rat.num_div_den a).symm
      have h3 : (a.den : Rat) ≠ 0 := by exact_mod_cast a.den_nz
      field_simp
      exact Rat.den_mul_eq_num a

theorem recip_some {u : Num} (hu : u.Small) (h : u.val ≠ 0) : ∃ w, opRecip.eval u = .ok w := by
  cases u with
  | int a =>
    have : a ≠ 0 := fun h2 => h (by simp [h2])
    exact ⟨_, if_neg this⟩
  | char c => exact hu.elim
  | bigInt a =>
    have : a ≠ 0 := fun h2 => h (by simp [h2])
    exact ⟨_, if_neg this⟩
  | bigRat a => exact ⟨_, if_neg h⟩

theorem rat_num_div_den_pow (a : Rat) (n : Nat) : ((a.num ^ n : Int) : Rat) / ((a.den ^ n : Nat) : Rat) = a ^ n := by
  push_cast
  rw [← div_pow, Rat.num_div_den]

theorem pow_ok {mb : Nat} {u v : Num} (hu : u.Small) (hv : v.Small) :
    Yields (fun c => Op2.Spec .pow u.val v.val c) ((opPow mb).eval u v) := by
  refine div_elim rfl hu.isNum hv.isNum _ ?_ ?_
  · intro a b _ _ ha hb
    rw [ha, hb]
    show Yields _ (if b = 0 then .ok one else if b < 0 then _ else _)
    split
    · rename_i h; subst h
      refine yields_ok (small_toInt true) ⟨0, rfl, ?_⟩
      simp [IsPow, one]
    · rename_i h0
      split
      · rename_i h1
        split
        · exact yields_err
        · rename_i h2
          obtain ⟨e1, e2⟩ := bigIntExp_nocrash (mb := mb) (j := a) (k := -b)
          cases hp : bigIntExp mb a (-b) with
          | ok p =>
            have := bigIntExp_ok (by omega) hp
            subst this
            have hr := recip_ok (small_shrinkBig (a ^ (-b).toNat))
            refine ⟨hr.1, fun w hw => ⟨(hr.2 w hw).1, b, rfl, ?_⟩⟩
            have := (hr.2 w hw).2
            rw [val_shrinkBig] at this
            rw [IsPow, if_neg (by omega)]
            exact ⟨by exact_mod_cast h2, by exact_mod_cast this⟩
          | err => exact yields_err
          | crash => exact absurd hp e1
          | float => exact absurd hp e2
      · rename_i h1
        split
        · rename_i h2
          refine yields_ok trivial ⟨b, rfl, ?_⟩
          rw [IsPow, if_pos (by omega), val_bigInt]
          rcases h2 with rfl | rfl
          · simp
          · have : b.toNat ≠ 0 := by omega
            simp [this]
        · obtain ⟨e1, e2⟩ := bigIntExp_nocrash (mb := mb) (j := a) (k := b)
          cases hp : bigIntExp mb a b with
          | ok p =>
            have := bigIntExp_ok (by omega) hp
            subst this
            refine yields_big ⟨b, rfl, ?_⟩
            rw [IsPow, if_pos (by omega)]
            push_cast; rfl
          | err => exact yields_err
          | crash => exact absurd hp e1
          | float => exact absurd hp e2
  · intro a b ha hb hab
    rw [ha, hb]
    show Yields _ (if b = 0 then .ok one else if b < 0 ∧ a = 0 then .err else _)
    split
    · rename_i h; subst h
      refine yields_ok (small_toInt true) ⟨0, rfl, ?_⟩
      simp [IsPow, one]
    · rename_i h0
      split
      · exact yields_err
      · rename_i h1
        obtain ⟨e, he, hpos⟩ : ∃ e : Rat, (if b < 0 then (opNeg.eval (.bigRat b)).bind fun n => n.toType .bigRat else Res.ok (.bigRat b)) = .ok (.bigRat e) ∧
            e = if b < 0 then -b else b := by
          split
          · refine ⟨-b, ?_, rfl⟩
            show (shrinkRat (-b)).toType .bigRat = _
            rw [toType_rat (small_shrinkRat _).isNum, val_shrinkRat]
          · exact ⟨b, rfl, rfl⟩
        rw [he]
        show Yields _ (if e.den ≠ 1 then .float else _)
        split
        · exact yields_float
        · rename_i hd
          have hd1 : e.den = 1 := by omega
          have he0 : 0 < e := by
            rw [hpos]; split
            · linarith
            · rcases lt_trichotomy b 0 with h | h | h
              · contradiction
              · contradiction
              · exact h
          have hen : 0 < e.num := Rat.num_pos.2 he0
          obtain ⟨e1, e2⟩ := bigIntExp_nocrash (mb := mb) (j := a.num) (k := e.num)
          obtain ⟨e3, e4⟩ := bigIntExp_nocrash (mb := mb) (j := a.den) (k := e.num)
          cases hp : bigIntExp mb a.num e.num with
          | ok p =>
            cases hq : bigIntExp mb a.den e.num with
            | ok q =>
              have hp1 := bigIntExp_ok hen hp
              have hq1 := bigIntExp_ok hen hq
              have hen2 : (e.num : Rat) = e := Rat.coe_int_num_of_den_eq_one hd1
              have key : (p : Rat) / (q : Rat) = a ^ e.num.toNat := by
                rw [hp1, hq1, ← rat_num_div_den_pow]; push_cast; rfl
              by_cases hbn : b < 0
              · rw [if_pos hbn] at hpos
                have hbe : b = ((-e.num : Int) : Rat) := by push_cast; rw [hen2, hpos]; ring
                refine yields_rat ⟨-e.num, hbe, ?_⟩
                rw [IsPow, if_neg (by omega)]
                have ha0 : a ≠ 0 := fun h => h1 ⟨hbn, h⟩
                refine ⟨ha0, ?_⟩
                simp only [hbn, not_true, if_false]
                rw [Int.neg_neg, ← key]
                have hp0 : (p : Rat) ≠ 0 := by
                  rw [hp1]; push_cast
                  apply pow_ne_zero
                  intro h; apply ha0; exact Rat.num_eq_zero.1 (by exact_mod_cast h)
                have hq0 : (q : Rat) ≠ 0 := by
                  rw [hq1]; push_cast
                  apply pow_ne_zero
                  exact_mod_cast a.den_nz
                field_simp
              · rw [if_neg hbn] at hpos
                refine yields_rat ⟨e.num, by rw [hen2, hpos], ?_⟩
                rw [IsPow, if_pos (by omega)]
                simp only [hbn, not_false_eq_true, if_true]
                exact key
            | err => exact yields_err
            | crash => exact absurd hq e3
            | float => exact absurd hq e4
          | err => exact yields_err
          | crash => exact absurd hp e1
          | float => exact absurd hp e2

theorem neg_ok {u : Num} (hu : u.Small) : Yields (fun c => c = -u.val) (opNeg.eval u) := by
  refine un_elim hu.isNum _ ?_ ?_ ?_
  · rintro a rfl
    have ha : -(2 ^ 31) ≤ a ∧ a ≤ 2 ^ 31 := hu
    show Yields _ (.ok (.int (wrap64 (-a))))
    rw [wrap64_small (by omega) (by omega)]
    exact yields_int (by omega) (by simp)
  · rintro a rfl
    exact yields_big (by simp)
  · rintro a rfl
    exact yields_rat (by simp)

theorem abs_ok {u : Num} (hu : u.Small) : Yields (fun c => Op1.Spec .abs u.val c) (opAbs.eval u) := by
  refine un_elim hu.isNum _ ?_ ?_ ?_
  · rintro a rfl
    have ha : -(2 ^ 31) ≤ a ∧ a ≤ 2 ^ 31 := hu
    show Yields _ (.ok (.int (if a < 0 then wrap64 (-a) else a)))
    rw [wrap64_small (by omega) (by omega)]
    refine yields_int (by split <;> omega) ?_
    show (((if a < 0 then -a else a : Int)) : Rat) = if (a : Rat) < 0 then -(a : Rat) else a
    have : ((a : Rat) < 0) ↔ a < 0 := by exact_mod_cast Iff.rfl
    by_cases h : a < 0
    · rw [if_pos h, if_pos (this.2 h)]; simp
    · rw [if_neg h, if_neg (fun h2 => h (this.1 h2))]
  · rintro a rfl
    refine yields_big (i := (a.natAbs : Int)) ?_
    show ((a.natAbs : Int) : Rat) = if (a : Rat) < 0 then -(a : Rat) else a
    have : ((a : Rat) < 0) ↔ a < 0 := by exact_mod_cast Iff.rfl
    by_cases h : a < 0
    · rw [if_pos (this.2 h)]
      have : (a.natAbs : Int) = -a := by omega
      rw [this]; simp
    · rw [if_neg (fun h2 => h (this.1 h2))]
      have : (a.natAbs : Int) = a := by omega
      rw [this]
  · rintro a rfl
    exact yields_rat rfl

theorem sign_small (a : Int) : -(2 ^ 31) ≤ sign a ∧ sign a ≤ 2 ^ 31 := by
  unfold sign; repeat' split
  all_goals omega

theorem sgn_ok {u : Num} (hu : u.Small) : Yields (fun c => Op1.Spec .sgn u.val c) (opSgn.eval u) := by
  have key : ∀ a : Int, ((sign a : Int) : Rat) = if (a : Rat) < 0 then -1 else if (a : Rat) = 0 then 0 else 1 := by
    intro a
    unfold sign
    have h1 : ((a : Rat) < 0) ↔ a < 0 := by exact_mod_cast Iff.rfl
    have h2 : ((a : Rat) = 0) ↔ a = 0 := by exact_mod_cast Iff.rfl
    by_cases h : a < 0
    · rw [if_pos h, if_pos (h1.2 h)]; simp
    · rw [if_neg h, if_neg (fun h3 => h (h1.1 h3))]
      by_cases h4 : a = 0
      · rw [if_pos h4, if_pos (h2.2 h4)]; simp
      · rw [if_neg h4, if_neg (fun h3 => h4 (h2.1 h3))]; simp
  refine un_elim hu.isNum _ ?_ ?_ ?_
  · rintro a rfl
    have : (if a > 0 then one else if a < 0 then minusOne else zero) = .int (sign a) := by
      unfold sign
      rcases Int.lt_trichotomy a 0 with h | h | h
      · rw [if_neg (by omega), if_pos h, if_pos h]; rfl
      · subst h; rfl
      · rw [if_pos h, if_neg (by omega), if_neg (by omega)]; rfl
    show Yields _ (.ok (if a > 0 then one else if a < 0 then minusOne else zero))
    rw [this]
    exact yields_int (sign_small a) (key a)
  · rintro a rfl
    exact yields_int (sign_small a) (key a)
  · rintro a rfl
    refine yields_int (sign_small a.num) ?_
    show ((sign a.num : Int) : Rat) = if a < 0 then -1 else if a = 0 then 0 else 1
    rw [key]
    have h1 : ((a.num : Rat) < 0) ↔ a < 0 := by
      constructor
      · intro h; exact Rat.num_neg.1 (by exact_mod_cast h)
      · intro h; exact_mod_cast Rat.num_neg.2 h
    have h2 : ((a.num : Rat) = 0) ↔ a = 0 := by
      constructor
      · intro h; exact Rat.num_eq_zero.1 (by exact_mod_cast h)
      · rintro rfl; rfl
    simp only [h1, h2]

/-- Truncated quotient of numerator by denominator, on a non-negative fraction. -/
theorem trunc_floor {i : Rat} (h : 0 ≤ i) : ((i.num.tdiv i.den : Int) : Rat) ≤ i ∧ i < ((i.num.tdiv i.den : Int) : Rat) + 1 := by
  have e1 : i.num.tdiv i.den = i.floor := by
    rw [Int.tdiv_eq_ediv_of_nonneg (Rat.num_nonneg.2 h), Rat.floor_def]
  rw [e1]
  have f2 := Rat.lt_floor_add_one i
  push_cast at f2
  exact ⟨Rat.floor_le i, f2⟩

theorem not_int_of_den {a : Rat} (h : a.den ≠ 1) (z : Int) : a ≠ z := by
  rintro rfl; exact h rfl

theorem floor_ok {u : Num} (hu : u.Small) : Yields (fun c => Op1.Spec .floor u.val c) (opFloor.eval u) := by
  refine un_elim hu.isNum _ ?_ ?_ ?_
  · rintro a rfl
    exact yields_int hu ⟨a, rfl, by simp, by simp⟩
  · rintro a rfl
    exact yields_ok trivial ⟨a, rfl, by simp, by simp⟩
  · rintro a rfl
    have hd : a.den ≠ 1 := hu
    show Yields _ (if a.den = 1 then .crash else _)
    rw [if_neg hd]
    by_cases h : a.num ≥ 0
    · simp only [h, if_true]
      obtain ⟨h1, h2⟩ := trunc_floor (Rat.num_nonneg.1 h)
      exact yields_big ⟨_, rfl, h1, h2⟩
    · simp only [h, if_false]
      have hneg : a < 0 := by
        rw [← Rat.num_neg]; omega
      obtain ⟨h1, h2⟩ := trunc_floor (i := -a) (by linarith)
      have h3 : ((-a).num.tdiv (-a).den : Int) ≠ -a := fun h => not_int_of_den (a := -a) (by simpa using hd) _ h.symm
      have h4 := lt_of_le_of_ne h1 h3
      refine yields_big ⟨_, rfl, ?_, ?_⟩
      · push_cast; simp only [val_bigRat]; linarith
      · push_cast; simp only [val_bigRat]; linarith

theorem ceil_ok {u : Num} (hu : u.Small) : Yields (fun c => Op1.Spec .ceil u.val c) (opCeil.eval u) := by
  refine un_elim hu.isNum _ ?_ ?_ ?_
  · rintro a rfl
    exact yields_int hu ⟨a, rfl, by simp, by simp⟩
  · rintro a rfl
    exact yields_ok trivial ⟨a, rfl, by simp, by simp⟩
  · rintro a rfl
    have hd : a.den ≠ 1 := hu
    show Yields _ (if a.den = 1 then .crash else _)
    rw [if_neg hd]
    by_cases h : a.num ≥ 0
    · simp only [h, if_true]
      obtain ⟨h1, h2⟩ := trunc_floor (Rat.num_nonneg.1 h)
      have h3 : (a.num.tdiv a.den : Int) ≠ a := fun h => not_int_of_den hd _ h.symm
      have h4 := lt_of_le_of_ne h1 h3
      refine yields_big ⟨_, rfl, ?_, ?_⟩
      · push_cast; simp only [val_bigRat]; linarith
      · push_cast; simp only [val_bigRat]; linarith
    · simp only [h, if_false]
      have hneg : a < 0 := by
        rw [← Rat.num_neg]; omega
      obtain ⟨h1, h2⟩ := trunc_floor (i := -a) (by linarith)
      refine yields_big ⟨_, rfl, ?_, ?_⟩
      · push_cast; simp only [val_bigRat]; linarith
      · push_cast; simp only [val_bigRat]; linarith

theorem not_ok {u : Num} (hu : u.Small) : Yields (fun c => Op1.Spec .not u.val c) (opNot.eval u) := by
  have key : ∀ (p : Prop) [Decidable p] (q : Prop) [Decidable q], (p ↔ q) → Yields (fun c => c = truth q) (.ok (if p then one else zero)) := by
    intro p _ q _ hpq
    by_cases h : p
    · rw [if_pos h]
      exact yields_ok (small_toInt true) (by simp [one, truth, hpq.1 h])
    · rw [if_neg h]
      exact yields_ok (small_toInt false) (by rw [truth, if_neg (fun h2 => h (hpq.2 h2))]; rfl)
  refine un_elim hu.isNum _ ?_ ?_ ?_
  · rintro a rfl
    exact key (a = 0) ((a : Rat) = 0) (by exact_mod_cast Iff.rfl)
  · rintro a rfl
    exact key (a = 0) ((a : Rat) = 0) (by exact_mod_cast Iff.rfl)
  · rintro a rfl
    exact key (a = 0) (a = 0) Iff.rfl

theorem prod_range' (n : Nat) : (List.range' 1 n).prod = Nat.factorial n := by
  induction n with
  | zero => rfl
  | succ n ih =>
    rw [List.range'_concat, List.prod_append, ih, Nat.factorial_succ]
    simp [Nat.mul_comm, Nat.add_comm]

theorem fac_ok {u : Num} (hu : u.Small) : Yields (fun c => Op1.Spec .fac u.val c) (opFac.eval u) := by
  refine un_elim hu.isNum _ ?_ ?_ ?_
  · rintro a rfl
    have ha : -(2 ^ 31) ≤ a ∧ a ≤ 2 ^ 31 := hu
    show Yields _ ((facRes (factorial a)).bind fun f => .ok (shrinkBig f))
    by_cases h : a < 0
    · have : factorial a = .err := if_pos h
      rw [this]
      exact yields_err
    · obtain ⟨n, rfl⟩ : ∃ n : Nat, a = n := ⟨a.toNat, by omega⟩
      rw [factorial_eq n (by omega)]
      exact yields_big ⟨n, rfl, by rw [prod_range']; rfl⟩
  · rintro a rfl
    exact yields_err
  · rintro a rfl
    exact yields_err

theorem choose_ok {u v : Num} (hu : u.Small) (hv : v.Small) (hnn : 0 ≤ u.val ∧ 0 ≤ v.val) (h0 : v.val = 0 → u.val = 0) :
    Yields (fun c => Op2.Spec .choose u.val v.val c) (opChoose.eval u v) := by
  refine arith_elim rfl hu.isNum hv.isNum _ ?_ ?_ ?_
  · rintro a b rfl rfl
    have ha : -(2 ^ 31) ≤ a ∧ a ≤ 2 ^ 31 := hu
    have hb : -(2 ^ 31) ≤ b ∧ b ≤ 2 ^ 31 := hv
    simp only [val_int] at hnn h0
    have hna : 0 ≤ a := by exact_mod_cast hnn.1
    have hnb : 0 ≤ b := by exact_mod_cast hnn.2
    obtain ⟨n, rfl⟩ : ∃ n : Nat, a = n := ⟨a.toNat, by omega⟩
    obtain ⟨k, rfl⟩ : ∃ k : Nat, b = k := ⟨b.toNat, by omega⟩
    have h0' : k = 0 → n = 0 := by
      intro h; subst h
      have := h0 (by simp)
      exact_mod_cast this
    show Yields _ (if (n : Int) = 0 ∨ (k : Int) = 0 ∨ (n : Int) = k then .ok one else if (n : Int) < 0 ∨ (k : Int) < 0 ∨ (n : Int) > k then .ok zero else _)
    split
    · rename_i h
      have hc : n = 0 ∨ n = k := by omega
      refine yields_ok (small_toInt true) ⟨n, k, rfl, rfl, ?_⟩
      rw [if_neg (by omega), prod_range', prod_range', prod_range']
      rcases hc with rfl | rfl <;> simp [one]
    · split
      · rename_i h
        refine yields_ok (small_toInt false) ⟨n, k, rfl, rfl, ?_⟩
        rw [if_pos (by omega)]; simp [zero]
      · rename_i h
        have e : (k : Int) - n = ((k - n : Nat) : Int) := by omega
        rw [e, factorial_eq n (by omega), factorial_eq k (by omega), factorial_eq (k - n) (by omega)]
        refine yields_big ⟨n, k, rfl, rfl, ?_⟩
        rw [if_neg (by omega), prod_range', prod_range', prod_range']
        have h1 : (k.factorial : Int) / n.factorial / (k - n).factorial = ((k.choose n : Nat) : Int) := by
          rw [Nat.choose_eq_factorial_div_factorial (by omega), ← Nat.div_div_eq_div_mul]
          norm_cast
        rw [h1]
        have := Nat.choose_mul_factorial_mul_factorial (n := k) (k := n) (by omega)
        exact_mod_cast this ▸ (by ring_nf : (k.choose n) * (n.factorial * (k - n).factorial) = k.choose n * n.factorial * (k - n).factorial)
  · intro a b _ _ _ _
    exact yields_err
  · intro a b _ _ _
    exact yields_err

end Verif.Num
