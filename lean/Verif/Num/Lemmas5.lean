import Verif.Num.Lemmas4
/-
The specification determines the result.
-/
set_option linter.dupNamespace false
namespace Verif.Num

theorem truncated_unique {x y q r q' r' : Int} (h : Truncated x y q r) (h' : Truncated x y q' r') : q = q' ∧ r = r' := by
  obtain ⟨h1, h2, h3, h4⟩ := h
  obtain ⟨h1', h2', h3', h4'⟩ := h'
  have hy : y ≠ 0 := by rintro rfl; rw [abs_zero] at h2; exact absurd (abs_nonneg r) (by omega)
  have e : (q - q') * y = r' - r := by linarith [sub_mul q q' y]
  have hr : |r' - r| < |y| := by
    rw [Int.abs_eq_natAbs] at *
    rw [Int.abs_eq_natAbs] at *
    omega
  have : q - q' = 0 := by
    by_contra hne
    have h1 : 1 ≤ |q - q'| := Int.one_le_abs hne
    have : |y| ≤ |(q - q') * y| := by
      rw [abs_mul]
      nlinarith [abs_nonneg y]
    rw [e] at this
    omega
  have hq : q = q' := by omega
  subst hq
  exact ⟨rfl, by omega⟩

theorem euclidean_unique {x y : Rat} {q q' : Int} {r r' : Rat} (h : Euclidean x y q r) (h' : Euclidean x y q' r') :
    q = q' ∧ r = r' := by
  obtain ⟨h1, h2, h3⟩ := h
  obtain ⟨h1', h2', h3'⟩ := h'
  have e : ((q - q' : Int) : Rat) * y = r' - r := by push_cast; linarith [sub_mul (q : Rat) q' y]
  have hr : |r' - r| < |y| := by rw [abs_lt]; constructor <;> linarith
  have : q - q' = 0 := by
    by_contra hne
    have h1 : (1 : Rat) ≤ |((q - q' : Int) : Rat)| := by
      rw [← Int.cast_abs]; exact_mod_cast Int.one_le_abs hne
    have : |y| ≤ |((q - q' : Int) : Rat) * y| := by
      rw [abs_mul]
      nlinarith [abs_nonneg y]
    rw [e] at this
    linarith
  have hq : q = q' := by omega
  subst hq
  exact ⟨rfl, by linarith⟩

theorem castInj {x y : Int} {a : Rat} (h1 : a = x) (h2 : a = y) : x = y := by
  rw [h1] at h2; exact_mod_cast h2

theorem castNatInj {x y : Nat} {a : Rat} (h1 : a = x) (h2 : a = y) : x = y := by
  rw [h1] at h2; exact_mod_cast h2

theorem floor_unique {z z' : Int} {a : Rat} (h1 : (z : Rat) ≤ a) (h2 : a < z + 1) (h1' : (z' : Rat) ≤ a) (h2' : a < z' + 1) : z = z' := by
  have a1 : (z : Rat) < z' + 1 := by linarith
  have a2 : (z' : Rat) < z + 1 := by linarith
  have : z < z' + 1 := by exact_mod_cast a1
  have : z' < z + 1 := by exact_mod_cast a2
  omega

theorem op2_unique {op : Op2} {a b c c' : Rat} (h : op.Spec a b c) (h' : op.Spec a b c') : c = c' := by
  cases op with
  | add | sub | mul | eq | ne | lt | le | gt | ge | and | or | xor | nand | nor => exact Eq.trans h (Eq.symm h')
  | quo => exact mul_right_cancel₀ h.1 (h.2.trans h'.2.symm)
  | idiv =>
    obtain ⟨x, y, q, r, h1, h2, h3, h4⟩ := h
    obtain ⟨x', y', q', r', h1', h2', h3', h4'⟩ := h'
    cases castInj h1 h1'; cases castInj h2 h2'
    rw [h3, h3', (truncated_unique h4 h4').1]
  | imod =>
    obtain ⟨x, y, q, r, h1, h2, h3, h4⟩ := h
    obtain ⟨x', y', q', r', h1', h2', h3', h4'⟩ := h'
    cases castInj h1 h1'; cases castInj h2 h2'
    rw [h3, h3', (truncated_unique h4 h4').2]
  | div =>
    obtain ⟨x, y, q, r, h1, h2, h3, h4⟩ := h
    obtain ⟨x', y', q', r', h1', h2', h3', h4'⟩ := h'
    rw [h3, h3', (euclidean_unique h4 h4').1]
  | mod =>
    have h : if b = 0 then c = a else ∃ q : Int, Euclidean a b q c := h
    have h' : if b = 0 then c' = a else ∃ q : Int, Euclidean a b q c' := h'
    split at h
    · rename_i hb; rw [if_pos hb] at h'; rw [h, h']
    · rename_i hb; rw [if_neg hb] at h'
      obtain ⟨q, h⟩ := h
      obtain ⟨q', h'⟩ := h'
      exact (euclidean_unique h h').2
  | pow =>
    obtain ⟨n, h1, h2⟩ := h
    obtain ⟨n', h1', h2'⟩ := h'
    cases castInj h1 h1'
    unfold IsPow at h2 h2'
    split at h2
    · rename_i hn; rw [if_pos hn] at h2'; rw [h2, h2']
    · rename_i hn; rw [if_neg hn] at h2'
      exact mul_right_cancel₀ (pow_ne_zero _ h2.1) (h2.2.trans h2'.2.symm)
  | choose =>
    obtain ⟨n, k, h1, h2, h3⟩ := h
    obtain ⟨n', k', h1', h2', h3'⟩ := h'
    cases castNatInj h1 h1'; cases castNatInj h2 h2'
    split at h3
    · rename_i hn; rw [if_pos hn] at h3'; rw [h3, h3']
    · rename_i hn; rw [if_neg hn] at h3'
      refine mul_right_cancel₀ ?_ (h3.trans h3'.symm)
      rw [prod_range', prod_range']
      exact_mod_cast Nat.mul_ne_zero (Nat.factorial_ne_zero _) (Nat.factorial_ne_zero _)
  | band | bor | bxor =>
    obtain ⟨x, y, z, h1, h2, h3, h4⟩ := h
    obtain ⟨x', y', z', h1', h2', h3', h4'⟩ := h'
    cases castInj h1 h1'; cases castInj h2 h2'
    rw [h3, h3', bit_ext fun k => (h4 k).trans (h4' k).symm]
  | shl =>
    obtain ⟨x, n, h1, h2, h3⟩ := h
    obtain ⟨x', n', h1', h2', h3'⟩ := h'
    cases castNatInj h2 h2'
    rw [h3, h3']
  | shr =>
    obtain ⟨x, z, n, h1, h2, h3, h4, h5⟩ := h
    obtain ⟨x', z', n', h1', h2', h3', h4', h5'⟩ := h'
    cases castNatInj h2 h2'
    have hp : (0 : Rat) < 2 ^ n := by positivity
    rw [h3, h3'] at *
    congr 1
    exact floor_unique (a := a / 2 ^ n) ((le_div_iff₀ hp).2 h4) ((div_lt_iff₀ hp).2 h5) ((le_div_iff₀ hp).2 h4') ((div_lt_iff₀ hp).2 h5')
  | min =>
    obtain ⟨h1, h2, h3⟩ := h
    obtain ⟨h1', h2', h3'⟩ := h'
    apply le_antisymm
    · rcases h1' with rfl | rfl <;> assumption
    · rcases h1 with rfl | rfl <;> assumption
  | max =>
    obtain ⟨h1, h2, h3⟩ := h
    obtain ⟨h1', h2', h3'⟩ := h'
    apply le_antisymm
    · rcases h1 with rfl | rfl <;> assumption
    · rcases h1' with rfl | rfl <;> assumption

theorem op1_unique {op : Op1} {a c c' : Rat} (h : op.Spec a c) (h' : op.Spec a c') : c = c' := by
  cases op with
  | neg | abs | sgn | not => exact Eq.trans h (Eq.symm h')
  | recip =>
    have h : c * a = 1 := h
    have h' : c' * a = 1 := h'
    have : a ≠ 0 := by rintro rfl; simp at h
    exact mul_right_cancel₀ this (h.trans h'.symm)
  | floor =>
    obtain ⟨z, h1, h2, h3⟩ := h
    obtain ⟨z', h1', h2', h3'⟩ := h'
    rw [h1, h1'] at *
    rw [floor_unique h2 h3 h2' h3']
  | ceil =>
    obtain ⟨z, h1, h2, h3⟩ := h
    obtain ⟨z', h1', h2', h3'⟩ := h'
    rw [h1, h1'] at *
    have := floor_unique (z := -z) (z' := -z') (a := -a) (by push_cast; linarith) (by push_cast; linarith)
      (by push_cast; linarith) (by push_cast; linarith)
    congr 1; omega
  | fac =>
    obtain ⟨n, h1, h2⟩ := h
    obtain ⟨n', h1', h2'⟩ := h'
    cases castNatInj h1 h1'
    rw [h2, h2']
  | compl =>
    obtain ⟨x, z, h1, h3, h4⟩ := h
    obtain ⟨x', z', h1', h3', h4'⟩ := h'
    cases castInj h1 h1'
    rw [h3, h3', bit_ext fun k => (h4 k).trans (h4' k).symm]

theorem means_unique {e : Expr} {a b : Rat} (h : Means e a) (h' : Means e b) : a = b := by
  induction h generalizing b with
  | lit r => cases h'; rfl
  | un h1 h2 ih => cases h' with | un h1' h2' => cases ih h1'; exact op1_unique h2 h2'
  | bin h1 h2 h3 ih1 ih2 => cases h' with | bin h1' h2' h3' => cases ih1 h1'; cases ih2 h2'; exact op2_unique h3 h3'

/-! ## All operators together -/

/-- The cases in which binary `!` is not the binomial coefficient are excluded. -/
def ChooseOk (op : Op2) (u v : Num) : Prop := op = .choose → 0 ≤ u.val ∧ 0 ≤ v.val ∧ (v.val = 0 → u.val = 0)

theorem op2_value {mb : Nat} {op : Op2} {u v : Num} (hu : u.Small) (hv : v.Small) (hc : ChooseOk op u v) :
    YieldsV (fun c => op.Spec u.val v.val c) ((op.impl mb).eval u v) := by
  cases op with
  | add => exact yieldsV_of (add_ok hu hv)
  | sub => exact yieldsV_of (sub_ok hu hv)
  | mul => exact yieldsV_of (mul_ok hu hv)
  | quo => exact yieldsV_of (divide_ok hu hv)
  | idiv => exact yieldsV_of (idiv_ok hu hv)
  | imod => exact yieldsV_of (imod_ok hu hv)
  | div => exact yieldsV_of (div_ok hu hv)
  | mod => exact yieldsV_of (mod_ok hu hv)
  | pow => exact yieldsV_of (pow_ok hu hv)
  | choose => exact yieldsV_of (choose_ok hu hv ⟨(hc rfl).1, (hc rfl).2.1⟩ (hc rfl).2.2)
  | band => exact yieldsV_of (band_ok hu hv)
  | bor => exact bor_ok hu hv
  | bxor => exact bxor_ok hu hv
  | shl => exact yieldsV_of (shl_ok hu hv)
  | shr => exact yieldsV_of (shr_ok hu hv)
  | eq => exact yieldsV_of (eq_ok hu hv)
  | ne => exact yieldsV_of (ne_ok hu hv)
  | lt => exact yieldsV_of (lt_ok hu hv)
  | le => exact yieldsV_of (le_ok hu hv)
  | gt => exact yieldsV_of (gt_ok hu hv)
  | ge => exact yieldsV_of (ge_ok hu hv)
  | and => exact yieldsV_of (and_ok hu hv)
  | or => exact yieldsV_of (or_ok hu hv)
  | xor => exact yieldsV_of (xor_ok hu hv)
  | nand => exact yieldsV_of (nand_ok hu hv)
  | nor => exact yieldsV_of (nor_ok hu hv)
  | min => exact yieldsV_of (min_ok hu hv)
  | max => exact yieldsV_of (max_ok hu hv)

theorem op2_small {mb : Nat} {op : Op2} {u v : Num} (hu : u.Small) (hv : v.Small) (hc : ChooseOk op u v)
    (h1 : op ≠ .bor) (h2 : op ≠ .bxor) : Yields (fun c => op.Spec u.val v.val c) ((op.impl mb).eval u v) := by
  cases op with
  | add => exact add_ok hu hv
  | sub => exact sub_ok hu hv
  | mul => exact mul_ok hu hv
  | quo => exact divide_ok hu hv
  | idiv => exact idiv_ok hu hv
  | imod => exact imod_ok hu hv
  | div => exact div_ok hu hv
  | mod => exact mod_ok hu hv
  | pow => exact pow_ok hu hv
  | choose => exact choose_ok hu hv ⟨(hc rfl).1, (hc rfl).2.1⟩ (hc rfl).2.2
  | band => exact band_ok hu hv
  | bor => exact (h1 rfl).elim
  | bxor => exact (h2 rfl).elim
  | shl => exact shl_ok hu hv
  | shr => exact shr_ok hu hv
  | eq => exact eq_ok hu hv
  | ne => exact ne_ok hu hv
  | lt => exact lt_ok hu hv
  | le => exact le_ok hu hv
  | gt => exact gt_ok hu hv
  | ge => exact ge_ok hu hv
  | and => exact and_ok hu hv
  | or => exact or_ok hu hv
  | xor => exact xor_ok hu hv
  | nand => exact nand_ok hu hv
  | nor => exact nor_ok hu hv
  | min => exact min_ok hu hv
  | max => exact max_ok hu hv

theorem op1_small {op : Op1} {u : Num} (hu : u.Small) (h1 : op ≠ .compl) :
    Yields (fun c => op.Spec u.val c) (op.impl.eval u) := by
  cases op with
  | neg => exact neg_ok hu
  | recip => exact recip_ok hu
  | abs => exact abs_ok hu
  | sgn => exact sgn_ok hu
  | floor => exact floor_ok hu
  | ceil => exact ceil_ok hu
  | not => exact not_ok hu
  | fac => exact fac_ok hu
  | compl => exact (h1 rfl).elim

theorem op1_value {op : Op1} {u : Num} (hu : u.Small) : YieldsV (fun c => op.Spec u.val c) (op.impl.eval u) := by
  by_cases h : op = .compl
  · subst h; exact compl_ok hu
  · exact yieldsV_of (op1_small hu h)

/-! ## Bits of results -/

theorem bitLen_add {a b : Int} {n : Nat} (ha : bitLen a + 1 ≤ n) (hb : bitLen b + 1 ≤ n) : bitLen (a + b) ≤ n := by
  obtain ⟨m, rfl⟩ : ∃ m, n = m + 1 := ⟨n - 1, by omega⟩
  have h1 := (bitLen_le_iff a m).1 (by omega)
  have h2 := (bitLen_le_iff b m).1 (by omega)
  rw [bitLen_le_iff, pow_succ]
  omega

theorem bitLen_neg (a : Int) : bitLen (-a) = bitLen a := by
  unfold bitLen
  rw [Int.natAbs_neg]
  simp

theorem bitLen_sub {a b : Int} {n : Nat} (ha : bitLen a + 1 ≤ n) (hb : bitLen b + 1 ≤ n) : bitLen (a - b) ≤ n := by
  rw [Int.sub_eq_add_neg]
  exact bitLen_add ha (by rw [bitLen_neg]; exact hb)

theorem bitLen_mul {a b : Int} {n : Nat} (h : bitLen a + bitLen b ≤ n) : bitLen (a * b) ≤ n := by
  have h1 := (bitLen_le_iff a (bitLen a)).1 le_rfl
  have h2 := (bitLen_le_iff b (bitLen b)).1 le_rfl
  rw [bitLen_le_iff, Int.natAbs_mul]
  calc a.natAbs * b.natAbs < 2 ^ bitLen a * 2 ^ bitLen b := Nat.mul_lt_mul'' h1 h2
    _ = 2 ^ (bitLen a + bitLen b) := (pow_add 2 _ _).symm
    _ ≤ 2 ^ n := Nat.pow_le_pow_right (by norm_num) h

theorem bitLen_pow {a : Int} {k : Nat} (hk : 0 < k) : bitLen (a ^ k) ≤ bitLen a * k := by
  have h1 := (bitLen_le_iff a (bitLen a)).1 le_rfl
  rw [bitLen_le_iff, Int.natAbs_pow, pow_mul]
  exact Nat.pow_lt_pow_left h1 (by omega)

theorem tooBig_false {mb : Nat} {n : Int} (h0 : mb ≠ 0) (h : mb < 2 ^ 63) (hn : tooBig mb n = false) : n ≤ mb := by
  unfold tooBig at hn
  rw [wrap64_small (by omega) (by omega)] at hn
  simp [h0] at hn
  exact hn

end Verif.Num
