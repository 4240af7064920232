import Verif.Shown.HugeLemmas
/-
Lemmas on the text of huge floats: the digits.
-/
namespace Verif.Shown
open Verif.Flt Verif.Flt.Spec Verif.Arr
open Verif.Lit (Sign Numeral Exponent withSign Digit ofDigits_cons_rev)

theorem numeral_zero_head {t : List Char} {n : Nat} (h : Numeral 10 ('0' :: t) n) : n < 10 ^ t.length := by
  obtain ⟨_, ds, hd, rfl⟩ := h
  cases hd with
  | cons a b =>
    rename_i d0 ds'
    have h0 : d0 = 0 := by
      rcases a.1 with ⟨_, h2⟩ | ⟨h1, _⟩
      · simpa using h2
      · have := a.2; omega
    subst h0
    rw [ofDigits_cons_rev, zero_mul, zero_add]
    by_cases ht : t = []
    · subst ht; cases b; decide
    · exact numeral_lt ⟨ht, ds', b, rfl⟩

theorem mant_head {d : Dec} (h : d.n ≠ 0) : d.mant.head? ≠ some '0' := by
  intro hh
  have h1 := mant_numeral h
  have h2 := mant_low h
  cases hm : d.mant with
  | nil => rw [hm] at hh; cases hh
  | cons c t =>
    rw [hm] at hh h1 h2
    cases hh
    have := numeral_zero_head h1
    simp only [List.length_cons, Nat.add_sub_cancel] at h2
    omega

/-- Rounding does not go below a power of ten. -/
theorem round_low {d : Dec} {n : Nat} (hn : 1 ≤ n) (h : d.n ≠ 0) : (10 : Rat) ^ (d.exp - 1) ≤ (d.round n).val := by
  obtain ⟨r1, r2, r3⟩ := round_ok (n := n) h
  have h0 := (r2 hn).2
  have r3 := r3.resolve_left h0
  have hm := (dec_magnitude h).1
  have hv : 0 ≤ d.val := by unfold Dec.val; exact mul_nonneg (by positivity) (zpow_nonneg (by norm_num) _)
  rw [abs_of_nonneg hv] at hm
  obtain ⟨w, hw⟩ : ∃ w, d.exp - (n : Int) = w := ⟨_, rfl⟩
  rw [hw] at r1 r3
  obtain ⟨k, hk⟩ : ∃ k : Nat, (d.round n).e = w + k := ⟨((d.round n).e - w).toNat, by omega⟩
  have hval : (d.round n).val = (((d.round n).n * 10 ^ k : Nat) : Rat) * (10 : Rat) ^ w := by
    unfold Dec.val
    rw [hk, zpow_add₀ (by norm_num)]
    push_cast
    rw [zpow_natCast]; ring
  have hlow : (10 : Rat) ^ (d.exp - 1) = ((10 ^ (n - 1) : Nat) : Rat) * (10 : Rat) ^ w := by
    push_cast
    rw [← zpow_natCast, ← zpow_add₀ (by norm_num)]
    congr 1; omega
  generalize (d.round n).n * 10 ^ k = M at hval
  have hw0 : (0 : Rat) < (10 : Rat) ^ w := zpow_pos (by norm_num) _
  rw [hval, hlow]
  rw [hlow] at hm
  rw [hval] at r1
  refine mul_le_mul_of_nonneg_right ?_ hw0.le
  by_contra hc
  have hc : M + 1 ≤ 10 ^ (n - 1) := by
    have : M < 10 ^ (n - 1) := by exact_mod_cast not_le.1 hc
    omega
  have hc : ((M : Rat) + 1) ≤ ((10 ^ (n - 1) : Nat) : Rat) := by exact_mod_cast hc
  have h5 := (abs_le.1 r1).1
  have h6 : ((M : Rat) + 1) * (10 : Rat) ^ w ≤ d.val := le_trans (mul_le_mul_of_nonneg_right hc hw0.le) hm
  linarith

/-- Numbers near one are written without an exponent, and not with a zero in front if they are one or more. -/
theorem text_plain {prec : Nat} (hp : 2 ≤ prec) {m : Rat} (hb : Binary m) (h1 : 1 / 25 ≤ m) (h2 : m ≤ 11) :
    (∃ v : Rat, 0 ≤ v ∧ |v - m| ≤ m * (10 : Rat) ^ (1 - (prec : Int)) / 2 ∧
      ∀ (neg : Prop) [Decidable neg], ∃ k d, Decimal ((if neg then ['-'] else []) ++ text 'g' prec m) k d [] 0 (withSign (decide neg) v)) ∧
    (1 ≤ m → (text 'g' prec m).head? ≠ some '0') := by
  have h0 : m ≠ 0 := by intro h; rw [h] at h1; norm_num at h1
  have hm0 : 0 < m := by linarith
  have hdn := decOf_ne h0
  have hmag := exp_magnitude hb h0
  have hval := decOf_val hb
  rw [abs_of_pos hm0] at hval
  unfold Magnitude at hmag
  rw [abs_of_pos hm0] at hmag
  obtain ⟨r1, r2, r3⟩ := round_ok (n := prec) hdn
  have r2 := r2 (by omega)
  have r3 := r3.resolve_left r2.2
  have hlow := round_low (n := prec) (by omega) hdn
  obtain ⟨d, hd⟩ : ∃ d, (decOf m).round (prec : Int) = d := ⟨_, rfl⟩
  rw [hd] at r1 r2 r3 hlow
  rw [hval] at r1
  have hdm := dec_magnitude r2.2
  have hdv : 0 ≤ d.val := by unfold Dec.val; exact mul_nonneg (by positivity) (zpow_nonneg (by norm_num) _)
  unfold Magnitude at hdm
  rw [abs_of_nonneg hdv] at hdm
  -- exponents
  have x1 : -1 ≤ (decOf m).exp := by
    by_contra hc
    have : (10 : Rat) ^ ((decOf m).exp - 1 + 1) ≤ (10 : Rat) ^ (-2 : Int) := zpow_le_zpow_right₀ (by norm_num) (by omega)
    have : m < 1 / 100 := lt_of_lt_of_le hmag.2 (by refine le_trans this ?_; norm_num)
    linarith
  have x2 : (decOf m).exp ≤ 2 := by
    by_contra hc
    have : (10 : Rat) ^ (2 : Int) ≤ (10 : Rat) ^ ((decOf m).exp - 1) := zpow_le_zpow_right₀ (by norm_num) (by omega)
    have : (100 : Rat) ≤ m := le_trans (by norm_num) (le_trans this hmag.1)
    linarith
  have x3 : (decOf m).exp ≤ d.exp := by
    have : (10 : Rat) ^ ((decOf m).exp - 1) < (10 : Rat) ^ (d.exp - 1 + 1) := lt_of_le_of_lt hlow hdm.2
    rw [zpow_lt_zpow_iff_right₀ (by norm_num)] at this
    omega
  have x4 : d.exp ≤ 2 := by
    by_contra hc
    have h3 : (10 : Rat) ^ (2 : Int) ≤ (10 : Rat) ^ (d.exp - 1) := zpow_le_zpow_right₀ (by norm_num) (by omega)
    have h4 : (100 : Rat) ≤ d.val := le_trans (by norm_num) (le_trans h3 hdm.1)
    have h5 : (10 : Rat) ^ ((decOf m).exp - (prec : Int)) ≤ (10 : Rat) ^ (0 : Int) := zpow_le_zpow_right₀ (by norm_num) (by omega)
    rw [zpow_zero] at h5
    linarith [(abs_le.1 r1).2]
  have x5 : 1 ≤ m → 1 ≤ (decOf m).exp := by
    intro h
    by_contra hc
    have h3 : (10 : Rat) ^ ((decOf m).exp - 1 + 1) ≤ (10 : Rat) ^ (0 : Int) := zpow_le_zpow_right₀ (by norm_num) (by omega)
    rw [zpow_zero] at h3
    linarith [hmag.2]
  have hlen := mant_pos r2.2
  have ht : text 'g' prec m = fmtF (((if d.exp < prec then d.mant.length else prec : Nat) : Int) - d.exp).toNat d := by
    unfold text
    rw [if_neg (by decide), if_neg (by decide), if_pos (Or.inl rfl)]
    simp only [if_neg (show ¬ prec = 0 by omega), hd, if_neg (not_lt.2 hm0.le), List.nil_append]
    rw [if_neg]
    rw [not_or]
    refine ⟨by omega, ?_⟩
    split <;> omega
  refine ⟨⟨d.val, hdv, ?_, ?_⟩, ?_⟩
  · refine le_trans r1 ?_
    have : (10 : Rat) ^ ((decOf m).exp - (prec : Int)) = (10 : Rat) ^ ((decOf m).exp - 1) * (10 : Rat) ^ (1 - (prec : Int)) := by
      rw [← zpow_add₀ (by norm_num)]; congr 1; omega
    rw [this]
    have := mul_le_mul_of_nonneg_right hmag.1 (show (0 : Rat) ≤ (10 : Rat) ^ (1 - (prec : Int)) from zpow_nonneg (by norm_num) _)
    linarith
  · intro neg _
    rw [ht]
    obtain ⟨k, hk⟩ := fmtF_ok (prec := (((if d.exp < prec then d.mant.length else prec : Nat) : Int) - d.exp).toNat) (d := d) (by
      left
      have := r2.1
      split <;> omega) neg
    exact ⟨k, _, hk⟩
  · intro h
    rw [ht]
    have hx : 0 < d.exp := by have := x5 h; omega
    unfold fmtF
    rw [if_pos hx]
    have : d.window 0 d.exp.toNat = d.at 0 :: (d.window 1 (d.exp.toNat - 1)) := by
      have := window_append d 0 1 (d.exp.toNat - 1)
      rw [show 1 + (d.exp.toNat - 1) = d.exp.toNat by omega] at this
      rw [← this]
      unfold Dec.window
      simp
    rw [this]
    have hmh := mant_head r2.2
    intro hh
    simp only [List.cons_append, List.head?_cons, Option.some.injEq] at hh
    unfold Dec.at at hh
    rw [if_pos (le_refl 0)] at hh
    apply hmh
    cases hmt : d.mant with
    | nil => rw [hmt] at hlen; simp at hlen
    | cons c t =>
      rw [hmt] at hh
      simp at hh
      simp [hh]

/-- `a` is `b` up to a relative error. -/
def Rel (a b δ : ℝ) : Prop := |a - b| ≤ δ * b

theorem Rel.trans {a b c δ ε : ℝ} (hδ : 0 ≤ δ) (h1 : Rel a b δ) (h2 : Rel b c ε) : Rel a c (δ * (1 + ε) + ε) := by
  unfold Rel at *
  have h3 := abs_add_le (a - b) (b - c)
  rw [sub_add_sub_cancel] at h3
  have h4 := (abs_le.1 h2).2
  have h5 : δ * b ≤ δ * ((1 + ε) * c) := mul_le_mul_of_nonneg_left (by linarith) hδ
  linarith

theorem Rel.mul {a b δ k : ℝ} (hk : 0 ≤ k) (h : Rel a b δ) : Rel (a * k) (b * k) δ := by
  unfold Rel at *
  rw [← sub_mul, abs_mul, abs_of_nonneg hk, ← mul_assoc]
  exact mul_le_mul_of_nonneg_right h hk

theorem Rel.mono {a b δ ε : ℝ} (hb : 0 ≤ b) (h : Rel a b δ) (he : δ ≤ ε) : Rel a b ε := le_trans h (mul_le_mul_of_nonneg_right he hb)

theorem rel_rnd (p : ℕ) {q : ℚ} (h : 0 ≤ q) : Rel (rnd p q : ℚ) q (eps p) := by
  have := rnd_err_real p q
  rwa [abs_of_nonneg (show (0 : ℝ) ≤ q by exact_mod_cast h)] at this

theorem eps16 {p : ℕ} (hp : 16 ≤ p) : eps p ≤ 1 / 65536 := by
  unfold eps
  rw [zpow_neg, zpow_natCast, ← one_div]
  refine one_div_le_one_div_of_le (by norm_num) ?_
  calc (65536 : ℝ) = 2 ^ 16 := by norm_num
    _ ≤ 2 ^ p := pow_le_pow_right₀ (by norm_num) hp

/-- The loop takes at most two steps. -/
theorem rescale_ok {pm prec : Nat} (hpm : 16 ≤ pm) (hp : 2 ≤ prec) (positive : Bool) {m : Rat} (hf : IsFloat pm m) (h1 : 1 / 25 ≤ m) (h2 : m ≤ 11) (e : Int) {fuel : Nat} (hfu : 3 ≤ fuel) :
    ∃ (m' : Rat) (j : Nat), rescale pm prec positive fuel m e = .ok (m', if positive then e - j else e + j) ∧ j ≤ 2 ∧ IsFloat pm m' ∧ 1 / 25 ≤ m' ∧ m' ≤ 11 ∧
      Rel m' (m * 10 ^ j) (2 * eps pm + eps pm * eps pm) := by
  have hp1 : 1 ≤ pm := by omega
  have he := eps16 hpm
  have he0 := eps_real pm
  have hee : 0 ≤ eps pm * eps pm := by positivity
  have ten : IsFloat pm (10 : Rat) := by
    have := isFloat_int (p := pm) (n := 10) (by
      rw [abs_of_pos (by norm_num)]
      calc (10 : ℤ) < 2 ^ 16 := by norm_num
        _ ≤ 2 ^ pm := pow_le_pow_right₀ (by norm_num) hpm)
    exact_mod_cast this
  have step : ∀ (fuel : Nat) (m : Rat) (e : Int), rescale pm prec positive (fuel + 1) m e =
      if (text 'g' prec m).head? = some '0' then rescale pm prec positive fuel (mul pm m 10) (if positive then e - 1 else e + 1) else .ok (m, e) := fun _ _ _ => rfl
  obtain ⟨f, rfl⟩ : ∃ f, fuel = f + 3 := ⟨fuel - 3, by omega⟩
  -- one step
  have next : ∀ m : Rat, IsFloat pm m → 1 / 25 ≤ m → m ≤ 11 → (text 'g' prec m).head? = some '0' →
      IsFloat pm (mul pm m 10) ∧ m * 10 * (99 / 100) ≤ mul pm m 10 ∧ mul pm m 10 ≤ 10 ∧ Rel (mul pm m 10 : ℚ) (m * 10) (eps pm) := by
    intro m hf h1 h2 hh
    have hlt : m < 1 := by
      by_contra hc
      exact (text_plain hp (float_binary hf) h1 h2).2 (by linarith) hh
    unfold Flt.mul
    have hr := rel_rnd pm (q := m * 10) (by linarith)
    refine ⟨rnd_isFloat hp1 _, ?_, rnd_le_float hp1 ten (by linarith), by push_cast at hr; exact hr⟩
    have h3 := (abs_le.1 hr).1
    have h4 : (0 : ℝ) < ((m * 10 : ℚ) : ℝ) := by exact_mod_cast (by linarith : (0 : ℚ) < m * 10)
    have h5 : eps pm * ((m * 10 : ℚ) : ℝ) ≤ 1 / 65536 * ((m * 10 : ℚ) : ℝ) := mul_le_mul_of_nonneg_right he h4.le
    have h6 : ((m * 10 * (99 / 100) : ℚ) : ℝ) ≤ (rnd pm (m * 10) : ℚ) := by
      push_cast at h3 h5 h4 ⊢
      linarith
    exact_mod_cast h6
  rw [step]
  by_cases c1 : (text 'g' prec m).head? = some '0'
  · rw [if_pos c1, step]
    obtain ⟨f1, l1, u1, e1⟩ := next m hf h1 h2 c1
    by_cases c2 : (text 'g' prec (mul pm m 10)).head? = some '0'
    · rw [if_pos c2, step]
      obtain ⟨f2, l2, u2, e2⟩ := next _ f1 (by linarith) (by linarith) c2
      have hge : 1 ≤ mul pm (mul pm m 10) 10 := by linarith
      rw [if_neg ((text_plain hp (float_binary f2) (by linarith) (by linarith)).2 hge)]
      refine ⟨_, 2, ?_, le_refl 2, f2, by linarith, by linarith, ?_⟩
      · cases positive
        · simp only [Bool.false_eq_true, if_false]; congr 2; omega
        · simp only [if_true]; congr 2; omega
      · have := e2.trans he0.le (e1.mul (k := 10) (by norm_num))
        rw [show (m : ℝ) * 10 ^ 2 = m * 10 * 10 by ring]
        exact this.mono (by have : (0 : ℝ) < m := by exact_mod_cast (by linarith : (0 : ℚ) < m)
                            positivity) (by linarith)
    · rw [if_neg c2]
      refine ⟨_, 1, ?_, by omega, f1, by linarith, by linarith, ?_⟩
      · cases positive <;> rfl
      · rw [pow_one]
        exact e1.mono (by have : (0 : ℝ) < m := by exact_mod_cast (by linarith : (0 : ℚ) < m)
                          positivity) (by linarith)
  · rw [if_neg c1]
    refine ⟨m, 0, ?_, by omega, hf, h1, h2, ?_⟩
    · cases positive <;> simp
    · unfold Rel
      have : (0 : ℝ) < m := by exact_mod_cast (by linarith : (0 : ℚ) < m)
      rw [pow_zero, mul_one, sub_self, abs_zero]
      positivity

/-- An exponent is put behind a decimal. -/
theorem decimal_exponent {s ex : List Char} {k d : Nat} {x : Int} {v : Rat} (h : Decimal s k d [] 0 v) (hx : Exponent ex x) : Decimal (s ++ ex) k d ex x (v * (10 : Rat) ^ x) := by
  obtain ⟨sg, i, f, neg, n, h1, h2, h3, h4, h5, h6, _, h8⟩ := h
  refine ⟨sg, i, f, neg, n, ?_, h2, h3, h4, h5, h6, hx, ?_⟩
  · rw [h1, List.append_nil]
  · rw [h8, zpow_sub₀ (by norm_num), zpow_sub₀ (by norm_num)]
    unfold withSign
    cases neg <;> simp <;> ring

end Verif.Shown
