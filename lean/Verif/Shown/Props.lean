import Verif.Shown.Lemmas4
/-
C85: numbers printed in a floating-point format are rounded to the digits asked for.
-/
namespace Verif.Shown
open Verif.Lit Verif.Arr Verif.Num

/-- **C85, full statement.** With every floating-point format, every exact number is printed as a decimal number that is rounded correctly. -/
def C85_full : Prop :=
  ∀ md verb prec x, FloatVerb verb → x.isNum → Short md x → ∃ t k d ex E v, sprint md verb prec x = .ok t ∧ Decimal t k d ex E v ∧ Rounded verb prec x.val v

theorem sprint_big {md : Nat} {i : Int} (h : Short md (.bigInt i)) (verb : Char) (prec : Nat) : sprint md verb prec (.bigInt i) = bigFloat verb prec i := by
  have hs : sprint md verb prec (.bigInt i) = if bitLen i > md * 33222 / 10000 ∧ md * 33222 / 10000 ≠ 0 then .err "floating point" else bigFloat verb prec i := rfl
  rw [hs]
  rcases h i rfl with h | h
  · subst h; simp
  · rw [if_neg]; omega

theorem sprint_int (md : Nat) (verb : Char) (prec : Nat) (i : Int) : sprint md verb prec (.int i) = intFloat verb prec i := rfl

theorem sprint_rat (md : Nat) (verb : Char) (prec : Nat) (r : Rat) : sprint md verb prec (.bigRat r) = ratFloat verb prec r := rfl

theorem last_ne {a : List Char} (h : a.length = 1) (h0 : a ≠ ['0']) : a.getLast? ≠ some '0' := by
  match a, h with
  | [c], _ => simpa using h0

theorem trim_value {e : Int} {n n' j l P : Nat} (u : n = n' * 10 ^ j) (hl : P = l + j) : (n' : Rat) * (10 : Rat) ^ (e - l) = (n : Rat) * (10 : Rat) ^ (e - P) := by
  rw [u, hl]
  push_cast
  rw [show e - ((l : Int) + j) = (e - l) + -(j : Int) by ring, zpow_add₀ (by norm_num), zpow_neg _ (j : Int), zpow_natCast _ j]
  field_simp

/-- **C85, `%f`.** With `%f` every number is printed with the digits asked for after the point, rounded to nearest. -/
theorem C85_fixed {md prec : Nat} {verb : Char} {x : Num} (hv : verb = 'f' ∨ verb = 'F') (hx : x.isNum) (hs : Short md x) :
    ∃ t k v, sprint md verb prec x = .ok t ∧ Decimal t k prec [] 0 v ∧ Rounded verb prec x.val v := by
  have hint : ∀ i : Int, Decimal (formatInt 10 i ++ if 0 < (prec : Int) then '.' :: zeros (prec : Int).toNat else []) (Nat.toDigits 10 i.natAbs).length prec [] 0 i := by
    intro i
    refine ⟨if i < 0 then ['-'] else [], Nat.toDigits 10 i.natAbs, zeros prec, decide (i < 0), _, ?_, rfl, zeros_length _, (toDigits10 _).1, sign_of, numeral_zeros (toDigits10 _) _, Or.inl ⟨rfl, rfl⟩, ?_⟩
    · unfold formatInt
      rw [List.append_nil]
      congr 1
      by_cases hp : prec = 0
      · subst hp; rfl
      · rw [if_pos (by omega), if_neg (by intro h; have := zeros_length prec; rw [h] at this; simp at this; omega)]; simp
    · have : ((i.natAbs * 10 ^ prec : Nat) : Rat) * (10 : Rat) ^ ((0 : Int) - prec) = (i.natAbs : Rat) := by
        rw [zero_sub, zpow_neg, zpow_natCast]; push_cast; field_simp
      rw [this]
      unfold withSign
      by_cases h : i < 0
      · simp only [h, decide_true, if_true]
        have : (i : Rat) = ((-(i.natAbs : Int) : Int) : Rat) := by congr 1; omega
        rw [this, Int.cast_neg]; rfl
      · simp only [h, decide_false, Bool.false_eq_true, if_false]
        have : (i : Rat) = (((i.natAbs : Int) : Int) : Rat) := by congr 1; omega
        rw [this]; rfl
  have hround : ∀ i : Int, Rounded verb prec (i : Rat) i := by
    intro i
    refine ⟨id, fun E _ => ?_⟩
    rw [sub_self, abs_zero]
    unfold unit
    rw [if_pos hv]; exact div_nonneg (zpow_nonneg (by norm_num) _) (by norm_num)
  cases x with
  | int i => exact ⟨_, _, _, by rw [sprint_int]; unfold intFloat; rw [if_pos hv], hint i, hround i⟩
  | char c => exact absurd hx (by simp [Num.isNum])
  | bigInt i => exact ⟨_, _, _, by rw [sprint_big hs]; unfold bigFloat; rw [if_pos hv], hint i, hround i⟩
  | bigRat r =>
    obtain ⟨f, N, s1, s2, s3, s4⟩ := ratString_ok r prec
    have hP : (0 : Rat) < (10 : Rat) ^ prec := by positivity
    have hN : (0 : Rat) ≤ (N : Rat) * (10 : Rat) ^ ((0 : Int) - prec) := mul_nonneg (by positivity) (zpow_nonneg (by norm_num) _)
    have hw := (withSign_abs r _ hN).1
    have he : abs ((N : Rat) * (10 : Rat) ^ ((0 : Int) - prec) - abs r) ≤ (10 : Rat) ^ (-(prec : Int)) / 2 := by
      rw [zero_sub, zpow_neg, zpow_natCast]
      have : (N : Rat) * ((10 : Rat) ^ prec)⁻¹ - |r| = ((N : Rat) - |r| * 10 ^ prec) * ((10 : Rat) ^ prec)⁻¹ := by field_simp
      rw [this, abs_mul, abs_of_pos (inv_pos.2 hP)]
      have := mul_le_mul_of_nonneg_right s4 (le_of_lt (inv_pos.2 hP))
      linarith
    refine ⟨_, _, withSign (decide (r < 0)) ((N : Rat) * (10 : Rat) ^ ((0 : Int) - prec)), by rw [sprint_rat]; unfold ratFloat; rw [if_pos hv],
      ⟨if r < 0 then ['-'] else [], Nat.toDigits 10 (N / 10 ^ prec), f, _, N, by rw [s1, List.append_nil], rfl, s2, (toDigits10 _).1, sign_of, s3, Or.inl ⟨rfl, rfl⟩, rfl⟩, ?_, ?_⟩
    · intro h0
      change r = 0 at h0
      subst h0
      have : N = 0 := by
        rw [abs_zero, zero_mul, sub_zero] at s4
        have h2 : (N : Rat) ≤ 1 / 2 := le_trans (le_abs_self _) s4
        have h3 : (N : Rat) < ((1 : Nat) : Rat) := by push_cast; linarith
        have : N < 1 := by exact_mod_cast h3
        omega
      subst this
      simp [withSign]
    · intro E _
      change |withSign _ _ - r| ≤ _
      rw [hw]
      unfold unit
      rw [if_pos hv]
      exact he

example : Short 10000 (.bigRat (-2 / 3)) ∧ sprint 10000 'f' 3 (.bigRat (-2 / 3)) = .ok "-0.667".toList ∧ sprint 0 'F' 2 (.bigInt 10000000000) = .ok "10000000000.00".toList :=
  ⟨by intro i h; simp at h, by decide +kernel, by decide +kernel⟩

/-- **C85, `%e`, as far as it holds.** Integers, and fractions that are `Regular`, are printed with one digit before the point, the digits asked for after it and the right exponent;
the error is less than one in the last place. (Integers are cut off and never rounded up.) -/
theorem C85_exponent_partial {md prec : Nat} {verb : Char} {x : Num} (hv : verb = 'e' ∨ verb = 'E') (hx : x.isNum) (hs : Short md x) (hr : ∀ r, x = .bigRat r → Regular prec r) :
    ∃ t ex E v, sprint md verb prec x = .ok t ∧ Decimal t 1 prec (verb :: ex) E v ∧ Near verb prec x.val v ∧ (x.val ≠ 0 → Magnitude x.val E) ∧ (x.isInt → |v| ≤ |x.val|) := by
  have hf : ¬ (verb = 'f' ∨ verb = 'F') := by rcases hv with rfl | rfl <;> decide
  have hint : ∀ (i : Int) (e : Nat), i.natAbs < 10 ^ (e + 1) → (i ≠ 0 → 10 ^ e ≤ i.natAbs) → (i = 0 → e = 0) →
      ∃ t ex E v, eFormat verb prec (if i < 0 then ['-'] else []) (Nat.toDigits 10 i.natAbs) e = .ok t ∧ Decimal t 1 prec (verb :: ex) E v ∧ Near verb prec i v ∧
        ((i : Rat) ≠ 0 → Magnitude i E) ∧ |v| ≤ |(i : Rat)| := by
    intro i e h1 h2 h3
    obtain ⟨a, f, n, g1, g2, g3, g4, rfl, _⟩ := eInt verb prec i h1 h2 h3
    obtain ⟨k1, k2, k3⟩ := eInt_near (prec := prec) h1 h2
    have hm : (i : Rat) ≠ 0 → Magnitude i e := fun h => int_magnitude h1 (h2 (by intro h0; apply h; rw [h0]; rfl))
    refine ⟨_, expText e, e, _, g1, ⟨_, a, f, _, _, rfl, g2, g3, by intro h; rw [h] at g2; simp at g2, sign_of, g4, expText_ok verb hv e, rfl⟩, ⟨?_, ?_⟩, hm, k3⟩
    · intro h; exact k1 (by exact_mod_cast h)
    · intro E hE
      have h0 : (i : Rat) ≠ 0 := by
        intro h; rw [h] at hE
        have := hE.1
        rw [abs_zero] at this
        exact absurd this (not_le.2 (zpow_pos (by norm_num) _))
      rw [magnitude_unique hE (hm h0)]
      unfold unit
      rw [if_neg hf, if_pos hv]
      exact k2
  cases x with
  | int i =>
    obtain ⟨e, he, h1, h2, h3⟩ := intExponent_ok i
    obtain ⟨t, ex, E, v, g1, g2, g3, g4, g5⟩ := hint i e h1 h2 h3
    exact ⟨t, ex, E, v, by rw [sprint_int]; unfold intFloat intE; rw [if_neg hf, if_pos hv, he, bind_ok, g1], g2, g3, g4, fun _ => g5⟩
  | char c => exact absurd hx (by simp [Num.isNum])
  | bigInt i =>
    obtain ⟨e, he, h1, h2, h3⟩ := bigExponent_ok i
    obtain ⟨t, ex, E, v, g1, g2, g3, g4, g5⟩ := hint i e h1 h2 h3
    exact ⟨t, ex, E, v, by rw [sprint_big hs]; unfold bigFloat bigE; rw [if_neg hf, if_pos hv, he, bind_ok, g1], g2, g3, g4, fun _ => g5⟩
  | bigRat r =>
    obtain ⟨hd, hb, hc⟩ := hr r rfl
    obtain ⟨e, he, hm⟩ := ratExponent_regular hd hb
    obtain ⟨a, f, n, g1, g2, g3, g4, g5, _⟩ := eRat verb prec he hm (hc e hm)
    have hw := (withSign_abs r ((n : Rat) * (10 : Rat) ^ (e - prec)) (mul_nonneg (by positivity) (zpow_nonneg (by norm_num) _))).1
    refine ⟨_, expText e, e, _, by rw [sprint_rat]; unfold ratFloat; rw [if_neg hf, if_pos hv]; exact g1,
      ⟨_, a, f, _, n, rfl, g2, g3, by intro h; rw [h] at g2; simp at g2, sign_of, g4, expText_ok verb hv e, rfl⟩, ⟨?_, ?_⟩, fun _ => hm, fun h => absurd h (by simp [Num.isInt])⟩
    · intro h
      change r = 0 at h
      subst h
      exact absurd rfl hd
    · intro E hE
      change Magnitude r E at hE
      change |withSign _ _ - r| < _
      rw [magnitude_unique hE hm, hw]
      unfold unit
      rw [if_neg hf, if_pos hv]
      exact g5

example : Regular 2 (1 / 3) ∧ sprint 0 'e' 2 (.bigRat (1 / 3)) = .ok "3.33e-01".toList ∧ sprint 0 'E' 3 (.int (-19)) = .ok "-1.900E+01".toList := by
  refine ⟨⟨by decide +kernel, ?_, ?_⟩, by decide +kernel, by decide +kernel⟩
  · intro k hk h
    rw [abs_of_pos (by norm_num), zpow_neg, zpow_natCast] at h
    have h2 : (10 : Rat) ^ (9 * k) = ((3 : Nat) : Rat) := by
      have := congrArg (·⁻¹) h
      simpa using this.symm
    have h3 : 10 ^ (9 * k) = 3 := by exact_mod_cast h2
    have h4 : 10 ^ 1 ≤ 10 ^ (9 * k) := Nat.pow_le_pow_right (by decide) (by omega)
    omega
  · intro E hE
    have : E = -1 := magnitude_unique hE ⟨by rw [abs_of_pos (by norm_num)]; norm_num, by rw [abs_of_pos (by norm_num)]; norm_num⟩
    subst this
    rw [abs_of_pos (by norm_num)]
    norm_num

/-- **C85, `%g` without exponent.** With `%g` integers of no more than the digits asked for are printed exactly, and fractions from a ten-thousandth up that are
less than the power of ten with that many zeros are rounded to nearest; neither has an exponent. -/
theorem C85_general {md prec : Nat} {verb : Char} {x : Num} (hv : verb = 'g' ∨ verb = 'G') (hx : x.isNum) (hs : Short md x) (hr : ∀ r, x = .bigRat r → r.den ≠ 1)
    (h1 : |x.val| < (10 : Rat) ^ prec) (h2 : x.isInt ∨ (10 : Rat) ^ (-4 : Int) ≤ |x.val|) (hp : 1 ≤ prec) :
    ∃ t k d v, sprint md verb prec x = .ok t ∧ Decimal t k d [] 0 v ∧ Rounded verb prec x.val v ∧ (x.isInt → v = x.val) := by
  have hf : ¬ (verb = 'f' ∨ verb = 'F') := by rcases hv with rfl | rfl <;> decide
  have he : ¬ (verb = 'e' ∨ verb = 'E') := by rcases hv with rfl | rfl <;> decide
  have hint : ∀ i : Int, Decimal (formatInt 10 i) (Nat.toDigits 10 i.natAbs).length 0 [] 0 i := by
    intro i
    refine ⟨if i < 0 then ['-'] else [], Nat.toDigits 10 i.natAbs, [], decide (i < 0), i.natAbs, ?_, rfl, rfl, (toDigits10 _).1, sign_of, ?_, Or.inl ⟨rfl, rfl⟩, ?_⟩
    · unfold formatInt
      simp
    · rw [List.append_nil]; exact toDigits10 _
    · unfold withSign
      simp only [Nat.cast_zero, sub_self, zpow_zero, mul_one]
      by_cases h : i < 0
      · simp only [h, decide_true, if_true]
        have : (i : Rat) = ((-(i.natAbs : Int) : Int) : Rat) := by congr 1; omega
        rw [this, Int.cast_neg]; rfl
      · simp only [h, decide_false, Bool.false_eq_true, if_false]
        have : (i : Rat) = (((i.natAbs : Int) : Int) : Rat) := by congr 1; omega
        rw [this]; rfl
  have hround : ∀ i : Int, Rounded verb prec (i : Rat) i := by
    intro i
    refine ⟨id, fun E _ => ?_⟩
    rw [sub_self, abs_zero]
    unfold unit
    rw [if_neg hf, if_neg he]; exact div_nonneg (zpow_nonneg (by norm_num) _) (by norm_num)
  have hexp : ∀ (i : Int) (e : Nat), |(i : Rat)| < (10 : Rat) ^ prec → (i ≠ 0 → 10 ^ e ≤ i.natAbs) → (i = 0 → e = 0) → ¬ ((prec : Int) ≤ e) := by
    intro i e hlt g2 g3 hle
    have hle : prec ≤ e := by exact_mod_cast hle
    by_cases hi : i = 0
    · have := g3 hi; omega
    · have g4 := g2 hi
      have habs : |(i : Rat)| = (i.natAbs : Rat) := by rw [← Int.cast_abs, Int.abs_eq_natAbs]; rfl
      rw [habs] at hlt
      have hlt : i.natAbs < 10 ^ prec := by exact_mod_cast hlt
      have := Nat.pow_le_pow_right (show 0 < 10 by decide) hle
      omega
  cases x with
  | int i =>
    obtain ⟨e, he1, _, g2, g3⟩ := intExponent_ok i
    exact ⟨_, _, _, _, by rw [sprint_int]; unfold intFloat; rw [if_neg hf, if_neg he, if_pos hv, he1, bind_ok, if_neg (hexp i e h1 g2 g3)], hint i, hround i, fun _ => rfl⟩
  | char c => exact absurd hx (by simp [Num.isNum])
  | bigInt i =>
    obtain ⟨e, he1, _, g2, g3⟩ := bigExponent_ok i
    exact ⟨_, _, _, _, by rw [sprint_big hs]; unfold bigFloat; rw [if_neg hf, if_neg he, if_pos hv, he1, bind_ok, if_neg (hexp i e h1 g2 g3)], hint i, hround i, fun _ => rfl⟩
  | bigRat r =>
    have h2 : (10 : Rat) ^ (-4 : Int) ≤ |r| := h2.resolve_left (by simp [Num.isInt])
    change |r| < _ at h1
    have hd := hr r rfl
    obtain ⟨e, he1, hm⟩ := ratExponent_regular hd (by
      intro k hk h
      rw [h, zpow_le_zpow_iff_right₀ (by norm_num)] at h2
      push_cast at h2; omega)
    have k1 : -4 ≤ e := by
      have := lt_of_le_of_lt h2 hm.2
      rw [zpow_lt_zpow_iff_right₀ (by norm_num)] at this
      omega
    have k2 : e < prec := by
      have := lt_of_le_of_lt hm.1 h1
      rw [← zpow_natCast, zpow_lt_zpow_iff_right₀ (by norm_num)] at this
      omega
    obtain ⟨P, hP⟩ : ∃ P : Nat, (prec : Int) - e - 1 = P := ⟨(prec - e - 1).toNat, by omega⟩
    obtain ⟨f, N, s1, s2, s3, s4⟩ := ratString_ok r P
    obtain ⟨f', j, t1, t2⟩ := trimDecimals_ok (sg := if r < 0 then ['-'] else []) sign_form (toDigits10 (N / 10 ^ P)).1 s3
    rw [t1] at s3
    obtain ⟨n', u1, u2⟩ := numeral_trim (toDigits10 (N / 10 ^ P)).1 s3
    have hlen : P = f'.length + j := by rw [← s2, t1, List.length_append, zeros_length]
    have hval : (n' : Rat) * (10 : Rat) ^ ((0 : Int) - f'.length) = (N : Rat) * (10 : Rat) ^ (-(P : Int)) := by
      rw [u2, hlen]
      push_cast
      rw [zero_sub, neg_add, zpow_add₀ (by norm_num), zpow_neg _ (j : Int), zpow_natCast _ j]
      field_simp
    have hPp : (0 : Rat) < (10 : Rat) ^ P := by positivity
    have hw := (withSign_abs r ((n' : Rat) * (10 : Rat) ^ ((0 : Int) - f'.length)) (mul_nonneg (by positivity) (zpow_nonneg (by norm_num) _))).1
    refine ⟨_, _, _, withSign (decide (r < 0)) ((n' : Rat) * (10 : Rat) ^ ((0 : Int) - f'.length)), by rw [sprint_rat]; unfold ratFloat; rw [if_neg hf, if_neg he, if_pos hv, he1, bind_ok, if_neg (by omega), hP, s1, t2],
      ⟨if r < 0 then ['-'] else [], _, f', _, n', by rw [List.append_nil], rfl, rfl, (toDigits10 _).1, sign_of, u1, Or.inl ⟨rfl, rfl⟩, rfl⟩, ⟨?_, ?_⟩, fun h => absurd h (by simp [Num.isInt])⟩
    · intro h
      change r = 0 at h
      subst h
      exact absurd rfl hd
    · intro E hE
      change Magnitude r E at hE
      change |withSign _ _ - r| ≤ _
      rw [hw, hval, magnitude_unique hE hm]
      unfold unit
      rw [if_neg hf, if_neg he, show (max prec 1 : Nat) = prec by omega, show e + 1 - (prec : Int) = -(P : Int) by omega, zpow_neg, zpow_natCast]
      have : (N : Rat) * ((10 : Rat) ^ P)⁻¹ - |r| = ((N : Rat) - |r| * 10 ^ P) * ((10 : Rat) ^ P)⁻¹ := by field_simp
      rw [this, abs_mul, abs_of_pos (inv_pos.2 hPp)]
      have := mul_le_mul_of_nonneg_right s4 (le_of_lt (inv_pos.2 hPp))
      linarith

example : sprint 0 'g' 3 (.bigRat (1 / 8)) = .ok "0.125".toList ∧ sprint 0 'g' 2 (.bigRat (-1 / 8)) = .ok "-0.13".toList ∧ sprint 0 'G' 6 (.int 123456) = .ok "123456".toList ∧
    |((1 : Rat) / 8)| < (10 : Rat) ^ 3 ∧ (10 : Rat) ^ (-4 : Int) ≤ |((1 : Rat) / 8)| ∧ ((1 : Rat) / 8).den ≠ 1 :=
  ⟨by decide +kernel, by decide +kernel, by decide +kernel, by rw [abs_of_pos (by norm_num)]; norm_num, by rw [abs_of_pos (by norm_num)]; norm_num, by decide +kernel⟩

/-- **C85, `%g` with an exponent, as far as it holds.** Larger numbers, and smaller fractions that are `Regular`, are printed with an exponent, one digit before the point and at most as many in all as
asked for; the error is less than one in the last place of those. -/
theorem C85_general_partial {md prec : Nat} {verb : Char} {x : Num} (hv : verb = 'g' ∨ verb = 'G') (hx : x.isNum) (hs : Short md x) (hr : ∀ r, x = .bigRat r → Regular (prec - 1) r)
    (h1 : (10 : Rat) ^ prec ≤ |x.val| ∨ (|x.val| < (10 : Rat) ^ (-4 : Int) ∧ ¬ x.isInt)) (hp : 1 ≤ prec) :
    ∃ t d ex E v, sprint md verb prec x = .ok t ∧ Decimal t 1 d (less verb 2 :: ex) E v ∧ d < prec ∧ Near verb prec x.val v ∧ Magnitude x.val E := by
  have hf : ¬ (verb = 'f' ∨ verb = 'F') := by rcases hv with rfl | rfl <;> decide
  have he : ¬ (verb = 'e' ∨ verb = 'E') := by rcases hv with rfl | rfl <;> decide
  have hl : less verb 2 = 'e' ∨ less verb 2 = 'E' := by rcases hv with rfl | rfl <;> decide
  obtain ⟨P, rfl⟩ : ∃ P, prec = P + 1 := ⟨prec - 1, by omega⟩
  have hP : ((P + 1 : Nat) : Int) - 1 = P := by push_cast; omega
  have hbig : ∀ (i : Int) (e : Nat), i.natAbs < 10 ^ (e + 1) → (10 : Rat) ^ (P + 1) ≤ |(i : Rat)| → i ≠ 0 ∧ ((P + 1 : Nat) : Int) ≤ e := by
    intro i e g1 hle
    have habs : |(i : Rat)| = (i.natAbs : Rat) := by rw [← Int.cast_abs, Int.abs_eq_natAbs]; rfl
    rw [habs] at hle
    have hle : 10 ^ (P + 1) ≤ i.natAbs := by exact_mod_cast hle
    have h3 := lt_of_le_of_lt hle g1
    rw [Nat.pow_lt_pow_iff_right (by decide)] at h3
    have : 0 < 10 ^ (P + 1) := Nat.pow_pos (by decide)
    exact ⟨by omega, by omega⟩
  have hnear : ∀ (q v : Rat) (e : Int), q ≠ 0 → Magnitude q e → |v - q| < (10 : Rat) ^ (e - P) → Near verb (P + 1) q v := by
    intro q v e h0 hm hq
    refine ⟨fun h => absurd h h0, fun E hE => ?_⟩
    rw [magnitude_unique hE hm]
    unfold unit
    rw [if_neg hf, if_neg he, show e + 1 - ((max (P + 1) 1 : Nat) : Int) = e - P by omega]
    exact hq
  cases x with
  | char c => exact absurd hx (by simp [Num.isNum])
  | int i =>
    obtain ⟨e, he1, g1, g2, g3⟩ := intExponent_ok i
    obtain ⟨hi, hge⟩ := hbig i e g1 (h1.resolve_right (by simp [Num.isInt]))
    obtain ⟨a, f, n, k1, k2, k3, k4, rfl, _⟩ := eInt (less verb 2) P i g1 g2 g3
    obtain ⟨_, l2, _⟩ := eInt_near (prec := P) g1 g2
    have hm : Magnitude (i : Rat) e := int_magnitude g1 (g2 hi)
    exact ⟨_, P, expText e, e, _, by rw [sprint_int]; unfold intFloat intE; rw [if_neg hf, if_neg he, if_pos hv, he1, bind_ok, if_pos hge, bind_ok, hP, k1],
      ⟨_, a, f, _, _, rfl, k2, k3, by intro h; rw [h] at k2; simp at k2, sign_of, k4, expText_ok _ hl e, rfl⟩, by omega, hnear (i : Rat) _ e (by exact_mod_cast hi) hm l2, hm⟩
  | bigInt i =>
    obtain ⟨e, he1, g1, g2, g3⟩ := bigExponent_ok i
    obtain ⟨hi, hge⟩ := hbig i e g1 (h1.resolve_right (by simp [Num.isInt]))
    obtain ⟨a, f, n, k1, k2, k3, k4, rfl, k6⟩ := eInt (less verb 2) P i g1 g2 g3
    obtain ⟨_, l2, _⟩ := eInt_near (prec := P) g1 g2
    have hm : Magnitude (i : Rat) e := int_magnitude g1 (g2 hi)
    have hane : a ≠ [] := by intro h; rw [h] at k2; simp at k2
    obtain ⟨f', j, t1, t2⟩ := trimEZeros_ok hl (sg := if i < 0 then ['-'] else []) (rest := expText e) sign_form hane (Or.inl (last_ne k2 (k6 hi))) k4
    rw [t1] at k4
    obtain ⟨n', u1, u2⟩ := numeral_trim hane k4
    have hlen : P = f'.length + j := by rw [← k3, t1, List.length_append, zeros_length]
    refine ⟨_, f'.length, expText e, e, _, by rw [sprint_big hs]; unfold bigFloat bigE; rw [if_neg hf, if_neg he, if_pos hv, he1, bind_ok, if_pos hge, bind_ok, hP, k1, bind_ok, t2],
      ⟨_, a, f', _, _, rfl, k2, rfl, hane, sign_of, u1, expText_ok _ hl e, rfl⟩, by omega, hnear (i : Rat) _ e (by exact_mod_cast hi) hm ?_, hm⟩
    rw [trim_value u2 hlen]
    exact l2
  | bigRat r =>
    obtain ⟨hd, hb, hc⟩ := hr r rfl
    rw [Nat.add_sub_cancel] at hc
    obtain ⟨e, he1, hm⟩ := ratExponent_regular hd hb
    have h0 : r ≠ 0 := by rintro rfl; exact hd rfl
    obtain ⟨a, f, n, k1, k2, k3, k4, k5, k6⟩ := eRat (less verb 2) P he1 hm (hc e hm)
    have hane : a ≠ [] := by intro h; rw [h] at k2; simp at k2
    obtain ⟨f', j, t1, t2⟩ := trimEZeros_ok hl (sg := if r < 0 then ['-'] else []) (rest := expText e) sign_form hane (Or.inl (last_ne k2 k6)) k4
    rw [t1] at k4
    obtain ⟨n', u1, u2⟩ := numeral_trim hane k4
    have hlen : P = f'.length + j := by rw [← k3, t1, List.length_append, zeros_length]
    have hge : e < -4 ∨ ((P + 1 : Nat) : Int) ≤ e := by
      rcases h1 with h | ⟨h, _⟩
      · right
        have := lt_of_le_of_lt h hm.2
        rw [← zpow_natCast, zpow_lt_zpow_iff_right₀ (by norm_num)] at this
        omega
      · left
        have := lt_of_le_of_lt hm.1 h
        rw [zpow_lt_zpow_iff_right₀ (by norm_num)] at this
        exact this
    refine ⟨_, f'.length, expText e, e, _, by rw [sprint_rat]; unfold ratFloat; rw [if_neg hf, if_neg he, if_pos hv, he1, bind_ok, if_pos hge, hP, k1, bind_ok, t2],
      ⟨_, a, f', _, _, rfl, k2, rfl, hane, sign_of, u1, expText_ok _ hl e, rfl⟩, by omega, hnear r _ e h0 hm ?_, hm⟩
    rw [(withSign_abs r _ (mul_nonneg (by positivity) (zpow_nonneg (by norm_num) _))).1, trim_value u2 hlen]
    exact k5

example : sprint 0 'g' 3 (.int (-123456)) = .ok "-1.23e+05".toList ∧ sprint 0 'G' 6 (.bigInt 10000000000) = .ok "1E+10".toList ∧ sprint 0 'g' 4 (.bigRat (1 / 160000)) = .ok "6.25e-06".toList ∧
    (10 : Rat) ^ 3 ≤ |(Num.int (-123456)).val| :=
  ⟨by decide +kernel, by decide +kernel, by decide +kernel, by change (10 : Rat) ^ 3 ≤ |((-123456 : Int) : Rat)|; norm_num [abs_of_neg]⟩

/-- **C85, reading back.** With the input base 10, and in every input base if there is a point, a decimal number is read as what it stands for. (The exponent and the digits after the point together must not exceed a million.) -/
theorem C85_read {base : Nat} {t ex : List Char} {k d : Nat} {E : Int} {v : Rat} (h : Decimal t k d ex E v) (hlim : (E - d).natAbs ≤ 1000000) (hd : base = 10 ∨ d ≠ 0) :
    ReadsAs base t v := by
  obtain ⟨sg, i, f, neg, n, rfl, rfl, rfl, hi, hsg, hn, hx, rfl⟩ := h
  by_cases hf : f = []
  · subst hf
    have hb : base = 10 := hd.resolve_right (by simp)
    subst hb
    simp only [List.append_nil, if_true, List.length_nil, Nat.cast_zero, sub_zero] at hn hlim ⊢
    by_cases he : ex = []
    · subst he
      have hE : E = 0 := by
        rcases hx with ⟨_, h⟩ | ⟨c, sg, ds, neg, n, h, _⟩
        · exact h
        · simp at h
      subst hE
      rw [List.append_nil, zpow_zero, mul_one]
      exact C65_int (by decide) (by decide) hsg hn
    · rw [List.append_assoc]
      exact C65_exponent (by decide) hsg hn hx he hlim
  · rw [if_neg hf, List.append_assoc, List.append_assoc]
    exact C65_decimal hsg hn hx hlim

example : Decimal "-1.5e+01".toList 1 1 "e+01".toList 1 (-15) ∧ ReadsAs 10 "-1.5e+01".toList (-15) := by
  have h : Decimal "-1.5e+01".toList 1 1 "e+01".toList 1 (-15) := by
    refine ⟨['-'], ['1'], ['5'], true, 15, rfl, rfl, rfl, by decide, Or.inr (Or.inr ⟨rfl, rfl⟩), ⟨by decide, [1, 5], .cons ⟨Or.inl (by decide), by decide⟩ (.cons ⟨Or.inl (by decide), by decide⟩ .nil), by decide⟩,
      expText_ok 'e' (Or.inl rfl) 1, ?_⟩
    unfold withSign; norm_num
  exact ⟨h, C85_read h (by decide) (Or.inl rfl)⟩

/-- A text of a decimal number that is short is read as what it stands for. -/
theorem short_read {t ex : List Char} {k d : Nat} {E : Int} {v : Rat} (h : Decimal t k d ex E v) (ht : t.length ≤ 8) : ReadsAs 10 t v := by
  refine C85_read h ?_ (Or.inl rfl)
  obtain ⟨sg, i, f, neg, n, h1, h2, h3, h4, h5, h6, hx, h8⟩ := h
  have hlen := congrArg List.length h1
  simp only [List.length_append] at hlen
  have hi : 1 ≤ i.length := by cases i with
    | nil => exact absurd rfl h4
    | cons => simp
  have hd : d ≤ 7 := by
    by_cases hf : f = []
    · subst hf; simp at h3; omega
    · rw [if_neg hf, List.length_cons] at hlen; omega
  rcases hx with ⟨_, rfl⟩ | ⟨c, sg', ds, neg', n', rfl, _, _, hn', rfl⟩
  · omega
  · have := numeral_lt hn'
    simp only [List.length_append, List.length_cons] at hlen
    have hds : ds.length ≤ 5 ∨ (ds.length = 6 ∧ d = 0) := by
      by_cases hf : f = []
      · subst hf; simp at h3; omega
      · rw [if_neg hf, List.length_cons] at hlen; omega
    rcases hds with h | ⟨h, rfl⟩
    · have : (10 : Nat) ^ ds.length ≤ 10 ^ 5 := Nat.pow_le_pow_right (by decide) h
      split <;> omega
    · rw [h] at this
      split <;> omega

/-- **C85 is violated** (finding): `19` is printed as `1e+01` with `%.0e`: digits are cut off, not rounded. -/
theorem C85_violated : ¬ C85_full := by
  intro h
  obtain ⟨t, k, d, ex, E, v, h1, h2, h3⟩ := h 0 'e' 0 (.int 19) (by unfold FloatVerb; decide) (by simp [Num.isNum]) (by intro i hi; cases hi)
  have ht : sprint 0 'e' 0 (.int 19) = .ok "1e+01".toList := by decide +kernel
  rw [ht] at h1
  cases h1
  obtain ⟨x, hx, _, hxv⟩ := short_read h2 (by decide)
  rw [show parse 10 "1e+01".toList = some (.num (.int 10)) by decide +kernel] at hx
  cases hx
  have hv : ((10 : Int) : Rat) = v := hxv
  have := h3.2 1 ⟨by change _ ≤ |((19 : Int) : Rat)|; norm_num, by change |((19 : Int) : Rat)| < _; norm_num⟩
  rw [← hv] at this
  change |((10 : Int) : Rat) - ((19 : Int) : Rat)| ≤ _ at this
  rw [show unit 'e' 0 1 = 10 by unfold unit; rw [if_neg (by decide), if_pos (by decide)]; norm_num] at this
  norm_num [abs_of_neg] at this

/-- **C85 is violated** (finding): a billionth is printed as `1e-10` with `%.0e`, a tenth of what it is. -/
theorem C85_violated_billion : ¬ C85_full := by
  intro h
  obtain ⟨t, k, d, ex, E, v, h1, h2, h3⟩ := h 0 'e' 0 (.bigRat (1 / 1000000000)) (by unfold FloatVerb; decide) (by simp [Num.isNum]) (by intro i hi; cases hi)
  have ht : sprint 0 'e' 0 (.bigRat (1 / 1000000000)) = .ok "1e-10".toList := by decide +kernel
  rw [ht] at h1
  cases h1
  obtain ⟨x, hx, _, hxv⟩ := short_read h2 (by decide)
  rw [show parse 10 "1e-10".toList = some (.num (.bigRat (1 / 10000000000))) by decide +kernel] at hx
  cases hx
  have hv : ((1 : Rat) / 10000000000) = v := hxv
  have := h3.2 (-9) ⟨by change _ ≤ |((1 : Rat) / 1000000000)|; norm_num, by change |((1 : Rat) / 1000000000)| < _; norm_num⟩
  rw [← hv] at this
  change |((1 : Rat) / 10000000000) - ((1 : Rat) / 1000000000)| ≤ _ at this
  rw [show unit 'e' 0 (-9) = 1 / 1000000000 by unfold unit; rw [if_neg (by decide), if_pos (by decide)]; norm_num] at this
  norm_num [abs_of_neg] at this

/-- **C85 is violated** (finding): with `%.2e` a billionth is printed as `1.0.e-10`, which is no number; and so is `9.9999999`, as `1.0.e+00`. -/
theorem C85_violated_text : ¬ C85_full ∧ sprint 0 'e' 2 (.bigRat (99999999 / 10000000)) = .ok "1.0.e+00".toList := by
  refine ⟨?_, by decide +kernel⟩
  intro h
  obtain ⟨t, k, d, ex, E, v, h1, h2, h3⟩ := h 0 'e' 2 (.bigRat (1 / 1000000000)) (by unfold FloatVerb; decide) (by simp [Num.isNum]) (by intro i hi; cases hi)
  have ht : sprint 0 'e' 2 (.bigRat (1 / 1000000000)) = .ok "1.0.e-10".toList := by decide +kernel
  rw [ht] at h1
  cases h1
  obtain ⟨x, hx, _, _⟩ := short_read h2 (by decide)
  rw [show parse 10 "1.0.e-10".toList = none by decide +kernel] at hx
  cases hx

/-- **C85 is violated** (finding): with `%.0g` printing a number stops the program. -/
theorem C85_violated_crash : ¬ C85_full := by
  intro h
  obtain ⟨t, k, d, ex, E, v, h1, _⟩ := h 0 'g' 0 (.int 1) (by unfold FloatVerb; decide) (by simp [Num.isNum]) (by intro i hi; cases hi)
  have ht : sprint 0 'g' 0 (.int 1) = .crash := by decide +kernel
  rw [ht] at h1
  cases h1

/-- **C85, formats.** `%.12g` and its like are floating-point formats; so is every other text that ends in one of the six letters, such as `%d apple`, with six digits. -/
theorem C85_formats (s : List Char) (v : Char) (hv : FloatVerb v) : ∃ p, floatFormat (s ++ [v]) = some (v, p) := by
  unfold floatFormat
  have hm : v ∈ ['f', 'F', 'g', 'G', 'e', 'E'] := by unfold FloatVerb at hv; simp; tauto
  rw [List.getLast?_append_of_ne_nil _ (by simp)]
  simp only [List.getLast?_singleton, hm, if_true]
  split
  · split
    · split
      · exact ⟨_, rfl⟩
      · exact ⟨_, rfl⟩
    · exact ⟨_, rfl⟩
  · exact ⟨_, rfl⟩

example : floatFormat "%.12g".toList = some ('g', 12) ∧ floatFormat "%d apple".toList = some ('e', 6) ∧ floatFormat "%d".toList = none ∧ floatFormat "%8.2f".toList = some ('f', 2) := by decide +kernel

end Verif.Shown
