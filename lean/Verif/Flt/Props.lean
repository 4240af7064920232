import Verif.Flt.Lemmas6
import Verif.Flt.Lemmas7

/-!
# C67–C70: functions of floating-point numbers

The theorems are about `value/loop.go`, `value/power.go`, `value/sqrt.go`, `value/log.go`, `value/sin.go`, `value/asin.go`, `value/sinh.go` and
`value/asinh.go` as modelled in `Verif/Flt/Model.lean`. `Spec.IsFloat`, `Spec.Ends`, `Spec.Terminates` and `Real.sqrt` are not used by the model.
-/

namespace Verif.Flt
open Spec
open Verif.Arr (R)

/-! ## Contexts for the examples -/

/-- The constant as the code has it (`value/const.go`), as far as needed for 256 bits. -/
def piDigits : ℚ := mkRat 3141592653589793238462643383279502884197169399375105820974944592307816406286208998628034825342117067 (10 ^ 99)

/-- The precision of `)prec`'s default. -/
def ctx256 : Ctx := ⟨256, rnd 256 piDigits, rnd 256 (mkRat 69314718055994530941723212145817656807550013436025525412068000949339362196969471560586332699641868754200148102 (10 ^ 110))⟩

/-- A small precision. -/
def ctx12 : Ctx := ⟨12, mkRat 1608 512, rnd 12 (mkRat 693147 1000000)⟩

/-- A precision with six bits; `25/8` is the number nearest to π. -/
def ctx6 : Ctx := ⟨6, mkRat 25 8, rnd 6 (mkRat 693147 1000000)⟩

/-! ## C67: functions come to an end

Full statement: for every precision and every argument, every function comes to an end with a value or with an error that is reported.
It does not hold for `)prec` 6 (`C67_violated`). Proved for 12 bits and more (for sine, cosine and tangent 7 bits are enough, whatever the precision the
argument was computed with). What is missing: the inverse of a power that is not whole, which divides by a result of the exponential function. -/

theorem C67_sin_partial (c : Ctx) (hp : 7 ≤ c.p) (hpi : 3 ≤ c.pi) (x : Fl) (hx : 7 ≤ x.prec) (hf : IsFloat x.prec x.val) :
    Terminates (fun fuel => floatSin c fuel x) ∧ Terminates (fun fuel => floatCos c fuel x) ∧ Terminates (fun fuel => floatTan c fuel x) := by
  obtain ⟨_, _, _, _, _, n, h⟩ := floatSin_terminates hp hpi hx hf
  exact ⟨⟨n, fun fuel hfu => (h fuel hfu).1⟩, floatCos_terminates hp hpi hx hf, floatTan_terminates hp hpi hx hf⟩

theorem C67_functions_partial (c : Ctx) (hp : 12 ≤ c.p) (x : ℚ) (hf : IsFloat c.p x) :
    Terminates (fun fuel => exponential c fuel x) ∧ Terminates (fun fuel => floatLog c fuel x) ∧ Terminates (fun fuel => floatSqrt c fuel ⟨c.p, x⟩) ∧
    Terminates (fun fuel => floatAsin c fuel x) ∧ Terminates (fun fuel => floatAcos c fuel x) ∧ Terminates (fun fuel => floatAtan c fuel x) ∧
    Terminates (fun fuel => floatSinh c fuel x) ∧ Terminates (fun fuel => floatCosh c fuel x) ∧ Terminates (fun fuel => floatTanh c fuel x) ∧
    Terminates (fun fuel => floatAsinh c fuel x) ∧ Terminates (fun fuel => floatAcosh c fuel x) ∧ Terminates (fun fuel => floatAtanh c fuel x) := by
  have h1 : 1 ≤ c.p := by omega
  refine ⟨⟨_, fun f h => exponential_ends h1 f h x⟩, ⟨_, fun f h => floatLog_ends h1 f h x⟩, ⟨_, fun f h => floatSqrt_ends (by omega) f h _ h1⟩,
    ⟨_, fun f h => floatAsin_ends hp f h x hf⟩, ⟨_, fun f h => floatAcos_ends hp f h x hf⟩, ⟨_, fun f h => floatAtan_ends hp f h x⟩,
    ⟨_, fun f h => floatSinh_ends h1 f h x⟩, ⟨_, fun f h => floatCosh_ends h1 f h x⟩, ⟨_, fun f h => floatTanh_ends h1 f h x⟩,
    ⟨_, fun f h => floatAsinh_ends (by omega) f h x⟩, ⟨_, fun f h => floatAcosh_ends (by omega) f h x⟩, ⟨_, fun f h => floatAtanh_ends h1 f h x⟩⟩

/-- Powers: to a positive exponent, or to a whole one. -/
theorem C67_power_partial (c : Ctx) (hp : 12 ≤ c.p) (x e : Fl) (hx : 1 ≤ x.prec)
    (he : 0 ≤ e.val ∨ ∃ n : ℕ, n < 2 ^ 63 ∧ (n : ℚ) = -rnd c.p e.val) : Terminates (fun fuel => floatPower c fuel x e) := by
  refine ⟨10 + 40 * c.p, fun fuel hfu => floatPower_ends (by omega) fuel hfu x e hx ?_⟩
  rcases he with h | ⟨n, hn, h⟩
  · exact Or.inl h
  · right; right
    have ha : absOf (rnd c.p e.val) = n := by
      have hn0 : (0 : ℚ) ≤ n := by positivity
      unfold absOf
      split
      · exact h.symm
      · linarith
    rw [ha]
    unfold int64Of
    rw [floor_eq, Int.floor_natCast, Int.toNat_natCast, min_eq_left (by omega)]

example : 12 ≤ ctx256.p ∧ (3 : ℚ) ≤ ctx256.pi ∧ IsFloat 256 (-1000000) :=
  ⟨by decide, by decide +kernel, ⟨-1000000, 0, by norm_num, by norm_num⟩⟩

example : (2 : ℚ) = -rnd ctx12.p (-2) := by decide +kernel

/-- With six bits the sine of 992 never ends: taking 2π from 992 leaves 992. -/
theorem C67_violated : ¬ (∀ (c : Ctx) (x : Fl), 1 ≤ c.p → c.pi = rnd c.p piDigits → IsFloat c.p x.val → x.prec = c.p → Terminates (fun fuel => floatSin c fuel x)) := by
  intro h
  have hl : ∀ fuel, subtractLoop 6 (mkRat 25 4) fuel 992 = .hang := by
    intro fuel
    induction fuel with
    | zero => rfl
    | succ n ih =>
      unfold subtractLoop
      rw [if_pos (by decide +kernel), show sub 6 992 (mkRat 25 4) = 992 by decide +kernel, ih]
  have hh : ∀ fuel, floatSin ctx6 fuel ⟨6, 992⟩ = .hang := by
    intro fuel
    have e1 : (if decide ((⟨6, 992⟩ : Fl).val < 0) then (⟨6, -992⟩ : Fl) else ⟨6, 992⟩) = ⟨6, 992⟩ := by rw [if_neg (by decide +kernel)]
    have e2 : twoPiReduce ctx6 fuel ⟨6, 992⟩ = .hang := by
      unfold twoPiReduce
      dsimp only
      rw [if_neg (by decide +kernel), bindOk, show mul ctx6.p (rnd ctx6.p (rnd ctx6.p 2)) ctx6.pi = mkRat 25 4 by decide +kernel, hl]
      rfl
    unfold floatSin
    dsimp only at e1 ⊢
    rw [e1, e2]
    rfl
  obtain ⟨n, hn⟩ := h ctx6 ⟨6, 992⟩ (by decide) (by decide +kernel) ⟨31, 5, by decide, by norm_num⟩ rfl
  have h1 : Ends (floatSin ctx6 n ⟨6, 992⟩) := hn n le_rfl
  rw [hh n] at h1
  exact h1

/-! ## C68: logarithms of integers

Full statement: the logarithm of an integer to an integer base is reported as a whole number exactly when it is one. It does not hold
(`C68_violated`): `2 log 12` is 3. Proved: every power of the base has its exponent as logarithm, with `Int` and with `BigInt`; and whenever a whole number
is reported, it is the logarithm rounded down. -/

theorem C68_powers {α : Type} (quotient : ℤ → ℤ → α) (b n : ℕ) (hb : 2 ≤ b) (hv : b ^ n < 2 ^ 63) :
    logBaseU true quotient b ((b ^ n : ℕ) : ℤ) = ((n : ℤ), none) := by
  have hn : n < 2 ^ 64 := by
    have h1 : 2 ^ n ≤ b ^ n := Nat.pow_le_pow_left hb n
    have h2 : n < 2 ^ n := Nat.lt_two_pow_self
    have h3 : (2 : ℕ) ^ 63 < 2 ^ 64 := by norm_num
    omega
  have h := uint64Log_power 64 b n 1 hb (by omega) (by omega) (by
    have h3 : (2 : ℕ) ^ 63 < 2 ^ 64 := by norm_num
    omega) hn
  rw [mul_one] at h
  rw [logBaseU_int, intLog_nat hb, h]
  rfl

theorem C68_powers_big {α : Type} (quotient : ℤ → ℤ → α) (b n : ℕ) (hb : 2 ≤ b) :
    logBaseU false quotient b ((b ^ n : ℕ) : ℤ) = ((n : ℤ), none) := by
  have hn : n < 2 ^ (bitLen (b ^ n) + 1) := by
    have h1 : 2 ^ n ≤ b ^ n := Nat.pow_le_pow_left hb n
    have h2 : n < 2 ^ n := Nat.lt_two_pow_self
    have h3 := (bitLen_spec (b ^ n) (by
      have : 0 < b ^ n := Nat.pow_pos (by omega)
      omega)).2.1
    have h4 : 2 ^ (bitLen (b ^ n) + 1) = 2 * 2 ^ bitLen (b ^ n) := by rw [pow_succ]; ring
    omega
  have h := bigIntLog_power (bitLen (b ^ n) + 1) b n 1 hb (by omega) (by omega) hn
  rw [mul_one] at h
  rw [logBaseU_big, bigIntLog_nat hb, h]
  rfl

theorem C68_whole_partial {α : Type} (int : Bool) (quotient : ℤ → ℤ → α) (b v : ℕ) (i : ℤ)
    (h : logBaseU int quotient b (v : ℤ) = (i, none)) : ∃ n : ℕ, i = n ∧ b ^ n ≤ v ∧ v < 2 * b ^ n := by
  have key : ∀ n : ℕ, v / b ^ n = 1 → b ^ n ≤ v ∧ v < 2 * b ^ n := by
    intro n hn
    have hpos : 0 < b ^ n := by
      by_contra hc
      have : b ^ n = 0 := by omega
      rw [this] at hn
      simp at hn
    have h1 := Nat.div_add_mod v (b ^ n)
    have h2 := Nat.mod_lt v hpos
    rw [hn, mul_one] at h1
    generalize v % b ^ n = m at h1 h2
    generalize b ^ n = q at h1 h2 ⊢
    omega
  cases int with
  | true =>
    rw [logBaseU_int] at h
    by_cases h1 : (intLog b v).2 = 1
    · rw [if_pos h1] at h
      injection h with h _
      by_cases hb : b ≤ 1
      · unfold intLog at h h1
        rw [if_pos (Or.inl (by omega))] at h h1
        have hv : (v : ℤ) = 1 := h1
        exact ⟨0, h.symm, by simp; omega⟩
      · rw [intLog_nat (by omega)] at h h1
        have hd := uint64Log_div 64 b v
        have h1' : (uint64Log 64 b v).2 = 1 := by
          have h2 : (((uint64Log 64 b v).2 : ℕ) : ℤ) = 1 := h1
          exact_mod_cast h2
        rw [h1'] at hd
        exact ⟨_, h.symm, key _ hd.symm⟩
    · rw [if_neg h1] at h
      cases h
  | false =>
    rw [logBaseU_big] at h
    by_cases h1 : (bigIntLog b v).2 = 1
    · rw [if_pos h1] at h
      injection h with h _
      by_cases hb : b ≤ 1
      · unfold bigIntLog at h h1
        rw [if_pos (by omega)] at h h1
        have hv : (v : ℤ) = 1 := h1
        exact ⟨0, h.symm, by simp; omega⟩
      · rw [bigIntLog_nat (by omega)] at h h1
        have hd := bigIntLog_div (bitLen v + 1) b v
        rw [h1] at hd
        have hd' : 1 = v / b ^ (bigIntLogLoop (bitLen v + 1) b v).1 := by exact_mod_cast hd
        exact ⟨_, h.symm, key _ hd'.symm⟩
    · rw [if_neg h1] at h
      cases h

example : (10 : ℕ) ^ 18 < 2 ^ 63 ∧ logBaseU true (fun _ _ => ()) 10 (10 ^ 18) = (18, none) := by decide +kernel
example : logBaseU false (fun _ _ => ()) 10 (10 ^ 30) = (30, none) := by decide +kernel

/-- `2 log 12` is 3, and so it is with big integers: `10 log 12e30` is 31. -/
theorem C68_violated : ¬ (∀ (int : Bool) (b v : ℕ) (i : ℕ), 2 ≤ b → logBaseU int (fun _ _ => ()) b (v : ℤ) = ((i : ℤ), none) → b ^ i = v) := by
  intro h
  have := h true 2 12 3 (by omega) (by decide +kernel)
  revert this
  decide

theorem C68_violated_big : logBaseU false (fun _ _ => ()) 10 (12 * 10 ^ 30) = (31, none) := by decide +kernel

/-! ## C69: whole powers

Proved: the power of a number is exact whenever the power of its mantissa has no more bits than the precision, and otherwise the error is less than that of
`n` roundings: the result is the true power times a factor between `(1 - 2⁻ᵖ) ^ n` and `(1 + 2⁻ᵖ) ^ n`. -/

theorem C69_exact (c : Ctx) (hp : 1 ≤ c.p) (m e : ℤ) (n : ℕ) (h : |m| ^ n < 2 ^ c.p) (h1 : |m| < 2 ^ c.p) :
    integerPower c (m * 2 ^ e) n = ((m : ℚ) * 2 ^ e) ^ n := by
  unfold integerPower
  have := power_exact (m := m) (e := e) hp (n + 1) n 1 0 (by omega) le_rfl (by simpa using h)
  rw [rnd_self hp ⟨m, e, h1, rfl⟩, rnd_one hp]
  simpa using this

theorem C69_error (c : Ctx) (hp : 1 ≤ c.p) (x : ℚ) (hx : IsFloat c.p x) (n : ℕ) :
    ∃ d : ℚ, integerPower c x n = x ^ n * d ∧ (1 - 1 / 2 ^ c.p) ^ n ≤ d ∧ d ≤ (1 + 1 / 2 ^ c.p) ^ n := by
  obtain ⟨d, h1, h2, h3⟩ := power_error (x := x) hp (n + 1) n 0 0 1 1 (by omega) (by simp) (by simp) (by simp) (by simp)
  refine ⟨d, ?_, ?_, ?_⟩
  · unfold integerPower
    rw [rnd_self hp hx, rnd_one hp]
    simpa using h1
  · simpa [zpow_neg, one_div] using h2
  · simpa [zpow_neg, one_div] using h3

example : (|(5 : ℤ)| ^ 100 < 2 ^ 256) ∧ integerPower ctx256 (5 * 2 ^ (1 : ℤ)) 100 = (5 * 2 ^ (1 : ℤ)) ^ 100 :=
  have h : |(5 : ℤ)| ^ 100 < 2 ^ ctx256.p := by decide +kernel
  ⟨h, by exact_mod_cast C69_exact ctx256 (by decide) 5 1 100 h (by decide +kernel)⟩

example : IsFloat ctx12.p (mkRat 3 2) ∧ integerPower ctx12 (mkRat 3 2) 9 ≠ (mkRat 3 2) ^ 9 := by
  refine ⟨⟨3, -1, by decide, ?_⟩, by decide +kernel⟩
  rw [Rat.mkRat_eq_div]; norm_num

/-! ## C70: the square root

Full statement: `sqrt` of a number that is not negative is found, within a unit in the last place. It does not hold for a number computed with a
higher precision than the present one (`C70_violated`): "did not converge". Proved for numbers with the precision of the context (12 bits and more): the
iteration always converges, the result differs from the true root by less than a unit in the last place, and the root of a square is exact. -/

theorem C70_sqrt_partial (c : Ctx) (hp : 12 ≤ c.p) (x : ℚ) (hf : IsFloat c.p x) (hx : 0 < x) :
    ∃ (z : ℚ) (e : ℤ), (∀ fuel, 10 + c.p ≤ fuel → floatSqrt c fuel ⟨c.p, x⟩ = .ok ⟨c.p, z⟩) ∧ IsFloat c.p z ∧
      (2 : ℚ) ^ (e - 1) ≤ z ∧ z < 2 ^ e ∧ |(z : ℝ) - Real.sqrt x| < 2 ^ (e - (c.p : ℤ)) := by
  have hx' : (0 : ℝ) < x := by exact_mod_cast hx
  obtain ⟨z, h0, h1, h2, h3⟩ := floatSqrt_ok hp hf hx (Real.sqrt_pos.2 hx') (Real.mul_self_sqrt hx'.le).symm
  have he := expo_spec z h0.ne'
  rw [abs_of_pos h0] at he
  refine ⟨z, expo z, h3, h1, he.1, he.2, ?_⟩
  have hu := ulp_pos c.p z
  unfold ulp at h2 hu
  linarith

theorem C70_zero (c : Ctx) (fuel : ℕ) (p : ℕ) : floatSqrt c fuel ⟨p, 0⟩ = .ok ⟨c.p, 0⟩ := rfl

theorem C70_squares_partial (c : Ctx) (hp : 12 ≤ c.p) (t : ℚ) (ht : 0 < t) (hf : IsFloat c.p t) (hsq : IsFloat c.p (t * t)) (fuel : ℕ)
    (hfu : 10 + c.p ≤ fuel) : floatSqrt c fuel ⟨c.p, t * t⟩ = .ok ⟨c.p, t⟩ := floatSqrt_square hp ht hf hsq fuel hfu

example : 12 ≤ ctx256.p ∧ IsFloat ctx256.p 2 ∧ IsFloat ctx256.p 12345678987654321 ∧ IsFloat ctx256.p (12345678987654321 * 12345678987654321) :=
  ⟨by decide, ⟨2, 0, by decide +kernel, by norm_num⟩, ⟨12345678987654321, 0, by decide +kernel, by norm_num⟩,
    ⟨12345678987654321 * 12345678987654321, 0, by decide +kernel, by norm_num⟩⟩

/-- A root that was computed with 24 bits has no root with 12 bits: the iteration, in 24 bits with corrections in 12 bits, does not settle. -/
theorem C70_violated : ¬ (∀ (c : Ctx) (x : Fl), 12 ≤ c.p → 12 ≤ x.prec → IsFloat x.prec x.val → 0 < x.val → ∃ z, floatSqrt c 1000 x = .ok z) := by
  intro h
  obtain ⟨z, hz⟩ := h ctx12 ⟨24, mkRat 11863283 8388608⟩ (by decide) (by decide) ⟨11863283, -23, by decide, by
    rw [Rat.mkRat_eq_div]; norm_num⟩ (by decide +kernel)
  have : (match floatSqrt ctx12 1000 ⟨24, mkRat 11863283 8388608⟩ with | .ok _ => true | _ => false) = false := by decide +kernel
  rw [hz] at this
  cases this

end Verif.Flt
