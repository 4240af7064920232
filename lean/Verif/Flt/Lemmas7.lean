import Verif.Flt.Lemmas2

/-! # Logarithms of integers, and powers -/

namespace Verif.Flt
open Spec
open Verif.Arr (R)

theorem or_one (n : ℕ) : 2 * n ||| 1 = 2 * n + 1 := by
  have := Nat.two_pow_add_eq_or_of_lt (i := 1) (b := 1) (by norm_num) n
  simp at this
  omega

/-- What is left is the quotient by the power found. -/
theorem uint64Log_div : ∀ (fuel b v : ℕ), (uint64Log fuel b v).2 = v / b ^ (uint64Log fuel b v).1
  | 0, b, v => by simp [uint64Log]
  | fuel + 1, b, v => by
    unfold uint64Log
    by_cases h : b ≤ 1 ∨ v < b ∨ v % b ≠ 0
    · rw [if_pos h]; simp
    · rw [if_neg h]
      dsimp only
      have ih := uint64Log_div fuel (b * b) v
      by_cases h1 : b < 2 ^ 32
      · rw [if_pos h1]
        dsimp only
        have e : (uint64Log fuel (b * b) v).2 = v / b ^ (2 * (uint64Log fuel (b * b) v).1) := by
          rw [pow_mul, ← pow_two] at *; exact ih
        split
        · dsimp only
          rw [or_one, pow_succ, ← Nat.div_div_eq_div_mul, ← e]
        · exact e
      · rw [if_neg h1]
        dsimp only
        split
        · simp
        · simp

theorem uint64Log_power : ∀ (fuel b n s : ℕ), 2 ≤ b → 1 ≤ s → s < b → b ^ n * s < 2 ^ 64 → n < 2 ^ fuel → uint64Log fuel b (b ^ n * s) = (n, s)
  | 0, b, n, s, _, _, _, _, hn => by
    have : n = 0 := by simpa using hn
    subst this
    simp [uint64Log]
  | fuel + 1, b, n, s, hb, hs, hsb, hv, hn => by
    unfold uint64Log
    by_cases h0 : n = 0
    · subst h0
      rw [pow_zero, one_mul, if_pos (Or.inr (Or.inl hsb))]
    · have h1 : ¬ (b ≤ 1 ∨ b ^ n * s < b ∨ b ^ n * s % b ≠ 0) := by
        obtain ⟨m, rfl⟩ := Nat.exists_eq_succ_of_ne_zero h0
        have e : b ^ (m + 1) * s = b * (b ^ m * s) := by rw [pow_succ]; ring
        have h2 : 1 ≤ b ^ m * s := Nat.mul_pos (Nat.pow_pos (by omega)) hs
        rw [Nat.succ_eq_add_one, e, Nat.mul_mod_right]
        have h3 : b * 1 ≤ b * (b ^ m * s) := Nat.mul_le_mul_left _ h2
        omega
      rw [if_neg h1]
      dsimp only
      -- the call with the square
      have hrec : (if b < 2 ^ 32 then (2 * (uint64Log fuel (b * b) (b ^ n * s)).1, (uint64Log fuel (b * b) (b ^ n * s)).2) else (0, b ^ n * s)) =
          (2 * (n / 2), b ^ (n % 2) * s) := by
        have hd := Nat.div_add_mod n 2
        have e : b ^ n * s = (b * b) ^ (n / 2) * (b ^ (n % 2) * s) := by
          rw [← pow_two, ← pow_mul, ← mul_assoc, ← pow_add, hd]
        by_cases h32 : b < 2 ^ 32
        · rw [if_pos h32]
          have hm : b ^ (n % 2) * s < b * b := by
            rcases Nat.mod_two_eq_zero_or_one n with h | h <;> rw [h]
            · rw [pow_zero, one_mul]; nlinarith
            · rw [pow_one]; exact Nat.mul_lt_mul_of_pos_left hsb (by omega)
          have hr := uint64Log_power fuel (b * b) (n / 2) (b ^ (n % 2) * s) (by nlinarith) (Nat.mul_pos (Nat.pow_pos (by omega)) hs) hm (by rwa [← e])
            (by rw [pow_succ] at hn; omega)
          rw [e, hr]
        · rw [if_neg h32]
          have h32 := not_lt.1 h32
          have hn1 : n < 2 := by
            by_contra hc
            have h3 : b ^ 2 ≤ b ^ n := Nat.pow_le_pow_right (by omega) (by omega)
            have h4 : (2 ^ 32) ^ 2 ≤ b ^ 2 := Nat.pow_le_pow_left h32 2
            have h5 : b ^ n * 1 ≤ b ^ n * s := Nat.mul_le_mul_left _ hs
            norm_num at h4 hv
            omega
          have : n = 1 := by omega
          subst this
          simp
      rw [hrec]
      dsimp only
      have hd := Nat.div_add_mod n 2
      rcases Nat.mod_two_eq_zero_or_one n with h | h
      · rw [h, pow_zero, one_mul, if_neg (by omega)]
        congr 1; omega
      · rw [h, pow_one, if_pos (Nat.le_mul_of_pos_right _ hs), or_one, Nat.mul_div_cancel_left _ (by omega)]
        congr 1; omega

theorem bigIntLog_div : ∀ (fuel b v : ℕ), (bigIntLogLoop fuel b v).2 = ((v / b ^ (bigIntLogLoop fuel b v).1 : ℕ) : ℤ)
  | 0, b, v => by simp [bigIntLogLoop]
  | fuel + 1, b, v => by
    unfold bigIntLogLoop
    by_cases h : b ≤ 1 ∨ (v : ℤ) < b ∨ (v : ℤ) % (b : ℤ) ≠ 0
    · rw [if_pos h]; simp
    · rw [if_neg h]
      dsimp only
      have ih := bigIntLog_div fuel (b * b) v
      have e : (bigIntLogLoop fuel (b * b) v).2 = ((v / b ^ (2 * (bigIntLogLoop fuel (b * b) v).1) : ℕ) : ℤ) := by
        rw [pow_mul, ← pow_two] at *; exact ih
      by_cases h1 : 2 * bitLen b - 1 ≤ bitLen (v : ℤ).toNat
      · rw [if_pos h1]
        dsimp only
        split
        · dsimp only
          rw [or_one, pow_succ, ← Nat.div_div_eq_div_mul, e]
          push_cast
          rfl
        · exact e
      · rw [if_neg h1]
        dsimp only
        split
        · dsimp only
          simp
        · simp

theorem bigIntLog_power : ∀ (fuel b n s : ℕ), 2 ≤ b → 1 ≤ s → s < b → n < 2 ^ fuel → bigIntLogLoop fuel b ((b ^ n * s : ℕ) : ℤ) = (n, (s : ℤ))
  | 0, b, n, s, _, _, _, hn => by
    have : n = 0 := by simpa using hn
    subst this
    simp [bigIntLogLoop]
  | fuel + 1, b, n, s, hb, hs, hsb, hn => by
    unfold bigIntLogLoop
    by_cases h0 : n = 0
    · subst h0
      rw [pow_zero, one_mul, if_pos (Or.inr (Or.inl (by exact_mod_cast hsb)))]
    · have h1 : ¬ (b ≤ 1 ∨ ((b ^ n * s : ℕ) : ℤ) < b ∨ ((b ^ n * s : ℕ) : ℤ) % (b : ℤ) ≠ 0) := by
        obtain ⟨m, rfl⟩ := Nat.exists_eq_succ_of_ne_zero h0
        have e : b ^ (m + 1) * s = b * (b ^ m * s) := by rw [pow_succ]; ring
        have h2 : 1 ≤ b ^ m * s := Nat.mul_pos (Nat.pow_pos (by omega)) hs
        rw [Nat.succ_eq_add_one, e]
        have h3 : b * 1 ≤ b * (b ^ m * s) := Nat.mul_le_mul_left _ h2
        have h4 : ((b * (b ^ m * s) : ℕ) : ℤ) % (b : ℤ) = 0 := by
          rw [← Int.natCast_emod, Nat.mul_mod_right]; rfl
        rw [h4]
        omega
      rw [if_neg h1]
      dsimp only
      have hrec : (if 2 * bitLen b - 1 ≤ bitLen ((b ^ n * s : ℕ) : ℤ).toNat then
            (2 * (bigIntLogLoop fuel (b * b) ((b ^ n * s : ℕ) : ℤ)).1, (bigIntLogLoop fuel (b * b) ((b ^ n * s : ℕ) : ℤ)).2)
          else (0, ((b ^ n * s : ℕ) : ℤ))) = (2 * (n / 2), ((b ^ (n % 2) * s : ℕ) : ℤ)) := by
        have hd := Nat.div_add_mod n 2
        have e : b ^ n * s = (b * b) ^ (n / 2) * (b ^ (n % 2) * s) := by
          rw [← pow_two, ← pow_mul, ← mul_assoc, ← pow_add, hd]
        by_cases h32 : 2 * bitLen b - 1 ≤ bitLen ((b ^ n * s : ℕ) : ℤ).toNat
        · rw [if_pos h32]
          have hm : b ^ (n % 2) * s < b * b := by
            rcases Nat.mod_two_eq_zero_or_one n with h | h <;> rw [h]
            · rw [pow_zero, one_mul]; nlinarith
            · rw [pow_one]; exact Nat.mul_lt_mul_of_pos_left hsb (by omega)
          have hr := bigIntLog_power fuel (b * b) (n / 2) (b ^ (n % 2) * s) (by nlinarith) (Nat.mul_pos (Nat.pow_pos (by omega)) hs) hm
            (by rw [pow_succ] at hn; omega)
          rw [e, hr]
        · rw [if_neg h32]
          have h32 := not_le.1 h32
          rw [Int.toNat_natCast] at h32
          have hn1 : n < 2 := by
            by_contra hc
            have h3 : b ^ 2 ≤ b ^ n := Nat.pow_le_pow_right (by omega) (by omega)
            have h5 : b ^ n * 1 ≤ b ^ n * s := Nat.mul_le_mul_left _ hs
            have hbb := bitLen_spec b (by omega)
            have hv := bitLen_spec (b ^ n * s) (by
              have : 0 < b ^ n * s := Nat.mul_pos (Nat.pow_pos (by omega)) hs
              omega)
            have h6 : b ^ n * s < 2 ^ (2 * (bitLen b - 1)) := lt_of_lt_of_le hv.2.1 (Nat.pow_le_pow_right (by omega) (by omega))
            have h7 : (2 ^ (bitLen b - 1)) ^ 2 ≤ b ^ 2 := Nat.pow_le_pow_left hbb.1 2
            rw [← pow_mul, mul_comm (bitLen b - 1)] at h7
            omega
          have : n = 1 := by omega
          subst this
          simp
      rw [hrec]
      dsimp only
      have hd := Nat.div_add_mod n 2
      rcases Nat.mod_two_eq_zero_or_one n with h | h
      · rw [h, pow_zero, one_mul, if_neg (by exact_mod_cast (not_le.2 hsb))]
        rw [show 2 * (n / 2) = n by omega]
      · rw [h, pow_one, if_pos (by exact_mod_cast Nat.le_mul_of_pos_right _ hs), or_one]
        have : ((b * s : ℕ) : ℤ) / (b : ℤ) = s := by
          rw [← Int.natCast_ediv, Nat.mul_div_cancel_left _ (by omega)]
        rw [this, show 2 * (n / 2) + 1 = n by omega]

theorem logBaseU_int {α : Type} (q : ℤ → ℤ → α) (u v : ℤ) : logBaseU true q u v =
    if (intLog u v).2 = 1 then ((intLog u v).1, none) else ((intLog u v).1, some (q (intLog u v).2 u)) := rfl

theorem logBaseU_big {α : Type} (q : ℤ → ℤ → α) (u v : ℤ) : logBaseU false q u v =
    if (bigIntLog u v).2 = 1 then (((bigIntLog u v).1 : ℤ), none) else (((bigIntLog u v).1 : ℤ), some (q (bigIntLog u v).2 u)) := rfl

theorem intLog_nat {b : ℕ} (hb : 2 ≤ b) (v : ℕ) : intLog b v = (((uint64Log 64 b v).1 : ℤ), ((uint64Log 64 b v).2 : ℤ)) := by
  unfold intLog
  rw [if_neg (by omega)]
  rfl

theorem bigIntLog_nat {b : ℕ} (hb : 2 ≤ b) (v : ℕ) : bigIntLog b v = bigIntLogLoop (bitLen v + 1) b v := by
  unfold bigIntLog
  rw [if_neg (by omega)]
  rfl

/-! ## Powers of floating-point numbers -/

theorem power_zero (p fuel : ℕ) (y z : ℚ) : integerPowerLoop p fuel 0 y z = z := by
  cases fuel <;> simp [integerPowerLoop]

theorem mant_isFloat {p : ℕ} (hp : 1 ≤ p) {m : ℤ} {k n : ℕ} (h : |m| ^ n < 2 ^ p) (hk : k ≤ n) (e : ℤ) : IsFloat p (((m : ℚ) * 2 ^ e) ^ k) := by
  refine ⟨m ^ k, e * k, ?_, ?_⟩
  · rw [abs_pow]
    by_cases hm : m = 0
    · subst hm
      cases k with
      | zero => simpa using one_lt_pow₀ (by norm_num : (1 : ℤ) < 2) (by omega : p ≠ 0)
      | succ k => simp
    · have : (1 : ℤ) ≤ |m| := Int.one_le_abs hm
      exact lt_of_le_of_lt (pow_le_pow_right₀ this hk) h
  · push_cast
    rw [mul_pow, ← zpow_natCast (2 ^ e : ℚ), ← zpow_mul]

theorem power_exact {p : ℕ} (hp : 1 ≤ p) {m e : ℤ} : ∀ (fuel exp a b : ℕ), exp ≤ fuel → 1 ≤ a → |m| ^ (a * exp + b) < 2 ^ p →
    integerPowerLoop p fuel exp (((m : ℚ) * 2 ^ e) ^ a) (((m : ℚ) * 2 ^ e) ^ b) = ((m : ℚ) * 2 ^ e) ^ (a * exp + b)
  | 0, exp, a, b, hf, ha, h => by
    have : exp = 0 := by omega
    subst this
    rw [power_zero]; simp
  | fuel + 1, exp, a, b, hf, ha, h => by
    unfold integerPowerLoop
    by_cases h0 : exp = 0
    · subst h0; simp
    rw [if_neg h0]
    have hd := Nat.div_add_mod exp 2
    -- the product
    have hz : (if exp % 2 = 1 then mul p (((m : ℚ) * 2 ^ e) ^ b) (((m : ℚ) * 2 ^ e) ^ a) else ((m : ℚ) * 2 ^ e) ^ b) =
        ((m : ℚ) * 2 ^ e) ^ (a * (exp % 2) + b) := by
      rcases Nat.mod_two_eq_zero_or_one exp with h1 | h1
      · rw [if_neg (by omega), h1]; simp
      · rw [if_pos h1, h1, mul_one]
        unfold mul
        rw [← pow_add, rnd_self hp (mant_isFloat hp h (by
          have : a * 1 ≤ a * exp := Nat.mul_le_mul_left _ (by omega)
          omega) e), add_comm]
    rw [hz]
    by_cases h1 : exp / 2 = 0
    · rw [h1, power_zero]
      have : exp % 2 = exp := by omega
      rw [this]
    · have hy : mul p (((m : ℚ) * 2 ^ e) ^ a) (((m : ℚ) * 2 ^ e) ^ a) = ((m : ℚ) * 2 ^ e) ^ (2 * a) := by
        unfold mul
        rw [← pow_add, ← two_mul, rnd_self hp (mant_isFloat hp h (by
          have : a * 2 ≤ a * exp := Nat.mul_le_mul_left _ (by omega)
          omega) e)]
      have hs : 2 * a * (exp / 2) + (a * (exp % 2) + b) = a * exp + b := by
        rw [← add_assoc]; congr 1
        calc 2 * a * (exp / 2) + a * (exp % 2) = a * (2 * (exp / 2) + exp % 2) := by ring
          _ = a * exp := by rw [hd]
      rw [hy, power_exact hp fuel (exp / 2) (2 * a) (a * (exp % 2) + b) (by omega) (by omega) (by rwa [hs]), hs]

/-- Rounding multiplies by a number near one. -/
theorem rnd_factor (p : ℕ) (q : ℚ) : ∃ d : ℚ, rnd p q = q * d ∧ 1 - 2 ^ (-(p : ℤ)) ≤ d ∧ d ≤ 1 + 2 ^ (-(p : ℤ)) := by
  by_cases h : q = 0
  · have := eps_pos p
    exact ⟨1, by rw [h, rnd_zero]; simp, by linarith, by linarith⟩
  · refine ⟨rnd p q / q, by field_simp, ?_⟩
    have h1 := rnd_err p q
    have h2 : |rnd p q / q - 1| ≤ 2 ^ (-(p : ℤ)) := by
      rw [show rnd p q / q - 1 = (rnd p q - q) / q by field_simp, abs_div, div_le_iff₀ (abs_pos.2 h)]
      linarith
    have := abs_le.1 h2
    constructor <;> linarith [this.1, this.2]

theorem power_error {p : ℕ} (hp : 1 ≤ p) {x : ℚ} : ∀ (fuel exp a b : ℕ) (s t : ℚ), exp ≤ fuel →
    (1 - 2 ^ (-(p : ℤ))) ^ a ≤ s → s ≤ (1 + 2 ^ (-(p : ℤ))) ^ a → (1 - 2 ^ (-(p : ℤ))) ^ b ≤ t → t ≤ (1 + 2 ^ (-(p : ℤ))) ^ b →
    ∃ d, integerPowerLoop p fuel exp (x ^ (a + 1) * s) (x ^ b * t) = x ^ ((a + 1) * exp + b) * d ∧
      (1 - 2 ^ (-(p : ℤ))) ^ ((a + 1) * exp + b) ≤ d ∧ d ≤ (1 + 2 ^ (-(p : ℤ))) ^ ((a + 1) * exp + b)
  | 0, exp, a, b, s, t, hf, _, _, h3, h4 => by
    have : exp = 0 := by omega
    subst this
    rw [power_zero]; exact ⟨t, by simp, by simpa using h3, by simpa using h4⟩
  | fuel + 1, exp, a, b, s, t, hf, h1, h2, h3, h4 => by
    unfold integerPowerLoop
    by_cases h0 : exp = 0
    · subst h0; exact ⟨t, by simp, by simpa using h3, by simpa using h4⟩
    rw [if_neg h0]
    have hd := Nat.div_add_mod exp 2
    have he0 := eps_pos p
    have he1 : (2 : ℚ) ^ (-(p : ℤ)) ≤ 1 / 2 := le_trans (eps_le (k := 1) hp) (by norm_num)
    set lo : ℚ := 1 - 2 ^ (-(p : ℤ)) with hlo
    set hi : ℚ := 1 + 2 ^ (-(p : ℤ)) with hhi
    have hlo0 : 0 ≤ lo := by rw [hlo]; linarith
    have hhi0 : 0 ≤ hi := by rw [hhi]; linarith
    have hs0 : 0 ≤ s := le_trans (pow_nonneg hlo0 _) h1
    have ht0 : 0 ≤ t := le_trans (pow_nonneg hlo0 _) h3
    -- the square
    obtain ⟨d1, e1, l1, u1⟩ := rnd_factor p (x ^ (a + 1) * s * (x ^ (a + 1) * s))
    have hy : mul p (x ^ (a + 1) * s) (x ^ (a + 1) * s) = x ^ (2 * a + 1 + 1) * (s * s * d1) := by
      unfold mul
      rw [e1]
      ring
    have d10 : 0 ≤ d1 := le_trans hlo0 l1
    have hy1 : lo ^ (2 * a + 1) ≤ s * s * d1 := by
      rw [pow_succ, two_mul, pow_add]
      exact mul_le_mul (mul_le_mul h1 h1 (pow_nonneg hlo0 _) hs0) l1 hlo0 (mul_nonneg hs0 hs0)
    have hy2 : s * s * d1 ≤ hi ^ (2 * a + 1) := by
      rw [pow_succ, two_mul, pow_add]
      exact mul_le_mul (mul_le_mul h2 h2 hs0 (pow_nonneg hhi0 _)) u1 d10 (by positivity)
    -- the product
    obtain ⟨t', ez, hz1, hz2⟩ : ∃ t', (if exp % 2 = 1 then mul p (x ^ b * t) (x ^ (a + 1) * s) else x ^ b * t) = x ^ ((a + 1) * (exp % 2) + b) * t' ∧
        lo ^ ((a + 1) * (exp % 2) + b) ≤ t' ∧ t' ≤ hi ^ ((a + 1) * (exp % 2) + b) := by
      rcases Nat.mod_two_eq_zero_or_one exp with h5 | h5
      · rw [if_neg (by omega), h5]; exact ⟨t, by simp, by simpa using h3, by simpa using h4⟩
      · rw [if_pos h5, h5, mul_one]
        obtain ⟨d2, e2, l2, u2⟩ := rnd_factor p (x ^ b * t * (x ^ (a + 1) * s))
        have d20 : 0 ≤ d2 := le_trans hlo0 l2
        refine ⟨s * d2 * t, ?_, ?_, ?_⟩
        · unfold mul
          rw [e2]
          ring
        · rw [pow_add, pow_succ]
          exact mul_le_mul (mul_le_mul h1 l2 hlo0 hs0) h3 (pow_nonneg hlo0 _) (mul_nonneg hs0 d20)
        · rw [pow_add, pow_succ]
          exact mul_le_mul (mul_le_mul h2 u2 d20 (pow_nonneg hhi0 _)) h4 ht0 (by positivity)
    rw [hy, ez]
    obtain ⟨d, ed, l, u⟩ := power_error hp fuel (exp / 2) (2 * a + 1) ((a + 1) * (exp % 2) + b) (s * s * d1) t' (by omega) hy1 hy2 hz1 hz2
    have hs : (2 * a + 1 + 1) * (exp / 2) + ((a + 1) * (exp % 2) + b) = (a + 1) * exp + b := by
      rw [← add_assoc]; congr 1
      calc (2 * a + 1 + 1) * (exp / 2) + (a + 1) * (exp % 2) = (a + 1) * (2 * (exp / 2) + exp % 2) := by ring
        _ = (a + 1) * exp := by rw [hd]
    rw [hs] at ed l u
    exact ⟨d, ed, l, u⟩

end Verif.Flt
