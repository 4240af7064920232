import Mathlib.Tactic.Linarith
import Mathlib.Tactic.Positivity
import Mathlib.Tactic.FieldSimp
import Mathlib.Tactic.Ring
import Mathlib.Tactic.NormNum
import Mathlib.Data.Rat.Floor
import Mathlib.Data.Nat.Log
import Verif.Flt.Model
import Verif.Flt.Spec

/-! # Rounding -/

namespace Verif.Flt
open Spec

theorem pow2_eq (e : ℤ) : pow2 e = (2 : ℚ) ^ e := by
  cases e with
  | ofNat n => simp [pow2]
  | negSucc n => simp [pow2, zpow_negSucc, Rat.mkRat_eq_div]

theorem half_eq : mkRat 1 2 = (1 / 2 : ℚ) := by rw [Rat.mkRat_eq_div]; norm_num

theorem bitsBelow_spec : ∀ (j n : ℕ), n < 2 ^ 2 ^ j → (n = 0 → bitsBelow j n = 0) ∧ (n ≠ 0 → 2 ^ (bitsBelow j n - 1) ≤ n ∧ n < 2 ^ bitsBelow j n ∧ 1 ≤ bitsBelow j n)
  | 0, n, h => by
    have : n < 2 := by simpa using h
    have : n = 0 ∨ n = 1 := by omega
    rcases this with rfl | rfl <;> simp [bitsBelow]
  | j + 1, n, h => by
    unfold bitsBelow
    by_cases h1 : n < 2 ^ 2 ^ j
    · rw [if_pos h1]; exact bitsBelow_spec j n h1
    · rw [if_neg h1]
      have hp : 0 < 2 ^ 2 ^ j := by positivity
      have h2 : n / 2 ^ 2 ^ j < 2 ^ 2 ^ j := by
        rw [Nat.div_lt_iff_lt_mul hp, ← pow_add, ← two_mul, ← pow_succ']; exact h
      have h3 : n / 2 ^ 2 ^ j ≠ 0 := by
        have := Nat.div_pos (by omega : 2 ^ 2 ^ j ≤ n) hp
        omega
      have ih := (bitsBelow_spec j _ h2).2 h3
      refine ⟨fun h0 => absurd h0 (by rintro rfl; exact h1 hp), fun _ => ?_⟩
      obtain ⟨a, b, c⟩ := ih
      generalize bitsBelow j (n / 2 ^ 2 ^ j) = k at *
      refine ⟨?_, ?_, le_trans c (Nat.le_add_left _ _)⟩
      · have : 2 ^ j + k - 1 = 2 ^ j + (k - 1) := Nat.add_sub_assoc c _
        rw [this, pow_add]
        calc 2 ^ 2 ^ j * 2 ^ (k - 1) ≤ 2 ^ 2 ^ j * (n / 2 ^ 2 ^ j) := Nat.mul_le_mul_left _ a
          _ ≤ n := Nat.mul_div_le _ _
      · rw [pow_add]
        calc n < 2 ^ 2 ^ j * (n / 2 ^ 2 ^ j + 1) := Nat.lt_mul_div_succ n hp
          _ ≤ 2 ^ 2 ^ j * 2 ^ k := Nat.mul_le_mul_left _ b

theorem bitLen_spec (n : ℕ) (h : n ≠ 0) : 2 ^ (bitLen n - 1) ≤ n ∧ n < 2 ^ bitLen n ∧ 1 ≤ bitLen n := by
  unfold bitLen
  split
  · rename_i h1; exact (bitsBelow_spec 13 n h1).2 h
  · exact ⟨by rw [Nat.add_sub_cancel]; exact Nat.log2_self_le h, Nat.lt_log2_self, by omega⟩

theorem two_zpow_pos (e : ℤ) : (0 : ℚ) < 2 ^ e := by positivity

theorem expo_zero : expo 0 = 0 := by simp [expo]

theorem expo_spec (q : ℚ) (h : q ≠ 0) : (2 : ℚ) ^ (expo q - 1) ≤ |q| ∧ |q| < 2 ^ expo q := by
  have hn : q.num ≠ 0 := Rat.num_ne_zero.2 h
  have hn' : q.num.natAbs ≠ 0 := by simpa using hn
  have hd : q.den ≠ 0 := q.den_nz
  obtain ⟨n1, n2, n3⟩ := bitLen_spec _ hn'
  obtain ⟨d1, d2, d3⟩ := bitLen_spec _ hd
  have habs : |q| = (q.num.natAbs : ℚ) / q.den := by
    conv_lhs => rw [← Rat.num_div_den q]
    rw [abs_div, Nat.abs_cast, Nat.cast_natAbs, Int.cast_abs]
  have hmk : mkRat (q.num.natAbs : ℤ) q.den = |q| := by
    rw [Rat.mkRat_eq_div, habs]; simp
  unfold expo
  rw [if_neg hn]
  dsimp only
  rw [hmk, pow2_eq]
  generalize bitLen q.num.natAbs = N at *
  generalize bitLen q.den = D at *
  have hdp : (0 : ℚ) < q.den := by exact_mod_cast q.den_pos
  have n1' : (2 : ℚ) ^ ((N : ℤ) - 1) ≤ q.num.natAbs := by
    have : ((N : ℤ) - 1) = ((N - 1 : ℕ) : ℤ) := by omega
    rw [this, zpow_natCast]; exact_mod_cast n1
  have n2' : (q.num.natAbs : ℚ) < 2 ^ (N : ℤ) := by rw [zpow_natCast]; exact_mod_cast n2
  have d1' : (2 : ℚ) ^ ((D : ℤ) - 1) ≤ q.den := by
    have : ((D : ℤ) - 1) = ((D - 1 : ℕ) : ℤ) := by omega
    rw [this, zpow_natCast]; exact_mod_cast d1
  have d2' : (q.den : ℚ) < 2 ^ (D : ℤ) := by rw [zpow_natCast]; exact_mod_cast d2
  have two : (2 : ℚ) ≠ 0 := by norm_num
  have lo : (2 : ℚ) ^ ((N : ℤ) - D - 1) < |q| := by
    rw [habs, lt_div_iff₀ hdp]
    calc (2 : ℚ) ^ ((N : ℤ) - D - 1) * q.den < 2 ^ ((N : ℤ) - D - 1) * 2 ^ (D : ℤ) := by gcongr
      _ = 2 ^ ((N : ℤ) - 1) := by rw [← zpow_add₀ two]; congr 1; ring
      _ ≤ _ := n1'
  have hi : |q| < 2 ^ ((N : ℤ) - D + 1) := by
    rw [habs, div_lt_iff₀ hdp]
    calc (q.num.natAbs : ℚ) < 2 ^ (N : ℤ) := n2'
      _ = 2 ^ ((N : ℤ) - D + 1) * 2 ^ ((D : ℤ) - 1) := by rw [← zpow_add₀ two]; congr 1; ring
      _ ≤ _ := by gcongr
  split
  · rename_i h1
    refine ⟨?_, hi⟩
    rwa [add_sub_cancel_right]
  · rename_i h1
    exact ⟨lo.le, not_le.1 h1⟩

theorem expo_unique {q : ℚ} (h : q ≠ 0) {e : ℤ} (h1 : (2 : ℚ) ^ (e - 1) ≤ |q|) (h2 : |q| < 2 ^ e) : expo q = e := by
  obtain ⟨a, b⟩ := expo_spec q h
  have one : (1 : ℚ) < 2 := by norm_num
  have c1 := (zpow_lt_zpow_iff_right₀ one).1 (lt_of_le_of_lt h1 b)
  have c2 := (zpow_lt_zpow_iff_right₀ one).1 (lt_of_le_of_lt a h2)
  omega

theorem expo_neg (q : ℚ) : expo (-q) = expo q := by
  by_cases h : q = 0
  · simp [h]
  · obtain ⟨a, b⟩ := expo_spec q h
    exact expo_unique (neg_ne_zero.2 h) (by rwa [abs_neg]) (by rwa [abs_neg])

theorem expo_scale (q : ℚ) (h : q ≠ 0) (k : ℤ) : expo (q * 2 ^ k) = expo q + k := by
  obtain ⟨a, b⟩ := expo_spec q h
  have two : (2 : ℚ) ≠ 0 := by norm_num
  have hk := two_zpow_pos k
  apply expo_unique (mul_ne_zero h hk.ne')
  · rw [abs_mul, abs_of_pos hk, show expo q + k - 1 = (expo q - 1) + k by ring, zpow_add₀ two]
    exact mul_le_mul_of_nonneg_right a hk.le
  · rw [abs_mul, abs_of_pos hk, zpow_add₀ two]
    exact mul_lt_mul_of_pos_right b hk

theorem expo_mono {q r : ℚ} (h : q ≠ 0) (hr : |q| ≤ |r|) : expo q ≤ expo r := by
  have hr0 : r ≠ 0 := by
    rintro rfl
    rw [abs_zero] at hr
    exact h (abs_eq_zero.1 (le_antisymm hr (abs_nonneg _)))
  have a := (expo_spec q h).1
  have b := (expo_spec r hr0).2
  have one : (1 : ℚ) < 2 := by norm_num
  have := (zpow_lt_zpow_iff_right₀ one).1 (lt_of_le_of_lt (le_trans a hr) b)
  omega

/-! ## The nearest integer -/

theorem floor_eq (t : ℚ) : t.floor = ⌊t⌋ := rfl

theorem nearest_spec (t : ℚ) : |t - nearest t| ≤ 1 / 2 := by
  unfold nearest
  dsimp only
  rw [half_eq]
  have h1 : (t.floor : ℚ) ≤ t := by rw [floor_eq]; exact Int.floor_le t
  have h2 : t < t.floor + 1 := by rw [floor_eq]; exact Int.lt_floor_add_one t
  generalize t.floor = f at *
  split
  · rw [abs_le]; constructor <;> linarith
  · split
    · push_cast; rw [abs_le]; constructor <;> linarith
    · split
      · rw [abs_le]; constructor <;> linarith
      · push_cast; rw [abs_le]; constructor <;> linarith

theorem nearest_le (t : ℚ) (k : ℤ) : |t - nearest t| ≤ |t - k| := by
  have h := nearest_spec t
  by_cases hk : k = nearest t
  · rw [hk]
  · have h1 : (1 : ℚ) ≤ |(k : ℚ) - nearest t| := by
      have : (1 : ℤ) ≤ |k - nearest t| := Int.one_le_abs (sub_ne_zero.2 hk)
      exact_mod_cast this
    have h2 : |(k : ℚ) - nearest t| ≤ |t - k| + |t - nearest t| := by
      calc |(k : ℚ) - nearest t| = |(k - t) + (t - nearest t)| := by ring_nf
        _ ≤ |(k : ℚ) - t| + |t - nearest t| := abs_add_le _ _
        _ = _ := by rw [abs_sub_comm]
    linarith

theorem nearest_int (k : ℤ) : nearest (k : ℚ) = k := by
  have h := nearest_le (k : ℚ) k
  rw [sub_self, abs_zero] at h
  have := abs_eq_zero.1 (le_antisymm h (abs_nonneg _))
  have : (k : ℚ) = nearest (k : ℚ) := by linarith
  exact_mod_cast this.symm

theorem nearest_neg (t : ℚ) : nearest (-t) = -nearest t := by
  by_cases hi : ∃ k : ℤ, t = k
  · obtain ⟨k, rfl⟩ := hi
    rw [show (-(k : ℚ)) = ((-k : ℤ) : ℚ) by push_cast; ring, nearest_int, nearest_int]
  · have hf : (-t).floor = -t.floor - 1 := by
      rw [floor_eq, floor_eq, Int.floor_eq_iff]
      have h1 := Int.floor_le t
      have h2 := Int.lt_floor_add_one t
      have h3 : (⌊t⌋ : ℚ) ≠ t := fun h => hi ⟨⌊t⌋, h.symm⟩
      have h4 : (⌊t⌋ : ℚ) < t := lt_of_le_of_ne h1 h3
      push_cast
      constructor <;> linarith
    unfold nearest
    dsimp only
    rw [half_eq, hf]
    have h1 : (t.floor : ℚ) ≤ t := by rw [floor_eq]; exact Int.floor_le t
    generalize t.floor = f at *
    push_cast
    by_cases a : t - f < 1 / 2
    · rw [if_pos a, if_neg (by linarith), if_pos (by linarith)]; ring
    · rw [if_neg a]
      by_cases b : 1 / 2 < t - f
      · rw [if_pos b, if_pos (by linarith)]; ring
      · rw [if_neg b, if_neg (by linarith), if_neg (by linarith)]
        by_cases d : f % 2 = 0
        · rw [if_pos d, if_neg (by omega)]; ring
        · rw [if_neg d, if_pos (by omega)]; ring

/-! ## Rounding -/

theorem rnd_eq (p : ℕ) (q : ℚ) : rnd p q = nearest (q * 2 ^ ((p : ℤ) - expo q)) * 2 ^ (expo q - (p : ℤ)) := by
  unfold rnd
  dsimp only
  rw [pow2_eq, pow2_eq, neg_sub]

theorem rnd_zero (p : ℕ) : rnd p 0 = 0 := by
  rw [rnd_eq, zero_mul, show (0 : ℚ) = ((0 : ℤ) : ℚ) by simp, nearest_int]; simp

theorem rnd_neg (p : ℕ) (q : ℚ) : rnd p (-q) = -rnd p q := by
  rw [rnd_eq, rnd_eq, expo_neg, neg_mul, nearest_neg]; push_cast; ring

theorem rnd_scale (p : ℕ) (q : ℚ) (k : ℤ) : rnd p (q * 2 ^ k) = rnd p q * 2 ^ k := by
  by_cases h : q = 0
  · simp [h, rnd_zero]
  · rw [rnd_eq, rnd_eq, expo_scale q h]
    have two : (2 : ℚ) ≠ 0 := by norm_num
    rw [mul_assoc, ← zpow_add₀ two, mul_assoc, ← zpow_add₀ two]
    congr 2
    · congr 2; congr 1; ring
    · ring

/-- The error of rounding, in units of the last place. -/
theorem rnd_err_ulp (p : ℕ) (q : ℚ) : |rnd p q - q| ≤ 2 ^ (expo q - (p : ℤ)) / 2 := by
  have h := nearest_spec (q * 2 ^ ((p : ℤ) - expo q))
  rw [rnd_eq]
  have two : (2 : ℚ) ≠ 0 := by norm_num
  have hu := two_zpow_pos (expo q - (p : ℤ))
  have e : q = q * 2 ^ ((p : ℤ) - expo q) * 2 ^ (expo q - (p : ℤ)) := by
    rw [mul_assoc, ← zpow_add₀ two]; simp
  generalize q * 2 ^ ((p : ℤ) - expo q) = t at *
  calc |(nearest t : ℚ) * 2 ^ (expo q - (p : ℤ)) - q| = |(nearest t - t) * 2 ^ (expo q - (p : ℤ))| := by
        conv_lhs => rw [e]
        rw [sub_mul, ← e]
    _ = |t - nearest t| * 2 ^ (expo q - (p : ℤ)) := by rw [abs_mul, abs_of_pos hu, abs_sub_comm]
    _ ≤ _ := by nlinarith

/-- The relative error of rounding. -/
theorem rnd_err (p : ℕ) (q : ℚ) : |rnd p q - q| ≤ |q| * 2 ^ (-(p : ℤ)) := by
  by_cases h : q = 0
  · simp [h, rnd_zero]
  · refine le_trans (rnd_err_ulp p q) ?_
    have two : (2 : ℚ) ≠ 0 := by norm_num
    have h1 := (expo_spec q h).1
    have hp := two_zpow_pos (-(p : ℤ))
    rw [show expo q - (p : ℤ) = (expo q - 1) + -(p : ℤ) + 1 by ring, zpow_add₀ two, zpow_add₀ two]
    calc (2 : ℚ) ^ (expo q - 1) * 2 ^ (-(p : ℤ)) * 2 ^ (1 : ℤ) / 2 = 2 ^ (expo q - 1) * 2 ^ (-(p : ℤ)) := by simp
      _ ≤ _ := mul_le_mul_of_nonneg_right h1 hp.le

theorem abs_mant_lt {p : ℕ} {q : ℚ} (h : q ≠ 0) : |q * 2 ^ ((p : ℤ) - expo q)| < 2 ^ p := by
  have two : (2 : ℚ) ≠ 0 := by norm_num
  have hu := two_zpow_pos ((p : ℤ) - expo q)
  rw [abs_mul, abs_of_pos hu]
  calc |q| * 2 ^ ((p : ℤ) - expo q) < 2 ^ expo q * 2 ^ ((p : ℤ) - expo q) := mul_lt_mul_of_pos_right (expo_spec q h).2 hu
    _ = 2 ^ (p : ℤ) := by rw [← zpow_add₀ two]; congr 1; ring
    _ = 2 ^ p := zpow_natCast _ _

theorem isFloat_neg {p : ℕ} {q : ℚ} (h : IsFloat p q) : IsFloat p (-q) := by
  obtain ⟨m, e, a, b⟩ := h
  exact ⟨-m, e, by rwa [abs_neg], by rw [b]; push_cast; ring⟩

theorem isFloat_zpow {p : ℕ} (hp : 1 ≤ p) (e : ℤ) : IsFloat p (2 ^ e) := by
  refine ⟨1, e, ?_, by simp⟩
  rw [abs_one]
  exact one_lt_pow₀ (by norm_num) (by omega)

theorem isFloat_scale {p : ℕ} {q : ℚ} (h : IsFloat p q) (k : ℤ) : IsFloat p (q * 2 ^ k) := by
  obtain ⟨m, e, a, b⟩ := h
  refine ⟨m, e + k, a, ?_⟩
  rw [b, zpow_add₀ (by norm_num : (2 : ℚ) ≠ 0), mul_assoc]

theorem isFloat_zero (p : ℕ) : IsFloat p 0 := ⟨0, 0, by simp, by simp⟩

theorem rnd_isFloat {p : ℕ} (hp : 1 ≤ p) (q : ℚ) : IsFloat p (rnd p q) := by
  by_cases h : q = 0
  · rw [h, rnd_zero]; exact isFloat_zero p
  · rw [rnd_eq]
    have h1 := abs_mant_lt (p := p) h
    have h2 := nearest_spec (q * 2 ^ ((p : ℤ) - expo q))
    generalize q * 2 ^ ((p : ℤ) - expo q) = t at *
    have h3 : |(nearest t : ℚ)| < 2 ^ p + 1 / 2 + 1 / 2 := by
      have : |(nearest t : ℚ)| ≤ |t| + |t - nearest t| := by
        calc |(nearest t : ℚ)| = |t - (t - nearest t)| := by ring_nf
          _ ≤ _ := abs_sub _ _
      linarith
    have h4 : |nearest t| ≤ 2 ^ p := by
      have : |nearest t| < 2 ^ p + 1 := by
        have h5 : (|nearest t| : ℚ) < 2 ^ p + 1 := by linarith
        exact_mod_cast h5
      omega
    rcases lt_or_eq_of_le h4 with h5 | h5
    · exact ⟨_, _, h5, rfl⟩
    · have h6 : nearest t = 2 ^ p ∨ nearest t = -2 ^ p := by
        rcases abs_choice (nearest t) with h | h <;> rw [h] at h5
        · exact Or.inl h5
        · exact Or.inr (by linarith)
      have h7 := isFloat_zpow hp ((p : ℤ) + (expo q - p))
      rw [zpow_add₀ (by norm_num : (2 : ℚ) ≠ 0), zpow_natCast] at h7
      rcases h6 with h | h <;> rw [h] <;> push_cast
      · exact h7
      · rw [neg_mul]; exact isFloat_neg h7

/-- A number with `p` bits is a multiple of its unit in the last place. -/
theorem isFloat_mult {p : ℕ} {f : ℚ} (h : IsFloat p f) {e : ℤ} (he : (2 : ℚ) ^ (e - 1) ≤ |f|) : ∃ k : ℤ, f = k * 2 ^ (e - (p : ℤ)) := by
  obtain ⟨m, k, a, b⟩ := h
  have two : (2 : ℚ) ≠ 0 := by norm_num
  have hk : e - (p : ℤ) ≤ k := by
    have h1 : |f| < 2 ^ ((p : ℤ) + k) := by
      rw [b, abs_mul, abs_of_pos (two_zpow_pos k), zpow_add₀ two, zpow_natCast]
      refine mul_lt_mul_of_pos_right ?_ (two_zpow_pos k)
      exact_mod_cast a
    have := (zpow_lt_zpow_iff_right₀ (by norm_num : (1 : ℚ) < 2)).1 (lt_of_le_of_lt he h1)
    omega
  refine ⟨m * 2 ^ (k - (e - p)).toNat, ?_⟩
  rw [b]
  push_cast
  rw [mul_assoc, ← zpow_natCast, ← zpow_add₀ two]
  congr 2
  rw [Int.toNat_of_nonneg (by omega)]
  ring

/-- Rounding gives the nearest number with `p` bits. -/
theorem rnd_le {p : ℕ} (hp : 1 ≤ p) (q : ℚ) {f : ℚ} (hf : IsFloat p f) : |q - rnd p q| ≤ |q - f| := by
  by_cases h : q = 0
  · rw [h, rnd_zero]; simp
  have two : (2 : ℚ) ≠ 0 := by norm_num
  have hu := two_zpow_pos (expo q - (p : ℤ))
  have key : ∀ k : ℤ, |q - rnd p q| ≤ |q - k * 2 ^ (expo q - (p : ℤ))| := by
    intro k
    have e : q = q * 2 ^ ((p : ℤ) - expo q) * 2 ^ (expo q - (p : ℤ)) := by
      rw [mul_assoc, ← zpow_add₀ two]; simp
    have h1 := nearest_le (q * 2 ^ ((p : ℤ) - expo q)) k
    rw [rnd_eq]
    generalize q * 2 ^ ((p : ℤ) - expo q) = t at *
    calc |q - nearest t * 2 ^ (expo q - (p : ℤ))| = |t - nearest t| * 2 ^ (expo q - (p : ℤ)) := by
          rw [show q - nearest t * 2 ^ (expo q - (p : ℤ)) = (t - nearest t) * 2 ^ (expo q - (p : ℤ)) by rw [sub_mul, ← e], abs_mul, abs_of_pos hu]
      _ ≤ |t - k| * 2 ^ (expo q - (p : ℤ)) := mul_le_mul_of_nonneg_right h1 hu.le
      _ = _ := by
          rw [show q - k * 2 ^ (expo q - (p : ℤ)) = (t - k) * 2 ^ (expo q - (p : ℤ)) by rw [sub_mul, ← e], abs_mul, abs_of_pos hu]
  by_cases hb : (2 : ℚ) ^ (expo q - 1) ≤ |f|
  · obtain ⟨k, hk⟩ := isFloat_mult hf hb
    rw [hk]; exact key k
  · have h1 := (expo_spec q h).1
    have hb' := not_le.1 hb
    have e2 : (2 : ℚ) ^ (expo q - 1) = ((2 ^ (p - 1) : ℤ) : ℚ) * 2 ^ (expo q - (p : ℤ)) := by
      push_cast
      rw [← zpow_natCast, ← zpow_add₀ two]
      congr 1
      omega
    rcases lt_or_gt_of_ne h with hq | hq
    · have k1 := key (-2 ^ (p - 1))
      refine le_trans k1 ?_
      have : ((-2 ^ (p - 1) : ℤ) : ℚ) * 2 ^ (expo q - (p : ℤ)) = -2 ^ (expo q - 1) := by rw [e2]; push_cast; ring
      rw [this]
      rw [abs_of_neg hq] at h1
      have h3 := abs_lt.1 hb'
      rw [abs_of_nonpos (by linarith), abs_of_nonpos (by linarith)]
      linarith
    · have k1 := key (2 ^ (p - 1))
      refine le_trans k1 ?_
      rw [← e2]
      rw [abs_of_pos hq] at h1
      have h3 := abs_lt.1 hb'
      rw [abs_of_nonneg (by linarith), abs_of_nonneg (by linarith)]
      linarith

theorem rnd_self {p : ℕ} (hp : 1 ≤ p) {f : ℚ} (hf : IsFloat p f) : rnd p f = f := by
  have := rnd_le hp f hf
  rw [sub_self, abs_zero] at this
  have := abs_eq_zero.1 (le_antisymm this (abs_nonneg _))
  linarith

theorem rnd_mono {p : ℕ} (hp : 1 ≤ p) {q r : ℚ} (h : q ≤ r) : rnd p q ≤ rnd p r := by
  rcases eq_or_lt_of_le h with rfl | h
  · exact le_refl _
  by_contra hc
  have hc := not_le.1 hc
  have h1 := rnd_le hp q (rnd_isFloat hp r)
  have h2 := rnd_le hp r (rnd_isFloat hp q)
  rcases abs_cases (q - rnd p q) with ⟨a, _⟩ | ⟨a, _⟩ <;> rcases abs_cases (q - rnd p r) with ⟨b, _⟩ | ⟨b, _⟩ <;>
  rcases abs_cases (r - rnd p q) with ⟨c, _⟩ | ⟨c, _⟩ <;> rcases abs_cases (r - rnd p r) with ⟨d, _⟩ | ⟨d, _⟩ <;>
  rw [a, b] at h1 <;> rw [c, d] at h2 <;> linarith

/-- A bound with `p` bits is kept by rounding. -/
theorem rnd_le_float {p : ℕ} (hp : 1 ≤ p) {q f : ℚ} (hf : IsFloat p f) (h : q ≤ f) : rnd p q ≤ f := by
  have := rnd_mono hp h
  rwa [rnd_self hp hf] at this

theorem float_le_rnd {p : ℕ} (hp : 1 ≤ p) {q f : ℚ} (hf : IsFloat p f) (h : f ≤ q) : f ≤ rnd p q := by
  have := rnd_mono hp h
  rwa [rnd_self hp hf] at this

theorem rnd_pos {p : ℕ} (hp : 1 ≤ p) {q : ℚ} (h : 0 < q) : 0 < rnd p q := by
  have h1 := (expo_spec q h.ne').1
  rw [abs_of_pos h] at h1
  exact lt_of_lt_of_le (two_zpow_pos _) (float_le_rnd hp (isFloat_zpow hp _) h1)

theorem rnd_nonneg {p : ℕ} (hp : 1 ≤ p) {q : ℚ} (h : 0 ≤ q) : 0 ≤ rnd p q := by
  have := rnd_mono hp h
  rwa [rnd_zero] at this

theorem rnd_nonpos {p : ℕ} (hp : 1 ≤ p) {q : ℚ} (h : q ≤ 0) : rnd p q ≤ 0 := by
  have := rnd_mono hp h
  rwa [rnd_zero] at this

theorem rnd_ne_zero {p : ℕ} (hp : 1 ≤ p) {q : ℚ} (h : q ≠ 0) : rnd p q ≠ 0 := by
  rcases lt_or_gt_of_ne h with h | h
  · have := rnd_pos hp (neg_pos.2 h)
    rw [rnd_neg] at this
    intro h0
    rw [h0] at this
    simp at this
  · exact (rnd_pos hp h).ne'

theorem rnd_rnd {p : ℕ} (hp : 1 ≤ p) (q : ℚ) : rnd p (rnd p q) = rnd p q := rnd_self hp (rnd_isFloat hp q)

theorem isFloat_int {p : ℕ} {n : ℤ} (h : |n| < 2 ^ p) : IsFloat p n := ⟨n, 0, h, by simp⟩

theorem isFloat_one {p : ℕ} (hp : 1 ≤ p) : IsFloat p 1 := by simpa using isFloat_zpow hp 0

theorem rnd_one {p : ℕ} (hp : 1 ≤ p) : rnd p 1 = 1 := rnd_self hp (isFloat_one hp)

theorem rnd_two {p : ℕ} (hp : 1 ≤ p) : rnd p 2 = 2 := rnd_self hp (by simpa using isFloat_zpow hp 1)

theorem rnd_sixteen {p : ℕ} (hp : 1 ≤ p) : rnd p 16 = 16 := rnd_self hp (by have := isFloat_zpow hp 4; norm_num at this; exact this)

theorem rnd_half {p : ℕ} (hp : 1 ≤ p) : rnd p (mkRat 1 2) = 1 / 2 := by
  rw [half_eq]
  exact rnd_self hp (by have := isFloat_zpow hp (-1); norm_num at this; exact this)

/-- The model's rounding is the specified one. -/
theorem rnd_nearest {p : ℕ} (hp : 1 ≤ p) (q : ℚ) : Nearest p q (rnd p q) := ⟨rnd_isFloat hp q, fun _ hf => rnd_le hp q hf⟩

end Verif.Flt
