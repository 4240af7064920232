import Mathlib.Analysis.SpecialFunctions.Log.Deriv
import Mathlib.Analysis.SpecialFunctions.Exponential
import Mathlib.Analysis.SpecialFunctions.Complex.Arctan
import Mathlib.Analysis.SpecialFunctions.Trigonometric.Arctan
import Verif.Flt.Lemmas15
import Verif.Flt.Consts

/-! # Lemmas: the digits of the constants

The series of the arc tangent, of the logarithm and of the exponential function are added up in whole numbers, term by term in units of `M⁻¹`, by the kernel.
-/

namespace Verif.Flt
open Spec

/-! ## Sums by halves -/

/-- The sum of `f a`, …, `f (a + 2 ^ d - 1)`. -/
def halves (f : ℕ → ℕ) : ℕ → ℕ → ℕ
  | 0, a => f a
  | d + 1, a => halves f d a + halves f d (a + 2 ^ d)

theorem halves_eq (f : ℕ → ℕ) : ∀ d a, halves f d a = ∑ i ∈ Finset.range (2 ^ d), f (a + i)
  | 0, a => by simp [halves]
  | d + 1, a => by
    rw [halves, halves_eq f d a, halves_eq f d (a + 2 ^ d), pow_succ, mul_two, Finset.sum_range_add]
    simp only [Nat.add_assoc]

theorem halves_zero (f : ℕ → ℕ) (d : ℕ) : halves f d 0 = ∑ i ∈ Finset.range (2 ^ d), f i := by
  rw [halves_eq]; simp

/-- Rounding down each term. -/
theorem halves_near {f : ℕ → ℕ} {g : ℕ → ℝ} (h : ∀ i, (f i : ℝ) ≤ g i ∧ g i ≤ f i + 1) (d : ℕ) :
    |(halves f d 0 : ℝ) - ∑ i ∈ Finset.range (2 ^ d), g i| ≤ 2 ^ d := by
  rw [halves_zero]
  push_cast
  rw [← Finset.sum_sub_distrib]
  refine le_trans (Finset.abs_sum_le_sum_abs _ _) ?_
  refine le_trans (Finset.sum_le_sum (g := fun _ => (1 : ℝ)) fun i _ => ?_) (by simp)
  exact abs_le.2 ⟨by linarith [(h i).2], by linarith [(h i).1]⟩

theorem floor_near (M n : ℕ) (hn : 0 < n) : ((M / n : ℕ) : ℝ) ≤ (M : ℝ) / n ∧ (M : ℝ) / n ≤ (M / n : ℕ) + 1 := by
  refine ⟨Nat.cast_div_le, ?_⟩
  have hn' : (0 : ℝ) < n := by exact_mod_cast hn
  rw [div_le_iff₀ hn']
  have h := Nat.lt_div_mul_add hn (a := M)
  have h' : (M : ℝ) < (M / n : ℕ) * n + n := by exact_mod_cast h
  linarith

/-- A series with terms that are halved at least. -/
theorem tail_le {f : ℕ → ℝ} {S x : ℝ} (hx0 : 0 < x) (hx1 : x ≤ 1 / 2) (hf : ∀ i, |f i| ≤ x ^ i) (hs : HasSum f S) (n : ℕ) :
    |S - ∑ i ∈ Finset.range n, f i| ≤ 2 * x ^ n := by
  have hs' := (hasSum_nat_add_iff' n).2 hs
  have hb : HasSum (fun i : ℕ => x ^ n * (1 / 2 : ℝ) ^ i) (x ^ n * (1 - 1 / 2)⁻¹) :=
    (hasSum_geometric_of_lt_one (r := (1 / 2 : ℝ)) (by norm_num) (by norm_num)).mul_left (x ^ n)
  have hle := tsum_of_norm_bounded hb (f := fun i => f (i + n)) (by
    intro i
    rw [Real.norm_eq_abs]
    refine le_trans (hf _) ?_
    rw [pow_add, mul_comm]
    exact mul_le_mul_of_nonneg_left (pow_le_pow_left₀ hx0.le hx1 i) (by positivity))
  rw [hs'.tsum_eq, Real.norm_eq_abs] at hle
  refine le_trans hle (le_of_eq ?_)
  norm_num
  ring

/-! ## Arc tangent and logarithm -/

/-- The terms `M / (k ^ (2 i + 1) (2 i + 1))` with `i = 2 j + s`. -/
def term (M k s j : ℕ) : ℕ := M / (k ^ (2 * (2 * j + s) + 1) * (2 * (2 * j + s) + 1))

/-- Arc tangent of `1/k` times `M`, from `2 ^ d` pairs of terms. -/
def atanPlus (M k d : ℕ) : ℕ := halves (term M k 0) d 0
def atanMinus (M k d : ℕ) : ℕ := halves (term M k 1) d 0

theorem sum_pairs (f : ℕ → ℝ) (n : ℕ) : ∑ i ∈ Finset.range (2 * n), f i = ∑ j ∈ Finset.range n, f (2 * j + 0) + ∑ j ∈ Finset.range n, f (2 * j + 1) := by
  induction n with
  | zero => simp
  | succ n ih =>
    rw [show 2 * (n + 1) = 2 * n + 1 + 1 by ring, Finset.sum_range_succ, Finset.sum_range_succ, ih, Finset.sum_range_succ, Finset.sum_range_succ]
    simp only [Nat.add_zero]
    ring

theorem term_near {M k : ℕ} (hk : 2 ≤ k) (s j : ℕ) :
    (term M k s j : ℝ) ≤ M * ((k : ℝ)⁻¹ ^ (2 * (2 * j + s) + 1) / ((2 * (2 * j + s) + 1 : ℕ) : ℝ)) ∧
    M * ((k : ℝ)⁻¹ ^ (2 * (2 * j + s) + 1) / ((2 * (2 * j + s) + 1 : ℕ) : ℝ)) ≤ term M k s j + 1 := by
  have h := floor_near M (k ^ (2 * (2 * j + s) + 1) * (2 * (2 * j + s) + 1)) (by positivity)
  have he : (M : ℝ) / ((k ^ (2 * (2 * j + s) + 1) * (2 * (2 * j + s) + 1) : ℕ) : ℝ) = M * ((k : ℝ)⁻¹ ^ (2 * (2 * j + s) + 1) / ((2 * (2 * j + s) + 1 : ℕ) : ℝ)) := by
    push_cast
    rw [inv_pow]
    field_simp
  rw [he] at h
  exact h

theorem inv_small {k : ℕ} (hk : 2 ≤ k) : 0 < (k : ℝ)⁻¹ ∧ (k : ℝ)⁻¹ ≤ 1 / 2 := by
  have hk' : (2 : ℝ) ≤ k := by exact_mod_cast hk
  have hk0 : (0 : ℝ) < k := by linarith
  refine ⟨inv_pos.2 hk0, ?_⟩
  rw [inv_le_comm₀ hk0 (by norm_num)]; norm_num; linarith

theorem odd_le {x : ℝ} (hx0 : 0 < x) (hx1 : x ≤ 1 / 2) (i : ℕ) : |x ^ (2 * i + 1) / ((2 * i + 1 : ℕ) : ℝ)| ≤ (x ^ 2) ^ i := by
  rw [abs_of_nonneg (by positivity)]
  refine le_trans (div_le_self (by positivity) (by exact_mod_cast (by omega : 1 ≤ 2 * i + 1))) ?_
  rw [← pow_mul]
  exact pow_le_pow_of_le_one hx0.le (by linarith) (by omega)

/-- So many terms that the next is less than one. -/
theorem tail_one {M k n : ℕ} (hk : 2 ≤ k) (h : M ≤ (k ^ 2) ^ n) : M * ((k : ℝ)⁻¹ ^ 2) ^ n ≤ 1 := by
  have h' : (M : ℝ) ≤ ((k : ℝ) ^ 2) ^ n := by exact_mod_cast h
  have hk0 : (0 : ℝ) < k := by exact_mod_cast (by omega : 0 < k)
  rw [inv_pow, inv_pow, ← div_eq_mul_inv, div_le_one (by positivity)]
  exact h'

theorem machin_atan {M k : ℕ} (hk : 2 ≤ k) (d : ℕ) (hMk : M ≤ (k ^ 2) ^ (2 * 2 ^ d)) :
    |((atanPlus M k d : ℝ) - atanMinus M k d) - M * Real.arctan (k : ℝ)⁻¹| ≤ 2 * 2 ^ d + 2 := by
  have h1 := tail_one hk hMk
  obtain ⟨hx0, hx1⟩ := inv_small hk
  have hp := halves_near (term_near (M := M) hk 0) d
  have hm := halves_near (term_near (M := M) hk 1) d
  set x := (k : ℝ)⁻¹ with hx
  have hs := Real.hasSum_arctan (x := x) (by rw [Real.norm_eq_abs, abs_of_pos hx0]; linarith)
  have ht := tail_le (x := x ^ 2) (by positivity) (by nlinarith) (f := fun n => (-1 : ℝ) ^ n * x ^ (2 * n + 1) / ((2 * n + 1 : ℕ) : ℝ)) (by
    intro i
    rw [mul_div_assoc, abs_mul, abs_pow, abs_neg, abs_one, one_pow, one_mul]
    exact odd_le hx0 hx1 i) hs (2 * 2 ^ d)
  rw [sum_pairs] at ht
  have e0 : ∑ j ∈ Finset.range (2 ^ d), (M : ℝ) * (x ^ (2 * (2 * j + 0) + 1) / ((2 * (2 * j + 0) + 1 : ℕ) : ℝ)) = M * ∑ j ∈ Finset.range (2 ^ d), (-1 : ℝ) ^ (2 * j + 0) * x ^ (2 * (2 * j + 0) + 1) / ((2 * (2 * j + 0) + 1 : ℕ) : ℝ) := by
    rw [Finset.mul_sum]
    refine Finset.sum_congr rfl fun j _ => ?_
    rw [show (-1 : ℝ) ^ (2 * j + 0) = 1 by rw [Nat.add_zero, pow_mul, neg_one_sq, one_pow], one_mul]
  have e1 : ∑ j ∈ Finset.range (2 ^ d), (M : ℝ) * (x ^ (2 * (2 * j + 1) + 1) / ((2 * (2 * j + 1) + 1 : ℕ) : ℝ)) = -(M * ∑ j ∈ Finset.range (2 ^ d), (-1 : ℝ) ^ (2 * j + 1) * x ^ (2 * (2 * j + 1) + 1) / ((2 * (2 * j + 1) + 1 : ℕ) : ℝ)) := by
    rw [Finset.mul_sum, ← Finset.sum_neg_distrib]
    refine Finset.sum_congr rfl fun j _ => ?_
    rw [pow_succ (-1 : ℝ), pow_mul (-1 : ℝ), neg_one_sq, one_pow]
    ring
  rw [e0] at hp
  rw [e1] at hm
  set A := ∑ j ∈ Finset.range (2 ^ d), (-1 : ℝ) ^ (2 * j + 0) * x ^ (2 * (2 * j + 0) + 1) / ((2 * (2 * j + 0) + 1 : ℕ) : ℝ)
  set B := ∑ j ∈ Finset.range (2 ^ d), (-1 : ℝ) ^ (2 * j + 1) * x ^ (2 * (2 * j + 1) + 1) / ((2 * (2 * j + 1) + 1 : ℕ) : ℝ)
  change |(atanPlus M k d : ℝ) - _| ≤ _ at hp
  change |(atanMinus M k d : ℝ) - _| ≤ _ at hm
  have hM : (0 : ℝ) ≤ M := Nat.cast_nonneg M
  have h2 := abs_le.1 (mul_le_mul_of_nonneg_left ht hM |> fun h => by rwa [← abs_of_nonneg hM, ← abs_mul, abs_of_nonneg hM] at h)
  have h3 := abs_le.1 hp
  have h4 := abs_le.1 hm
  rw [abs_le]
  constructor <;> linarith [h2.1, h2.2, h3.1, h3.2, h4.1, h4.2]

theorem log_near_sum {M k : ℕ} (hk : 2 ≤ k) (d : ℕ) (hMk : M ≤ (k ^ 2) ^ (2 * 2 ^ d)) :
    |2 * ((atanPlus M k d : ℝ) + atanMinus M k d) - M * (Real.log (1 + (k : ℝ)⁻¹) - Real.log (1 - (k : ℝ)⁻¹))| ≤ 4 * 2 ^ d + 4 := by
  have h1 := tail_one hk hMk
  obtain ⟨hx0, hx1⟩ := inv_small hk
  have hp := halves_near (term_near (M := M) hk 0) d
  have hm := halves_near (term_near (M := M) hk 1) d
  set x := (k : ℝ)⁻¹ with hx
  have hs0 := Real.hasSum_log_sub_log_of_abs_lt_one (x := x) (by rw [abs_of_pos hx0]; linarith)
  have hs : HasSum (fun n : ℕ => x ^ (2 * n + 1) / ((2 * n + 1 : ℕ) : ℝ)) ((Real.log (1 + x) - Real.log (1 - x)) / 2) := by
    have := hs0.div_const 2
    have he : (fun n : ℕ => x ^ (2 * n + 1) / ((2 * n + 1 : ℕ) : ℝ)) = fun k : ℕ => (2 : ℝ) * (1 / (2 * k + 1)) * x ^ (2 * k + 1) / 2 := by
      funext n
      push_cast
      field_simp
    rw [he]
    exact this
  have ht := tail_le (x := x ^ 2) (by positivity) (by nlinarith) (odd_le hx0 hx1) hs (2 * 2 ^ d)
  rw [sum_pairs] at ht
  rw [← Finset.mul_sum] at hp hm
  set A := ∑ j ∈ Finset.range (2 ^ d), x ^ (2 * (2 * j + 0) + 1) / ((2 * (2 * j + 0) + 1 : ℕ) : ℝ)
  set B := ∑ j ∈ Finset.range (2 ^ d), x ^ (2 * (2 * j + 1) + 1) / ((2 * (2 * j + 1) + 1 : ℕ) : ℝ)
  change |(atanPlus M k d : ℝ) - _| ≤ _ at hp
  change |(atanMinus M k d : ℝ) - _| ≤ _ at hm
  have hM : (0 : ℝ) ≤ M := Nat.cast_nonneg M
  have h2 := abs_le.1 (mul_le_mul_of_nonneg_left ht hM |> fun h => by rwa [← abs_of_nonneg hM, ← abs_mul, abs_of_nonneg hM] at h)
  have h3 := abs_le.1 hp
  have h4 := abs_le.1 hm
  rw [abs_le]
  constructor <;> linarith [h2.1, h2.2, h3.1, h3.2, h4.1, h4.2]

/-! ## Exponential function -/

/-- `(a + 1) ⋯ (a + 2 ^ d)`. -/
def prodH : ℕ → ℕ → ℕ
  | 0, a => a + 1
  | d + 1, a => prodH d a * prodH d (a + 2 ^ d)

/-- `1/(a+1) + 1/((a+1)(a+2)) + …` with `2 ^ d` terms, times the product of all factors. -/
def sumH : ℕ → ℕ → ℕ
  | 0, _ => 1
  | d + 1, a => sumH d a * prodH d (a + 2 ^ d) + sumH d (a + 2 ^ d)

theorem prodH_eq : ∀ d a, a.factorial * prodH d a = (a + 2 ^ d).factorial
  | 0, a => by rw [prodH, pow_zero, Nat.factorial_succ, mul_comm]
  | d + 1, a => by rw [prodH, ← mul_assoc, prodH_eq d a, prodH_eq d (a + 2 ^ d), pow_succ, mul_two, Nat.add_assoc]

theorem prodH_pos (d a : ℕ) : 0 < prodH d a := by
  have h := prodH_eq d a
  rcases Nat.eq_zero_or_pos (prodH d a) with h0 | h0
  · rw [h0, mul_zero] at h
    exact absurd h.symm (Nat.factorial_ne_zero _)
  · exact h0

theorem sumH_eq : ∀ d a, (sumH d a : ℝ) / prodH d a = ∑ j ∈ Finset.range (2 ^ d), (a.factorial : ℝ) / ((a + j + 1).factorial : ℝ)
  | 0, a => by
    rw [sumH, prodH, pow_zero, Finset.sum_range_one, Nat.add_zero, Nat.factorial_succ]
    have : (a.factorial : ℝ) ≠ 0 := by exact_mod_cast Nat.factorial_ne_zero a
    push_cast
    field_simp
  | d + 1, a => by
    have h1 := sumH_eq d a
    have h2 := sumH_eq d (a + 2 ^ d)
    have p1 : (prodH d a : ℝ) ≠ 0 := by exact_mod_cast (prodH_pos d a).ne'
    have p2 : (prodH d (a + 2 ^ d) : ℝ) ≠ 0 := by exact_mod_cast (prodH_pos d (a + 2 ^ d)).ne'
    have hf : (a.factorial : ℝ) ≠ 0 := by exact_mod_cast Nat.factorial_ne_zero a
    have hpf : (a.factorial : ℝ) * prodH d a = ((a + 2 ^ d).factorial : ℝ) := by exact_mod_cast prodH_eq d a
    rw [pow_succ, mul_two, Finset.sum_range_add, ← h1, sumH, prodH]
    have h3 : ∑ j ∈ Finset.range (2 ^ d), (a.factorial : ℝ) / ((a + (2 ^ d + j) + 1).factorial : ℝ) = (sumH d (a + 2 ^ d) : ℝ) / prodH d (a + 2 ^ d) / prodH d a := by
      rw [h2, Finset.sum_div]
      refine Finset.sum_congr rfl fun j _ => ?_
      rw [← hpf, show a + (2 ^ d + j) + 1 = a + 2 ^ d + j + 1 by ring]
      field_simp
    rw [h3]
    push_cast
    field_simp

theorem exp_near (d : ℕ) : |(1 + (sumH d 0 : ℝ) / prodH d 0) - Real.exp 1| ≤ 2 / prodH d 0 := by
  have h := Real.exp_bound (x := 1) (by simp) (n := 2 ^ d + 1) (Nat.succ_pos _)
  have hp := prodH_eq d 0
  rw [Nat.factorial_zero, one_mul, Nat.zero_add] at hp
  rw [Finset.sum_range_succ'] at h
  have he : ∑ k ∈ Finset.range (2 ^ d), (1 : ℝ) ^ (k + 1) / ((k + 1).factorial : ℝ) = (sumH d 0 : ℝ) / prodH d 0 := by
    rw [sumH_eq]
    refine Finset.sum_congr rfl fun j _ => ?_
    rw [one_pow, Nat.factorial_zero, Nat.cast_one, Nat.zero_add]
  rw [he, pow_zero, Nat.factorial_zero, Nat.cast_one, div_one, abs_one, one_pow, one_mul, add_comm, abs_sub_comm] at h
  refine le_trans h ?_
  rw [hp]
  have hn : (1 : ℝ) ≤ 2 ^ d := one_le_pow₀ (by norm_num)
  have hf : (0 : ℝ) < ((2 ^ d).factorial : ℝ) := by exact_mod_cast Nat.factorial_pos _
  rw [Nat.factorial_succ, div_le_div_iff₀ (by positivity) hf]
  push_cast
  nlinarith [mul_le_mul_of_nonneg_left hn hf.le, mul_nonneg hf.le (mul_nonneg (by linarith : (0 : ℝ) ≤ 2 ^ d) (by linarith : (0 : ℝ) ≤ 2 ^ d))]

/-! ## The digits -/

theorem ePrec : |(digitsE : ℤ) * 10 ^ 10 * ((prodH 11 0 : ℕ) : ℤ) - 10 ^ 3020 * (((prodH 11 0 : ℕ) : ℤ) + ((sumH 11 0 : ℕ) : ℤ))| ≤ 2 * 10 ^ 9 * ((prodH 11 0 : ℕ) : ℤ) := by
  decide +kernel

theorem piPrec : |(digitsPi : ℤ) * 10 ^ 10 - 4 * (4 * (atanPlus (10 ^ 3020) 5 11 - atanMinus (10 ^ 3020) 5 11) - (atanPlus (10 ^ 3020) 239 9 - atanMinus (10 ^ 3020) 239 9))| ≤ 96 * 10 ^ 8 := by
  decide +kernel

theorem log2Prec : |(digitsLog2 : ℤ) * 10 ^ 10 - 2 * (atanPlus (10 ^ 3020) 3 11 + atanMinus (10 ^ 3020) 3 11)| ≤ 6 * 10 ^ 9 := by
  decide +kernel

theorem log10Prec : |(digitsLog10 : ℤ) * 10 ^ 10 - (6 * (atanPlus (10 ^ 3020) 3 11 + atanMinus (10 ^ 3020) 3 11) + 2 * (atanPlus (10 ^ 3020) 9 10 + atanMinus (10 ^ 3020) 9 10))| ≤ 2 * 10 ^ 9 := by
  decide +kernel

theorem many3 : 10 ^ 3020 ≤ (3 ^ 2) ^ (2 * 2 ^ 11) := by decide +kernel
theorem many5 : 10 ^ 3020 ≤ (5 ^ 2) ^ (2 * 2 ^ 11) := by decide +kernel
theorem many9 : 10 ^ 3020 ≤ (9 ^ 2) ^ (2 * 2 ^ 10) := by decide +kernel
theorem many239 : 10 ^ 3020 ≤ (239 ^ 2) ^ (2 * 2 ^ 9) := by decide +kernel
theorem manyE : 10 ^ 3020 ≤ prodH 11 0 := by decide +kernel

/-- The real number with the digits `n`. -/
noncomputable def decimal (n : ℕ) : ℝ := n / 10 ^ 3010

theorem decimal_near {n : ℕ} {x E : ℝ} (h : |(n : ℝ) * 10 ^ 10 - 10 ^ 3020 * x| ≤ E * 10 ^ 10) : |decimal n - x| ≤ E / 10 ^ 3010 := by
  unfold decimal
  rw [show (10 : ℝ) ^ 3020 = 10 ^ 3010 * 10 ^ 10 by rw [← pow_add]] at h
  have hA : (0 : ℝ) < 10 ^ 3010 := by positivity
  generalize (10 : ℝ) ^ 3010 = A at *
  rw [show (n : ℝ) * 10 ^ 10 - A * 10 ^ 10 * x = (n / A - x) * (A * 10 ^ 10) by field_simp, abs_mul, abs_of_pos (by positivity : 0 < A * 10 ^ 10)] at h
  rw [le_div_iff₀ hA]
  linarith

theorem decimal_pi : |decimal digitsPi - Real.pi| ≤ 0.97 / 10 ^ 3010 := by
  apply decimal_near
  have h := piPrec
  have h1 := machin_atan (by norm_num) 11 many5
  have h2 := machin_atan (by norm_num) 9 many239
  have h3 := Real.four_mul_arctan_inv_5_sub_arctan_inv_239
  generalize atanPlus (10 ^ 3020) 5 11 = a at *
  generalize atanMinus (10 ^ 3020) 5 11 = b at *
  generalize atanPlus (10 ^ 3020) 239 9 = c at *
  generalize atanMinus (10 ^ 3020) 239 9 = d at *
  generalize digitsPi = n at *
  have h' : |(n : ℝ) * 10 ^ 10 - 4 * (4 * ((a : ℝ) - b) - ((c : ℝ) - d))| ≤ 96 * 10 ^ 8 := by exact_mod_cast h
  push_cast at h1 h2
  rw [show Real.pi = 4 * (4 * Real.arctan 5⁻¹ - Real.arctan 239⁻¹) by rw [h3]; ring]
  generalize (10 : ℝ) ^ 3020 = M at *
  rw [abs_le] at *
  constructor <;> linarith [h1.1, h1.2, h2.1, h2.2, h'.1, h'.2]

theorem log_two_eq : Real.log (1 + ((3 : ℕ) : ℝ)⁻¹) - Real.log (1 - ((3 : ℕ) : ℝ)⁻¹) = Real.log 2 := by
  rw [← Real.log_div (by norm_num) (by norm_num)]; norm_num

theorem log_ten_eq : Real.log 10 = 3 * Real.log 2 + (Real.log (1 + ((9 : ℕ) : ℝ)⁻¹) - Real.log (1 - ((9 : ℕ) : ℝ)⁻¹)) := by
  rw [← Real.log_div (by norm_num) (by norm_num), show (3 : ℝ) = ((3 : ℕ) : ℝ) by norm_num, ← Real.log_pow, ← Real.log_mul (by norm_num) (by norm_num)]; norm_num

theorem decimal_log2 : |decimal digitsLog2 - Real.log 2| ≤ 0.7 / 10 ^ 3010 := by
  apply decimal_near
  have h := log2Prec
  have h1 := log_near_sum (by norm_num) 11 many3
  rw [log_two_eq] at h1
  generalize atanPlus (10 ^ 3020) 3 11 = a at *
  generalize atanMinus (10 ^ 3020) 3 11 = b at *
  generalize digitsLog2 = n at *
  have h' : |(n : ℝ) * 10 ^ 10 - 2 * ((a : ℝ) + b)| ≤ 6 * 10 ^ 9 := by exact_mod_cast h
  push_cast at h1
  generalize (10 : ℝ) ^ 3020 = M at *
  rw [abs_le] at *
  constructor <;> linarith [h1.1, h1.2, h'.1, h'.2]

theorem decimal_log10 : |decimal digitsLog10 - Real.log 10| ≤ 0.3 / 10 ^ 3010 := by
  apply decimal_near
  have h := log10Prec
  have h1 := log_near_sum (by norm_num) 11 many3
  have h2 := log_near_sum (by norm_num) 10 many9
  rw [log_two_eq] at h1
  rw [log_ten_eq]
  generalize atanPlus (10 ^ 3020) 3 11 = a at *
  generalize atanMinus (10 ^ 3020) 3 11 = b at *
  generalize atanPlus (10 ^ 3020) 9 10 = c at *
  generalize atanMinus (10 ^ 3020) 9 10 = d at *
  generalize digitsLog10 = n at *
  have h' : |(n : ℝ) * 10 ^ 10 - (6 * ((a : ℝ) + b) + 2 * ((c : ℝ) + d))| ≤ 2 * 10 ^ 9 := by exact_mod_cast h
  push_cast at h1 h2 ⊢
  generalize (10 : ℝ) ^ 3020 = M at *
  rw [abs_le] at *
  constructor <;> linarith [h1.1, h1.2, h2.1, h2.2, h'.1, h'.2]

theorem decimal_e : |decimal digitsE - Real.exp 1| ≤ 0.3 / 10 ^ 3010 := by
  apply decimal_near
  have h := ePrec
  have h1 := exp_near 11
  have h2 := manyE
  generalize prodH 11 0 = a at *
  generalize sumH 11 0 = b at *
  generalize digitsE = n at *
  have h' : |(n : ℝ) * 10 ^ 10 * a - 10 ^ 3020 * ((a : ℝ) + b)| ≤ 2 * 10 ^ 9 * (a : ℝ) := by exact_mod_cast h
  have h2' : (10 : ℝ) ^ 3020 ≤ a := by exact_mod_cast h2
  have hM : (0 : ℝ) < 10 ^ 3020 := by positivity
  generalize (10 : ℝ) ^ 3020 = M at *
  have ha : (0 : ℝ) < a := lt_of_lt_of_le hM h2'
  have h3 : |M * (1 + (b : ℝ) / a) - M * Real.exp 1| ≤ 2 := by
    rw [← mul_sub, abs_mul, abs_of_pos hM]
    refine le_trans (mul_le_mul_of_nonneg_left h1 hM.le) ?_
    rw [mul_div_assoc', div_le_iff₀ ha]; linarith
  have h4 : |(n : ℝ) * 10 ^ 10 - M * (1 + (b : ℝ) / a)| ≤ 2 * 10 ^ 9 := by
    rw [show (n : ℝ) * 10 ^ 10 * a - M * (a + b) = ((n : ℝ) * 10 ^ 10 - M * (1 + b / a)) * a by field_simp, abs_mul, abs_of_pos ha] at h'
    exact le_of_mul_le_mul_right h' ha
  have h5 := abs_le.1 h3
  have h6 := abs_le.1 h4
  exact abs_le.2 ⟨by linarith [h5.1, h6.1], by linarith [h5.2, h6.2]⟩

/-! ## Rounded constants -/

theorem expo_pi : expo (mkRat digitsPi (10 ^ 3010)) = 2 := by decide +kernel
theorem expo_e : expo (mkRat digitsE (10 ^ 3010)) = 2 := by decide +kernel
theorem expo_log2 : expo (mkRat digitsLog2 (10 ^ 3010)) = 0 := by decide +kernel
theorem expo_log10 : expo (mkRat digitsLog10 (10 ^ 3010)) = 2 := by decide +kernel
theorem two_ten : 97 * 2 ^ 10000 ≤ 200 * 10 ^ 3010 := by decide +kernel

theorem decimal_cast (n : ℕ) : ((mkRat n (10 ^ 3010) : ℚ) : ℝ) = decimal n := by
  unfold decimal
  rw [Rat.mkRat_eq_div]
  push_cast
  norm_cast

theorem last_digit {p : ℕ} (hp : p ≤ 10000) : (0.97 : ℝ) / 10 ^ 3010 ≤ 2 * eps p := by
  have h1 : eps 10000 ≤ eps p := by
    unfold eps
    exact zpow_le_zpow_right₀ (by norm_num) (by omega)
  have h2 : (97 : ℝ) * 2 ^ 10000 ≤ 200 * 10 ^ 3010 := by exact_mod_cast two_ten
  have h3 : eps 10000 = 1 / 2 ^ 10000 := by
    unfold eps
    rw [zpow_neg, one_div, zpow_natCast]
  rw [h3] at h1
  have hA : (0 : ℝ) < 10 ^ 3010 := by positivity
  have hB : (0 : ℝ) < 2 ^ 10000 := by positivity
  generalize (10 : ℝ) ^ 3010 = A at *
  generalize (2 : ℝ) ^ 10000 = B at *
  refine le_trans ?_ (mul_le_mul_of_nonneg_left h1 (by norm_num))
  rw [mul_one_div, div_le_div_iff₀ hA hB]
  linarith

theorem const_near {p n k : ℕ} (hp : p ≤ 10000) {x E : ℝ} (hE : E ≤ 0.97) (hk : expo (mkRat n (10 ^ 3010)) = k) (h : |decimal n - x| ≤ E / 10 ^ 3010) :
    |((rnd p (mkRat n (10 ^ 3010)) : ℚ) : ℝ) - x| ≤ (2 ^ k / 2 + 2) * eps p := by
  have h1 := rnd_err_ulp p (mkRat n (10 ^ 3010))
  rw [hk] at h1
  have h2 : ((|rnd p (mkRat n (10 ^ 3010)) - mkRat n (10 ^ 3010)| : ℚ) : ℝ) ≤ (((2 : ℚ) ^ ((k : ℤ) - (p : ℤ)) / 2 : ℚ) : ℝ) := Rat.cast_le.2 h1
  rw [Rat.cast_abs, Rat.cast_sub, decimal_cast] at h2
  have h3 : (((2 : ℚ) ^ ((k : ℤ) - (p : ℤ)) / 2 : ℚ) : ℝ) = 2 ^ k / 2 * eps p := by
    unfold eps
    rw [Rat.cast_div, Rat.cast_zpow, Rat.cast_ofNat, sub_eq_add_neg, zpow_add₀ (by norm_num), zpow_natCast]
    ring
  rw [h3] at h2
  have h4 := last_digit hp
  have hA : (0 : ℝ) < 10 ^ 3010 := by positivity
  have h5 : E / 10 ^ 3010 ≤ (0.97 : ℝ) / 10 ^ 3010 := div_le_div_of_nonneg_right hE hA.le
  have h6 := abs_add_le (((rnd p (mkRat n (10 ^ 3010)) : ℚ) : ℝ) - decimal n) (decimal n - x)
  rw [sub_add_sub_cancel] at h6
  linarith

theorem floatPi_near {p : ℕ} (hp : p ≤ 10000) : |(floatPi p : ℝ) - Real.pi| ≤ 4 * eps p := by
  have := const_near (k := 2) hp (by norm_num) expo_pi decimal_pi
  norm_num at this
  exact this

theorem floatE_near {p : ℕ} (hp : p ≤ 10000) : |(floatE p : ℝ) - Real.exp 1| ≤ 4 * eps p := by
  have := const_near (k := 2) hp (by norm_num) expo_e decimal_e
  norm_num at this
  exact this

theorem floatLog10_near {p : ℕ} (hp : p ≤ 10000) : |(floatLog10 p : ℝ) - Real.log 10| ≤ 4 * eps p := by
  have := const_near (k := 2) hp (by norm_num) expo_log10 decimal_log10
  norm_num at this
  exact this

theorem floatLog2_near {p : ℕ} (hp : p ≤ 10000) : |(floatLog2 p : ℝ) - Real.log 2| ≤ 3 * eps p := by
  have := const_near (k := 0) hp (by norm_num) expo_log2 decimal_log2
  have he := eps_real p
  refine le_trans this ?_
  nlinarith

end Verif.Flt
