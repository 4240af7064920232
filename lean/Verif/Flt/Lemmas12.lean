import Mathlib.Analysis.Real.Pi.Bounds
import Verif.Flt.Lemmas3
import Verif.Flt.Lemmas11

/-! # Sine and cosine: the reduction -/

namespace Verif.Flt
open Spec Finset
open Verif.Arr (R)
open scoped Nat

/-- A loop of subtractions takes away a multiple, up to an error. -/
theorem subtract_err {p : ℕ} {m K : ℚ} (hp : 1 ≤ p) (hm : 0 < m) (hK : K * 2 ^ (-(p : ℤ)) ≤ 1 / 4) : ∀ (fuel : ℕ) (x r : ℚ), 0 ≤ x → x ≤ K * m →
    subtractLoop p m fuel x = .ok r → 0 ≤ r ∧ r < m ∧ ∃ j : ℕ, |r - (x - j * m)| ≤ j * (2 ^ (-(p : ℤ)) * x) ∧ j * (3 / 4 * m) ≤ x - r
  | 0, x, r, _, _, h => by cases h
  | fuel + 1, x, r, hx, hxK, h => by
    unfold subtractLoop at h
    by_cases hmx : m ≤ x
    · rw [if_pos hmx] at h
      have h1 := rnd_err p (x - m)
      rw [abs_of_nonneg (by linarith : 0 ≤ x - m)] at h1
      have he := eps_pos p
      have h2 : (x - m) * 2 ^ (-(p : ℤ)) ≤ m / 4 := by
        calc (x - m) * 2 ^ (-(p : ℤ)) ≤ (K * m) * 2 ^ (-(p : ℤ)) := mul_le_mul_of_nonneg_right (by linarith) he.le
          _ = (K * 2 ^ (-(p : ℤ))) * m := by ring
          _ ≤ 1 / 4 * m := mul_le_mul_of_nonneg_right hK hm.le
          _ = m / 4 := by ring
      have h3 := (abs_le.1 (le_trans h1 h2)).2
      have h0 : 0 ≤ sub p x m := rnd_nonneg hp (by linarith)
      have h4 : sub p x m ≤ x - 3 / 4 * m := by unfold sub; linarith
      obtain ⟨a, b, j, h5, h6⟩ := subtract_err hp hm hK fuel (sub p x m) r h0 (by linarith) h
      refine ⟨a, b, j + 1, ?_, by push_cast; linarith⟩
      have h7 : |r - (x - ((j + 1 : ℕ) : ℚ) * m)| ≤ |r - (sub p x m - j * m)| + |sub p x m - (x - m)| := by
        have := abs_add_le (r - (sub p x m - j * m)) (sub p x m - (x - m))
        rw [show r - (sub p x m - j * m) + (sub p x m - (x - m)) = r - (x - ((j + 1 : ℕ) : ℚ) * m) by push_cast; ring] at this
        exact this
      have h8 : (j : ℚ) * (2 ^ (-(p : ℤ)) * sub p x m) ≤ j * (2 ^ (-(p : ℤ)) * x) :=
        mul_le_mul_of_nonneg_left (mul_le_mul_of_nonneg_left (by linarith) he.le) (by positivity)
      have h9 : |sub p x m - (x - m)| ≤ 2 ^ (-(p : ℤ)) * x := by
        refine le_trans h1 ?_
        nlinarith
      push_cast at h7 ⊢
      linarith
    · rw [if_neg hmx] at h
      injection h with h
      subst h
      exact ⟨hx, not_le.1 hmx, 0, by simp, by simp⟩

theorem subtract_err' {p : ℕ} {m K : ℚ} (hp : 1 ≤ p) (hm : 0 < m) (hK0 : 0 ≤ K) (hK : K * 2 ^ (-(p : ℤ)) ≤ 1 / 4) {fuel : ℕ} {x r : ℚ} (hx : 0 ≤ x) (hxK : x ≤ K * m)
    (h : subtractLoop p m fuel x = .ok r) : 0 ≤ r ∧ r < m ∧ r ≤ x ∧ ∃ j : ℕ, |r - (x - j * m)| ≤ 4 / 3 * K * 2 ^ (-(p : ℤ)) * x ∧ (r = x ∨ 7 * r ≤ 4 * x) ∧ (r = x → j = 0) := by
  obtain ⟨a, b, j, h1, h2⟩ := subtract_err hp hm hK fuel x r hx hxK h
  have he := eps_pos p
  have hj0 : (0 : ℚ) ≤ j := by positivity
  have hrx : r ≤ x := by
    have : 0 ≤ (j : ℚ) * (3 / 4 * m) := by positivity
    linarith
  refine ⟨a, b, hrx, j, ?_, ?_, ?_⟩
  · have h3 : (j : ℚ) ≤ 4 / 3 * K := by
      by_contra hc
      push Not at hc
      have : 4 / 3 * K * (3 / 4 * m) < j * (3 / 4 * m) := mul_lt_mul_of_pos_right hc (by positivity)
      nlinarith
    refine le_trans h1 ?_
    rw [mul_assoc (4 / 3 * K)]
    exact mul_le_mul_of_nonneg_right h3 (by positivity)
  · rcases Nat.eq_zero_or_pos j with h0 | h0
    · left
      rw [h0] at h1
      simp at h1
      linarith
    · right
      have h3 : (1 : ℚ) ≤ j := by exact_mod_cast h0
      have h4 : 3 / 4 * m ≤ j * (3 / 4 * m) := by nlinarith
      linarith
  · intro h0
    rw [h0, sub_self] at h2
    by_contra hc
    have h3 : (1 : ℚ) ≤ j := by exact_mod_cast Nat.one_le_iff_ne_zero.2 hc
    nlinarith

theorem subtractAll_err {p : ℕ} {m : ℚ} (hp : 16 ≤ p) (hm : 0 < m) {fuel : ℕ} : ∀ (k : ℕ) (x r : ℚ), 0 ≤ x → x < 16 ^ (k + 1) * m →
    subtractAll p fuel (tower m k) x = .ok r → 0 ≤ r ∧ r ≤ x ∧ r < 16 * m ∧ ∃ j : ℕ, |r - (x - j * m)| ≤ 52 * 2 ^ (-(p : ℤ)) * x
  | 0, x, r, hx, hxk, h => by
    injection h with h
    subst h
    exact ⟨hx, le_rfl, by simpa using hxk, 0, by have := eps_pos p; simp; positivity⟩
  | k + 1, x, r, hx, hxk, h => by
    obtain ⟨y, hy, h⟩ := bind_eq_ok (r := subtractLoop p (16 ^ (k + 1) * m) fuel x) h
    have he := eps_pos p
    have hes : (2 : ℚ) ^ (-(p : ℤ)) ≤ 1 / 2 ^ 16 := eps_le hp
    obtain ⟨y0, ym, yx, j, h1, h2, h3⟩ := subtract_err' (K := 16) (by omega) (by positivity) (by norm_num) (by linarith) hx (by rw [pow_succ] at hxk; linarith) hy
    obtain ⟨a, b, d, j', h4⟩ := subtractAll_err hp hm k y r y0 ym h
    refine ⟨a, le_trans b yx, d, j * 16 ^ (k + 1) + j', ?_⟩
    have hex : 0 ≤ 2 ^ (-(p : ℤ)) * x := mul_nonneg he.le hx
    have h5 : |r - (x - ((j * 16 ^ (k + 1) + j' : ℕ) : ℚ) * m)| ≤ |r - (y - j' * m)| + |y - (x - j * (16 ^ (k + 1) * m))| := by
      have := abs_add_le (r - (y - j' * m)) (y - (x - j * (16 ^ (k + 1) * m)))
      rw [show r - (y - j' * m) + (y - (x - j * (16 ^ (k + 1) * m))) = r - (x - ((j * 16 ^ (k + 1) + j' : ℕ) : ℚ) * m) by push_cast; ring] at this
      exact this
    rcases h2 with h2 | h2
    · have h6 := h3 h2
      subst h6
      rw [h2] at h4
      rw [Nat.zero_mul, Nat.zero_add]
      exact h4
    · have h6 : 52 * 2 ^ (-(p : ℤ)) * y ≤ 30 * (2 ^ (-(p : ℤ)) * x) := by nlinarith
      linarith

theorem multiples_eq {p : ℕ} (hp : 1 ≤ p) (x : ℚ) : ∀ (fuel : ℕ) (m : ℚ) (acc ms : List ℚ), IsFloat p m → multiples p x fuel m acc = .ok ms →
    ∃ k, x < 16 ^ (k + 1) * m ∧ ms = tower m k ++ acc
  | 0, m, acc, ms, _, h => by cases h
  | fuel + 1, m, acc, ms, hf, h => by
    have e16 : mul p m (rnd p 16) = 16 * m := by
      unfold mul
      rw [rnd_sixteen hp, show m * (16 : ℚ) = m * 2 ^ (4 : ℤ) by norm_num, rnd_scale, rnd_self hp hf]; norm_num; ring
    have hf16 : IsFloat p (16 * m) := by
      have := isFloat_scale hf 4
      rwa [show m * (2 : ℚ) ^ (4 : ℤ) = 16 * m by norm_num; ring] at this
    unfold multiples at h
    dsimp only at h
    rw [e16] at h
    by_cases hx : x < 16 * m
    · rw [if_pos hx] at h
      injection h with h
      exact ⟨0, by simpa using hx, by rw [← h]; rfl⟩
    · rw [if_neg hx, rnd_self hp hf16] at h
      obtain ⟨k, a, b⟩ := multiples_eq hp x fuel (16 * m) (16 * m :: acc) ms hf16 h
      exact ⟨k + 1, by rw [pow_succ]; linarith, by rw [b, tower_append]⟩

/-- `twoPiReduce` takes away a multiple of `2π`. -/
theorem reduce_err {c : Ctx} (hp : 16 ≤ c.p) (hpi : 3 ≤ c.pi) {fuel : ℕ} {x y : Fl} (hx : x.prec = c.p) (h0 : 0 ≤ x.val)
    (h : twoPiReduce c fuel x = .ok y) :
    0 ≤ y.val ∧ y.val < twoPi c ∧ y.val ≤ x.val ∧ ∃ j : ℕ, |y.val - (x.val - j * twoPi c)| ≤ 230 * 2 ^ (-(c.p : ℤ)) * x.val := by
  have h6 := twoPi_ge (by omega) hpi
  have hT : 0 < twoPi c := by linarith
  have hTf : IsFloat c.p (twoPi c) := rnd_isFloat (by omega) _
  have he := eps_pos c.p
  have hes : (2 : ℚ) ^ (-(c.p : ℤ)) ≤ 1 / 2 ^ 16 := eps_le hp
  have hex : 0 ≤ 2 ^ (-(c.p : ℤ)) * x.val := mul_nonneg he.le h0
  have h1000 : rnd c.p 1000 = 1000 := by
    apply rnd_self (by omega)
    refine ⟨125, 3, ?_, by norm_num⟩
    calc |(125 : ℤ)| < 2 ^ 7 := by norm_num
      _ ≤ 2 ^ c.p := pow_le_pow_right₀ (by norm_num) (by omega)
  unfold twoPiReduce at h
  obtain ⟨a, ha, h⟩ := bind_eq_ok h
  obtain ⟨b, hb, h⟩ := bind_eq_ok h
  injection h with h
  subst h
  change (if rnd c.p 1000 < x.val then (multiples c.p x.val fuel (rnd c.p (twoPi c)) []).bind fun ms => subtractAll x.prec fuel ms x.val else .ok x.val) = .ok a at ha
  change subtractLoop x.prec (twoPi c) fuel a = .ok b at hb
  rw [h1000, rnd_self (by omega) hTf] at ha
  rw [hx] at ha hb
  show 0 ≤ b ∧ b < twoPi c ∧ b ≤ x.val ∧ ∃ j : ℕ, |b - (x.val - j * twoPi c)| ≤ 230 * 2 ^ (-(c.p : ℤ)) * x.val
  by_cases hbig : 1000 < x.val
  · rw [if_pos hbig] at ha
    obtain ⟨ms, hms, ha⟩ := bind_eq_ok ha
    obtain ⟨k, hk, rfl⟩ := multiples_eq (by omega) x.val fuel (twoPi c) [] ms hTf hms
    rw [List.append_nil] at ha
    obtain ⟨a0, ax, a16, j, hj⟩ := subtractAll_err hp hT k x.val a h0 hk ha
    obtain ⟨b0, bT, ba, j', hj', -, -⟩ := subtract_err' (K := 16) (by omega) hT (by norm_num) (by linarith) a0 a16.le hb
    refine ⟨b0, bT, by linarith, j + j', ?_⟩
    have h5 : |b - (x.val - ((j + j' : ℕ) : ℚ) * twoPi c)| ≤ |b - (a - j' * twoPi c)| + |a - (x.val - j * twoPi c)| := by
      have := abs_add_le (b - (a - j' * twoPi c)) (a - (x.val - j * twoPi c))
      rw [show b - (a - j' * twoPi c) + (a - (x.val - j * twoPi c)) = b - (x.val - ((j + j' : ℕ) : ℚ) * twoPi c) by push_cast; ring] at this
      exact this
    have h7 : 2 ^ (-(c.p : ℤ)) * a ≤ 2 ^ (-(c.p : ℤ)) * x.val := mul_le_mul_of_nonneg_left ax he.le
    linarith
  · rw [if_neg hbig] at ha
    injection ha with ha
    subst ha
    obtain ⟨b0, bT, ba, j, hj, -, -⟩ := subtract_err' (K := 170) (by omega) hT (by norm_num) (by linarith) h0 (by linarith) hb
    exact ⟨b0, bT, ba, j, by linarith⟩

theorem eps_cast (p : ℕ) : (((2 : ℚ) ^ (-(p : ℤ)) : ℚ) : ℝ) = eps p := by
  unfold eps
  push_cast
  rfl

/-- `π` to the precision in use. -/
def PiOk (c : Ctx) : Prop := |(c.pi : ℝ) - Real.pi| ≤ 4 * eps c.p

theorem pi_ge {c : Ctx} (hp : 16 ≤ c.p) (h : PiOk c) : 3 ≤ c.pi ∧ c.pi ≤ 63 / 20 := by
  have h1 := eps_real c.p
  have h2 : eps c.p ≤ 1 / 2 ^ 16 := by
    rw [← eps_cast]
    have := eps_le hp
    have h3 : (((2 : ℚ) ^ (-(c.p : ℤ)) : ℚ) : ℝ) ≤ ((1 / 2 ^ 16 : ℚ) : ℝ) := by exact_mod_cast this
    refine le_trans h3 ?_
    norm_num
  have h3 := Real.pi_gt_d2
  have h4 := Real.pi_lt_d4
  have h5 := abs_le.1 h
  constructor
  · have : (3 : ℝ) ≤ c.pi := by linarith [h5.1]
    exact_mod_cast this
  · have : (c.pi : ℝ) ≤ ((63 / 20 : ℚ) : ℝ) := by push_cast; linarith [h5.2]
    exact_mod_cast this

theorem twoPi_err {c : Ctx} (hp : 16 ≤ c.p) (h : PiOk c) : |(twoPi c : ℝ) - 2 * Real.pi| ≤ 15 * eps c.p ∧ (twoPi c : ℝ) ≤ 32 / 5 := by
  have he := eps_real c.p
  have h2 : eps c.p ≤ 1 / 2 ^ 16 := by
    rw [← eps_cast]
    have := eps_le hp
    have h3 : (((2 : ℚ) ^ (-(c.p : ℤ)) : ℚ) : ℝ) ≤ ((1 / 2 ^ 16 : ℚ) : ℝ) := by exact_mod_cast this
    refine le_trans h3 ?_
    norm_num
  obtain ⟨h3, h4⟩ := pi_ge hp h
  have h5 := rnd_err c.p (2 * c.pi)
  have e : twoPi c = rnd c.p (2 * c.pi) := by
    unfold twoPi mul
    rw [rnd_two (by omega), rnd_two (by omega)]
  rw [← e, abs_of_nonneg (by linarith : (0 : ℚ) ≤ 2 * c.pi)] at h5
  have h6 : |(twoPi c : ℝ) - 2 * c.pi| ≤ 2 * c.pi * eps c.p := by
    rw [← eps_cast]
    exact_mod_cast h5
  have h7 : (c.pi : ℝ) ≤ 63 / 20 := by
    have : (c.pi : ℝ) ≤ ((63 / 20 : ℚ) : ℝ) := by exact_mod_cast h4
    refine le_trans this (by norm_num)
  have h8 := abs_le.1 h
  have h9 := abs_le.1 h6
  have h10 : 2 * (c.pi : ℝ) * eps c.p ≤ 63 / 10 * eps c.p := mul_le_mul_of_nonneg_right (by linarith) he.le
  refine ⟨abs_le.2 ⟨by linarith [h8.1, h9.1], by linarith [h8.2, h9.2]⟩, by linarith [h9.2]⟩

/-- The reduction, in terms of the number `π`. -/
theorem reduce_real {c : Ctx} (hp : 16 ≤ c.p) (hpi : PiOk c) {fuel : ℕ} {x y : Fl} (hx : x.prec = c.p) (h0 : 0 ≤ x.val)
    (h : twoPiReduce c fuel x = .ok y) :
    0 ≤ y.val ∧ (y.val : ℝ) ≤ 32 / 5 ∧ y.val ≤ x.val ∧ ∃ j : ℕ, |(y.val : ℝ) - (x.val - j * (2 * Real.pi))| ≤ 233 * eps c.p * x.val := by
  obtain ⟨hge, -⟩ := pi_ge hp hpi
  obtain ⟨y0, yT, yx, j, hj⟩ := reduce_err hp hge hx h0 h
  obtain ⟨h1, h2⟩ := twoPi_err hp hpi
  have h6 := twoPi_ge (by omega) hge
  have h6r : (6 : ℝ) ≤ twoPi c := by exact_mod_cast h6
  have he := eps_real c.p
  have hes : eps c.p ≤ 1 / 2 ^ 16 := by
    rw [← eps_cast]
    have := eps_le hp
    have h3 : (((2 : ℚ) ^ (-(c.p : ℤ)) : ℚ) : ℝ) ≤ ((1 / 2 ^ 16 : ℚ) : ℝ) := by exact_mod_cast this
    refine le_trans h3 ?_
    norm_num
  have hyT : (y.val : ℝ) < twoPi c := by exact_mod_cast yT
  have hx0 : (0 : ℝ) ≤ x.val := by exact_mod_cast h0
  have hy0 : (0 : ℝ) ≤ y.val := by exact_mod_cast y0
  have hjr : |(y.val : ℝ) - (x.val - j * twoPi c)| ≤ 230 * eps c.p * x.val := by
    rw [← eps_cast]
    exact_mod_cast hj
  refine ⟨y0, by linarith, yx, j, ?_⟩
  have hex : 0 ≤ eps c.p * x.val := mul_nonneg he.le hx0
  have hxs : eps c.p * x.val ≤ 1 / 2 ^ 16 * x.val := mul_le_mul_of_nonneg_right hes hx0
  have hj0 : (0 : ℝ) ≤ j := by positivity
  have hj1 : (j : ℝ) * 5 ≤ x.val := by
    have := (abs_le.1 hjr).2
    nlinarith
  have h3 : |(j : ℝ) * (twoPi c - 2 * Real.pi)| ≤ 3 * (eps c.p * x.val) := by
    rw [abs_mul, abs_of_nonneg hj0]
    calc (j : ℝ) * |(twoPi c : ℝ) - 2 * Real.pi| ≤ j * (15 * eps c.p) := mul_le_mul_of_nonneg_left h1 hj0
      _ = 3 * (eps c.p * (j * 5)) := by ring
      _ ≤ 3 * (eps c.p * x.val) := by
        have := mul_le_mul_of_nonneg_left hj1 he.le
        linarith
  have h4 := abs_sub ((y.val : ℝ) - (x.val - j * twoPi c)) (j * (twoPi c - 2 * Real.pi))
  rw [show (y.val : ℝ) - (x.val - j * twoPi c) - (j * (twoPi c - 2 * Real.pi)) = y.val - (x.val - j * (2 * Real.pi)) by ring] at h4
  linarith

end Verif.Flt
