import Mathlib.Analysis.SpecialFunctions.Complex.LogBounds
import Verif.Cell.InverseLemmas

/-!
# Lemmas on the inverse sines and cosines
-/

namespace Verif.Cell
open Verif.Arr (R)
open Verif.Flt

/-- Numbers in the same quadrant do not cancel. -/
theorem norm_le_add {x y : ℂ} (h1 : 0 ≤ x.re * y.re) (h2 : 0 ≤ x.im * y.im) : ‖x‖ ≤ ‖x + y‖ := by
  refine (sq_le_sq₀ (norm_nonneg _) (norm_nonneg _)).1 ?_
  rw [← Complex.normSq_eq_norm_sq, ← Complex.normSq_eq_norm_sq, Complex.normSq_apply, Complex.normSq_apply, Complex.add_re, Complex.add_im]
  nlinarith [mul_self_nonneg y.re, mul_self_nonneg y.im]

theorem sq_parts {s z : ℂ} (h : s ^ 2 = z) : s.re ^ 2 - s.im ^ 2 = z.re ∧ 2 * (s.re * s.im) = z.im := by
  subst h
  rw [sq s, Complex.mul_re, Complex.mul_im]
  constructor <;> ring

/-- There is a root in the right half plane. -/
theorem exists_root (z : ℂ) : ∃ s : ℂ, s ^ 2 = z ∧ 0 ≤ s.re := by
  obtain ⟨s, hs⟩ := IsAlgClosed.exists_pow_nat_eq z (show 0 < 2 by norm_num)
  rcases le_total 0 s.re with h | h
  · exact ⟨s, hs, h⟩
  · exact ⟨-s, by rw [neg_sq, hs], by rw [Complex.neg_re]; linarith⟩

/-- The root of an exact number that is not real. -/
theorem root_err {c : Ctx} (hp : 16 ≤ c.p) {x y : ℚ} (hy : y ≠ 0) {fuel : ℕ} (hfu : 10 + c.p ≤ fuel) {r : PS × PS} (h : complexSqrt c fuel (.exact x) (.exact y) = .ok r)
    {s : ℂ} (hs : s ^ 2 = ⟨x, y⟩) (h0 : 0 ≤ s.re) : ‖toC r - s‖ ≤ 7 * √(eps c.p) * ‖s‖ := by
  have he := eps_real c.p
  obtain ⟨-, -, -, hes⟩ := consts_small hp 0 (k := 0) le_rfl (by norm_num)
  have ex : |((rnd c.p x : ℚ) : ℝ) - x| ≤ eps c.p * |(x : ℝ)| := rnd_err_real c.p x
  have ey : |((rnd c.p y : ℚ) : ℝ) - y| ≤ eps c.p * |(y : ℝ)| := rnd_err_real c.p y
  have hy' : (0 : ℝ) < |(y : ℝ)| := abs_pos.2 (by exact_mod_cast hy)
  have hyy : 0 < ((rnd c.p y : ℚ) : ℝ) * y := by
    have h1 : -(|((rnd c.p y : ℚ) : ℝ) - y| * |(y : ℝ)|) ≤ (((rnd c.p y : ℚ) : ℝ) - y) * y := by rw [← abs_mul]; exact neg_abs_le _
    have h2 : |((rnd c.p y : ℚ) : ℝ) - y| * |(y : ℝ)| ≤ eps c.p * |(y : ℝ)| * |(y : ℝ)| := mul_le_mul_of_nonneg_right ey hy'.le
    have h3 : |(y : ℝ)| * |(y : ℝ)| = y * y := abs_mul_abs_self _
    have h4 : 0 < |(y : ℝ)| * |(y : ℝ)| := by positivity
    nlinarith
  have hy2 : rnd c.p y ≠ 0 := by
    intro hc
    rw [hc] at hyy
    simp at hyy
  obtain ⟨t, ht, ht0⟩ := exists_root ⟨(rnd c.p x : ℚ), (rnd c.p y : ℚ)⟩
  obtain ⟨e1, e2, -, -⟩ := complexSqrt_err (c := c) hp (re := .exact x) (im := .exact y) rfl rfl hy2 hfu h ht ht0
  have p1 := (sq_parts hs).2
  have p2 := (sq_parts ht).2
  simp only at p1 p2
  have him : 0 ≤ s.im * t.im := by
    by_contra hc
    have hc := not_le.1 hc
    have : 0 ≤ s.re * t.re := mul_nonneg h0 ht0
    rw [← p1, ← p2] at hyy
    nlinarith
  have hst : ‖s‖ ≤ ‖s + t‖ := norm_le_add (mul_nonneg h0 ht0) him
  have hsn : |(x : ℝ)| + |(y : ℝ)| ≤ 2 * (‖s‖ * ‖s‖) := by
    have e : ‖s‖ * ‖s‖ = ‖(⟨x, y⟩ : ℂ)‖ := by rw [← hs, norm_pow, sq]
    rw [e]
    have a1 := Complex.abs_re_le_norm (⟨x, y⟩ : ℂ)
    have a2 := Complex.abs_im_le_norm (⟨x, y⟩ : ℂ)
    simp only at a1 a2
    linarith
  have hd : ‖t - s‖ * ‖s + t‖ ≤ 2 * eps c.p * (‖s‖ * ‖s‖) := by
    rw [← norm_mul, show (t - s) * (s + t) = t ^ 2 - s ^ 2 by ring, ht, hs]
    refine (Complex.norm_le_abs_re_add_abs_im _).trans ?_
    rw [Complex.sub_re, Complex.sub_im]
    simp only
    have := mul_le_mul_of_nonneg_left hsn he.le
    linarith
  have hs0 : 0 < ‖s‖ := by
    rw [norm_pos_iff]
    rintro rfl
    simp at p1
    exact hy (by exact_mod_cast p1.symm)
  have hts : ‖t - s‖ ≤ 2 * eps c.p * ‖s‖ := by
    have h1 : ‖t - s‖ * ‖s‖ ≤ ‖t - s‖ * ‖s + t‖ := mul_le_mul_of_nonneg_left hst (norm_nonneg _)
    have h2 : ‖t - s‖ * ‖s‖ ≤ 2 * eps c.p * ‖s‖ * ‖s‖ := by linarith
    exact le_of_mul_le_mul_right h2 hs0
  have hr : ‖toC r - t‖ ≤ 6 * √(eps c.p) * ‖t‖ := by
    refine (Complex.norm_le_abs_re_add_abs_im _).trans ?_
    rw [Complex.sub_re, Complex.sub_im]
    change |(r.1.val : ℝ) - t.re| + |(r.2.val : ℝ) - t.im| ≤ _
    linarith
  have h1 := norm_add_le (toC r - t) (t - s)
  rw [sub_add_sub_cancel] at h1
  have h2 := norm_add_le (t - s) s
  rw [sub_add_cancel] at h2
  have hq : eps c.p = √(eps c.p) * √(eps c.p) := (Real.mul_self_sqrt he.le).symm
  have hq0 : 0 < √(eps c.p) := Real.sqrt_pos.2 he
  have hq1 : √(eps c.p) ≤ 1 / 31 := by
    rw [Real.sqrt_le_left (by norm_num)]
    refine hes.trans ?_
    norm_num
  generalize √(eps c.p) = q at *
  rw [hq] at hts
  have h3 : ‖t‖ ≤ (1 + 2 * (q * q)) * ‖s‖ := by linarith
  have h4 : 6 * q * ‖t‖ ≤ 6 * q * ((1 + 2 * (q * q)) * ‖s‖) := mul_le_mul_of_nonneg_left h3 (by positivity)
  have h5 : 6 * q * (1 + 2 * (q * q)) + 2 * (q * q) ≤ 7 * q := by nlinarith
  have h6 := mul_le_mul_of_nonneg_right h5 hs0.le
  linarith

/-- The sum of an exact number and a root in the same quadrant. -/
theorem join_err {c : Ctx} (hp : 16 ≤ c.p) {r u : PS × PS} {s : ℂ} (hr : ‖toC r - s‖ ≤ 7 * √(eps c.p) * ‖s‖) (h1 : 0 ≤ s.re * (toC u).re) (h2 : 0 ≤ s.im * (toC u).im) :
    ‖toC (cAdd c r u) - (s + toC u)‖ ≤ 8 * √(eps c.p) * ‖s + toC u‖ := by
  have he := eps_real c.p
  have hes : eps c.p ≤ 1 / 65536 := by
    have h1 := p_eps hp
    have h3 : (16 : ℝ) ≤ c.p := by exact_mod_cast hp
    have h2 : 17 * eps c.p ≤ ((c.p : ℝ) + 1) * eps c.p := mul_le_mul_of_nonneg_right (by linarith) he.le
    linarith
  have hq : eps c.p = √(eps c.p) * √(eps c.p) := (Real.mul_self_sqrt he.le).symm
  have hq0 : 0 < √(eps c.p) := Real.sqrt_pos.2 he
  have hq1 : √(eps c.p) ≤ 1 / 256 := by
    rw [Real.sqrt_le_left (by norm_num)]
    refine hes.trans ?_
    norm_num
  have hes' : eps c.p ≤ 1 / 1000 := hes.trans (by norm_num)
  have s1 := addS_err (c := c) hes' (f := (· + ·)) (g := (· + ·)) (fun a b => by push_cast; rfl) (Or.inl fun _ _ => rfl) r.1 u.1
  have s2 := addS_err (c := c) hes' (f := (· + ·)) (g := (· + ·)) (fun a b => by push_cast; rfl) (Or.inl fun _ _ => rfl) r.2 u.2
  have a1 : |(r.1.val : ℝ)| ≤ ‖toC r‖ := Complex.abs_re_le_norm (toC r)
  have a2 : |(r.2.val : ℝ)| ≤ ‖toC r‖ := Complex.abs_im_le_norm (toC r)
  have a3 : |(u.1.val : ℝ)| ≤ ‖toC u‖ := Complex.abs_re_le_norm (toC u)
  have a4 : |(u.2.val : ℝ)| ≤ ‖toC u‖ := Complex.abs_im_le_norm (toC u)
  have n1 : ‖s‖ ≤ ‖s + toC u‖ := norm_le_add h1 h2
  have n2 : ‖toC u‖ ≤ ‖s + toC u‖ := by rw [add_comm]; exact norm_le_add (by rw [mul_comm]; exact h1) (by rw [mul_comm]; exact h2)
  have hsum : ‖toC (cAdd c r u) - (toC r + toC u)‖ ≤ 21 / 5 * eps c.p * (‖toC r‖ + ‖toC u‖) := by
    refine (Complex.norm_le_abs_re_add_abs_im _).trans ?_
    rw [Complex.sub_re, Complex.sub_im, Complex.add_re, Complex.add_im]
    change |((arith c (· + ·) r.1 u.1).val : ℝ) - ((r.1.val : ℝ) + u.1.val)| + |((arith c (· + ·) r.2 u.2).val : ℝ) - ((r.2.val : ℝ) + u.2.val)| ≤ _
    have b1 : 21 / 10 * eps c.p * (|(r.1.val : ℝ)| + |(u.1.val : ℝ)|) ≤ 21 / 10 * eps c.p * (‖toC r‖ + ‖toC u‖) := mul_le_mul_of_nonneg_left (by linarith) (by positivity)
    have b2 : 21 / 10 * eps c.p * (|(r.2.val : ℝ)| + |(u.2.val : ℝ)|) ≤ 21 / 10 * eps c.p * (‖toC r‖ + ‖toC u‖) := mul_le_mul_of_nonneg_left (by linarith) (by positivity)
    linarith
  have t1 := norm_add_le (toC r - s) s
  rw [sub_add_cancel] at t1
  have t2 := norm_add_le (toC (cAdd c r u) - (toC r + toC u)) (toC r - s)
  rw [show toC (cAdd c r u) - (toC r + toC u) + (toC r - s) = toC (cAdd c r u) - (s + toC u) by ring] at t2
  rw [hq] at hsum
  have hs0 := norm_nonneg s
  have hu0 := norm_nonneg (toC u)
  generalize √(eps c.p) = q at *
  generalize ‖s + toC u‖ = N at *
  have k1 : 7 * q * ‖s‖ ≤ 7 * q * N := mul_le_mul_of_nonneg_left n1 (by positivity)
  have hN : 0 ≤ N := hs0.trans n1
  have k0 : q * N ≤ 1 / 256 * N := mul_le_mul_of_nonneg_right hq1 hN
  have k2 : ‖toC r‖ + ‖toC u‖ ≤ 21 / 10 * N := by linarith
  have k3 : 21 / 5 * (q * q) * (‖toC r‖ + ‖toC u‖) ≤ 21 / 5 * (q * q) * (21 / 10 * N) := mul_le_mul_of_nonneg_left k2 (by positivity)
  have k4 : q * (q * N) ≤ q * (1 / 256 * N) := mul_le_mul_of_nonneg_left k0 hq0.le
  have k5 : 0 ≤ q * N := by positivity
  nlinarith

/-- The logarithm of a number in the right half plane with a relative error. -/
theorem log_near {Q Q' : ℂ} (h0 : 0 < Q.re) {δ : ℝ} (hδ : δ ≤ 1 / 4) (h : ‖Q' - Q‖ ≤ δ * ‖Q‖) : Q' ≠ 0 ∧ ‖Complex.log Q' - Complex.log Q‖ ≤ 3 / 2 * δ := by
  have hQ : Q ≠ 0 := by rintro rfl; simp at h0
  have hn : 0 < ‖Q‖ := norm_pos_iff.2 hQ
  have hd : ‖(Q' - Q) / Q‖ ≤ δ := by
    rw [norm_div, div_le_iff₀ hn]; exact h
  set d := (Q' - Q) / Q with hdd
  have e : Q' = Q * (1 + d) := by rw [hdd]; field_simp; ring
  have hre : 0 < (1 + d).re := by
    have := (abs_le.1 (Complex.abs_re_le_norm d)).1
    rw [Complex.add_re, Complex.one_re]
    linarith
  have h1 : (1 + d) ≠ 0 := by intro hc; rw [hc] at hre; simp at hre
  have a1 := abs_lt.1 (Complex.abs_arg_lt_pi_div_two_iff.2 (Or.inl h0))
  have a2 := abs_lt.1 (Complex.abs_arg_lt_pi_div_two_iff.2 (Or.inl hre))
  refine ⟨by rw [e]; exact mul_ne_zero hQ h1, ?_⟩
  rw [e, Complex.log_mul hQ h1 ⟨by linarith, by linarith⟩, add_sub_cancel_left]
  have := Complex.norm_log_one_add_half_le_self (z := d) (by linarith)
  linarith

theorem eps_16 {p : ℕ} (hp : 16 ≤ p) : eps p ≤ 1 / 65536 := by
  have he := eps_real p
  have h1 := p_eps hp
  have h3 : (16 : ℝ) ≤ p := by exact_mod_cast hp
  have h2 : 17 * eps p ≤ ((p : ℝ) + 1) * eps p := mul_le_mul_of_nonneg_right (by linarith) he.le
  linarith

theorem sqrt_eps {p : ℕ} (hp : 16 ≤ p) : eps p = √(eps p) * √(eps p) ∧ 0 < √(eps p) ∧ √(eps p) ≤ 1 / 256 := by
  have he := eps_real p
  refine ⟨(Real.mul_self_sqrt he.le).symm, Real.sqrt_pos.2 he, ?_⟩
  rw [Real.sqrt_le_left (by norm_num)]
  refine (eps_16 hp).trans ?_
  norm_num

/-- The logarithm of a number that is near one in the right half plane. -/
theorem logOf_err {p : ℕ} (hp : 16 ≤ p) (hp' : p ≤ constPrecisionInBits) {h : Heap} (g : Good (ctxOf p) h) {q : PS × PS} {Q : ℂ} (h0 : 0 < Q.re) (hq : ‖toC q - Q‖ ≤ 8 * √(eps p) * ‖Q‖)
    {fuel : ℕ} (hfu : 12 + 40 * p ≤ fuel) :
    ∃ w h', logOf (ctxOf p) fuel q h = .ok (w, h') ∧ ‖toC w - Complex.log Q‖ ≤ 13 * √(eps p) + (570 * (p + 1) + 12 * ‖Complex.log Q‖) * eps p := by
  obtain ⟨q0, q1, q2⟩ := sqrt_eps hp
  obtain ⟨n0, n1⟩ := log_near h0 (by linarith) hq
  obtain ⟨s, l, a1, a2, -⟩ := newS_spec q.1 h
  obtain ⟨t, m, b1, b2, -⟩ := newS_spec q.2 (h ++ l)
  have g' : Good (ctxOf p) (h ++ l ++ m) := (g.keep (Nat.le_refl _) (Keep.alloc (Nat.le_refl _) l)).keep (Nat.le_refl _) (Keep.alloc (Nat.le_refl _) m)
  have a3 : ReadsS (h ++ l ++ m) s q.1 := a2.keep (Keep.alloc (Nat.le_refl _) m) (Nat.le_refl _)
  have hxy : q.1.val ≠ 0 ∨ q.2.val ≠ 0 := by
    by_contra hc
    push Not at hc
    apply n0
    unfold toC
    rw [hc.1, hc.2]
    apply Complex.ext <;> simp
  obtain ⟨lg, h', w, e1, e2, e3, e4⟩ := complexLog_err hp hp' g' a3 b2 hxy hfu
  refine ⟨w, h', ?_, ?_⟩
  · unfold logOf
    rw [bind_ok a1, bind_ok b1, bind_ok e1, bind_ok (readS_ok e2), bind_ok (readS_ok e3)]
    rfl
  · change ‖toC w - Complex.log (toC q)‖ ≤ (570 * (p + 1) + 12 * ‖Complex.log (toC q)‖) * eps p at e4
    generalize Complex.log (toC q) = L' at *
    generalize Complex.log Q = L at *
    have t1 := norm_add_le (toC w - L') (L' - L)
    rw [sub_add_sub_cancel] at t1
    have t2 := norm_add_le (L' - L) L
    rw [sub_add_cancel] at t2
    have he := eps_real p
    have k1 : eps p * ‖L'‖ ≤ eps p * (‖L‖ + 12 * √(eps p)) := mul_le_mul_of_nonneg_left (by linarith) he.le
    have k2 : eps p * √(eps p) ≤ 1 / 65536 * √(eps p) := mul_le_mul_of_nonneg_right (eps_16 hp) q1.le
    nlinarith

/-- `log (√(u² + d) + u)` for an exact number `u` in the open right half plane that is not real. -/
theorem arc_err {p : ℕ} (hp : 16 ≤ p) (hp' : p ≤ constPrecisionInBits) {h : Heap} (g : Good (ctxOf p) h) {u x r : PS × PS} {U X : ℂ} (hu : Exactly u U) (hx : Exactly x X) {d : ℝ} (hd : X = U ^ 2 + d)
    (h0 : 0 < U.re) (h1 : U.im ≠ 0) {fuel : ℕ} (hfu : 12 + 40 * p ≤ fuel) (hr : complexSqrt (ctxOf p) fuel x.1 x.2 = .ok r) :
    ∃ s : ℂ, s ^ 2 = X ∧ 0 ≤ s.re ∧ 0 ≤ s.im * U.im ∧ ∃ w h', logOf (ctxOf p) fuel (cAdd (ctxOf p) r u) h = .ok (w, h') ∧
      ‖toC w - Complex.log (s + U)‖ ≤ 13 * √(eps p) + (570 * (p + 1) + 12 * ‖Complex.log (s + U)‖) * eps p := by
  obtain ⟨s, s1, s2⟩ := exists_root X
  have him : X.im = 2 * (U.re * U.im) := by
    rw [hd, sq, Complex.add_im, Complex.mul_im, Complex.ofReal_im]; ring
  have p1 := (sq_parts s1).2
  rw [him] at p1
  have hsu : 0 ≤ s.im * U.im := by
    by_contra hc
    have hc := not_le.1 hc
    have e : s.re * (s.im * U.im) = U.re * (U.im * U.im) := by linear_combination U.im / 2 * p1
    have e1 : s.re * (s.im * U.im) ≤ 0 := mul_nonpos_of_nonneg_of_nonpos s2 hc.le
    have e2 : 0 < U.re * (U.im * U.im) := mul_pos h0 (mul_self_pos.2 h1)
    linarith
  refine ⟨s, s1, s2, hsu, ?_⟩
  have hu' : toC u = U := by obtain ⟨a, b, rfl, rfl⟩ := hu; rfl
  obtain ⟨a, b, rfl, rfl⟩ := hx
  have hb : b ≠ 0 := by
    rintro rfl
    simp only [Rat.cast_zero] at him
    have : U.re * U.im ≠ 0 := mul_ne_zero h0.ne' h1
    apply this
    linarith
  have hroot := root_err (c := ctxOf p) hp hb (by show 10 + p ≤ fuel; omega) hr s1 s2
  have hj := join_err (c := ctxOf p) (u := u) hp hroot (by rw [hu']; exact mul_nonneg s2 h0.le) (by rw [hu']; exact hsu)
  rw [hu'] at hj
  exact logOf_err hp hp' g (by rw [Complex.add_re]; linarith) hj hfu

end Verif.Cell
