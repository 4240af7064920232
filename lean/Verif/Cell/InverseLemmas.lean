import Mathlib.Analysis.SpecialFunctions.Complex.Arctan
import Verif.Cell.Inverse
import Verif.Cell.PowerLemmas
import Verif.Cell.Props3

/-!
# Lemmas on the inverse tangents
-/

namespace Verif.Cell
open Verif.Arr (R)
open Verif.Flt

theorem complexLog_sim (c : Ctx) (fuel : ℕ) {n : ℕ} {h : Heap} (g : Good c h) (hn : n ≤ h.length) {s t : Sc} {x y : PS} (rs : ReadsS h s x) (rt : ReadsS h t y) :
    Sim (complexLog c fuel s t h) ((cAbs c fuel (x, y)).bind fun a => (Spec.phaseC c fuel x y).bind fun ph => (realLog c fuel a).bind fun l => .ok (l, ph))
      (fun l p h' => ReadsS h' l.1 p.1 ∧ ReadsS h' l.2 p.2 ∧ Keep n h h') := by
  refine Sim.left (readS_ok rs) (Sim.left (readS_ok rt) (Sim.bind (sim_lift _ _) ?_))
  rintro a _ _ ⟨rfl, rfl⟩
  refine Sim.bind (phaseC_sim c fuel g hn rs rt) ?_
  rintro ph q H ⟨rp, k, _⟩
  refine Sim.bind (sim_lift _ _) ?_
  rintro l _ _ ⟨rfl, rfl⟩
  obtain ⟨l', m, e1, e2, _⟩ := newS_spec l ‹Heap›
  refine Sim.left e1 ?_
  exact ⟨e2, rp.keep (Keep.alloc (Nat.le_refl _) m) (Nat.le_refl _), k.trans (Keep.alloc (Nat.le_trans hn k.1) m) (Nat.le_refl _)⟩

/-- The logarithm of a number that is not zero. -/
theorem complexLog_err {p : ℕ} (hp : 16 ≤ p) (hp' : p ≤ constPrecisionInBits) {h : Heap} (g : Good (ctxOf p) h) {s t : Sc} {x y : PS} (rs : ReadsS h s x) (rt : ReadsS h t y)
    (h0 : x.val ≠ 0 ∨ y.val ≠ 0) {fuel : ℕ} (hfu : 12 + 40 * p ≤ fuel) :
    ∃ l h' w, complexLog (ctxOf p) fuel s t h = .ok (l, h') ∧ ReadsS h' l.1 w.1 ∧ ReadsS h' l.2 w.2 ∧
      ‖toC w - Complex.log ⟨x.val, y.val⟩‖ ≤ (570 * (p + 1) + 12 * ‖Complex.log ⟨x.val, y.val⟩‖) * eps p := by
  have hz : (⟨x.val, y.val⟩ : ℂ) ≠ 0 := by
    intro hc
    have h1 := congrArg Complex.re hc
    have h2 := congrArg Complex.im hc
    simp only [Complex.zero_re, Complex.zero_im, Rat.cast_eq_zero] at h1 h2
    tauto
  have hm : 0 < ‖(⟨x.val, y.val⟩ : ℂ)‖ := norm_pos_iff.2 hz
  have he := eps_real p
  obtain ⟨a, a1, a2, a3, a4⟩ := cAbs_err (c := ctxOf p) hp (a := x) (b := y) h0 (fuel := fuel) (by show 10 + p ≤ fuel; omega)
  obtain ⟨q, s1, s2⟩ := phaseC_err (c := ctxOf p) hp (piOk hp') x y (fuel := fuel) (by show 12 + 4 * p ≤ fuel; omega)
  obtain ⟨l, l1, l2⟩ := realLog_err (c := ctxOf p) hp (logOk hp') a2 a3 hm a4 (fuel := fuel) (by show 10 + 40 * p ≤ fuel; omega)
  have hs := complexLog_sim (ctxOf p) fuel g (Nat.zero_le _) rs rt
  rw [a1, bindR_ok, s1, bindR_ok, l1, bindR_ok] at hs
  cases hr : complexLog (ctxOf p) fuel s t h with
  | ok r =>
    rw [hr] at hs
    refine ⟨r.1, r.2, (l, q), rfl, hs.1, hs.2.1, ?_⟩
    refine (Complex.norm_le_abs_re_add_abs_im _).trans ?_
    rw [Complex.sub_re, Complex.sub_im, Complex.log_im]
    have e1 : |Real.log ‖(⟨x.val, y.val⟩ : ℂ)‖| ≤ ‖Complex.log ⟨x.val, y.val⟩‖ := by
      rw [← Complex.log_re]; exact Complex.abs_re_le_norm _
    have e2 := mul_le_mul_of_nonneg_right e1 he.le
    rw [Complex.log_re]
    change |(l.val : ℝ) - _| + |(q.val : ℝ) - _| ≤ _
    have l3 : |(l.val : ℝ) - Real.log ‖(⟨x.val, y.val⟩ : ℂ)‖| ≤ (310 * (p + 1) + 12 * |Real.log ‖(⟨x.val, y.val⟩ : ℂ)‖|) * eps p := l2
    have s3 : |(q.val : ℝ) - Complex.arg ⟨x.val, y.val⟩| ≤ 260 * (p + 1) * eps p := s2
    linarith
  | err m => rw [hr] at hs; exact hs.elim
  | crash => rw [hr] at hs; exact hs.elim
  | hang => rw [hr] at hs; exact hs.elim

/-- Half of a logarithm, times a number of absolute value one. -/
theorem logTimes_err {p : ℕ} (hp : 16 ≤ p) (hp' : p ≤ constPrecisionInBits) {h : Heap} (g : Good (ctxOf p) h) {q : PS × PS} {Q : ℂ} (hq : Exactly q Q) (h0 : Q ≠ 0) (k : PS × PS)
    (hk : ‖toC k‖ = 1 / 2) {fuel : ℕ} (hfu : 12 + 40 * p ≤ fuel) :
    ∃ a b h' w, logTimes (ctxOf p) fuel q k h = .ok (.cplx a b, h') ∧ read (.cplx a b) h' = .ok (w, h') ∧
      ‖(⟨w.parts.1.val, w.parts.2.val⟩ : ℂ) - toC k * Complex.log Q‖ ≤ (300 * (p + 1) + 30 * ‖toC k * Complex.log Q‖) * eps p := by
  obtain ⟨x, y, rfl, rfl⟩ := hq
  have hxy : (PS.exact x).val ≠ 0 ∨ (PS.exact y).val ≠ 0 := by
    by_contra hc
    push Not at hc
    apply h0
    apply Complex.ext
    · show (x : ℝ) = 0; exact_mod_cast hc.1
    · show (y : ℝ) = 0; exact_mod_cast hc.2
  obtain ⟨l, h', w, e1, e2, e3, e4⟩ := complexLog_err hp hp' g (s := .exact x) (t := .exact y) (x := .exact x) (y := .exact y) rfl rfl hxy hfu
  obtain ⟨-, -, -, hes⟩ := consts_small hp 0 (k := 0) le_rfl (by norm_num)
  have hm := cMul_err (c := ctxOf p) hes w k
  have hnew := new_sim (n := 0) (h := h') (Nat.zero_le _) (.cplx (cMul (ctxOf p) w k).1 (cMul (ctxOf p) w k).2)
  cases hr : new (.cplx (cMul (ctxOf p) w k).1 (cMul (ctxOf p) w k).2) h' with
  | ok r =>
    rw [hr] at hnew
    obtain ⟨v, h''⟩ := r
    obtain ⟨r1, -, -⟩ := hnew
    cases v with
    | real _ => exact r1.elim
    | cplx a b =>
      refine ⟨a, b, h'', _, ?_, read_ok r1, ?_⟩
      · unfold logTimes
        rw [bind_ok (show newS (.exact x) h = .ok (.exact x, h) from rfl), bind_ok (show newS (.exact y) h = .ok (.exact y, h) from rfl), bind_ok e1, bind_ok (readS_ok e2), bind_ok (readS_ok e3)]
        exact hr
      · change ‖toC (cMul (ctxOf p) w k) - _‖ ≤ _
        change ‖toC w - Complex.log ⟨x, y⟩‖ ≤ (570 * (p + 1) + 12 * ‖Complex.log ⟨x, y⟩‖) * eps p at e4
        change ‖toC (cMul (ctxOf p) w k) - toC w * toC k‖ ≤ 11 * eps p * (‖toC w‖ * ‖toC k‖) at hm
        rw [norm_mul, hk]
        rw [hk] at hm
        have hpe := p_eps hp
        have he := eps_real p
        change eps p ≤ 1 / 1000 at hes
        generalize Complex.log ⟨x, y⟩ = L at *
        generalize toC (cMul (ctxOf p) w k) = r at *
        generalize toC w = W at *
        have h1 := norm_add_le (r - W * toC k) ((W - L) * toC k)
        rw [show r - W * toC k + (W - L) * toC k = r - toC k * L by ring, norm_mul, hk] at h1
        have h2 := norm_add_le (W - L) L
        rw [sub_add_cancel] at h2
        have hL := norm_nonneg L
        have h3 : eps p * ‖L‖ ≤ 1 / 1000 * ‖L‖ := mul_le_mul_of_nonneg_right hes hL
        have h4 : ‖W‖ ≤ 2 + 11 / 10 * ‖L‖ := by
          have : (570 * ((p : ℝ) + 1) + 12 * ‖L‖) * eps p = 570 * (((p : ℝ) + 1) * eps p) + 12 * (eps p * ‖L‖) := by ring
          nlinarith
        have h5 : eps p * ‖W‖ ≤ eps p * (2 + 11 / 10 * ‖L‖) := mul_le_mul_of_nonneg_left h4 he.le
        have hp1 : (17 : ℝ) ≤ p + 1 := by
          have : (16 : ℝ) ≤ p := by exact_mod_cast hp
          linarith
        have h6 : 17 * eps p ≤ (p + 1) * eps p := mul_le_mul_of_nonneg_right hp1 he.le
        have h7 : 0 ≤ eps p * ‖L‖ := by positivity
        nlinarith
  | err m => rw [hr] at hnew; exact hnew.elim
  | crash => rw [hr] at hnew; exact hnew.elim
  | hang => rw [hr] at hnew; exact hnew.elim

/-- The quotient of exact numbers is exact. -/
theorem cDiv_exact (c : Ctx) {a b : PS × PS} {A B : ℂ} (ha : Exactly a A) (hb : Exactly b B) (h0 : B ≠ 0) : ∃ r, cDiv c a b = .ok r ∧ Exactly r (A / B) := by
  obtain ⟨x, y, rfl, rfl⟩ := ha
  obtain ⟨q, r, rfl, rfl⟩ := hb
  have hqr : ¬ (q = 0 ∧ r = 0) := by
    rintro ⟨h1, h2⟩
    apply h0
    rw [h1, h2]
    apply Complex.ext <;> simp
  have hn : q * q + r * r ≠ 0 := by
    intro h
    have h1 := mul_self_nonneg q
    have h2 := mul_self_nonneg r
    exact hqr ⟨mul_self_eq_zero.1 (by linarith), mul_self_eq_zero.1 (by linarith)⟩
  have hnR : (q : ℝ) * q + r * r ≠ 0 := by exact_mod_cast hn
  unfold cDiv
  rw [if_neg (show ¬ ((PS.exact q).val = 0 ∧ (PS.exact r).val = 0) from hqr)]
  by_cases hr : r = 0
  · rw [if_pos (show (PS.exact r).val = 0 from hr)]
    subst hr
    have hq : q * q ≠ 0 := by intro h; exact hn (by rw [h]; ring)
    have hq1 : (q : ℝ) ≠ 0 := by intro h; exact hnR (by rw [h]; simp)
    simp only [divide, arith, if_neg hq, bindR_ok]
    refine ⟨_, rfl, _, _, rfl, ?_⟩
    rw [eq_div_iff h0]
    apply Complex.ext
    · rw [Complex.mul_re]; push_cast; field_simp; ring
    · rw [Complex.mul_im]; push_cast; field_simp; ring
  · rw [if_neg (show ¬ (PS.exact r).val = 0 from hr)]
    simp only [divide, norm, arith, if_neg hn, bindR_ok]
    refine ⟨_, rfl, _, _, rfl, ?_⟩
    rw [eq_div_iff h0]
    apply Complex.ext
    · rw [Complex.mul_re]; push_cast; field_simp; ring
    · rw [Complex.mul_im]; push_cast; field_simp; ring

theorem Exactly.add {c : Ctx} {a b : PS × PS} {A B : ℂ} (ha : Exactly a A) (hb : Exactly b B) : Exactly (cAdd c a b) (A + B) := by
  obtain ⟨q, r, rfl, rfl⟩ := ha
  obtain ⟨s, t, rfl, rfl⟩ := hb
  refine ⟨q + s, r + t, rfl, ?_⟩
  apply Complex.ext
  · rw [Complex.add_re]; push_cast; rfl
  · rw [Complex.add_im]; push_cast; rfl

theorem Exactly.sub {c : Ctx} {a b : PS × PS} {A B : ℂ} (ha : Exactly a A) (hb : Exactly b B) : Exactly (cSub c a b) (A - B) := by
  obtain ⟨q, r, rfl, rfl⟩ := ha
  obtain ⟨s, t, rfl, rfl⟩ := hb
  refine ⟨q - s, r - t, rfl, ?_⟩
  apply Complex.ext
  · rw [Complex.sub_re]; push_cast; rfl
  · rw [Complex.sub_im]; push_cast; rfl

/-- Half of the logarithm of `(1 + z) / (1 - z)` has the hyperbolic tangent `z`. -/
theorem tanh_half_log {z : ℂ} (h1 : z ≠ 1) (h2 : z ≠ -1) : Complex.tanh (1 / 2 * Complex.log ((1 + z) / (1 - z))) = z := by
  have hI : Complex.I * Complex.I = -1 := Complex.I_mul_I
  have e : 1 / 2 * Complex.log ((1 + z) / (1 - z)) = Complex.arctan (-(Complex.I * z)) * Complex.I := by
    unfold Complex.arctan
    rw [show -(Complex.I * z) * Complex.I = z by linear_combination -z * hI]
    linear_combination 1 / 2 * Complex.log ((1 + z) / (1 - z)) * hI
  rw [e, Complex.tanh_mul_I, Complex.tan_arctan]
  · linear_combination -z * hI
  · intro hc
    apply h2
    linear_combination Complex.I * hc + (z + 1) * hI
  · intro hc
    apply h1
    linear_combination Complex.I * hc + (z - 1) * hI

end Verif.Cell
