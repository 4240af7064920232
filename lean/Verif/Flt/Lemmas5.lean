import Verif.Flt.Lemmas4

/-! # The square root always converges -/

namespace Verif.Flt
open Spec
open Verif.Arr (R)

/-- Two numbers near the root are the same or neighbours, but for one case at a power of two. -/
theorem pair {p : ℕ} (hp : 12 ≤ p) {w r : ℚ} (hw : IsFloat p w) (hr : IsFloat p r) (hw0 : 0 < w) (hr0 : 0 < r)
    (h : |w - r| ≤ 9 / 10 * (2 ^ (expo w - (p : ℤ)) + 2 ^ (expo r - (p : ℤ)))) :
    |w - r| ≤ 2 ^ (expo r - (p : ℤ)) ∨ ((∃ e : ℤ, w = 2 ^ e) ∧ ¬ ∃ e : ℤ, r = 2 ^ e) := by
  have hew := expo_spec w hw0.ne'
  have her := expo_spec r hr0.ne'
  obtain ⟨k, hk⟩ := isFloat_mult hw hew.1
  obtain ⟨l, hl⟩ := isFloat_mult hr her.1
  rw [abs_of_pos hw0] at hew
  rw [abs_of_pos hr0] at her
  have h4096 : ∀ e : ℤ, (2 : ℚ) ^ (e - (p : ℤ)) ≤ 2 ^ e * (1 / 4096) := by
    intro e
    rw [show e - (p : ℤ) = e + -(p : ℤ) by ring, zpow_add₀ (by norm_num)]
    apply mul_le_mul_of_nonneg_left _ (by positivity)
    have := eps_le (k := 12) hp
    norm_num at this ⊢
    exact this
  have hE1 : ∀ e : ℤ, (2 : ℚ) ^ (e - 1) = 2 ^ e / 2 := by intro e; rw [zpow_sub_one₀ (by norm_num)]; ring
  have hu := two_zpow_pos (expo r - (p : ℤ))
  have habs := abs_le.1 h
  have h1w := h4096 (expo w)
  have h1r := h4096 (expo r)
  have hTw := two_zpow_pos (expo w)
  have hTr := two_zpow_pos (expo r)
  rw [hE1] at hew her
  rcases lt_trichotomy (expo w) (expo r) with hlt | heq | hgt
  · -- the new root is above a power of two
    left
    have hee : expo w = expo r - 1 := by
      by_contra hne
      have h2 : (2 : ℚ) ^ expo w ≤ 2 ^ (expo r - 2) := zpow_le_zpow_right₀ (by norm_num) (by omega)
      have h3 : (2 : ℚ) ^ (expo r - 2) = 2 ^ expo r / 4 := by
        rw [zpow_sub₀ (by norm_num)]; norm_num
      linarith [habs.1]
    have hu2 : (2 : ℚ) ^ (expo w - (p : ℤ)) = 2 ^ (expo r - (p : ℤ)) / 2 := by
      rw [hee, show expo r - 1 - (p : ℤ) = expo r - (p : ℤ) - 1 by ring, hE1]
    rw [hu2] at h hk
    generalize (2 : ℚ) ^ (expo r - (p : ℤ)) = u at *
    have e1 : w - r = ((k - 2 * l : ℤ) : ℚ) * (u / 2) := by push_cast; rw [hk, hl]; ring
    rw [e1, abs_mul, abs_of_pos (by linarith : 0 < u / 2)] at h ⊢
    have h5 : (|((k - 2 * l : ℤ) : ℚ)|) ≤ 27 / 10 := by
      by_contra hc; have hc := not_le.1 hc; nlinarith
    have h6 : |k - 2 * l| ≤ 2 := by
      have : ((|k - 2 * l| : ℤ) : ℚ) < 3 := by push_cast at h5 ⊢; linarith
      have : |k - 2 * l| < 3 := by exact_mod_cast this
      omega
    have h7 : ((|k - 2 * l| : ℤ) : ℚ) ≤ 2 := by exact_mod_cast h6
    push_cast at h7 ⊢
    nlinarith
  · left
    rw [heq] at hk h
    generalize (2 : ℚ) ^ (expo r - (p : ℤ)) = u at *
    have e1 : w - r = ((k - l : ℤ) : ℚ) * u := by push_cast; rw [hk, hl]; ring
    rw [e1, abs_mul, abs_of_pos hu] at h ⊢
    have h5 : (|((k - l : ℤ) : ℚ)|) ≤ 18 / 10 := by
      by_contra hc; have hc := not_le.1 hc; nlinarith
    have h6 : |k - l| ≤ 1 := by
      have : ((|k - l| : ℤ) : ℚ) < 2 := by push_cast at h5 ⊢; linarith
      have : |k - l| < 2 := by exact_mod_cast this
      omega
    have h7 : ((|k - l| : ℤ) : ℚ) ≤ 1 := by exact_mod_cast h6
    push_cast at h7 ⊢
    nlinarith
  · -- the new root is below a power of two
    have hee : expo w = expo r + 1 := by
      by_contra hne
      have h2 : (2 : ℚ) ^ (expo r + 2) ≤ 2 ^ expo w := zpow_le_zpow_right₀ (by norm_num) (by omega)
      have h3 : (2 : ℚ) ^ (expo r + 2) = 2 ^ expo r * 4 := by
        rw [zpow_add₀ (by norm_num)]; norm_num
      linarith [habs.2]
    have hu2 : (2 : ℚ) ^ (expo w - (p : ℤ)) = 2 * 2 ^ (expo r - (p : ℤ)) := by
      rw [hee, show expo r + 1 - (p : ℤ) = expo r - (p : ℤ) + 1 by ring, zpow_add_one₀ (by norm_num)]; ring
    have hTT : (2 : ℚ) ^ expo w = 2 * 2 ^ expo r := by rw [hee, zpow_add_one₀ (by norm_num)]; ring
    have hT : (2 : ℚ) ^ expo r = 2 ^ p * 2 ^ (expo r - (p : ℤ)) := by
      rw [← zpow_natCast, ← zpow_add₀ (by norm_num)]; congr 1; ring
    rw [hu2] at h hk
    by_cases hdone : |w - r| ≤ 2 ^ (expo r - (p : ℤ))
    · exact Or.inl hdone
    right
    have hwT : (2 : ℚ) ^ expo r ≤ w := by linarith [hew.1]
    have hw' : w = 2 ^ expo r ∧ r = 2 ^ expo r - 2 * 2 ^ (expo r - (p : ℤ)) := by
      have hP : (2 : ℤ) ^ p = 2 * 2 ^ (p - 1) := by rw [← pow_succ']; congr 1; omega
      have hwr : r < w := by linarith
      rw [abs_of_pos (by linarith)] at h hdone
      have hrT := her.2
      generalize (2 : ℚ) ^ (expo r - (p : ℤ)) = u at *
      rw [hT] at hwT hrT ⊢
      have e1 : w - r = ((2 * k - l : ℤ) : ℚ) * u := by push_cast; rw [hk, hl]; ring
      rw [e1] at h hdone
      have a1 : 2 * k - l < 3 := by
        have : ((2 * k - l : ℤ) : ℚ) < 3 := by
          by_contra hc; have hc := not_lt.1 hc; nlinarith
        exact_mod_cast this
      have a2 : 1 < 2 * k - l := by
        by_contra hc
        apply hdone
        have : ((2 * k - l : ℤ) : ℚ) ≤ 1 := by exact_mod_cast (not_lt.1 hc)
        nlinarith
      have a3 : l < 2 ^ p := by
        rw [hl] at hrT
        have := lt_of_mul_lt_mul_right hrT hu.le
        exact_mod_cast this
      have a4 : 2 ^ p ≤ 2 * k := by
        have hwT' : (2 : ℚ) ^ p * u ≤ ((2 * k : ℤ) : ℚ) * u := by push_cast; linarith
        have := le_of_mul_le_mul_right hwT' hu
        exact_mod_cast this
      have b1 : 2 * k = 2 ^ p := by omega
      have b2 : l = 2 ^ p - 2 := by omega
      have b1' : (2 : ℚ) * k = 2 ^ p := by exact_mod_cast b1
      constructor
      · rw [hk, ← b1']; ring
      · rw [hl, b2]; push_cast; ring
    refine ⟨⟨_, hw'.1⟩, ?_⟩
    rintro ⟨e, he⟩
    have h2 : e < expo r := by
      have := her.2
      rw [he] at this
      have h9 := (zpow_lt_zpow_iff_right₀ (by norm_num : (1 : ℚ) < 2)).1 this
      rw [he]; exact h9
    have h3 : r ≤ 2 ^ expo r / 2 := by
      rw [← hE1]
      calc r = 2 ^ e := he
        _ ≤ _ := zpow_le_zpow_right₀ (by norm_num) (by omega)
    have := hw'.2
    linarith

/-- More fuel changes nothing. -/
theorem iterate_fuel {σ : Type} (c : Ctx) (pz : ℕ) (body : ℕ → σ → R σ) (zOf : σ → ℚ) (advance : ℕ → σ → R σ) (r : σ) :
    ∀ (fuel : ℕ) (l : Loop) (s : σ), iterate c pz body zOf advance fuel l s = .ok r → ∀ fuel', fuel ≤ fuel' →
      iterate c pz body zOf advance fuel' l s = .ok r
  | 0, l, s, h, _, _ => by cases h
  | fuel + 1, l, s, h, 0, hf => by omega
  | fuel + 1, l, s, h, fuel' + 1, hf => by
    unfold iterate at h ⊢
    obtain ⟨s1, e1, h⟩ := bind_eq_ok h
    rw [e1, bindOk]
    obtain ⟨d, e2, h⟩ := bind_eq_ok h
    rw [e2, bindOk]
    cases d with
    | none => exact h
    | some l' =>
      dsimp only at h ⊢
      obtain ⟨s2, e3, h⟩ := bind_eq_ok h
      rw [e3, bindOk]
      exact iterate_fuel c pz body zOf advance r fuel l' s2 h fuel' (by omega)

/-- The error of the root after `i` turns. -/
noncomputable def errAt (p i : ℕ) : ℝ := (1 / 2) ^ (i + 1) + 10 * eps p * (1 - (1 / 2) ^ i)

theorem half_pow (i : ℕ) : 0 < ((1 : ℝ) / 2) ^ i ∧ ((1 : ℝ) / 2) ^ i ≤ 1 := ⟨by positivity, pow_le_one₀ (by norm_num) (by norm_num)⟩

theorem errAt_nonneg (p i : ℕ) : 0 ≤ errAt p i := by
  have := half_pow i
  have h2 := eps_real p
  unfold errAt
  have h3 : 0 ≤ 1 - ((1 : ℝ) / 2) ^ i := by linarith
  positivity

theorem errAt_half {p : ℕ} (hp : 12 ≤ p) (i : ℕ) : errAt p i ≤ 1 / 2 := by
  have := half_pow i
  have h2 := eps_real p
  have h3 := eps_small hp
  unfold errAt
  rw [pow_succ]
  generalize ((1 : ℝ) / 2) ^ i = h at *
  nlinarith

theorem errAt_succ {p : ℕ} (hp : 12 ≤ p) (i : ℕ) : errAt p i * errAt p i + 5 * eps p ≤ errAt p (i + 1) := by
  have h1 := errAt_half hp i
  have h2 := errAt_nonneg p i
  have h3 : errAt p i * errAt p i ≤ errAt p i / 2 := by nlinarith
  have h4 : errAt p i / 2 + 5 * eps p = errAt p (i + 1) := by
    unfold errAt
    rw [pow_succ _ (i + 1), pow_succ _ i]
    ring
  linarith

theorem errAt_late {p i : ℕ} (h : p ≤ i) : errAt p i ≤ 11 * eps p := by
  have h1 := half_pow i
  have h2 := eps_real p
  have h3 : ((1 : ℝ) / 2) ^ i ≤ eps p := by
    unfold eps
    rw [zpow_neg, zpow_natCast, one_div, ← inv_pow]
    exact pow_le_pow_of_le_one (by norm_num) (by norm_num) h
  unfold errAt
  rw [pow_succ]
  nlinarith

/-- What holds as the loop goes on. -/
structure SqrtInv (p : ℕ) (s : ℝ) (l : Loop) (w : ℚ) : Prop where
  isFloat : IsFloat p w
  err : |(w : ℝ) - s| ≤ errAt p l.i * s
  fine : p + 1 ≤ l.i → |(w : ℝ) - s| ≤ 9 / 10 * ulp p w
  notPow : p + 2 ≤ l.i → ¬ ∃ e : ℤ, w = 2 ^ e
  prev : 1 ≤ l.i → l.prevZ = w
  max : l.maxIterations = 10 + p

theorem sqrt_iterate {c : Ctx} (hp : 12 ≤ c.p) {x : ℚ} {s : ℝ} (hs : 0 < s) (hx : (x : ℝ) = s * s) : ∀ (fuel : ℕ) (l : Loop) (w : ℚ),
    SqrtInv c.p s l w → 10 + c.p ≤ fuel + l.i → l.i < 10 + c.p →
    ∃ z, iterate c c.p (fun _ => sqrtStep c c.p x) id (fun _ z => .ok z) fuel l w = .ok z ∧ 0 < z ∧ IsFloat c.p z ∧ |(z : ℝ) - s| ≤ 9 / 10 * ulp c.p z
  | 0, l, w, hi, h1, h2 => by omega
  | fuel + 1, l, w, hi, h1, h2 => by
    obtain ⟨hw0', hco⟩ := step_coarse hp hs hx (errAt_nonneg _ _) (errAt_half hp _) hi.err
    have hw0 : 0 < w := by exact_mod_cast hw0'
    have hstep := sqrtStep_nstep (c := c) (by omega) (x := x) hi.isFloat hw0
    have hrf := nstep_isFloat (by omega : 1 ≤ c.p) x w
    have hxp : 0 < x := by
      have : (0 : ℝ) < x := by rw [hx]; positivity
      exact_mod_cast this
    have hr0 : 0 < nstep c.p x w := sqrtStep_pos (by omega) (by omega) hxp hw0 hstep
    have herr : |(nstep c.p x w : ℝ) - s| ≤ errAt c.p (l.i + 1) * s :=
      le_trans hco (mul_le_mul_of_nonneg_right (errAt_succ hp _) hs.le)
    -- late in the loop
    have hlate : c.p ≤ l.i → |(nstep c.p x w : ℝ) - s| ≤ 9 / 10 * ulp c.p (nstep c.p x w) := by
      intro h
      exact (step_fine hp hs hx hi.isFloat (le_trans hi.err (mul_le_mul_of_nonneg_right (errAt_late h) hs.le))).2
    have hpair : c.p + 1 ≤ l.i → |w - nstep c.p x w| ≤ 2 ^ (expo (nstep c.p x w) - (c.p : ℤ)) ∨
        ((∃ e : ℤ, w = 2 ^ e) ∧ ¬ ∃ e : ℤ, nstep c.p x w = 2 ^ e) := by
      intro h
      refine pair hp hi.isFloat hrf hw0 hr0 ?_
      have a1 := hi.fine h
      have a2 := hlate (by omega)
      have a3 : |(w : ℝ) - (nstep c.p x w : ℝ)| ≤ 9 / 10 * (ulp c.p w + ulp c.p (nstep c.p x w)) := by
        rw [abs_le] at a1 a2 ⊢
        constructor <;> linarith [a1.1, a1.2, a2.1, a2.2]
      have a4 : ((|w - nstep c.p x w| : ℚ) : ℝ) ≤ ((9 / 10 * (2 ^ (expo w - (c.p : ℤ)) + 2 ^ (expo (nstep c.p x w) - (c.p : ℤ))) : ℚ) : ℝ) := by
        push_cast; exact a3
      exact Rat.cast_le.1 a4
    have hclose : |w - nstep c.p x w| ≤ 2 ^ (expo (nstep c.p x w) - (c.p : ℤ)) → 3 ≤ l.i → l.done c c.p (nstep c.p x w) = .ok none := by
      intro h h3
      have h4 : |sub c.p l.prevZ (nstep c.p x w)| ≤ 2 ^ (expo (nstep c.p x w) - (c.p : ℤ)) := by
        rw [hi.prev (by omega)]
        have := abs_le.1 h
        have hfl := isFloat_zpow (by omega : 1 ≤ c.p) (expo (nstep c.p x w) - (c.p : ℤ))
        rw [abs_le]
        exact ⟨float_le_rnd (by omega) (isFloat_neg hfl) this.1, rnd_le_float (by omega) hfl this.2⟩
      unfold Loop.done
      dsimp only
      by_cases h5 : sub c.p l.prevZ (nstep c.p x w) = 0 ∧ 3 ≤ l.i
      · rw [if_pos h5]
      · rw [if_neg h5, if_pos]
        refine ⟨?_, h3⟩
        rw [pow2_eq]
        unfold absOf
        split
        · linarith [(abs_le.1 h4).1]
        · exact (abs_le.1 h4).2
    unfold iterate
    rw [hstep, bindOk]
    rcases done_cases c l c.p (id (nstep c.p x w)) with ⟨hd, h3, h4⟩ | ⟨hd, hm⟩ | ⟨hd, hne⟩
    · rw [hd, bindOk]
      refine ⟨_, rfl, hr0, hrf, ?_⟩
      rw [hi.prev (by omega)] at h4
      exact step_done hp hs hx hi.isFloat hw0 hr0 h4
    · exfalso
      rw [hi.max] at hm
      rcases hpair (by omega) with h | h
      · rw [show id (nstep c.p x w) = nstep c.p x w from rfl, hclose h (by omega)] at hd
        cases hd
      · exact hi.notPow (by omega) h.1
    · rw [hd, bindOk]
      dsimp only
      rw [bindOk]
      refine sqrt_iterate hp hs hx fuel _ _ ⟨hrf, herr, fun h => hlate ?_, fun h => ?_, fun _ => ?_, hi.max⟩ ?_ ?_
      · have : c.p + 1 ≤ l.i + 1 := h; omega
      · have h' : c.p + 2 ≤ l.i + 1 := h
        rcases hpair (by omega) with h | h
        · rw [show id (nstep c.p x w) = nstep c.p x w from rfl, hclose h (by omega)] at hd
          cases hd
        · exact h.2
      · exact rnd_self (by omega) hrf
      · show 10 + c.p ≤ fuel + (l.i + 1); omega
      · show l.i + 1 < 10 + c.p
        have : l.maxIterations = 10 + c.p := hi.max
        omega

/-- The first guess. -/
theorem sqrt_guess {p : ℕ} (hp : 1 ≤ p) {x : ℚ} (hf : IsFloat p x) (hx : 0 < x) {s : ℝ} (hs : 0 < s) (hxs : (x : ℝ) = s * s) :
    IsFloat p (rnd p (x * pow2 (-expo x)) * pow2 ((expo x).tdiv 2)) ∧
      |((rnd p (x * pow2 (-expo x)) * pow2 ((expo x).tdiv 2) : ℚ) : ℝ) - s| ≤ errAt p 0 * s := by
  rw [pow2_eq, pow2_eq]
  have hf1 := isFloat_scale hf (-expo x)
  rw [rnd_self hp hf1]
  refine ⟨isFloat_scale hf1 _, ?_⟩
  have he0 : errAt p 0 = 1 / 2 := by unfold errAt; norm_num
  rw [he0]
  have he := expo_spec x hx.ne'
  rw [abs_of_pos hx] at he
  have h1 : ((2 ^ (expo x - 1) : ℚ) : ℝ) ≤ x := Rat.cast_le.2 he.1
  have h2 : (x : ℝ) < ((2 ^ expo x : ℚ) : ℝ) := Rat.cast_lt.2 he.2
  push_cast at h1 h2 ⊢
  rw [zpow_sub_one₀ (by norm_num)] at h1
  generalize hE : expo x = e at *
  -- z = x / 2 ^ (e - e / 2)
  have hz : (x : ℝ) * 2 ^ (-e) * 2 ^ (e.tdiv 2) = s * (s * 2 ^ (e.tdiv 2 - e)) := by
    rw [hxs, mul_assoc, ← zpow_add₀ (by norm_num), mul_assoc]
    congr 3
    ring
  rw [hz]
  -- the factor t = s * 2 ^ (e / 2 - e)
  have ht0 : (0 : ℝ) < s * 2 ^ (e.tdiv 2 - e) := by positivity
  have hsq : s * 2 ^ (e.tdiv 2 - e) * (s * 2 ^ (e.tdiv 2 - e)) = x * 2 ^ (2 * (e.tdiv 2) - 2 * e) := by
    rw [show s * (2 : ℝ) ^ (e.tdiv 2 - e) * (s * 2 ^ (e.tdiv 2 - e)) = s * s * (2 ^ (e.tdiv 2 - e) * 2 ^ (e.tdiv 2 - e)) by ring,
      ← hxs, ← zpow_add₀ (by norm_num)]
    congr 2
    ring
  have hq : 1 / 4 ≤ (x : ℝ) * 2 ^ (2 * (e.tdiv 2) - 2 * e) ∧ (x : ℝ) * 2 ^ (2 * (e.tdiv 2) - 2 * e) ≤ 2 := by
    have hcase : 2 * (e.tdiv 2) - 2 * e = -e ∨ 2 * (e.tdiv 2) - 2 * e = -e - 1 ∨ 2 * (e.tdiv 2) - 2 * e = -e + 1 := by
      rcases Int.le_total 0 e with h | h
      · rw [Int.tdiv_eq_ediv_of_nonneg h]; omega
      · have : e.tdiv 2 = -((-e) / 2) := by
          rw [← Int.tdiv_eq_ediv_of_nonneg (by omega : 0 ≤ -e), Int.neg_tdiv, neg_neg]
        rw [this]; omega
    have hp2 : (0 : ℝ) < 2 ^ (-e) := by positivity
    have hee : (2 : ℝ) ^ e * 2 ^ (-e) = 1 := by rw [← zpow_add₀ (by norm_num)]; simp
    have b1 : 1 / 2 ≤ (x : ℝ) * 2 ^ (-e) := by
      have := mul_le_mul_of_nonneg_right h1 hp2.le
      rw [show (2 : ℝ) ^ e * 2⁻¹ * 2 ^ (-e) = 2 ^ e * 2 ^ (-e) * 2⁻¹ by ring, hee] at this
      linarith
    have b2 : (x : ℝ) * 2 ^ (-e) < 1 := by
      have := mul_lt_mul_of_pos_right h2 hp2
      rwa [hee] at this
    rcases hcase with h | h | h <;> rw [h]
    · constructor <;> linarith
    · rw [zpow_sub_one₀ (by norm_num), ← mul_assoc]
      constructor <;> linarith
    · rw [zpow_add_one₀ (by norm_num), ← mul_assoc]
      constructor <;> linarith
  rw [← hsq] at hq
  generalize s * (2 : ℝ) ^ (e.tdiv 2 - e) = t at *
  have ht1 : 1 / 2 ≤ t := by nlinarith
  have ht2 : t ≤ 3 / 2 := by nlinarith
  rw [abs_le]
  constructor <;> nlinarith

/-- The square root is found, within nine tenths of a unit in the last place. -/
theorem floatSqrt_ok {c : Ctx} (hp : 12 ≤ c.p) {x : ℚ} (hf : IsFloat c.p x) (hx : 0 < x) {s : ℝ} (hs : 0 < s) (hxs : (x : ℝ) = s * s) :
    ∃ z, 0 < z ∧ IsFloat c.p z ∧ |(z : ℝ) - s| ≤ 9 / 10 * ulp c.p z ∧ ∀ fuel, 10 + c.p ≤ fuel → floatSqrt c fuel ⟨c.p, x⟩ = .ok ⟨c.p, z⟩ := by
  obtain ⟨g1, g2⟩ := sqrt_guess (by omega : 1 ≤ c.p) hf hx hs hxs
  obtain ⟨z, h, h0, hfz, herr⟩ := sqrt_iterate hp hs hxs (10 + c.p) (newLoop c 1) _ ⟨g1, g2, fun h => by
      have : c.p + 1 ≤ 0 := h
      omega, fun h => by
      have : c.p + 2 ≤ 0 := h
      omega, fun h => by
      have : 1 ≤ 0 := h
      omega, by show 10 + 1 * c.p = 10 + c.p; omega⟩ (by show 10 + c.p ≤ 10 + c.p + 0; omega) (by show 0 < 10 + c.p; omega)
  refine ⟨z, h0, hfz, herr, fun fuel hfu => ?_⟩
  unfold floatSqrt
  rw [if_neg (by exact not_lt.2 hx.le), if_neg (by exact hx.ne')]
  dsimp only
  rw [iterate_fuel _ _ _ _ _ _ _ _ _ h fuel hfu, bindOk]

end Verif.Flt
