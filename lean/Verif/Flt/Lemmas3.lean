import Verif.Flt.Lemmas2
import Mathlib.Algebra.Order.Archimedean.Basic

/-! # Reduction by multiples of 2π -/

namespace Verif.Flt
open Spec
open Verif.Arr (R)

/-- Subtracting more than half a unit in the last place makes a number smaller. -/
theorem sub_lt {px : ℕ} (hp : 1 ≤ px) {x m : ℚ} (hx : IsFloat px x) (hm : 0 < m) (hmx : m ≤ x) (hu : (2 : ℚ) ^ (expo x - (px : ℤ)) / 2 < m) :
    sub px x m < x := by
  have hx0 : 0 < x := lt_of_lt_of_le hm hmx
  have hr : rnd px (x - m) ≤ x := rnd_le_float hp hx (by linarith)
  refine lt_of_le_of_ne hr fun heq => ?_
  have he := expo_spec x hx0.ne'
  rw [abs_of_pos hx0] at he
  obtain ⟨k, hk⟩ := isFloat_mult hx (e := expo x) (by rw [abs_of_pos hx0]; exact he.1)
  have hu0 := two_zpow_pos (expo x - (px : ℤ))
  have hk1 : k < 2 ^ px := by
    have h1 : (k : ℚ) < 2 ^ px := by
      have : (k : ℚ) * 2 ^ (expo x - (px : ℤ)) < 2 ^ px * 2 ^ (expo x - (px : ℤ)) := by
        rw [← hk, ← zpow_natCast, ← zpow_add₀ (by norm_num)]
        rw [show (px : ℤ) + (expo x - px) = expo x by ring]; exact he.2
      exact lt_of_mul_lt_mul_right this hu0.le
    exact_mod_cast h1
  have hk0 : 0 < k := by
    have : (0 : ℚ) < k := by
      rw [hk] at hx0
      exact pos_of_mul_pos_left hx0 hu0.le
    exact_mod_cast this
  have hf : IsFloat px ((((k - 1 : ℤ)) : ℚ) * 2 ^ (expo x - (px : ℤ))) := ⟨k - 1, _, by rw [abs_of_nonneg (by omega)]; omega, rfl⟩
  have h1 := rnd_le hp (x - m) hf
  have heq' : rnd px (x - m) = x := heq
  rw [heq'] at h1
  push_cast at h1
  rw [sub_mul, ← hk, one_mul] at h1
  rw [show x - m - x = -m by ring, abs_neg, abs_of_pos hm, show x - m - (x - 2 ^ (expo x - (px : ℤ))) = 2 ^ (expo x - (px : ℤ)) - m by ring] at h1
  generalize (2 : ℚ) ^ (expo x - (px : ℤ)) = u at *
  rcases abs_cases (u - m) with ⟨a, _⟩ | ⟨a, _⟩ <;> rw [a] at h1 <;> linarith

theorem subtractLoop_stop {px : ℕ} {m x : ℚ} (h : x < m) {fuel : ℕ} (hf : 1 ≤ fuel) : subtractLoop px m fuel x = .ok x := by
  cases fuel with
  | zero => omega
  | succ f => unfold subtractLoop; rw [if_neg (not_le.2 h)]

theorem subtractLoop_bound {px : ℕ} (hp : 1 ≤ px) {m : ℚ} (hm : 0 < m) : ∀ (n : ℕ) (x : ℚ), IsFloat px x →
    (m ≤ x → (2 : ℚ) ^ (expo x - (px : ℤ)) / 2 < m) → x ≤ n * 2 ^ (expo m - (px : ℤ)) →
    ∃ r, r < m ∧ IsFloat px r ∧ r ≤ x ∧ (0 ≤ x → 0 ≤ r) ∧ ∀ fuel, n + 1 ≤ fuel → subtractLoop px m fuel x = .ok r := by
  intro n
  induction n with
  | zero =>
    intro x hx _ hn
    have : x < m := by simp at hn; linarith
    exact ⟨x, this, hx, le_refl _, fun h => h, fun fuel hf => subtractLoop_stop this (by omega)⟩
  | succ n ih =>
    intro x hx hu hn
    by_cases hmx : m ≤ x
    · have hlt := sub_lt hp hx hm hmx (hu hmx)
      have hfl : IsFloat px (sub px x m) := rnd_isFloat hp _
      have h0 : 0 ≤ sub px x m := rnd_nonneg hp (by linarith)
      by_cases hmr : m ≤ sub px x m
      · have hx0 : 0 < x := lt_of_lt_of_le hm hmx
        have hr0 : 0 < sub px x m := lt_of_lt_of_le hm hmr
        have hem := (expo_spec m hm.ne').1
        rw [abs_of_pos hm] at hem
        obtain ⟨k1, e1⟩ := isFloat_mult hx (e := expo m) (by rw [abs_of_pos hx0]; linarith)
        obtain ⟨k2, e2⟩ := isFloat_mult hfl (e := expo m) (by rw [abs_of_pos hr0]; linarith)
        have hw := two_zpow_pos (expo m - (px : ℤ))
        have hk : k2 < k1 := by
          have : (k2 : ℚ) < k1 := by
            rw [e2] at hlt
            have hlt := lt_of_lt_of_eq hlt e1
            exact lt_of_mul_lt_mul_right hlt hw.le
          exact_mod_cast this
        have hle : sub px x m ≤ n * 2 ^ (expo m - (px : ℤ)) := by
          have h1 : (k2 : ℚ) + 1 ≤ k1 := by exact_mod_cast hk
          rw [e2]
          rw [e1] at hn
          push_cast at hn
          generalize (2 : ℚ) ^ (expo m - (px : ℤ)) = w at *
          have h2 : (k1 : ℚ) ≤ n + 1 := le_of_mul_le_mul_right hn hw
          have h3 : (k2 : ℚ) ≤ n := by linarith
          exact mul_le_mul_of_nonneg_right h3 hw.le
        obtain ⟨r, a, b, d, e, f⟩ := ih (sub px x m) hfl (fun _ => by
          refine lt_of_le_of_lt ?_ (hu hmx)
          have : expo (sub px x m) ≤ expo x := expo_mono hr0.ne' (by rw [abs_of_pos hr0, abs_of_pos hx0]; exact hlt.le)
          have : (2 : ℚ) ^ (expo (sub px x m) - (px : ℤ)) ≤ 2 ^ (expo x - (px : ℤ)) := zpow_le_zpow_right₀ (by norm_num) (by omega)
          linarith) hle
        refine ⟨r, a, b, by linarith, fun _ => e h0, fun fuel hf => ?_⟩
        cases fuel with
        | zero => omega
        | succ fuel => unfold subtractLoop; rw [if_pos hmx]; exact f fuel (by omega)
      · have hmr := not_le.1 hmr
        refine ⟨_, hmr, hfl, hlt.le, fun _ => h0, fun fuel hf => ?_⟩
        cases fuel with
        | zero => omega
        | succ fuel => unfold subtractLoop; rw [if_pos hmx]; exact subtractLoop_stop hmr (by omega)
    · have := not_le.1 hmx
      exact ⟨x, this, hx, le_refl _, fun h => h, fun fuel hf => subtractLoop_stop this (by omega)⟩

/-- The loop of subtractions ends when every subtraction counts. -/
theorem subtractLoop_ok {px : ℕ} (hp : 1 ≤ px) {m : ℚ} (hm : 0 < m) {x : ℚ} (hx : IsFloat px x)
    (hu : m ≤ x → (2 : ℚ) ^ (expo x - (px : ℤ)) / 2 < m) :
    ∃ r, r < m ∧ IsFloat px r ∧ r ≤ x ∧ (0 ≤ x → 0 ≤ r) ∧ ∃ n, ∀ fuel, n ≤ fuel → subtractLoop px m fuel x = .ok r := by
  have hw := two_zpow_pos (expo m - (px : ℤ))
  obtain ⟨n, hn⟩ := exists_nat_ge (x / 2 ^ (expo m - (px : ℤ)))
  rw [div_le_iff₀ hw] at hn
  obtain ⟨r, a, b, d, e, f⟩ := subtractLoop_bound hp hm n x hx hu hn
  exact ⟨r, a, b, d, e, n + 1, f⟩

/-- Multiples, the last one first. -/
def tower (m : ℚ) : ℕ → List ℚ
  | 0 => []
  | k + 1 => 16 ^ (k + 1) * m :: tower m k

theorem tower_append (m : ℚ) (acc : List ℚ) : ∀ k, tower (16 * m) k ++ 16 * m :: acc = tower m (k + 1) ++ acc
  | 0 => by simp [tower]
  | k + 1 => by
    have := tower_append m acc k
    show (16 ^ (k + 1) * (16 * m)) :: (tower (16 * m) k ++ 16 * m :: acc) = (16 ^ (k + 1 + 1) * m) :: (tower m (k + 1) ++ acc)
    rw [this]
    congr 1
    ring

theorem multiples_ok {p : ℕ} (hp : 1 ≤ p) (x : ℚ) : ∀ (n : ℕ) (m : ℚ) (acc : List ℚ), IsFloat p m → 0 < m → x < 16 ^ n * m →
    ∃ k, x < 16 ^ (k + 1) * m ∧ ∀ fuel, n + 1 ≤ fuel → multiples p x fuel m acc = .ok (tower m k ++ acc) := by
  intro n
  induction n with
  | zero =>
    intro m acc hf hm hx
    have e16 : mul p m (rnd p 16) = 16 * m := by
      unfold mul
      rw [rnd_sixteen hp, show m * (16 : ℚ) = m * 2 ^ (4 : ℤ) by norm_num, rnd_scale, rnd_self hp hf]; norm_num; ring
    simp at hx
    refine ⟨0, by norm_num; linarith, fun fuel hfu => ?_⟩
    cases fuel with
    | zero => omega
    | succ fuel =>
      unfold multiples
      dsimp only
      rw [e16, if_pos (by linarith)]
      rfl
  | succ n ih =>
    intro m acc hf hm hx
    have e16 : mul p m (rnd p 16) = 16 * m := by
      unfold mul
      rw [rnd_sixteen hp, show m * (16 : ℚ) = m * 2 ^ (4 : ℤ) by norm_num, rnd_scale, rnd_self hp hf]; norm_num; ring
    have hf16 : IsFloat p (16 * m) := by
      have := isFloat_scale hf 4
      rwa [show m * (2 : ℚ) ^ (4 : ℤ) = 16 * m by norm_num; ring] at this
    by_cases h : x < 16 * m
    · refine ⟨0, by simpa using h, fun fuel hfu => ?_⟩
      cases fuel with
      | zero => omega
      | succ fuel =>
        unfold multiples
        dsimp only
        rw [e16, if_pos h]
        rfl
    · obtain ⟨k, a, b⟩ := ih (16 * m) (16 * m :: acc) hf16 (by linarith) (by rw [pow_succ] at hx; linarith)
      refine ⟨k + 1, by rw [pow_succ]; linarith, fun fuel hfu => ?_⟩
      cases fuel with
      | zero => omega
      | succ fuel =>
        unfold multiples
        dsimp only
        rw [e16, if_neg h, rnd_self hp hf16, b fuel (by omega), tower_append]

theorem ulp_small {px : ℕ} (hp : 5 ≤ px) {x a : ℚ} (ha : 0 < a) (h : x < 16 * a) (hax : a ≤ x) : (2 : ℚ) ^ (expo x - (px : ℤ)) / 2 < a := by
  have hx : 0 < x := lt_of_lt_of_le ha hax
  have e1 : expo x ≤ expo (a * 2 ^ (4 : ℤ)) := expo_mono hx.ne' (by
    rw [abs_of_pos hx, abs_of_pos (by positivity)]; norm_num; linarith)
  rw [expo_scale a ha.ne'] at e1
  have e2 := (expo_spec a ha.ne').1
  rw [abs_of_pos ha] at e2
  have e3 : (2 : ℚ) ^ (expo x - (px : ℤ)) ≤ 2 ^ (expo a - 1) := zpow_le_zpow_right₀ (by norm_num) (by omega)
  linarith

theorem subtractAll_ok {px : ℕ} (hp : 5 ≤ px) {m : ℚ} (hm : 0 < m) : ∀ (k : ℕ) (x : ℚ), IsFloat px x → x < 16 ^ (k + 1) * m →
    ∃ r, r < 16 * m ∧ IsFloat px r ∧ r ≤ x ∧ (0 ≤ x → 0 ≤ r) ∧ ∃ n, ∀ fuel, n ≤ fuel → subtractAll px fuel (tower m k) x = .ok r := by
  intro k
  induction k with
  | zero => intro x hx h; exact ⟨x, by simpa using h, hx, le_refl _, fun h => h, 0, fun _ _ => rfl⟩
  | succ k ih =>
    intro x hx h
    have ha : 0 < 16 ^ (k + 1) * m := by positivity
    obtain ⟨r, a, b, d, e, n, f⟩ := subtractLoop_ok (by omega : 1 ≤ px) ha hx (fun hmx => ulp_small hp ha (by rw [pow_succ] at h; linarith) hmx)
    obtain ⟨r', a', b', d', e', n', f'⟩ := ih r b a
    refine ⟨r', a', b', by linarith, fun h => e' (e h), max n n', fun fuel hf => ?_⟩
    show (subtractLoop px (16 ^ (k + 1) * m) fuel x).bind (subtractAll px fuel (tower m k)) = _
    rw [f fuel (le_trans (le_max_left _ _) hf), bindOk]
    exact f' fuel (le_trans (le_max_right _ _) hf)

/-- `2π` as the code computes it. -/
def twoPi (c : Ctx) : ℚ := mul c.p (rnd c.p (rnd c.p 2)) c.pi

theorem twoPi_ge {c : Ctx} (hp : 2 ≤ c.p) (hpi : 3 ≤ c.pi) : 6 ≤ twoPi c := by
  unfold twoPi mul
  rw [rnd_two (by omega), rnd_two (by omega)]
  refine float_le_rnd (by omega) ?_ (by linarith)
  refine ⟨3, 1, ?_, by norm_num⟩
  calc |(3 : ℤ)| < 2 ^ 2 := by norm_num
    _ ≤ 2 ^ c.p := pow_le_pow_right₀ (by norm_num) hp

/-- `twoPiReduce` ends. -/
theorem twoPiReduce_ok {c : Ctx} (hp : 7 ≤ c.p) (hpi : 3 ≤ c.pi) {x : Fl} (hx : 7 ≤ x.prec) (hf : IsFloat x.prec x.val) :
    ∃ r, r < twoPi c ∧ IsFloat x.prec r ∧ r ≤ x.val ∧ (0 ≤ x.val → 0 ≤ r) ∧ ∃ n, ∀ fuel, n ≤ fuel → twoPiReduce c fuel x = .ok ⟨x.prec, r⟩ := by
  have h6 := twoPi_ge (by omega) hpi
  have hT : 0 < twoPi c := by linarith
  have hTf : IsFloat c.p (twoPi c) := rnd_isFloat (by omega) _
  have h1000 : rnd c.p 1000 = 1000 := by
    apply rnd_self (by omega)
    refine ⟨125, 3, ?_, by norm_num⟩
    calc |(125 : ℤ)| < 2 ^ 7 := by norm_num
      _ ≤ 2 ^ c.p := pow_le_pow_right₀ (by norm_num) hp
  -- the first part
  have first : ∃ y, IsFloat x.prec y ∧ y ≤ x.val ∧ (0 ≤ x.val → 0 ≤ y) ∧ (twoPi c ≤ y → (2 : ℚ) ^ (expo y - (x.prec : ℤ)) / 2 < twoPi c) ∧
      ∃ n, ∀ fuel, n ≤ fuel → (if rnd c.p 1000 < x.val then (multiples c.p x.val fuel (rnd c.p (twoPi c)) []).bind fun ms =>
        subtractAll x.prec fuel ms x.val else .ok x.val) = .ok y := by
    by_cases hb : rnd c.p 1000 < x.val
    · obtain ⟨n0, hn0⟩ : ∃ n : ℕ, x.val < 16 ^ n * twoPi c := by
        obtain ⟨n, hn⟩ := pow_unbounded_of_one_lt (x.val / twoPi c) (by norm_num : (1 : ℚ) < 16)
        exact ⟨n, by rwa [div_lt_iff₀ hT] at hn⟩
      obtain ⟨k, a, b⟩ := multiples_ok (by omega : 1 ≤ c.p) x.val n0 (twoPi c) [] hTf hT hn0
      obtain ⟨r, a', b', d', e', n', f'⟩ := subtractAll_ok (by omega : 5 ≤ x.prec) hT k x.val hf a
      refine ⟨r, b', d', e', fun h => ulp_small (by omega) hT a' h, max (n0 + 1) n', fun fuel hfu => ?_⟩
      rw [if_pos hb, rnd_self (by omega) hTf, b fuel (le_trans (le_max_left _ _) hfu), bindOk, List.append_nil]
      exact f' fuel (le_trans (le_max_right _ _) hfu)
    · refine ⟨x.val, hf, le_refl _, fun h => h, fun h => ?_, 0, fun fuel _ => by rw [if_neg hb]⟩
      rw [h1000] at hb
      have hb := not_lt.1 hb
      have hx0 : 0 < x.val := lt_of_lt_of_le hT h
      have e1 : expo x.val ≤ 10 := by
        have := (expo_spec x.val hx0.ne').1
        rw [abs_of_pos hx0] at this
        have h2 : (2 : ℚ) ^ (expo x.val - 1) < 2 ^ (10 : ℤ) := lt_of_le_of_lt this (by norm_num; linarith)
        have := (zpow_lt_zpow_iff_right₀ (by norm_num : (1 : ℚ) < 2)).1 h2
        omega
      have e3 : (2 : ℚ) ^ (expo x.val - (x.prec : ℤ)) ≤ 2 ^ (3 : ℤ) := zpow_le_zpow_right₀ (by norm_num) (by omega)
      norm_num at e3
      linarith
  obtain ⟨y, yf, yx, y0, yu, n1, hn1⟩ := first
  obtain ⟨r, a, b, d, e, n2, hn2⟩ := subtractLoop_ok (by omega : 1 ≤ x.prec) hT yf yu
  refine ⟨r, a, b, by linarith, fun h => e (y0 h), max n1 n2, fun fuel hfu => ?_⟩
  unfold twoPiReduce
  dsimp only
  show (R.bind (if rnd c.p 1000 < x.val then (multiples c.p x.val fuel (rnd c.p (twoPi c)) []).bind fun ms =>
        subtractAll x.prec fuel ms x.val else .ok x.val) fun y => (subtractLoop x.prec (twoPi c) fuel y).bind fun y => .ok (Fl.mk x.prec y)) = _
  rw [hn1 fuel (le_trans (le_max_left _ _) hfu), bindOk, hn2 fuel (le_trans (le_max_right _ _) hfu), bindOk]

/-! ## Sine, cosine and tangent -/

theorem sincos_ends {c : Ctx} (hp : 1 ≤ c.p) (fuel : ℕ) (hf : 10 + 4 * c.p ≤ fuel) (index : ℕ) (x z : ℚ) (exp : ℕ) (fact : ℚ) (h : fact ≠ 0) :
    Ends (sincos c fuel index x z exp fact) := by
  refine ends_bind ?_ fun _ _ => trivial
  refine iterate_ends c c.p _ _ _ (fun _ s => s.fact ≠ 0) ?_ fuel _ _ (newLoop_lt c 4) (by show 10 + 4 * c.p ≤ fuel + 0; omega) h
  intro i s hs
  refine ⟨{ s with term := rnd c.p (s.term / -s.fact), fact := -s.fact, z := add c.p s.z (rnd c.p (s.term / -s.fact)) }, ?_, _, rfl, ?_⟩
  · unfold trigBody; rw [quo_ok (neg_ne_zero.2 hs)]; rfl
  · have h1 : rnd c.p ((s.exp : ℚ) + 1) ≠ 0 := rnd_ne_zero hp (by positivity)
    have h2 : rnd c.p ((s.exp : ℚ) + 2) ≠ 0 := rnd_ne_zero hp (by positivity)
    exact rnd_ne_zero hp (mul_ne_zero (rnd_ne_zero hp (mul_ne_zero (neg_ne_zero.2 hs) h1)) h2)

theorem six_ne {c : Ctx} (hp : 1 ≤ c.p) : rnd c.p 6 ≠ 0 := rnd_ne_zero hp (by norm_num)
theorem two_ne {c : Ctx} (hp : 1 ≤ c.p) : rnd c.p (rnd c.p 2) ≠ 0 := rnd_ne_zero hp (rnd_ne_zero hp (by norm_num))

theorem floatSin_terminates {c : Ctx} (hp : 7 ≤ c.p) (hpi : 3 ≤ c.pi) {x : Fl} (hx : 7 ≤ x.prec) (hf : IsFloat x.prec x.val) :
    ∃ y : Fl, y.prec = x.prec ∧ IsFloat x.prec y.val ∧ 0 ≤ y.val ∧ y.val < twoPi c ∧ ∃ n, ∀ fuel, n ≤ fuel → Ends (floatSin c fuel x) ∧
      ∀ r, floatSin c fuel x = .ok r → r.2 = y := by
  set x' : Fl := if decide (x.val < 0) then ⟨x.prec, -x.val⟩ else x with hx'
  have hpr : x'.prec = x.prec := by rw [hx']; split <;> rfl
  have hpos : 0 ≤ x'.val := by
    rw [hx']
    split
    · rename_i h; simp at h; simp; linarith
    · rename_i h; simpa using h
  have hfl : IsFloat x'.prec x'.val := by
    rw [hpr, hx']
    split
    · exact isFloat_neg hf
    · exact hf
  obtain ⟨r, a, b, d, e, n, f⟩ := twoPiReduce_ok hp hpi (x := x') (by omega) hfl
  refine ⟨⟨x'.prec, r⟩, hpr, by rwa [← hpr], e hpos, a, max n (10 + 4 * c.p), fun fuel hfu => ?_⟩
  have e1 := f fuel (le_trans (le_max_left _ _) hfu)
  have hs := sincos_ends (c := c) (by omega) fuel (le_trans (le_max_right _ _) hfu) 3 r (rnd c.p r) 3 (rnd c.p 6) (six_ne (by omega))
  unfold floatSin
  dsimp only
  rw [← hx', e1, bindOk]
  refine ⟨ends_bind hs fun _ _ => trivial, fun q hq => ?_⟩
  obtain ⟨w, _, hw⟩ := bind_eq_ok hq
  injection hw with hw
  rw [← hw]

theorem floatCos_terminates {c : Ctx} (hp : 7 ≤ c.p) (hpi : 3 ≤ c.pi) {x : Fl} (hx : 7 ≤ x.prec) (hf : IsFloat x.prec x.val) :
    Terminates fun fuel => floatCos c fuel x := by
  obtain ⟨r, a, b, d, e, n, f⟩ := twoPiReduce_ok hp hpi hx hf
  refine ⟨max n (10 + 4 * c.p), fun fuel hfu => ?_⟩
  have e1 := f fuel (le_trans (le_max_left _ _) hfu)
  have hs := sincos_ends (c := c) (by omega) fuel (le_trans (le_max_right _ _) hfu) 2 r (rnd c.p 1) 2 (rnd c.p (rnd c.p 2)) (two_ne (by omega))
  show Ends (floatCos c fuel x)
  unfold floatCos
  rw [e1, bindOk]
  exact ends_bind hs fun _ _ => trivial

theorem floatTan_terminates {c : Ctx} (hp : 7 ≤ c.p) (hpi : 3 ≤ c.pi) {x : Fl} (hx : 7 ≤ x.prec) (hf : IsFloat x.prec x.val) :
    Terminates fun fuel => floatTan c fuel x := by
  set x' : Fl := if decide (x.val < 0) then ⟨x.prec, -x.val⟩ else x with hx'
  have hpr : x'.prec = x.prec := by rw [hx']; split <;> rfl
  have hfl : IsFloat x'.prec x'.val := by
    rw [hpr, hx']
    split
    · exact isFloat_neg hf
    · exact hf
  obtain ⟨r, a, b, d, e, n, f⟩ := twoPiReduce_ok hp hpi (x := x') (by omega) hfl
  obtain ⟨y, hy, hyf, _, _, n1, hs⟩ := floatSin_terminates hp hpi (x := ⟨x'.prec, r⟩) (by omega : 7 ≤ x'.prec) b
  obtain ⟨n2, hc⟩ := floatCos_terminates hp hpi (x := y) (by rw [hy]; show 7 ≤ x'.prec; omega) (by rw [hy]; exact hyf)
  refine ⟨max n (max n1 n2), fun fuel hfu => ?_⟩
  have e1 := f fuel (le_trans (le_max_left _ _) hfu)
  have e2 := hs fuel (le_trans (le_trans (le_max_left _ _) (le_max_right _ _)) hfu)
  have e3 := hc fuel (le_trans (le_trans (le_max_right _ _) (le_max_right _ _)) hfu)
  show Ends (floatTan c fuel x)
  unfold floatTan
  dsimp only
  rw [← hx', e1, bindOk]
  refine ends_bind e2.1 fun s hs => ?_
  rw [e2.2 s hs]
  refine ends_bind e3 fun q _ => ?_
  split
  · trivial
  · rename_i h
    exact ends_bind (ends_quo h) fun _ _ => trivial

end Verif.Flt
