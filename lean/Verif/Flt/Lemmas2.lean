import Verif.Flt.Lemmas1

/-! # The loops -/

namespace Verif.Flt
open Spec
open Verif.Arr (R)

variable {α β σ : Type}

theorem bindOk (a : α) (f : α → R β) : (R.ok a).bind f = f a := rfl
theorem bindErr (m : String) (f : α → R β) : (R.err m : R α).bind f = .err m := rfl

theorem bind_eq_ok {r : R α} {f : α → R β} {b : β} (h : r.bind f = .ok b) : ∃ a, r = .ok a ∧ f a = .ok b := by
  cases r with
  | ok a => exact ⟨a, rfl, h⟩
  | err m => cases h
  | crash => cases h
  | hang => cases h

theorem ends_ok (a : α) : Ends (R.ok a) := trivial
theorem ends_err (m : String) : Ends (R.err m : R α) := trivial

theorem ends_bind {r : R α} {f : α → R β} (h : Ends r) (hf : ∀ a, r = .ok a → Ends (f a)) : Ends (r.bind f) := by
  cases r with
  | ok a => exact hf a rfl
  | err m => exact trivial
  | crash => exact h
  | hang => exact h

theorem quo_ok {p : ℕ} {x y : ℚ} (h : y ≠ 0) : quo p x y = .ok (rnd p (x / y)) := if_neg h

theorem ends_quo {p : ℕ} {x y : ℚ} (h : y ≠ 0) : Ends (quo p x y) := by rw [quo_ok h]; trivial

theorem done_cases (c : Ctx) (l : Loop) (pz : ℕ) (z : ℚ) :
    (l.done c pz z = .ok none ∧ 3 ≤ l.i ∧ |sub c.p l.prevZ z| ≤ 2 ^ (expo z - (pz : ℤ))) ∨
    (l.done c pz z = .err "did not converge" ∧ l.i + 1 = l.maxIterations) ∨
    (l.done c pz z = .ok (some ⟨l.i + 1, l.maxIterations, rnd c.p z⟩) ∧ l.i + 1 ≠ l.maxIterations) := by
  unfold Loop.done
  dsimp only
  by_cases h1 : sub c.p l.prevZ z = 0 ∧ 3 ≤ l.i
  · rw [if_pos h1]
    left
    refine ⟨rfl, h1.2, ?_⟩
    rw [h1.1, abs_zero]
    exact (two_zpow_pos _).le
  · rw [if_neg h1, pow2_eq]
    have ha : absOf (sub c.p l.prevZ z) = |sub c.p l.prevZ z| := by
      unfold absOf
      split
      · rename_i h; rw [abs_of_neg h]
      · rename_i h; rw [abs_of_nonneg (not_lt.1 h)]
    rw [ha]
    by_cases h2 : |sub c.p l.prevZ z| ≤ 2 ^ (expo z - (pz : ℤ)) ∧ 3 ≤ l.i
    · rw [if_pos h2]
      exact Or.inl ⟨rfl, h2.2, h2.1⟩
    · rw [if_neg h2]
      by_cases h3 : l.i + 1 = l.maxIterations
      · rw [if_pos h3]; exact Or.inr (Or.inl ⟨rfl, h3⟩)
      · rw [if_neg h3]; exact Or.inr (Or.inr ⟨rfl, h3⟩)

/-- A loop comes to an end when its body does. -/
theorem iterate_ends (c : Ctx) (pz : ℕ) (body : ℕ → σ → R σ) (zOf : σ → ℚ) (advance : ℕ → σ → R σ) (Inv : ℕ → σ → Prop)
    (hb : ∀ i s, Inv i s → ∃ s', body i s = .ok s' ∧ ∃ s'', advance (i + 1) s' = .ok s'' ∧ Inv (i + 1) s'') :
    ∀ (fuel : ℕ) (l : Loop) (s : σ), l.i < l.maxIterations → l.maxIterations ≤ fuel + l.i → Inv l.i s →
      Ends (iterate c pz body zOf advance fuel l s)
  | 0, l, s, h1, h2, _ => by omega
  | fuel + 1, l, s, h1, h2, hi => by
    obtain ⟨s1, e1, s2, e2, hi2⟩ := hb _ _ hi
    unfold iterate
    rw [e1, bindOk]
    rcases done_cases c l pz (zOf s1) with ⟨h, _⟩ | ⟨h, _⟩ | ⟨h, hne⟩
    · rw [h, bindOk]; trivial
    · rw [h, bindErr]; trivial
    · rw [h, bindOk]
      dsimp only
      rw [e2, bindOk]
      exact iterate_ends c pz body zOf advance Inv hb fuel _ s2 (by show l.i + 1 < l.maxIterations; omega)
        (by show l.maxIterations ≤ fuel + (l.i + 1); omega) hi2

/-- What holds when a loop ends. -/
theorem iterate_inv (c : Ctx) (pz : ℕ) (body : ℕ → σ → R σ) (zOf : σ → ℚ) (advance : ℕ → σ → R σ) (Inv : Loop → σ → Prop)
    (hstep : ∀ l s s1 s2, Inv l s → body l.i s = .ok s1 → advance (l.i + 1) s1 = .ok s2 → l.i + 1 ≠ l.maxIterations →
      Inv ⟨l.i + 1, l.maxIterations, rnd c.p (zOf s1)⟩ s2) :
    ∀ (fuel : ℕ) (l : Loop) (s r : σ), Inv l s → iterate c pz body zOf advance fuel l s = .ok r →
      ∃ l' s', Inv l' s' ∧ body l'.i s' = .ok r ∧ 3 ≤ l'.i ∧ |sub c.p l'.prevZ (zOf r)| ≤ 2 ^ (expo (zOf r) - (pz : ℤ))
  | 0, l, s, r, _, h => by cases h
  | fuel + 1, l, s, r, hi, h => by
    unfold iterate at h
    obtain ⟨s1, e1, h⟩ := bind_eq_ok h
    rcases done_cases c l pz (zOf s1) with ⟨hd, h3, h4⟩ | ⟨hd, _⟩ | ⟨hd, hne⟩
    · rw [hd, bindOk] at h
      cases h
      exact ⟨l, s, hi, e1, h3, h4⟩
    · rw [hd, bindErr] at h; cases h
    · rw [hd, bindOk] at h
      dsimp only at h
      obtain ⟨s2, e2, h⟩ := bind_eq_ok h
      exact iterate_inv c pz body zOf advance Inv hstep fuel _ s2 r (hstep l s s1 s2 hi e1 e2 hne) h

theorem newLoop_lt (c : Ctx) (k : ℕ) : (newLoop c k).i < (newLoop c k).maxIterations := by
  show 0 < 10 + k * c.p; omega

/-! ## The functions -/

theorem succ_pos' (i : ℕ) : (0 : ℚ) < (i : ℚ) + 1 := by positivity

theorem seriesBody_ok {c : Ctx} {s : Series} (h : s.fact ≠ 0) :
    seriesBody c s = .ok { s with z := add c.p s.z (rnd c.p (s.xN / s.fact)) } := by
  unfold seriesBody; rw [quo_ok h]; rfl

theorem ends_series (c : Ctx) (advance : ℕ → Series → R Series) (s : Series) (k fuel : ℕ)
    (ha : ∀ i s, 0 < s.fact → 1 ≤ i → ∃ s', advance i s = .ok s' ∧ 0 < s'.fact) (hs : 0 < s.fact) (hf : 10 + k * c.p ≤ fuel) :
    Ends (iterate c c.p (fun _ => seriesBody c) Series.z advance fuel (newLoop c k) s) := by
  refine iterate_ends c c.p _ _ _ (fun _ s => 0 < s.fact) ?_ fuel _ s (newLoop_lt c k) (by show 10 + k * c.p ≤ fuel + 0; omega) hs
  intro i s h
  refine ⟨_, seriesBody_ok h.ne', ?_⟩
  exact ha (i + 1) _ h (by omega)

theorem exponential_ends {c : Ctx} (hp : 1 ≤ c.p) (fuel : ℕ) (hf : 10 + 10 * c.p ≤ fuel) (x : ℚ) : Ends (exponential c fuel x) := by
  refine ends_bind (ends_series c _ _ 10 fuel ?_ (rnd_pos hp one_pos) hf) (fun _ _ => trivial)
  intro i s h _
  exact ⟨_, rfl, rnd_pos hp (mul_pos h (rnd_pos hp (succ_pos' i)))⟩

theorem floatSinh_ends {c : Ctx} (hp : 1 ≤ c.p) (fuel : ℕ) (hf : 10 + 10 * c.p ≤ fuel) (x : ℚ) : Ends (floatSinh c fuel x) := by
  refine ends_bind (ends_series c _ _ 10 fuel ?_ (rnd_pos hp one_pos) hf) (fun _ _ => trivial)
  intro i s h hi
  refine ⟨_, rfl, ?_⟩
  have : (1 : ℚ) ≤ i := by exact_mod_cast hi
  exact rnd_pos hp (mul_pos (rnd_pos hp (mul_pos h (rnd_pos hp (by linarith)))) (rnd_pos hp (by linarith)))

theorem floatCosh_ends {c : Ctx} (hp : 1 ≤ c.p) (fuel : ℕ) (hf : 10 + 10 * c.p ≤ fuel) (x : ℚ) : Ends (floatCosh c fuel x) := by
  refine ends_bind (ends_series c _ _ 10 fuel ?_ (rnd_pos hp two_pos) hf) (fun _ _ => trivial)
  intro i s h hi
  refine ⟨_, rfl, ?_⟩
  have : (1 : ℚ) ≤ i := by exact_mod_cast hi
  exact rnd_pos hp (mul_pos (rnd_pos hp (mul_pos h (rnd_pos hp (by linarith)))) (rnd_pos hp (by linarith)))

theorem floatTanh_ends {c : Ctx} (hp : 1 ≤ c.p) (fuel : ℕ) (hf : 10 + 10 * c.p ≤ fuel) (x : ℚ) : Ends (floatTanh c fuel x) := by
  refine ends_bind (floatCosh_ends hp fuel hf x) fun d _ => ?_
  split
  · trivial
  · rename_i h; exact ends_bind (floatSinh_ends hp fuel hf x) fun n _ => ends_quo h

theorem logBody_ok {c : Ctx} (hp : 1 ≤ c.p) (i : ℕ) (s : ℚ × ℚ) :
    logBody c i s = .ok (s.1, sub c.p s.2 (rnd c.p (s.1 / rnd c.p ((i : ℚ) + 1)))) := by
  unfold logBody; rw [quo_ok (rnd_pos hp (succ_pos' i)).ne']; rfl

theorem floatLog_ends {c : Ctx} (hp : 1 ≤ c.p) (fuel : ℕ) (hf : 10 + 40 * c.p ≤ fuel) (x : ℚ) : Ends (floatLog c fuel x) := by
  unfold floatLog
  by_cases h0 : x ≤ 0
  · rw [if_pos h0]; trivial
  rw [if_neg h0]
  by_cases h1 : x = 1
  · rw [if_pos h1]; trivial
  rw [if_neg h1]
  have hx := rnd_pos hp (not_le.1 h0)
  refine ends_bind ?_ fun y _ => ?_
  · split
    · exact ends_quo hx.ne'
    · trivial
  · refine ends_bind ?_ fun _ _ => trivial
    refine iterate_ends c c.p _ _ _ (fun _ _ => True) ?_ fuel _ _ (newLoop_lt c 40) (by show 10 + 40 * c.p ≤ fuel + 0; omega) trivial
    intro i s _
    exact ⟨_, logBody_ok hp i s, _, rfl, trivial⟩

theorem eps_pos (p : ℕ) : (0 : ℚ) < 2 ^ (-(p : ℤ)) := two_zpow_pos _

theorem eps_le {p k : ℕ} (h : k ≤ p) : (2 : ℚ) ^ (-(p : ℤ)) ≤ 1 / 2 ^ k := by
  rw [zpow_neg, zpow_natCast, ← one_div]
  exact one_div_le_one_div_of_le (by positivity) (pow_le_pow_right₀ (by norm_num) h)

theorem rnd_hi {p : ℕ} {q : ℚ} (h : 0 ≤ q) : rnd p q ≤ q * (1 + 2 ^ (-(p : ℤ))) := by
  have := (abs_le.1 (rnd_err p q)).2
  rw [abs_of_nonneg h] at this
  linarith

theorem rnd_lo {p : ℕ} {q : ℚ} (h : 0 ≤ q) : q * (1 - 2 ^ (-(p : ℤ))) ≤ rnd p q := by
  have := (abs_le.1 (rnd_err p q)).1
  rw [abs_of_nonneg h] at this
  linarith

theorem rnd_double (p : ℕ) (hp : 1 ≤ p) (z : ℚ) : mul p (rnd p 2) z = 2 * rnd p z := by
  unfold mul
  rw [rnd_two hp, mul_comm, show z * (2 : ℚ) = z * 2 ^ (1 : ℤ) by simp, rnd_scale, zpow_one, mul_comm]

/-- Newton's step never divides by zero, and keeps the root positive. -/
theorem sqrtStep_ok {c : Ctx} {pz : ℕ} (hp : 1 ≤ c.p) {x z : ℚ} (hz : 0 < z) :
    sqrtStep c pz x z = .ok (sub pz z (rnd c.p (sub c.p (mul c.p z z) x / mul c.p (rnd c.p 2) z))) := by
  unfold sqrtStep
  rw [quo_ok]
  · rfl
  · exact (rnd_pos hp (mul_pos (rnd_pos hp two_pos) hz)).ne'

theorem sqrtStep_pos {c : Ctx} {pz : ℕ} (hp : 3 ≤ c.p) (hz : 1 ≤ pz) {x z r : ℚ} (hx : 0 < x) (h : 0 < z) (hr : sqrtStep c pz x z = .ok r) : 0 < r := by
  rw [sqrtStep_ok (by omega) h] at hr
  injection hr with hr
  rw [← hr]
  apply rnd_pos hz
  rw [sub_pos]
  rw [rnd_double c.p (by omega)]
  have he := eps_le (p := c.p) hp
  have he0 := eps_pos c.p
  have hW := rnd_lo (p := c.p) h.le
  have hA := rnd_hi (p := c.p) (mul_pos h h).le
  have hWp := rnd_pos (p := c.p) (by omega) h
  have hB : sub c.p (mul c.p z z) x ≤ mul c.p z z := by
    have : sub c.p (mul c.p z z) x ≤ rnd c.p (mul c.p z z) := rnd_mono (by omega) (by linarith)
    rwa [show rnd c.p (mul c.p z z) = mul c.p z z from rnd_rnd (by omega) _] at this
  generalize (2 : ℚ) ^ (-(c.p : ℤ)) = e at *
  have hA' : mul c.p z z ≤ z * z * (1 + e) := hA
  have hq : sub c.p (mul c.p z z) x / (2 * rnd c.p z) ≤ z * (3 / 4) := by
    rw [div_le_iff₀ (by linarith)]
    have h1 : z * (3 / 4) * (2 * (z * (1 - e))) ≤ z * (3 / 4) * (2 * rnd c.p z) := by
      apply mul_le_mul_of_nonneg_left _ (by linarith); linarith
    have h2 : z * z * (1 + e) ≤ z * (3 / 4) * (2 * (z * (1 - e))) := by
      have hz2 : 0 < z * z := mul_pos h h
      nlinarith
    linarith
  have hN := rnd_mono (p := c.p) (by omega) hq
  have hN2 := rnd_hi (p := c.p) (q := z * (3 / 4)) (by linarith)
  have he' := eps_le (p := c.p) hp
  have : rnd c.p (z * (3 / 4)) < z := by nlinarith
  linarith

theorem floatSqrt_ends {c : Ctx} (hp : 3 ≤ c.p) (fuel : ℕ) (hf : 10 + c.p ≤ fuel) (x : Fl) (hx : 1 ≤ x.prec) : Ends (floatSqrt c fuel x) := by
  unfold floatSqrt
  by_cases h0 : x.val < 0
  · rw [if_pos h0]; trivial
  rw [if_neg h0]
  by_cases h1 : x.val = 0
  · rw [if_pos h1]; trivial
  rw [if_neg h1]
  have hpos : 0 < x.val := lt_of_le_of_ne (not_lt.1 h0) (Ne.symm h1)
  refine ends_bind ?_ fun _ _ => trivial
  refine iterate_ends c x.prec _ _ _ (fun _ z => 0 < z) ?_ fuel _ _ (newLoop_lt c 1) (by show 10 + 1 * c.p ≤ fuel + 0; omega) ?_
  · intro i z hz
    exact ⟨_, sqrtStep_ok (by omega) hz, _, rfl, sqrtStep_pos hp hx hpos hz (sqrtStep_ok (by omega) hz)⟩
  · rw [pow2_eq, pow2_eq]
    exact mul_pos (rnd_pos hx (mul_pos hpos (two_zpow_pos _))) (two_zpow_pos _)

end Verif.Flt
