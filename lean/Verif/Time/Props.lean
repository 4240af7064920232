import Verif.Time.Lemmas

/-!
# C79: times

Full statement: `'T' encode` gives the date and time of the Gregorian calendar in the configured zone; `'T' decode` of that vector is the number of seconds again, up to a rounding to
nanoseconds; it goes by the offset in the vector if there is one, and it changes no variable. The last three do not hold: the zone of the machine is confused with the configured
one (`C79_violated_offset`, `C79_violated_zone`), and the seconds in the vector are overwritten (`C79_violated_operand`).
-/

namespace Verif.Time
open Verif.Flt
open Verif.Arr (R)

/-! ## The calendar -/

/-- Dates follow each other in both directions, and day 0 is 1 January 1970. -/
theorem C79_calendar : civilDate 0 = (1970, 1, 1) ∧
    (∀ y, isLeap y = true ↔ Spec.Leap y) ∧
    ∀ n : ℤ, Spec.next (isLeap (civilDate n).1) ⟨(civilDate n).1, (civilDate n).2.1, (civilDate n).2.2⟩ = ⟨(civilDate (n + 1)).1, (civilDate (n + 1)).2.1, (civilDate (n + 1)).2.2⟩ ∧
      1 ≤ (civilDate n).2.1 ∧ (civilDate n).2.1 ≤ 12 ∧ 1 ≤ (civilDate n).2.2 ∧ (civilDate n).2.2 ≤ Spec.monthLength (isLeap (civilDate n).1) (civilDate n).2.1 :=
  ⟨by decide +kernel, isLeap_iff, fun n => ⟨civil_next n, civil_valid n⟩⟩

/-- 29 February 2024, the day before 1970, and a year before the first. -/
example : civilDate 19782 = (2024, 2, 29) ∧ civilDate (-1) = (1969, 12, 31) ∧ civilDate (-800000) = (-221, 9, 4) := by decide +kernel

/-- The vector of `encode`: it is the date and the time of day of the instant, in the zone; the instant is that of the operand, to a nanosecond and a half. -/
theorem C79_encode (c : Conf) (x : Fl) (hp : 53 ≤ x.prec) (hx : |x.val| < 2 ^ 53) :
    ∃ (t nsec n h mi s : ℤ) (f : ℚ), encodeTime c x = [.int (civilDate n).1, .int (civilDate n).2.1, .int (civilDate n).2.2, .int h, .int mi, .flt ⟨53, f⟩, .int (c.zone t)] ∧
      t + c.zone t = 86400 * n + 3600 * h + 60 * mi + s ∧ 0 ≤ h ∧ h < 24 ∧ 0 ≤ mi ∧ mi < 60 ∧ 0 ≤ s ∧ s < 60 ∧ 0 ≤ nsec ∧ nsec < 1000000000 ∧
      |((t : ℚ) + nsec / 1000000000) - x.val| ≤ 16 / 10 ^ 10 ∧ |f - (s + nsec / 1000000000)| ≤ 1 / 10 ^ 14 := by
  obtain ⟨t, n, htn, hm0, hm1, h1⟩ := time_spec hp hx
  unfold encodeTime timeVec
  rw [htn]
  dsimp only
  obtain ⟨u, hu'⟩ : ∃ u, u = t + c.zone t := ⟨_, rfl⟩
  rw [← hu']
  refine ⟨t, n, u / 86400, u % 86400 / 3600, u % 86400 % 3600 / 60, u % 86400 % 60, _, rfl, by omega, by omega, by omega, by omega, by omega, by omega, by omega, hm0, hm1, h1, ?_⟩
  · have e1 := err_of (le_refl 53) ((n : ℚ) / 1000000000)
    have hs0 : (0 : ℚ) ≤ (u % 86400 % 60 : ℤ) := by exact_mod_cast (by omega : 0 ≤ u % 86400 % 60)
    have hs1 : ((u % 86400 % 60 : ℤ) : ℚ) ≤ 59 := by exact_mod_cast (by omega : u % 86400 % 60 ≤ 59)
    have hn0 : (0 : ℚ) ≤ n := by exact_mod_cast hm0
    have hn1 : (n : ℚ) ≤ 999999999 := by exact_mod_cast (by omega : n ≤ 999999999)
    generalize ((u % 86400 % 60 : ℤ) : ℚ) = s at *
    rw [abs_of_nonneg (by positivity : (0 : ℚ) ≤ n / 1000000000)] at e1
    have hr0 : 0 ≤ rnd 53 ((n : ℚ) / 1000000000) := rnd_nonneg (by norm_num) (by positivity)
    generalize rnd 53 ((n : ℚ) / 1000000000) = r at *
    have e1' : |r - n / 1000000000| ≤ 1 / 2 ^ 53 := le_trans e1 (mul_le_of_le_one_left (by positivity) (by linarith))
    rw [abs_le] at e1'
    have e2 := err_of (le_refl 53) (s + r)
    rw [abs_of_nonneg (by linarith : 0 ≤ s + r)] at e2
    have e2' : |rnd 53 (s + r) - (s + r)| ≤ 61 * (1 / 2 ^ 53) := le_trans e2 (mul_le_mul_of_nonneg_right (by linarith) (by positivity))
    rw [abs_le] at e2' ⊢
    have he : (1 : ℚ) / 2 ^ 53 ≤ 1 / 10 ^ 14 / 62 := by norm_num
    constructor <;> linarith

/-- Fourteen hours past noon of 14 November 2023. -/
example : encodeTime ⟨0, fixedZone 0, fixedZone 3600⟩ ⟨256, 1700000000⟩ = [.int 2023, .int 11, .int 14, .int 23, .int 13, .flt ⟨53, 20⟩, .int 3600] := by decide +kernel

/-! ## Back -/

/-- The vector of `encode` is decoded to the instant, provided that the offset is not that of the machine, or that the location of the configuration has this offset at all times. -/
theorem C79_back_partial (c : Conf) (x : Fl) (hp : 53 ≤ x.prec) (hx : |x.val| < 2 ^ 53)
    (hz : ∀ t, c.zone t = c.nowOffset → ∀ u, c.location u = c.zone t) :
    ∃ y v, decodeTime c (encodeTime c x) = .ok (y, v) ∧ |y - x.val| ≤ 16 / 10 ^ 10 + (|x.val| + 4) * (1 / 2 ^ 62) := by
  obtain ⟨t, n, htn, hm0, hm1, h1⟩ := time_spec hp hx
  unfold encodeTime timeVec
  rw [htn]
  dsimp only
  obtain ⟨u, hu'⟩ : ∃ u, u = t + c.zone t := ⟨_, rfl⟩
  rw [← hu']
  obtain ⟨b1, b2⟩ := secNsec_back (S := u % 86400 % 60) (N := n) (by omega) (by omega) hm0 hm1
  obtain ⟨y, hy, ey⟩ := total_err t n hm0 hm1
  refine ⟨y, [.int (civilDate (u / 86400)).1, .int (civilDate (u / 86400)).2.1, .int (civilDate (u / 86400)).2.2, .int (u % 86400 / 3600), .int (u % 86400 % 3600 / 60),
    .flt (secNsec ⟨53, rnd 53 (((u % 86400 % 60 : ℤ) : ℚ) + rnd 53 ((n : ℚ) / 1000000000))⟩).2.2, .int (c.zone t)], ?_, ?_⟩
  · unfold decodeTime
    dsimp only
    simp only [List.length_cons, List.length_nil, List.getElem?_cons_succ, List.getElem?_cons_zero, toInt, seconds, Verif.Arr.R.bind]
    rw [if_neg (by norm_num), b1, b2, civil_seconds]
    have hsec : u / 86400 * 86400 + u % 86400 / 3600 * 3600 + u % 86400 % 3600 / 60 * 60 + u % 86400 % 60 = u := by omega
    rw [hsec]
    have hd : dateIn (if c.zone t ≠ c.nowOffset then fixedZone (c.zone t) else c.location) u = t := by
      split
      · unfold dateIn fixedZone; omega
      · rename_i hne
        have := hz t (not_not.1 hne)
        unfold dateIn; rw [this, hu']; omega
    rw [hd, hy]
    rfl
  · have hxa := neg_abs_le x.val
    have hxb := le_abs_self x.val
    have hT : |(t : ℚ)| ≤ |x.val| + 2 := by
      have hn0 : (0 : ℚ) ≤ n := by exact_mod_cast hm0
      have hn1 : (n : ℚ) ≤ 999999999 := by exact_mod_cast (by omega : n ≤ 999999999)
      rw [abs_le] at h1 ⊢
      constructor <;> linarith
    have e2 : (|(t : ℚ)| + 2) * (1 / 2 ^ 62) ≤ (|x.val| + 4) * (1 / 2 ^ 62) := mul_le_mul_of_nonneg_right (by linarith) (by positivity)
    rw [abs_le] at h1 ey ⊢
    constructor <;> linarith

/-- With one offset throughout there is no condition. -/
theorem C79_back_fixed (c : Conf) (o : ℤ) (h1 : c.location = fixedZone o) (h2 : c.zone = fixedZone o) (x : Fl) (hp : 53 ≤ x.prec) (hx : |x.val| < 2 ^ 53) :
    ∃ y v, decodeTime c (encodeTime c x) = .ok (y, v) ∧ |y - x.val| ≤ 16 / 10 ^ 10 + (|x.val| + 4) * (1 / 2 ^ 62) :=
  C79_back_partial c x hp hx (fun t _ u => by rw [h1, h2]; rfl)

example : (∃ v, decodeTime ⟨0, fixedZone 3600, fixedZone 3600⟩ (encodeTime ⟨0, fixedZone 3600, fixedZone 3600⟩ ⟨256, mkRat 3400000001 2⟩) = .ok (mkRat 3400000001 2, v)) ∧
    |(⟨256, mkRat 3400000001 2⟩ : Fl).val| < 2 ^ 53 := by
  refine ⟨⟨[.int 2023, .int 11, .int 14, .int 23, .int 13, .flt ⟨53, mkRat 1000000001 2⟩, .int 3600], by decide +kernel⟩, by decide +kernel⟩

/-- Fields beyond their range are carried, in every vector of whole numbers. -/
theorem C79_carry (y m d h mi s k : ℤ) :
    civilSeconds y (m + 12 * k) d h mi s = civilSeconds (y + k) m d h mi s ∧
    civilSeconds y m (d + k) h mi s = civilSeconds y m d h mi s + 86400 * k ∧
    civilSeconds y m d (h + k) mi s = civilSeconds y m d h mi s + 3600 * k ∧
    civilSeconds y m d h (mi + k) s = civilSeconds y m d h mi s + 60 * k ∧
    civilSeconds y m d h mi (s + k) = civilSeconds y m d h mi s + k := by
  refine ⟨?_, ?_, ?_, ?_, ?_⟩
  · unfold civilSeconds
    dsimp only
    rw [show y + (m + 12 * k - 1) / 12 = y + k + (m - 1) / 12 by omega, show (m + 12 * k - 1) % 12 = (m - 1) % 12 by omega]
  all_goals unfold civilSeconds; dsimp only; ring

/-- Without an offset, a vector is decoded in the location of the configuration. -/
theorem C79_decode (c : Conf) (o : ℤ) (hc : c.location = fixedZone o) (y m d h mi s : ℤ) :
    ∃ r, decodeTime c [.int y, .int m, .int d, .int h, .int mi, .int s] = .ok (r, [.int y, .int m, .int d, .int h, .int mi, .int s]) ∧
      |r - ((civilSeconds y m d h mi s - o : ℤ) : ℚ)| ≤ (|((civilSeconds y m d h mi s - o : ℤ) : ℚ)| + 2) * (1 / 2 ^ 62) := by
  obtain ⟨r, hr, er⟩ := total_err (civilSeconds y m d h mi s - o) 0 (by norm_num) (by norm_num)
  refine ⟨r, ?_, ?_⟩
  · unfold decodeTime
    simp only [List.length_cons, List.length_nil, List.getElem?_cons_succ, List.getElem?_cons_zero, List.getElem?_nil, toInt, seconds, Verif.Arr.R.bind, hc]
    rw [if_neg (by norm_num)]
    have : dateIn (fixedZone o) (civilSeconds y m d h mi s) = civilSeconds y m d h mi s - o := rfl
    rw [this, hr]
    rfl
  · simpa using er

/-- 15 June 2023, 12:30:10, one hour east; the thirteenth month is January. -/
example : decodeTime ⟨0, fixedZone 3600, fixedZone 3600⟩ [.int 2023, .int 6, .int 15, .int 12, .int 30, .int 10] = .ok (1686828610, [.int 2023, .int 6, .int 15, .int 12, .int 30, .int 10]) ∧
    civilSeconds 2023 13 1 0 0 0 = civilSeconds 2024 1 1 0 0 0 := by decide +kernel

/-- Times in a location whose offset changes, at most once in the time around: if the clocks there show the time `t` at some instant, `time.Date` is such an instant. -/
theorem C79_location (z : Zone) (t T a b : ℤ) (ha : |a| ≤ 100000) (hb : |b| ≤ 100000) (hz : ∀ u, |u - t| ≤ 100000 → z u = if u < T then a else b)
    (r : ℤ) (hr : r + z r = t) (hr' : |r - t| ≤ 100000) : dateIn z t + z (dateIn z t) = t := by
  have ha' := abs_le.1 ha
  have hb' := abs_le.1 hb
  have h1 := hz r hr'
  have h2 := hz t (by simp)
  have h3 : z (t - z t) = if t - z t < T then a else b := hz _ (by rw [abs_le]; split at h2 <;> omega)
  have h4 : z (dateIn z t) = if dateIn z t < T then a else b := hz _ (by
    unfold dateIn
    rw [abs_le]; split at h3 <;> omega)
  unfold dateIn at h4 ⊢
  split at h1 <;> split at h2 <;> split at h3 <;> split at h4 <;> omega

/-- Two o'clock on a day in July in London. -/
example : (∀ u, |u - 1720576800| ≤ 100000 → (fun t : ℤ => if 1711846800 ≤ t ∧ t < 1729990800 then (3600 : ℤ) else 0) u = if u < 1700000000 then 0 else 3600) ∧
    dateIn (fun t => if 1711846800 ≤ t ∧ t < 1729990800 then 3600 else 0) 1720576800 = 1720573200 := by
  refine ⟨fun u hu => ?_, by decide⟩
  rw [abs_le] at hu
  dsimp only
  rw [if_pos (by omega), if_neg (by omega)]

/-! ## Violations -/

/-- The offset of the vector is ignored if it is that of the machine: on a machine in UTC, after `)timezone "Asia/Tokyo"`, midnight UTC is taken for midnight in Tokyo. -/
theorem C79_violated_offset : ∃ v w,
    decodeTime (setLocation ⟨0, fixedZone 0, fixedZone 0⟩ 1720000000 (fixedZone 32400)) [.int 2024, .int 1, .int 1, .int 0, .int 0, .int 0, .int 0] = .ok (1704034800, v) ∧
    decodeTime (setLocation ⟨0, fixedZone 0, fixedZone 0⟩ 1720000000 (fixedZone 32400)) [.int 2024, .int 1, .int 1, .int 9, .int 0, .int 0, .int 32400] = .ok (1704067200, w) := by
  refine ⟨[.int 2024, .int 1, .int 1, .int 0, .int 0, .int 0, .int 0], [.int 2024, .int 1, .int 1, .int 9, .int 0, .int 0, .int 32400], by decide +kernel, by decide +kernel⟩

/-- London in 2024. -/
def london : Zone := fun t => if 1711846800 ≤ t ∧ t < 1729990800 then 3600 else 0

/-- On a machine in UTC, after `)timezone "Europe/London"` in summer, `'T' decode 'T' encode s` is an hour less than `s` for times in winter. -/
theorem C79_violated_zone : ∃ v,
    decodeTime (setLocation ⟨0, fixedZone 0, fixedZone 0⟩ 1720000000 london) (encodeTime (setLocation ⟨0, fixedZone 0, fixedZone 0⟩ 1720000000 london) ⟨256, 1705276800⟩) = .ok (1705276800 - 3600, v) := by
  refine ⟨[.int 2024, .int 1, .int 15, .int 0, .int 0, .flt ⟨53, mkRat 1 2⟩, .int 0], by decide +kernel⟩

/-- `x = 'T' encode 1700000000` and `'T' decode x` and `'T' decode x`: the first `decode` puts a half in place of the seconds of `x`, so the second is 20 seconds less; and with a fraction it
puts the nanoseconds there. -/
theorem C79_violated_operand :
    let c : Conf := ⟨0, fixedZone 0, fixedZone 0⟩
    ∃ v w v' w', decodeTime c (encodeTime c ⟨256, 1700000000⟩) = .ok (1700000000, v) ∧ v ≠ encodeTime c ⟨256, 1700000000⟩ ∧ decodeTime c v = .ok (mkRat 3399999961 2, w) ∧
      decodeTime c (encodeTime c ⟨256, mkRat 3 2⟩) = .ok (mkRat 3 2, v') ∧ decodeTime c v' = .ok (mkRat 1000000001 2, w') := by
  refine ⟨[.int 2023, .int 11, .int 14, .int 22, .int 13, .flt ⟨53, mkRat 1 2⟩, .int 0], [.int 2023, .int 11, .int 14, .int 22, .int 13, .flt ⟨53, mkRat 1000000001 2⟩, .int 0],
    [.int 1970, .int 1, .int 1, .int 0, .int 0, .flt ⟨53, mkRat 1000000001 2⟩, .int 0], [.int 1970, .int 1, .int 1, .int 0, .int 0, .flt ⟨53, mkRat 1000000001 2⟩, .int 0], ?_⟩
  decide +kernel

/-- Nothing is changed if the seconds are not a float. -/
theorem C79_operand_partial (c : Conf) (v : List Elem) (h : ∀ f, v[5]? ≠ some (.flt f)) (y : ℚ) (w : List Elem) (hd : decodeTime c v = .ok (y, w)) : w = v := by
  unfold decodeTime at hd
  split at hd
  · simp at hd
  · dsimp only at hd
    have hset : ∀ e, v[5]? = some e → v.set 5 e = v := fun e he => by
      apply List.ext_getElem?
      intro i
      rw [List.getElem?_set]
      split
      · rename_i h5
        subst h5
        split <;> rename_i hl
        · exact he.symm
        · rw [List.getElem?_eq_none (by omega)] at he
          simp at he
      · rfl
    have bindOk' : ∀ {α β : Type} {x : R α} {f : α → R β} {b : β}, x.bind f = .ok b → ∃ a, x = .ok a ∧ f a = .ok b := by
      intro α β x f b hb
      cases x with
      | ok a => exact ⟨a, rfl, hb⟩
      | err e => simp [Verif.Arr.R.bind] at hb
      | crash => simp [Verif.Arr.R.bind] at hb
      | hang => simp [Verif.Arr.R.bind] at hb
    obtain ⟨loc, _, hd⟩ := bindOk' hd
    obtain ⟨r, hr, hd⟩ := bindOk' hd
    obtain ⟨_, _, hd⟩ := bindOk' hd
    obtain ⟨_, _, hd⟩ := bindOk' hd
    obtain ⟨_, _, hd⟩ := bindOk' hd
    obtain ⟨_, _, hd⟩ := bindOk' hd
    obtain ⟨_, _, hd⟩ := bindOk' hd
    obtain ⟨_, _, hd⟩ := bindOk' hd
    have hrv : r.2.2 = v := by
      split at hr
      · rename_i e he
        obtain ⟨q, hq, hr⟩ := bindOk' hr
        have hq2 : q.2.2 = e := by
          cases e with
          | int n => simp [seconds] at hq; rw [← hq]
          | rat n => simp [seconds] at hq; rw [← hq]
          | flt f => exact absurd he (h f)
          | other => simp [seconds] at hq
        simp only [R.ok.injEq] at hr
        rw [← hr]
        dsimp only
        rw [hq2]
        exact hset e he
      · simp only [R.ok.injEq] at hr
        rw [← hr]
    simp only [R.ok.injEq, Prod.mk.injEq] at hd
    rw [← hd.2, hrv]

example : ∀ f, ([.int 2023, .int 6, .int 15, .int 12, .int 30, .rat (mkRat 21 2)] : List Elem)[5]? ≠ some (.flt f) := by intro f; simp

end Verif.Time
