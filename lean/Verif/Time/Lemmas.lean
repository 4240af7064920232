import Verif.Time.Model
import Verif.Time.Spec
import Verif.Flt.Lemmas1

/-! # Lemmas: times -/

namespace Verif.Time
open Verif.Flt
open Verif.Arr (R)

/-! ## The calendar -/

theorem daysBefore_le (leap : Bool) : ∀ yd : Fin 366, (leap = false → (yd : ℕ) < 365) → 1 ≤ (monthDay leap yd).1 ∧ (monthDay leap yd).1 ≤ 12 ∧
    1 ≤ (monthDay leap yd).2 ∧ (monthDay leap yd).2 ≤ Spec.monthLength leap (monthDay leap yd).1 ∧ daysBefore leap (monthDay leap yd).1 + (monthDay leap yd).2 = yd + 1 := by
  cases leap <;> decide +kernel

theorem monthDay_next (leap : Bool) : ∀ yd : Fin 366, (leap = false → (yd : ℕ) < 365) →
    (if (monthDay leap yd).2 < Spec.monthLength leap (monthDay leap yd).1 then monthDay leap (yd + 1) = ((monthDay leap yd).1, (monthDay leap yd).2 + 1) ∧ (yd : ℕ) + 1 < (if leap then 366 else 365)
     else if (monthDay leap yd).1 < 12 then monthDay leap (yd + 1) = ((monthDay leap yd).1 + 1, 1) ∧ (yd : ℕ) + 1 < (if leap then 366 else 365)
     else (yd : ℕ) + 1 = (if leap then 366 else 365)) := by
  cases leap <;> decide +kernel

theorem isLeap_iff (y : ℤ) : isLeap y = true ↔ Spec.Leap y := by
  unfold isLeap Spec.Leap
  simp only [Bool.and_eq_true, Bool.or_eq_true, decide_eq_true_eq]
  omega

/-- Centuries, cycles of four years, years and days. -/
theorem cycles (d : ℤ) : ∃ A c q a yd : ℤ, A = d / 146097 ∧ c = min (d % 146097 / 36524) 3 ∧ q = (d % 146097 - 36524 * c) / 1461 ∧
    a = min ((d % 146097 - 36524 * c) % 1461 / 365) 3 ∧ yd = (d % 146097 - 36524 * c) % 1461 - 365 * a ∧
    d = 146097 * A + 36524 * c + 1461 * q + 365 * a + yd ∧ 0 ≤ c ∧ c ≤ 3 ∧ 0 ≤ q ∧ q ≤ 24 ∧ 0 ≤ a ∧ a ≤ 3 ∧ 0 ≤ yd ∧ yd ≤ 365 ∧ (yd = 365 → a = 3 ∧ (q < 24 ∨ c = 3)) := by
  refine ⟨_, _, _, _, _, rfl, rfl, rfl, rfl, rfl, ?_⟩
  obtain ⟨r, hr⟩ : ∃ r, r = d % 146097 := ⟨_, rfl⟩
  rw [← hr]
  obtain ⟨c, hc⟩ : ∃ c, c = min (r / 36524) 3 := ⟨_, rfl⟩
  rw [← hc]
  have hr0 : 0 ≤ r ∧ r < 146097 := by omega
  have hc0 : 0 ≤ c ∧ c ≤ 3 ∧ 0 ≤ r - 36524 * c ∧ (r - 36524 * c < 36524 ∨ (c = 3 ∧ r - 36524 * c < 36525)) := by omega
  obtain ⟨s, hs⟩ : ∃ s, s = r - 36524 * c := ⟨_, rfl⟩
  rw [← hs] at hc0 ⊢
  obtain ⟨a, ha⟩ : ∃ a, a = min (s % 1461 / 365) 3 := ⟨_, rfl⟩
  rw [← ha]
  omega

/-- The year and the day in it. -/
theorem yearStart_spec (n : ℤ) : ∃ (y : ℤ) (yd : ℕ), civilDate n = (y, monthDay (isLeap y) yd) ∧ yearStart y + yd = n ∧ yd < (if isLeap y then 366 else 365) := by
  obtain ⟨A, c, q, a, yd, hA, hc, hq, ha, hyd, hd, h1, h2, h3, h4, h5, h6, h7, h8, h9⟩ := cycles (n + 719162)
  have hciv : civilDate n = (400 * A + 100 * c + 4 * q + a + 1, monthDay (isLeap (400 * A + 100 * c + 4 * q + a + 1)) yd.toNat) := by
    unfold civilDate
    dsimp only
    rw [← hA, ← hc, ← hq, ← ha, ← hyd]
  refine ⟨_, _, hciv, ?_, ?_⟩
  · unfold yearStart
    have e1 : (400 * A + 100 * c + 4 * q + a + 1 - 1) / 4 = 100 * A + 25 * c + q := by omega
    have e2 : (400 * A + 100 * c + 4 * q + a + 1 - 1) / 100 = 4 * A + c := by omega
    have e3 : (400 * A + 100 * c + 4 * q + a + 1 - 1) / 400 = A := by omega
    rw [e1, e2, e3]
    omega
  · rcases h : isLeap (400 * A + 100 * c + 4 * q + a + 1) with _ | _
    · have h' : ¬Spec.Leap (400 * A + 100 * c + 4 * q + a + 1) := by rw [← isLeap_iff, h]; simp
      unfold Spec.Leap at h'
      simp only [Bool.false_eq_true, if_false]
      by_contra hcon
      obtain ⟨ha3, hqc⟩ := h9 (by omega)
      subst ha3
      apply h'
      rcases hqc with hq24 | hc3
      · right
        constructor
        · omega
        · intro hdvd
          omega
      · by_cases hq24 : q = 24
        · left; subst hc3 hq24; omega
        · right
          constructor
          · omega
          · intro hdvd
            omega
    · simp only [if_true]
      omega

theorem yearStart_next (y : ℤ) : yearStart (y + 1) = yearStart y + (if isLeap y then 366 else 365) := by
  rcases h : isLeap y with _ | _
  · have h' : ¬Spec.Leap y := by rw [← isLeap_iff, h]; simp
    unfold Spec.Leap at h'
    unfold yearStart
    simp only [Bool.false_eq_true, if_false]
    omega
  · have h' : Spec.Leap y := by rw [← isLeap_iff, h]
    unfold Spec.Leap at h'
    unfold yearStart
    simp only [if_true]
    omega

theorem yearStart_mono {y z : ℤ} (h : y + 1 ≤ z) : yearStart (y + 1) ≤ yearStart z := by
  unfold yearStart; omega

/-- The date is the only one with that day number. -/
theorem year_unique {y z : ℤ} {a b : ℕ} (ha : a < (if isLeap y then 366 else 365)) (hb : b < (if isLeap z then 366 else 365)) (h : yearStart y + a = yearStart z + b) : y = z ∧ a = b := by
  have h1 := yearStart_next y
  have h2 := yearStart_next z
  have : y = z := by
    rcases lt_trichotomy y z with hc | hc | hc
    · have := yearStart_mono (y := y) (z := z) (by omega)
      split at ha <;> split at h1 <;> simp_all <;> omega
    · exact hc
    · have := yearStart_mono (y := z) (z := y) (by omega)
      split at hb <;> split at h2 <;> simp_all <;> omega
  subst this
  exact ⟨rfl, by omega⟩

theorem civilDate_of {y : ℤ} {yd : ℕ} (h : yd < (if isLeap y then 366 else 365)) : civilDate (yearStart y + yd) = (y, monthDay (isLeap y) yd) := by
  obtain ⟨z, zd, h1, h2, h3⟩ := yearStart_spec (yearStart y + yd)
  obtain ⟨rfl, rfl⟩ := year_unique h3 h h2
  exact h1

theorem civil_valid (n : ℤ) : 1 ≤ (civilDate n).2.1 ∧ (civilDate n).2.1 ≤ 12 ∧ 1 ≤ (civilDate n).2.2 ∧ (civilDate n).2.2 ≤ Spec.monthLength (isLeap (civilDate n).1) (civilDate n).2.1 := by
  obtain ⟨y, yd, h1, _, h3⟩ := yearStart_spec n
  have hlt : yd < 366 := by split at h3 <;> omega
  have := daysBefore_le (isLeap y) ⟨yd, hlt⟩ (by
    intro h
    rw [h] at h3
    simpa using h3)
  rw [h1]
  exact ⟨this.1, this.2.1, this.2.2.1, this.2.2.2.1⟩

theorem civil_seconds (n h m s : ℤ) : civilSeconds (civilDate n).1 (civilDate n).2.1 (civilDate n).2.2 h m s = n * 86400 + h * 3600 + m * 60 + s := by
  obtain ⟨y, yd, h1, h2, h3⟩ := yearStart_spec n
  have hlt : yd < 366 := by split at h3 <;> omega
  have hd := daysBefore_le (isLeap y) ⟨yd, hlt⟩ (by
    intro h
    rw [h] at h3
    simpa using h3)
  rw [h1]
  dsimp only at hd ⊢
  unfold civilSeconds
  dsimp only
  have e1 : (((monthDay (isLeap y) yd).1 : ℤ) - 1) / 12 = 0 := by omega
  have e2 : ((((monthDay (isLeap y) yd).1 : ℤ) - 1) % 12 + 1).toNat = (monthDay (isLeap y) yd).1 := by omega
  rw [e1, add_zero, e2]
  have e3 := hd.2.2.2.2
  have e4 : (yearStart y + daysBefore (isLeap y) (monthDay (isLeap y) yd).1 + (((monthDay (isLeap y) yd).2 : ℤ) - 1)) = n := by omega
  rw [e4]

theorem civil_next (n : ℤ) :
    let d : Spec.Date := ⟨(civilDate n).1, (civilDate n).2.1, (civilDate n).2.2⟩
    Spec.next (isLeap d.year) d = ⟨(civilDate (n + 1)).1, (civilDate (n + 1)).2.1, (civilDate (n + 1)).2.2⟩ := by
  dsimp only
  obtain ⟨y, yd, h1, h2, h3⟩ := yearStart_spec n
  have hlt : yd < 366 := by split at h3 <;> omega
  have hd := monthDay_next (isLeap y) ⟨yd, hlt⟩ (by
    intro h
    rw [h] at h3
    simpa using h3)
  rw [h1]
  dsimp only at hd ⊢
  unfold Spec.next
  dsimp only
  split at hd
  · rename_i hc
    rw [if_pos hc]
    have := civilDate_of (y := y) (yd := yd + 1) hd.2
    rw [show n + 1 = yearStart y + (yd + 1 : ℕ) by push_cast; omega, this, hd.1]
  · rename_i hc
    rw [if_neg hc]
    split at hd
    · rename_i hc2
      rw [if_pos hc2]
      have := civilDate_of (y := y) (yd := yd + 1) hd.2
      rw [show n + 1 = yearStart y + (yd + 1 : ℕ) by push_cast; omega, this, hd.1]
    · rename_i hc2
      rw [if_neg hc2]
      have hy := yearStart_next y
      have := civilDate_of (y := y + 1) (yd := 0) (by split <;> norm_num)
      have hn : n + 1 = yearStart (y + 1) + (0 : ℕ) := by
        rw [hy]
        split at hd <;> simp_all <;> omega
      rw [hn, this]
      have : ∀ l, monthDay l 0 = (1, 1) := by decide
      rw [this]

/-! ## Seconds -/

theorem trunc_nonneg {q : ℚ} (h : 0 ≤ q) : trunc q = ⌊q⌋ := by
  unfold trunc
  rw [if_neg (not_lt.2 h)]
  exact floor_eq q

theorem trunc_err (q : ℚ) : |(trunc q : ℚ) - q| < 1 := by
  unfold trunc
  split
  · have h1 := Int.floor_le (-q)
    have h2 := Int.lt_floor_add_one (-q)
    rw [← floor_eq] at h1 h2
    push_cast
    rw [abs_lt]; constructor <;> linarith
  · have h1 := Int.floor_le q
    have h2 := Int.lt_floor_add_one q
    rw [← floor_eq] at h1 h2
    rw [abs_lt]; constructor <;> linarith

theorem trunc_eq {q : ℚ} {n : ℤ} (h0 : 0 ≤ n) (h1 : (n : ℚ) ≤ q) (h2 : q < n + 1) : trunc q = n := by
  rw [trunc_nonneg (le_trans (by exact_mod_cast h0) h1), Int.floor_eq_iff]
  exact ⟨h1, h2⟩

theorem trunc_abs (q : ℚ) : |(trunc q : ℚ)| ≤ |q| := by
  unfold trunc
  split
  · rename_i h
    have h1 := Int.floor_le (-q)
    have h0 : 0 ≤ ⌊-q⌋ := Int.floor_nonneg.2 (by linarith)
    have h0' : (0 : ℚ) ≤ ⌊-q⌋ := by exact_mod_cast h0
    rw [floor_eq]
    push_cast
    rw [abs_neg, abs_of_nonneg h0', abs_of_neg h]
    exact h1
  · rename_i h
    have h1 := Int.floor_le q
    have h0 : 0 ≤ ⌊q⌋ := Int.floor_nonneg.2 (by linarith)
    have h0' : (0 : ℚ) ≤ ⌊q⌋ := by exact_mod_cast h0
    rw [floor_eq, abs_of_nonneg h0', abs_of_nonneg (not_lt.1 h)]
    exact h1

theorem err_of {p k : ℕ} (hk : k ≤ p) (q : ℚ) : |rnd p q - q| ≤ |q| * (1 / 2 ^ k) := by
  refine le_trans (rnd_err p q) (mul_le_mul_of_nonneg_left ?_ (abs_nonneg q))
  rw [show (1 : ℚ) / 2 ^ k = 2 ^ (-(k : ℤ)) by rw [zpow_neg, zpow_natCast]; norm_num]
  exact zpow_le_zpow_right₀ (by norm_num) (by omega)

/-- The nanoseconds before rounding. -/
theorem nano_err {p : ℕ} (hp : 53 ≤ p) {s : ℤ} (hs : |s| < 2 ^ 53) {x : ℚ} (hx : |x - s| ≤ 1) :
    |add p (mul p (sub p x (rnd 53 s)) 1000000000) (mkRat 1 2) - ((x - s) * 1000000000 + 1 / 2)| ≤ 1 / 2000000 := by
  rw [rnd_self (by norm_num) (isFloat_int hs), half_eq]
  unfold add mul sub
  have e1 := err_of hp (x - s)
  set a := rnd p (x - s)
  have e2 := err_of hp (a * 1000000000)
  set b := rnd p (a * 1000000000)
  have e3 := err_of hp (b + 1 / 2)
  set c := rnd p (b + 1 / 2)
  set y := x - s
  have e1' : |a - y| ≤ 1 / 2 ^ 53 := le_trans e1 (mul_le_of_le_one_left (by positivity) hx)
  rw [abs_le] at e1' hx
  have ha : |a * 1000000000| ≤ 1000000001 := by rw [abs_le]; constructor <;> linarith
  have e2' : |b - a * 1000000000| ≤ 1000000001 * (1 / 2 ^ 53) := le_trans e2 (mul_le_mul_of_nonneg_right ha (by positivity))
  rw [abs_le] at e2'
  have hb : |b + 1 / 2| ≤ 1000000002 := by rw [abs_le]; constructor <;> linarith
  have e3' : |c - (b + 1 / 2)| ≤ 1000000002 * (1 / 2 ^ 53) := le_trans e3 (mul_le_mul_of_nonneg_right hb (by positivity))
  rw [abs_le] at e3' ⊢
  constructor <;> linarith

theorem secNsec_err {x : Fl} (hp : 53 ≤ x.prec) (hx : |x.val| < 2 ^ 53) :
    |(((secNsec x).1 : ℚ) + (secNsec x).2.1 / 1000000000) - x.val| ≤ 16 / 10 ^ 10 ∧ (0 ≤ x.val → |(((secNsec x).1 : ℚ) + (secNsec x).2.1 / 1000000000) - x.val| ≤ 6 / 10 ^ 10) := by
  have ht := trunc_err x.val
  have hs : |trunc x.val| < 2 ^ 53 := by
    have := lt_of_le_of_lt (trunc_abs x.val) hx
    exact_mod_cast this
  have h1 : |x.val - trunc x.val| ≤ 1 := by rw [abs_sub_comm]; exact ht.le
  have h2 := nano_err hp hs h1
  unfold secNsec
  dsimp only
  set f := add x.prec (mul x.prec (sub x.prec x.val (rnd 53 (trunc x.val))) 1000000000) (mkRat 1 2)
  have h3 := trunc_err f
  set s := trunc x.val
  rw [abs_le] at h2
  constructor
  · rw [abs_lt] at h3
    rw [abs_le]
    constructor <;> linarith
  · intro h0
    have hfl : (s : ℚ) ≤ x.val := by
      show ((trunc x.val : ℤ) : ℚ) ≤ x.val
      rw [trunc_nonneg h0]; exact Int.floor_le _
    have hf0 : 0 ≤ f := by linarith
    have h4 := Int.floor_le f
    have h5 := Int.lt_floor_add_one f
    rw [trunc_nonneg hf0]
    rw [abs_le]
    constructor <;> linarith

theorem time_spec {x : Fl} (hp : 53 ≤ x.prec) (hx : |x.val| < 2 ^ 53) :
    ∃ t n : ℤ, timeFromValue x = (t, n) ∧ 0 ≤ n ∧ n < 1000000000 ∧ |((t : ℚ) + n / 1000000000) - x.val| ≤ 16 / 10 ^ 10 := by
  obtain ⟨h1, _⟩ := secNsec_err hp hx
  unfold timeFromValue unixTime
  dsimp only
  set S := (secNsec x).1
  set N := (secNsec x).2.1
  have hu : ((S + N / 1000000000 : ℤ) : ℚ) + ((N % 1000000000 : ℤ) : ℚ) / 1000000000 = S + N / 1000000000 := by
    have hN : (N : ℚ) = 1000000000 * ((N / 1000000000 : ℤ) : ℚ) + ((N % 1000000000 : ℤ) : ℚ) := by exact_mod_cast (Int.mul_ediv_add_emod N 1000000000).symm
    rw [hN]
    push_cast
    field_simp
    ring
  refine ⟨_, _, rfl, by omega, by omega, ?_⟩
  rw [hu]
  exact h1

/-- The seconds of the vector are split as they were put together. -/
theorem secNsec_back {S N : ℤ} (hS : 0 ≤ S) (hS' : S < 60) (hN : 0 ≤ N) (hN' : N < 1000000000) :
    (secNsec ⟨53, rnd 53 ((S : ℚ) + rnd 53 ((N : ℚ) / 1000000000))⟩).1 = S ∧ (secNsec ⟨53, rnd 53 ((S : ℚ) + rnd 53 ((N : ℚ) / 1000000000))⟩).2.1 = N := by
  have hSq : (0 : ℚ) ≤ S := by exact_mod_cast hS
  have hSq' : (S : ℚ) ≤ 59 := by exact_mod_cast (by omega : S ≤ 59)
  have hNq : (0 : ℚ) ≤ N := by exact_mod_cast hN
  have hNq' : (N : ℚ) ≤ 999999999 := by exact_mod_cast (by omega : N ≤ 999999999)
  have e1 := err_of (le_refl 53) ((N : ℚ) / 1000000000)
  have hr0 : 0 ≤ rnd 53 ((N : ℚ) / 1000000000) := rnd_nonneg (by norm_num) (by positivity)
  rw [abs_of_nonneg (by positivity : (0 : ℚ) ≤ N / 1000000000)] at e1
  set r := rnd 53 ((N : ℚ) / 1000000000)
  have e1' : |r - N / 1000000000| ≤ 1 / 2 ^ 53 := le_trans e1 (mul_le_of_le_one_left (by positivity) (by linarith))
  rw [abs_le] at e1'
  have e2 := err_of (le_refl 53) ((S : ℚ) + r)
  have hf1 : (S : ℚ) ≤ rnd 53 (S + r) := float_le_rnd (by norm_num) (isFloat_int (by rw [abs_lt]; constructor <;> omega)) (by linarith)
  rw [abs_of_nonneg (by linarith : 0 ≤ (S : ℚ) + r)] at e2
  set f := rnd 53 ((S : ℚ) + r)
  have e2' : |f - (S + r)| ≤ 61 * (1 / 2 ^ 53) := le_trans e2 (mul_le_mul_of_nonneg_right (by linarith) (by positivity))
  rw [abs_le] at e2'
  have ht : trunc f = S := trunc_eq hS hf1 (by linarith)
  have h2 := nano_err (le_refl 53) (s := S) (x := f) (by rw [abs_lt]; constructor <;> omega) (by rw [abs_le]; constructor <;> linarith)
  unfold secNsec
  dsimp only
  rw [ht]
  refine ⟨rfl, ?_⟩
  rw [abs_le] at h2
  generalize add 53 (mul 53 (sub 53 f (rnd 53 (S : ℚ))) 1000000000) (mkRat 1 2) = g at h2 ⊢
  obtain ⟨h3, h4⟩ := h2
  obtain ⟨h5, h6⟩ := e1'
  obtain ⟨h7, h8⟩ := e2'
  have he : (1 : ℚ) / 2 ^ 53 ≤ 1 / 10 ^ 15 := by norm_num
  generalize (1 : ℚ) / 2 ^ 53 = e at *
  clear_value f r
  apply trunc_eq hN
  · linarith
  · linarith

theorem total_err (t n : ℤ) (hn : 0 ≤ n) (hn' : n < 1000000000) :
    ∃ y, total t n = .ok y ∧ |y - ((t : ℚ) + n / 1000000000)| ≤ (|(t : ℚ)| + 2) * (1 / 2 ^ 62) := by
  unfold total quo
  rw [if_neg (by norm_num)]
  refine ⟨_, rfl, ?_⟩
  unfold add mul
  have hnq : (0 : ℚ) ≤ n := by exact_mod_cast hn
  have hnq' : (n : ℚ) ≤ 999999999 := by exact_mod_cast (by omega : n ≤ 999999999)
  have e1 := err_of (le_refl 64) (((1000 * t : ℤ) : ℚ) * 1000000)
  rw [show |((1000 * t : ℤ) : ℚ) * 1000000| = 1000000000 * |(t : ℚ)| by
    push_cast
    rw [show (1000 : ℚ) * t * 1000000 = 1000000000 * t by ring, abs_mul]; norm_num] at e1
  rw [show ((1000 * t : ℤ) : ℚ) * 1000000 = 1000000000 * t by push_cast; ring] at e1 ⊢
  set a := rnd 64 (1000000000 * (t : ℚ))
  have e2 := err_of (le_refl 64) (a + (n : ℚ))
  set b := rnd 64 (a + (n : ℚ))
  have e3 := err_of (le_refl 64) (b / 1000000000)
  set y := rnd 64 (b / 1000000000)
  have hT := abs_nonneg (t : ℚ)
  have hta := neg_abs_le (t : ℚ)
  have htb := le_abs_self (t : ℚ)
  set T := |(t : ℚ)|
  rw [abs_le] at e1
  have ha : |a + n| ≤ 1000000001 * (T + 1) := by
    rw [abs_le]; constructor <;> linarith
  have e2' : |b - (a + n)| ≤ 1000000001 * (T + 1) * (1 / 2 ^ 64) := le_trans e2 (mul_le_mul_of_nonneg_right ha (by positivity))
  rw [abs_le] at e2'
  have hb : |b / 1000000000| ≤ 1.01 * (T + 1) := by
    rw [abs_div, abs_of_pos (by norm_num : (0 : ℚ) < 1000000000), div_le_iff₀ (by norm_num)]
    have := abs_le.1 ha
    rw [abs_le]; constructor <;> linarith
  have e3' : |y - b / 1000000000| ≤ 1.01 * (T + 1) * (1 / 2 ^ 64) := le_trans e3 (mul_le_mul_of_nonneg_right hb (by positivity))
  rw [abs_le] at e3' ⊢
  constructor <;> linarith

end Verif.Time
