import Verif.Arr.RadixSpec

/-!
# Helpers for `encode` and `decode`
-/

namespace Verif.Arr
open Verif.Num (Num)

theorem quoRem_spec {u v : Num} (hu : u.Small) (hv : v.Small) :
    ∃ q r : Num, Num.quoRem u v = .ok (q, r) ∧ q.Small ∧ r.Small ∧ (v.val = 0 → q.val = 0 ∧ r.val = u.val) ∧
      (v.val ≠ 0 → ∃ k : Int, q.val = k ∧ Num.Euclidean u.val v.val k r.val) := by
  by_cases h0 : v.val = 0
  · exact ⟨Num.zero, u, Num.quoRem_zero hv.isNum h0, by constructor <;> decide, hu, fun _ => ⟨by simp [Num.zero, Num.Num.val], rfl⟩, fun h => absurd h0 h⟩
  · have hsh : ¬ (v.shrink = .int 0) := fun h => h0 ((Num.shrink_eq_zero hv.isNum).1 h)
    have hrat : ∀ x y : Rat, y ≠ 0 → x = u.val → y = v.val → ∃ q r : Num, (Num.Res.ok (Num.shrinkBig (Num.quoRemRat x y).1, Num.shrinkRat (Num.quoRemRat x y).2)) = .ok (q, r) ∧ q.Small ∧ r.Small ∧
        (v.val = 0 → q.val = 0 ∧ r.val = u.val) ∧ (v.val ≠ 0 → ∃ k : Int, q.val = k ∧ Num.Euclidean u.val v.val k r.val) := by
      rintro x y hy rfl rfl
      refine ⟨_, _, rfl, Num.small_shrinkBig _, Num.small_shrinkRat _, fun h => absurd h h0, fun _ => ⟨_, Num.val_shrinkBig _, ?_⟩⟩
      rw [Num.val_shrinkRat]
      exact Num.quoRemRat_ok hy
    have hbig : ∀ x y : Int, y ≠ 0 → (x : Rat) = u.val → (y : Rat) = v.val → ∃ q r : Num, (Num.Res.ok (Num.shrinkBig (x / y), Num.shrinkBig (x % y))) = .ok (q, r) ∧ q.Small ∧ r.Small ∧
        (v.val = 0 → q.val = 0 ∧ r.val = u.val) ∧ (v.val ≠ 0 → ∃ k : Int, q.val = k ∧ Num.Euclidean u.val v.val k r.val) := by
      intro x y hy hx' hy'
      refine ⟨_, _, rfl, Num.small_shrinkBig _, Num.small_shrinkBig _, fun h => absurd h h0, fun _ => ⟨_, Num.val_shrinkBig _, ?_⟩⟩
      rw [Num.val_shrinkBig, ← hx', ← hy']
      exact Num.euclid_ediv hy
    unfold Num.quoRem
    rw [if_neg hsh]
    cases u with
    | char c => exact hu.elim
    | int a =>
      cases v with
      | char c => exact hv.elim
      | int b =>
        have hb : b ≠ 0 := by simpa [Num.Num.val] using h0
        obtain ⟨h1, h2, h3, h4, h5⟩ := Num.quoRemInt_ok (x := a) (y := b) hu hv hb
        have hv' : -(2 ^ 31) ≤ b ∧ b ≤ 2 ^ 31 := hv
        refine ⟨.int (Num.quoRemInt a b).1, .int (Num.quoRemInt a b).2, rfl, ⟨h4, h5⟩, ⟨by omega, ?_⟩, fun h => absurd h h0, fun _ => ⟨_, rfl, Num.euclid_int h1 h2 h3⟩⟩
        rw [Int.abs_eq_natAbs] at h3
        omega
      | bigInt b => exact hbig a b (by simpa [Num.Num.val] using h0) rfl rfl
      | bigRat b => exact hrat a b (by simpa [Num.Num.val] using h0) rfl rfl
    | bigInt a =>
      cases v with
      | char c => exact hv.elim
      | int b => exact hbig a b (by simpa [Num.Num.val] using h0) rfl rfl
      | bigInt b => exact hbig a b (by simpa [Num.Num.val] using h0) rfl rfl
      | bigRat b => exact hrat a b (by simpa [Num.Num.val] using h0) rfl rfl
    | bigRat a =>
      cases v with
      | char c => exact hv.elim
      | int b => exact hrat a b (by simpa [Num.Num.val] using h0) rfl rfl
      | bigInt b => exact hrat a b (by simpa [Num.Num.val] using h0) rfl rfl
      | bigRat b => exact hrat a b (by simpa [Num.Num.val] using h0) rfl rfl

/-- Quotient and remainder. -/
def qr (u v : Num) : Num × Num :=
  match Num.quoRem u v with
  | .ok p => p
  | _ => (Num.zero, Num.zero)

theorem quoRemR_eq {u v : Num} (hu : u.Small) (hv : v.Small) (ku : Kept u) (kv : Kept v) : quoRemR u v = .ok (qr u v) := by
  obtain ⟨q, r, h, _⟩ := quoRem_spec hu hv
  unfold quoRemR
  rw [if_neg (not_not.mpr ⟨ku, kv⟩)]
  simp only [qr, h]

theorem qr_spec {u v : Num} (hu : u.Small) (hv : v.Small) :
    (qr u v).1.Small ∧ (qr u v).2.Small ∧ (v.val = 0 → (qr u v).1.val = 0 ∧ (qr u v).2.val = u.val) ∧
      (v.val ≠ 0 → ∃ k : Int, (qr u v).1.val = k ∧ Num.Euclidean u.val v.val k (qr u v).2.val) := by
  obtain ⟨q, r, h, h2⟩ := quoRem_spec hu hv
  simp only [qr, h]
  exact h2

/-- The digits and what is left over. -/
def encD : List Num → Num → List Num × Num
  | [], b => ([], b)
  | a :: A, b => ((qr (encD A b).2 a).2 :: (encD A b).1, (qr (encD A b).2 a).1)

theorem encD_small : ∀ {A : List Num} {b : Num}, (∀ a ∈ A, a.Small) → b.Small →
    (∀ d ∈ (encD A b).1, d.Small) ∧ (encD A b).2.Small ∧ (encD A b).1.length = A.length
  | [], b, _, hb => ⟨by simp [encD], hb, rfl⟩
  | a :: A, b, hA, hb => by
    obtain ⟨h1, h2, h3⟩ := encD_small (A := A) (b := b) (fun x hx => hA x (by simp [hx])) hb
    obtain ⟨h4, h5, _⟩ := qr_spec h2 (hA a (by simp))
    refine ⟨?_, h4, by simp [encD, h3]⟩
    intro d hd
    simp only [encD, List.mem_cons] at hd
    rcases hd with rfl | hd
    · exact h5
    · exact h1 d hd

theorem encD_kept {A : List Num} (hA : ∀ a ∈ A, a.Small) {b : Num} (hb : b.Small) (kb : Kept b) : Kept (encD A b).2 := by
  cases A with
  | nil => exact kb
  | cons a A =>
    obtain ⟨_, h2, _⟩ := encD_small (A := A) (b := b) (fun x hx => hA x (by simp [hx])) hb
    obtain ⟨h3, _, h5, h6⟩ := qr_spec h2 (hA a (by simp))
    have : IsInt (qr (encD A b).2 a).1.val := by
      by_cases h0 : a.val = 0
      · exact ⟨0, by simp [(h5 h0).1]⟩
      · obtain ⟨k, hk, _⟩ := h6 h0; exact ⟨k, hk⟩
    show Kept (qr (encD A b).2 a).1
    generalize (qr (encD A b).2 a).1 = q at h3 this
    cases q with
    | bigRat r =>
      obtain ⟨k, hk⟩ := this
      have : r = k := hk
      subst this
      exact absurd (Rat.den_intCast k) h3
    | _ => trivial

theorem encD_val : ∀ {A : List Num} {b : Num}, (∀ a ∈ A, a.Small) → b.Small →
    b.val = radixVal (A.map Num.Num.val) ((encD A b).1.map Num.Num.val) + prodQ (A.map Num.Num.val) * (encD A b).2.val ∧ (A ≠ [] → IsInt (encD A b).2.val)
  | [], b, _, _ => ⟨by simp [encD, radixVal, prodQ], fun h => absurd rfl h⟩
  | a :: A, b, hA, hb => by
    have hA' : ∀ x ∈ A, x.Small := fun x hx => hA x (by simp [hx])
    obtain ⟨h1, _⟩ := encD_val hA' hb
    obtain ⟨_, h2, _⟩ := encD_small hA' hb
    obtain ⟨_, _, h5, h6⟩ := qr_spec h2 (hA a (by simp))
    by_cases h0 : a.val = 0
    · obtain ⟨h7, h8⟩ := h5 h0
      refine ⟨?_, fun _ => ⟨0, by simp [encD, h7]⟩⟩
      simp only [encD, List.map_cons, radixVal, prodQ, h0, h7, h8]
      rw [h1]; ring
    · obtain ⟨k, h7, h8, _⟩ := h6 h0
      refine ⟨?_, fun _ => ⟨k, by simp only [encD]; exact h7⟩⟩
      simp only [encD, List.map_cons, radixVal, prodQ, h7]
      rw [h8] at h1
      rw [h1]; ring

theorem encD_digit : ∀ {A : List Num} {b : Num}, (∀ a ∈ A, a.Small) → b.Small →
    ∀ (i : Nat) (a d : Num), A[i]? = some a → (encD A b).1[i]? = some d → DigitFor a.val d.val
  | [], b, _, _, i, a, d, h, _ => by simp at h
  | a0 :: A, b, hA, hb, i, a, d, h, h' => by
    have hA' : ∀ x ∈ A, x.Small := fun x hx => hA x (by simp [hx])
    cases i with
    | zero =>
      simp only [encD, List.getElem?_cons_zero, Option.some.injEq] at h h'
      subst h h'
      obtain ⟨_, h2, _⟩ := encD_small hA' hb
      obtain ⟨_, _, _, h6⟩ := qr_spec h2 (hA a0 (by simp))
      intro h0
      obtain ⟨k, _, h8⟩ := h6 h0
      exact h8.2
    | succ i =>
      simp only [encD, List.getElem?_cons_succ] at h h'
      exact encD_digit hA' hb i a d h h'

theorem encD_rest : ∀ {A : List Num} {b : Num}, (∀ a ∈ A, a.Small ∧ 0 < a.val) → b.Small → 0 ≤ b.val → b.val < prodQ (A.map Num.Num.val) →
    0 ≤ (encD A b).2.val ∧ (A ≠ [] → (encD A b).2.val = 0) := by
  intro A b hA hb h0 h1
  have key : ∀ (A : List Num) (P : Rat), (∀ a ∈ A, a.Small ∧ 0 < a.val) → 0 < P → b.val < prodQ (A.map Num.Num.val) * P →
      0 ≤ (encD A b).2.val ∧ (encD A b).2.val < P := by
    intro A
    induction A with
    | nil => intro P _ _ h; exact ⟨h0, by simpa [encD, prodQ] using h⟩
    | cons a A ih =>
      intro P hA hP h
      obtain ⟨has, hap⟩ := hA a (by simp)
      have hA' : ∀ x ∈ A, x.Small ∧ 0 < x.val := fun x hx => hA x (by simp [hx])
      obtain ⟨h2, h3⟩ := ih (a.val * P) hA' (mul_pos hap hP) (by simp only [List.map_cons, prodQ] at h; calc b.val < _ := h
                                                                                                        _ = _ := by ring)
      obtain ⟨_, h4, _⟩ := encD_small (fun x hx => (hA' x hx).1) hb
      obtain ⟨_, _, _, h6⟩ := qr_spec h4 has
      obtain ⟨k, h7, h8, h9, h10⟩ := h6 hap.ne'
      rw [abs_of_pos hap] at h10
      simp only [encD]
      rw [h7]
      constructor
      · have hk : -1 < k := by
          by_contra hc
          have : (k : Rat) ≤ -1 := by exact_mod_cast (by omega : k ≤ -1)
          have := mul_le_mul_of_nonneg_right this hap.le
          linarith
        exact_mod_cast (by omega : 0 ≤ k)
      · have : (k : Rat) * a.val < P * a.val := by linarith [mul_comm P a.val]
        exact lt_of_mul_lt_mul_right this hap.le
  obtain ⟨h2, h3⟩ := key A 1 hA one_pos (by rw [mul_one]; exact h1)
  refine ⟨h2, fun hne => ?_⟩
  obtain ⟨k, hk⟩ := (encD_val (fun a ha => (hA a ha).1) hb).2 hne
  rw [hk] at h2 h3 ⊢
  have h4 : 0 ≤ k := by exact_mod_cast h2
  have h5 : k < 1 := by exact_mod_cast h3
  exact_mod_cast (by omega : k = 0)

theorem radixVal_int : ∀ {A D : List Rat}, (∀ a ∈ A, IsInt a) → (∀ d ∈ D, IsInt d) → IsInt (radixVal A D) ∧ IsInt (prodQ A)
  | [], D, _, _ => ⟨⟨0, by simp [radixVal]⟩, ⟨1, by simp [prodQ]⟩⟩
  | a :: A, D, hA, hD => by
    obtain ⟨i, hi⟩ := hA a (by simp)
    obtain ⟨_, j, hj⟩ := radixVal_int (A := A) (D := []) (fun x hx => hA x (by simp [hx])) (by simp)
    refine ⟨?_, ⟨i * j, by simp [prodQ, hi, hj]⟩⟩
    cases D with
    | nil => exact ⟨0, by simp [radixVal]⟩
    | cons d D =>
      obtain ⟨k, hk⟩ := hD d (by simp)
      obtain ⟨⟨l, hl⟩, _⟩ := radixVal_int (A := A) (D := D) (fun x hx => hA x (by simp [hx])) (fun x hx => hD x (by simp [hx]))
      exact ⟨k * j + l, by simp [radixVal, hk, hj, hl]⟩

theorem kept_of_int {x : Num} (hx : x.Small) (h : IsInt x.val) : Kept x := by
  cases x with
  | bigRat r =>
    obtain ⟨k, hk⟩ := h
    have : r = k := hk
    subst this
    exact absurd (Rat.den_intCast k) hx
  | _ => trivial

/-- Digits in range are found again: division step by step from the right. -/
theorem encD_unique : ∀ {A D : List Num} {b : Num} (q : Int), (∀ a ∈ A, a.Small ∧ IsInt a.val ∧ 0 < a.val) → D.length = A.length →
    (∀ d ∈ D, IsInt d.val) → (∀ (i : Nat) (a d : Num), A[i]? = some a → D[i]? = some d → 0 ≤ d.val ∧ d.val < a.val) → b.Small →
    b.val = radixVal (A.map Num.Num.val) (D.map Num.Num.val) + prodQ (A.map Num.Num.val) * q →
    (encD A b).1.map Num.Num.val = D.map Num.Num.val ∧ (encD A b).2.val = q
  | [], D, b, q, _, hl, _, _, _, hb => by
    have : D = [] := List.length_eq_zero_iff.mp (by simpa using hl)
    subst this
    exact ⟨rfl, by simpa [radixVal, prodQ, encD] using hb⟩
  | a :: A, [], b, q, _, hl, _, _, _, _ => by simp at hl
  | a :: A, d :: D, b, q, hA, hl, hD, hr, hbs, hb => by
    have hA' : ∀ x ∈ A, x.Small ∧ IsInt x.val ∧ 0 < x.val := fun x hx => hA x (by simp [hx])
    obtain ⟨has, ⟨ai, hai⟩, hap⟩ := hA a (by simp)
    obtain ⟨di, hdi⟩ := hD d (by simp)
    obtain ⟨hd0, hd1⟩ := hr 0 a d (by simp) (by simp)
    obtain ⟨h1, h2⟩ := encD_unique (A := A) (D := D) (b := b) (di + ai * q) hA' (by simpa using hl) (fun x hx => hD x (by simp [hx]))
      (fun i a d h h' => hr (i + 1) a d (by simpa using h) (by simpa using h')) hbs (by
        rw [hb]
        simp only [List.map_cons, radixVal, prodQ]
        push_cast
        rw [← hai, ← hdi]; ring)
    obtain ⟨_, h3, _⟩ := encD_small (fun x hx => (hA' x hx).1) hbs
    obtain ⟨_, _, _, h6⟩ := qr_spec h3 has
    obtain ⟨k, h7, h8, h9, h10⟩ := h6 hap.ne'
    rw [abs_of_pos hap] at h10
    rw [h2] at h8
    have hkq : k = q := by
      push_cast at h8
      rw [← hai, ← hdi] at h8
      have e : ((k : Rat) - q) * a.val = d.val - (qr (encD A b).2 a).2.val := by linarith [mul_comm a.val (q : Rat)]
      have u1 : ((k : Rat) - q) * a.val < 1 * a.val := by rw [e]; linarith
      have u2 : (-1) * a.val < ((k : Rat) - q) * a.val := by rw [e]; linarith
      have v1 := lt_of_mul_lt_mul_right u1 hap.le
      have v2 := lt_of_mul_lt_mul_right u2 hap.le
      have w1 : k - q < 1 := by exact_mod_cast v1
      have w2 : -1 < k - q := by exact_mod_cast v2
      omega
    subst hkq
    refine ⟨?_, by simp only [encD]; exact h7⟩
    simp only [encD, List.map_cons, h1, List.cons.injEq, and_true]
    push_cast at h8
    rw [← hai, ← hdi] at h8
    linarith [mul_comm a.val (k : Rat)]

end Verif.Arr
