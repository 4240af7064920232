import Verif.Num.CLemmas2
/-
# C51: complex arithmetic is exact
# C57: the complex floor

The operands are numbers as the interpreter keeps them (`CNum.Good`: complex only if not real, the components
at most 2^31 in absolute value as machine integers); the results are again such numbers.
-/
set_option linter.dupNamespace false
namespace Verif.Num

/-- C51, binary operators, whatever the limit on the size of integers: no run-time panic, and a result is the
exact complex number. -/
theorem C51_binary (maxBits : Nat) (op : COp2) {u v : CNum} (hu : u.Good) (hv : v.Good) :
    op.eval maxBits u v ≠ .crash ∧ ∀ w, op.eval maxBits u v = .ok w → w.Good ∧ op.Spec u.val v.val w.val :=
  ⟨(cop2_gives op hu hv).1, (cop2_gives op hu hv).2.2⟩

/-- C51, binary operators, without a limit: there is a result just if the operation is defined. -/
theorem C51_binary_total (op : COp2) {u v : CNum} (hu : u.Good) (hv : v.Good) :
    (∃ w, op.eval 0 u v = .ok w) ↔ op.Def u.val v.val := by
  constructor
  · rintro ⟨w, hw⟩
    have := ((cop2_gives (mb := 0) op hu hv).2.2 w hw).2
    cases op with
    | quo => exact this.1
    | j => exact ⟨this.1, this.2.1⟩
    | add => trivial
    | sub => trivial
    | mul => trivial
    | eq => trivial
    | ne => trivial
  · intro h
    exact (cop2_gives op hu hv).2.1 ⟨rfl, h⟩

/-- C51, unary operators, whatever the limit on the size of integers. -/
theorem C51_unary (maxBits : Nat) (op : COp1) {u : CNum} (hu : u.Good) :
    op.eval maxBits u ≠ .crash ∧ ∀ w, op.eval maxBits u = .ok w → w.Good ∧ op.Spec u.val w.val :=
  ⟨(cop1_gives op hu).1, (cop1_gives op hu).2.2⟩

/-- C51, unary operators, without a limit. -/
theorem C51_unary_total (op : COp1) {u : CNum} (hu : u.Good) : (∃ w, op.eval 0 u = .ok w) ↔ op.Def u.val := by
  constructor
  · rintro ⟨w, hw⟩
    have := ((cop1_gives (mb := 0) op hu).2.2 w hw).2
    cases op with
    | recip => exact this.1
    | neg => trivial
    | conj => trivial
    | turn => trivial
    | real => trivial
    | imag => trivial
    | not => trivial
  · intro h
    exact (cop1_gives op hu).2.1 ⟨rfl, h⟩

/-- Results are complex only if they are not real. -/
theorem C51_real {w : CNum} (hw : w.Good) : (∃ n, w = .num n) ↔ w.val.im = 0 := by
  constructor
  · rintro ⟨n, rfl⟩; rfl
  · intro h
    obtain ⟨n, e, _⟩ := good_real hw h
    exact ⟨n, e⟩

/-- C51 for whole expressions: a value is the exact complex number the expression denotes. -/
theorem C51_expressions (maxBits : Nat) (e : CExpr) :
    e.eval maxBits ≠ .crash ∧ ∀ w, e.eval maxBits = .ok w → w.Good ∧ CMeans e w.val :=
  ⟨(expr_gives e).1, (expr_gives e).2.2⟩

/-- `1j2 * 3j4` is `-5j10`. -/
example : cMul 0 (.cx ⟨.int 1, .int 2⟩) (.cx ⟨.int 3, .int 4⟩) = .ok (.cx ⟨.int (-5), .int 10⟩) := by decide +kernel

/-- `1j2 * 1j-2` is the Int 5. -/
example : cMul 0 (.cx ⟨.int 1, .int 2⟩) (.cx ⟨.int 1, .int (-2)⟩) = .ok (.num (.int 5)) := by decide +kernel

/-- `1j2 / 3j4` is `11/25j2/25`, `1j2 / 2` is `1/2j1`, `5 / 1j2` is `1j-2`. -/
example : cDiv 0 (.cx ⟨.int 1, .int 2⟩) (.cx ⟨.int 3, .int 4⟩) = .ok (.cx ⟨.bigRat (11 / 25), .bigRat (2 / 25)⟩) ∧
    cDiv 0 (.cx ⟨.int 1, .int 2⟩) (.num (.int 2)) = .ok (.cx ⟨.bigRat (1 / 2), .int 1⟩) ∧
    cDiv 0 (.num (.int 5)) (.cx ⟨.int 1, .int 2⟩) = .ok (.cx ⟨.int 1, .int (-2)⟩) ∧
    cDiv 0 (.cx ⟨.int 1, .int 2⟩) (.num (.int 0)) = .err := by decide +kernel

/-- The operands of the examples are as the theorems ask. -/
example : (CNum.cx ⟨.int 1, .int 2⟩).Good ∧ (CNum.cx ⟨.bigRat (11 / 25), .bigRat (2 / 25)⟩).Good ∧ (CNum.num (.int 5)).Good := by
  refine ⟨⟨?_, ?_, ?_⟩, ⟨?_, ?_, ?_⟩, ?_⟩
  · show -(2 ^ 31) ≤ (1 : Int) ∧ (1 : Int) ≤ 2 ^ 31; decide
  · show -(2 ^ 31) ≤ (2 : Int) ∧ (2 : Int) ≤ 2 ^ 31; decide
  · norm_num [Num.val]
  · show (11 / 25 : Rat).den ≠ 1; decide +kernel
  · show (2 / 25 : Rat).den ≠ 1; decide +kernel
  · norm_num [Num.val]
  · show -(2 ^ 31) ≤ (5 : Int) ∧ (5 : Int) ≤ 2 ^ 31; decide

/-! ## C57 -/

/-- C57 in full: `floor` of a complex number held in two components, whether or not they are one object. -/
def C57_statement : Prop :=
  ∀ (same : Bool) (c : Cx), (CNum.cx c).Good → (same = true → c.re = c.im) →
    ∃ w, cFloor 0 same (.cx c) = .ok w ∧ w.Good ∧ IsFloor c.val w.val

/-- The code violates C57: with `x = -2/3`, `floor x j x` is -1, because taking the fraction of the real part has
negated the rational both parts share.  (With two rationals, `floor -2/3 j -2/3`, it is `-1j-1`.) -/
theorem C57_violated : ¬ C57_statement := by
  intro h
  obtain ⟨w, h1, -, h2⟩ := h true ⟨.bigRat (-2 / 3), .bigRat (-2 / 3)⟩
    ⟨by show (-2 / 3 : Rat).den ≠ 1; decide +kernel, by show (-2 / 3 : Rat).den ≠ 1; decide +kernel, by norm_num [Num.val]⟩ (fun _ => rfl)
  have e : cFloor 0 true (.cx ⟨.bigRat (-2 / 3), .bigRat (-2 / 3)⟩) = .ok (.num (.int (-1))) := by decide +kernel
  rw [e] at h1
  cases h1
  have hf : ⌊((-2 / 3 : ℚ) : ℝ)⌋ = -1 := by rw [Rat.floor_cast]; decide +kernel
  unfold IsFloor at h2
  have hr : Int.fract ((-2 / 3 : ℚ) : ℝ) = 1 / 3 := by rw [Int.fract, hf]; push_cast; norm_num
  simp only [Cx.val, Num.val, hr, hf] at h2
  rw [if_pos (by norm_num)] at h2
  have := congrArg Complex.im h2
  simp [CNum.val] at this

/-- It is a value a user can write: `x j x` for a rational `x` keeps both parts as they are. -/
example : cJ (.num (.bigRat (-2 / 3))) (.num (.bigRat (-2 / 3))) = .ok (.cx ⟨.bigRat (-2 / 3), .bigRat (-2 / 3)⟩) ∧
    cFloor 0 true (.cx ⟨.bigRat (-2 / 3), .bigRat (-2 / 3)⟩) = .ok (.num (.int (-1))) ∧
    cFloor 0 false (.cx ⟨.bigRat (-2 / 3), .bigRat (-2 / 3)⟩) = .ok (.cx ⟨.int (-1), .int (-1)⟩) := by decide +kernel

/-- C57 for numbers whose two parts are different objects, or are not negative. Missing: a negative rational
shared by both parts. -/
theorem C57_floor_partial {same : Bool} {u : CNum} (hu : u.Good)
    (hs : ∀ c, u = .cx c → same = true → c.im = c.re ∧ 0 ≤ c.re.val) :
    ∃ w, cFloor 0 same u = .ok w ∧ w.Good ∧ IsFloor u.val w.val := by
  obtain ⟨w, hw⟩ := (cFloor_gives (mb := 0) hu hs).2.1 rfl
  exact ⟨w, hw, (cFloor_gives (mb := 0) hu hs).2.2 w hw⟩

/-- `ceil` is the negation of the floor of the negation, without exception. -/
theorem C57_ceil {u : CNum} (hu : u.Good) : ∃ w, cCeil 0 u = .ok w ∧ w.Good ∧ IsFloor (-u.val) (-w.val) := by
  obtain ⟨w, hw⟩ := (cCeil_gives (mb := 0) hu).2.1 rfl
  exact ⟨w, hw, (cCeil_gives (mb := 0) hu).2.2 w hw⟩

/-- What McDonnell's floor is good for: it is a Gaussian integer less than 1 away from the number, and it
commutes with adding a Gaussian integer. -/
theorem C57_meaning {z w : ℂ} (h : IsFloor z w) :
    GaussInt w ∧ Complex.normSq (z - w) < 1 ∧ (∀ g, GaussInt g → IsFloor (z + g) (w + g)) ∧ (GaussInt z → w = z) := by
  have hx0 := Int.fract_nonneg z.re
  have hy0 := Int.fract_nonneg z.im
  have hx1 := Int.fract_lt_one z.re
  have hy1 := Int.fract_lt_one z.im
  have ex : z.re - ⌊z.re⌋ = Int.fract z.re := rfl
  have ey : z.im - ⌊z.im⌋ = Int.fract z.im := rfl
  refine ⟨?_, ?_, ?_, ?_⟩
  · unfold IsFloor at h
    split at h
    · exact ⟨_, _, h⟩
    · split at h
      · exact ⟨⌊z.re⌋ + 1, ⌊z.im⌋, by rw [h]; push_cast; rfl⟩
      · exact ⟨⌊z.re⌋, ⌊z.im⌋ + 1, by rw [h]; push_cast; rfl⟩
  · unfold IsFloor at h
    rw [Complex.normSq_apply]
    split at h
    · next c1 =>
      rw [h]
      simp only [Complex.sub_re, Complex.sub_im, ex, ey]
      nlinarith [mul_nonneg hx0 hy0]
    · next c1 =>
      split at h
      · next c2 =>
        rw [h]
        simp only [Complex.sub_re, Complex.sub_im, ey, ← sub_sub, ex]
        nlinarith [mul_nonneg hx0 hy0]
      · next c2 =>
        rw [h]
        simp only [Complex.sub_re, Complex.sub_im, ex, ← sub_sub, ey]
        nlinarith [mul_nonneg hx0 hy0]
  · rintro g ⟨m, n, rfl⟩
    unfold IsFloor at h ⊢
    have e1 : (z + (⟨m, n⟩ : ℂ)).re = z.re + m := rfl
    have e2 : (z + (⟨m, n⟩ : ℂ)).im = z.im + n := rfl
    rw [e1, e2, Int.fract_add_intCast, Int.fract_add_intCast, Int.floor_add_intCast, Int.floor_add_intCast, h]
    split
    · apply Complex.ext <;> simp
    · split
      · apply Complex.ext <;> simp; ring
      · apply Complex.ext <;> simp; ring
  · rintro ⟨m, n, rfl⟩
    unfold IsFloor at h
    simp only [Int.fract_intCast, Int.floor_intCast, add_zero, zero_lt_one, if_true] at h
    exact h

example : cFloor 0 false (.cx ⟨.bigRat (17 / 10), .bigRat (-5 / 2)⟩) = .ok (.cx ⟨.int 2, .int (-3)⟩) ∧
    cFloor 0 false (.cx ⟨.bigRat (11 / 10), .bigRat (1 / 2)⟩) = .ok (.num (.int 1)) ∧
    cFloor 0 false (.cx ⟨.bigRat (6 / 5), .bigRat (9 / 10)⟩) = .ok (.cx ⟨.int 1, .int 1⟩) ∧
    cCeil 0 (.cx ⟨.bigRat (11 / 10), .bigRat (1 / 2)⟩) = .ok (.cx ⟨.int 1, .int 1⟩) := by decide +kernel

end Verif.Num
