import Verif.Arr.InvProps
import Verif.Num.CProps

/-!
# C48 for complex numbers

The theorems of `InvProps` for elements that may be complex, with the conjugates `Vector.inverse` takes.
-/

namespace Verif.Arr
open Num (CNum)

/-- An outcome of an operator on scalars, as one of an operator on elements. -/
def liftC : Num.Res CNum → R CNum
  | .ok z => .ok z
  | .err => .err "number"
  | .crash => .crash
  | .float => .err "float"

/-- Elements that are exact numbers, real or complex: `value/eval.go:761-763, 790-804`, `value/vector.go:581-583`. -/
def cOps (maxBits : Nat) : Ops CNum where
  scalar := fun _ => true
  isZero := CNum.isZero
  one := .num Num.one
  zero := .num Num.zero
  recip := fun a => liftC (Num.cRecip maxBits a)
  conj := fun
    | .num n => .ok (.num n)
    | .cx c => liftC (Num.cConj (.cx c))
  add := fun a b => liftC (Num.cAdd maxBits a b)
  mul := fun a b => liftC (Num.cMul maxBits a b)
  sub := fun a b => liftC (Num.cSub maxBits a b)
  div := fun a b => liftC (Num.cDiv maxBits a b)

theorem liftC_ok {r : Num.Res CNum} {w : CNum} (h : liftC r = .ok w) : r = .ok w := by
  cases r <;> first | (cases h; rfl) | cases h

theorem num_val_zero : (CNum.num Num.zero).val = 0 := by apply Complex.ext <;> simp [Num.CNum.val, Num.val_zero]
theorem num_val_one : (CNum.num Num.one).val = 1 := by apply Complex.ext <;> simp [Num.CNum.val, Num.val_one]

theorem cOps_exact (mb : Nat) : (cOps mb).Exact CNum.Good CNum.val where
  scalar := fun _ _ => rfl
  isZero := by
    intro a ha
    cases a with
    | num n =>
      show Num.isZeroNum n = true ↔ _
      rw [Num.isZeroNum_iff ha]
      exact (Num.ofReal_eq_zero n.val).symm
    | cx c =>
      show (Num.isZeroNum c.re && Num.isZeroNum c.im) = true ↔ _
      rw [Num.isZero_iff ha.1 ha.2.1]
      exact (Num.val_zero_iff ha.1 ha.2.1).symm
  one := ⟨Num.small_one, num_val_one⟩
  zero := ⟨Num.small_zero, num_val_zero⟩
  recip := by
    intro a b ha h
    obtain ⟨h1, h2, h3⟩ := (Num.cRecip_gives ha).2.2 b (liftC_ok h)
    exact ⟨h1, by rw [h3, one_div, inv_mul_cancel₀ h2]⟩
  add := fun a b c ha hb h => (Num.cAdd_gives ha hb).2.2 c (liftC_ok h)
  mul := fun a b c ha hb h => (Num.cMul_gives ha hb).2.2 c (liftC_ok h)
  sub := fun a b c ha hb h => (Num.cSub_gives ha hb).2.2 c (liftC_ok h)
  div := by
    intro a b c ha hb h
    obtain ⟨h1, h2, h3⟩ := (Num.cDiv_gives ha hb).2.2 c (liftC_ok h)
    exact ⟨h1, by rw [h3, div_mul_cancel₀ _ h2]⟩

theorem liftC_some {r : Num.Res CNum} (h : ∃ w, r = .ok w) : ∃ w, liftC r = .ok w := by
  obtain ⟨w, rfl⟩ := h
  exact ⟨w, rfl⟩

theorem cOps_total : (cOps 0).Total CNum.Good CNum.val where
  recip := fun _ ha h => liftC_some ((Num.cRecip_gives ha).2.1 ⟨rfl, h⟩)
  add := fun _ _ ha hb => liftC_some ((Num.cAdd_gives ha hb).2.1 rfl)
  mul := fun _ _ ha hb => liftC_some ((Num.cMul_gives ha hb).2.1 rfl)
  sub := fun _ _ ha hb => liftC_some ((Num.cSub_gives ha hb).2.1 rfl)
  div := fun _ _ ha hb h => liftC_some ((Num.cDiv_gives ha hb).2.1 ⟨rfl, h⟩)

/-- If `inv m` gives a value it is the inverse from both sides.  Any limit on the size of numbers. -/
theorem C48_complex_inverse {maxBits n : Nat} {m : Mat CNum} {r : V CNum} (hm : m.Ok) (hs : m.shape = [n, n])
    (hP : ∀ a ∈ m.data, a.Good) (h : inv (cOps maxBits) (.mat m) = .ok r) :
    ∃ m', r = .mat m' ∧ m'.Ok ∧ m'.shape = [n, n] ∧ (∀ a ∈ m'.data, a.Good) ∧
      asMatrix CNum.val n m.data * asMatrix CNum.val n m'.data = 1 ∧ asMatrix CNum.val n m'.data * asMatrix CNum.val n m.data = 1 := by
  obtain ⟨m', h1, h2⟩ := R.bind_eq_ok.1 h
  cases h2
  obtain ⟨a, b, c, d, _⟩ := matInverse_ok (cOps_exact maxBits) hm hs hP h1
  exact ⟨m', rfl, b, a, c, mul_eq_one_comm.1 d, d⟩

/-- The matrix of `1j1` and 2 over `0j1` and 3. -/
def exCInv : Mat CNum := ⟨[2, 2], [.cx ⟨.int 1, .int 1⟩, .num (.int 2), .cx ⟨.int 0, .int 1⟩, .num (.int 3)]⟩

example : inv (cOps 0) (.mat exCInv) = .ok (.mat ⟨[2, 2], [.cx ⟨.bigRat (9 / 10), .bigRat (-3 / 10)⟩, .cx ⟨.bigRat (-3 / 5), .bigRat (1 / 5)⟩,
    .cx ⟨.bigRat (-1 / 10), .bigRat (-3 / 10)⟩, .cx ⟨.bigRat (2 / 5), .bigRat (1 / 5)⟩]⟩) := by decide +kernel

example : exCInv.Ok ∧ ∀ a ∈ exCInv.data, a.Good := by
  refine ⟨by decide, ?_⟩
  simp [exCInv, Num.CNum.Good, Num.Num.Small, Num.Num.val]

/-- The matrices that are not accepted are refused with the right message; singular ones are among them. -/
theorem C48_complex_accepted_partial {n : Nat} {m : Mat CNum} (hm : m.Ok) (hs : m.shape = [n, n]) (hP : ∀ a ∈ m.data, a.Good) :
    ((∃ r, inv (cOps 0) (.mat m) = .ok r) ↔ ∀ k (h : k ≤ n), (leading (asMatrix CNum.val n m.data) k h).det ≠ 0) ∧
    ((∃ r, inv (cOps 0) (.mat m) = .ok r) ∨ inv (cOps 0) (.mat m) = .err "inverse of non-invertible matrix") := by
  obtain ⟨t1, t2⟩ := matInverse_total (cOps_exact 0) cOps_total hm hs hP
  refine ⟨⟨?_, ?_⟩, ?_⟩
  · rintro ⟨r, hr⟩ k hk
    obtain ⟨m', h1, _⟩ := R.bind_eq_ok.1 hr
    by_cases h0 : k = 0
    · subst h0
      rw [Matrix.det_fin_zero]; exact one_ne_zero
    · exact (minor_leading hk m.data).1 ((matInverse_ok (cOps_exact 0) hm hs hP h1).2.2.2.2 k (by omega) hk)
  · intro h
    obtain ⟨m', h1⟩ := t1 (fun k _ hk => (minor_leading hk m.data).2 (h k hk))
    exact ⟨.mat m', by show (matInverse (cOps 0) m).bind _ = _; rw [h1]; rfl⟩
  · rcases t2 with ⟨m', h⟩ | h
    · exact .inl ⟨.mat m', by show (matInverse (cOps 0) m).bind _ = _; rw [h]; rfl⟩
    · exact .inr (by show (matInverse (cOps 0) m).bind _ = _; rw [h]; rfl)

/-- The conjugates: of numbers that are not complex, themselves. -/
theorem conjAllC : ∀ (v : List CNum), (∀ a ∈ v, a.Good) →
    ∃ l, conjAll (cOps 0) v = .ok l ∧ (∀ a ∈ l, a.Good) ∧ l.map CNum.val = v.map fun a => starRingEnd ℂ a.val
  | [], _ => ⟨[], rfl, by simp, rfl⟩
  | x :: xs, h => by
    obtain ⟨y, y1, y2, y3⟩ : ∃ y, (cOps 0).conj x = .ok y ∧ y.Good ∧ y.val = starRingEnd ℂ x.val := by
      have hx := h x (by simp)
      cases x with
      | num n => exact ⟨.num n, rfl, hx, by apply Complex.ext <;> simp [Num.CNum.val]⟩
      | cx c =>
        obtain ⟨y, hy⟩ := (Num.cConj_gives (t := True) hx).2.1 trivial
        obtain ⟨h1, h2⟩ := (Num.cConj_gives (t := True) hx).2.2 y hy
        exact ⟨y, by show liftC (Num.cConj (.cx c)) = _; rw [hy]; rfl, h1, h2⟩
    obtain ⟨l, l1, l2, l3⟩ := conjAllC xs (fun a ha => h a (by simp [ha]))
    refine ⟨y :: l, ?_, ?_, by rw [List.map_cons, List.map_cons, l3, y3]⟩
    · rw [conjAll, if_neg (by simp [cOps]), y1, bind_ok, l1]; rfl
    · intro a ha
      rcases List.mem_cons.1 ha with e | e
      · rw [e]; exact y2
      · exact l2 a e

/-- The sum of the products of the elements with their conjugates, a real number. -/
noncomputable def normSum (v : List CNum) : ℝ := (v.map fun a => Complex.normSq a.val).sum

/-- The inverse of a vector of two or more complex numbers that are not all zero: the conjugates divided by the sum of the squares
of the magnitudes, so that the sum of products with it is one.  A vector of zeros is refused. -/
theorem C48_complex_vector {v : List CNum} (hv : 2 ≤ v.length) (hP : ∀ a ∈ v, a.Good) :
    ((∃ a ∈ v, a.val ≠ 0) → ∃ l, inv (cOps 0) (.vec v) = .ok (.vec l) ∧ (∀ a ∈ l, a.Good) ∧
      l.map CNum.val = v.map (fun a => starRingEnd ℂ a.val / normSum v) ∧
      (List.zipWith (fun a b => a.val * b.val) v l).sum = 1) ∧
    ((∀ a ∈ v, a.val = 0) → inv (cOps 0) (.vec v) = .err "inverse of zero vector") := by
  obtain ⟨cs, c1, c2, c3⟩ := conjAllC v hP
  obtain ⟨w, w1, w2, w3⟩ := magnitude_ok (cOps_exact 0) cOps_total (v.zip cs) (.num Num.zero) (cOps_exact 0).zero.1 (by
    intro p hp
    have := List.of_mem_zip (a := p.1) (b := p.2) hp
    exact ⟨hP _ this.1, c2 _ this.2⟩)
  have ez : (v.zip cs).map (fun p => p.1.val * p.2.val) = v.map fun b => ((Complex.normSq b.val : ℝ) : ℂ) := by
    have : (v.zip cs).map (fun p : CNum × CNum => p.1.val * p.2.val) = List.zipWith (fun (a : CNum) (b : ℂ) => a.val * b) v (cs.map CNum.val) := by
      rw [List.zipWith_map_right, List.zip, List.map_zipWith]
    rw [this, c3, List.zipWith_map_right, List.zipWith_self]
    apply List.map_congr_left
    intro a _
    exact Complex.mul_conj _
  have wz : w.val = (normSum v : ℂ) := by
    rw [w3, ez, num_val_zero, zero_add, normSum]
    clear ez w3 w1 c3 c1 hP hv
    induction v with
    | nil => simp
    | cons a l ih => simp only [List.map_cons, List.sum_cons, ih, Complex.ofReal_add]
  have un : vecInverse (cOps 0) v = if (cOps 0).isZero w then .err "inverse of zero vector" else divideAll (cOps 0) w cs := by
    unfold vecInverse
    rw [if_neg (by omega), if_neg (by omega), c1, bind_ok, show (cOps 0).zero = .num Num.zero from rfl, w1, bind_ok]
  constructor
  · rintro ⟨a, ha, h0⟩
    have hpos : 0 < normSum v := by
      apply lt_of_lt_of_le (Complex.normSq_pos.2 h0)
      exact List.single_le_sum (by intro x hx; obtain ⟨b, _, rfl⟩ := List.mem_map.1 hx; exact Complex.normSq_nonneg _) _
        (List.mem_map.2 ⟨a, ha, rfl⟩)
    have hne : w.val ≠ 0 := by rw [wz]; exact_mod_cast ne_of_gt hpos
    have hw : ¬ ((cOps 0).isZero w = true) := fun h => absurd (((cOps_exact 0).isZero w w2).1 h) hne
    obtain ⟨l, l1, l2, l3⟩ := divideAll_ok (cOps_exact 0) cOps_total w2 hne cs c2
    have l4 : l.map CNum.val = v.map (fun a => starRingEnd ℂ a.val / normSum v) := by
      rw [l3, wz]
      have : cs.map (fun a : CNum => a.val / (normSum v : ℂ)) = (cs.map CNum.val).map fun z => z / (normSum v : ℂ) := by
        rw [List.map_map]; rfl
      rw [this, c3, List.map_map]; rfl
    refine ⟨l, ?_, l2, l4, ?_⟩
    · show (vecInverse (cOps 0) v).bind _ = _
      rw [un, if_neg hw, l1]; rfl
    · have h1 : List.zipWith (fun a b => a.val * b.val) v l =
          v.map fun a => ((Complex.normSq a.val : ℝ) : ℂ) * (normSum v : ℂ)⁻¹ := by
        have : List.zipWith (fun a b : CNum => a.val * b.val) v l = List.zipWith (fun (a : CNum) (b : ℂ) => a.val * b) v (l.map CNum.val) := by
          rw [List.zipWith_map_right]
        rw [this, l4, List.zipWith_map_right, List.zipWith_self]
        apply List.map_congr_left
        intro a _
        rw [div_eq_mul_inv, ← mul_assoc, Complex.mul_conj]
      have h2 : (v.map fun a => ((Complex.normSq a.val : ℝ) : ℂ)).sum = (normSum v : ℂ) := by
        rw [← wz, w3, ez, num_val_zero, zero_add]
      rw [h1, List.sum_map_mul_right, h2, mul_inv_cancel₀ (by exact_mod_cast ne_of_gt hpos)]
  · intro h
    have hw : w.val = 0 := by
      rw [wz]
      have : normSum v = 0 := by
        apply List.sum_eq_zero
        intro x hx
        obtain ⟨b, hb, rfl⟩ := List.mem_map.1 hx
        rw [h b hb, Complex.normSq_zero]
      rw [this, Complex.ofReal_zero]
    show (vecInverse (cOps 0) v).bind _ = _
    rw [un, if_pos (((cOps_exact 0).isZero w w2).2 hw)]; rfl

/-- `inv 1j2 3` is `1/14j-1/7 3/14`. -/
example : inv (cOps 0) (.vec [.cx ⟨.int 1, .int 2⟩, .num (.int 3)]) =
    .ok (.vec [.cx ⟨.bigRat (1 / 14), .bigRat (-1 / 7)⟩, .num (.bigRat (3 / 14))]) := by decide +kernel

end Verif.Arr
