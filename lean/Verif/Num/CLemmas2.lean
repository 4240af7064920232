import Verif.Num.CLemmas
/-
The operators on complex numbers, `floor` and `ceil`, expressions.
-/
set_option linter.dupNamespace false
namespace Verif.Num

variable {mb : Nat}

theorem small_zero : zero.Small := by show -(2 ^ 31) ≤ (0 : Int) ∧ (0 : Int) ≤ 2 ^ 31; decide
theorem small_one : one.Small := by show -(2 ^ 31) ≤ (1 : Int) ∧ (1 : Int) ≤ 2 ^ 31; decide
theorem val_zero : zero.val = 0 := by simp [zero, Num.val]
theorem val_one : one.val = 1 := by simp [one, Num.val]

theorem toComplex_good {u : CNum} (hu : u.Good) :
    ∃ c : Cx, u.toComplex = .ok c ∧ c.re.Small ∧ c.im.Small ∧ c.val = u.val := by
  cases u with
  | cx c => exact ⟨c, rfl, hu.1, hu.2.1, rfl⟩
  | num n =>
    refine ⟨⟨n, zero⟩, ?_, hu, small_zero, ?_⟩
    · cases n <;> first | rfl | exact hu.elim
    · show (⟨(n.val : ℝ), (zero.val : ℝ)⟩ : ℂ) = ⟨n.val, 0⟩
      rw [val_zero, Rat.cast_zero]

theorem evalC_gives {t : ℂ → ℂ → Prop} {Q : ℂ → ℂ → ℂ → Prop} {real : Num → Num → Res Num} {cplx : Cx → Cx → Res CNum}
    (hr : ∀ a b : Num, a.Small → b.Small → GivesC (t ⟨a.val, 0⟩ ⟨b.val, 0⟩) (Q ⟨a.val, 0⟩ ⟨b.val, 0⟩) (asNum (real a b)))
    (hc : ∀ c d : Cx, c.re.Small → c.im.Small → d.re.Small → d.im.Small → GivesC (t c.val d.val) (Q c.val d.val) (cplx c d))
    {u v : CNum} (hu : u.Good) (hv : v.Good) : GivesC (t u.val v.val) (Q u.val v.val) (evalC real cplx u v) := by
  have key : GivesC (t u.val v.val) (Q u.val v.val) (u.toComplex.bind fun c => v.toComplex.bind fun d => cplx c d) := by
    obtain ⟨c, e1, s1, s2, s3⟩ := toComplex_good hu
    obtain ⟨d, e2, s4, s5, s6⟩ := toComplex_good hv
    rw [e1, ← s3, ← s6]
    show GivesC _ _ (v.toComplex.bind fun d => cplx c d)
    rw [e2]
    exact hc c d s1 s2 s4 s5
  cases u with
  | cx c => cases v <;> exact key
  | num a =>
    cases v with
    | cx d => exact key
    | num b => exact hr a b hu hv

theorem ofReal_add (a b : ℚ) : (⟨(a + b : ℚ), 0⟩ : ℂ) = ⟨a, 0⟩ + ⟨b, 0⟩ := by apply Complex.ext <;> simp
theorem ofReal_sub (a b : ℚ) : (⟨(a - b : ℚ), 0⟩ : ℂ) = ⟨a, 0⟩ - ⟨b, 0⟩ := by apply Complex.ext <;> simp
theorem ofReal_mul (a b : ℚ) : (⟨(a * b : ℚ), 0⟩ : ℂ) = ⟨a, 0⟩ * ⟨b, 0⟩ := by apply Complex.ext <;> simp
theorem ofReal_neg (a : ℚ) : (⟨(-a : ℚ), 0⟩ : ℂ) = -⟨a, 0⟩ := by apply Complex.ext <;> simp
theorem ofReal_eq (a b : ℚ) : (⟨(a : ℝ), 0⟩ : ℂ) = ⟨b, 0⟩ ↔ a = b := by rw [Complex.ext_iff]; simp
theorem ofReal_eq_zero (a : ℚ) : (⟨(a : ℝ), 0⟩ : ℂ) = 0 ↔ a = 0 := by rw [Complex.ext_iff]; simp
theorem ofReal_div {a b : ℚ} (h : b ≠ 0) : (⟨(a / b : ℚ), 0⟩ : ℂ) = ⟨a, 0⟩ / ⟨b, 0⟩ := by
  rw [eq_div_iff (fun h2 => h ((ofReal_eq_zero b).1 h2)), ← ofReal_mul, div_mul_cancel₀ a h]
theorem ofReal_truth (p : Prop) [Decidable p] : (⟨((truth p : ℚ) : ℝ), 0⟩ : ℂ) = truthC p := by
  unfold truth truthC
  split <;> apply Complex.ext <;> simp

theorem cAdd_gives {u v : CNum} (hu : u.Good) (hv : v.Good) : GivesC (mb = 0) (fun z => z = u.val + v.val) (cAdd mb u v) :=
  evalC_gives (t := fun _ _ => mb = 0) (Q := fun a b z => z = a + b)
    (fun a b ha hb => asNum_gives (plus_gives ha hb) fun c hc => by rw [hc, ofReal_add])
    (fun c d h1 h2 h3 h4 => shrunk_gives (cx_add h1 h2 h3 h4)) hu hv

theorem cSub_gives {u v : CNum} (hu : u.Good) (hv : v.Good) : GivesC (mb = 0) (fun z => z = u.val - v.val) (cSub mb u v) :=
  evalC_gives (t := fun _ _ => mb = 0) (Q := fun a b z => z = a - b)
    (fun a b ha hb => asNum_gives (minus_gives ha hb) fun c hc => by rw [hc, ofReal_sub])
    (fun c d h1 h2 h3 h4 => shrunk_gives (cx_sub h1 h2 h3 h4)) hu hv

theorem cMul_gives {u v : CNum} (hu : u.Good) (hv : v.Good) : GivesC (mb = 0) (fun z => z = u.val * v.val) (cMul mb u v) :=
  evalC_gives (t := fun _ _ => mb = 0) (Q := fun a b z => z = a * b)
    (fun a b ha hb => asNum_gives (times_gives ha hb) fun c hc => by rw [hc, ofReal_mul])
    (fun c d h1 h2 h3 h4 => shrunk_gives (cx_mul h1 h2 h3 h4)) hu hv

theorem cDiv_gives {u v : CNum} (hu : u.Good) (hv : v.Good) :
    GivesC (mb = 0 ∧ v.val ≠ 0) (fun z => v.val ≠ 0 ∧ z = u.val / v.val) (cDiv mb u v) := by
  refine evalC_gives (t := fun _ b => mb = 0 ∧ b ≠ 0) (Q := fun a b z => b ≠ 0 ∧ z = a / b) ?_
    (fun c d h1 h2 h3 h4 => shrunk_gives (cx_div h1 h2 h3 h4)) hu hv
  intro a b ha hb
  refine asNum_gives (givesN_of (divide_ok ha hb) fun ht => divide_some ha.isNum hb.isNum fun h => ht.2 ((ofReal_eq_zero _).2 h)) ?_
  rintro c ⟨h0, hc⟩
  refine ⟨fun h => h0 ((ofReal_eq_zero _).1 h), ?_⟩
  rw [← ofReal_div h0, ← hc, mul_div_assoc, div_self h0, mul_one]

theorem cmp_bool {f : Int → Int → Bool} {g : Rat → Rat → Bool} {u v : Num} (hu : u.isNum) (hv : v.isNum) :
    ∀ w, (opCmp f g).eval u v = .ok w → w = zero ∨ w = one := by
  have key : ∀ b : Bool, ∀ w, Res.ok (toInt b) = .ok w → w = zero ∨ w = one := by
    intro b w h
    cases h
    cases b
    · exact .inl rfl
    · exact .inr rfl
  refine arith_elim rfl hu hv (fun r => ∀ w, r = .ok w → w = zero ∨ w = one) ?_ ?_ ?_
  · intro a b _ _; exact key _
  · intro a b _ _ _ _; exact key _
  · intro a b _ _ _; exact key _

theorem one_ne_zero_num : one ≠ zero := by decide

open Classical in
theorem cEq_gives {t : Prop} {u v : CNum} (hu : u.Good) (hv : v.Good) :
    GivesC t (fun z => z = truthC (u.val = v.val)) (cEq u v) := by
  refine evalC_gives (t := fun _ _ => t) (Q := fun a b z => z = truthC (a = b)) ?_ ?_ hu hv
  · intro a b ha hb
    refine asNum_gives (givesN_of (eq_ok ha hb) fun _ => cmp_isOk ha.isNum hb.isNum) fun c hc => ?_
    rw [show c = truth (a.val = b.val) from hc, ofReal_truth]
    simp only [ofReal_eq]
  · intro c d h1 h2 h3 h4
    have ext : c.val = d.val ↔ c.re.val = d.re.val ∧ c.im.val = d.im.val := by rw [Complex.ext_iff]; simp [Cx.val]
    obtain ⟨r, hr⟩ : ∃ r, opEq.eval c.re d.re = .ok r := cmp_isOk h1.isNum h3.isNum
    have er : r.val = truth (c.re.val = d.re.val) := ((eq_ok h1 h3).2 r hr).2
    rw [hr]
    show GivesC t _ (if r = zero then .ok (.num zero) else asNum (opEq.eval c.im d.im))
    rcases cmp_bool h1.isNum h3.isNum r hr with rfl | rfl
    · rw [if_pos rfl]
      have h : ¬ c.re.val = d.re.val := fun h => by rw [truth, if_pos h, val_zero] at er; exact absurd er (by norm_num)
      refine givesC_ok small_zero ?_
      show (⟨(zero.val : ℝ), 0⟩ : ℂ) = truthC (c.val = d.val)
      rw [truthC, if_neg (fun hh => h (ext.1 hh).1), val_zero]
      apply Complex.ext <;> simp
    · rw [if_neg one_ne_zero_num]
      have h : c.re.val = d.re.val := by
        by_contra h; rw [truth, if_neg h, val_one] at er; exact absurd er (by norm_num)
      refine asNum_gives (givesN_of (eq_ok h2 h4) fun _ => cmp_isOk h2.isNum h4.isNum) fun w hw => ?_
      rw [show w = truth (c.im.val = d.im.val) from hw, ofReal_truth]
      simp only [ext, h, true_and]

open Classical in
theorem cNe_gives {t : Prop} {u v : CNum} (hu : u.Good) (hv : v.Good) :
    GivesC t (fun z => z = truthC (u.val ≠ v.val)) (cNe u v) := by
  refine evalC_gives (t := fun _ _ => t) (Q := fun a b z => z = truthC (a ≠ b)) ?_ ?_ hu hv
  · intro a b ha hb
    refine asNum_gives (givesN_of (ne_ok ha hb) fun _ => cmp_isOk ha.isNum hb.isNum) fun c hc => ?_
    rw [show c = truth (a.val ≠ b.val) from hc, ofReal_truth]
    simp only [ne_eq, ofReal_eq]
  · intro c d h1 h2 h3 h4
    have ext : c.val = d.val ↔ c.re.val = d.re.val ∧ c.im.val = d.im.val := by rw [Complex.ext_iff]; simp [Cx.val]
    obtain ⟨r, hr⟩ : ∃ r, opNe.eval c.re d.re = .ok r := cmp_isOk h1.isNum h3.isNum
    have er : r.val = truth (c.re.val ≠ d.re.val) := ((ne_ok h1 h3).2 r hr).2
    rw [hr]
    show GivesC t _ (if r = one then .ok (.num one) else asNum (opNe.eval c.im d.im))
    rcases cmp_bool h1.isNum h3.isNum r hr with rfl | rfl
    · rw [if_neg (fun h => one_ne_zero_num h.symm)]
      have h : c.re.val = d.re.val := by
        by_contra h; rw [truth, if_pos h, val_zero] at er; exact absurd er (by norm_num)
      refine asNum_gives (givesN_of (ne_ok h2 h4) fun _ => cmp_isOk h2.isNum h4.isNum) fun w hw => ?_
      rw [show w = truth (c.im.val ≠ d.im.val) from hw, ofReal_truth]
      simp only [ne_eq, ext, h, true_and]
    · rw [if_pos rfl]
      have h : ¬ c.re.val = d.re.val := fun h => by
        rw [truth, if_neg (fun h2 => h2 h), val_one] at er; exact absurd er (by norm_num)
      refine givesC_ok small_one ?_
      show (⟨(one.val : ℝ), 0⟩ : ℂ) = truthC (c.val ≠ d.val)
      rw [truthC, if_pos (fun hh => h (ext.1 hh).1), val_one]
      apply Complex.ext <;> simp

theorem good_real {u : CNum} (hu : u.Good) (h : u.val.im = 0) : ∃ n, u = .num n ∧ n.Small := by
  cases u with
  | num n => exact ⟨n, rfl, hu⟩
  | cx c =>
    exfalso
    apply hu.2.2
    have : ((c.im.val : ℚ) : ℝ) = 0 := h
    exact_mod_cast this

theorem cJ_gives {t : Prop} {u v : CNum} (hu : u.Good) (hv : v.Good) :
    GivesC (t ∧ u.val.im = 0 ∧ v.val.im = 0) (fun z => u.val.im = 0 ∧ v.val.im = 0 ∧ z = u.val + v.val * Complex.I) (cJ u v) := by
  cases u with
  | cx c => exact givesC_err fun h => by obtain ⟨n, e, _⟩ := good_real hu h.2.1; cases e
  | num a =>
    cases v with
    | cx d => exact givesC_err fun h => by obtain ⟨n, e, _⟩ := good_real hv h.2.2; cases e
    | num b =>
      have ha : a.Small := hu
      have hb : b.Small := hv
      have fin : ∀ a' b' : Num, a'.isNum → b'.isNum → a'.shrink.Small → b'.shrink.Small → a'.val = a.val → b'.val = b.val →
          GivesC (t ∧ (CNum.num a).val.im = 0 ∧ (CNum.num b).val.im = 0)
            (fun z => (CNum.num a).val.im = 0 ∧ (CNum.num b).val.im = 0 ∧ z = (CNum.num a).val + (CNum.num b).val * Complex.I)
            (shrunk (newComplex a' b')) := by
        intro a' b' na nb sa sb ea eb
        have e : newComplex a' b' = .ok ⟨a', b'⟩ := by
          unfold newComplex
          rw [show simpleNumber a' = true by cases a' <;> first | rfl | exact na.elim,
            show simpleNumber b' = true by cases b' <;> first | rfl | exact nb.elim]
          rfl
        rw [e]
        obtain ⟨g1, g2⟩ := shrink_good' (c := ⟨a', b'⟩) sa sb
        refine givesC_ok g1 ⟨rfl, rfl, ?_⟩
        rw [g2]
        show (⟨(a'.val : ℝ), (b'.val : ℝ)⟩ : ℂ) = ⟨a.val, 0⟩ + ⟨b.val, 0⟩ * Complex.I
        rw [ea, eb]
        apply Complex.ext <;> simp
      have sb := small_shrinkBig
      have sr := small_shrinkRat
      cases a with
      | char c => exact ha.elim
      | int x =>
        cases b with
        | char c => exact hb.elim
        | int y => exact fin (.int x) (.int y) trivial trivial ha hb rfl rfl
        | bigInt y => exact fin (.bigInt x) (.bigInt y) trivial trivial (sb _) (sb _) rfl rfl
        | bigRat y => exact fin (.bigRat x) (.bigRat y) trivial trivial (sr _) (sr _) rfl rfl
      | bigInt x =>
        cases b with
        | char c => exact hb.elim
        | int y => exact fin (.bigInt x) (.bigInt y) trivial trivial (sb _) (sb _) rfl rfl
        | bigInt y => exact fin (.bigInt x) (.bigInt y) trivial trivial (sb _) (sb _) rfl rfl
        | bigRat y => exact fin (.bigRat x) (.bigRat y) trivial trivial (sr _) (sr _) rfl rfl
      | bigRat x =>
        cases b with
        | char c => exact hb.elim
        | int y => exact fin (.bigRat x) (.bigRat y) trivial trivial (sr _) (sr _) rfl rfl
        | bigInt y => exact fin (.bigRat x) (.bigRat y) trivial trivial (sr _) (sr _) rfl rfl
        | bigRat y => exact fin (.bigRat x) (.bigRat y) trivial trivial (sr _) (sr _) rfl rfl

/-! ## Unary operators -/

theorem evalC1_gives {t : ℂ → Prop} {Q : ℂ → ℂ → Prop} {real : Num → Res CNum} {cplx : Cx → Res CNum}
    (hr : ∀ a : Num, a.Small → GivesC (t ⟨a.val, 0⟩) (Q ⟨a.val, 0⟩) (real a))
    (hc : ∀ c : Cx, c.re.Small → c.im.Small → c.im.val ≠ 0 → GivesC (t c.val) (Q c.val) (cplx c))
    {u : CNum} (hu : u.Good) : GivesC (t u.val) (Q u.val) (evalC1 real cplx u) := by
  cases u with
  | num a => exact hr a hu
  | cx c => exact hc c hu.1 hu.2.1 hu.2.2

theorem noChar_eq {f : Num → Res CNum} {a : Num} (ha : a.Small) : noChar f a = f a := by
  cases a <;> first | rfl | exact ha.elim

theorem cNeg_gives {t : Prop} {u : CNum} (hu : u.Good) : GivesC t (fun z => z = -u.val) (cNeg u) :=
  evalC1_gives (t := fun _ => t) (Q := fun a z => z = -a)
    (fun a ha => asNum_gives (neg_gives ha) fun c hc => by rw [hc, ofReal_neg])
    (fun c h1 h2 _ => shrunk_gives (cx_neg h1 h2)) hu

theorem cRecip_gives {u : CNum} (hu : u.Good) :
    GivesC (mb = 0 ∧ u.val ≠ 0) (fun z => u.val ≠ 0 ∧ z = 1 / u.val) (cRecip mb u) := by
  refine evalC1_gives (t := fun a => mb = 0 ∧ a ≠ 0) (Q := fun a z => a ≠ 0 ∧ z = 1 / a) ?_
    (fun c h1 h2 _ => shrunk_gives (cx_inverse h1 h2)) hu
  intro a ha
  refine asNum_gives (givesN_of (recip_ok ha) fun ht => recip_isOk ha.isNum fun h => ht.2 ((ofReal_eq_zero _).2 h)) ?_
  intro c hc
  have h0 : a.val ≠ 0 := fun h => by rw [h, mul_zero] at hc; exact absurd hc (by norm_num)
  refine ⟨fun h => h0 ((ofReal_eq_zero _).1 h), ?_⟩
  rw [eq_div_iff (fun h => h0 ((ofReal_eq_zero _).1 h)), ← ofReal_mul, hc]
  apply Complex.ext <;> simp

theorem cConj_gives {t : Prop} {u : CNum} (hu : u.Good) : GivesC t (fun z => z = starRingEnd ℂ u.val) (cConj u) := by
  refine evalC1_gives (t := fun _ => t) (Q := fun a z => z = starRingEnd ℂ a) ?_ ?_ hu
  · intro a ha
    rw [noChar_eq ha]
    refine givesC_ok ha ?_
    show (⟨(a.val : ℝ), 0⟩ : ℂ) = _
    apply Complex.ext <;> simp
  · intro c h1 h2 _
    refine bindNC (neg_gives h2) fun i hi ei => shrunk_gives (newComplex_gives h1 hi ?_)
    apply Complex.ext <;> simp [Cx.val, ei]

theorem cTurn_gives {t : Prop} {u : CNum} (hu : u.Good) : GivesC t (fun z => z = Complex.I * u.val) (cTurn u) := by
  refine evalC1_gives (t := fun _ => t) (Q := fun a z => z = Complex.I * a) ?_ ?_ hu
  · intro a ha
    rw [noChar_eq ha]
    refine shrunk_gives (newComplex_gives small_zero ha ?_)
    apply Complex.ext <;> simp [val_zero]
  · intro c h1 h2 _
    refine bindNC (neg_gives h2) fun i hi ei => shrunk_gives (newComplex_gives hi h1 ?_)
    apply Complex.ext <;> simp [Cx.val, ei]

theorem cReal_gives {t : Prop} {u : CNum} (hu : u.Good) : GivesC t (fun z => z = (u.val.re : ℂ)) (cReal u) := by
  refine evalC1_gives (t := fun _ => t) (Q := fun a z => z = (a.re : ℂ)) ?_ ?_ hu
  · intro a ha
    rw [noChar_eq ha]
    exact givesC_ok ha (by apply Complex.ext <;> simp [CNum.val])
  · intro c h1 h2 _
    exact givesC_ok (w := .num c.re) h1 (by apply Complex.ext <;> simp [CNum.val, Cx.val])

theorem cImag_gives {t : Prop} {u : CNum} (hu : u.Good) : GivesC t (fun z => z = (u.val.im : ℂ)) (cImag u) := by
  refine evalC1_gives (t := fun _ => t) (Q := fun a z => z = (a.im : ℂ)) ?_ ?_ hu
  · intro a ha
    rw [noChar_eq ha]
    exact givesC_ok (w := .num zero) small_zero (by apply Complex.ext <;> simp [CNum.val, val_zero])
  · intro c h1 h2 _
    exact givesC_ok (w := .num c.im) h2 (by apply Complex.ext <;> simp [CNum.val, Cx.val])

open Classical in
theorem cNot_gives {t : Prop} {u : CNum} (hu : u.Good) : GivesC t (fun z => z = truthC (u.val = 0)) (cNot u) := by
  refine evalC1_gives (t := fun _ => t) (Q := fun a z => z = truthC (a = 0)) ?_ ?_ hu
  · intro a ha
    refine asNum_gives (givesN_of (not_ok ha) fun _ => not_isOk ha.isNum) fun c hc => ?_
    rw [show c = truth (a.val = 0) from hc, ofReal_truth]
    simp only [ofReal_eq_zero]
  · intro c h1 h2 h0
    have e : c.isZero = false := by
      by_contra h
      rw [Bool.not_eq_false] at h
      exact h0 ((isZero_iff h1 h2).1 h).2
    rw [e]
    refine givesC_ok small_zero ?_
    rw [truthC, if_neg (fun h => h0 ((val_zero_iff h1 h2).1 h).2)]
    apply Complex.ext <;> simp [CNum.val, val_zero]

/-! ## All operators -/

theorem cop2_gives (op : COp2) {u v : CNum} (hu : u.Good) (hv : v.Good) :
    GivesC (mb = 0 ∧ op.Def u.val v.val) (op.Spec u.val v.val) (op.eval mb u v) := by
  cases op with
  | add => exact (cAdd_gives hu hv).mono And.left fun _ h => h
  | sub => exact (cSub_gives hu hv).mono And.left fun _ h => h
  | mul => exact (cMul_gives hu hv).mono And.left fun _ h => h
  | quo => exact (cDiv_gives hu hv).mono id fun _ h => h
  | eq => exact cEq_gives hu hv
  | ne => exact cNe_gives hu hv
  | j => exact cJ_gives hu hv

theorem cop1_gives (op : COp1) {u : CNum} (hu : u.Good) :
    GivesC (mb = 0 ∧ op.Def u.val) (op.Spec u.val) (op.eval mb u) := by
  cases op with
  | neg => exact cNeg_gives hu
  | recip => exact (cRecip_gives hu).mono id fun _ h => h
  | conj => exact cConj_gives hu
  | turn => exact cTurn_gives hu
  | real => exact cReal_gives hu
  | imag => exact cImag_gives hu
  | not => exact cNot_gives hu

theorem expr_gives (e : CExpr) : GivesC False (fun z => CMeans e z) (e.eval mb) := by
  induction e with
  | lit r =>
    refine givesC_ok (w := .num (litNum r)) (small_litNum r) ?_
    have : (CNum.num (litNum r)).val = (r : ℂ) := by
      show (⟨((litNum r).val : ℝ), 0⟩ : ℂ) = _
      rw [val_litNum]
      apply Complex.ext <;> simp
    rw [this]; exact .lit r
  | un op e ih =>
    exact bindCC ih fun w h1 h2 => (cop1_gives op h1).mono False.elim fun c hc => .un h2 hc
  | bin e₁ op e₂ ih1 ih2 =>
    exact bindCC ih2 fun v h1 h2 => bindCC ih1 fun u h3 h4 => (cop2_gives op h3 h1).mono False.elim fun c hc => .bin h4 h2 hc

/-! ## Floor and ceiling -/

theorem floor_gives {t : Prop} {u : Num} (hu : u.Small) : GivesN t (fun c => c = (⌊u.val⌋ : ℤ)) (opFloor.eval u) :=
  (givesN_of (floor_ok hu) fun _ => floor_isOk hu).mono id fun c hc => by
    obtain ⟨z, rfl, h1, h2⟩ := hc
    rw [Int.floor_eq_iff.2 ⟨h1, h2⟩]

theorem fract_gives {t : Prop} {u : Num} (hu : u.Small) : GivesN t (fun c => c = Int.fract u.val) (opMod.eval u one) :=
  (givesN_of (mod_ok hu small_one) fun _ => mod_some hu.isNum small_one.isNum).mono id fun c hc => by
    have hc' : if one.val = 0 then c = u.val else ∃ q : Int, Euclidean u.val one.val q c := hc
    rw [val_one, if_neg one_ne_zero] at hc'
    obtain ⟨q, h1, h2, h3⟩ := hc'
    rw [abs_one] at h3
    rw [mul_one] at h1
    have : ⌊u.val⌋ = q := Int.floor_eq_iff.2 ⟨by linarith, by linarith⟩
    rw [Int.fract, this]; linarith

theorem isTrue_gives {p : Prop} [Decidable p] {r : Num} (h : r = zero ∨ r = one) (e : r.val = truth p) : isTrue r = true ↔ p := by
  unfold truth at e
  rcases h with rfl | rfl
  · constructor
    · intro h; cases h
    · intro h; rw [if_pos h, val_zero] at e; exact absurd e (by norm_num)
  · constructor
    · intro _; by_contra h; rw [if_neg h, val_one] at e; exact absurd e (by norm_num)
    · intro _; rfl

theorem cx_floor {same : Bool} {c : Cx} (h1 : c.re.Small) (h2 : c.im.Small) (hs : same = true → c.im = c.re ∧ 0 ≤ c.re.val) :
    GivesX (mb = 0) (fun w => IsFloor c.val w) (c.floor mb same) := by
  have hy : (if same then afterMod c.re else c.im) = c.im := by
    cases same with
    | false => rfl
    | true =>
      obtain ⟨e, h0⟩ := hs rfl
      rw [e, if_pos rfl]
      cases hr : c.re with
      | bigRat r =>
        rw [hr] at h0
        have : ¬ r < 0 := not_lt.2 h0
        rw [afterMod, if_neg this]
      | int => rfl
      | char => rfl
      | bigInt => rfl
  unfold Cx.floor
  rw [hy]
  refine bindNX (floor_gives h1) fun fr hfr efr => bindNX (floor_gives h2) fun fi hfi efi =>
    bindXX (newComplex_gives (P := fun w => w = ⟨fr.val, fi.val⟩) hfr hfi rfl) fun b hb1 hb2 eb =>
    bindNX (fract_gives h1) fun x hx ex => bindNX (fract_gives h2) fun y hy ey =>
    bindNX (plus_gives hx hy) fun s hs es => ?_
  obtain ⟨l, hl⟩ : ∃ l, opGt.eval one s = .ok l := cmp_isOk small_one.isNum hs.isNum
  have el : l.val = truth (s.val < one.val) := ((gt_ok small_one hs).2 l hl).2
  have tl := isTrue_gives (cmp_bool small_one.isNum hs.isNum l hl) el
  rw [hl]
  show GivesX _ _ (if isTrue l = true then _ else _)
  have efr' : ((fr.val : ℚ) : ℝ) = ⌊(c.re.val : ℝ)⌋ := by rw [efr, Rat.floor_cast]; push_cast; rfl
  have efi' : ((fi.val : ℚ) : ℝ) = ⌊(c.im.val : ℝ)⌋ := by rw [efi, Rat.floor_cast]; push_cast; rfl
  have cond1 : s.val < one.val ↔ Int.fract c.val.re + Int.fract c.val.im < 1 := by
    show _ ↔ Int.fract (c.re.val : ℝ) + Int.fract (c.im.val : ℝ) < 1
    rw [es, ex, ey, val_one, ← Rat.cast_fract, ← Rat.cast_fract]
    norm_cast
  have cond2 : y.val ≤ x.val ↔ Int.fract c.val.im ≤ Int.fract c.val.re := by
    show _ ↔ Int.fract (c.im.val : ℝ) ≤ Int.fract (c.re.val : ℝ)
    rw [ex, ey, ← Rat.cast_fract, ← Rat.cast_fract]
    norm_cast
  have bval : b.val = ⟨⌊c.val.re⌋, ⌊c.val.im⌋⟩ := by
    rw [eb]
    show (⟨(fr.val : ℝ), (fi.val : ℝ)⟩ : ℂ) = ⟨⌊(c.re.val : ℝ)⌋, ⌊(c.im.val : ℝ)⌋⟩
    rw [efr', efi']
  by_cases c1 : s.val < one.val
  · rw [if_pos (tl.2 c1)]
    refine givesX_ok hb1 hb2 ?_
    unfold IsFloor
    rw [if_pos (cond1.1 c1), bval]
  · rw [if_neg (fun h => c1 (tl.1 h))]
    obtain ⟨g, hg⟩ : ∃ g, opGe.eval x y = .ok g := cmp_isOk hx.isNum hy.isNum
    have eg : g.val = truth (y.val ≤ x.val) := ((ge_ok hx hy).2 g hg).2
    have tg := isTrue_gives (cmp_bool hx.isNum hy.isNum g hg) eg
    rw [hg]
    show GivesX _ _ (if isTrue g = true then _ else _)
    by_cases c2 : y.val ≤ x.val
    · rw [if_pos (tg.2 c2)]
      refine (cx_add hb1 hb2 small_one small_zero).mono id fun w hw => ?_
      unfold IsFloor
      rw [if_neg (fun h => c1 (cond1.2 h)), if_pos (cond2.1 c2), hw, bval]
      apply Complex.ext <;> simp [Cx.val, val_one, val_zero]
    · rw [if_neg (fun h => c2 (tg.1 h))]
      refine bindXX (newComplex_gives (P := fun w => w = ⟨zero.val, one.val⟩) small_zero small_one rfl) fun i hi1 hi2 ei => ?_
      refine (cx_add hb1 hb2 hi1 hi2).mono id fun w hw => ?_
      unfold IsFloor
      rw [if_neg (fun h => c1 (cond1.2 h)), if_neg (fun h => c2 (cond2.2 h)), hw, bval, ei]
      apply Complex.ext <;> simp [val_one, val_zero]

theorem cx_ceil {c : Cx} (h1 : c.re.Small) (h2 : c.im.Small) :
    GivesX (mb = 0) (fun w => IsFloor (-c.val) (-w)) (c.ceil mb) := by
  refine bindXX (cx_neg h1 h2) fun n n1 n2 en => bindXX (cx_floor n1 n2 fun h => by cases h) fun f f1 f2 ef =>
    (cx_neg f1 f2).mono id fun w hw => ?_
  rw [hw, neg_neg, ← en]; exact ef

theorem isFloor_real (a : ℚ) : IsFloor ⟨a, 0⟩ ⟨(⌊a⌋ : ℤ), 0⟩ := by
  unfold IsFloor
  have : Int.fract (a : ℝ) + Int.fract (0 : ℝ) < 1 := by rw [Int.fract_zero, add_zero]; exact Int.fract_lt_one _
  rw [if_pos this]
  apply Complex.ext <;> simp

theorem cFloor_gives {same : Bool} {u : CNum} (hu : u.Good)
    (hs : ∀ c, u = .cx c → same = true → c.im = c.re ∧ 0 ≤ c.re.val) :
    GivesC (mb = 0) (fun w => IsFloor u.val w) (cFloor mb same u) := by
  cases u with
  | num a =>
    refine asNum_gives (floor_gives hu) fun c hc => ?_
    rw [hc]
    have := isFloor_real a.val
    rw [show ((((⌊a.val⌋ : ℤ) : ℚ) : ℝ)) = ((⌊a.val⌋ : ℤ) : ℝ) by push_cast; rfl]
    exact this
  | cx c => exact shrunk_gives (cx_floor hu.1 hu.2.1 (hs c rfl))

theorem cCeil_gives {u : CNum} (hu : u.Good) : GivesC (mb = 0) (fun w => IsFloor (-u.val) (-w)) (cCeil mb u) := by
  cases u with
  | num a =>
    refine asNum_gives (givesN_of (ceil_ok hu) fun _ => ceil_isOk hu) fun c hc => ?_
    obtain ⟨z, rfl, h1, h2⟩ := hc
    have e : ⌊-a.val⌋ = -z := Int.floor_eq_iff.2 ⟨by push_cast; linarith, by push_cast; linarith⟩
    have := isFloor_real (-a.val)
    rw [e] at this
    show IsFloor (-⟨a.val, 0⟩) (-⟨((z : ℚ) : ℝ), 0⟩)
    rw [← ofReal_neg, ← ofReal_neg]
    push_cast at this ⊢
    exact this
  | cx c => exact shrunk_gives (cx_ceil hu.1 hu.2.1)

end Verif.Num
