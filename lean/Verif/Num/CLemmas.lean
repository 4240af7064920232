import Verif.Num.CSpec
import Verif.Num.Lemmas5
import Mathlib.Tactic.FieldSimp
import Mathlib.Tactic.Linarith
/-
The methods of Complex compute what they should.
-/
set_option linter.dupNamespace false
namespace Verif.Num

/-- A small number with the given property, or none; surely one if `t`. -/
def GivesN (t : Prop) (P : Rat → Prop) (r : Res Num) : Prop :=
  r ≠ .crash ∧ (t → ∃ w, r = .ok w) ∧ ∀ w, r = .ok w → w.Small ∧ P w.val

/-- A pair of small numbers with the given property, or none; surely one if `t`. -/
def GivesX (t : Prop) (P : ℂ → Prop) (r : Res Cx) : Prop :=
  r ≠ .crash ∧ (t → ∃ w, r = .ok w) ∧ ∀ w, r = .ok w → w.re.Small ∧ w.im.Small ∧ P w.val

/-- A good number with the given property, or none; surely one if `t`. -/
def GivesC (t : Prop) (P : ℂ → Prop) (r : Res CNum) : Prop :=
  r ≠ .crash ∧ (t → ∃ w, r = .ok w) ∧ ∀ w, r = .ok w → w.Good ∧ P w.val

theorem givesN_of {t : Prop} {P : Rat → Prop} {r : Res Num} (h : Yields P r) (h2 : t → IsOk r) : GivesN t P r :=
  ⟨h.1, h2, h.2⟩

theorem bindNX {t : Prop} {P : Rat → Prop} {Q : ℂ → Prop} {r : Res Num} {f : Num → Res Cx} (h : GivesN t P r)
    (hf : ∀ w, w.Small → P w.val → GivesX t Q (f w)) : GivesX t Q (r.bind f) := by
  cases r with
  | ok w => exact hf w (h.2.2 w rfl).1 (h.2.2 w rfl).2
  | crash => exact absurd rfl h.1
  | err => exact ⟨by simp [Res.bind], fun ht => (by obtain ⟨w, hw⟩ := h.2.1 ht; cases hw), fun w hw => by cases hw⟩
  | float => exact ⟨by simp [Res.bind], fun ht => (by obtain ⟨w, hw⟩ := h.2.1 ht; cases hw), fun w hw => by cases hw⟩

theorem bindNN {t : Prop} {P : Rat → Prop} {Q : Rat → Prop} {r : Res Num} {f : Num → Res Num} (h : GivesN t P r)
    (hf : ∀ w, w.Small → P w.val → GivesN t Q (f w)) : GivesN t Q (r.bind f) := by
  cases r with
  | ok w => exact hf w (h.2.2 w rfl).1 (h.2.2 w rfl).2
  | crash => exact absurd rfl h.1
  | err => exact ⟨by simp [Res.bind], fun ht => (by obtain ⟨w, hw⟩ := h.2.1 ht; cases hw), fun w hw => by cases hw⟩
  | float => exact ⟨by simp [Res.bind], fun ht => (by obtain ⟨w, hw⟩ := h.2.1 ht; cases hw), fun w hw => by cases hw⟩

theorem bindNC {t : Prop} {P : Rat → Prop} {Q : ℂ → Prop} {r : Res Num} {f : Num → Res CNum} (h : GivesN t P r)
    (hf : ∀ w, w.Small → P w.val → GivesC t Q (f w)) : GivesC t Q (r.bind f) := by
  cases r with
  | ok w => exact hf w (h.2.2 w rfl).1 (h.2.2 w rfl).2
  | crash => exact absurd rfl h.1
  | err => exact ⟨by simp [Res.bind], fun ht => (by obtain ⟨w, hw⟩ := h.2.1 ht; cases hw), fun w hw => by cases hw⟩
  | float => exact ⟨by simp [Res.bind], fun ht => (by obtain ⟨w, hw⟩ := h.2.1 ht; cases hw), fun w hw => by cases hw⟩

theorem bindXX {t : Prop} {P : ℂ → Prop} {Q : ℂ → Prop} {r : Res Cx} {f : Cx → Res Cx} (h : GivesX t P r)
    (hf : ∀ w : Cx, w.re.Small → w.im.Small → P w.val → GivesX t Q (f w)) : GivesX t Q (r.bind f) := by
  cases r with
  | ok w => exact hf w (h.2.2 w rfl).1 (h.2.2 w rfl).2.1 (h.2.2 w rfl).2.2
  | crash => exact absurd rfl h.1
  | err => exact ⟨by simp [Res.bind], fun ht => (by obtain ⟨w, hw⟩ := h.2.1 ht; cases hw), fun w hw => by cases hw⟩
  | float => exact ⟨by simp [Res.bind], fun ht => (by obtain ⟨w, hw⟩ := h.2.1 ht; cases hw), fun w hw => by cases hw⟩

theorem bindXC {t : Prop} {P : ℂ → Prop} {Q : ℂ → Prop} {r : Res Cx} {f : Cx → Res CNum} (h : GivesX t P r)
    (hf : ∀ w : Cx, w.re.Small → w.im.Small → P w.val → GivesC t Q (f w)) : GivesC t Q (r.bind f) := by
  cases r with
  | ok w => exact hf w (h.2.2 w rfl).1 (h.2.2 w rfl).2.1 (h.2.2 w rfl).2.2
  | crash => exact absurd rfl h.1
  | err => exact ⟨by simp [Res.bind], fun ht => (by obtain ⟨w, hw⟩ := h.2.1 ht; cases hw), fun w hw => by cases hw⟩
  | float => exact ⟨by simp [Res.bind], fun ht => (by obtain ⟨w, hw⟩ := h.2.1 ht; cases hw), fun w hw => by cases hw⟩

theorem bindCC {t : Prop} {P : ℂ → Prop} {Q : ℂ → Prop} {r : Res CNum} {f : CNum → Res CNum} (h : GivesC t P r)
    (hf : ∀ w : CNum, w.Good → P w.val → GivesC t Q (f w)) : GivesC t Q (r.bind f) := by
  cases r with
  | ok w => exact hf w (h.2.2 w rfl).1 (h.2.2 w rfl).2
  | crash => exact absurd rfl h.1
  | err => exact ⟨by simp [Res.bind], fun ht => (by obtain ⟨w, hw⟩ := h.2.1 ht; cases hw), fun w hw => by cases hw⟩
  | float => exact ⟨by simp [Res.bind], fun ht => (by obtain ⟨w, hw⟩ := h.2.1 ht; cases hw), fun w hw => by cases hw⟩

theorem givesC_ok {t : Prop} {P : ℂ → Prop} {w : CNum} (h : w.Good) (h2 : P w.val) : GivesC t P (.ok w) :=
  ⟨by simp, fun _ => ⟨w, rfl⟩, fun w' e => by cases e; exact ⟨h, h2⟩⟩

theorem givesX_ok {t : Prop} {P : ℂ → Prop} {w : Cx} (h : w.re.Small) (h' : w.im.Small) (h2 : P w.val) : GivesX t P (.ok w) :=
  ⟨by simp, fun _ => ⟨w, rfl⟩, fun w' e => by cases e; exact ⟨h, h', h2⟩⟩

theorem givesC_err {t : Prop} {P : ℂ → Prop} (h : ¬ t) : GivesC t P .err :=
  ⟨by simp, fun ht => absurd ht h, fun w' e => by cases e⟩

theorem givesX_err {t : Prop} {P : ℂ → Prop} (h : ¬ t) : GivesX t P .err :=
  ⟨by simp, fun ht => absurd ht h, fun w' e => by cases e⟩

theorem GivesN.mono {t t' : Prop} {P Q : Rat → Prop} {r : Res Num} (h : GivesN t P r) (ht : t' → t)
    (hPQ : ∀ c, P c → Q c) : GivesN t' Q r :=
  ⟨h.1, fun x => h.2.1 (ht x), fun w hw => ⟨(h.2.2 w hw).1, hPQ _ (h.2.2 w hw).2⟩⟩

theorem GivesX.mono {t t' : Prop} {P Q : ℂ → Prop} {r : Res Cx} (h : GivesX t P r) (ht : t' → t)
    (hPQ : ∀ c, P c → Q c) : GivesX t' Q r :=
  ⟨h.1, fun x => h.2.1 (ht x), fun w hw => ⟨(h.2.2 w hw).1, (h.2.2 w hw).2.1, hPQ _ (h.2.2 w hw).2.2⟩⟩

theorem GivesC.mono {t t' : Prop} {P Q : ℂ → Prop} {r : Res CNum} (h : GivesC t P r) (ht : t' → t)
    (hPQ : ∀ c, P c → Q c) : GivesC t' Q r :=
  ⟨h.1, fun x => h.2.1 (ht x), fun w hw => ⟨(h.2.2 w hw).1, hPQ _ (h.2.2 w hw).2⟩⟩

/-! ## Components -/

variable {mb : Nat}

theorem plus_gives {u v : Num} (hu : u.Small) (hv : v.Small) : GivesN (mb = 0) (fun c => c = u.val + v.val) (plus mb u v) :=
  givesN_of (add_ok hu hv) (by rintro rfl; exact add_some hu.isNum hv.isNum)

theorem minus_gives {u v : Num} (hu : u.Small) (hv : v.Small) : GivesN (mb = 0) (fun c => c = u.val - v.val) (minus mb u v) :=
  givesN_of (sub_ok hu hv) (by rintro rfl; exact sub_some hu.isNum hv.isNum)

theorem times_gives {u v : Num} (hu : u.Small) (hv : v.Small) : GivesN (mb = 0) (fun c => c = u.val * v.val) (times mb u v) :=
  givesN_of (mul_ok hu hv) (by rintro rfl; exact mul_some hu.isNum hv.isNum)

theorem divide_gives {t : Prop} {u v : Num} (hu : u.Small) (hv : v.Small) (h : v.val ≠ 0) :
    GivesN t (fun c => c = u.val / v.val) (opDivide.eval u v) := by
  refine (givesN_of (divide_ok hu hv) fun _ => divide_some hu.isNum hv.isNum h).mono id ?_
  rintro c ⟨-, hc⟩
  field_simp
  exact hc

theorem neg_gives {t : Prop} {u : Num} (hu : u.Small) : GivesN t (fun c => c = -u.val) (opNeg.eval u) :=
  givesN_of (neg_ok hu) fun _ => neg_isOk hu.isNum

theorem small_shrink {u : Num} (hu : u.Small) : u.shrink.Small := by
  cases u with
  | int i => exact hu
  | char c => exact hu
  | bigInt i => exact small_shrinkBig i
  | bigRat r => exact small_shrinkRat r

theorem val_shrink (u : Num) : u.shrink.val = u.val := by
  cases u with
  | int i => rfl
  | char c => rfl
  | bigInt i => exact val_shrinkBig i
  | bigRat r => exact val_shrinkRat r

theorem isZeroNum_iff {u : Num} (hu : u.Small) : isZeroNum u = true ↔ u.val = 0 := by
  cases u with
  | int i => simp [isZeroNum, Num.val]
  | char c => exact hu.elim
  | bigInt i => simp [isZeroNum, Num.val]
  | bigRat r => simp [isZeroNum, Num.val]

theorem simple_of_small {u : Num} (hu : u.Small) : simpleNumber u = true := by
  cases u <;> first | rfl | exact hu.elim

theorem newComplex_gives {t : Prop} {P : ℂ → Prop} {u v : Num} (hu : u.Small) (hv : v.Small)
    (h : P ⟨u.val, v.val⟩) : GivesX t P (newComplex u v) := by
  unfold newComplex
  rw [simple_of_small hu, simple_of_small hv]
  exact givesX_ok hu hv h

theorem shrink_good' {c : Cx} (h1 : c.re.shrink.Small) (h2 : c.im.shrink.Small) : c.shrink.Good ∧ c.shrink.val = c.val := by
  unfold Cx.shrink
  dsimp only
  by_cases h : (Cx.mk c.re.shrink c.im.shrink).isReal = true
  · rw [if_pos h]
    have h0 := (isZeroNum_iff h2).1 h
    rw [val_shrink] at h0
    refine ⟨h1, ?_⟩
    show (⟨(c.re.shrink.val : ℝ), 0⟩ : ℂ) = ⟨c.re.val, c.im.val⟩
    rw [val_shrink, h0, Rat.cast_zero]
  · rw [if_neg h]
    refine ⟨⟨h1, h2, fun h0 => h ((isZeroNum_iff h2).2 h0)⟩, ?_⟩
    show (⟨(c.re.shrink.val : ℝ), c.im.shrink.val⟩ : ℂ) = ⟨c.re.val, c.im.val⟩
    rw [val_shrink, val_shrink]

theorem shrink_good {c : Cx} (h1 : c.re.Small) (h2 : c.im.Small) : c.shrink.Good ∧ c.shrink.val = c.val :=
  shrink_good' (small_shrink h1) (small_shrink h2)

theorem shrunk_gives {t : Prop} {P : ℂ → Prop} {r : Res Cx} (h : GivesX t P r) : GivesC t P (shrunk r) :=
  bindXC h fun w h1 h2 h3 => givesC_ok (shrink_good h1 h2).1 (by rw [(shrink_good h1 h2).2]; exact h3)

theorem asNum_gives {t : Prop} {P : Rat → Prop} {Q : ℂ → Prop} {r : Res Num} (h : GivesN t P r)
    (hPQ : ∀ c : Rat, P c → Q ⟨c, 0⟩) : GivesC t Q (asNum r) :=
  bindNC h fun w h1 h2 => givesC_ok h1 (hPQ _ h2)

/-! ## Methods -/

section
variable {c d : Cx} (h1 : c.re.Small) (h2 : c.im.Small) (h3 : d.re.Small) (h4 : d.im.Small)
include h1 h2

theorem cx_neg {t : Prop} : GivesX t (fun z => z = -c.val) c.neg := by
  refine bindNX (neg_gives h1) fun r hr er => bindNX (neg_gives h2) fun i hi ei => newComplex_gives hr hi ?_
  apply Complex.ext <;> simp [Cx.val, er, ei]

theorem sumSquares_gives : GivesN (mb = 0) (fun q => q = c.re.val * c.re.val + c.im.val * c.im.val) (sumSquares mb c.re c.im) := by
  refine bindNN (times_gives h1 h1) fun a ha ea => bindNN (times_gives h2 h2) fun b hb eb => ?_
  exact (plus_gives ha hb).mono id fun q hq => by rw [hq, ea, eb]

theorem sumSquares_ne (h0 : ¬ (c.re.val = 0 ∧ c.im.val = 0)) : c.re.val * c.re.val + c.im.val * c.im.val ≠ 0 := by
  intro h
  have e1 : c.re.val * c.re.val = 0 := by nlinarith [mul_self_nonneg c.re.val, mul_self_nonneg c.im.val]
  have e2 : c.im.val * c.im.val = 0 := by nlinarith [mul_self_nonneg c.re.val, mul_self_nonneg c.im.val]
  exact h0 ⟨mul_self_eq_zero.1 e1, mul_self_eq_zero.1 e2⟩

theorem isZero_iff : (isZeroNum c.re && isZeroNum c.im) = true ↔ c.re.val = 0 ∧ c.im.val = 0 := by
  rw [Bool.and_eq_true, isZeroNum_iff h1, isZeroNum_iff h2]

theorem val_zero_iff : c.val = 0 ↔ c.re.val = 0 ∧ c.im.val = 0 := by
  rw [Complex.ext_iff]; simp [Cx.val]

theorem cx_inverse : GivesX (mb = 0 ∧ c.val ≠ 0) (fun z => c.val ≠ 0 ∧ z = 1 / c.val) (c.inverse mb) := by
  unfold Cx.inverse
  by_cases hz : (isZeroNum c.re && isZeroNum c.im) = true
  · rw [if_pos hz]
    exact givesX_err fun h => h.2 ((val_zero_iff h1 h2).2 ((isZero_iff h1 h2).1 hz))
  · rw [if_neg hz]
    have h0 : ¬ (c.re.val = 0 ∧ c.im.val = 0) := fun h => hz ((isZero_iff h1 h2).2 h)
    have hne := sumSquares_ne h1 h2 h0
    refine bindNX ((sumSquares_gives h1 h2).mono And.left fun _ h => h) fun q hq eq => ?_
    have hq0 : q.val ≠ 0 := by rw [eq]; exact hne
    refine bindNX (divide_gives h1 hq hq0) fun r hr er => bindNX (divide_gives h2 hq hq0) fun p hp ep =>
      bindNX (neg_gives hp) fun i hi ei => newComplex_gives hr hi ⟨?_, ?_⟩
    · exact fun h => h0 ((val_zero_iff h1 h2).1 h)
    · rw [er, ei, ep, eq, eq_div_iff (fun h => h0 ((val_zero_iff h1 h2).1 h))]
      have hne' : (c.re.val : ℝ) * c.re.val + c.im.val * c.im.val ≠ 0 := by exact_mod_cast hne
      have hne'' : (c.re.val : ℝ) ^ 2 + (c.im.val : ℝ) ^ 2 ≠ 0 := by rw [pow_two, pow_two]; exact hne'
      apply Complex.ext
      · simp only [Cx.val, Complex.mul_re, Complex.one_re]
        push_cast
        field_simp
        ring
      · simp only [Cx.val, Complex.mul_im, Complex.one_im]
        push_cast
        field_simp
        ring

include h3 h4

theorem cx_add : GivesX (mb = 0) (fun z => z = c.val + d.val) (c.add mb d) := by
  refine bindNX (plus_gives h1 h3) fun r hr er => bindNX (plus_gives h2 h4) fun i hi ei => newComplex_gives hr hi ?_
  apply Complex.ext <;> simp [Cx.val, er, ei]

theorem cx_sub : GivesX (mb = 0) (fun z => z = c.val - d.val) (c.sub mb d) := by
  refine bindNX (minus_gives h1 h3) fun r hr er => bindNX (minus_gives h2 h4) fun i hi ei => newComplex_gives hr hi ?_
  apply Complex.ext <;> simp [Cx.val, er, ei]

theorem cx_mul : GivesX (mb = 0) (fun z => z = c.val * d.val) (c.mul mb d) := by
  refine bindNX (times_gives h1 h3) fun a ha ea => bindNX (times_gives h2 h4) fun b hb eb =>
    bindNX (minus_gives ha hb) fun r hr er => bindNX (times_gives h4 h1) fun e he ee =>
    bindNX (times_gives h3 h2) fun f hf ef => bindNX (plus_gives he hf) fun i hi ei => newComplex_gives hr hi ?_
  apply Complex.ext <;> simp [Cx.val, er, ei, ea, eb, ee, ef]
  ring

theorem cx_divReal (h : d.re.val ≠ 0) (h0 : d.im.val = 0) : GivesX (mb = 0) (fun z => z = c.val / d.val) (c.divReal mb d) := by
  refine bindNX (times_gives h3 h3) fun q hq eq => bindNX (times_gives h1 h3) fun a ha ea => ?_
  have hq0 : q.val ≠ 0 := by rw [eq]; exact mul_ne_zero h h
  refine bindNX (divide_gives ha hq hq0) fun r hr er => bindNX (times_gives h2 h3) fun b hb eb =>
    bindNX (divide_gives hb hq hq0) fun i hi ei => newComplex_gives hr hi ?_
  have hd : d.val ≠ 0 := fun hd => h ((val_zero_iff h3 h4).1 hd).1
  have h' : (d.re.val : ℝ) ≠ 0 := by exact_mod_cast h
  rw [er, ei, ea, eb, eq, eq_div_iff hd]
  apply Complex.ext <;> simp only [Cx.val, Complex.mul_re, Complex.mul_im, h0] <;> push_cast <;> field_simp <;> ring

theorem cx_divComplex (h : d.im.val ≠ 0) : GivesX (mb = 0) (fun z => z = c.val / d.val) (c.divComplex mb d) := by
  have hne := sumSquares_ne h3 h4 fun hh => h hh.2
  refine bindNX (sumSquares_gives h3 h4) fun q hq eq => ?_
  have hq0 : q.val ≠ 0 := by rw [eq]; exact hne
  refine bindNX (times_gives h1 h3) fun a ha ea => bindNX (times_gives h2 h4) fun b hb eb =>
    bindNX (plus_gives ha hb) fun s hs es => bindNX (divide_gives hs hq hq0) fun r hr er =>
    bindNX (times_gives h2 h3) fun e he ee => bindNX (times_gives h1 h4) fun f hf ef =>
    bindNX (minus_gives he hf) fun p hp ep => bindNX (divide_gives hp hq hq0) fun i hi ei => newComplex_gives hr hi ?_
  have hd : d.val ≠ 0 := fun hd => h ((val_zero_iff h3 h4).1 hd).2
  have hne' : (d.re.val : ℝ) * d.re.val + d.im.val * d.im.val ≠ 0 := by exact_mod_cast hne
  rw [er, ei, ep, es, ea, eb, ee, ef, eq, eq_div_iff hd]
  apply Complex.ext <;> simp only [Cx.val, Complex.mul_re, Complex.mul_im] <;> push_cast <;> field_simp <;> ring

theorem cx_div : GivesX (mb = 0 ∧ d.val ≠ 0) (fun z => d.val ≠ 0 ∧ z = c.val / d.val) (c.div mb d) := by
  unfold Cx.div
  by_cases hz : (isZeroNum d.re && isZeroNum d.im) = true
  · rw [if_pos hz]
    exact givesX_err fun h => h.2 ((val_zero_iff h3 h4).2 ((isZero_iff h3 h4).1 hz))
  · rw [if_neg hz]
    have h0 : ¬ (d.re.val = 0 ∧ d.im.val = 0) := fun h => hz ((isZero_iff h3 h4).2 h)
    have hd : d.val ≠ 0 := fun h => h0 ((val_zero_iff h3 h4).1 h)
    by_cases hr : d.isReal = true
    · rw [if_pos hr]
      have e0 := (isZeroNum_iff h4).1 hr
      exact (cx_divReal h1 h2 h3 h4 (fun h => h0 ⟨h, e0⟩) e0).mono And.left fun z hz => ⟨hd, hz⟩
    · rw [if_neg hr]
      exact (cx_divComplex h1 h2 h3 h4 fun h => hr ((isZeroNum_iff h4).2 h)).mono And.left fun z hz => ⟨hd, hz⟩

end

end Verif.Num
