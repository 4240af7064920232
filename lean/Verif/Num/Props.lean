import Verif.Num.Lemmas5
/-
Properties C08–C11 and C13–C17: exact arithmetic on integers and rationals.

The operators are those of Verif/Num/Model.lean; what they should compute is stated over the rationals in
Verif/Num/Spec.lean.
-/
set_option linter.dupNamespace false
namespace Verif.Num

/-- A value some expression over number literals evaluates to (no limit on bits). -/
def Reachable (w : Num) : Prop := ∃ e : Expr, e.eval 0 = .ok w

/-- An integer the expression evaluator can hold. -/
def ReachableInt (w : Num) : Prop := Reachable w ∧ w.isInt

/-! ## C08 -/

/-- C08 in full: on all integers the interpreter can hold, `+`, `-`, `*`, unary `-` and `abs` are exact. -/
def C08_statement : Prop :=
  ∀ u v, ReachableInt u → ReachableInt v →
    (∃ w, (opAdd 0).eval u v = .ok w ∧ w.val = u.val + v.val) ∧
    (∃ w, (opSub 0).eval u v = .ok w ∧ w.val = u.val - v.val) ∧
    (∃ w, (opMul 0).eval u v = .ok w ∧ w.val = u.val * v.val) ∧
    (∃ w, opNeg.eval u = .ok w ∧ w.val = -u.val) ∧
    (∃ w, opAbs.eval u = .ok w ∧ w.val = |u.val|)

/-- `(- -2147483647 - 1) | 2147483647`, which is 4294967295 held as a machine integer. -/
def C08_witness : Expr := .bin (.un .neg (.bin (.lit (-2147483647)) .sub (.lit 1))) .bor (.lit 2147483647)

theorem C08_witness_value : C08_witness.eval 0 = .ok (.int 4294967295) := by decide +kernel

/-- The full statement fails: the square of the witness overflows the machine word. -/
theorem C08_violated : ¬ C08_statement := by
  intro h
  have hr : ReachableInt (.int 4294967295) := ⟨⟨_, C08_witness_value⟩, trivial⟩
  obtain ⟨w, hw, hv⟩ := (h _ _ hr hr).2.2.1
  have : (opMul 0).eval (.int 4294967295) (.int 4294967295) = .ok (.int (-8589934591)) ∨
      (opMul 0).eval (.int 4294967295) (.int 4294967295) = .ok (.bigInt (-8589934591)) := by decide +kernel
  rcases this with h' | h' <;> rw [h'] at hw <;> cases hw <;> norm_num [Num.val] at hv

/-- C08, operator by operator, for operands whose machine integer is at most 2^31 in absolute value. What is
missing for the full statement: operands beyond that, which only `|`, `^` and unary `^` produce. -/
theorem C08_exact_partial {u v : Num} (hu : u.Small) (hv : v.Small) :
    (∃ w, (opAdd 0).eval u v = .ok w ∧ w.Small ∧ w.val = u.val + v.val) ∧
    (∃ w, (opSub 0).eval u v = .ok w ∧ w.Small ∧ w.val = u.val - v.val) ∧
    (∃ w, (opMul 0).eval u v = .ok w ∧ w.Small ∧ w.val = u.val * v.val) ∧
    (∃ w, opNeg.eval u = .ok w ∧ w.Small ∧ w.val = -u.val) ∧
    (∃ w, opAbs.eval u = .ok w ∧ w.Small ∧ w.val = |u.val|) := by
  refine ⟨?_, ?_, ?_, ?_, ?_⟩
  · obtain ⟨w, hw⟩ := add_some hu.isNum hv.isNum
    exact ⟨w, hw, (add_ok hu hv).2 w hw⟩
  · obtain ⟨w, hw⟩ := sub_some hu.isNum hv.isNum
    exact ⟨w, hw, (sub_ok hu hv).2 w hw⟩
  · obtain ⟨w, hw⟩ := mul_some hu.isNum hv.isNum
    exact ⟨w, hw, (mul_ok hu hv).2 w hw⟩
  · obtain ⟨w, hw⟩ := neg_isOk hu.isNum
    exact ⟨w, hw, (neg_ok hu).2 w hw⟩
  · obtain ⟨w, hw⟩ := abs_isOk hu.isNum
    refine ⟨w, hw, ((abs_ok hu).2 w hw).1, ?_⟩
    have := ((abs_ok hu).2 w hw).2
    rw [show w.val = if u.val < 0 then -u.val else u.val from this]
    split
    · rw [abs_of_neg ‹_›]
    · rw [abs_of_nonneg (not_lt.1 ‹_›)]

example : (Num.int (2 ^ 31)).Small ∧ (Num.int (-(2 ^ 31))).Small ∧ (Num.bigInt (10 ^ 30)).Small ∧ (Num.bigRat (1 / 2)).Small := by
  refine ⟨by constructor <;> decide, by constructor <;> decide, trivial, ?_⟩
  show (1 / 2 : Rat).den ≠ 1
  decide +kernel

/-- The expressions covered by `C08_expressions_partial`: an intermediate result of `|`, `^` or unary `^` must
not leave the range of small machine integers, and binary `!` must not be used where C16 fails. -/
def Tame (maxBits : Nat) : Expr → Prop
  | .lit _ => True
  | .un op e => Tame maxBits e ∧ (op = .compl → ∀ w, (Expr.un op e).eval maxBits = .ok w → w.Small)
  | .bin e₁ op e₂ => Tame maxBits e₁ ∧ Tame maxBits e₂ ∧
      (op = .bor ∨ op = .bxor → ∀ w, (Expr.bin e₁ op e₂).eval maxBits = .ok w → w.Small) ∧
      (op = .choose → ∀ u v, e₁.eval maxBits = .ok u → e₂.eval maxBits = .ok v →
        0 ≤ u.val ∧ 0 ≤ v.val ∧ (v.val = 0 → u.val = 0))

/-- C08 for whole expressions: evaluation never crashes, and a value it gives is the number the expression
denotes. Under any limit on bits. Missing: see `Tame`. -/
theorem C08_expressions_partial (maxBits : Nat) (e : Expr) (h : Tame maxBits e) :
    e.eval maxBits ≠ .crash ∧ ∀ w, e.eval maxBits = .ok w → w.Small ∧ Means e w.val := by
  induction e with
  | lit r =>
    refine ⟨by simp [Expr.eval], fun w hw => ?_⟩
    cases hw
    exact ⟨small_litNum r, by rw [val_litNum]; exact .lit r⟩
  | un op e ih =>
    obtain ⟨h1, h2⟩ := h
    obtain ⟨ih1, ih2⟩ := ih h1
    cases hv : e.eval maxBits with
    | ok v =>
      obtain ⟨sv, mv⟩ := ih2 v hv
      have e1 : (Expr.un op e).eval maxBits = op.impl.eval v := by simp only [Expr.eval, hv, Res.bind]
      have y := op1_value (op := op) sv
      rw [e1]
      refine ⟨y.1, fun w hw => ⟨?_, .un mv (y.2 w hw).2⟩⟩
      by_cases hc : op = .compl
      · exact h2 hc w (e1.trans hw)
      · exact ((op1_small sv hc).2 w hw).1
    | err => simp [Expr.eval, hv, Res.bind]
    | crash => exact absurd hv ih1
    | float => simp [Expr.eval, hv, Res.bind]
  | bin e₁ op e₂ ih₁ ih₂ =>
    obtain ⟨h1, h2, h3, h4⟩ := h
    obtain ⟨ih11, ih12⟩ := ih₁ h1
    obtain ⟨ih21, ih22⟩ := ih₂ h2
    cases hv : e₂.eval maxBits with
    | ok v =>
      cases hu : e₁.eval maxBits with
      | ok u =>
        obtain ⟨sv, mv⟩ := ih22 v hv
        obtain ⟨su, mu⟩ := ih12 u hu
        have e1 : (Expr.bin e₁ op e₂).eval maxBits = (op.impl maxBits).eval u v := by
          simp only [Expr.eval, hv, hu, Res.bind]
        have y := op2_value (mb := maxBits) (op := op) su sv (fun hc => h4 hc u v hu hv)
        rw [e1]
        refine ⟨y.1, fun w hw => ⟨?_, .bin mu mv (y.2 w hw).2⟩⟩
        by_cases hc : op = .bor ∨ op = .bxor
        · exact h3 hc w (e1.trans hw)
        · rw [not_or] at hc
          exact ((op2_small su sv (fun hc => h4 hc u v hu hv) hc.1 hc.2).2 w hw).1
      | err => simp [Expr.eval, hv, hu, Res.bind]
      | crash => exact absurd hu ih11
      | float => simp [Expr.eval, hv, hu, Res.bind]
    | err => simp [Expr.eval, hv, Res.bind]
    | crash => exact absurd hv ih21
    | float => simp [Expr.eval, hv, Res.bind]

/-- The number an expression denotes is unique, so the theorem above determines the result. -/
theorem C08_meaning_unique {e : Expr} {a b : Rat} (ha : Means e a) (hb : Means e b) : a = b := means_unique ha hb

/-- `(3000000000 * 3000000000) - 1/2` is tame and has the expected value. -/
def Ex.e1 : Expr := .bin (.bin (.lit 3000000000) .mul (.lit 3000000000)) .sub (.bin (.lit 1) .quo (.lit 2))
example : Tame 0 Ex.e1 := by simp [Ex.e1, Tame]
example : Ex.e1.eval 0 = .ok (.bigRat (17999999999999999999 / 2)) := by decide +kernel
/-- `(5 | 3) ** 40` is tame too. -/
def Ex.e2 : Expr := .bin (.bin (.lit 5) .bor (.lit 3)) .pow (.lit 40)
example : Tame 0 Ex.e2 := by
  refine ⟨⟨trivial, trivial, fun _ w hw => ?_, fun h => by cases h⟩, trivial, fun h => by simp at h, fun h => by cases h⟩
  have : (Expr.bin (.lit 5) .bor (.lit 3)).eval 0 = .ok (.int 7) := by decide +kernel
  rw [this] at hw; cases hw; constructor <;> decide
example : Ex.e2.eval 0 = .ok (.bigInt (7 ^ 40)) := by decide +kernel

/-- Sums, differences, products, negations and absolute values. -/
inductive Ring : Expr → Prop
  | lit (r : Rat) : Ring (.lit r)
  | un {op : Op1} {e : Expr} : (op = .neg ∨ op = .abs) → Ring e → Ring (.un op e)
  | bin {e₁ e₂ : Expr} {op : Op2} : (op = .add ∨ op = .sub ∨ op = .mul) → Ring e₁ → Ring e₂ → Ring (.bin e₁ op e₂)

/-- C08 for expressions built from the five operators of the property alone: they always evaluate, to the number
they denote. For these expressions nothing is missing. -/
theorem C08_ring_total (e : Expr) (h : Ring e) : ∃ w, e.eval 0 = .ok w ∧ w.Small ∧ Means e w.val := by
  have tame : ∀ e, Ring e → Tame 0 e := by
    intro e h
    induction h with
    | lit r => trivial
    | un ho _ ih => exact ⟨ih, fun hc => by subst hc; simp at ho⟩
    | bin ho _ _ ih1 ih2 =>
      exact ⟨ih1, ih2, fun hc => by rcases hc with hc | hc <;> subst hc <;> simp at ho, fun hc => by subst hc; simp at ho⟩
  have some : ∃ w, e.eval 0 = .ok w := by
    induction h with
    | lit r => exact ⟨_, rfl⟩
    | un ho hr ih =>
      obtain ⟨v, hv⟩ := ih
      have sv := ((C08_expressions_partial 0 _ (tame _ hr)).2 v hv).1
      simp only [Expr.eval, hv, Res.bind]
      rcases ho with rfl | rfl
      · exact neg_isOk sv.isNum
      · exact abs_isOk sv.isNum
    | bin ho hr1 hr2 ih1 ih2 =>
      obtain ⟨u, hu⟩ := ih1
      obtain ⟨v, hv⟩ := ih2
      have su := ((C08_expressions_partial 0 _ (tame _ hr1)).2 u hu).1
      have sv := ((C08_expressions_partial 0 _ (tame _ hr2)).2 v hv).1
      simp only [Expr.eval, hv, hu, Res.bind]
      rcases ho with rfl | rfl | rfl
      · exact add_some su.isNum sv.isNum
      · exact sub_some su.isNum sv.isNum
      · exact mul_some su.isNum sv.isNum
  obtain ⟨w, hw⟩ := some
  exact ⟨w, hw, (C08_expressions_partial 0 e (tame e h)).2 w hw⟩

example : Ring (.bin (.un .neg (.lit 5)) .mul (.bin (.lit (2 ^ 31 - 1)) .add (.lit 1))) :=
  .bin (by simp) (.un (by simp) (.lit _)) (.bin (by simp) (.lit _) (.lit _))

/-! ## C09 -/

/-- C09 in full: an integer the interpreter holds is a machine integer exactly if it fits 32 bits. -/
def C09_statement : Prop :=
  ∀ w, Reachable w → (∀ i, w = .int i → -(2 ^ 31) ≤ i ∧ i < 2 ^ 31) ∧ (∀ i, w = .bigInt i → ¬ (-(2 ^ 31) ≤ i ∧ i < 2 ^ 31))

/-- `0 ** 3`. -/
def C09_witness_pow : Expr := .bin (.lit 0) .pow (.lit 3)
/-- `0 max -100000000000000000000`. -/
def C09_witness_max : Expr := .bin (.lit 0) .max (.lit (-100000000000000000000))
/-- `- -2147483648` (an Int above the range) and `-2147483648 idiv -1`. -/
def C09_witness_neg : Expr := .un .neg (.bin (.lit (-2147483647)) .sub (.lit 1))
@[inherit_doc C09_witness_neg] def C09_witness_idiv : Expr := .bin (.bin (.lit (-2147483647)) .sub (.lit 1)) .idiv (.lit (-1))

/-- The full statement fails: a big zero, which moreover counts as true. -/
theorem C09_violated : ¬ C09_statement := by
  intro h
  have := (h (.bigInt 0) ⟨C09_witness_pow, by decide +kernel⟩).2 0 rfl
  exact this (by decide)

/-- The deviations one by one: `0 ** 3` and `0 max -1e20` are big zeros that count as true although `0` does
not; `- -2147483648` and `-2147483648 idiv -1` are machine integers out of range. -/
theorem C09_deviations :
    C09_witness_pow.eval 0 = .ok (.bigInt 0) ∧ C09_witness_max.eval 0 = .ok (.bigInt 0) ∧
    isTrue (.bigInt 0) = true ∧ isTrue (.int 0) = false ∧
    C09_witness_neg.eval 0 = .ok (.int (2 ^ 31)) ∧ C09_witness_idiv.eval 0 = .ok (.int (2 ^ 31)) ∧
    C08_witness.eval 0 = .ok (.int (2 ^ 32 - 1)) := by
  decide +kernel

/-- The expressions covered by `C09_canonical_partial`: tame, without `max`, and without `**` on base 0 or 1. -/
def Canonical (maxBits : Nat) : Expr → Prop
  | .lit _ => True
  | .un op e => Canonical maxBits e ∧ op ≠ .compl
  | .bin e₁ op e₂ => Canonical maxBits e₁ ∧ Canonical maxBits e₂ ∧ op ≠ .bor ∧ op ≠ .bxor ∧ op ≠ .max ∧
      (op = .pow → ∀ u, e₁.eval maxBits = .ok u → u.val ≠ 0 ∧ u.val ≠ 1) ∧
      (op = .choose → ∀ u v, e₁.eval maxBits = .ok u → e₂.eval maxBits = .ok v →
        0 ≤ u.val ∧ 0 ≤ v.val ∧ (v.val = 0 → u.val = 0))

/-- C09 up to the two representations of ±2^31: machine integers are at most 2^31 in absolute value, big integers
at least that, rationals are not integral. Missing: ±2^31 itself, and the operators excluded by `Canonical`. -/
theorem C09_canonical_partial (maxBits : Nat) (e : Expr) (h : Canonical maxBits e) :
    ∀ w, e.eval maxBits = .ok w → w.Canon := by
  induction e with
  | lit r =>
    intro w hw
    cases hw
    refine ⟨small_litNum r, ?_⟩
    unfold litNum
    split
    · split
      · trivial
      · exact big_shrinkBig _
    · exact big_shrinkRat _
  | un op e ih =>
    obtain ⟨h1, h2⟩ := h
    intro w hw
    cases hv : e.eval maxBits with
    | ok v =>
      have cv := ih h1 v hv
      have e1 : op.impl.eval v = .ok w := by simpa only [Expr.eval, hv, Res.bind] using hw
      exact ⟨((op1_small cv.1 h2).2 w e1).1, op1_big cv.1.isNum cv.2 w e1⟩
    | err => simp [Expr.eval, hv, Res.bind] at hw
    | crash => simp [Expr.eval, hv, Res.bind] at hw
    | float => simp [Expr.eval, hv, Res.bind] at hw
  | bin e₁ op e₂ ih₁ ih₂ =>
    obtain ⟨h1, h2, h3, h4, h5, h6, h7⟩ := h
    intro w hw
    cases hv : e₂.eval maxBits with
    | ok v =>
      cases hu : e₁.eval maxBits with
      | ok u =>
        have cv := ih₂ h2 v hv
        have cu := ih₁ h1 u hu
        have e1 : (op.impl maxBits).eval u v = .ok w := by simpa only [Expr.eval, hv, hu, Res.bind] using hw
        exact ⟨((op2_small cu.1 cv.1 (fun hc => h7 hc u v hu hv) h3 h4).2 w e1).1,
          op2_big cu.1.isNum cv.1.isNum cu.2 cv.2 h5 (fun hp => h6 hp u hu) w e1⟩
      | err => simp [Expr.eval, hv, hu, Res.bind] at hw
      | crash => simp [Expr.eval, hv, hu, Res.bind] at hw
      | float => simp [Expr.eval, hv, hu, Res.bind] at hw
    | err => simp [Expr.eval, hv, Res.bind] at hw
    | crash => simp [Expr.eval, hv, Res.bind] at hw
    | float => simp [Expr.eval, hv, Res.bind] at hw

example : Canonical 0 (.bin (.bin (.lit 2) .pow (.lit 31)) .sub (.lit 1)) := by
  refine ⟨⟨trivial, trivial, by simp, by simp, by simp, ?_, by simp⟩, trivial, by simp, by simp, by simp, by simp, by simp⟩
  intro _ u hu
  cases hu
  rw [val_litNum]
  norm_num
example : (Expr.bin (.bin (.lit 2) .pow (.lit 31)) .sub (.lit 1)).eval 0 = .ok (.int (2 ^ 31 - 1)) := by decide +kernel

/-- What canonical values are good for: the truth test and equality of representations follow the value. -/
theorem C09_indistinguishable_partial {u v : Num} (hu : u.Canon) (hv : v.Canon) :
    (isTrue u = true ↔ u.val ≠ 0) ∧ (u.val = v.val → u = v ∨ u.val = 2 ^ 31 ∨ u.val = -(2 ^ 31)) := by
  constructor
  · cases u with
    | int i => simp [isTrue]
    | char c => exact hu.1.elim
    | bigInt i =>
      have h : i ≤ -(2 ^ 31) ∨ 2 ^ 31 ≤ i := hu.2
      have : i ≠ 0 := by omega
      simp [isTrue, this]
    | bigRat r =>
      have h : r.den ≠ 1 := hu.1
      have : r ≠ 0 := by rintro rfl; exact h rfl
      simp [isTrue, this]
  · intro h
    have notInt : ∀ (r : Rat) (i : Int), r.den ≠ 1 → r ≠ i := by rintro r i hd rfl; exact hd rfl
    have mix : ∀ i j : Int, (-(2 ^ 31) ≤ i ∧ i ≤ 2 ^ 31) → (j ≤ -(2 ^ 31) ∨ 2 ^ 31 ≤ j) → (i : Rat) = j →
        ((i : Rat) = 2 ^ 31 ∨ (i : Rat) = -(2 ^ 31)) := by
      intro i j h1 h2 h3
      have : i = j := by exact_mod_cast h3
      have : i = 2 ^ 31 ∨ i = -(2 ^ 31) := by omega
      rcases this with h | h
      · exact Or.inl (by exact_mod_cast h)
      · exact Or.inr (by exact_mod_cast h)
    cases u with
    | char c => exact hu.1.elim
    | int i =>
      cases v with
      | char c => exact hv.1.elim
      | int j => left; congr 1; exact Int.cast_injective (α := Rat) h
      | bigInt j => exact Or.inr (mix i j hu.1 hv.2 h)
      | bigRat r => exact (notInt r i hv.1 h.symm).elim
    | bigInt i =>
      cases v with
      | char c => exact hv.1.elim
      | int j => right; rw [h]; exact mix j i hv.1 hu.2 h.symm
      | bigInt j => left; congr 1; exact Int.cast_injective (α := Rat) h
      | bigRat r => exact (notInt r i hv.1 h.symm).elim
    | bigRat r =>
      cases v with
      | char c => exact hv.1.elim
      | int j => exact (notInt r j hu.1 h).elim
      | bigInt j => exact (notInt r j hu.1 h).elim
      | bigRat s => left; congr 1

example : (Num.int 5).Canon ∧ (Num.bigInt (10 ^ 12)).Canon :=
  ⟨⟨by constructor <;> decide, trivial⟩, trivial, Or.inr (by decide)⟩

/-! ## C10 -/

/-- The representation follows the value: a rational is kept as a fraction exactly if it is not an integer. -/
def FractionIffNotInteger (w : Num) : Prop := (∃ r, w = .bigRat r) ↔ ∀ z : Int, w.val ≠ z

/-- C10: `+`, `-`, `*` and `/` on small machine integers, big integers and fractions in any mixture give the exact
rational, as a fraction exactly if it is not an integer; division by zero is an error. A fraction `Rat` has a
positive denominator coprime to its numerator by construction of the type, as `big.Rat` documents. -/
theorem C10_rational_exact {u v : Num} (hu : u.Small) (hv : v.Small) :
    (∃ w, (opAdd 0).eval u v = .ok w ∧ w.val = u.val + v.val ∧ FractionIffNotInteger w) ∧
    (∃ w, (opSub 0).eval u v = .ok w ∧ w.val = u.val - v.val ∧ FractionIffNotInteger w) ∧
    (∃ w, (opMul 0).eval u v = .ok w ∧ w.val = u.val * v.val ∧ FractionIffNotInteger w) ∧
    (v.val ≠ 0 → ∃ w, opDivide.eval u v = .ok w ∧ w.val = u.val / v.val ∧ FractionIffNotInteger w) ∧
    (v.val = 0 → opDivide.eval u v = .err) := by
  have frac : ∀ w : Num, w.Small → FractionIffNotInteger w := by
    intro w hw
    constructor
    · rintro ⟨r, rfl⟩ z rfl
      exact hw rfl
    · intro h
      cases w with
      | int i => exact (h i rfl).elim
      | char c => exact hw.elim
      | bigInt i => exact (h i rfl).elim
      | bigRat r => exact ⟨r, rfl⟩
  refine ⟨?_, ?_, ?_, ?_, ?_⟩
  · obtain ⟨w, hw⟩ := add_some hu.isNum hv.isNum
    have := (add_ok hu hv).2 w hw
    exact ⟨w, hw, this.2, frac w this.1⟩
  · obtain ⟨w, hw⟩ := sub_some hu.isNum hv.isNum
    have := (sub_ok hu hv).2 w hw
    exact ⟨w, hw, this.2, frac w this.1⟩
  · obtain ⟨w, hw⟩ := mul_some hu.isNum hv.isNum
    have := (mul_ok hu hv).2 w hw
    exact ⟨w, hw, this.2, frac w this.1⟩
  · intro h0
    obtain ⟨w, hw⟩ := divide_some hu.isNum hv.isNum h0
    have := (divide_ok hu hv).2 w hw
    exact ⟨w, hw, by rw [eq_div_iff h0]; exact this.2.2, frac w this.1⟩
  · intro h0
    refine rat_elim (op := opDivide) rfl hu.isNum hv.isNum (fun r => r = .err) ?_
    intro a b _ hb
    show (if b = 0 then _ else _) = _
    rw [if_pos (hb.symm.trans h0)]

example : opDivide.eval (.int 6) (.int 4) = .ok (.bigRat (3 / 2)) ∧
    (opAdd 0).eval (.bigRat (3 / 2)) (.bigRat (1 / 2)) = .ok (.int 2) ∧ opDivide.eval (.int 6) (.int 0) = .err := by
  decide +kernel

/-! ## C11 -/

/-- C11: `div` and `mod` are Euclidean, `idiv` and `imod` truncated. `mod` takes fractions too; `div` of two
integers. -/
theorem C11_division {u v : Num} (hu : u.Small) (hv : v.Small) (h0 : v.val ≠ 0) :
    (∃ w, opMod.eval u v = .ok w ∧ ∃ q : Int, u.val = q * v.val + w.val ∧ 0 ≤ w.val ∧ w.val < |v.val|) ∧
    (u.isInt → v.isInt → ∃ d m, opDiv.eval u v = .ok d ∧ opMod.eval u v = .ok m ∧ (∃ z : Int, d.val = z) ∧
      u.val = d.val * v.val + m.val ∧ 0 ≤ m.val ∧ m.val < |v.val|) ∧
    (u.isInt → v.isInt → ∃ d m, opIdiv.eval u v = .ok d ∧ opImod.eval u v = .ok m ∧ (∃ z : Int, d.val = z) ∧
      u.val = d.val * v.val + m.val ∧ |m.val| < |v.val| ∧ (m.val < 0 → u.val < 0) ∧ (0 < m.val → 0 < u.val)) := by
  have hmod : ∃ w, opMod.eval u v = .ok w ∧ ∃ q : Int, Euclidean u.val v.val q w.val := by
    obtain ⟨w, hw⟩ := mod_some hu.isNum hv.isNum
    have := ((mod_ok hu hv).2 w hw).2
    have : if v.val = 0 then w.val = u.val else ∃ q : Int, Euclidean u.val v.val q w.val := this
    rw [if_neg h0] at this
    exact ⟨w, hw, this⟩
  refine ⟨hmod, ?_, ?_⟩
  · intro iu iv
    obtain ⟨d, hd⟩ := div_some iu iv h0
    obtain ⟨m, hm, q, hq⟩ := hmod
    obtain ⟨x, y, q', r, h1, h2, h3, h4⟩ := ((div_ok hu hv).2 d hd).2
    refine ⟨d, m, hd, hm, ⟨q', h3⟩, ?_⟩
    obtain ⟨rfl, rfl⟩ := euclidean_unique hq h4
    rw [h3]; exact h4
  · intro iu iv
    obtain ⟨d, hd⟩ := idiv_some iu iv h0
    obtain ⟨m, hm⟩ := imod_some iu iv h0
    obtain ⟨x, y, q, r, h1, h2, h3, h4⟩ := ((idiv_ok hu hv).2 d hd).2
    obtain ⟨x', y', q', r', h1', h2', h3', h4'⟩ := ((imod_ok hu hv).2 m hm).2
    cases castInj h1 h1'; cases castInj h2 h2'
    obtain ⟨rfl, rfl⟩ := truncated_unique h4 h4'
    obtain ⟨t1, t2, t3, t4⟩ := h4
    refine ⟨d, m, hd, hm, ⟨q, h3⟩, ?_⟩
    rw [h1, h2, h3, h3']
    refine ⟨by exact_mod_cast t1, by exact_mod_cast t2, fun h => ?_, fun h => ?_⟩
    · exact_mod_cast t3 (by exact_mod_cast h)
    · exact_mod_cast t4 (by exact_mod_cast h)

/-- C11, divisor zero: `mod` gives the left operand back, the others are errors. -/
theorem C11_zero_divisor {u v : Num} (hu : u.Small) (hv : v.Small) (h0 : v.val = 0) :
    (∃ w, opMod.eval u v = .ok w ∧ w.val = u.val) ∧ opDiv.eval u v = .err ∧ opIdiv.eval u v = .err ∧ opImod.eval u v = .err := by
  have hb0 : ∀ {b : Int}, v.val = b → b = 0 := fun hb => by rw [h0] at hb; exact_mod_cast hb.symm
  refine ⟨?_, ?_, ?_, ?_⟩
  · obtain ⟨w, hw⟩ := mod_some hu.isNum hv.isNum
    have : if v.val = 0 then w.val = u.val else ∃ q : Int, Euclidean u.val v.val q w.val := ((mod_ok hu hv).2 w hw).2
    rw [if_pos h0] at this
    exact ⟨w, hw, this⟩
  · refine div_elim (op := opDiv) rfl hu.isNum hv.isNum (fun r => r = .err) ?_ (fun _ _ _ _ _ => rfl)
    intro a b _ _ _ hb
    show (if b = 0 then _ else _) = _
    rw [if_pos (hb0 hb)]
  · refine arith_elim (op := opIdiv) rfl hu.isNum hv.isNum (fun r => r = .err) ?_ ?_ (fun _ _ _ _ _ => rfl)
    · rintro a b rfl rfl
      show (if b = 0 then _ else _) = _
      rw [if_pos (hb0 rfl)]
    · intro a b _ _ _ hb
      show (if b = 0 then _ else _) = _
      rw [if_pos (hb0 hb)]
  · refine arith_elim (op := opImod) rfl hu.isNum hv.isNum (fun r => r = .err) ?_ ?_ (fun _ _ _ _ _ => rfl)
    · rintro a b rfl rfl
      show (if b = 0 then _ else _) = _
      rw [if_pos (hb0 rfl)]
    · intro a b _ _ _ hb
      show (if b = 0 then _ else _) = _
      rw [if_pos (hb0 hb)]

example : opDiv.eval (.int (-7)) (.int (-2)) = .ok (.int 4) ∧ opMod.eval (.int (-7)) (.int (-2)) = .ok (.int 1) ∧
    opIdiv.eval (.int (-7)) (.int (-2)) = .ok (.int 3) ∧ opImod.eval (.int (-7)) (.int (-2)) = .ok (.int (-1)) ∧
    opMod.eval (.bigRat (-7 / 2)) (.int 2) = .ok (.bigRat (1 / 2)) := by decide +kernel

/-! ## C13 -/

/-- C13 in full: under a limit of `maxBits` bits every integer operator refuses to produce a larger integer
(machine integers, which need at most 63 bits, excepted). -/
def C13_statement : Prop :=
  ∀ (maxBits : Nat) (op : Op2) (u v w : Num), 63 ≤ maxBits → maxBits < 2 ^ 63 → u.Small → v.Small → u.isInt → v.isInt →
    op ∈ [Op2.add, .sub, .mul, .pow, .shl] → (op.impl maxBits).eval u v = .ok w → ∀ z : Int, w.val = z → bitLen z ≤ maxBits

/-- The full statement fails: with a limit of 100 bits, `2 ** 200` has 201 bits. -/
theorem C13_violated : ¬ C13_statement := by
  intro h
  have := h 100 .pow (.int 2) (.int 200) (.bigInt (2 ^ 200)) (by decide) (by decide) (by constructor <;> decide)
    (by constructor <;> decide) trivial trivial (by simp) (by decide +kernel) (2 ^ 200) (by norm_num [Num.val])
  revert this
  decide +kernel

/-- The ways around the limit, with a limit of 100 bits: powers of two, left shift, factorial. -/
theorem C13_deviations :
    (opPow 100).eval (.int 2) (.int 200) = .ok (.bigInt (2 ^ 200)) ∧
    opShl.eval (.int 1) (.int 200) = .ok (.bigInt (2 ^ 200)) ∧
    opFac.eval (.int 40) = .ok (.bigInt 815915283247897734345611269596115894272000000000) ∧
    bitLen (2 ^ 200) = 201 ∧ bitLen 815915283247897734345611269596115894272000000000 = 160 := by
  decide +kernel

/-- Overflow in the check itself: with a limit of 100 bits, `3 ** 9223372036854775807` is computed (or at least
attempted). -/
theorem C13_overflow_in_check : bigIntExp 100 3 (2 ^ 63 - 1) = .ok (3 ^ (2 ^ 63 - 1 : Int).toNat) := by
  unfold bigIntExp
  have h1 : bitLen (2 ^ 63 - 1) = 63 := by decide +kernel
  have h2 : bitLen 3 = 2 := by decide +kernel
  simp only [h1, h2, exponent_eq (k := 2 ^ 63 - 1) (by decide) (by decide +kernel)]
  rw [if_neg (by decide), if_neg (by decide), if_neg (by decide)]
  rw [if_neg (by decide)]
  have h4 : tooBig 100 (wrap64 ((2 : Nat) * (2 ^ 63 - 1))) = false := by decide +kernel
  rw [h4]
  rfl

/-- C13 for the operators that check: `+`, `-`, `*`, and `**` for a base other than 2 and a product of exponent
and base length that fits the machine word. Missing: `**` with base 2 or a huge exponent, `<<`, `!`, fractions. -/
theorem C13_limit_partial {maxBits : Nat} (h1 : 63 ≤ maxBits) (h2 : maxBits < 2 ^ 63) {u v w : Num} (hu : u.Small) (hv : v.Small)
    (iu : u.isInt) (iv : v.isInt) {z : Int} (hz : w.val = z) :
    ((opAdd maxBits).eval u v = .ok w → bitLen z ≤ maxBits) ∧
    ((opSub maxBits).eval u v = .ok w → bitLen z ≤ maxBits) ∧
    ((opMul maxBits).eval u v = .ok w → bitLen z ≤ maxBits) ∧
    (∀ a b : Int, u.val = a → v.val = b → 0 < b → bitLen a * b < 2 ^ 63 → a ≠ 2 →
      (opPow maxBits).eval u v = .ok w → bitLen z ≤ maxBits ∨ a = 0 ∨ a = 1 ∨ a = -1) := by
  have inj : ∀ {x : Int}, w.val = (x : Int) → z = x := fun h => by rw [hz] at h; exact_mod_cast h
  have viaBig : ∀ (x : Int) (P : Prop) [Decidable P] (Q : Prop) [Decidable Q], (¬ P → ¬ Q → bitLen x ≤ maxBits) →
      (if P then Res.err else if Q then Res.err else Res.ok (shrinkBig x)) = .ok w → bitLen z ≤ maxBits := by
    intro x P _ Q _ h he
    split at he
    · cases he
    · split at he
      · cases he
      · cases he
        rw [inj (val_shrinkBig x)]
        exact h ‹_› ‹_›
  have check : ∀ {n : Nat}, ¬ tooBig maxBits n = true → n ≤ maxBits := by
    intro n h
    have := tooBig_false (n := n) (by omega) h2 (by simpa using h)
    exact_mod_cast this
  have noRat : ∀ {a b : Rat}, ¬ (u = .bigRat a ∨ v = .bigRat b) := by
    rintro a b (rfl | rfl)
    · exact iu
    · exact iv
  refine ⟨?_, ?_, ?_, ?_⟩
  · refine arith_elim (op := opAdd maxBits) rfl hu.isNum hv.isNum (fun r => r = .ok w → _) ?_ ?_ (fun _ _ _ _ h => (noRat h).elim)
    · rintro a b rfl rfl
      intro h
      have := (C08_exact_partial hu hv).1
      obtain ⟨w', e1, _, e3⟩ := this
      have h' : (opAdd 0).eval (.int a) (.int b) = .ok w := h
      rw [e1] at h'; cases h'
      have : z = a + b := inj (by rw [e3]; push_cast; rfl)
      have ha : -(2 ^ 31) ≤ a ∧ a ≤ 2 ^ 31 := hu
      have hb : -(2 ^ 31) ≤ b ∧ b ≤ 2 ^ 31 := hv
      have : bitLen z ≤ 63 := (bitLen_le_iff z 63).2 (by omega)
      omega
    · intro a b _ _ ha hb
      refine viaBig (a + b) _ _ fun c1 c2 => bitLen_add (check (n := bitLen a + 1) ?_) (check (n := bitLen b + 1) ?_)
      · simpa using c1
      · simpa using c2
  · refine arith_elim (op := opSub maxBits) rfl hu.isNum hv.isNum (fun r => r = .ok w → _) ?_ ?_ (fun _ _ _ _ h => (noRat h).elim)
    · rintro a b rfl rfl
      intro h
      have := (C08_exact_partial hu hv).2.1
      obtain ⟨w', e1, _, e3⟩ := this
      have h' : (opSub 0).eval (.int a) (.int b) = .ok w := h
      rw [e1] at h'; cases h'
      have : z = a - b := inj (by rw [e3]; push_cast; rfl)
      have ha : -(2 ^ 31) ≤ a ∧ a ≤ 2 ^ 31 := hu
      have hb : -(2 ^ 31) ≤ b ∧ b ≤ 2 ^ 31 := hv
      have : bitLen z ≤ 63 := (bitLen_le_iff z 63).2 (by omega)
      omega
    · intro a b _ _ ha hb
      refine viaBig (a - b) _ _ fun c1 c2 => bitLen_sub (check (n := bitLen a + 1) ?_) (check (n := bitLen b + 1) ?_)
      · simpa using c1
      · simpa using c2
  · refine arith_elim (op := opMul maxBits) rfl hu.isNum hv.isNum (fun r => r = .ok w → _) ?_ ?_ (fun _ _ _ _ h => (noRat h).elim)
    · rintro a b rfl rfl
      intro h
      have := (C08_exact_partial hu hv).2.2.1
      obtain ⟨w', e1, _, e3⟩ := this
      have h' : (opMul 0).eval (.int a) (.int b) = .ok w := h
      rw [e1] at h'; cases h'
      have hzz : z = a * b := inj (by rw [e3]; push_cast; rfl)
      have := int_mul_bound (show -(2 ^ 31) ≤ a ∧ a ≤ 2 ^ 31 from hu) (show -(2 ^ 31) ≤ b ∧ b ≤ 2 ^ 31 from hv)
      rw [← hzz] at this
      have : bitLen z ≤ 63 := (bitLen_le_iff z 63).2 (by omega)
      omega
    · intro a b _ _ ha hb he
      have he : (if tooBig maxBits (bitLen a + bitLen b) then Res.err else Res.ok (shrinkBig (a * b))) = .ok w := he
      split at he
      · cases he
      · rename_i hc
        cases he
        rw [inj (val_shrinkBig (a * b))]
        exact bitLen_mul (check (n := bitLen a + bitLen b) (by push_cast; exact hc))
  · intro a b hua hvb hbpos hfit hne2 he
    by_cases hs : a = 0 ∨ a = 1 ∨ a = -1
    · exact Or.inr hs
    left
    rw [not_or, not_or] at hs
    revert he
    refine div_elim (op := opPow maxBits) rfl hu.isNum hv.isNum (fun r => r = .ok w → _) ?_ (fun _ _ _ _ h => (noRat h).elim)
    intro a' b' _ _ ha hb he
    cases castInj hua ha; cases castInj hvb hb
    have he : (if b = 0 then Res.ok one else if b < 0 then _ else if a = 1 ∨ a = 0 then Res.ok (Num.bigInt a) else
      (bigIntExp maxBits a b).bind fun p => Res.ok (shrinkBig p)) = .ok w := he
    rw [if_neg (by omega), if_neg (by omega), if_neg (by omega)] at he
    cases hp : bigIntExp maxBits a b with
    | ok p =>
      rw [hp] at he
      have he : Res.ok (shrinkBig p) = .ok w := he
      cases he
      rw [inj (val_shrinkBig p)]
      have hpv := bigIntExp_ok hbpos hp
      unfold bigIntExp at hp
      rw [if_neg (by omega), if_neg (by omega)] at hp
      split at hp
      · cases hp
      · rename_i hb63
        simp only [exponent_eq (show 0 ≤ b by omega) hb63] at hp
        rw [if_neg (by rintro ⟨h, -⟩; exact hne2 h)] at hp
        split at hp
        · cases hp
        · rename_i hchk
          have hnn : (0 : Int) ≤ bitLen a * b := Int.mul_nonneg (by omega) (by omega)
          rw [wrap64_small (by omega) hfit] at hchk
          have := tooBig_false (n := bitLen a * b) (by omega) h2 (by simpa using hchk)
          rw [hpv]
          have h3 := bitLen_pow (a := a) (k := b.toNat) (by omega)
          have h4 : ((bitLen a * b.toNat : Nat) : Int) = bitLen a * b := by
            push_cast; rw [Int.toNat_of_nonneg (by omega)]
          omega
    | err => rw [hp] at he; cases he
    | crash => rw [hp] at he; cases he
    | float => rw [hp] at he; cases he

example : (opMul 64).eval (.bigInt (2 ^ 40)) (.bigInt (2 ^ 40)) = .err ∧
    (opMul 100).eval (.bigInt (2 ^ 40)) (.bigInt (2 ^ 40)) = .ok (.bigInt (2 ^ 80)) ∧
    (opPow 100).eval (.int 3) (.int 60) = .err ∧ (opPow 100).eval (.int 3) (.int 50) = .ok (.bigInt (3 ^ 50)) := by
  decide +kernel

/-! ## C14 -/

/-- C14: integer powers. `v` below 2^63 in absolute value (Go's `Exp` is never reached otherwise, except for bases
0, 1 and -1). -/
theorem C14_powers {u v : Num} (hu : u.Small) (hv : v.Small) (iu : u.isInt) (iv : v.isInt) {n : Int} (hn : v.val = n) :
    (0 ≤ n → n < 2 ^ 63 → ∃ w, (opPow 0).eval u v = .ok w ∧ w.val = u.val ^ n.toNat) ∧
    (n < 0 → -(2 ^ 63) < n → u.val ≠ 0 → ∃ w, (opPow 0).eval u v = .ok w ∧ w.val = 1 / u.val ^ (-n).toNat) ∧
    (n < 0 → u.val = 0 → (opPow 0).eval u v = .err) ∧
    (∀ (maxBits : Nat) (w : Num), (opPow maxBits).eval u v = .ok w → IsPow u.val n w.val) := by
  have gen : ∀ (maxBits : Nat) (w : Num), (opPow maxBits).eval u v = .ok w → IsPow u.val n w.val := by
    intro mb w hw
    obtain ⟨m, h1, h2⟩ := ((pow_ok hu hv).2 w hw).2
    cases castInj hn h1
    exact h2
  refine ⟨?_, ?_, ?_, gen⟩
  · intro h0 h63
    obtain ⟨w, hw⟩ := pow_isOk iu iv (by rw [hn, abs_of_nonneg (by exact_mod_cast h0)]; exact_mod_cast h63)
      (fun h => by rw [hn] at h; exact absurd (by exact_mod_cast h : n < 0) (by omega))
    have := gen 0 w hw
    unfold IsPow at this
    rw [if_pos h0] at this
    exact ⟨w, hw, this⟩
  · intro h0 h63 hne
    obtain ⟨w, hw⟩ := pow_isOk iu iv (by
      rw [hn, abs_of_neg (by exact_mod_cast h0)]
      have : -n < 2 ^ 63 := by omega
      exact_mod_cast this) (fun _ => hne)
    have := gen 0 w hw
    unfold IsPow at this
    rw [if_neg (by omega)] at this
    exact ⟨w, hw, by rw [eq_div_iff (pow_ne_zero _ hne)]; exact this.2⟩
  · intro h0 hz
    refine div_elim (op := opPow 0) rfl hu.isNum hv.isNum (fun r => r = .err) ?_ ?_
    · intro a b _ _ ha hb
      cases castInj hn hb
      have : a = 0 := by rw [hz] at ha; exact_mod_cast ha.symm
      show (if n = 0 then _ else if n < 0 then if a = 0 then _ else _ else _) = _
      rw [if_neg (by omega), if_pos h0, if_pos this]
    · rintro a b _ _ (rfl | rfl)
      · exact iu.elim
      · exact iv.elim

example : (opPow 0).eval (.int (-3)) (.int 5) = .ok (.int (-243)) ∧ (opPow 0).eval (.int (-2)) (.int (-3)) = .ok (.bigRat (-1 / 8)) ∧
    (opPow 0).eval (.int 0) (.int (-1)) = .err ∧ (opPow 0).eval (.bigRat (2 / 3)) (.int (-2)) = .ok (.bigRat (9 / 4)) := by
  decide +kernel

/-! ## C15 -/

/-- C15: the factorial of every `n` below 2^63 is the product of 1, …, n, with no machine overflow on the way;
the factorial of a negative integer is an error. -/
theorem C15_factorial (n : Nat) (h : n < 2 ^ 63) : factorial n = .ok ((List.range' 1 n).prod : Nat) := by
  rw [factorial_eq n h, prod_range']

/-- C15 for the operator `!`. -/
theorem C15_operator (n : Int) :
    (0 ≤ n → n < 2 ^ 63 → ∃ w, opFac.eval (.int n) = .ok w ∧ w.val = ((List.range' 1 n.toNat).prod : Nat)) ∧
    (n < 0 → opFac.eval (.int n) = .err) := by
  constructor
  · intro h1 h2
    obtain ⟨m, rfl⟩ := Int.eq_ofNat_of_zero_le h1
    refine ⟨shrinkBig ((List.range' 1 m).prod : Nat), ?_, by rw [val_shrinkBig]; rfl⟩
    show (facRes (factorial m)).bind _ = _
    rw [C15_factorial m (by omega)]
    rfl
  · intro h
    show (facRes (factorial n)).bind _ = _
    have : factorial n = .err := by unfold factorial; rw [if_pos h]
    rw [this]; rfl

example : factorial 25 = .ok 15511210043330985984000000 := by decide +kernel
example : opFac.eval (.int 10) = .ok (.int 3628800) ∧ opFac.eval (.int (-1)) = .err := by decide +kernel

/-! ## C16 -/

/-- C16 in full: for all non-negative machine integers. -/
def C16_statement : Prop :=
  ∀ n k : Nat, n ≤ 2 ^ 31 → k ≤ 2 ^ 31 → ∃ w, opChoose.eval (.int n) (.int k) = .ok w ∧ w.val = (Nat.choose k n : Nat)

/-- The full statement fails: `5 ! 0` is 1. -/
theorem C16_violated : ¬ C16_statement := by
  intro h
  obtain ⟨w, h1, h2⟩ := h 5 0 (by decide) (by decide)
  have : opChoose.eval (.int (5 : Nat)) (.int (0 : Nat)) = .ok (.int 1) := by decide +kernel
  rw [this] at h1
  cases h1
  norm_num [Num.val] at h2

/-- C16 except where the right operand is 0 and the left is not. -/
theorem C16_binomial_partial (n k : Nat) (hn : n ≤ 2 ^ 31) (hk : k ≤ 2 ^ 31) (h0 : k = 0 → n = 0) :
    ∃ w, opChoose.eval (.int n) (.int k) = .ok w ∧ w.val = (Nat.choose k n : Nat) := by
  have su : (Num.int n).Small := ⟨by omega, by omega⟩
  have sv : (Num.int k).Small := ⟨by omega, by omega⟩
  have ok : IsOk (opChoose.eval (.int n) (.int k)) := by
    show IsOk (if (n : Int) = 0 ∨ (k : Int) = 0 ∨ (n : Int) = k then _ else if (n : Int) < 0 ∨ (k : Int) < 0 ∨ (n : Int) > k then _ else _)
    split
    · exact isOk_ok _
    · split
      · exact isOk_ok _
      · rename_i h1 h2
        have e : ((k : Int) - n) = ((k - n : Nat) : Int) := by omega
        rw [factorial_eq n (by omega), factorial_eq k (by omega), e, factorial_eq (k - n) (by omega)]
        exact isOk_ok _
  obtain ⟨w, hw⟩ := ok
  refine ⟨w, hw, ?_⟩
  obtain ⟨n', k', e1, e2, e3⟩ := ((choose_ok su sv ⟨by simp, by simp⟩ (fun h => by
    have : k = 0 := by simpa using h
    simp [h0 this])).2 w hw).2
  have : n = n' := by simpa using e1
  subst this
  have : k = k' := by simpa using e2
  subst this
  split at e3
  · rw [e3, Nat.choose_eq_zero_of_lt ‹_›]; rfl
  · rename_i hnk
    rw [prod_range', prod_range', prod_range'] at e3
    have h1 : (Nat.choose k n * (n.factorial * (k - n).factorial) : Nat) = k.factorial := by
      rw [← Nat.mul_assoc]; exact Nat.choose_mul_factorial_mul_factorial (by omega)
    refine mul_right_cancel₀ (b := ((n.factorial * (k - n).factorial : Nat) : Rat)) ?_ (e3.trans ?_)
    · exact_mod_cast Nat.mul_ne_zero (Nat.factorial_ne_zero _) (Nat.factorial_ne_zero _)
    · exact_mod_cast h1.symm

example : opChoose.eval (.int 3) (.int 7) = .ok (.int 35) ∧ opChoose.eval (.int 8) (.int 7) = .ok (.int 0) := by decide +kernel

/-! ## C17 -/

/-- C17: `floor` gives the greatest integer not above, `ceil` the least integer not below. -/
theorem C17_floor_ceil {u : Num} (hu : u.Small) :
    (∃ w, opFloor.eval u = .ok w ∧ ∃ z : Int, w.val = z ∧ (z : Rat) ≤ u.val ∧ ∀ y : Int, (y : Rat) ≤ u.val → y ≤ z) ∧
    (∃ w, opCeil.eval u = .ok w ∧ ∃ z : Int, w.val = z ∧ u.val ≤ (z : Rat) ∧ ∀ y : Int, u.val ≤ (y : Rat) → z ≤ y) := by
  constructor
  · obtain ⟨w, hw⟩ := floor_isOk hu
    obtain ⟨z, h1, h2, h3⟩ := ((floor_ok hu).2 w hw).2
    refine ⟨w, hw, z, h1, by rwa [← h1], fun y hy => ?_⟩
    have : (y : Rat) < z + 1 := by rw [← h1]; exact lt_of_le_of_lt hy h3
    have : y < z + 1 := by exact_mod_cast this
    omega
  · obtain ⟨w, hw⟩ := ceil_isOk hu
    obtain ⟨z, h1, h2, h3⟩ := ((ceil_ok hu).2 w hw).2
    refine ⟨w, hw, z, h1, by rwa [← h1], fun y hy => ?_⟩
    have : (z : Rat) < y + 1 := by rw [← h1]; linarith
    have : z < y + 1 := by exact_mod_cast this
    omega

example : opFloor.eval (.bigRat (-7 / 2)) = .ok (.int (-4)) ∧ opCeil.eval (.bigRat (-7 / 2)) = .ok (.int (-3)) ∧
    (Num.bigRat (-7 / 2)).Small := by
  refine ⟨by decide +kernel, by decide +kernel, ?_⟩
  show (-7 / 2 : Rat).den ≠ 1
  decide +kernel

/-! ## C49 -/

/-- C49: the bit operators act on each bit of the two's complement representation of unlimited width, and the
shifts multiply by a power of two, or divide by it rounding down. Operands: integers whose machine form is at most
2^31 in absolute value; shift counts from 0 to 2^31 - 2. -/
theorem C49_bits {u v : Num} (hu : u.Small) (hv : v.Small) {x y : Int} (iu : u.isInt) (iv : v.isInt) (hx : u.val = x) (hy : v.val = y) :
    (∃ (w : Num) (z : Int), opAnd.eval u v = .ok w ∧ w.val = z ∧ ∀ k, bit z k = (bit x k && bit y k)) ∧
    (∃ (w : Num) (z : Int), opOr.eval u v = .ok w ∧ w.val = z ∧ ∀ k, bit z k = (bit x k || bit y k)) ∧
    (∃ (w : Num) (z : Int), opXor.eval u v = .ok w ∧ w.val = z ∧ ∀ k, bit z k = (bit x k ^^ bit y k)) ∧
    (∃ (w : Num) (z : Int), opCompl.eval u = .ok w ∧ w.val = z ∧ ∀ k, bit z k = !bit x k) ∧
    (0 ≤ y → y < 2 ^ 31 - 1 → ∃ w, opShl.eval u v = .ok w ∧ w.val = (x * 2 ^ y.toNat : Int)) ∧
    (0 ≤ y → y < 2 ^ 31 - 1 → ∃ (w : Num) (z : Int), opShr.eval u v = .ok w ∧ w.val = z ∧ z * 2 ^ y.toNat ≤ x ∧ x < (z + 1) * 2 ^ y.toNat) := by
  refine ⟨?_, ?_, ?_, ?_, ?_, ?_⟩
  · obtain ⟨w, hw⟩ := bits_isOk (op := opAnd) rfl (fun _ _ => isOk_ok _) (fun _ _ => isOk_ok _) iu iv
    obtain ⟨x', y', z, h1, h2, h3, h4⟩ := ((band_ok hu hv).2 w hw).2
    cases castInj hx h1; cases castInj hy h2
    exact ⟨w, z, hw, h3, h4⟩
  · obtain ⟨w, hw⟩ := bits_isOk (op := opOr) rfl (fun _ _ => isOk_ok _) (fun _ _ => isOk_ok _) iu iv
    obtain ⟨x', y', z, h1, h2, h3, h4⟩ := ((bor_ok hu hv).2 w hw).2
    cases castInj hx h1; cases castInj hy h2
    exact ⟨w, z, hw, h3, h4⟩
  · obtain ⟨w, hw⟩ := bits_isOk (op := opXor) rfl (fun _ _ => isOk_ok _) (fun _ _ => isOk_ok _) iu iv
    obtain ⟨x', y', z, h1, h2, h3, h4⟩ := ((bxor_ok hu hv).2 w hw).2
    cases castInj hx h1; cases castInj hy h2
    exact ⟨w, z, hw, h3, h4⟩
  · obtain ⟨w, hw⟩ := compl_isOk iu
    obtain ⟨x', z, h1, h3, h4⟩ := ((compl_ok hu).2 w hw).2
    cases castInj hx h1
    exact ⟨w, z, hw, h3, h4⟩
  · intro h0 h1
    obtain ⟨w, hw⟩ := shl_isOk iu iv ⟨by rw [hy]; exact_mod_cast h0, by rw [hy]; exact_mod_cast h1⟩
    obtain ⟨x', n, e1, e2, e3⟩ := ((shl_ok hu hv).2 w hw).2
    cases castInj hx e1
    have : y = n := castInj hy (e2.trans (by push_cast; rfl))
    refine ⟨w, hw, ?_⟩
    rw [e3, e1, this]; push_cast; simp
  · intro h0 h1
    obtain ⟨w, hw⟩ := shr_isOk iu iv ⟨by rw [hy]; exact_mod_cast h0, by rw [hy]; exact_mod_cast h1⟩
    obtain ⟨x', z, n, e1, e2, e3, e4, e5⟩ := ((shr_ok hu hv).2 w hw).2
    cases castInj hx e1
    have : y = n := castInj hy (e2.trans (by push_cast; rfl))
    refine ⟨w, z, hw, e3, ?_, ?_⟩
    · rw [this, Int.toNat_natCast]; rw [e1, e3] at e4; exact_mod_cast e4
    · rw [this, Int.toNat_natCast]; rw [e1, e3] at e5; exact_mod_cast e5

example : opAnd.eval (.int (-6)) (.int 11) = .ok (.int 10) ∧ opXor.eval (.int (-6)) (.bigInt (2 ^ 40)) = .ok (.bigInt (-(2 ^ 40) - 6)) ∧
    opCompl.eval (.int 5) = .ok (.int (-6)) ∧ opShr.eval (.int (-5)) (.int 1) = .ok (.int (-3)) ∧
    opShl.eval (.int (-5)) (.int 40) = .ok (.bigInt (-5 * 2 ^ 40)) ∧ opShl.eval (.int 1) (.int (-1)) = .err := by decide +kernel

/-! ## C50 -/

/-- The value 1 or 0 for a proposition, as an Ivy integer. -/
def Decides (r : Res Num) (p : Prop) : Prop := (p → r = .ok (.int 1)) ∧ (¬ p → r = .ok (.int 0))

/-- C50: the comparison operators decide the order of the rationals, the logical operators and `not` are the
boolean functions of "is not zero", and `min` and `max` pick the smaller and the larger operand, on integers and
fractions in any mixture of representations. -/
theorem C50_comparisons {u v : Num} (hu : u.Small) (hv : v.Small) :
    Decides (opEq.eval u v) (u.val = v.val) ∧ Decides (opNe.eval u v) (u.val ≠ v.val) ∧
    Decides (opLt.eval u v) (u.val < v.val) ∧ Decides (opLe.eval u v) (u.val ≤ v.val) ∧
    Decides (opGt.eval u v) (v.val < u.val) ∧ Decides (opGe.eval u v) (v.val ≤ u.val) := by
  have key : ∀ {r : Res Num} {p : Prop} [Decidable p], IsOk r → Yields (fun c => c = truth p) r → (∀ w, r = .ok w → w = .int 1 ∨ w = .int 0) → Decides r p := by
    intro r p _ ⟨w, hw⟩ hy hb
    have hv := (hy.2 w hw).2
    rcases hb w hw with rfl | rfl
    · refine ⟨fun _ => hw, fun hp => ?_⟩
      rw [truth, if_neg hp] at hv
      norm_num [Num.val] at hv
    · refine ⟨fun hp => ?_, fun _ => hw⟩
      rw [truth, if_pos hp] at hv
      norm_num [Num.val] at hv
  have bin : ∀ (f : Int → Int → Bool) (g : Rat → Rat → Bool) (w : Num), (opCmp f g).eval u v = .ok w → w = .int 1 ∨ w = .int 0 := by
    intro f g w
    have tb : ∀ b : Bool, Res.ok (toInt b) = .ok w → w = .int 1 ∨ w = .int 0 := by
      intro b h; cases h; cases b
      · exact Or.inr rfl
      · exact Or.inl rfl
    exact arith_elim (op := opCmp f g) rfl hu.isNum hv.isNum (fun r => r = .ok w → _) (fun _ _ _ _ => tb _) (fun _ _ _ _ _ _ => tb _) (fun _ _ _ _ _ => tb _)
  exact ⟨key (cmp_isOk hu.isNum hv.isNum) (eq_ok hu hv) (bin _ _), key (cmp_isOk hu.isNum hv.isNum) (ne_ok hu hv) (bin _ _),
    key (cmp_isOk hu.isNum hv.isNum) (lt_ok hu hv) (bin _ _), key (cmp_isOk hu.isNum hv.isNum) (le_ok hu hv) (bin _ _),
    key (cmp_isOk hu.isNum hv.isNum) (gt_ok hu hv) (bin _ _), key (cmp_isOk hu.isNum hv.isNum) (ge_ok hu hv) (bin _ _)⟩

/-- C50, logical operators. -/
theorem C50_logic {u v : Num} (maxBits : Nat) (hu : u.Small) (hv : v.Small) :
    Decides ((Op2.and.impl maxBits).eval u v) (u.val ≠ 0 ∧ v.val ≠ 0) ∧
    Decides ((Op2.or.impl maxBits).eval u v) (u.val ≠ 0 ∨ v.val ≠ 0) ∧
    Decides ((Op2.xor.impl maxBits).eval u v) (¬ (u.val ≠ 0 ↔ v.val ≠ 0)) ∧
    Decides ((Op2.nand.impl maxBits).eval u v) (¬ (u.val ≠ 0 ∧ v.val ≠ 0)) ∧
    Decides ((Op2.nor.impl maxBits).eval u v) (¬ (u.val ≠ 0 ∨ v.val ≠ 0)) ∧
    Decides (opNot.eval u) (u.val = 0) := by
  have tb : ∀ (f : Bool → Bool → Bool), (opBool f).eval u v = .ok (toInt (f (toBool u) (toBool v))) := by
    intro f
    cases u <;> cases v <;> first | exact hu.elim | exact hv.elim | (simp [BinOp.eval, opBool, arithType, Num.ty, Ty.rank, Num.toType, Res.bind, toBool])
  have dec : ∀ (b : Bool) (p : Prop), (b = true ↔ p) → Decides (.ok (toInt b)) p := by
    intro b p h
    cases b
    · exact ⟨fun hp => Bool.noConfusion (h.2 hp), fun _ => rfl⟩
    · exact ⟨fun _ => rfl, fun hp => (hp (h.1 rfl)).elim⟩
  have bu := toBool_val hu.isNum
  have bv := toBool_val hv.isNum
  refine ⟨?_, ?_, ?_, ?_, ?_, ?_⟩
  · exact (tb fun a b => a && b) ▸ dec _ _ (by rw [← bu, ← bv]; simp)
  · exact (tb fun a b => a || b) ▸ dec _ _ (by rw [← bu, ← bv]; simp)
  · exact (tb fun a b => a != b) ▸ dec _ _ (by rw [← bu, ← bv]; cases toBool u <;> cases toBool v <;> simp)
  · exact (tb fun a b => !(a && b)) ▸ dec _ _ (by rw [← bu, ← bv]; cases toBool u <;> cases toBool v <;> simp)
  · exact (tb fun a b => !(a || b)) ▸ dec _ _ (by rw [← bu, ← bv]; cases toBool u <;> cases toBool v <;> simp)
  · have pick : ∀ (p : Prop) [Decidable p] (q : Prop), (p ↔ q) → Decides (.ok (if p then one else zero)) q := by
      intro p _ q h
      by_cases hp : p
      · rw [if_pos hp]; exact ⟨fun _ => rfl, fun hq => (hq (h.1 hp)).elim⟩
      · rw [if_neg hp]; exact ⟨fun hq => (hp (h.2 hq)).elim, fun _ => rfl⟩
    refine un_elim hu.isNum (fun r => Decides r _) ?_ ?_ ?_
    · rintro a rfl; exact pick (a = 0) _ (by simp)
    · rintro a rfl; exact pick (a = 0) _ (by simp)
    · rintro a rfl; exact pick (a = 0) _ (by simp)

/-- C50, `min` and `max`. -/
theorem C50_min_max {u v : Num} (hu : u.Small) (hv : v.Small) :
    (∃ w, opMin.eval u v = .ok w ∧ w.val = min u.val v.val) ∧ (∃ w, opMax.eval u v = .ok w ∧ w.val = max u.val v.val) := by
  constructor
  · obtain ⟨w, hw⟩ := min_isOk hu.isNum hv.isNum
    obtain ⟨h1, h2, h3⟩ := ((min_ok hu hv).2 w hw).2
    refine ⟨w, hw, le_antisymm (le_min h2 h3) ?_⟩
    rcases h1 with h | h <;> rw [h]
    · exact min_le_left _ _
    · exact min_le_right _ _
  · obtain ⟨w, hw⟩ := max_isOk hu.isNum hv.isNum
    obtain ⟨h1, h2, h3⟩ := ((max_ok hu hv).2 w hw).2
    refine ⟨w, hw, le_antisymm ?_ (max_le h2 h3)⟩
    rcases h1 with h | h <;> rw [h]
    · exact le_max_left _ _
    · exact le_max_right _ _

example : opLt.eval (.bigRat (-1 / 2)) (.int 0) = .ok (.int 1) ∧ opGe.eval (.bigInt (10 ^ 20)) (.bigRat (1 / 3)) = .ok (.int 1) ∧
    opEq.eval (.int 3) (.bigInt 4) = .ok (.int 0) ∧ opMin.eval (.bigRat (1 / 2)) (.int 1) = .ok (.bigRat (1 / 2)) := by decide +kernel

end Verif.Num
