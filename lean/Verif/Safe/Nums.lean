import Verif.Safe.Hoare
import Verif.Safe.Spec
import Verif.Num.Lemmas4
import Verif.Num.CLemmas2

/-!
# Operators on numbers never panic
-/

set_option linter.dupNamespace false
namespace Verif.Safe
open Verif.Num

/-- No panic, and a result has the property. -/
def Sound {α : Type} (P : α → Prop) : Res α → Prop
  | .ok a => P a
  | .err => True
  | .crash => False
  | .float => True

/-- No panic, and a result is kept in the same way. -/
abbrev TidyR : Res Num → Prop := Sound Tidy

theorem sound_bind {α β : Type} {P : α → Prop} {Q : β → Prop} {r : Res α} {f : α → Res β} (h : Sound P r) (hf : ∀ a, P a → Sound Q (f a)) :
    Sound Q (r.bind f) := by
  cases r
  · exact hf _ h
  · trivial
  · exact h.elim
  · trivial

theorem sound_ite {α : Type} {P : α → Prop} {p : Prop} [Decidable p] {x y : Res α} (hx : p → Sound P x) (hy : ¬ p → Sound P y) :
    Sound P (if p then x else y) := by
  split
  · exact hx ‹_›
  · exact hy ‹_›

theorem tidy_pick {p : Prop} [Decidable p] {x y : Num} (hx : Tidy x) (hy : Tidy y) : Tidy (if p then x else y) := by
  split
  · exact hx
  · exact hy

theorem wrap_range (x : Int) : -(2 ^ 63) ≤ wrap64 x ∧ wrap64 x < 2 ^ 63 := by
  unfold wrap64
  constructor
  · have := Int.le_bmod (x := x) (m := 2 ^ 64) (by decide)
    simpa using this
  · have := Int.bmod_lt (x := x) (m := 2 ^ 64) (by decide)
    simpa using this

theorem tidy_wrap (x : Int) : Tidy (.int (wrap64 x)) := wrap_range x
theorem tidy_zero : Tidy zero := by constructor <;> decide
theorem tidy_one : Tidy one := by constructor <;> decide
theorem tidy_minusOne : Tidy minusOne := by constructor <;> decide

theorem tidy_shrinkBig (i : Int) : Tidy (shrinkBig i) := by
  unfold shrinkBig
  split
  · rename_i h
    rw [bitLen_lt_32] at h
    show -(2 ^ 63) ≤ i ∧ i < 2 ^ 63
    omega
  · trivial

theorem tidy_maybeBig (i : Int) : Tidy (maybeBig i) := by
  unfold maybeBig minInt maxInt
  split
  · show -(2 ^ 63) ≤ i ∧ i < 2 ^ 63
    omega
  · trivial

theorem tidy_shrinkRat (r : Rat) : Tidy (shrinkRat r) := by
  unfold shrinkRat
  split
  · exact tidy_shrinkBig _
  · assumption

theorem tidy_shrink {u : Num} (h : Tidy u) : Tidy u.shrink := by
  cases u
  · exact h
  · exact h
  · exact tidy_shrinkBig _
  · exact tidy_shrinkRat _

theorem tidy_toInt (b : Bool) : Tidy (toInt b) := by cases b <;> constructor <;> decide

theorem tidy_bits (x : BitVec 64) : Tidy (.int x.toInt) := by
  have h1 := BitVec.le_toInt x
  have h2 := BitVec.toInt_lt (x := x)
  constructor
  · simpa using h1
  · simpa using h2

theorem tidy_intIte {p : Prop} [Decidable p] {a b : Int} (ha : Tidy (.int a)) (hb : Tidy (.int b)) : Tidy (.int (if p then a else b)) := by
  split
  · exact ha
  · exact hb

theorem tidy_tmod {a b : Int} (ha : Tidy (.int a)) : Tidy (.int (a.tmod b)) := by
  obtain ⟨h1, h2⟩ := ha
  have h : (a.tmod b).natAbs ≤ a.natAbs := by
    rw [Int.natAbs_tmod]
    exact Nat.mod_le _ _
  show -(2 ^ 63) ≤ _ ∧ _ < 2 ^ 63
  by_cases h3 : 0 ≤ a
  · have := Int.tmod_nonneg b h3
    omega
  · have : a.tmod b ≤ 0 := by
      have := Int.tmod_nonneg b (show 0 ≤ -a by omega)
      rw [Int.neg_tmod] at this
      omega
    omega

theorem facRes_sound {n : Int} (h : n < 2 ^ 63) : Sound (fun _ => True) (facRes (factorial n)) := by
  by_cases h0 : 0 ≤ n
  · obtain ⟨m, rfl⟩ := Int.eq_ofNat_of_zero_le h0
    rw [factorial_eq m (by omega)]
    trivial
  · have : factorial n = .err := by
      unfold factorial
      rw [if_pos (by omega)]
    rw [this]
    trivial

theorem bigIntExp_sound {mb : Nat} (j k : Int) : Sound (fun _ => True) (bigIntExp mb j k) := by
  unfold bigIntExp
  refine sound_ite (fun _ => trivial) fun _ => sound_ite (fun _ => trivial) fun _ => sound_ite (fun _ => trivial) fun _ => ?_
  exact sound_ite (fun _ => trivial) fun _ => sound_ite (fun _ => trivial) fun _ => trivial

theorem shiftCount_sound (j : Int) : Sound (fun _ => True) (shiftCount j) := by
  unfold shiftCount
  split
  · exact sound_ite (fun _ => trivial) fun _ => trivial
  · trivial

theorem quoRemInt_tidy (x y : Int) (hx : Tidy (.int x)) : Tidy (.int (quoRemInt x y).1) ∧ Tidy (.int (quoRemInt x y).2) := by
  unfold quoRemInt
  dsimp only
  have hx' : Tidy (.int (if decide (x < 0) = true then wrap64 (-x) else x)) := tidy_intIte (tidy_wrap _) hx
  generalize (if decide (x < 0) = true then wrap64 (-x) else x) = x' at hx'
  generalize (if decide (y < 0) = true then wrap64 (-y) else y) = y'
  generalize (decide (x < 0) && decide (x'.tmod y' ≠ 0)) = c
  cases c
  · exact ⟨tidy_intIte (tidy_wrap _) (tidy_wrap _), tidy_tmod hx'⟩
  · exact ⟨tidy_intIte (tidy_wrap _) (tidy_wrap _), tidy_wrap _⟩

/-- QuoRem never panics. -/
theorem quoRem_sound {a b : Num} (ha : Tidy a) (_hb : Tidy b) : Sound (fun r => Tidy r.1 ∧ Tidy r.2) (quoRem a b) := by
  unfold quoRem
  refine sound_ite (fun _ => ⟨tidy_zero, ha⟩) fun _ => ?_
  cases a <;> cases b
  · exact quoRemInt_tidy _ _ ha
  · trivial
  · exact ⟨tidy_shrinkBig _, tidy_shrinkBig _⟩
  · exact ⟨tidy_shrinkBig _, tidy_shrinkRat _⟩
  · trivial
  · trivial
  · trivial
  · trivial
  · exact ⟨tidy_shrinkBig _, tidy_shrinkBig _⟩
  · trivial
  · exact ⟨tidy_shrinkBig _, tidy_shrinkBig _⟩
  · exact ⟨tidy_shrinkBig _, tidy_shrinkRat _⟩
  · exact ⟨tidy_shrinkBig _, tidy_shrinkRat _⟩
  · trivial
  · exact ⟨tidy_shrinkBig _, tidy_shrinkRat _⟩
  · exact ⟨tidy_shrinkBig _, tidy_shrinkRat _⟩


/-! ## Every binary operator -/

theorem arith_sound {op : BinOp} (h : op.whichType = arithType) {u v : Num}
    (hi : ∀ a b, u = .int a → v = .int b → TidyR (app2 (op.fn .int) (.int a) (.int b)))
    (hc : ∀ a b, u = .char a → v = .char b → TidyR (app2 (op.fn .char) (.char a) (.char b)))
    (hb : ∀ a b : Int, TidyR (app2 (op.fn .bigInt) (.bigInt a) (.bigInt b)))
    (hr : ∀ a b : Rat, (u = .bigRat a ∨ v = .bigRat b) → TidyR (app2 (op.fn .bigRat) (.bigRat a) (.bigRat b))) : TidyR (op.eval u v) := by
  unfold BinOp.eval
  rw [h]
  cases u <;> cases v
  · exact hi _ _ rfl rfl
  · trivial
  · exact hb _ _
  · exact hr _ _ (by simp)
  · trivial
  · exact hc _ _ rfl rfl
  · trivial
  · trivial
  · exact hb _ _
  · trivial
  · exact hb _ _
  · exact hr _ _ (by simp)
  · exact hr _ _ (by simp)
  · trivial
  · exact hr _ _ (by simp)
  · exact hr _ _ (by simp)

theorem div_sound {op : BinOp} (h : op.whichType = divType) {u v : Num}
    (hc : op.fn .char = none)
    (hb : ∀ a b : Int, TidyR (app2 (op.fn .bigInt) (.bigInt a) (.bigInt b)))
    (hr : ∀ a b : Rat, TidyR (app2 (op.fn .bigRat) (.bigRat a) (.bigRat b))) : TidyR (op.eval u v) := by
  have hc' : ∀ a b : Int, TidyR (app2 (op.fn .char) (.char a) (.char b)) := by
    intro a b; rw [hc]; trivial
  unfold BinOp.eval
  rw [h]
  cases u <;> cases v
  · exact hb _ _
  · trivial
  · exact hb _ _
  · exact hr _ _
  · trivial
  · exact hc' _ _
  · trivial
  · trivial
  · exact hb _ _
  · trivial
  · exact hb _ _
  · exact hr _ _
  · exact hr _ _
  · trivial
  · exact hr _ _
  · exact hr _ _

theorem rat_sound {op : BinOp} (h : op.whichType = rationalType) {u v : Num}
    (hr : ∀ a b : Rat, TidyR (app2 (op.fn .bigRat) (.bigRat a) (.bigRat b))) : TidyR (op.eval u v) := by
  unfold BinOp.eval
  rw [h]
  cases u <;> cases v <;> first | trivial | exact hr _ _

theorem un_sound {op : UnOp} {u : Num} (hc : op.fn .char = none)
    (hi : ∀ a, u = .int a → TidyR (app1 (op.fn .int) (.int a)))
    (hb : ∀ a, TidyR (app1 (op.fn .bigInt) (.bigInt a)))
    (hr : ∀ a, u = .bigRat a → TidyR (app1 (op.fn .bigRat) (.bigRat a))) : TidyR (op.eval u) := by
  unfold UnOp.eval
  cases u
  · exact hi _ rfl
  · show TidyR (match op.fn .char with | none => .err | some f => _)
    rw [hc]; trivial
  · exact hb _
  · exact hr _ rfl

theorem recip_sound (u : Num) : TidyR (opRecip.eval u) :=
  un_sound rfl (fun _ _ => sound_ite (fun _ => trivial) fun _ => tidy_shrinkRat _) (fun _ => sound_ite (fun _ => trivial) fun _ => tidy_shrinkRat _)
    (fun _ _ => sound_ite (fun _ => trivial) fun _ => tidy_shrinkRat _)

theorem op1_sound (op : Op1) {u : Num} (hu : Tidy u) : TidyR (op.impl.eval u) := by
  cases op with
  | neg => exact un_sound rfl (fun a _ => tidy_wrap _) (fun a => tidy_shrinkBig _) (fun a _ => tidy_shrinkRat _)
  | abs => exact un_sound rfl (fun a h => tidy_intIte (tidy_wrap _) (h ▸ hu)) (fun a => tidy_shrinkBig _) (fun a _ => tidy_shrinkRat _)
  | recip => exact recip_sound u
  | sgn =>
    have hs : ∀ i, Tidy (.int (sign i)) := fun i => tidy_intIte tidy_minusOne (tidy_intIte tidy_zero tidy_one)
    exact un_sound rfl (fun a _ => tidy_pick tidy_one (tidy_pick tidy_minusOne tidy_zero)) (fun a => hs _) (fun a _ => hs _)
  | floor | ceil =>
    exact un_sound rfl (fun a h => (h ▸ hu : Tidy (.int a))) (fun a => trivial) (fun a h => sound_ite (fun h1 => ((h ▸ hu : Tidy (.bigRat a)) h1).elim) fun _ => tidy_shrinkBig _)
  | not => exact un_sound rfl (fun a _ => tidy_pick tidy_one tidy_zero) (fun a => tidy_pick tidy_one tidy_zero) (fun a _ => tidy_pick tidy_one tidy_zero)
  | fac =>
    exact un_sound rfl (fun a h => sound_bind (facRes_sound (h ▸ hu : Tidy (.int a)).2) fun _ _ => tidy_shrinkBig _) (fun a => trivial) (fun a _ => trivial)
  | compl => exact un_sound rfl (fun a _ => tidy_bits _) (fun a => tidy_shrinkBig _) (fun a _ => trivial)

theorem op2_sound (mb : Nat) (op : Op2) {u v : Num} (hu : Tidy u) (hv : Tidy v) : TidyR ((op.impl mb).eval u v) := by
  cases op with
  | add =>
    exact arith_sound rfl (fun a b h1 h2 => tidy_pick (h2 ▸ hv) (tidy_pick (h1 ▸ hu) (tidy_maybeBig _))) (fun _ _ _ _ => trivial)
      (fun a b => sound_ite (fun _ => trivial) fun _ => sound_ite (fun _ => trivial) fun _ => tidy_shrinkBig _) (fun a b _ => tidy_shrinkRat _)
  | sub =>
    exact arith_sound rfl (fun a b h1 h2 => tidy_pick (h1 ▸ hu) (tidy_maybeBig _)) (fun _ _ _ _ => trivial)
      (fun a b => sound_ite (fun _ => trivial) fun _ => sound_ite (fun _ => trivial) fun _ => tidy_shrinkBig _) (fun a b _ => tidy_shrinkRat _)
  | mul =>
    exact arith_sound rfl (fun a b h1 h2 => tidy_pick (h2 ▸ hv) (tidy_pick (h1 ▸ hu) (tidy_maybeBig _))) (fun _ _ _ _ => trivial)
      (fun a b => sound_ite (fun _ => trivial) fun _ => tidy_shrinkBig _) (fun a b _ => tidy_shrinkRat _)
  | quo => exact rat_sound rfl fun a b => sound_ite (fun _ => trivial) fun _ => tidy_shrinkRat _
  | idiv =>
    exact arith_sound rfl (fun a b _ _ => sound_ite (fun _ => trivial) fun _ => tidy_wrap _) (fun _ _ _ _ => trivial)
      (fun a b => sound_ite (fun _ => trivial) fun _ => tidy_shrinkBig _) (fun a b _ => trivial)
  | imod =>
    exact arith_sound rfl (fun a b h1 _ => sound_ite (fun _ => trivial) fun _ => tidy_tmod (h1 ▸ hu)) (fun _ _ _ _ => trivial)
      (fun a b => sound_ite (fun _ => trivial) fun _ => tidy_shrinkBig _) (fun a b _ => trivial)
  | div => exact div_sound rfl rfl (fun a b => sound_ite (fun _ => trivial) fun _ => tidy_shrinkBig _) (fun a b => trivial)
  | mod =>
    have hrat : ∀ a b : Rat, (u = .bigRat a ∨ v = .bigRat b) → TidyR (modFn (.bigRat a) (.bigRat b)) := by
      intro a b h
      by_cases h0 : (Num.bigRat b).shrink = .int 0
      · unfold modFn quoRem
        rw [if_pos h0]
        rcases h with h | h
        · exact (h ▸ hu : Tidy (.bigRat a))
        · exfalso
          have hb : b.den ≠ 1 := (h ▸ hv : Tidy (.bigRat b))
          rw [Num.shrink, shrinkRat, if_neg hb] at h0
          cases h0
      · unfold modFn quoRem
        rw [if_neg h0]
        exact tidy_shrinkRat _
    exact arith_sound rfl
      (fun a b h1 h2 => sound_bind (quoRem_sound (h1 ▸ hu) (h2 ▸ hv)) fun r hr => hr.2) (fun _ _ _ _ => trivial)
      (fun a b => sound_bind (quoRem_sound (a := .bigInt a) (b := .bigInt b) trivial trivial) fun r hr => hr.2) hrat
  | pow =>
    refine div_sound rfl rfl ?_ ?_
    · intro a b
      exact sound_ite (fun _ => tidy_one) fun _ => sound_ite (fun _ => sound_ite (fun _ => trivial) fun _ =>
        sound_bind (bigIntExp_sound _ _) fun p _ => recip_sound _) fun _ => sound_ite (fun _ => trivial) fun _ =>
        sound_bind (bigIntExp_sound _ _) fun p _ => tidy_shrinkBig _
    · intro a b
      refine sound_ite (fun _ => tidy_one) fun _ => sound_ite (fun _ => trivial) fun _ => ?_
      have h1 : Sound (fun n => ∃ r, n = .bigRat r) (if b < 0 then (opNeg.eval (.bigRat b)).bind fun n => n.toType .bigRat else .ok (.bigRat b)) := by
        refine sound_ite (fun _ => ?_) fun _ => ⟨b, rfl⟩
        show Sound _ ((shrinkRat (-b)).toType .bigRat)
        generalize shrinkRat (-b) = n
        cases n
        · exact ⟨_, rfl⟩
        · trivial
        · exact ⟨_, rfl⟩
        · exact ⟨_, rfl⟩
      refine sound_bind h1 ?_
      rintro n ⟨r, rfl⟩
      exact sound_ite (fun _ => trivial) fun _ => sound_bind (bigIntExp_sound _ _) fun p _ => sound_bind (bigIntExp_sound _ _) fun q _ => tidy_shrinkRat _
  | choose =>
    refine arith_sound rfl (fun a b h1 h2 => ?_) (fun _ _ _ _ => trivial) (fun a b => trivial) (fun a b _ => trivial)
    have ha : Tidy (.int a) := h1 ▸ hu
    have hb : Tidy (.int b) := h2 ▸ hv
    refine sound_ite (fun _ => tidy_one) fun _ => sound_ite (fun _ => tidy_zero) fun h => ?_
    refine sound_bind (facRes_sound ha.2) fun _ _ => sound_bind (facRes_sound hb.2) fun _ _ => sound_bind (facRes_sound ?_) fun _ _ => tidy_shrinkBig _
    have := hb.2
    omega
  | band =>
    exact arith_sound rfl (fun a b h1 h2 => tidy_intIte (h1 ▸ hu) (tidy_intIte (h2 ▸ hv) (tidy_bits _))) (fun _ _ _ _ => trivial)
      (fun a b => tidy_shrinkBig _) (fun a b _ => trivial)
  | bor =>
    exact arith_sound rfl (fun a b h1 h2 => tidy_intIte (h2 ▸ hv) (tidy_intIte (h1 ▸ hu) (tidy_bits _))) (fun _ _ _ _ => trivial)
      (fun a b => tidy_shrinkBig _) (fun a b _ => trivial)
  | bxor =>
    exact arith_sound rfl (fun a b h1 h2 => tidy_intIte (h2 ▸ hv) (tidy_intIte (h1 ▸ hu) (tidy_bits _))) (fun _ _ _ _ => trivial)
      (fun a b => tidy_shrinkBig _) (fun a b _ => trivial)
  | shl | shr =>
    exact div_sound rfl rfl (fun a b => sound_bind (shiftCount_sound _) fun _ _ => tidy_shrinkBig _) (fun a b => trivial)
  | eq | ne | lt | le | gt | ge | and | or | xor | nand | nor =>
    exact arith_sound rfl (fun a b _ _ => tidy_toInt _) (fun a b _ _ => tidy_toInt _) (fun a b => tidy_toInt _) (fun a b _ => tidy_toInt _)
  | min =>
    exact arith_sound rfl (fun a b h1 h2 => tidy_intIte (h1 ▸ hu) (h2 ▸ hv)) (fun a b _ _ => trivial)
      (fun a b => tidy_pick (tidy_shrinkBig _) (tidy_shrinkBig _)) (fun a b _ => tidy_pick (tidy_shrinkRat _) (tidy_shrinkRat _))
  | max =>
    exact arith_sound rfl (fun a b h1 h2 => tidy_intIte (h1 ▸ hu) (h2 ▸ hv)) (fun a b _ _ => trivial)
      (fun a b => trivial) (fun a b _ => tidy_pick (tidy_shrinkRat _) (tidy_shrinkRat _))

/-! ## Complex numbers -/

/-- Both components are kept as numbers are. -/
def TidyX (c : Cx) : Prop := Tidy c.re ∧ Tidy c.im

/-- A scalar as the interpreter keeps it. -/
def TidyC : CNum → Prop
  | .num n => Tidy n
  | .cx c => TidyX c

theorem sound_new {u v : Num} (hu : Tidy u) (hv : Tidy v) : Sound TidyX (newComplex u v) :=
  sound_ite (fun _ => trivial) fun _ => ⟨hu, hv⟩

theorem sound_shrunk {r : Res Cx} (h : Sound TidyX r) : Sound TidyC (shrunk r) := by
  refine sound_bind h fun c hc => ?_
  show TidyC c.shrink
  unfold Cx.shrink
  dsimp only
  split
  · exact tidy_shrink hc.1
  · exact ⟨tidy_shrink hc.1, tidy_shrink hc.2⟩

theorem sound_asNum {r : Res Num} (h : TidyR r) : Sound TidyC (asNum r) := sound_bind h fun _ hn => hn

theorem sound_toComplex {u : CNum} (h : TidyC u) : Sound TidyX u.toComplex := by
  cases u with
  | num n => cases n <;> first | trivial | exact sound_new h tidy_zero
  | cx c => exact h

variable {mb : Nat}

theorem plus_sound {u v : Num} (hu : Tidy u) (hv : Tidy v) : TidyR (plus mb u v) := op2_sound mb .add hu hv
theorem minus_sound {u v : Num} (hu : Tidy u) (hv : Tidy v) : TidyR (minus mb u v) := op2_sound mb .sub hu hv
theorem times_sound {u v : Num} (hu : Tidy u) (hv : Tidy v) : TidyR (times mb u v) := op2_sound mb .mul hu hv
theorem over_sound {u v : Num} (hu : Tidy u) (hv : Tidy v) : TidyR (opDivide.eval u v) := op2_sound 0 .quo hu hv
theorem neg_sound {u : Num} (hu : Tidy u) : TidyR (opNeg.eval u) := op1_sound .neg hu

theorem cxNeg_sound {c : Cx} (h : TidyX c) : Sound TidyX c.neg :=
  sound_bind (neg_sound h.1) fun _ h1 => sound_bind (neg_sound h.2) fun _ h2 => sound_new h1 h2

theorem squares_sound {u v : Num} (hu : Tidy u) (hv : Tidy v) : TidyR (sumSquares mb u v) :=
  sound_bind (times_sound hu hu) fun _ h1 => sound_bind (times_sound hv hv) fun _ h2 => plus_sound h1 h2

theorem cxInverse_sound {c : Cx} (h : TidyX c) : Sound TidyX (c.inverse mb) :=
  sound_ite (fun _ => trivial) fun _ => sound_bind (squares_sound h.1 h.2) fun _ h1 => sound_bind (over_sound h.1 h1) fun _ h2 =>
    sound_bind (over_sound h.2 h1) fun _ h3 => sound_bind (neg_sound h3) fun _ h4 => sound_new h2 h4

theorem cxAdd_sound {c d : Cx} (h : TidyX c) (k : TidyX d) : Sound TidyX (c.add mb d) :=
  sound_bind (plus_sound h.1 k.1) fun _ h1 => sound_bind (plus_sound h.2 k.2) fun _ h2 => sound_new h1 h2

theorem cxSub_sound {c d : Cx} (h : TidyX c) (k : TidyX d) : Sound TidyX (c.sub mb d) :=
  sound_bind (minus_sound h.1 k.1) fun _ h1 => sound_bind (minus_sound h.2 k.2) fun _ h2 => sound_new h1 h2

theorem cxMul_sound {c d : Cx} (h : TidyX c) (k : TidyX d) : Sound TidyX (c.mul mb d) :=
  sound_bind (times_sound h.1 k.1) fun _ h1 => sound_bind (times_sound h.2 k.2) fun _ h2 => sound_bind (minus_sound h1 h2) fun _ h3 =>
    sound_bind (times_sound k.2 h.1) fun _ h4 => sound_bind (times_sound k.1 h.2) fun _ h5 => sound_bind (plus_sound h4 h5) fun _ h6 =>
      sound_new h3 h6

theorem cxDiv_sound {c d : Cx} (h : TidyX c) (k : TidyX d) : Sound TidyX (c.div mb d) :=
  sound_ite (fun _ => trivial) fun _ => sound_ite
    (fun _ => sound_bind (times_sound k.1 k.1) fun _ h1 => sound_bind (times_sound h.1 k.1) fun _ h2 => sound_bind (over_sound h2 h1) fun _ h3 =>
      sound_bind (times_sound h.2 k.1) fun _ h4 => sound_bind (over_sound h4 h1) fun _ h5 => sound_new h3 h5)
    fun _ => sound_bind (squares_sound k.1 k.2) fun _ h0 => sound_bind (times_sound h.1 k.1) fun _ h1 => sound_bind (times_sound h.2 k.2) fun _ h2 =>
      sound_bind (plus_sound h1 h2) fun _ h3 => sound_bind (over_sound h3 h0) fun _ h4 => sound_bind (times_sound h.2 k.1) fun _ h5 =>
        sound_bind (times_sound h.1 k.2) fun _ h6 => sound_bind (minus_sound h5 h6) fun _ h7 => sound_bind (over_sound h7 h0) fun _ h8 => sound_new h4 h8

theorem tidy_afterMod {u : Num} (h : Tidy u) : Tidy (afterMod u) := by
  cases u
  · exact h
  · exact h
  · exact h
  · rename_i r
    show (if r < 0 then -r else r).den ≠ 1
    split
    · exact h
    · exact h

theorem cxFloor_sound {same : Bool} {c : Cx} (h : TidyX c) : Sound TidyX (c.floor mb same) := by
  refine sound_bind (op1_sound .floor h.1) fun _ h1 => sound_bind (op1_sound .floor h.2) fun _ h2 => sound_bind (sound_new h1 h2) fun b hb => ?_
  refine sound_bind (op2_sound mb .mod h.1 tidy_one) fun x hx => ?_
  refine sound_bind (op2_sound mb .mod (v := one) (tidy_pick (tidy_afterMod h.1) h.2) tidy_one) fun y hy => ?_
  refine sound_bind (plus_sound hx hy) fun s hs => sound_bind (op2_sound mb .gt tidy_one hs) fun lt _ => ?_
  refine sound_ite (fun _ => hb) fun _ => sound_bind (op2_sound mb .ge hx hy) fun ge _ => ?_
  refine sound_ite (fun _ => cxAdd_sound hb ⟨tidy_one, tidy_zero⟩) fun _ => ?_
  exact sound_bind (sound_new tidy_zero tidy_one) fun i hi => cxAdd_sound hb hi

theorem cxCeil_sound {c : Cx} (h : TidyX c) : Sound TidyX (c.ceil mb) :=
  sound_bind (cxNeg_sound h) fun _ h1 => sound_bind (cxFloor_sound h1) fun _ h2 => cxNeg_sound h2

theorem evalC_sound {real : Num → Num → Res Num} {cplx : Cx → Cx → Res CNum} (h1 : ∀ u v, Tidy u → Tidy v → TidyR (real u v))
    (h2 : ∀ c d, TidyX c → TidyX d → Sound TidyC (cplx c d)) {u v : CNum} (hu : TidyC u) (hv : TidyC v) : Sound TidyC (evalC real cplx u v) := by
  have h3 : Sound TidyC (u.toComplex.bind fun c => v.toComplex.bind fun d => cplx c d) :=
    sound_bind (sound_toComplex hu) fun c hc => sound_bind (sound_toComplex hv) fun d hd => h2 c d hc hd
  cases u with
  | num u =>
    cases v with
    | num v => exact sound_asNum (h1 u v hu hv)
    | cx d => exact h3
  | cx c => exact h3

theorem cop2_sound (op : COp2) {u v : CNum} (hu : TidyC u) (hv : TidyC v) : Sound TidyC (op.eval mb u v) := by
  cases op with
  | add => exact evalC_sound (fun _ _ => plus_sound) (fun _ _ h k => sound_shrunk (cxAdd_sound h k)) hu hv
  | sub => exact evalC_sound (fun _ _ => minus_sound) (fun _ _ h k => sound_shrunk (cxSub_sound h k)) hu hv
  | mul => exact evalC_sound (fun _ _ => times_sound) (fun _ _ h k => sound_shrunk (cxMul_sound h k)) hu hv
  | quo => exact evalC_sound (fun _ _ => over_sound) (fun _ _ h k => sound_shrunk (cxDiv_sound h k)) hu hv
  | eq =>
    refine evalC_sound (fun _ _ => op2_sound 0 .eq) (fun _ _ h k => ?_) hu hv
    exact sound_bind (op2_sound 0 .eq h.1 k.1) fun _ _ => sound_ite (fun _ => tidy_zero) fun _ => sound_asNum (op2_sound 0 .eq h.2 k.2)
  | ne =>
    refine evalC_sound (fun _ _ => op2_sound 0 .ne) (fun _ _ h k => ?_) hu hv
    exact sound_bind (op2_sound 0 .ne h.1 k.1) fun _ _ => sound_ite (fun _ => tidy_one) fun _ => sound_asNum (op2_sound 0 .ne h.2 k.2)
  | j =>
    cases u with
    | cx c => cases v <;> trivial
    | num u =>
      cases v with
      | cx d => trivial
      | num v =>
        have hs : ∀ a b : Num, Tidy a.shrink → Tidy b.shrink → Sound TidyC (shrunk (newComplex a b)) := by
          intro a b ha hb
          unfold newComplex
          split
          · trivial
          · show TidyC (Cx.shrink _)
            unfold Cx.shrink
            dsimp only
            split
            · exact ha
            · exact ⟨ha, hb⟩
        have hB : ∀ x y : Int, Sound TidyC (shrunk (newComplex (.bigInt x) (.bigInt y))) := fun x y => hs _ _ (tidy_shrinkBig x) (tidy_shrinkBig y)
        have hR : ∀ x y : Rat, Sound TidyC (shrunk (newComplex (.bigRat x) (.bigRat y))) := fun x y => hs _ _ (tidy_shrinkRat x) (tidy_shrinkRat y)
        cases u <;> cases v
        · rename_i x y
          exact hs (.int x) (.int y) hu hv
        all_goals first | trivial | exact hB _ _ | exact hR _ _

theorem noChar_sound {f : Num → Res CNum} {u : Num} (h : Sound TidyC (f u)) : Sound TidyC (noChar f u) := by
  cases u
  · exact h
  · trivial
  · exact h
  · exact h

theorem cop1_sound (op : COp1) {u : CNum} (hu : TidyC u) : Sound TidyC (op.eval mb u) := by
  cases op <;> cases u
  · exact sound_asNum (neg_sound hu)
  · exact sound_shrunk (cxNeg_sound hu)
  · exact sound_asNum (recip_sound _)
  · exact sound_shrunk (cxInverse_sound hu)
  · exact noChar_sound hu
  · exact sound_bind (neg_sound hu.2) fun _ h => sound_shrunk (sound_new hu.1 h)
  · exact noChar_sound (sound_shrunk (sound_new tidy_zero hu))
  · exact sound_bind (neg_sound hu.2) fun _ h => sound_shrunk (sound_new h hu.1)
  · exact noChar_sound hu
  · exact hu.1
  · exact noChar_sound tidy_zero
  · exact hu.2
  · exact sound_asNum (op1_sound .not hu)
  · exact tidy_pick tidy_one tidy_zero

theorem cFloor_sound {same : Bool} {u : CNum} (hu : TidyC u) : Sound TidyC (cFloor mb same u) := by
  cases u
  · exact sound_asNum (op1_sound .floor hu)
  · exact sound_shrunk (cxFloor_sound hu)

theorem cCeil_sound {u : CNum} (hu : TidyC u) : Sound TidyC (cCeil mb u) := by
  cases u
  · exact sound_asNum (op1_sound .ceil hu)
  · exact sound_shrunk (cxCeil_sound hu)

end Verif.Safe
