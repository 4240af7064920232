import Verif.Safe.Lemmas6
import Verif.Arr.EvalLemmas5
import Verif.Num.Props

/-!
# C54: `char` and `code`

`CodePoint`, `Alike`, `Made`, `Ints32` and `CharsOk` are the specification: they refer to values only, not to operators.
-/

namespace Verif.Safe
open Verif.Arr Verif.Num
open Verif.Order (Val)

/-! ## Specification -/

/-- A number that Unicode gives to a character: surrogates are none. -/
def CodePoint (k : Int) : Prop := 0 ≤ k ∧ k ≤ 0x10FFFF ∧ ¬ (0xD800 ≤ k ∧ k ≤ 0xDFFF)

instance (k : Int) : Decidable (CodePoint k) := inferInstanceAs (Decidable (_ ∧ _))

mutual
/-- Values of the same structure, nested arrays included, of which corresponding leaves are related by `P`. -/
def Alike (P : Num → Num → Prop) : Val → Val → Prop
  | .num a, .num b => P a b
  | .vec l, .vec m => Alikes P l m
  | .mat s l, .mat t m => s = t ∧ Alikes P l m
  | _, _ => False

/-- The same for lists of values. -/
def Alikes (P : Num → Num → Prop) : List Val → List Val → Prop
  | [], [] => True
  | x :: xs, y :: ys => Alike P x y ∧ Alikes P xs ys
  | _, _ => False
end

mutual
/-- All matrices in a value, at any depth, are such that `NewMatrix` makes them. -/
def Made : Val → Prop
  | .num _ => True
  | .cplx _ _ => True
  | .vec l => Mades l
  | .mat s d => (Mat.mk s d).Ok ∧ Mades d

/-- The same for lists of values. -/
def Mades : List Val → Prop
  | [] => True
  | x :: xs => Made x ∧ Mades xs
end

mutual
/-- All real numbers and characters in a value satisfy `Q`. -/
def Leaves (Q : Num → Prop) : Val → Prop
  | .num n => Q n
  | .cplx _ _ => True
  | .vec l => Leavess Q l
  | .mat _ d => Leavess Q d

/-- The same for lists of values. -/
def Leavess (Q : Num → Prop) : List Val → Prop
  | [] => True
  | x :: xs => Leaves Q x ∧ Leavess Q xs
end

/-- A machine integer is at most 2^31 in absolute value, as `C09_canonical_partial` says of most operators. -/
def Int32 : Num → Prop
  | .int i => -(2 ^ 31) ≤ i ∧ i ≤ 2 ^ 31
  | _ => True

/-- A character is one of Unicode, as in a string constant (`value/char.go:70-79`). -/
def CharOk : Num → Prop
  | .char k => CodePoint k
  | _ => True

/-- An integer and the character of that code. -/
def IntChar (a b : Num) : Prop := ∃ k, CodePoint k ∧ a = .int k ∧ b = .char k

/-- A character and its code. -/
def CharInt (a b : Num) : Prop := ∃ k, CodePoint k ∧ a = .char k ∧ b = .int k

/-! ## Lemmas -/

theorem mapData_ok {α : Type} (S : Sched) (f : α → R α) (l t : List α) : mapData S f l = .ok t ↔ List.Forall₂ (fun a y => f a = .ok y) l t := by
  unfold mapData
  rw [pfor_map S 1 l.length (g := fun k => (vAt l k).bind fun a => f a) (fun i e _ => by rw [bind_assoc])]
  have : ∀ i x, ((vAt l i).bind fun a => f a) = .ok x ↔ ∃ a, l[i]? = some a ∧ f a = .ok x := by
    intro i x
    constructor
    · intro h
      obtain ⟨a, h1, h2⟩ := bind_eq_ok.mp h
      exact ⟨a, vAt_eq.mp h1, h2⟩
    · rintro ⟨a, h1, h2⟩
      rw [vAt_eq.mpr h1, bind_ok, h2]
  simp only [this]
  rw [List.forall₂_iff_get]
  constructor
  · rintro ⟨h1, h2⟩
    refine ⟨h1.symm, fun i hi hj => ?_⟩
    obtain ⟨a, ha, hf⟩ := h2 i t[i] (List.getElem?_eq_getElem hj)
    rw [List.getElem?_eq_getElem hi] at ha
    cases ha
    exact hf
  · rintro ⟨h1, h2⟩
    refine ⟨h1.symm, fun i x hx => ?_⟩
    obtain ⟨hj, rfl⟩ := List.getElem?_eq_some_iff.1 hx
    exact ⟨l[i], List.getElem?_eq_getElem (by omega), h2 i (by omega) hj⟩

theorem alikes_iff (P : Num → Num → Prop) : ∀ l m : List Val, Alikes P l m ↔ List.Forall₂ (Alike P) l m
  | [], [] => by simp [Alikes]
  | [], _ :: _ => by simp [Alikes]
  | _ :: _, [] => by simp [Alikes]
  | x :: xs, y :: ys => by simp [Alikes, alikes_iff P xs ys]

theorem mades_iff : ∀ l : List Val, Mades l ↔ ∀ x ∈ l, Made x
  | [] => by simp [Mades]
  | x :: xs => by simp [Mades, mades_iff xs]

theorem leavess_iff (Q : Num → Prop) : ∀ l : List Val, Leavess Q l ↔ ∀ x ∈ l, Leaves Q x
  | [] => by simp [Leavess]
  | x :: xs => by simp [Leavess, leavess_iff Q xs]

theorem forall₂_congr_mem {α : Type} {R S : α → α → Prop} : ∀ {l m : List α}, (∀ x ∈ l, ∀ y, R x y ↔ S x y) → (List.Forall₂ R l m ↔ List.Forall₂ S l m)
  | [], [], _ => by simp
  | [], _ :: _, _ => by simp
  | _ :: _, [], _ => by simp
  | x :: xs, y :: ys, h => by
    rw [List.forall₂_cons, List.forall₂_cons, h x (by simp), forall₂_congr_mem fun z hz => h z (by simp [hz])]

/-- An elementwise operator that is known on leaves is known on all values. -/
theorem un1_alike (c : Conf) (o : S1) (P : Num → Num → Prop) (Q : Num → Prop)
    (hn : ∀ n, Q n → ∀ w, ofRes (o.eval c.mb (.num n)) = .ok w ↔ ∃ b, w = .num b ∧ P n b)
    (hc : ∀ x w, ofRes (o.eval c.mb (.cx x)) ≠ .ok w) :
    ∀ (k : Nat) (v : Val), Made v → Leaves Q v → depth v ≤ k → ∀ w, un1 c o (k + 1) v = .ok w ↔ Alike P v w := by
  intro k
  induction k with
  | zero =>
    intro v hm hq hd w
    cases v with
    | num n =>
      rw [un1]
      simp only [toC]
      rw [hn n hq]
      cases w <;> simp [Alike]
    | cplx a b =>
      rw [un1]
      simp only [toC]
      constructor
      · intro h; exact absurd h (hc _ _)
      · intro h; cases w <;> simp [Alike] at h
    | vec l => simp [depth] at hd
    | mat s l => simp [depth] at hd
  | succ k ih =>
    intro v hm hq hd w
    cases v with
    | num n =>
      rw [un1]
      simp only [toC]
      rw [hn n hq]
      cases w <;> simp [Alike]
    | cplx a b =>
      rw [un1]
      simp only [toC]
      constructor
      · intro h; exact absurd h (hc _ _)
      · intro h; cases w <;> simp [Alike] at h
    | vec l =>
      have hd' : ∀ x ∈ l, depth x ≤ k := depths_le.1 (by simpa [depth] using hd)
      have hf : ∀ t, mapData c.S (un1 c o (k + 1)) l = .ok t ↔ Alikes P l t := by
        intro t
        rw [mapData_ok, alikes_iff]
        exact forall₂_congr_mem fun x hx y => ih x ((mades_iff l).1 hm x hx) ((leavess_iff Q l).1 hq x hx) (hd' x hx) y
      rw [un1]
      simp only [toC, toV, unaryElementwise, back, bind_eq_ok]
      constructor
      · rintro ⟨r, ⟨t, h1, h2⟩, h3⟩
        cases h2
        cases h3
        exact (hf t).1 h1
      · intro h
        cases w with
        | vec t => exact ⟨_, ⟨t, (hf t).2 h, rfl⟩, rfl⟩
        | num n => simp [Alike] at h
        | cplx a b => simp [Alike] at h
        | mat s t => simp [Alike] at h
    | mat s l =>
      have hd' : ∀ x ∈ l, depth x ≤ k := depths_le.1 (by simpa [depth] using hd)
      have hf : ∀ t, mapData c.S (un1 c o (k + 1)) l = .ok t ↔ Alikes P l t := by
        intro t
        rw [mapData_ok, alikes_iff]
        exact forall₂_congr_mem fun x hx y => ih x ((mades_iff l).1 hm.2 x hx) ((leavess_iff Q l).1 hq x hx) (hd' x hx) y
      have hlen : ∀ t, Alikes P l t → t.length = l.length := fun t h => ((alikes_iff P l t).1 h).length_eq.symm
      rw [un1]
      simp only [toC, toV, unaryElementwise, back, bind_eq_ok]
      constructor
      · rintro ⟨r, ⟨t, h1, m, h2, h4⟩, h3⟩
        cases h4
        cases h3
        have := (newMatrix_ok hm.1.rank).1 h2
        rw [this.1]
        exact ⟨rfl, (hf t).1 h1⟩
      · intro h
        cases w with
        | mat s' t =>
          obtain ⟨rfl, h⟩ := h
          refine ⟨_, ⟨t, (hf t).2 h, ⟨s, t⟩, newMatrix_fits hm.1.rank ?_ hm.1.fits, rfl⟩, rfl⟩
          rw [hlen t h]
          exact hm.1.len
        | num n => simp [Alike] at h
        | cplx a b => simp [Alike] at h
        | vec t => simp [Alike] at h

mutual
theorem alike_swap {P P' : Num → Num → Prop} (h : ∀ a b, P a b → P' b a) : ∀ v w : Val, Alike P v w → Alike P' w v
  | .num a, .num b, e => h a b e
  | .vec l, .vec m, e => alikes_swap h l m e
  | .mat s l, .mat t m, e => ⟨e.1.symm, alikes_swap h l m e.2⟩
  | .num _, .cplx _ _, e => e.elim
  | .num _, .vec _, e => e.elim
  | .num _, .mat _ _, e => e.elim
  | .cplx _ _, .num _, e => e.elim
  | .cplx _ _, .cplx _ _, e => e.elim
  | .cplx _ _, .vec _, e => e.elim
  | .cplx _ _, .mat _ _, e => e.elim
  | .vec _, .num _, e => e.elim
  | .vec _, .cplx _ _, e => e.elim
  | .vec _, .mat _ _, e => e.elim
  | .mat _ _, .num _, e => e.elim
  | .mat _ _, .cplx _ _, e => e.elim
  | .mat _ _, .vec _, e => e.elim

theorem alikes_swap {P P' : Num → Num → Prop} (h : ∀ a b, P a b → P' b a) : ∀ l m : List Val, Alikes P l m → Alikes P' m l
  | [], [], _ => trivial
  | x :: xs, y :: ys, e => ⟨alike_swap h x y e.1, alikes_swap h xs ys e.2⟩
  | [], _ :: _, e => e.elim
  | _ :: _, [], e => e.elim
end

mutual
theorem alike_keeps {P : Num → Num → Prop} {Q : Num → Prop} (h : ∀ a b, P a b → Q b) : ∀ v w : Val, Made v → Alike P v w → Made w ∧ Leaves Q w
  | .num a, .num b, _, e => ⟨trivial, h a b e⟩
  | .vec l, .vec m, hm, e => alikes_keeps h l m hm e
  | .mat s l, .mat t m, hm, e => by
    have hl := ((alikes_iff P l m).1 e.2).length_eq
    have := alikes_keeps h l m hm.2 e.2
    refine ⟨⟨⟨⟨?_, ?_⟩, ?_⟩, this.1⟩, this.2⟩
    · rw [← e.1]; exact hm.1.rank
    · rw [← e.1]; show m.length = vol s; rw [← hl]; exact hm.1.len
    · rw [← e.1]; exact hm.1.fits
  | .num _, .cplx _ _, _, e => e.elim
  | .num _, .vec _, _, e => e.elim
  | .num _, .mat _ _, _, e => e.elim
  | .cplx _ _, .num _, _, e => e.elim
  | .cplx _ _, .cplx _ _, _, e => e.elim
  | .cplx _ _, .vec _, _, e => e.elim
  | .cplx _ _, .mat _ _, _, e => e.elim
  | .vec _, .num _, _, e => e.elim
  | .vec _, .cplx _ _, _, e => e.elim
  | .vec _, .mat _ _, _, e => e.elim
  | .mat _ _, .num _, _, e => e.elim
  | .mat _ _, .cplx _ _, _, e => e.elim
  | .mat _ _, .vec _, _, e => e.elim

theorem alikes_keeps {P : Num → Num → Prop} {Q : Num → Prop} (h : ∀ a b, P a b → Q b) : ∀ l m : List Val, Mades l → Alikes P l m → Mades m ∧ Leavess Q m
  | [], [], _, _ => ⟨trivial, trivial⟩
  | x :: xs, y :: ys, hm, e =>
    have a := alike_keeps h x y hm.1 e.1
    have b := alikes_keeps h xs ys hm.2 e.2
    ⟨⟨a.1, b.1⟩, a.2, b.2⟩
  | [], _ :: _, _, e => e.elim
  | _ :: _, [], _, e => e.elim
end

theorem char_leaf (mb : Nat) (n : Num) (h : Int32 n) (w : Val) : ofRes (S1.char.eval mb (.num n)) = .ok w ↔ ∃ b, w = .num b ∧ IntChar n b := by
  cases n with
  | int i =>
    have h : -(2 ^ 31) ≤ i ∧ i ≤ 2 ^ 31 := h
    simp only [S1.eval, toChar]
    by_cases h31 : i = 2 ^ 31
    · subst h31
      rw [if_neg (by omega)]
      simp only [ofRes, IntChar, CodePoint]
      constructor
      · intro e; cases e
      · rintro ⟨b, -, k, hk, e, -⟩
        cases e
        omega
    · have : (i + 2 ^ 31) % 2 ^ 32 - 2 ^ 31 = i := by omega
      rw [this]
      split
      · rename_i hk
        constructor
        · intro e
          cases e
          exact ⟨_, rfl, i, by unfold CodePoint; omega, rfl, rfl⟩
        · rintro ⟨b, rfl, k, hk, e, rfl⟩
          cases e
          rfl
      · rename_i hk
        constructor
        · intro e; cases e
        · rintro ⟨b, -, k, h2, e, -⟩
          cases e
          unfold CodePoint at h2
          omega
  | char k => simp [S1.eval, ofRes, IntChar]
  | bigInt k => simp [S1.eval, ofRes, IntChar]
  | bigRat k => simp [S1.eval, ofRes, IntChar]

theorem code_leaf (mb : Nat) (n : Num) (h : CharOk n) (w : Val) : ofRes (S1.code.eval mb (.num n)) = .ok w ↔ ∃ b, w = .num b ∧ CharInt n b := by
  cases n with
  | char k =>
    have h : CodePoint k := h
    have hw : Num.wrap64 k = k := by
      unfold CodePoint at h
      exact wrap64_small (by omega) (by omega)
    simp only [S1.eval, ofRes, ofC, hw]
    constructor
    · intro e
      cases e
      exact ⟨_, rfl, k, h, rfl, rfl⟩
    · rintro ⟨b, rfl, k', -, e, rfl⟩
      cases e
      rfl
  | int k => simp [S1.eval, ofRes, CharInt]
  | bigInt k => simp [S1.eval, ofRes, CharInt]
  | bigRat k => simp [S1.eval, ofRes, CharInt]

/-! ## The property -/

/-- C54 for machine integers of 32 bits: `char` of a value of any structure gives the value of the same structure with the characters of these
codes, and gives nothing if an element is not the code of a character. Missing: machine integers beyond 2^31, see `C54_violated`. -/
theorem C54_char_partial (c : Conf) (v w : Val) (hm : Made v) (h : Leaves Int32 v) :
    F1.eval c (.s .char) v = .ok w ↔ Alike IntChar v w :=
  un1_alike c .char IntChar Int32 (fun n hn w => char_leaf c.mb n hn w) (fun x w e => by simp [S1.eval, ofRes] at e) (depth v) v hm h (Nat.le_refl _) w

/-- C54: `code` of a value of any structure gives the codes of its characters, and gives nothing if an element is not a character. -/
theorem C54_code (c : Conf) (v w : Val) (hm : Made v) (h : Leaves CharOk v) :
    F1.eval c (.s .code) v = .ok w ↔ Alike CharInt v w :=
  un1_alike c .code CharInt CharOk (fun n hn w => code_leaf c.mb n hn w) (fun x w e => by simp [S1.eval, ofRes] at e) (depth v) v hm h (Nat.le_refl _) w

/-- C54: each undoes the other. Missing in the first half: machine integers beyond 2^31, see `C54_violated`. -/
theorem C54_roundtrip_partial (c : Conf) (v w : Val) (hm : Made v) :
    (Leaves Int32 v → F1.eval c (.s .char) v = .ok w → F1.eval c (.s .code) w = .ok v) ∧
    (Leaves CharOk v → F1.eval c (.s .code) v = .ok w → F1.eval c (.s .char) w = .ok v) := by
  constructor
  · intro h e
    have a := (C54_char_partial c v w hm h).1 e
    have b := alike_keeps (Q := CharOk) (fun x y ⟨k, h1, _, h3⟩ => by rw [h3]; exact h1) v w hm a
    exact (C54_code c w v b.1 b.2).2 (alike_swap (fun x y ⟨k, h1, h2, h3⟩ => ⟨k, h1, h3, h2⟩) v w a)
  · intro h e
    have a := (C54_code c v w hm h).1 e
    have b := alike_keeps (Q := Int32) (fun x y ⟨k, h1, _, h3⟩ => by
      rw [h3]
      unfold CodePoint at h1
      show -(2 ^ 31) ≤ k ∧ k ≤ 2 ^ 31
      omega) v w hm a
    exact (C54_char_partial c w v b.1 b.2).2 (alike_swap (fun x y ⟨k, h1, h2, h3⟩ => ⟨k, h1, h3, h2⟩) v w a)

/-- C54: every character that `char` makes is one of Unicode, whatever the operand. -/
theorem C54_valid (c : Conf) (i : Int) (w : Val) (h : F1.eval c (.s .char) (.num (.int i)) = .ok w) : ∃ k, CodePoint k ∧ w = .num (.char k) := by
  have h : ofRes (toChar i) = .ok w := h
  unfold toChar at h
  extract_lets r at h
  split at h
  · rename_i hk
    cases h
    exact ⟨_, by unfold CodePoint; omega, rfl⟩
  · cases h

/-- What is wanted of all machine integers that expressions make: `char` gives the character of that code. -/
def C54_statement : Prop :=
  ∀ (c : Conf) (e : Num.Expr) (i : Int) (w : Val), e.eval 0 = .ok (.int i) → F1.eval c (.s .char) (.num (.int i)) = .ok w → w = .num (.char i)

/-- `64 | - 2147483647 | - -2147483647 - 1`, which is -4294967231 held as a machine integer. -/
def C54_witness : Num.Expr := .bin (.lit 64) .bor (.un .neg C08_witness)

/-- C54 fails: `char` of a negative number is `A`, since the conversion to a character takes the lower 32 bits. -/
theorem C54_violated : ¬ C54_statement := by
  intro h
  have h1 : C54_witness.eval 0 = .ok (.int (-4294967231)) := by decide +kernel
  have := h ⟨pforSched 4 1 (by decide) (by decide), 1000, 1, Order.stableLib, false⟩ C54_witness (-4294967231) (.num (.char 65)) h1 rfl
  revert this
  decide

/-- `char 72 (105 33)`. -/
example : Made (.vec [.num (.int 72), .vec [.num (.int 105), .num (.int 33)]]) ∧ Leaves Int32 (.vec [.num (.int 72), .vec [.num (.int 105), .num (.int 33)]]) := by
  simp [Made, Mades, Leaves, Leavess, Int32]
example : Alike IntChar (.vec [.num (.int 72), .vec [.num (.int 105), .num (.int 33)]]) (.vec [.num (.char 72), .vec [.num (.char 105), .num (.char 33)]]) := by
  refine ⟨⟨72, by decide, rfl, rfl⟩, ⟨⟨105, by decide, rfl, rfl⟩, ⟨33, by decide, rfl, rfl⟩, trivial⟩, trivial⟩
example : Leaves CharOk (.vec [.num (.char 72), .vec [.num (.char 105), .num (.char 33)]]) :=
  ⟨show CodePoint 72 by decide, ⟨show CodePoint 105 by decide, show CodePoint 33 by decide, trivial⟩, trivial⟩
/-- A surrogate is refused. -/
example : ∀ (c : Conf), F1.eval c (.s .char) (.num (.int 0xD800)) = .err "arithmetic" := fun _ => rfl

end Verif.Safe
