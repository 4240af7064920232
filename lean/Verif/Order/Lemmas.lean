import Verif.Order.Spec
import Verif.Num.Lemmas
import Mathlib.Tactic.Linarith
import Mathlib.Algebra.Order.Field.Rat

/-! # The comparison is a total preorder -/

namespace Verif.Order
open Verif.Num

theorem ratCmp_cast (a b : Int) : ratCmp (a : Rat) (b : Rat) = sgn2Int a b := by
  unfold ratCmp sgn2Int
  simp only [Int.cast_lt, Int.cast_inj]

theorem sgn2_key (p q : Bool) : (if Res.ok (toInt p) = .ok one then (-1 : Int) else if Res.ok (toInt q) = .ok one then 0 else 1) =
    if p then -1 else if q then 0 else 1 := by
  cases p <;> cases q <;> decide

theorem sgn2_num {u v : Num} (hu : u.isNum) (hv : v.isNum) : sgn2 u v = ratCmp u.val v.val := by
  cases u <;> cases v <;> first | exact hu.elim | exact hv.elim | exact (sgn2_key (decide _) (decide _)).trans (by simp [ratCmp, Num.val] <;> congr)

theorem cmpNum_num {u v : Num} (hu : u.isNum) (hv : v.isNum) : cmpNum u v = ratCmp u.val v.val := by
  by_cases h : u.ty = v.ty
  · cases u <;> cases v <;> first | exact hu.elim | exact hv.elim | (cases h; done) | skip
    · exact (ratCmp_cast _ _).symm
    · exact (ratCmp_cast _ _).symm
    · rfl
  · rw [← sgn2_num hu hv]
    cases u <;> cases v <;> first | exact hu.elim | exact hv.elim | (exact (h rfl).elim) | rfl

theorem isZero_num {u : Num} (hu : u.isNum) : isZero u = true ↔ u.val = 0 := by
  cases u <;> first | exact hu.elim | simp [isZero, Num.val]

/-- The kind of a value, in the order in which the comparison ranks kinds. -/
def kind : Val → Nat
  | .num (.char _) => 0
  | .num _ => 1
  | .cplx _ _ => 2
  | .vec _ => 3
  | .mat _ _ => 4

theorem cmp_kind_lt {u v : Val} (hu : u.Ok) (hv : v.Ok) (h : kind u < kind v) : cmp u v = -1 := by
  have hz : ∀ {im : Num}, im.isNum → im.val ≠ 0 → isReal im = false := fun a b => by
    cases hr : isReal _
    · rfl
    · exact (b ((isZero_num a).1 hr)).elim
  cases hu with
  | num n =>
    cases hv with
    | num m => cases n <;> cases m <;> first | rfl | (simp [kind] at h; done)
    | cplx a b c => cases n <;> first | rfl | (show (if isReal _ then _ else _) = _; rw [hz b c]; rfl)
    | vec a => cases n <;> rfl
    | mat a => cases n <;> rfl
  | cplx _ _ _ => cases hv <;> first | rfl | (simp [kind] at h; done) | skip
                  rename_i n; cases n <;> simp [kind] at h
  | vec _ => cases hv <;> first | rfl | (simp [kind] at h; done) | skip
             rename_i n; cases n <;> simp [kind] at h
  | mat _ => cases hv <;> first | rfl | (simp [kind] at h; done) | skip
             rename_i n; cases n <;> simp [kind] at h

theorem cmp_kind_gt {u v : Val} (hu : u.Ok) (hv : v.Ok) (h : kind v < kind u) : cmp u v = 1 := by
  have hz : ∀ {im : Num}, im.isNum → im.val ≠ 0 → isReal im = false := fun a b => by
    cases hr : isReal _
    · rfl
    · exact (b ((isZero_num a).1 hr)).elim
  cases hv with
  | num n =>
    cases hu with
    | num m => cases n <;> cases m <;> first | rfl | (simp [kind] at h; done)
    | cplx a b c => cases n <;> first | rfl | (show (if isReal _ then _ else _) = _; rw [hz b c]; rfl)
    | vec a => cases n <;> rfl
    | mat a => cases n <;> rfl
  | cplx _ _ _ => cases hu <;> first | rfl | (simp [kind] at h; done) | skip
                  rename_i n; cases n <;> simp [kind] at h
  | vec _ => cases hu <;> first | rfl | (simp [kind] at h; done) | skip
             rename_i n; cases n <;> simp [kind] at h
  | mat _ => cases hu <;> first | rfl | (simp [kind] at h; done) | skip
             rename_i n; cases n <;> simp [kind] at h

/-! ## Laws of a comparison -/

theorem sgn2Int_anti (a b : Int) : sgn2Int b a = - sgn2Int a b := by
  unfold sgn2Int; split <;> split <;> (try split) <;> (try split) <;> omega

theorem ratCmp_anti (a b : Rat) : ratCmp b a = - ratCmp a b := by
  rcases lt_trichotomy a b with h | h | h
  · simp [ratCmp, h, not_lt.2 h.le, h.ne']
  · simp [ratCmp, h]
  · simp [ratCmp, h, not_lt.2 h.le, h.ne']

theorem sgn2Int_le {a b : Int} : sgn2Int a b ≤ 0 ↔ a ≤ b := by
  unfold sgn2Int; split
  · omega
  · split <;> omega

theorem sgn2Int_zero {a b : Int} : sgn2Int a b = 0 ↔ a = b := by
  unfold sgn2Int; split
  · omega
  · split <;> omega

theorem ratCmp_le {a b : Rat} : ratCmp a b ≤ 0 ↔ a ≤ b := by
  rcases lt_trichotomy a b with h | h | h
  · simp [ratCmp, h, h.le]
  · simp [ratCmp, h]
  · simp [ratCmp, not_lt.2 h.le, h.ne', h]

theorem ratCmp_zero {a b : Rat} : ratCmp a b = 0 ↔ a = b := by
  rcases lt_trichotomy a b with h | h | h
  · simp [ratCmp, h, h.ne]
  · simp [ratCmp, h]
  · simp [ratCmp, not_lt.2 h.le, h.ne']

theorem ratCmp_neg {a b : Rat} : ratCmp a b = -1 ↔ a < b := by
  rcases lt_trichotomy a b with h | h | h
  · simp [ratCmp, h]
  · simp [ratCmp, h]
  · simp [ratCmp, not_lt.2 h.le, h.ne']

/-- The transitive law, in the form that composes: the outer comparison is also an equality only if both inner ones are. -/
def Tr (p q r : Int) : Prop := p ≤ 0 → q ≤ 0 → r ≤ 0 ∧ (r = 0 → p = 0 ∧ q = 0)

theorem sgn2Int_tr (a b c : Int) : Tr (sgn2Int a b) (sgn2Int b c) (sgn2Int a c) := by
  intro h1 h2
  rw [sgn2Int_le] at h1 h2
  rw [sgn2Int_le]; simp only [sgn2Int_zero]
  exact ⟨h1.trans h2, fun h => by omega⟩

theorem ratCmp_tr (a b c : Rat) : Tr (ratCmp a b) (ratCmp b c) (ratCmp a c) := by
  intro h1 h2
  rw [ratCmp_le] at h1 h2
  rw [ratCmp_le]; simp only [ratCmp_zero]
  exact ⟨h1.trans h2, fun h => by subst h; exact ⟨le_antisymm h1 h2, le_antisymm h2 h1⟩⟩

/-- Lexicographic comparison of pairs. -/
theorem lex_tr {p q r p' q' r' : Int} (h : Tr p q r) (h' : Tr p' q' r') :
    Tr (if p ≠ 0 then p else p') (if q ≠ 0 then q else q') (if r ≠ 0 then r else r') := by
  unfold Tr at *
  intro a b
  by_cases p0 : p = 0 <;> by_cases q0 : q = 0
  · rw [if_neg (by omega)] at a
    rw [if_neg (by omega)] at b
    have k := h (by omega) (by omega)
    have k' := h' a b
    by_cases r0 : r = 0
    · rw [if_neg (by omega), if_neg (by omega), if_neg (by omega)]; exact k'
    · rw [if_pos (by omega)]; exact ⟨k.1, fun e => (r0 e).elim⟩
  all_goals
    have k := h (by by_cases e : p = 0 <;> simp_all) (by by_cases e : q = 0 <;> simp_all)
    have r0 : r ≠ 0 := fun e => by have := k.2 e; omega
    rw [if_pos r0]; exact ⟨k.1, fun e => (r0 e).elim⟩

theorem lex_anti {p q p' q' : Int} (h : p' = -p) (h' : q' = -q) : (if p' ≠ 0 then p' else q') = -(if p ≠ 0 then p else q) := by
  subst h; subst h'
  split <;> split <;> omega

theorem cmpList_anti {l : List Val} (H : ∀ x ∈ l, ∀ y, y.Ok → cmp y x = - cmp x y) {m : List Val} (hm : AllOk m) :
    cmpList m l = - cmpList l m := by
  induction l generalizing m with
  | nil => cases m <;> rfl
  | cons x xs ih =>
    cases m with
    | nil => rfl
    | cons y ys =>
      exact lex_anti (H x (by simp) y (hm y (by simp))) (ih (fun z hz => H z (by simp [hz])) fun z hz => hm z (by simp [hz]))

theorem cmpNum_anti (u v : Num) : cmpNum v u = - cmpNum u v := by
  by_cases hu : u.isNum <;> by_cases hv : v.isNum
  · rw [cmpNum_num hu hv, cmpNum_num hv hu]; exact ratCmp_anti _ _
  · cases v <;> first | exact (hv trivial).elim | (cases u <;> first | exact hu.elim | rfl)
  · cases u <;> first | exact (hu trivial).elim | (cases v <;> first | exact hv.elim | rfl)
  · cases u <;> first | exact (hu trivial).elim | (cases v <;> first | exact (hv trivial).elim | exact sgn2Int_anti _ _)

theorem cmpNum_tr {u v w : Num} (h : (u.isNum ∧ v.isNum ∧ w.isNum) ∨ (¬ u.isNum ∧ ¬ v.isNum ∧ ¬ w.isNum)) :
    Tr (cmpNum u v) (cmpNum v w) (cmpNum u w) := by
  rcases h with ⟨a, b, c⟩ | ⟨a, b, c⟩
  · rw [cmpNum_num a b, cmpNum_num b c, cmpNum_num a c]; exact ratCmp_tr _ _ _
  · cases u <;> first | exact (a trivial).elim | (cases v <;> first | exact (b trivial).elim | (cases w <;> first | exact (c trivial).elim | exact sgn2Int_tr _ _ _))

theorem cmp_anti {u : Val} (hu : u.Ok) : ∀ {v : Val}, v.Ok → cmp v u = - cmp u v := by
  induction hu with
  | num n =>
    intro v hv
    rcases Nat.lt_trichotomy (kind (.num n)) (kind v) with h | h | h
    · rw [cmp_kind_lt (.num n) hv h, cmp_kind_gt hv (.num n) h]; rfl
    · cases hv <;> first | exact cmpNum_anti _ _ | (cases n <;> cases h)
    · rw [cmp_kind_gt (.num n) hv h, cmp_kind_lt hv (.num n) h]
  | cplx a b c =>
    intro v hv
    rcases Nat.lt_trichotomy (kind (.cplx _ _)) (kind v) with h | h | h
    · rw [cmp_kind_lt (.cplx a b c) hv h, cmp_kind_gt hv (.cplx a b c) h]; rfl
    · cases hv with
      | num n => cases n <;> cases h
      | cplx _ _ _ => exact lex_anti (cmpNum_anti _ _) (cmpNum_anti _ _)
      | vec _ => cases h
      | mat _ => cases h
    · rw [cmp_kind_gt (.cplx a b c) hv h, cmp_kind_lt hv (.cplx a b c) h]
  | vec a ih =>
    intro v hv
    rcases Nat.lt_trichotomy (kind (.vec _)) (kind v) with h | h | h
    · rw [cmp_kind_lt (.vec a) hv h, cmp_kind_gt hv (.vec a) h]; rfl
    · cases hv with
      | num n => cases n <;> cases h
      | cplx _ _ _ => cases h
      | vec hm =>
        show (if _ then _ else _) = -(if _ then _ else _)
        split <;> split
        · exact sgn2Int_anti _ _
        · omega
        · omega
        · exact cmpList_anti (fun x hx y hy => ih x hx hy) hm
      | mat _ => cases h
    · rw [cmp_kind_gt (.vec a) hv h, cmp_kind_lt hv (.vec a) h]
  | @mat s l a ih =>
    intro v hv
    rcases Nat.lt_trichotomy (kind (.mat s _)) (kind v) with h | h | h
    · rw [cmp_kind_lt (.mat a) hv h, cmp_kind_gt hv (.mat a) h]; rfl
    · cases hv with
      | num n => cases n <;> cases h
      | cplx _ _ _ => cases h
      | vec _ => cases h
      | mat hm =>
        show (if _ then _ else _) = -(if _ then _ else _)
        split <;> split
        · exact sgn2Int_anti _ _
        · omega
        · omega
        · exact cmpList_anti (fun x hx y hy => ih x hx hy) hm
    · rw [cmp_kind_gt (.mat a) hv h, cmp_kind_lt hv (.mat a) h]

theorem cmpList_tr {l : List Val} (H : ∀ x ∈ l, ∀ y z, y.Ok → z.Ok → Tr (cmp x y) (cmp y z) (cmp x z)) {m n : List Val}
    (hm : AllOk m) (hn : AllOk n) (e1 : l.length = m.length) (e2 : m.length = n.length) :
    Tr (cmpList l m) (cmpList m n) (cmpList l n) := by
  induction l generalizing m n with
  | nil =>
    cases m with
    | nil => cases n with
      | nil => exact fun _ _ => ⟨by decide, fun _ => ⟨rfl, rfl⟩⟩
      | cons _ _ => simp at e2
    | cons _ _ => simp at e1
  | cons x xs ih =>
    cases m with
    | nil => simp at e1
    | cons y ys => cases n with
      | nil => simp at e2
      | cons z zs =>
        exact lex_tr (H x (by simp) y z (hm y (by simp)) (hn z (by simp)))
          (ih (fun w hw => H w (by simp [hw])) (fun w hw => hm w (by simp [hw])) (fun w hw => hn w (by simp [hw]))
            (by simpa using e1) (by simpa using e2))

theorem block_tr {l m n : List Val} (h : l.length = m.length → m.length = n.length → Tr (cmpList l m) (cmpList m n) (cmpList l n)) :
    Tr (if l.length ≠ m.length then sgn2Int l.length m.length else cmpList l m)
      (if m.length ≠ n.length then sgn2Int m.length n.length else cmpList m n)
      (if l.length ≠ n.length then sgn2Int l.length n.length else cmpList l n) := by
  by_cases e1 : l.length = m.length <;> by_cases e2 : m.length = n.length
  · rw [if_neg (by simpa using e1), if_neg (by simpa using e2), if_neg (by omega)]; exact h e1 e2
  all_goals
    intro p q
    have t1 : l.length ≤ m.length := by
      by_contra hc
      rw [if_pos (by omega), sgn2Int_le] at p
      omega
    have t2 : m.length ≤ n.length := by
      by_contra hc
      rw [if_pos (by omega), sgn2Int_le] at q
      omega
    rw [if_pos (by omega), sgn2Int_le, sgn2Int_zero]
    exact ⟨by omega, fun hz => by omega⟩

theorem cmp_tr {u : Val} (hu : u.Ok) : ∀ (v w : Val), v.Ok → w.Ok → Tr (cmp u v) (cmp v w) (cmp u w) := by
  have main : ∀ {u : Val}, u.Ok → ∀ v w : Val, v.Ok → w.Ok →
      (kind u = kind v → kind v = kind w → Tr (cmp u v) (cmp v w) (cmp u w)) → Tr (cmp u v) (cmp v w) (cmp u w) := by
    intro u hu v w hv hw H
    by_cases h1 : kind v < kind u
    · rw [cmp_kind_gt hu hv h1]; exact fun h => by omega
    · by_cases h2 : kind w < kind v
      · rw [cmp_kind_gt hv hw h2]; exact fun _ h => by omega
      · by_cases h3 : kind u < kind w
        · rw [cmp_kind_lt hu hw h3]; exact fun _ _ => ⟨by omega, fun h => by omega⟩
        · exact H (by omega) (by omega)
  induction hu with
  | num n =>
    intro v w hv hw
    refine main (.num n) v w hv hw fun h1 h2 => ?_
    cases hv with
    | num m => cases hw with
      | num k =>
        refine cmpNum_tr ?_
        cases n <;> cases m <;> cases k <;> first | (simp [kind] at h1 h2; done) | simp [Num.isNum]
      | _ => cases m <;> simp [kind] at h2
    | _ => cases n <;> simp [kind] at h1
  | cplx a b c =>
    intro v w hv hw
    refine main (.cplx a b c) v w hv hw fun h1 h2 => ?_
    cases hv with
    | cplx a' b' c' => cases hw with
      | cplx a'' b'' c'' => exact lex_tr (cmpNum_tr (.inl ⟨a, a', a''⟩)) (cmpNum_tr (.inl ⟨b, b', b''⟩))
      | num n => cases n <;> simp [kind] at h2
      | _ => simp [kind] at h2
    | num n => cases n <;> simp [kind] at h1
    | _ => simp [kind] at h1
  | vec a ih =>
    intro v w hv hw
    refine main (.vec a) v w hv hw fun h1 h2 => ?_
    cases hv with
    | vec b => cases hw with
      | vec c => exact block_tr fun e1 e2 => cmpList_tr (fun x hx y z hy hz => ih x hx y z hy hz) b c e1 e2
      | num n => cases n <;> simp [kind] at h2
      | _ => simp [kind] at h2
    | num n => cases n <;> simp [kind] at h1
    | _ => simp [kind] at h1
  | mat a ih =>
    intro v w hv hw
    refine main (.mat a) v w hv hw fun h1 h2 => ?_
    cases hv with
    | mat b => cases hw with
      | mat c => exact block_tr fun e1 e2 => cmpList_tr (fun x hx y z hy hz => ih x hx y z hy hz) b c e1 e2
      | num n => cases n <;> simp [kind] at h2
      | _ => simp [kind] at h2
    | num n => cases n <;> simp [kind] at h1
    | _ => simp [kind] at h1

end Verif.Order
