import Verif.Order.Lemmas4

/-! # Properties C18 to C22 -/

namespace Verif.Order
open Verif.Num

/-! ## C18 -/

/-- C18, the property as stated: the comparison is reflexive, antisymmetric up to sign and transitive on all values. -/
def C18_statement : Prop :=
  (∀ u, cmp u u = 0) ∧ (∀ u v, cmp v u = - cmp u v) ∧ ∀ u v w, cmp u v ≤ 0 → cmp v w ≤ 0 → cmp u w ≤ 0

/-- C18 is violated: a complex number whose imaginary part is zero, which `sqrt` can return (`value/sqrt.go:43` does not
shrink its result), is put below 6 as a real number and above 1j1 as a complex number, while 6 is below 1j1. -/
theorem C18_violated : ¬ C18_statement := by
  intro h
  have := h.2.2 (.num (.int 6)) (.cplx (.int 1) (.int 1)) (.cplx (.int 5) (.int 0)) (by decide) (by decide)
  exact absurd this (by decide)

/-- C18, partial: the property holds on all values whose complex numbers are not real.  Missing: complex numbers with
an imaginary part of zero, for which it is false; floating-point numbers are not modelled. -/
theorem C18_preorder_partial {u v w : Val} (hu : u.Ok) (hv : v.Ok) (hw : w.Ok) :
    cmp u u = 0 ∧ cmp v u = - cmp u v ∧ (cmp u v ≤ 0 → cmp v w ≤ 0 → cmp u w ≤ 0) :=
  ⟨cmp_refl hu, cmp_anti hu hv, cmp_le_trans hu hv hw⟩

/-- C18: the comparison yields -1, 0 or 1 exactly as the documented order says. -/
theorem C18_meaning {u v : Val} (hu : u.Ok) (hv : v.Ok) :
    (cmp u v = 0 ↔ SameData u v) ∧ (cmp u v = -1 ↔ Below u v) ∧ (cmp u v = 1 ↔ Below v u) := by
  refine ⟨(cmp_meaning hu hv).1, (cmp_meaning hu hv).2, ?_⟩
  rw [← (cmp_meaning hv hu).2, cmp_anti hu hv]
  omega

/-- C18: of any two values exactly one of "below", "the same", "above" holds. -/
theorem C18_total {u v : Val} (hu : u.Ok) (hv : v.Ok) :
    (Below u v ∧ ¬ SameData u v ∧ ¬ Below v u) ∨ (SameData u v ∧ ¬ Below u v ∧ ¬ Below v u) ∨
    (Below v u ∧ ¬ SameData u v ∧ ¬ Below u v) := by
  obtain ⟨h0, h1, h2⟩ := C18_meaning hu hv
  have range : cmp u v = 0 ∨ cmp u v = -1 ∨ cmp u v = 1 := by
    have sg : ∀ a b : Int, sgn2Int a b = 0 ∨ sgn2Int a b = -1 ∨ sgn2Int a b = 1 := by
      intro a b; unfold sgn2Int; split
      · simp
      · split <;> simp
    have rg : ∀ a b : Rat, ratCmp a b = 0 ∨ ratCmp a b = -1 ∨ ratCmp a b = 1 := by
      intro a b; unfold ratCmp; split
      · simp
      · split <;> simp
    have nm : ∀ a b : Num, cmpNum a b = 0 ∨ cmpNum a b = -1 ∨ cmpNum a b = 1 := by
      intro a b
      rcases num_cases a with ha | ⟨c, rfl⟩ <;> rcases num_cases b with hb | ⟨d, rfl⟩
      · rw [cmpNum_num ha hb]; exact rg _ _
      · cases a <;> first | exact ha.elim | exact .inr (.inr rfl)
      · cases b <;> first | exact hb.elim | exact .inr (.inl rfl)
      · exact sg _ _
    have ls : ∀ {l : List Val}, (∀ x ∈ l, ∀ {y : Val}, y.Ok → cmp x y = 0 ∨ cmp x y = -1 ∨ cmp x y = 1) → ∀ {m : List Val}, AllOk m →
        cmpList l m = 0 ∨ cmpList l m = -1 ∨ cmpList l m = 1 := by
      intro l
      induction l with
      | nil => intro _ m _; cases m <;> exact .inl rfl
      | cons x xs ih =>
        intro H m hm
        cases m with
        | nil => exact .inl rfl
        | cons y ys =>
          rw [cmpList]
          split
          · exact H x (by simp) (hm y (by simp))
          · exact ih (fun z hz => H z (by simp [hz])) fun z hz => hm z (by simp [hz])
    have gen : ∀ {u : Val}, u.Ok → ∀ {v : Val}, v.Ok → cmp u v = 0 ∨ cmp u v = -1 ∨ cmp u v = 1 := by
      intro u hu
      induction hu with
      | num n =>
        intro v hv
        rcases Nat.lt_trichotomy (kind (.num n)) (kind v) with h | h | h
        · exact .inr (.inl (cmp_kind_lt (.num n) hv h))
        · cases hv <;> first | exact nm _ _ | (cases n <;> cases h)
        · exact .inr (.inr (cmp_kind_gt (.num n) hv h))
      | cplx a b c =>
        intro v hv
        rcases Nat.lt_trichotomy (kind (.cplx _ _)) (kind v) with h | h | h
        · exact .inr (.inl (cmp_kind_lt (.cplx a b c) hv h))
        · cases hv with
          | num n => cases n <;> cases h
          | cplx _ _ _ => rw [cmp]; split <;> exact nm _ _
          | vec _ => cases h
          | mat _ => cases h
        · exact .inr (.inr (cmp_kind_gt (.cplx a b c) hv h))
      | vec a ih =>
        intro v hv
        rcases Nat.lt_trichotomy (kind (.vec _)) (kind v) with h | h | h
        · exact .inr (.inl (cmp_kind_lt (.vec a) hv h))
        · cases hv with
          | num n => cases n <;> cases h
          | cplx _ _ _ => cases h
          | vec b => rw [cmp]; split
                     · exact sg _ _
                     · exact ls (fun x hx _ hy => ih x hx hy) b
          | mat _ => cases h
        · exact .inr (.inr (cmp_kind_gt (.vec a) hv h))
      | @mat s l a ih =>
        intro v hv
        rcases Nat.lt_trichotomy (kind (.mat s l)) (kind v) with h | h | h
        · exact .inr (.inl (cmp_kind_lt (.mat a) hv h))
        · cases hv with
          | num n => cases n <;> cases h
          | cplx _ _ _ => cases h
          | vec _ => cases h
          | mat b => rw [cmp]; split
                     · exact sg _ _
                     · exact ls (fun x hx _ hy => ih x hx hy) b
        · exact .inr (.inr (cmp_kind_gt (.mat a) hv h))
    exact gen hu hv
  rw [← h0, ← h1, ← h2]
  omega

/-- C18: real numbers are ordered by numerical value, whatever their representations. -/
theorem C18_numbers {a b : Num} (ha : a.isNum) (hb : b.isNum) :
    (cmp (.num a) (.num b) = -1 ↔ a.val < b.val) ∧ (cmp (.num a) (.num b) = 0 ↔ a.val = b.val) ∧
    (cmp (.num a) (.num b) = 1 ↔ b.val < a.val) := by
  have h1 : cmp (.num a) (.num b) = ratCmp a.val b.val := by rw [cmp, cmpNum_num ha hb]
  have h2 : cmp (.num b) (.num a) = ratCmp b.val a.val := by rw [cmp, cmpNum_num hb ha]
  refine ⟨by rw [h1, ratCmp_neg], by rw [h1, ratCmp_zero], ?_⟩
  rw [← ratCmp_neg, ← h2, cmp_anti (.num a) (.num b)]
  omega

example : Val.Ok (.vec [.num (.char 97), .cplx (.int 1) (.bigRat (1 / 2)), .mat [1, 2] [.num (.int 3), .num (.int 4)]]) :=
  .vec fun x hx => by
    simp only [List.mem_cons, List.not_mem_nil, or_false] at hx
    rcases hx with rfl | rfl | rfl
    · exact .num _
    · exact .cplx trivial trivial (by decide +kernel)
    · exact .mat fun y hy => by
        simp only [List.mem_cons, List.not_mem_nil, or_false] at hy
        rcases hy with rfl | rfl <;> exact .num _

example : cmp (.num (.bigRat (1 / 2))) (.num (.int 1)) = -1 ∧ cmp (.num (.int 1)) (.cplx (.int 0) (.int 1)) = -1 ∧
    cmp (.vec [.num (.int 1), .num (.int 2)]) (.vec [.num (.int 1), .num (.int 1)]) = 1 := by decide +kernel

/-! ## C19 -/

/-- C19, the property as stated: `===` yields 1 exactly on values of the same shape with the same elements. -/
def C19_statement : Prop := ∀ u v : Val, u.Ok → v.Ok → ((equal u v = .num one ↔ Same u v) ∧ (equal u v = .num zero ↔ ¬ Same u v))

/-- C19 is violated: a 2 by 3 matrix matches the 3 by 2 matrix with the same elements. -/
theorem C19_violated : ¬ C19_statement := by
  intro h
  have ok : ∀ s, Val.Ok (.mat s [.num (.int 1), .num (.int 2), .num (.int 3), .num (.int 4), .num (.int 5), .num (.int 6)]) :=
    fun s => .mat fun x hx => by
      simp only [List.mem_cons, List.not_mem_nil, or_false] at hx
      rcases hx with rfl | rfl | rfl | rfl | rfl | rfl <;> exact .num _
  have := (h _ _ (ok [2, 3]) (ok [3, 2])).1.1 (by decide)
  cases this

/-- C19: what `===` and `!==` decide, for all values: equality of the elements in order, matrices compared as lists. -/
theorem C19_match_data {u v : Val} (hu : u.Ok) (hv : v.Ok) :
    (SameData u v → equal u v = .num one ∧ notEqual u v = .num zero) ∧
    (¬ SameData u v → equal u v = .num zero ∧ notEqual u v = .num one) := by
  have h := (cmp_meaning hu hv).1
  unfold equal notEqual
  constructor
  · intro s; rw [h.2 s]; exact ⟨rfl, rfl⟩
  · intro s
    have : cmp u v ≠ 0 := fun e => s (h.1 e)
    have h1 : (cmp u v == 0) = false := by simpa using this
    have h2 : (cmp u v != 0) = true := by simpa using this
    rw [h1, h2]; exact ⟨rfl, rfl⟩

/-- C19, partial: the property holds when no matrix occurs in the first operand.  Missing: matrices, whose shapes are
not compared. -/
theorem C19_match_partial {u v : Val} (hu : u.Ok) (hv : v.Ok) (hm : u.NoMat) :
    (equal u v = .num one ↔ Same u v) ∧ (equal u v = .num zero ↔ ¬ Same u v) := by
  have key : ∀ {u : Val}, u.NoMat → ∀ {v : Val}, SameData u v ↔ Same u v := by
    intro u hu
    induction hu with
    | num n =>
      intro v
      constructor
      · intro h; cases h with
        | char c => exact .char c
        | num a b c => exact .num a b c
      · intro h; cases h with
        | char c => exact .char c
        | num a b c => exact .num a b c
    | cplx a b =>
      intro v
      constructor
      · intro h; cases h with | cplx a b => exact .cplx a b
      · intro h; cases h with | cplx a b => exact .cplx a b
    | vec h ih =>
      intro v
      constructor
      · intro h; cases h with | vec a b => exact .vec a fun i x y => (ih _ (List.getElem_mem x)).1 (b i x y)
      · intro h; cases h with | vec a b => exact .vec a fun i x y => (ih _ (List.getElem_mem x)).2 (b i x y)
  obtain ⟨h1, h2⟩ := C19_match_data hu hv
  rw [← key hm]
  by_cases s : SameData u v
  · rw [(h1 s).1]
    exact ⟨⟨fun _ => s, fun _ => rfl⟩, ⟨fun e => (by cases e), fun e => (e s).elim⟩⟩
  · rw [(h2 s).1]
    exact ⟨⟨fun e => (by cases e), fun e => (s e).elim⟩, ⟨fun _ => s, fun _ => rfl⟩⟩

example : equal (.vec [.num (.int 1), .vec [.num (.char 97)]]) (.vec [.num (.bigRat 1), .vec [.num (.char 97)]]) = .num one := by rfl

example : Val.NoMat (.vec [.num (.int 1), .vec [.num (.char 97)]]) :=
  .vec fun x hx => by
    simp only [List.mem_cons, List.not_mem_nil, or_false] at hx
    rcases hx with rfl | rfl
    · exact .num _
    · exact .vec fun y hy => by
        simp only [List.mem_cons, List.not_mem_nil, or_false] at hy
        subst hy; exact .num _

/-! ## C20 -/

/-- C20: the result of `in` has an element for each element of the left operand, 1 if some element of the right operand
is the same as it and 0 if none is. -/
theorem C20_membership (lib : SortLib) {u v : List Val} (hu : AllOk u) (hv : AllOk v) :
    (membership lib u v).length = u.length ∧
    ∀ i (h : i < u.length) (h' : i < (membership lib u v).length),
      ((∃ y ∈ v, SameData y u[i]) → (membership lib u v)[i] = one) ∧
      ((¬ ∃ y ∈ v, SameData y u[i]) → (membership lib u v)[i] = zero) := by
  refine ⟨by simp [membership], fun i h h' => ?_⟩
  have key := contains_sortedCopy lib hv (hu _ (List.getElem_mem h))
  simp only [membership, List.getElem_map]
  constructor
  · intro hy; rw [key.2 hy]; rfl
  · intro hn
    have : contains (sortedCopy lib v) u[i] = false := by
      rw [← Bool.not_eq_true]; exact fun e => hn (key.1 e)
    rw [this]; rfl

/-- Where an element occurs first in a list, counted from the origin; one less than the origin if nowhere. -/
def FirstIndex (origin : Int) (A : List Val) (b : Val) (i : Int) : Prop :=
  (∃ k, ∃ (h : k < A.length), i = k + origin ∧ SameData A[k] b ∧ ∀ j (hj : j < k), ¬ SameData (A[j]'(by omega)) b) ∨
  (i = origin - 1 ∧ ∀ a ∈ A, ¬ SameData a b)

/-- C20: the result of binary `iota` has, for each element of the right operand, the first index at which it occurs in
the left operand, or one less than the origin. -/
theorem C20_index_of (lib : SortLib) (origin : Int) {A B : List Val} (hA : AllOk A) (hB : AllOk B) :
    (indexOf lib origin A B).length = B.length ∧
    ∀ i (h : i < B.length) (h' : i < (indexOf lib origin A B).length), FirstIndex origin A B[i] (indexOf lib origin A B)[i] := by
  refine ⟨by simp [indexOf], fun i h h' => ?_⟩
  have hb := hB _ (List.getElem_mem h)
  simp only [indexOf, List.getElem_map]
  rcases findIndex_spec lib origin hA hb with ⟨k, hk, e1, e2, e3⟩ | ⟨e1, e2⟩
  · exact .inl ⟨k, hk, e1, (cmp_meaning (hA _ (List.getElem_mem hk)) hb).1.1 e2, fun j hj s =>
      e3 j hj ((cmp_meaning (hA _ (List.getElem_mem _)) hb).1.2 s)⟩
  · exact .inr ⟨e1, fun a ha s => e2 a ha ((cmp_meaning (hA a ha) hb).1.2 s)⟩

/-- C20 for matrices: binary `iota` finds the first row of the left operand that has the same elements as each piece of
the right operand. -/
theorem C20_index_of_rows (origin : Int) {rows n : Nat} {A B : List Val} (hn : 0 < n) (hr : 0 < rows) (hA : AllOk A) (hB : AllOk B)
    (hlen : A.length = rows * n) :
    (indexOfRows origin rows A B).length = B.length / n ∧
    ∀ i (h : i < B.length / n) (h' : i < (indexOfRows origin rows A B).length),
      FirstIndex origin ((List.range rows).map fun k => .vec (row A n k)) (.vec (row B n i)) (indexOfRows origin rows A B)[i] := by
  have hdiv : A.length / rows = n := by rw [hlen, Nat.mul_div_cancel_left n hr]
  have alleq : ∀ (m i j : Nat), i + m ≤ A.length → j + m ≤ B.length →
      (allEqual A i B j m = true ↔ cmpList ((A.drop i).take m) ((B.drop j).take m) = 0) := by
    intro m
    induction m with
    | zero => intro i j _ _; simp [allEqual, cmpList]
    | succ m ih =>
      intro i j hi hj
      have h1 : i < A.length := by omega
      have h2 : j < B.length := by omega
      rw [drop_cons h1, drop_cons h2, List.take_succ_cons, List.take_succ_cons, cmpList, lex_zero, allEqual,
        List.getElem?_eq_getElem h1, List.getElem?_eq_getElem h2, ← ih (i + 1) (j + 1) (by omega) (by omega)]
      simp only
      split <;> simp_all
  have rowlen : ∀ i, i < B.length / n → i * n + n ≤ B.length := by
    intro i hi
    have := Nat.div_mul_le_self B.length n
    have : (i + 1) * n ≤ B.length / n * n := Nat.mul_le_mul_right _ hi
    rw [Nat.add_mul] at this; omega
  have rowlenA : ∀ k, k < rows → k * n + n ≤ A.length := by
    intro k hk
    have : (k + 1) * n ≤ rows * n := Nat.mul_le_mul_right _ hk
    rw [Nat.add_mul] at this; omega
  have same : ∀ k i, k < rows → i < B.length / n → (allEqual A (k * n) B (i * n) n = true ↔ SameData (.vec (row A n k)) (.vec (row B n i))) := by
    intro k i hk hi
    rw [alleq n _ _ (rowlenA k hk) (rowlen i hi), ← (cmp_meaning (row_ok hA n k) (row_ok hB n i)).1, cmp]
    have l1 : (row A n k).length = n := row_length hlen hk
    have l2 : (row B n i).length = n := by have := rowlen i hi; rw [row, List.length_take, List.length_drop]; omega
    rw [l1, l2, if_neg (by simp)]; rfl
  have loop : ∀ (left k i : Nat), k + left = rows → i < B.length / n →
      (∀ j < k, ¬ SameData (.vec (row A n j)) (.vec (row B n i))) →
      FirstIndex origin ((List.range rows).map fun k => .vec (row A n k)) (.vec (row B n i)) (findRow origin A B (i * n) n k left) := by
    intro left
    induction left with
    | zero =>
      intro k i hk hi hno
      refine .inr ⟨rfl, fun a ha => ?_⟩
      obtain ⟨j, hj, rfl⟩ := List.mem_map.1 ha
      exact hno j (by rw [List.mem_range] at hj; omega)
    | succ left ih =>
      intro k i hk hi hno
      rw [findRow]
      split
      · rename_i he
        refine .inl ⟨k, by rw [List.length_map, List.length_range]; omega, rfl, ?_, fun j hj => ?_⟩
        · rw [List.getElem_map, List.getElem_range]; exact (same k i (by omega) hi).1 he
        · rw [List.getElem_map, List.getElem_range]; exact hno j hj
      · rename_i he
        refine ih (k + 1) i (by omega) hi fun j hj => ?_
        rcases Nat.lt_succ_iff_lt_or_eq.1 hj with h | rfl
        · exact hno j h
        · exact fun s => he ((same j i (by omega) hi).2 s)
  unfold indexOfRows
  rw [hdiv]
  refine ⟨by simp, fun i h h' => ?_⟩
  simp only [List.getElem_map, List.getElem_range]
  exact loop rows 0 i (by omega) h (fun j hj => by omega)

example : membership reversingLib [.num (.int 1), .num (.char 97), .num (.bigRat (1 / 2))] [.num (.bigInt 1), .num (.int 7), .num (.int 1)] =
    [one, zero, zero] := by decide +kernel

example : indexOf stableLib 1 [.num (.int 5), .num (.int 3), .num (.int 5), .num (.int 3)] [.num (.int 3), .num (.int 5), .num (.int 9)] = [2, 1, 0] := by
  decide +kernel

example : indexOfRows 1 2 [.num (.int 5), .num (.int 3), .num (.int 5), .num (.int 4)] [.num (.int 5), .num (.int 4), .num (.int 0), .num (.int 0)] = [2, 0] := by
  decide +kernel

/-! ## C21 -/

/-- The list `idx` of positions lists the elements of `v` in non-decreasing order, equal elements in their original
order. -/
def Graded (v : List Val) (idx : List Nat) : Prop :=
  idx.Perm (List.range v.length) ∧
  idx.Pairwise fun i j => ∃ x y, v[i]? = some x ∧ v[j]? = some y ∧ (Below x y ∨ SameData x y ∧ i < j)

/-- C21: `up v` is a permutation of the indexes of `v` that lists its elements in order, equal ones in their original
order; `down v` is the same list reversed. -/
theorem C21_grade (lib : SortLib) (origin : Int) {v : List Val} (hv : AllOk v) :
    ∃ idx : List Nat, Graded v idx ∧ grade lib origin v = idx.map (fun (i : Nat) => (i : Int) + origin) ∧
      down lib origin v = idx.reverse.map (fun (i : Nat) => (i : Int) + origin) := by
  refine ⟨lib.stable (lessAt v) (List.range v.length), ⟨lib.stable_perm _ _, ?_⟩, rfl, by rw [down, grade, List.map_reverse]⟩
  have hin : ∀ i ∈ List.range v.length, i < v.length := fun i hi => List.mem_range.1 hi
  have h := stable_pairwise lib (lessAt_laws hv hin) (List.pairwise_lt_range (n := v.length))
  refine h.imp_of_mem fun {i j} hi hj hij => ?_
  have hi := hin i ((lib.stable_perm _ _).mem_iff.1 hi)
  have hj := hin j ((lib.stable_perm _ _).mem_iff.1 hj)
  have oi := hv _ (List.getElem_mem hi)
  have oj := hv _ (List.getElem_mem hj)
  refine ⟨v[i], v[j], List.getElem?_eq_getElem hi, List.getElem?_eq_getElem hj, ?_⟩
  rw [lessAt_eq hi hj, lessAt_eq hj hi] at hij
  have an := cmp_anti oi oj
  rcases hij with h | ⟨h1, h2, h3⟩
  · refine .inl ?_
    rcases C18_total oi oj with h' | h' | h'
    · exact h'.1
    · have := (cmp_meaning oi oj).1.2 h'.1
      simp only [decide_eq_true_eq] at h; omega
    · have := (C18_meaning oi oj).2.2.2 h'.1
      simp only [decide_eq_true_eq] at h; omega
  · refine .inr ⟨(cmp_meaning oi oj).1.1 ?_, h3⟩
    simp only [decide_eq_false_iff_not] at h1 h2
    omega

/-- C21: indexing `v` by `up v` yields the elements of `v` in non-decreasing order. -/
theorem C21_sorts (lib : SortLib) (origin : Int) {v : List Val} (hv : AllOk v) :
    ∃ w : List Val, w.Perm v ∧ w.Pairwise (fun x y => ¬ Below y x) ∧
      (grade lib origin v).map (fun i => v[(i - origin).toNat]?) = w.map some := by
  obtain ⟨idx, ⟨h1, h2⟩, h3, h4⟩ := C21_grade lib origin hv
  have hin : ∀ i ∈ idx, i < v.length := fun i hi => List.mem_range.1 (h1.mem_iff.1 hi)
  refine ⟨idx.filterMap (v[·]?), ?_, ?_, ?_⟩
  · refine (h1.filterMap (v[·]?)).trans ?_
    have : (List.range v.length).filterMap (v[·]?) = v := by
      have gen : ∀ (l m : List Val), (List.range' m.length l.length).filterMap ((m ++ l)[·]?) = l := by
        intro l
        induction l with
        | nil => intro m; simp
        | cons x xs ih =>
          intro m
          have := ih (m ++ [x])
          rw [List.length_append, List.append_assoc] at this
          rw [List.length_cons, List.range'_succ, List.filterMap_cons, List.getElem?_append_right (Nat.le_refl _)]
          simpa using this
      simpa [List.range_eq_range'] using gen v []
    rw [this]
  · rw [List.pairwise_filterMap]
    refine h2.imp_of_mem fun {i j} hi hj hij => ?_
    intro x hx y hy
    obtain ⟨x', y', e1, e2, h⟩ := hij
    rw [e1] at hx; rw [e2] at hy
    cases hx; cases hy
    have oi : x.Ok := hv _ (List.mem_of_getElem? e1)
    have oj : y.Ok := hv _ (List.mem_of_getElem? e2)
    rcases C18_total oi oj with h' | h' | h'
    · exact h'.2.2
    · exact h'.2.2
    · rcases h with h | ⟨h, _⟩
      · exact (h'.2.2 h).elim
      · exact (h'.2.1 h).elim
  · rw [h3, List.map_map]
    clear h1 h2 h3 h4
    induction idx with
    | nil => rfl
    | cons i idx ih =>
      have hi := hin i (by simp)
      have e : ((i : Int) + origin - origin).toNat = i := by omega
      rw [List.map_cons, List.filterMap_cons, Function.comp_apply, e, List.getElem?_eq_getElem hi, ih fun j hj => hin j (by simp [hj])]
      rfl

/-- C21 for matrices: `up m` is a permutation of the indexes of the rows of `m` that lists the rows in non-decreasing
order.  (Equal rows may come in any order: `Matrix.grade` uses `sort.Slice`.) -/
theorem C21_grade_rows (lib : SortLib) (origin : Int) {rows n : Nat} {data : List Val} (hd : AllOk data)
    (hlen : data.length = (rows + 1) * n) :
    ∃ idx : List Nat, idx.Perm (List.range (rows + 1)) ∧ gradeRows lib origin rows data = idx.map (fun (i : Nat) => (i : Int) + origin) ∧
      idx.Pairwise fun i j => ¬ Below (.vec (row data n j)) (.vec (row data n i)) := by
  have hdiv : data.length / (rows + 1) = n := by rw [hlen, Nat.mul_div_cancel_left n (by omega)]
  unfold gradeRows
  rw [hdiv]
  refine ⟨_, lib.slice_perm _ _, rfl, ?_⟩
  have hin : ∀ i ∈ List.range (rows + 1), i < rows + 1 := fun i hi => List.mem_range.1 hi
  have bound : ∀ i, i < rows + 1 → i * n + n ≤ data.length := by
    intro i hi
    have : (i + 1) * n ≤ (rows + 1) * n := Nat.mul_le_mul_right _ hi
    rw [Nat.add_mul, Nat.one_mul] at this; omega
  have less : ∀ i j, i < rows + 1 → j < rows + 1 → (lessRowAt data (i * n) (j * n) n = true ↔
      cmp (.vec (row data n i)) (.vec (row data n j)) < 0) := by
    intro i j hi hj
    rw [lessRowAt_eq (bound i hi) (bound j hj), cmp_row hlen hi hj, decide_eq_true_eq]; rfl
  have hw : StrictWeakOn (fun i j => lessRowAt data (i * n) (j * n) n) (List.range (rows + 1)) := by
    have laws : Laws (fun i j => cmp (.vec (row data n i)) (.vec (row data n j))) (List.range (rows + 1)) :=
      ⟨fun a _ b _ => cmp_anti (row_ok hd n a) (row_ok hd n b),
        fun a _ b _ c _ => cmp_tr (row_ok hd n a) _ _ (row_ok hd n b) (row_ok hd n c)⟩
    have sw := laws.strictWeak (less := fun i j => decide (cmp (.vec (row data n i)) (.vec (row data n j)) < 0)) (fun a b => by simp)
    have eq : ∀ i ∈ List.range (rows + 1), ∀ j ∈ List.range (rows + 1), lessRowAt data (i * n) (j * n) n =
        decide (cmp (.vec (row data n i)) (.vec (row data n j)) < 0) := by
      intro i hi j hj
      rw [Bool.eq_iff_iff, less i j (hin i hi) (hin j hj), decide_eq_true_eq]
    constructor
    · intro a ha; rw [eq a ha a ha]; exact sw.irrefl a ha
    · intro a ha b hb c hc; rw [eq a ha b hb, eq b hb c hc, eq a ha c hc]; exact sw.trans a ha b hb c hc
    · intro a ha b hb c hc
      rw [eq a ha b hb, eq b hb c hc, eq a ha c hc, eq b hb a ha, eq c hc b hb, eq c hc a ha]; exact sw.tie a ha b hb c hc
  refine (lib.slice_sorted _ _ hw).imp_of_mem fun {i j} hi hj h => ?_
  have hi := hin i ((lib.slice_perm _ _).mem_iff.1 hi)
  have hj := hin j ((lib.slice_perm _ _).mem_iff.1 hj)
  intro hb
  have := (cmp_meaning (row_ok hd n j) (row_ok hd n i)).2.2 hb
  have h' := (less j i hj hi).2 (by omega)
  rw [h] at h'; cases h'

example : grade stableLib 1 [.num (.int 5), .num (.char 120), .num (.int 3), .num (.bigRat (9 / 2)), .num (.int 3)] = [2, 3, 5, 4, 1] ∧
    down stableLib 0 [.num (.int 5), .num (.int 3), .num (.int 3)] = [0, 2, 1] := by decide +kernel

example : gradeRows stableLib 1 2 [.num (.int 5), .num (.int 1), .num (.int 3), .num (.int 9), .num (.int 3), .num (.int 2)] = [3, 2, 1] := by
  decide +kernel

/-! ## C22 -/

/-- The elements of `v` at which nothing the same comes before, in their order. -/
def FirstOccurrences (v out : List Val) : Prop :=
  ∃ idx : List Nat, idx.Pairwise (· < ·) ∧ out.map some = idx.map (v[·]?) ∧
    ∀ k, k ∈ idx ↔ ∃ (h : k < v.length), ∀ j (hj : j < k), ¬ SameData (v[j]'(by omega)) v[k]

/-- C22, the property as stated for `unique`. -/
def C22_unique_statement : Prop := ∀ (lib : SortLib) (v : List Val), AllOk v → FirstOccurrences v (uniqueVec lib v)

/-- C22 is violated for `unique`: the code relies on `sort.Slice` keeping equal elements in order, which that function
does not promise.  With a sort that reverses equal elements, `unique 1 2 1` is `2 1`. -/
theorem C22_unique_violated : ¬ C22_unique_statement := by
  intro h
  obtain ⟨idx, h1, h2, h3⟩ := h reversingLib [.num (.int 1), .num (.int 2), .num (.int 1)] (fun x hx => by
    simp only [List.mem_cons, List.not_mem_nil, or_false] at hx
    rcases hx with rfl | rfl | rfl <;> exact .num _)
  have e : uniqueVec reversingLib [.num (.int 1), .num (.int 2), .num (.int 1)] = [.num (.int 2), .num (.int 1)] := by rfl
  rw [e] at h2
  have h0 : 0 ∈ idx := (h3 0).2 ⟨by simp, fun j hj => by omega⟩
  cases idx with
  | nil => cases h0
  | cons a t =>
    have ha : a = 0 := by
      rcases List.mem_cons.1 h0 with e | h0
      · exact e.symm
      · have := (List.pairwise_cons.1 h1).1 0 h0; omega
    subst ha
    simp at h2

/-- C22, partial, for `unique`: the result is a sublist of the operand in which no two elements are the same and which
has one for each element of the operand.  Missing: that it is the first of several that is kept, which is false. -/
theorem C22_unique_partial (lib : SortLib) {v : List Val} (hv : AllOk v) :
    (uniqueVec lib v).Sublist v ∧ (uniqueVec lib v).Pairwise (fun x y => ¬ SameData x y) ∧
    ∀ x ∈ v, ∃ y ∈ uniqueVec lib v, SameData y x := by
  obtain ⟨h1, h2, h3, h4⟩ := uniquePairs_spec lib hv
  have ok : ∀ p ∈ uniquePairs lib v, p.2.Ok := fun p hp => by
    obtain ⟨h, e⟩ := mem_pairs.1 (h1 p hp)
    rw [e]; exact hv _ (List.getElem_mem h)
  rw [uniqueVec_eq]
  refine ⟨sublist_of_positions h1 h2, ?_, fun x hx => ?_⟩
  · rw [List.pairwise_map]
    exact h3.imp_of_mem fun {a b} ha hb h s => h ((cmp_meaning (ok a ha) (ok b hb)).1.2 s)
  · obtain ⟨p, hp, e⟩ := h4 x hx
    exact ⟨p.2, List.mem_map_of_mem hp, (cmp_meaning (ok p hp) (hv x hx)).1.1 e⟩

/-- C22, partial, for `unique`: if the sort happens to be stable on the operand (as Go's is for up to 12 elements) and
elements that are the same have the same type, the result lists the first occurrences in order. -/
theorem C22_unique_stable_partial (lib : SortLib) {v : List Val} (hv : AllOk v)
    (hst : lib.slice lessIndexed (v.zipIdx.map fun p => (p.2, p.1)) = lib.stable lessIndexed (v.zipIdx.map fun p => (p.2, p.1)))
    (hty : ∀ x ∈ v, ∀ y ∈ v, SameData x y → x.ty = y.ty) : FirstOccurrences v (uniqueVec lib v) := by
  obtain ⟨h1, h2, h3, h4⟩ := uniquePairs_spec lib hv
  have h5 := uniquePairs_first lib hv hst fun x hx y hy h => hty x hx y hy ((cmp_meaning (hv x hx) (hv y hy)).1.1 h)
  have at_ : ∀ p ∈ uniquePairs lib v, v[p.1]? = some p.2 := fun p hp => by
    obtain ⟨h, e⟩ := mem_pairs.1 (h1 p hp)
    rw [e]; exact List.getElem?_eq_getElem h
  refine ⟨(uniquePairs lib v).map (·.1), by rw [List.pairwise_map]; exact h2, ?_, fun k => ?_⟩
  · rw [uniqueVec_eq, List.map_map, List.map_map]
    exact List.map_congr_left fun p hp => (at_ p hp).symm
  · constructor
    · intro hk
      obtain ⟨p, hp, rfl⟩ := List.mem_map.1 hk
      obtain ⟨h, e⟩ := mem_pairs.1 (h1 p hp)
      refine ⟨h, fun j hj s => ?_⟩
      have hj' : j < v.length := by omega
      have := h5 p hp (j, v[j]) (mem_pairs.2 ⟨hj', rfl⟩) (by
        have c := (cmp_meaning (hv _ (List.getElem_mem hj')) (hv _ (List.getElem_mem h))).1.2 s
        rw [e, cmp_anti (hv _ (List.getElem_mem hj')) (hv _ (List.getElem_mem h)), c]; rfl)
      simp only at this
      omega
    · rintro ⟨h, hno⟩
      obtain ⟨p, hp, e⟩ := h4 v[k] (List.getElem_mem h)
      obtain ⟨hp1, hp2⟩ := mem_pairs.1 (h1 p hp)
      have le := h5 p hp (k, v[k]) (mem_pairs.2 ⟨h, rfl⟩) e
      simp only at le
      rcases Nat.eq_or_lt_of_le le with e' | hlt
      · exact List.mem_map.2 ⟨p, hp, e'⟩
      · rw [hp2] at e
        exact (hno p.1 hlt ((cmp_meaning (hv _ (List.getElem_mem hp1)) (hv _ (List.getElem_mem h))).1.1 e)).elim

/-- The elements of `l` that satisfy a predicate, in order. -/
inductive Picks (p : Val → Prop) : List Val → List Val → Prop
  | nil : Picks p [] []
  | keep {x : Val} {l m : List Val} : p x → Picks p l m → Picks p (x :: l) (x :: m)
  | drop {x : Val} {l m : List Val} : ¬ p x → Picks p l m → Picks p (x :: l) m

theorem picks_filter {p : Val → Prop} {q : Val → Bool} {l : List Val} (h : ∀ x ∈ l, (q x = true ↔ p x)) : Picks p l (l.filter q) := by
  induction l with
  | nil => exact .nil
  | cons x l ih =>
    have ih := ih fun y hy => h y (by simp [hy])
    rw [List.filter_cons]
    split
    · rename_i hq; exact .keep ((h x (by simp)).1 hq) ih
    · rename_i hq; exact .drop (fun hp => hq ((h x (by simp)).2 hp)) ih

theorem marked_eq (g : Val → Num) (want : Num → Bool) (l : List Val) : marked (l.map g) want l = l.filter fun x => want (g x) := by
  induction l with
  | nil => rfl
  | cons x l ih =>
    unfold marked at ih ⊢
    rw [List.map_cons, List.zip_cons_cons, List.filter_cons, List.filter_cons]
    split <;> simp [*]

/-- C22: `u union v` is `u` followed by the elements of `v` that do not occur in `u`, in order. -/
theorem C22_union (lib : SortLib) {uu vv : List Val} (hu : AllOk uu) (hv : AllOk vv) :
    ∃ w, union lib (.vec uu) (.vec vv) = some (.vec (uu ++ w)) ∧ Picks (fun x => ¬ ∃ y ∈ uu, SameData y x) vv w := by
  refine ⟨_, rfl, ?_⟩
  unfold membership
  rw [marked_eq]
  refine picks_filter fun x hx => ?_
  have key := contains_sortedCopy lib hu (hv x hx)
  rw [← key]
  cases contains (sortedCopy lib uu) x <;> decide

/-- C22: `u intersect v` lists the elements of `u` that occur in `v`, in order. -/
theorem C22_intersect (lib : SortLib) {uu vv : List Val} (hu : AllOk uu) (hv : AllOk vv) :
    ∃ w, intersect lib (.vec uu) (.vec vv) = some (.vec w) ∧ Picks (fun x => ∃ y ∈ vv, SameData y x) uu w := by
  refine ⟨_, rfl, ?_⟩
  unfold membership
  rw [marked_eq]
  refine picks_filter fun x hx => ?_
  have key := contains_sortedCopy lib hv (hu x hx)
  rw [← key]
  cases contains (sortedCopy lib vv) x <;> decide

/-- C22: the two operators with a scalar (a character or a number) on one side do what they do with the vector of that
one element. -/
theorem C22_scalar (lib : SortLib) {uu : List Val} (n : Num) (hu : AllOk uu) :
    union lib (.vec uu) (.num n) = union lib (.vec uu) (.vec [.num n]) ∧
    union lib (.num n) (.vec uu) = union lib (.vec [.num n]) (.vec uu) ∧
    intersect lib (.vec uu) (.num n) = intersect lib (.vec uu) (.vec [.num n]) ∧
    intersect lib (.num n) (.vec uu) = intersect lib (.vec [.num n]) (.vec uu) := by
  have h1 : AllOk [.num n] := fun x hx => by simp only [List.mem_singleton] at hx; subst hx; exact .num n
  have inU : ∀ x, x.Ok → (contains (sortedCopy lib uu) x = true ↔ ∃ y ∈ uu, cmp y x = 0) := fun x hx => by
    rw [contains_sortedCopy lib hu hx]
    exact ⟨fun ⟨y, hy, s⟩ => ⟨y, hy, (cmp_meaning (hu y hy) hx).1.2 s⟩, fun ⟨y, hy, s⟩ => ⟨y, hy, (cmp_meaning (hu y hy) hx).1.1 s⟩⟩
  have in1 : ∀ x, x.Ok → contains (sortedCopy lib [.num n]) x = scalarEqual (.num n) x := fun x hx => by
    rw [Bool.eq_iff_iff, contains_sortedCopy lib h1 hx]
    simp only [List.mem_singleton, exists_eq_left, scalarEqual, beq_iff_eq]
    exact (cmp_meaning (.num n) hx).1.symm
  have comm : ∀ x ∈ uu, scalarEqual (.num n) x = scalarEqual x (.num n) := fun x hx => by
    simp only [scalarEqual, cmp_anti (hu x hx) (.num n)]
    rw [Bool.eq_iff_iff, beq_iff_eq, beq_iff_eq]; omega
  have anyU : contains (sortedCopy lib uu) (.num n) = uu.any fun x => scalarEqual x (.num n) := by
    rw [Bool.eq_iff_iff, inU _ (.num n), List.any_eq_true]; simp [scalarEqual]
  have t1 : ∀ b : Bool, decide (toInt b = one) = b := by decide
  have t2 : ∀ b : Bool, decide (toInt b ≠ one) = !b := by decide
  refine ⟨?_, ?_, ?_, ?_⟩
  · simp only [union, membership, List.map_cons, List.map_nil, anyU, marked]
    cases hb : uu.any fun x => scalarEqual x (.num n) <;> simp [toInt, one, zero]
  · simp only [union]
    unfold membership
    rw [marked_eq]
    simp only [t2]
    have : uu.filter (fun x => !contains (sortedCopy lib [.num n]) x) = uu.filter (fun x => !scalarEqual (.num n) x) :=
      List.filter_congr fun x hx => by rw [in1 x (hu x hx)]
    rw [this]; rfl
  · simp only [intersect]
    unfold membership
    rw [marked_eq]
    simp only [t1]
    have : uu.filter (fun x => contains (sortedCopy lib [.num n]) x) = uu.filter (fun x => scalarEqual x (.num n)) :=
      List.filter_congr fun x hx => by rw [in1 x (hu x hx), comm x hx]
    rw [this]
  · have : (uu.any fun x => scalarEqual (.num n) x) = uu.any fun x => scalarEqual x (.num n) := by
      rw [Bool.eq_iff_iff, List.any_eq_true, List.any_eq_true]
      exact ⟨fun ⟨x, hx, h⟩ => ⟨x, hx, by rw [← comm x hx]; exact h⟩, fun ⟨x, hx, h⟩ => ⟨x, hx, by rw [comm x hx]; exact h⟩⟩
    simp only [intersect, membership, List.map_cons, List.map_nil, anyU, marked, this]
    cases hb : uu.any fun x => scalarEqual x (.num n) <;> simp [toInt, one, zero]

example : uniqueVec stableLib [.num (.int 3), .num (.char 97), .num (.int 3), .num (.int 1), .num (.char 97)] =
    [.num (.int 3), .num (.char 97), .num (.int 1)] := by rfl

example : union reversingLib (.vec [.num (.int 3), .num (.int 1)]) (.vec [.num (.int 1), .num (.int 2), .num (.int 2)]) =
    some (.vec [.num (.int 3), .num (.int 1), .num (.int 2), .num (.int 2)]) ∧
  intersect reversingLib (.vec [.num (.int 3), .num (.int 1), .num (.int 3)]) (.vec [.num (.int 3), .num (.int 2)]) =
    some (.vec [.num (.int 3), .num (.int 3)]) := by decide +kernel

end Verif.Order
