import Verif.Order.Lemmas3

/-! # Grade, unique, and two sorting libraries -/

namespace Verif.Order
open Verif.Num

/-! ## Rows of a matrix -/

/-- Row `i` of a list of rows of `stride` elements. -/
def row (data : List Val) (stride i : Nat) : List Val := (data.drop (i * stride)).take stride

theorem drop_cons {α : Type} {l : List α} {i : Nat} (h : i < l.length) : l.drop i = l[i] :: l.drop (i + 1) :=
  List.drop_eq_getElem_cons h

theorem lessRowAt_eq {v : List Val} : ∀ {n i j : Nat}, i + n ≤ v.length → j + n ≤ v.length →
    lessRowAt v i j n = decide (cmpList ((v.drop i).take n) ((v.drop j).take n) < 0) := by
  intro n
  induction n with
  | zero => intro i j _ _; simp [lessRowAt, cmpList]
  | succ n ih =>
    intro i j hi hj
    have h1 : i < v.length := by omega
    have h2 : j < v.length := by omega
    rw [drop_cons h1, drop_cons h2, List.take_succ_cons, List.take_succ_cons, cmpList, lessRowAt,
      List.getElem?_eq_getElem h1, List.getElem?_eq_getElem h2]
    simp only
    by_cases hz : cmp v[i] v[j] = 0
    · rw [if_pos hz, if_neg (by simpa using hz), ih (by omega) (by omega)]
    · rw [if_neg hz, if_pos hz]

theorem row_length {data : List Val} {stride rows i : Nat} (h : data.length = rows * stride) (hi : i < rows) :
    (row data stride i).length = stride := by
  have : i * stride + stride ≤ data.length := by
    rw [h, ← Nat.succ_mul]; exact Nat.mul_le_mul_right _ hi
  rw [row, List.length_take, List.length_drop]; omega

theorem cmp_row {data : List Val} {stride rows i j : Nat} (h : data.length = rows * stride) (hi : i < rows) (hj : j < rows) :
    cmp (.vec (row data stride i)) (.vec (row data stride j)) = cmpList (row data stride i) (row data stride j) := by
  rw [cmp, row_length h hi, row_length h hj, if_neg (by simp)]

theorem row_ok {data : List Val} (h : AllOk data) (stride i : Nat) : (Val.vec (row data stride i)).Ok :=
  .vec fun x hx => h x (List.mem_of_mem_drop (List.mem_of_mem_take hx))

/-! ## Unique -/

theorem ite_lt {p q : Int} : (if p ≠ 0 then p else q) < 0 ↔ (if p = 0 then q < 0 else p < 0) := by
  by_cases h : p = 0 <;> simp [h]

theorem lessIndexed_strictWeak {l : List (Nat × Val)} (h : ∀ p ∈ l, p.2.Ok) : StrictWeakOn lessIndexed l := by
  let f : Nat × Val → Nat × Val → Int := fun a b => if cmp a.2 b.2 ≠ 0 then cmp a.2 b.2 else sgn2Int a.2.ty.idx b.2.ty.idx
  have laws : Laws f l := by
    refine ⟨fun a ha b hb => lex_anti (cmp_anti (h a ha) (h b hb)) (sgn2Int_anti _ _), fun a ha b hb c hc => ?_⟩
    exact lex_tr (cmp_tr (h a ha) _ _ (h b hb) (h c hc)) (sgn2Int_tr _ _ _)
  refine laws.strictWeak fun a b => ?_
  simp only [f, lessIndexed, ite_lt]
  split
  · rw [decide_eq_true_eq]
    have := sgn2Int_neg (a := a.2.ty.idx) (b := b.2.ty.idx)
    have h2 := sgn2Int_le (a := a.2.ty.idx) (b := b.2.ty.idx)
    have h3 := sgn2Int_zero (a := a.2.ty.idx) (b := b.2.ty.idx)
    omega
  · rw [decide_eq_true_eq]

theorem dedup_sublist (l : List (Nat × Val)) : ∀ p, (dedup p l).Sublist l := by
  induction l with
  | nil => intro p; exact List.Sublist.refl _
  | cons x xs ih =>
    intro p
    rw [dedup]
    split
    · exact (ih x).cons_cons x
    · exact (ih p).cons x

/-- In a sorted list the loop leaves one element of each group of equal ones: no two that are left are equal, and each
element that is dropped is equal to one that is left. -/
theorem dedup_spec (l : List (Nat × Val)) : ∀ p, (∀ q ∈ p :: l, q.2.Ok) → (p :: l).Pairwise (fun a b => cmp a.2 b.2 ≤ 0) →
    (p :: dedup p l).Pairwise (fun a b => cmp a.2 b.2 < 0) ∧ ∀ q ∈ p :: l, ∃ r ∈ p :: dedup p l, cmp r.2 q.2 = 0 := by
  induction l with
  | nil => intro p hok _; exact ⟨by simp [dedup], fun q hq => ⟨q, by simpa [dedup] using hq, cmp_refl (hok q hq)⟩⟩
  | cons x xs ih =>
    intro p hok hs
    rw [dedup]
    have hpx : cmp p.2 x.2 ≤ 0 := (List.pairwise_cons.1 hs).1 x (by simp)
    split
    · rename_i hne
      obtain ⟨h1, h2⟩ := ih x (fun q hq => hok q (by simp at hq ⊢; tauto)) (List.pairwise_cons.1 hs).2
      refine ⟨?_, ?_⟩
      · rw [List.pairwise_cons]
        refine ⟨fun y hy => ?_, h1⟩
        rcases List.mem_cons.1 hy with rfl | hy'
        · omega
        · have hxy := (List.pairwise_cons.1 h1).1 y hy'
          have hyl : y ∈ xs := (dedup_sublist xs x).subset hy'
          have t := cmp_tr (hok p (by simp)) x.2 y.2 (hok x (by simp)) (hok y (by simp [hyl])) hpx (by omega)
          by_contra hc
          have := t.2 (by omega)
          omega
      · intro q hq
        rcases List.mem_cons.1 hq with rfl | hq'
        · exact ⟨q, by simp, cmp_refl (hok q (by simp))⟩
        · obtain ⟨r, hr, e⟩ := h2 q hq'
          exact ⟨r, List.mem_cons_of_mem _ hr, e⟩
    · rename_i heq
      have heq : cmp p.2 x.2 = 0 := not_not.1 heq
      obtain ⟨h1, h2⟩ := ih p (fun q hq => hok q (by simp at hq ⊢; tauto)) (by
        rw [List.pairwise_cons] at hs ⊢
        exact ⟨fun y hy => hs.1 y (by simp [hy]), (List.pairwise_cons.1 hs.2).2⟩)
      refine ⟨h1, fun q hq => ?_⟩
      rcases List.mem_cons.1 hq with rfl | hq'
      · exact ⟨q, by simp, cmp_refl (hok q (by simp))⟩
      · rcases List.mem_cons.1 hq' with rfl | hq''
        · exact ⟨p, by simp, heq⟩
        · exact h2 q (by simp [hq''])

theorem mem_pairs {v : List Val} {p : Nat × Val} : p ∈ (v.zipIdx.map fun p => (p.2, p.1)) ↔ ∃ (h : p.1 < v.length), p.2 = v[p.1] := by
  rw [List.mem_iff_getElem]
  constructor
  · rintro ⟨k, h, rfl⟩
    simp only [List.length_map, List.length_zipIdx] at h
    simp [h]
  · rintro ⟨h, e⟩
    exact ⟨p.1, by simpa using h, by simp [← e]⟩

theorem strictWeak_idx (l : List (Nat × Val)) : StrictWeakOn (fun a b : Nat × Val => decide (a.1 < b.1)) l := by
  constructor
  · intro a _; simp
  · intro a _ b _ c _; simp only [decide_eq_true_eq]; omega
  · intro a _ b _ c _; simp only [decide_eq_false_iff_not]; omega

theorem pairs_eq (v : List Val) : v = (v.zipIdx.map fun p => (p.2, p.1)).map (·.2) := by
  apply List.ext_getElem <;> simp

/-- A list of positions in increasing order, with the elements there, is a sublist. -/
theorem sublist_of_positions {v : List Val} {l : List (Nat × Val)} (hm : ∀ p ∈ l, p ∈ (v.zipIdx.map fun p => (p.2, p.1)))
    (hp : l.Pairwise fun a b => a.1 < b.1) : (l.map (·.2)).Sublist v := by
  have main : ∀ (v : List Val) (n : Nat) (l : List (Nat × Val)), (∀ p ∈ l, ∃ (h : p.1 - n < v.length), n ≤ p.1 ∧ p.2 = v[p.1 - n]) →
      l.Pairwise (fun a b => a.1 < b.1) → (l.map (·.2)).Sublist v := by
    intro v
    induction v with
    | nil =>
      intro n l hm _
      cases l with
      | nil => exact List.Sublist.refl _
      | cons p l => obtain ⟨h, _⟩ := hm p (by simp); simp at h
    | cons x xs ih =>
      intro n l hm hp
      cases l with
      | nil => exact List.nil_sublist _
      | cons p l =>
        rw [List.pairwise_cons] at hp
        obtain ⟨h1, h2, h3⟩ := hm p (by simp)
        by_cases e : p.1 = n
        · have : p.2 = x := by rw [h3]; simp [e]
          rw [List.map_cons, this]
          refine (ih (n + 1) l (fun q hq => ?_) hp.2).cons_cons x
          obtain ⟨g1, g2, g3⟩ := hm q (by simp [hq])
          have := hp.1 q hq
          refine ⟨by simp only [List.length_cons] at g1; omega, by omega, ?_⟩
          rw [g3, List.getElem_cons, dif_neg (by omega)]
          congr 1
        · refine (ih (n + 1) (p :: l) (fun q hq => ?_) (List.pairwise_cons.2 hp)).cons x
          obtain ⟨g1, g2, g3⟩ := hm q hq
          have hn : n < q.1 := by
            rcases List.mem_cons.1 hq with rfl | hq'
            · omega
            · have := hp.1 q hq'; omega
          refine ⟨by simp only [List.length_cons] at g1; omega, by omega, ?_⟩
          rw [g3, List.getElem_cons, dif_neg (by omega)]
          congr 1
  refine main v 0 l (fun p hp' => ?_) hp
  obtain ⟨h, e⟩ := mem_pairs.1 (hm p hp')
  exact ⟨by simpa using h, by omega, by simpa using e⟩

/-- The positions and values that `uniqueVec` leaves. -/
def uniquePairs (lib : SortLib) (v : List Val) : List (Nat × Val) :=
  match lib.slice lessIndexed (v.zipIdx.map fun p => (p.2, p.1)) with
  | [] => []
  | p :: rest => lib.slice (fun a b => decide (a.1 < b.1)) (p :: dedup p rest)

theorem uniqueVec_eq (lib : SortLib) (v : List Val) : uniqueVec lib v = (uniquePairs lib v).map (·.2) := by
  unfold uniqueVec uniquePairs
  cases lib.slice lessIndexed (v.zipIdx.map fun p => (p.2, p.1)) <;> rfl

/-- What `uniqueVec` computes: positions of `v` in increasing order, elements pairwise different, one for each
element of `v`. -/
theorem uniquePairs_spec (lib : SortLib) {v : List Val} (hv : AllOk v) :
    (∀ p ∈ uniquePairs lib v, p ∈ (v.zipIdx.map fun p => (p.2, p.1))) ∧
      (uniquePairs lib v).Pairwise (fun a b => a.1 < b.1) ∧ (uniquePairs lib v).Pairwise (fun a b => cmp a.2 b.2 ≠ 0) ∧
      ∀ x ∈ v, ∃ p ∈ uniquePairs lib v, cmp p.2 x = 0 := by
  have hok : ∀ p ∈ (v.zipIdx.map fun p => (p.2, p.1)), p.2.Ok := by
    intro p hp
    obtain ⟨h, e⟩ := mem_pairs.1 hp
    rw [e]; exact hv _ (List.getElem_mem h)
  have nodup : (v.zipIdx.map fun p => (p.2, p.1)).Pairwise (fun a b => a.1 ≠ b.1) := by
    rw [List.pairwise_iff_getElem]
    intro i j hi hj hij
    simp only [List.getElem_map, List.getElem_zipIdx]
    omega
  have hperm := lib.slice_perm lessIndexed (v.zipIdx.map fun p => (p.2, p.1))
  have hsort := lib.slice_sorted lessIndexed _ (lessIndexed_strictWeak hok)
  unfold uniquePairs
  split
  · rename_i hs
    rw [hs] at hperm
    refine ⟨by simp, by simp, by simp, fun x hx => ?_⟩
    have := hperm.length_eq
    simp only [List.length_nil, List.length_map, List.length_zipIdx] at this
    have : v = [] := List.length_eq_zero_iff.1 this.symm
    subst this; cases hx
  · rename_i p rest hs
    rw [hs] at hperm hsort
    have hok' : ∀ q ∈ p :: rest, q.2.Ok := fun q hq => hok q (hperm.mem_iff.1 hq)
    have hle : (p :: rest).Pairwise (fun a b => cmp a.2 b.2 ≤ 0) := by
      refine hsort.imp_of_mem fun {a b} ha hb h => ?_
      have an := cmp_anti (hok' a ha) (hok' b hb)
      unfold lessIndexed at h
      split at h
      · omega
      · simp only [decide_eq_false_iff_not] at h; omega
    obtain ⟨h1, h2⟩ := dedup_spec rest p hok' hle
    have hp2 := lib.slice_perm (fun a b : Nat × Val => decide (a.1 < b.1)) (p :: dedup p rest)
    have hs2 := lib.slice_sorted (fun a b : Nat × Val => decide (a.1 < b.1)) (p :: dedup p rest) (strictWeak_idx _)
    generalize lib.slice (fun a b : Nat × Val => decide (a.1 < b.1)) (p :: dedup p rest) = l at hp2 hs2
    have sub : (p :: dedup p rest).Sublist (p :: rest) := (dedup_sublist rest p).cons_cons p
    have mem : ∀ q ∈ l, q ∈ p :: rest := fun q hq => sub.subset (hp2.mem_iff.1 hq)
    refine ⟨fun q hq => hperm.mem_iff.1 (mem q hq), ?_, ?_, ?_⟩
    · have nd : l.Pairwise (fun a b => a.1 ≠ b.1) := by
        rw [hp2.pairwise_iff (fun h => Ne.symm h)]
        refine List.Pairwise.sublist sub ?_
        rw [hperm.pairwise_iff (fun h => Ne.symm h)]
        exact nodup
      exact (hs2.and nd).imp fun h => by simp only [decide_eq_false_iff_not] at h; omega
    · have : (p :: dedup p rest).Pairwise (fun a b => cmp a.2 b.2 ≠ 0 ∧ cmp b.2 a.2 ≠ 0) := by
        refine h1.imp_of_mem fun {a b} ha hb h => ?_
        have := cmp_anti (hok' a (sub.subset ha)) (hok' b (sub.subset hb))
        omega
      have := (hp2.pairwise_iff (fun {a b} h => And.symm h)).2 this
      exact this.imp fun h => h.1
    · intro x hx
      obtain ⟨k, hk, rfl⟩ := List.getElem_of_mem hx
      have : (k, v[k]) ∈ p :: rest := hperm.mem_iff.2 (mem_pairs.2 ⟨hk, rfl⟩)
      obtain ⟨r, hr, e⟩ := h2 _ this
      exact ⟨r, hp2.mem_iff.2 hr, e⟩

/-- Each element that the loop leaves stands before every other element it is equal to. -/
theorem dedup_first (l : List (Nat × Val)) : ∀ p, (∀ q ∈ p :: l, q.2.Ok) → (p :: l).Pairwise (fun a b => cmp a.2 b.2 ≤ 0) →
    ∀ r ∈ p :: dedup p l, ∀ q ∈ p :: l, cmp r.2 q.2 = 0 → r = q ∨ [r, q].Sublist (p :: l) := by
  induction l with
  | nil =>
    intro p _ _ r hr q hq _
    simp only [dedup, List.mem_singleton] at hr hq
    exact .inl (hr.trans hq.symm)
  | cons x xs ih =>
    intro p hok hs r hr q hq hz
    have hpw := (dedup_spec (x :: xs) p hok hs).1
    have hpx : cmp p.2 x.2 ≤ 0 := (List.pairwise_cons.1 hs).1 x (by simp)
    have okr : r.2.Ok := hok r (((dedup_sublist (x :: xs) p).cons_cons p).subset hr)
    have okq := hok q hq
    have okp := hok p (by simp)
    by_cases erp : r = p
    · subst erp
      rcases List.mem_cons.1 hq with rfl | hq'
      · exact .inl rfl
      · exact .inr ((List.singleton_sublist.2 hq').cons_cons r)
    · have hr' : r ∈ dedup p (x :: xs) := (List.mem_cons.1 hr).resolve_left erp
      have hpr : cmp p.2 r.2 < 0 := (List.pairwise_cons.1 hpw).1 r hr'
      have an := cmp_anti okp okr
      have qp : q ≠ p := by rintro rfl; omega
      have hq' : q ∈ x :: xs := (List.mem_cons.1 hq).resolve_left qp
      rw [dedup] at hr'
      split at hr'
      · rcases ih x (fun q hq => hok q (by simp at hq ⊢; tauto)) (List.pairwise_cons.1 hs).2 r hr' q hq' hz with h | h
        · exact .inl h
        · exact .inr (h.cons p)
      · rename_i heq
        have heq : cmp p.2 x.2 = 0 := not_not.1 heq
        have qx : q ≠ x := by
          rintro rfl
          have a1 := cmp_anti okr okq
          have := cmp_eq_trans okp okq okr heq (by omega)
          omega
        have hq'' : q ∈ xs := (List.mem_cons.1 hq').resolve_left qx
        rcases ih p (fun q hq => hok q (by simp at hq ⊢; tauto)) (by
          rw [List.pairwise_cons] at hs ⊢
          exact ⟨fun y hy => hs.1 y (by simp [hy]), (List.pairwise_cons.1 hs.2).2⟩) r (List.mem_cons_of_mem _ hr') q (by simp [hq'']) hz with h | h
        · exact .inl h
        · exact .inr (h.trans ((List.sublist_cons_self x xs).cons_cons p))

/-- If the sort is stable on this list and equal elements have the same type, the positions left are first occurrences. -/
theorem uniquePairs_first (lib : SortLib) {v : List Val} (hv : AllOk v)
    (hst : lib.slice lessIndexed (v.zipIdx.map fun p => (p.2, p.1)) = lib.stable lessIndexed (v.zipIdx.map fun p => (p.2, p.1)))
    (hty : ∀ x ∈ v, ∀ y ∈ v, cmp x y = 0 → x.ty = y.ty) :
    ∀ p ∈ uniquePairs lib v, ∀ q ∈ (v.zipIdx.map fun p => (p.2, p.1)), cmp p.2 q.2 = 0 → p.1 ≤ q.1 := by
  have hok : ∀ p ∈ (v.zipIdx.map fun p => (p.2, p.1)), p.2.Ok := by
    intro p hp
    obtain ⟨h, e⟩ := mem_pairs.1 hp
    rw [e]; exact hv _ (List.getElem_mem h)
  have inc : (v.zipIdx.map fun p => (p.2, p.1)).Pairwise (fun a b => a.1 < b.1) := by
    rw [List.pairwise_iff_getElem]
    intro i j hi hj hij
    simpa only [List.getElem_map, List.getElem_zipIdx, Nat.zero_add] using hij
  have hpw := stable_pairwise lib (lessIndexed_strictWeak hok) inc
  have hperm := lib.slice_perm lessIndexed (v.zipIdx.map fun p => (p.2, p.1))
  rw [← hst] at hpw
  intro a ha q hq hz
  replace hq := hperm.mem_iff.2 hq
  unfold uniquePairs at ha
  cases hs : lib.slice lessIndexed (v.zipIdx.map fun p => (p.2, p.1)) with
  | nil => rw [hs] at hq; cases hq
  | cons p rest =>
    rw [hs] at hpw hperm hq ha
    simp only at ha
    have hok' : ∀ q ∈ p :: rest, q.2.Ok := fun q hq => hok q (hperm.mem_iff.1 hq)
    have hmem : ∀ q ∈ p :: rest, q.2 ∈ v := fun q hq => by
      obtain ⟨h, e⟩ := mem_pairs.1 (hperm.mem_iff.1 hq)
      rw [e]; exact List.getElem_mem h
    have hle : (p :: rest).Pairwise (fun a b => cmp a.2 b.2 ≤ 0) := by
      refine hpw.imp_of_mem fun {a b} ha hb h => ?_
      have an := cmp_anti (hok' a ha) (hok' b hb)
      simp only [lessIndexed] at h
      by_cases z : cmp a.2 b.2 = 0
      · omega
      · by_cases z' : cmp b.2 a.2 = 0
        · omega
        · simp only [z, z', ↓reduceIte, decide_eq_true_eq, decide_eq_false_iff_not] at h; omega
    have sub : (p :: dedup p rest).Sublist (p :: rest) := (dedup_sublist rest p).cons_cons p
    have ha' := (lib.slice_perm (fun a b : Nat × Val => decide (a.1 < b.1)) (p :: dedup p rest)).mem_iff.1 ha
    rcases dedup_first rest p hok' hle a ha' q hq hz with rfl | h
    · exact Nat.le_refl _
    · have h := List.pairwise_iff_forall_sublist.1 hpw h
      have tt := hty a.2 (hmem a (sub.subset ha')) q.2 (hmem q hq) hz
      have an := cmp_anti (hok' a (sub.subset ha')) (hok' q hq)
      have hz' : cmp q.2 a.2 = 0 := by omega
      simp only [lessIndexed, hz, hz', ↓reduceIte, tt, Nat.lt_irrefl, decide_false, Bool.false_eq_true, true_and, false_or] at h
      omega

/-! ## Sorting libraries that meet the documentation -/

/-- Insertion into a sorted list, before the elements it is tied with. -/
def ins {α : Type} (less : α → α → Bool) (a : α) : List α → List α
  | [] => [a]
  | b :: t => if less b a then b :: ins less a t else a :: b :: t

/-- Insertion sort. -/
def isort {α : Type} (less : α → α → Bool) : List α → List α
  | [] => []
  | a :: l => ins less a (isort less l)

theorem ins_perm {α : Type} (less : α → α → Bool) (a : α) (l : List α) : (ins less a l).Perm (a :: l) := by
  induction l with
  | nil => exact List.Perm.refl _
  | cons b t ih =>
    rw [ins]
    split
    · exact (ih.cons b).trans (List.Perm.swap a b t)
    · exact List.Perm.refl _

theorem isort_perm {α : Type} (less : α → α → Bool) (l : List α) : (isort less l).Perm l := by
  induction l with
  | nil => exact List.Perm.refl _
  | cons a l ih => exact (ins_perm less a _).trans (ih.cons a)

theorem StrictWeakOn.mono {α : Type} {less : α → α → Bool} {l m : List α} (h : StrictWeakOn less l) (hm : ∀ x ∈ m, x ∈ l) :
    StrictWeakOn less m :=
  ⟨fun a ha => h.irrefl a (hm a ha), fun a ha b hb c hc => h.trans a (hm a ha) b (hm b hb) c (hm c hc),
    fun a ha b hb c hc => h.tie a (hm a ha) b (hm b hb) c (hm c hc)⟩

/-- Not less is transitive. -/
theorem StrictWeakOn.le_trans {α : Type} {less : α → α → Bool} {l : List α} (h : StrictWeakOn less l) {a b c : α}
    (ha : a ∈ l) (hb : b ∈ l) (hc : c ∈ l) (h1 : less b a = false) (h2 : less c b = false) : less c a = false := by
  by_contra hn
  have hn : less c a = true := by simpa using hn
  cases h3 : less b c with
  | true => rw [h.trans b hb c hc a ha h3 hn] at h1; cases h1
  | false =>
    cases h4 : less a b with
    | true => rw [h.trans c hc a ha b hb hn h4] at h2; cases h2
    | false => rw [(h.tie a ha b hb c hc h4 h1 h3 h2).2] at hn; cases hn

theorem StrictWeakOn.asymm {α : Type} {less : α → α → Bool} {l : List α} (h : StrictWeakOn less l) {a b : α}
    (ha : a ∈ l) (hb : b ∈ l) (h1 : less a b = true) : less b a = false := by
  by_contra hn
  have := h.trans a ha b hb a ha h1 (by simpa using hn)
  rw [h.irrefl a ha] at this; cases this

theorem ins_sorted {α : Type} {less : α → α → Bool} {a : α} {l : List α} (hw : StrictWeakOn less (a :: l))
    (hl : l.Pairwise fun a b => less b a = false) : (ins less a l).Pairwise fun a b => less b a = false := by
  induction l with
  | nil => simp [ins]
  | cons b t ih =>
    rw [List.pairwise_cons] at hl
    rw [ins]
    split
    · rename_i h
      rw [List.pairwise_cons]
      refine ⟨fun c hc => ?_, ih (hw.mono fun x hx => by simp at hx ⊢; tauto) hl.2⟩
      rcases List.mem_cons.1 ((ins_perm less a t).mem_iff.1 hc) with rfl | hc'
      · exact hw.asymm (by simp) (by simp) h
      · exact hl.1 c hc'
    · rename_i h
      have h : less b a = false := by simpa using h
      rw [List.pairwise_cons]
      refine ⟨fun c hc => ?_, List.pairwise_cons.2 hl⟩
      rcases List.mem_cons.1 hc with rfl | hc'
      · exact h
      · exact hw.le_trans (by simp) (by simp) (by simp [hc']) h (hl.1 c hc')

theorem isort_sorted {α : Type} {less : α → α → Bool} {l : List α} (hw : StrictWeakOn less l) :
    (isort less l).Pairwise fun a b => less b a = false := by
  induction l with
  | nil => simp [isort]
  | cons a l ih =>
    refine ins_sorted (hw.mono fun x hx => ?_) (ih (hw.mono fun x hx => by simp [hx]))
    rcases List.mem_cons.1 hx with rfl | hx
    · simp
    · simp [(isort_perm less l).mem_iff.1 hx]

theorem isort_filter {α : Type} {less : α → α → Bool} {l : List α} (hw : StrictWeakOn less l) :
    ∀ x ∈ l, (isort less l).filter (tied less x) = l.filter (tied less x) := by
  have gen : ∀ (L l : List α), StrictWeakOn less L → (∀ y ∈ l, y ∈ L) → ∀ x ∈ L, (isort less l).filter (tied less x) = l.filter (tied less x) := by
    intro L l hw
    induction l with
    | nil => intro _ _ _; rfl
    | cons a l ih =>
      intro hl x hx
      have : (ins less a (isort less l)).filter (tied less x) = (a :: isort less l).filter (tied less x) := by
        have hw' : StrictWeakOn less (a :: x :: isort less l) := hw.mono fun y hy => by
          simp only [List.mem_cons] at hy
          rcases hy with rfl | rfl | hy
          · exact hl y (by simp)
          · exact hx
          · exact hl y (by simp [(isort_perm less l).mem_iff.1 hy])
        -- insertion filters the same for any element of the larger list
        have gen2 : ∀ m : List α, (∀ y ∈ m, y ∈ L) → (ins less a m).filter (tied less x) = (a :: m).filter (tied less x) := by
          intro m
          induction m with
          | nil => intro _; rfl
          | cons b t ih2 =>
            intro hm
            rw [ins]
            split
            · rename_i h
              have hb := hm b (by simp)
              rw [List.filter_cons, ih2 (fun y hy => hm y (by simp [hy]))]
              have : ¬ (tied less x a = true ∧ tied less x b = true) := by
                rintro ⟨h1, h2⟩
                simp only [tied, Bool.and_eq_true, Bool.not_eq_eq_eq_not, Bool.not_true] at h1 h2
                have := (hw.tie b hb x hx a (hl a (by simp)) h2.2 h2.1 h1.1 h1.2).1
                rw [h] at this; cases this
              simp only [List.filter_cons]
              split <;> split <;> simp_all
            · rfl
        exact gen2 _ fun y hy => hl y (by simp [(isort_perm less l).mem_iff.1 hy])
      rw [isort, this, List.filter_cons, List.filter_cons, ih (fun y hy => hl y (by simp [hy])) x hx]
  exact gen l l hw (fun _ h => h)

/-- A library in which every sort is a stable insertion sort, as Go's is for slices of at most 12 elements. -/
def stableLib : SortLib where
  slice := isort
  slice_perm := isort_perm
  slice_sorted := fun _ _ h => isort_sorted h
  stable := isort
  stable_perm := isort_perm
  stable_sorted := fun _ _ h => isort_sorted h
  stable_ties := fun _ _ h => isort_filter h

/-- A library whose `sort.Slice` leaves tied elements in the opposite order, which its documentation allows. -/
def reversingLib : SortLib where
  slice := fun less l => isort less l.reverse
  slice_perm := fun less l => (isort_perm less _).trans l.reverse_perm
  slice_sorted := fun _ _ h => isort_sorted (h.mono fun _ hx => List.mem_reverse.1 hx)
  stable := isort
  stable_perm := isort_perm
  stable_sorted := fun _ _ h => isort_sorted h
  stable_ties := fun _ _ h => isort_filter h

end Verif.Order
