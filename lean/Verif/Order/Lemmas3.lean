import Verif.Order.Lemmas2

/-! # Membership, index-of, grade and unique -/

namespace Verif.Order
open Verif.Num

theorem lessVal_iff (a b : Val) : lessVal a b = true ↔ cmp a b < 0 := by simp [lessVal]

theorem lessVal_false (a b : Val) : lessVal a b = false ↔ 0 ≤ cmp a b := by
  rw [← Bool.not_eq_true, lessVal_iff]; omega

theorem sortedCopy_perm (lib : SortLib) (v : List Val) : (sortedCopy lib v).Perm v := lib.slice_perm _ _

theorem sortedCopy_sorted (lib : SortLib) {v : List Val} (hv : AllOk v) : (sortedCopy lib v).Pairwise fun a b => 0 ≤ cmp b a :=
  (lib.slice_sorted _ _ ((cmp_laws hv).strictWeak lessVal_iff)).imp fun h => (lessVal_false _ _).1 h

/-- The position that the binary search finds in a sorted list of keys. -/
theorem search_sorted {s : List Val} (hs : s.Pairwise fun a b => 0 ≤ cmp b a) (hok : AllOk s) {x : Val} (hx : x.Ok) (f : Nat → Bool)
    (hf : ∀ j (h : j < s.length), f j = true ↔ 0 ≤ cmp s[j] x) :
    search s.length f ≤ s.length ∧ (∀ k (_ : k < search s.length f) (h : k < s.length), cmp s[k] x < 0) ∧
    ∀ k, search s.length f ≤ k → (h : k < s.length) → 0 ≤ cmp s[k] x := by
  have mono : ∀ a b, a ≤ b → b < s.length → f a = true → f b = true := by
    intro a b hab hb ha
    rw [hf a (by omega)] at ha
    rw [hf b hb]
    rcases Nat.eq_or_lt_of_le hab with e | hlt
    · subst e; exact ha
    · have h1 := List.pairwise_iff_getElem.1 hs a b (by omega) hb hlt
      have oa := hok _ (List.getElem_mem (show a < s.length by omega))
      have ob := hok _ (List.getElem_mem hb)
      have h2 : cmp x s[b] ≤ 0 := cmp_le_trans hx oa ob (by rw [cmp_anti oa hx]; omega) (by rw [cmp_anti ob oa]; omega)
      rw [cmp_anti hx ob]; omega
  obtain ⟨h1, h2, h3⟩ := search_spec mono
  refine ⟨h1, fun k hk h => ?_, fun k hk h => (hf k h).1 (h3 k hk h)⟩
  have := h2 k hk
  by_contra hc
  rw [(hf k h).2 (by omega)] at this
  cases this

theorem contains_iff {s : List Val} (hs : s.Pairwise fun a b => 0 ≤ cmp b a) (hok : AllOk s) {x : Val} (hx : x.Ok) :
    contains s x = true ↔ ∃ y ∈ s, cmp y x = 0 := by
  let f : Nat → Bool := fun j => match s[j]? with
    | some y => decide (cmp y x ≥ 0)
    | none => false
  have hf : ∀ j (h : j < s.length), f j = true ↔ 0 ≤ cmp s[j] x := by
    intro j h
    simp only [f, List.getElem?_eq_getElem h, decide_eq_true_eq, ge_iff_le]
  obtain ⟨h1, h2, h3⟩ := search_sorted hs hok hx f hf
  have key : contains s x = match s[search s.length f]? with | some y => cmp y x == 0 | none => false := rfl
  rw [key]
  constructor
  · intro h
    by_cases hp : search s.length f < s.length
    · rw [List.getElem?_eq_getElem hp] at h
      exact ⟨_, List.getElem_mem hp, by simpa using h⟩
    · rw [List.getElem?_eq_none (by omega)] at h; cases h
  · rintro ⟨y, hy, hyx⟩
    obtain ⟨k, hk, rfl⟩ := List.getElem_of_mem hy
    have hpk : search s.length f ≤ k := by
      by_contra hc
      have := h2 k (by omega) hk
      omega
    have hp : search s.length f < s.length := by omega
    have h4 := h3 _ (Nat.le_refl _) hp
    rw [List.getElem?_eq_getElem hp]
    simp only [beq_iff_eq]
    have op := hok _ (List.getElem_mem hp)
    have ok := hok _ (List.getElem_mem hk)
    rcases Nat.eq_or_lt_of_le hpk with e | hlt
    · have h5 : s[search s.length f] = s[k] := by congr 1
      rw [h5]; exact hyx
    · have h5 := List.pairwise_iff_getElem.1 hs _ k hp hk hlt
      have h6 : cmp s[search s.length f] x ≤ 0 := cmp_le_trans op ok hx (by rw [cmp_anti ok op]; omega) (by omega)
      omega

theorem AllOk.perm {l m : List Val} (h : AllOk l) (p : m.Perm l) : AllOk m := fun x hx => h x (p.mem_iff.1 hx)

theorem contains_sortedCopy (lib : SortLib) {v : List Val} (hv : AllOk v) {x : Val} (hx : x.Ok) :
    contains (sortedCopy lib v) x = true ↔ ∃ y ∈ v, SameData y x := by
  rw [contains_iff (sortedCopy_sorted lib hv) (hv.perm (sortedCopy_perm lib v)) hx]
  constructor
  · rintro ⟨y, hy, h⟩
    have hy := (sortedCopy_perm lib v).mem_iff.1 hy
    exact ⟨y, hy, (cmp_meaning (hv y hy) hx).1.1 h⟩
  · rintro ⟨y, hy, h⟩
    exact ⟨y, (sortedCopy_perm lib v).mem_iff.2 hy, (cmp_meaning (hv y hy) hx).1.2 h⟩

/-! ## Stable sorting -/

theorem stable_pairwise (lib : SortLib) {α : Type} {less : α → α → Bool} {l : List α} (hw : StrictWeakOn less l)
    {R : α → α → Prop} (hl : l.Pairwise R) :
    (lib.stable less l).Pairwise fun a b => less a b = true ∨ (less a b = false ∧ less b a = false ∧ R a b) := by
  rw [List.pairwise_iff_forall_sublist]
  intro a b hab
  have h1 := List.pairwise_iff_forall_sublist.1 (lib.stable_sorted less l hw) hab
  cases h2 : less a b with
  | true => exact .inl rfl
  | false =>
    refine .inr ⟨rfl, h1, ?_⟩
    have ha : a ∈ l := (lib.stable_perm less l).mem_iff.1 (hab.subset (by simp))
    have h3 := hab.filter (tied less a)
    have taa : tied less a a = true := by simp [tied, hw.irrefl a ha]
    have tab : tied less a b = true := by simp [tied, h1, h2]
    rw [lib.stable_ties less l hw a ha] at h3
    simp only [List.filter, taa, tab] at h3
    exact List.pairwise_iff_forall_sublist.1 hl (h3.trans List.filter_sublist)

theorem lessAt_laws {v : List Val} (hv : AllOk v) {l : List Nat} (hl : ∀ i ∈ l, i < v.length) : StrictWeakOn (lessAt v) l := by
  let f : Nat → Nat → Int := fun i j => match v[i]?, v[j]? with
    | some x, some y => cmp x y
    | _, _ => 0
  have hf : ∀ i j (h : i < v.length) (h' : j < v.length), f i j = cmp v[i] v[j] := by
    intro i j h h'
    simp only [f, List.getElem?_eq_getElem h, List.getElem?_eq_getElem h']
  have laws : Laws f l := by
    refine ⟨fun a ha b hb => ?_, fun a ha b hb c hc => ?_⟩
    · rw [hf _ _ (hl b hb) (hl a ha), hf _ _ (hl a ha) (hl b hb)]
      exact cmp_anti (hv _ (List.getElem_mem _)) (hv _ (List.getElem_mem _))
    · rw [hf _ _ (hl a ha) (hl b hb), hf _ _ (hl b hb) (hl c hc), hf _ _ (hl a ha) (hl c hc)]
      exact cmp_tr (hv _ (List.getElem_mem _)) _ _ (hv _ (List.getElem_mem _)) (hv _ (List.getElem_mem _))
  refine laws.strictWeak fun a b => ?_
  cases h1 : v[a]? <;> cases h2 : v[b]? <;> simp [lessAt, f, h1, h2]

theorem lessAt_eq {v : List Val} {i j : Nat} (h : i < v.length) (h' : j < v.length) : lessAt v i j = decide (cmp v[i] v[j] < 0) := by
  simp only [lessAt, List.getElem?_eq_getElem h, List.getElem?_eq_getElem h']

theorem zipIdx_pairwise (A : List Val) (origin : Int) :
    (A.zipIdx.map fun p => (p.1, (p.2 : Int) + origin)).Pairwise fun p q => p.2 < q.2 := by
  rw [List.pairwise_iff_getElem]
  intro i j hi hj hij
  simp only [List.getElem_map, List.getElem_zipIdx]
  omega

theorem mem_indexed {A : List Val} {origin : Int} {p : Val × Int} :
    p ∈ (A.zipIdx.map fun p => (p.1, (p.2 : Int) + origin)) ↔ ∃ k, ∃ (h : k < A.length), p = (A[k], (k : Int) + origin) := by
  rw [List.mem_iff_getElem]
  constructor
  · rintro ⟨k, h, rfl⟩
    simp only [List.length_map, List.length_zipIdx] at h
    exact ⟨k, h, by simp⟩
  · rintro ⟨k, h, rfl⟩
    exact ⟨k, by simpa using h, by simp⟩

theorem indexed_strictWeak {A : List Val} (hA : AllOk A) (origin : Int) :
    StrictWeakOn (fun p q : Val × Int => decide (cmp p.1 q.1 < 0)) (A.zipIdx.map fun p => (p.1, (p.2 : Int) + origin)) := by
  refine ((cmp_laws hA).comap (fun p : Val × Int => p.1) ?_).strictWeak (fun a b => by simp)
  intro b hb
  obtain ⟨k, h, rfl⟩ := mem_indexed.1 hb
  exact List.getElem_mem h

theorem findIndex_spec (lib : SortLib) (origin : Int) {A : List Val} (hA : AllOk A) {b : Val} (hb : b.Ok) :
    (∃ k, ∃ (h : k < A.length), findIndex origin (sortedIndexed lib origin A) b = k + origin ∧ cmp A[k] b = 0 ∧
      ∀ j (hj : j < k), cmp (A[j]'(by omega)) b ≠ 0) ∨
    (findIndex origin (sortedIndexed lib origin A) b = origin - 1 ∧ ∀ a ∈ A, cmp a b ≠ 0) := by
  have hw := indexed_strictWeak hA origin
  have hp := lib.stable_perm (fun p q : Val × Int => decide (cmp p.1 q.1 < 0)) (A.zipIdx.map fun p => (p.1, (p.2 : Int) + origin))
  have hst := stable_pairwise lib hw (zipIdx_pairwise A origin)
  change (sortedIndexed lib origin A).Perm _ at hp
  change (sortedIndexed lib origin A).Pairwise _ at hst
  generalize sortedIndexed lib origin A = s at hp hst ⊢
  have hok : AllOk (s.map (·.1)) := by
    intro x hx
    obtain ⟨p, hp', rfl⟩ := List.mem_map.1 hx
    obtain ⟨k, h, rfl⟩ := mem_indexed.1 (hp.mem_iff.1 hp')
    exact hA _ (List.getElem_mem h)
  have hsort : (s.map (·.1)).Pairwise fun a b => 0 ≤ cmp b a := by
    rw [List.pairwise_map]
    refine hst.imp_of_mem fun {p q} hp' hq' h => ?_
    have op := hok p.1 (List.mem_map_of_mem hp')
    have oq := hok q.1 (List.mem_map_of_mem hq')
    have := cmp_anti op oq
    simp only [decide_eq_true_eq, decide_eq_false_iff_not] at h
    omega
  let f : Nat → Bool := fun j => match s[j]? with
    | some p => decide (cmp p.1 b ≥ 0)
    | none => false
  have hf : ∀ j (h : j < (s.map (·.1)).length), f j = true ↔ 0 ≤ cmp (s.map (·.1))[j] b := by
    intro j h
    simp only [List.length_map] at h
    simp only [f, List.getElem?_eq_getElem h, decide_eq_true_eq, ge_iff_le, List.getElem_map]
  have hs3 := search_sorted hsort hok hb f hf
  simp only [List.length_map] at hs3
  obtain ⟨h1, h2, h3⟩ := hs3
  have key : findIndex origin s b = match s[search s.length f]? with
    | some p => if cmp p.1 b = 0 then p.2 else origin - 1
    | none => origin - 1 := rfl
  rw [key]
  -- no element before the position found compares equal
  have before : ∀ k (_ : k < search s.length f) (h : k < s.length), cmp s[k].1 b < 0 := by
    intro k hk h
    have := h2 k hk h
    simpa using this
  have atpos : ∀ k (_ : search s.length f ≤ k) (h : k < s.length), 0 ≤ cmp s[k].1 b := by
    intro k hk h
    have := h3 k hk h
    simpa using this
  have sorted : ∀ i j (hi : i < s.length) (hj : j < s.length), i < j → cmp s[i].1 s[j].1 < 0 ∨ (cmp s[i].1 s[j].1 = 0 ∧ s[i].2 < s[j].2) := by
    intro i j hi hj hij
    have := List.pairwise_iff_getElem.1 hst i j hi hj hij
    simp only [decide_eq_true_eq, decide_eq_false_iff_not] at this
    have oi := hok s[i].1 (List.mem_map_of_mem (List.getElem_mem hi))
    have oj := hok s[j].1 (List.mem_map_of_mem (List.getElem_mem hj))
    have := cmp_anti oi oj
    omega
  have oks : ∀ i (hi : i < s.length), s[i].1.Ok := fun i hi => hok s[i].1 (List.mem_map_of_mem (List.getElem_mem hi))
  -- the element of `A` at each index occurs in the sorted list
  have find : ∀ k (h : k < A.length), ∃ i, ∃ (hi : i < s.length), s[i] = (A[k], (k : Int) + origin) := by
    intro k h
    obtain ⟨i, hi, e⟩ := List.getElem_of_mem (hp.mem_iff.2 (mem_indexed.2 ⟨k, h, rfl⟩))
    exact ⟨i, hi, e⟩
  by_cases hpos : search s.length f < s.length
  · rw [List.getElem?_eq_getElem hpos]
    simp only
    by_cases hz : cmp s[search s.length f].1 b = 0
    · rw [if_pos hz]
      obtain ⟨k, hk, e⟩ := mem_indexed.1 (hp.mem_iff.1 (List.getElem_mem hpos))
      refine .inl ⟨k, hk, by rw [e], by rw [e] at hz; exact hz, fun j hj hjz => ?_⟩
      obtain ⟨i, hi, e'⟩ := find j (by omega)
      have hi0 : cmp s[i].1 b = 0 := by rw [e']; exact hjz
      have : search s.length f ≤ i := by
        by_contra hc
        have := before i (by omega) hi
        omega
      rcases Nat.eq_or_lt_of_le this with e2 | hlt
      · have : s[search s.length f] = s[i] := by congr 1
        rw [e, e'] at this
        simp only [Prod.mk.injEq] at this
        omega
      · rcases sorted _ i hpos hi hlt with h | ⟨_, h⟩
        · have a1 := cmp_anti (oks i hi) hb
          have a2 := cmp_eq_trans (oks _ hpos) hb (oks i hi) hz (by omega)
          omega
        · rw [e, e'] at h
          simp only at h
          omega
    · rw [if_neg hz]
      refine .inr ⟨rfl, fun a ha haz => ?_⟩
      obtain ⟨k, hk, rfl⟩ := List.getElem_of_mem ha
      obtain ⟨i, hi, e'⟩ := find k hk
      have hi0 : cmp s[i].1 b = 0 := by rw [e']; exact haz
      have hle : search s.length f ≤ i := by
        by_contra hc
        have := before i (by omega) hi
        omega
      have h4 := atpos _ (Nat.le_refl _) hpos
      rcases Nat.eq_or_lt_of_le hle with e2 | hlt
      · have : s[search s.length f] = s[i] := by congr 1
        rw [this] at hz; exact hz hi0
      · have h5 : cmp s[search s.length f].1 b ≤ 0 := by
          refine cmp_le_trans (oks _ hpos) (oks i hi) hb ?_ (by omega)
          rcases sorted _ i hpos hi hlt with h | ⟨h, _⟩ <;> omega
        omega
  · rw [List.getElem?_eq_none (by omega)]
    refine .inr ⟨rfl, fun a ha haz => ?_⟩
    obtain ⟨k, hk, rfl⟩ := List.getElem_of_mem ha
    obtain ⟨i, hi, e'⟩ := find k hk
    have := before i (by omega) hi
    rw [e'] at this
    simp only at this
    omega

end Verif.Order
