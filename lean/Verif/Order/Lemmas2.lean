import Verif.Order.Lemmas

/-! # What the outcome of a comparison means; binary search -/

namespace Verif.Order
open Verif.Num

theorem cmp_refl {u : Val} (hu : u.Ok) : cmp u u = 0 := by
  have := cmp_anti hu hu; omega

theorem Kind.eq_kind {u : Val} {i : Nat} (h : Kind u i) : kind u = i := by
  cases h with
  | num h => rename_i a; cases a <;> first | exact h.elim | rfl
  | _ => rfl

theorem kind_Kind (u : Val) : Kind u (kind u) := by
  cases u with
  | num a => cases a <;> constructor <;> trivial
  | _ => constructor

theorem sgn2Int_neg {a b : Int} : sgn2Int a b = -1 ↔ a < b := by
  unfold sgn2Int; split
  · omega
  · split <;> omega

theorem lex_zero {p q : Int} : (if p ≠ 0 then p else q) = 0 ↔ p = 0 ∧ q = 0 := by
  split <;> omega

theorem cmpList_zero {l : List Val} : ∀ {m : List Val}, l.length = m.length →
    (cmpList l m = 0 ↔ ∀ i (h : i < l.length) (h' : i < m.length), cmp l[i] m[i] = 0) := by
  induction l with
  | nil => intro m h; cases m <;> simp [cmpList]
  | cons x xs ih =>
    intro m h
    cases m with
    | nil => simp at h
    | cons y ys =>
      rw [cmpList, lex_zero, ih (by simpa using h)]
      constructor
      · rintro ⟨h1, h2⟩ i hi hi'
        cases i with
        | zero => exact h1
        | succ i => exact h2 i (by simpa using hi) (by simpa using hi')
      · intro H
        exact ⟨H 0 (by simp) (by simp), fun i hi hi' => H (i + 1) (by simpa using hi) (by simpa using hi')⟩

theorem cmpList_neg {l : List Val} : ∀ {m : List Val}, l.length = m.length →
    (cmpList l m = -1 ↔ ∃ k, ∃ (h : k < l.length) (h' : k < m.length),
      (∀ i (hi : i < k), cmp (l[i]'(by omega)) (m[i]'(by omega)) = 0) ∧ cmp l[k] m[k] = -1) := by
  induction l with
  | nil => intro m h; cases m <;> simp [cmpList]
  | cons x xs ih =>
    intro m h
    cases m with
    | nil => simp at h
    | cons y ys =>
      have ih := ih (m := ys) (by simpa using h)
      rw [cmpList]
      constructor
      · intro H
        split at H
        · exact ⟨0, by simp, by simp, fun i hi => by omega, H⟩
        · obtain ⟨k, h1, h2, h3, h4⟩ := ih.1 H
          refine ⟨k + 1, by simpa using h1, by simpa using h2, fun i hi => ?_, h4⟩
          cases i with
          | zero => simpa using ‹¬ cmp x y ≠ 0›
          | succ i => exact h3 i (by omega)
      · rintro ⟨k, h1, h2, h3, h4⟩
        cases k with
        | zero => rw [if_pos]; exact h4; have : cmp x y = -1 := h4; omega
        | succ k =>
          have h0 : cmp x y = 0 := h3 0 (by omega)
          rw [if_neg (by omega)]
          exact ih.2 ⟨k, by simpa using h1, by simpa using h2, fun i hi => h3 (i + 1) (by omega), h4⟩

theorem num_cases (n : Num) : n.isNum ∨ ∃ c, n = .char c := by
  cases n <;> simp [Num.isNum]

theorem cmp_meaning {u : Val} (hu : u.Ok) : ∀ {v : Val}, v.Ok →
    (cmp u v = 0 ↔ SameData u v) ∧ (cmp u v = -1 ↔ Below u v) := by
  have main : ∀ {u v : Val}, u.Ok → v.Ok → (kind u = kind v → (cmp u v = 0 ↔ SameData u v) ∧ (cmp u v = -1 ↔ Below u v)) →
      (cmp u v = 0 ↔ SameData u v) ∧ (cmp u v = -1 ↔ Below u v) := by
    intro u v hu hv H
    have same : SameData u v → kind u = kind v := by
      intro h
      cases h with
      | num a b c => rw [Kind.eq_kind (.num a), Kind.eq_kind (.num b)]
      | _ => rfl
    have below : Below u v → kind u ≤ kind v := by
      intro h
      cases h with
      | kind a b c => rw [a.eq_kind, b.eq_kind]; omega
      | num a b c => rw [Kind.eq_kind (.num a), Kind.eq_kind (.num b)]
      | _ => exact Nat.le_refl _
    rcases Nat.lt_trichotomy (kind u) (kind v) with h | h | h
    · rw [cmp_kind_lt hu hv h]
      exact ⟨⟨fun e => by omega, fun e => by have := same e; omega⟩, ⟨fun _ => .kind (kind_Kind u) (kind_Kind v) h, fun _ => rfl⟩⟩
    · exact H h
    · rw [cmp_kind_gt hu hv h]
      exact ⟨⟨fun e => by omega, fun e => by have := same e; omega⟩, ⟨fun e => by omega, fun e => by have := below e; omega⟩⟩
  have block : ∀ {l m : List Val}, AllOk l → AllOk m → (∀ x ∈ l, ∀ {v : Val}, v.Ok → (cmp x v = 0 ↔ SameData x v) ∧ (cmp x v = -1 ↔ Below x v)) →
      ((if l.length ≠ m.length then sgn2Int l.length m.length else cmpList l m) = 0 ↔
        l.length = m.length ∧ ∀ i (h : i < l.length) (h' : i < m.length), SameData l[i] m[i]) ∧
      ((if l.length ≠ m.length then sgn2Int l.length m.length else cmpList l m) = -1 ↔
        l.length < m.length ∨ l.length = m.length ∧ ∃ k, ∃ (h : k < l.length) (h' : k < m.length),
      (∀ i (hi : i < k), SameData (l[i]'(by omega)) (m[i]'(by omega))) ∧ Below l[k] m[k]) := by
    intro l m hl hm ih
    by_cases e : l.length = m.length
    · rw [if_neg (by omega), cmpList_zero e, cmpList_neg e]
      refine ⟨⟨fun H => ⟨e, fun i h h' => (ih _ (List.getElem_mem h) (hm _ (List.getElem_mem h'))).1.1 (H i h h')⟩,
        fun H i h h' => (ih _ (List.getElem_mem h) (hm _ (List.getElem_mem h'))).1.2 (H.2 i h h')⟩, ?_, ?_⟩
      · rintro ⟨k, h1, h2, h3, h4⟩
        exact .inr ⟨e, k, h1, h2, fun i hi => (ih _ (List.getElem_mem _) (hm _ (List.getElem_mem _))).1.1 (h3 i hi),
          (ih _ (List.getElem_mem _) (hm _ (List.getElem_mem _))).2.1 h4⟩
      · rintro (h | ⟨_, k, h1, h2, h3, h4⟩)
        · omega
        · exact ⟨k, h1, h2, fun i hi => (ih _ (List.getElem_mem _) (hm _ (List.getElem_mem _))).1.2 (h3 i hi),
            (ih _ (List.getElem_mem _) (hm _ (List.getElem_mem _))).2.2 h4⟩
    · rw [if_pos e, sgn2Int_zero, sgn2Int_neg]
      exact ⟨⟨fun H => by omega, fun H => (e H.1).elim⟩, ⟨fun H => .inl (by omega), fun H => by rcases H with H | H <;> omega⟩⟩
  induction hu with
  | num n =>
    intro v hv
    refine main (.num n) hv fun h => ?_
    cases hv with
    | num m =>
      rcases num_cases n with hn | ⟨c, rfl⟩ <;> rcases num_cases m with hm | ⟨d, rfl⟩
      · rw [cmp, cmpNum_num hn hm, ratCmp_zero, ratCmp_neg]
        constructor
        · exact ⟨fun e => .num hn hm e, fun e => by cases e <;> first | exact hn.elim | assumption⟩
        · refine ⟨fun e => .num hn hm e, fun e => ?_⟩
          cases e with
          | kind a b c => rw [a.eq_kind, b.eq_kind] at h; omega
          | char _ => exact hn.elim
          | num _ _ c => exact c
      · rw [Kind.eq_kind (.num hn)] at h; cases h
      · rw [Kind.eq_kind (.num hm)] at h; cases h
      · show (sgn2Int c d = 0 ↔ _) ∧ (sgn2Int c d = -1 ↔ _)
        rw [sgn2Int_zero, sgn2Int_neg]
        constructor
        · refine ⟨fun e => by subst e; exact .char c, fun e => ?_⟩
          cases e with
          | char _ => rfl
          | num a _ _ => exact a.elim
        · refine ⟨fun e => .char e, fun e => ?_⟩
          cases e with
          | kind a b c => rw [a.eq_kind, b.eq_kind] at h; omega
          | char h => exact h
          | num a _ _ => exact a.elim
    | _ => rcases num_cases n with hn | ⟨c, rfl⟩
           · rw [Kind.eq_kind (.num hn)] at h; cases h
           · cases h
  | cplx a b c =>
    intro v hv
    refine main (.cplx a b c) hv fun h => ?_
    cases hv with
    | cplx a' b' c' =>
      rw [cmp, cmpNum_num a a', cmpNum_num b b', lex_zero]
      constructor
      · exact ⟨fun e => .cplx (ratCmp_zero.1 e.1) (ratCmp_zero.1 e.2), fun e => by cases e with | cplx p q => exact ⟨ratCmp_zero.2 p, ratCmp_zero.2 q⟩⟩
      · constructor
        · intro e
          split at e
          · exact .re (ratCmp_neg.1 e)
          · rename_i hz; exact .im (ratCmp_zero.1 (not_not.1 hz)) (ratCmp_neg.1 e)
        · intro e
          cases e with
          | kind p q r => rw [p.eq_kind, q.eq_kind] at h; omega
          | re p => have := ratCmp_neg.2 p; rw [if_pos (by omega)]; exact this
          | im p q => have := ratCmp_zero.2 p; rw [if_neg (by omega)]; exact ratCmp_neg.2 q
    | num m => rcases num_cases m with hm | ⟨c, rfl⟩
               · rw [Kind.eq_kind (.num hm)] at h; cases h
               · cases h
    | _ => cases h
  | vec a ih =>
    intro v hv
    refine main (.vec a) hv fun h => ?_
    cases hv with
    | vec b =>
      rw [cmp]
      obtain ⟨h1, h2⟩ := block a b (fun x hx _ hv => ih x hx hv)
      rw [h1, h2]
      constructor
      · exact ⟨fun e => .vec e.1 e.2, fun e => by cases e with | vec p q => exact ⟨p, q⟩⟩
      · constructor
        · rintro (e | ⟨e, k, x1, x2, x3, x4⟩)
          · exact .vecLen e
          · exact .vec k x1 x2 e x3 x4
        · intro e
          cases e with
          | kind p q r => rw [p.eq_kind, q.eq_kind] at h; omega
          | vecLen p => exact .inl p
          | vec k x1 x2 e x3 x4 => exact .inr ⟨e, k, x1, x2, x3, x4⟩
    | num m => rcases num_cases m with hm | ⟨c, rfl⟩
               · rw [Kind.eq_kind (.num hm)] at h; cases h
               · cases h
    | _ => cases h
  | mat a ih =>
    intro v hv
    refine main (.mat a) hv fun h => ?_
    cases hv with
    | mat b =>
      rw [cmp]
      obtain ⟨h1, h2⟩ := block a b (fun x hx _ hv => ih x hx hv)
      rw [h1, h2]
      constructor
      · exact ⟨fun e => .mat e.1 e.2, fun e => by cases e with | mat p q => exact ⟨p, q⟩⟩
      · constructor
        · rintro (e | ⟨e, k, x1, x2, x3, x4⟩)
          · exact .matLen e
          · exact .mat k x1 x2 e x3 x4
        · intro e
          cases e with
          | kind p q r => rw [p.eq_kind, q.eq_kind] at h; omega
          | matLen p => exact .inl p
          | mat k x1 x2 e x3 x4 => exact .inr ⟨e, k, x1, x2, x3, x4⟩
    | num m => rcases num_cases m with hm | ⟨c, rfl⟩
               · rw [Kind.eq_kind (.num hm)] at h; cases h
               · cases h
    | _ => cases h

/-! ## Consequences of the laws -/

theorem cmp_le_trans {u v w : Val} (hu : u.Ok) (hv : v.Ok) (hw : w.Ok) (h1 : cmp u v ≤ 0) (h2 : cmp v w ≤ 0) : cmp u w ≤ 0 :=
  (cmp_tr hu v w hv hw h1 h2).1

theorem cmp_eq_trans {u v w : Val} (hu : u.Ok) (hv : v.Ok) (hw : w.Ok) (h1 : cmp u v = 0) (h2 : cmp v w = 0) : cmp u w = 0 := by
  have a := cmp_le_trans hu hv hw (by omega) (by omega)
  have b := cmp_le_trans hw hv hu (by rw [cmp_anti hv hw]; omega) (by rw [cmp_anti hu hv]; omega)
  rw [cmp_anti hu hw] at b
  omega

/-- A comparison that obeys the laws on the elements of a list. -/
structure Laws {α : Type} (f : α → α → Int) (l : List α) : Prop where
  anti : ∀ a ∈ l, ∀ b ∈ l, f b a = - f a b
  tr : ∀ a ∈ l, ∀ b ∈ l, ∀ c ∈ l, Tr (f a b) (f b c) (f a c)

theorem Laws.eq_trans {α : Type} {f : α → α → Int} {l : List α} (h : Laws f l) {a b c : α} (ha : a ∈ l) (hb : b ∈ l) (hc : c ∈ l)
    (h1 : f a b = 0) (h2 : f b c = 0) : f a c = 0 := by
  have p := (h.tr a ha b hb c hc (by omega) (by omega)).1
  have q := (h.tr c hc b hb a ha (by rw [h.anti b hb c hc]; omega) (by rw [h.anti a ha b hb]; omega)).1
  rw [h.anti a ha c hc] at q
  omega

theorem Laws.strictWeak {α : Type} {f : α → α → Int} {l : List α} (h : Laws f l) {less : α → α → Bool}
    (hl : ∀ a b, less a b = true ↔ f a b < 0) : StrictWeakOn less l := by
  have hf : ∀ a b, less a b = false ↔ 0 ≤ f a b := by
    intro a b
    rw [← Bool.not_eq_true, hl]; omega
  constructor
  · intro a ha; rw [hf]; have := h.anti a ha a ha; omega
  · intro a ha b hb c hc; rw [hl, hl, hl]
    intro p q
    have := h.tr a ha b hb c hc (by omega) (by omega)
    by_contra hn
    have := this.2 (by omega)
    omega
  · intro a ha b hb c hc; rw [hf, hf, hf, hf, hf, hf]
    intro p q r s
    have x1 := h.anti a ha b hb
    have x2 := h.anti b hb c hc
    have x3 := h.anti a ha c hc
    have := h.eq_trans ha hb hc (by omega) (by omega)
    omega

theorem cmp_laws {l : List Val} (h : AllOk l) : Laws cmp l :=
  ⟨fun a ha b hb => cmp_anti (h a ha) (h b hb), fun a ha b hb c hc => cmp_tr (h a ha) b c (h b hb) (h c hc)⟩

theorem Laws.comap {α β : Type} {f : α → α → Int} {l : List α} (h : Laws f l) {m : List β} (g : β → α) (hg : ∀ b ∈ m, g b ∈ l) :
    Laws (fun a b => f (g a) (g b)) m :=
  ⟨fun a ha b hb => h.anti _ (hg a ha) _ (hg b hb), fun a ha b hb c hc => h.tr _ (hg a ha) _ (hg b hb) _ (hg c hc)⟩

/-! ## Binary search -/

theorem searchLoop_spec {f : Nat → Bool} {n : Nat} (hf : ∀ a b, a ≤ b → b < n → f a = true → f b = true) (i j : Nat)
    (hij : i ≤ j) (hjn : j ≤ n) (lo : ∀ k < i, f k = false) (hi : ∀ k, j ≤ k → k < n → f k = true) :
    searchLoop f i j ≤ n ∧ (∀ k < searchLoop f i j, f k = false) ∧ ∀ k, searchLoop f i j ≤ k → k < n → f k = true := by
  fun_induction searchLoop f i j with
  | case1 i j h hm ih =>
    refine ih (by omega) hjn (fun k hk => ?_) hi
    by_contra hc
    have := hf k ((i + j) / 2) (by omega) (by omega) (by simpa using hc)
    rw [hm] at this; cases this
  | case2 i j h hm ih =>
    refine ih (by omega) (by omega) lo (fun k hk hkn => ?_)
    exact hf _ _ hk hkn (by simpa using hm)
  | case3 i j h => exact ⟨by omega, lo, fun k hk hkn => hi k (by omega) hkn⟩

theorem search_spec {f : Nat → Bool} {n : Nat} (hf : ∀ a b, a ≤ b → b < n → f a = true → f b = true) :
    search n f ≤ n ∧ (∀ k < search n f, f k = false) ∧ ∀ k, search n f ≤ k → k < n → f k = true :=
  searchLoop_spec hf 0 n (by omega) (by omega) (fun _ h => by omega) (fun _ h h' => by omega)

end Verif.Order
