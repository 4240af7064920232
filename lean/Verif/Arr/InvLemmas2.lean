import Verif.Arr.InvLemmas
import Verif.Arr.Lemmas

/-!
# Gaussian elimination on elements
-/

namespace Verif.Arr
variable {α β σ τ K : Type} [Field K]

theorem R.bind_eq_ok {r : R σ} {f : σ → R τ} {b : τ} : r.bind f = .ok b ↔ ∃ a, r = .ok a ∧ f a = .ok b := by
  cases r <;> simp [R.bind]

theorem mapR_ok {f : Nat → R β} : ∀ {ks : List Nat} {l : List β}, mapR f ks = .ok l →
    l.length = ks.length ∧ ∀ (i k : Nat), ks[i]? = some k → ∃ v, l[i]? = some v ∧ f k = .ok v
  | [], l, h => by cases h; simp
  | k :: ks, l, h => by
    simp only [mapR, R.bind_eq_ok] at h
    obtain ⟨x, h1, l', h2, h3⟩ := h
    cases h3
    obtain ⟨a, b⟩ := mapR_ok h2
    refine ⟨by simp [a], ?_⟩
    intro i k' hk
    cases i with
    | zero => simp only [List.getElem?_cons_zero, Option.some.injEq] at hk; subst hk; exact ⟨x, rfl, h1⟩
    | succ i => simp only [List.getElem?_cons_succ] at hk ⊢; exact b i k' hk

theorem mapR_range {f : Nat → R β} {n : Nat} {l : List β} (h : mapR f (List.range n) = .ok l) :
    l.length = n ∧ ∀ i, i < n → ∃ v, l[i]? = some v ∧ f i = .ok v := by
  obtain ⟨a, b⟩ := mapR_ok h
  exact ⟨by simpa using a, fun i hi => b i i (by simp [hi])⟩

theorem mapR_total {f : Nat → R β} : ∀ {ks : List Nat}, (∀ k ∈ ks, ∃ v, f k = .ok v) → ∃ l, mapR f ks = .ok l
  | [], _ => ⟨[], rfl⟩
  | k :: ks, h => by
    obtain ⟨v, hv⟩ := h k (by simp)
    obtain ⟨l, hl⟩ := mapR_total (f := f) (ks := ks) (fun k' hk => h k' (by simp [hk]))
    exact ⟨v :: l, by simp [mapR, hv, hl, R.bind]⟩

theorem vAt_some {l : List β} {i : Nat} {x : β} (h : l[i]? = some x) : vAt l i = .ok x := by simp [vAt, h]

theorem vAt_eq_ok {l : List β} {i : Nat} {x : β} : vAt l i = .ok x ↔ l[i]? = some x := by
  unfold vAt; split <;> simp_all

/-- The value of an element of the table. -/
def ent (val : α → K) (t : List (List α)) (i j : Nat) : K :=
  match t[i]? with
  | some row => match row[j]? with
    | some a => val a
    | none => 0
  | none => 0

/-- A table of `n` rows of `2 * n` elements of the kind `P`. -/
def Good (n : Nat) (P : α → Prop) (t : List (List α)) : Prop :=
  t.length = n ∧ ∀ row ∈ t, row.length = 2 * n ∧ ∀ a ∈ row, P a

theorem Good.row {n : Nat} {P : α → Prop} {t : List (List α)} (h : Good n P t) {i : Nat} (hi : i < n) :
    ∃ row, t[i]? = some row ∧ row.length = 2 * n ∧ ∀ a ∈ row, P a := by
  have hl : i < t.length := by rw [h.1]; exact hi
  exact ⟨t[i], List.getElem?_eq_getElem hl, h.2 _ (List.getElem_mem hl)⟩

theorem row_get {n : Nat} {P : α → Prop} {row : List α} (h : row.length = 2 * n ∧ ∀ a ∈ row, P a) {j : Nat} (hj : j < 2 * n) :
    ∃ a, row[j]? = some a ∧ P a := by
  have hl : j < row.length := by rw [h.1]; exact hj
  exact ⟨row[j], List.getElem?_eq_getElem hl, h.2 _ (List.getElem_mem hl)⟩

theorem ent_eq {val : α → K} {t : List (List α)} {i j : Nat} {row : List α} {a : α} (h : t[i]? = some row) (h' : row[j]? = some a) :
    ent val t i j = val a := by simp [ent, h, h']

theorem Good.get {n : Nat} {P : α → Prop} {t : List (List α)} (h : Good n P t) {i j : Nat} (hi : i < n) (hj : j < 2 * n)
    (val : α → K) : ∃ row a, t[i]? = some row ∧ row[j]? = some a ∧ P a ∧ ent val t i j = val a := by
  obtain ⟨row, h1, h2⟩ := h.row hi
  obtain ⟨a, h3, h4⟩ := row_get h2 hj
  exact ⟨row, a, h1, h3, h4, ent_eq h1 h3⟩

theorem Good.set {n : Nat} {P : α → Prop} {t : List (List α)} (h : Good n P t) {y : Nat} {row : List α}
    (hr : row.length = 2 * n ∧ ∀ a ∈ row, P a) : Good n P (t.set y row) := by
  refine ⟨by simp [h.1], ?_⟩
  intro r hrow
  rcases List.mem_or_eq_of_mem_set hrow with hm | hm
  · exact h.2 r hm
  · rw [hm]; exact hr

theorem ent_set_ne {val : α → K} {t : List (List α)} {i y : Nat} (h : i ≠ y) (row : List α) (j : Nat) :
    ent val (t.set y row) i j = ent val t i j := by
  simp [ent, List.getElem?_set, Ne.symm h]

theorem ent_set {val : α → K} {t : List (List α)} {y j : Nat} {row : List α} {a : α} (h : y < t.length) (h' : row[j]? = some a) :
    ent val (t.set y row) y j = val a := by
  simp [ent, List.getElem?_set, h, h']

variable {o : Ops α} {P : α → Prop} {val : α → K}

theorem scaleRow_ok (ho : o.Exact P val) {n x : Nat} {row l : List α} {s : α} (hrow : row.length = 2 * n ∧ ∀ a ∈ row, P a)
    (hs : P s) (h : scaleRow o n x s row = .ok l) :
    (l.length = 2 * n ∧ ∀ a ∈ l, P a) ∧ ∀ j, j < 2 * n → ∃ a, l[j]? = some a ∧
      (j = x → val a = 1) ∧ (j ≠ x → ∃ b, row[j]? = some b ∧ val a = val b * val s) := by
  obtain ⟨hl, h⟩ := mapR_range h
  have key : ∀ j, j < 2 * n → ∃ a, l[j]? = some a ∧ P a ∧
      (j = x → val a = 1) ∧ (j ≠ x → ∃ b, row[j]? = some b ∧ val a = val b * val s) := by
    intro j hj
    obtain ⟨v, h1, h2⟩ := h j hj
    refine ⟨v, h1, ?_⟩
    by_cases hx : j = x
    · rw [if_pos hx] at h2
      cases h2
      exact ⟨ho.one.1, fun _ => ho.one.2, fun h => absurd hx h⟩
    · rw [if_neg hx] at h2
      obtain ⟨b, h3, h4⟩ := R.bind_eq_ok.1 h2
      rw [vAt_eq_ok] at h3
      have hm := ho.mul b s v (hrow.2 b (List.mem_of_getElem? h3)) hs h4
      exact ⟨hm.1, fun h => absurd h hx, fun _ => ⟨b, h3, hm.2⟩⟩
  refine ⟨⟨hl, ?_⟩, fun j hj => ?_⟩
  · intro a ha
    obtain ⟨j, hj⟩ := List.getElem?_of_mem ha
    obtain ⟨a', h1, h2, _⟩ := key j (by rw [← hl]; exact (List.getElem?_eq_some_iff.1 hj).1)
    rw [hj] at h1; cases h1; exact h2
  · obtain ⟨a, h1, _, h2⟩ := key j hj
    exact ⟨a, h1, h2⟩

theorem subRow_ok (ho : o.Exact P val) {n x : Nat} {this row l : List α} {q : α} (hthis : this.length = 2 * n ∧ ∀ a ∈ this, P a)
    (hrow : row.length = 2 * n ∧ ∀ a ∈ row, P a) (hq : P q) (h : subRow o n x q this row = .ok l) :
    (l.length = 2 * n ∧ ∀ a ∈ l, P a) ∧ ∀ j, j < 2 * n → ∃ a, l[j]? = some a ∧
      (j = x → val a = 0) ∧ (j ≠ x → ∃ b c, this[j]? = some b ∧ row[j]? = some c ∧ val a = val b - val q * val c) := by
  obtain ⟨hl, h⟩ := mapR_range h
  have key : ∀ j, j < 2 * n → ∃ a, l[j]? = some a ∧ P a ∧
      (j = x → val a = 0) ∧ (j ≠ x → ∃ b c, this[j]? = some b ∧ row[j]? = some c ∧ val a = val b - val q * val c) := by
    intro j hj
    obtain ⟨v, h1, h2⟩ := h j hj
    refine ⟨v, h1, ?_⟩
    by_cases hx : j = x
    · rw [if_pos hx] at h2
      cases h2
      exact ⟨ho.zero.1, fun _ => ho.zero.2, fun h => absurd hx h⟩
    · rw [if_neg hx] at h2
      obtain ⟨b, h3, h4⟩ := R.bind_eq_ok.1 h2
      obtain ⟨c, h5, h6⟩ := R.bind_eq_ok.1 h4
      obtain ⟨p, h7, h8⟩ := R.bind_eq_ok.1 h6
      rw [vAt_eq_ok] at h3 h5
      have hp := ho.mul q c p hq (hrow.2 c (List.mem_of_getElem? h5)) h7
      have hv := ho.sub b p v (hthis.2 b (List.mem_of_getElem? h3)) hp.1 h8
      exact ⟨hv.1, fun h => absurd h hx, fun _ => ⟨b, c, h3, h5, by rw [hv.2, hp.2]⟩⟩
  refine ⟨⟨hl, ?_⟩, fun j hj => ?_⟩
  · intro a ha
    obtain ⟨j, hj⟩ := List.getElem?_of_mem ha
    obtain ⟨a', h1, h2, _⟩ := key j (by rw [← hl]; exact (List.getElem?_eq_some_iff.1 hj).1)
    rw [hj] at h1; cases h1; exact h2
  · obtain ⟨a, h1, _, h2⟩ := key j hj
    exact ⟨a, h1, h2⟩

/-- The search for a row never fails; it finds the first. -/
theorem findRow_eq (ho : o.Exact P val) {n x y : Nat} {t : List (List α)} (h : Good n P t) (hx : x < n) : ∀ (rs : List Nat),
    (∀ r ∈ rs, r < n) → List.Pairwise (· < ·) rs →
    (findRow o t x y rs = .ok none ∧ ∀ r ∈ rs, r ≠ y → ent val t r x = 0) ∨
    ∃ r ∈ rs, findRow o t x y rs = .ok (some r) ∧ r ≠ y ∧ ent val t r x ≠ 0 ∧ ∀ r' ∈ rs, r' < r → r' ≠ y → ent val t r' x = 0
  | [], _, _ => .inl ⟨rfl, by simp⟩
  | r :: rs, hr, hs => by
    have ih := findRow_eq ho h hx (y := y) rs (fun r' h' => hr r' (by simp [h'])) (List.pairwise_cons.1 hs).2
    have hlt := (List.pairwise_cons.1 hs).1
    by_cases hry : r = y
    · rw [findRow, if_pos hry]
      rcases ih with ⟨h1, h2⟩ | ⟨r1, h0, h1, h2, h3, h4⟩
      · refine .inl ⟨h1, ?_⟩
        intro r' h' hy
        rcases List.mem_cons.1 h' with e | e
        · exact absurd (e.trans hry) hy
        · exact h2 r' e hy
      · refine .inr ⟨r1, by simp [h0], h1, h2, h3, ?_⟩
        intro r' h' hl hy
        rcases List.mem_cons.1 h' with e | e
        · exact absurd (e.trans hry) hy
        · exact h4 r' e hl hy
    · obtain ⟨row, a, e1, e2, e3, e4⟩ := h.get (hr r (by simp)) (show x < 2 * n by omega) val
      rw [findRow, if_neg hry, vAt_some e1]
      simp only [R.bind, vAt_some e2]
      by_cases hz : o.isZero a = true
      · rw [if_pos hz]
        have hz' := (ho.isZero a e3).1 hz
        rcases ih with ⟨h1, h2⟩ | ⟨r1, h0, h1, h2, h3, h4⟩
        · refine .inl ⟨h1, ?_⟩
          intro r' h' hy
          rcases List.mem_cons.1 h' with e | e
          · rw [e, e4, hz']
          · exact h2 r' e hy
        · refine .inr ⟨r1, by simp [h0], h1, h2, h3, ?_⟩
          intro r' h' hl hy
          rcases List.mem_cons.1 h' with e | e
          · rw [e, e4, hz']
          · exact h4 r' e hl hy
      · rw [if_neg hz]
        refine .inr ⟨r, by simp, rfl, hry, ?_, ?_⟩
        · rw [e4]; exact fun hh => hz ((ho.isZero a e3).2 hh)
        · intro r' h' hl _
          rcases List.mem_cons.1 h' with e | e
          · omega
          · have := hlt r' e; omega

theorem findRow_range (ho : o.Exact P val) {n x y : Nat} {t : List (List α)} (h : Good n P t) (hx : x < n) :
    (findRow o t x y (List.range' x (n - x)) = .ok none ∧ ∀ r, x ≤ r → r < n → r ≠ y → ent val t r x = 0) ∨
    ∃ r, x ≤ r ∧ r < n ∧ findRow o t x y (List.range' x (n - x)) = .ok (some r) ∧ r ≠ y ∧ ent val t r x ≠ 0 ∧
      ∀ r', x ≤ r' → r' < r → r' ≠ y → ent val t r' x = 0 := by
  have hm : ∀ r, r ∈ List.range' x (n - x) ↔ x ≤ r ∧ r < n := by
    intro r; rw [List.mem_range'_1]; omega
  rcases findRow_eq ho h hx (y := y) (List.range' x (n - x)) (fun r hr => ((hm r).1 hr).2) (List.pairwise_lt_range') with
    ⟨h1, h2⟩ | ⟨r, h0, h1, h2, h3, h4⟩
  · exact .inl ⟨h1, fun r ha hb => h2 r ((hm r).2 ⟨ha, hb⟩)⟩
  · have := (hm r).1 h0
    exact .inr ⟨r, this.1, this.2, h1, h2, h3, fun r' ha hb => h4 r' ((hm r').2 ⟨ha, by omega⟩) hb⟩

/-- The body of the loops. -/
theorem invStep_ok (ho : o.Exact P val) {n x y : Nat} {t t' : List (List α)} (h : Good n P t) (hx : x < n) (hy : y < n)
    (hs : invStep o n x y t = .ok t') : Good n P t' ∧ KStep n x y (ent val t) (ent val t') := by
  obtain ⟨this, h1, h2⟩ := h.row hy
  obtain ⟨a, h3, h4⟩ := row_get h2 (show x < 2 * n by omega)
  have hyt : y < t.length := by rw [h.1]; exact hy
  have ea : ent val t y x = val a := ent_eq h1 h3
  unfold invStep at hs
  rw [vAt_some h1] at hs
  simp only [R.bind, vAt_some h3] at hs
  rw [if_neg (by simp [ho.scalar a h4])] at hs
  by_cases hyx : y = x
  · rw [if_pos hyx] at hs
    by_cases hz : o.isZero a = true
    · rw [if_pos hz] at hs; cases hs
    · rw [if_neg hz] at hs
      have hz' : val a ≠ 0 := fun hh => hz ((ho.isZero a h4).2 hh)
      obtain ⟨s, h5, h6⟩ := R.bind_eq_ok.1 hs
      obtain ⟨row, h7, h8⟩ := R.bind_eq_ok.1 h6
      cases h8
      have hsv := ho.recip a s h4 h5
      obtain ⟨g1, g2⟩ := scaleRow_ok ho h2 hsv.1 h7
      have es : val s = 1 / val a := by rw [eq_div_iff hz']; exact hsv.2
      subst hyx
      refine ⟨h.set g1, fun i _ hi j _ => ent_set_ne hi _ _, .inl ⟨rfl, by rw [ea]; exact hz', ?_⟩⟩
      intro j hj
      obtain ⟨b, e1, e2, e3⟩ := g2 j hj
      rw [ent_set hyt e1, ea]
      by_cases hjx : j = y
      · rw [e2 hjx, hjx, ea, div_self hz']
      · obtain ⟨c, e4, e5⟩ := e3 hjx
        rw [e5, ent_eq h1 e4, es]; ring
  · rw [if_neg hyx] at hs
    by_cases hz : o.isZero a = true
    · rw [if_pos hz] at hs
      cases hs
      exact ⟨h, fun i _ _ j _ => rfl, .inr (.inl ⟨hyx, by rw [ea]; exact (ho.isZero a h4).1 hz, fun j _ => rfl⟩)⟩
    · rw [if_neg hz] at hs
      have hz' : val a ≠ 0 := fun hh => hz ((ho.isZero a h4).2 hh)
      rcases findRow_range ho h hx (y := y) with ⟨f1, _⟩ | ⟨r, f0, f0', f1, f2, f3, f4⟩
      · rw [f1] at hs; simp [R.bind] at hs
      · rw [f1] at hs
        obtain ⟨row, k1, k2⟩ := h.row f0'
        obtain ⟨p, k3, k4⟩ := row_get k2 (show x < 2 * n by omega)
        simp only [R.bind, vAt_some k1, vAt_some k3] at hs
        have ep : ent val t r x = val p := ent_eq k1 k3
        obtain ⟨q, h5, h6⟩ := R.bind_eq_ok.1 hs
        obtain ⟨row', h7, h8⟩ := R.bind_eq_ok.1 h6
        cases h8
        have hqv := ho.div a p q h4 k4 h5
        obtain ⟨g1, g2⟩ := subRow_ok ho h2 k2 hqv.1 h7
        have hp : val p ≠ 0 := by rw [← ep]; exact f3
        have eq : val q = val a / val p := by rw [eq_div_iff hp]; exact hqv.2
        refine ⟨h.set g1, fun i _ hi j _ => ent_set_ne hi _ _, .inr (.inr ⟨hyx, by rw [ea]; exact hz', r, f0, f0', f2, f3, f4, ?_⟩)⟩
        intro j hj
        obtain ⟨b, e1, e2, e3⟩ := g2 j hj
        rw [ent_set hyt e1, ea, ep]
        by_cases hjx : j = x
        · rw [e2 hjx, hjx, ea, ep, div_mul_cancel₀ _ hp, sub_self]
        · obtain ⟨c, d, e4, e5, e6⟩ := e3 hjx
          rw [e6, ent_eq h1 e4, ent_eq k1 e5, eq]

/-- With operators that refuse only to divide by zero, the body goes wrong only if there is no row to use. -/
theorem invStep_total (ho : o.Exact P val) (hto : o.Total P val) {n x y : Nat} {t : List (List α)} (h : Good n P t) (hx : x < n)
    (hy : y < n) : (∃ t', invStep o n x y t = .ok t') ∨ (invStep o n x y t = .err nonInvertible ∧
      (y ≤ x ∨ ent val t x x = 0) ∧ (y ≥ x → ent val t x x = 0) ∧ (y ≠ x → ent val t x x = 0)) := by
  obtain ⟨this, h1, h2⟩ := h.row hy
  obtain ⟨a, h3, h4⟩ := row_get h2 (show x < 2 * n by omega)
  have ea : ent val t y x = val a := ent_eq h1 h3
  unfold invStep
  rw [vAt_some h1]
  simp only [R.bind, vAt_some h3]
  rw [if_neg (by simp [ho.scalar a h4])]
  by_cases hyx : y = x
  · rw [if_pos hyx]
    by_cases hz : o.isZero a = true
    · rw [if_pos hz]
      have := (ho.isZero a h4).1 hz
      subst hyx
      exact .inr ⟨rfl, .inl (Nat.le_refl _), fun _ => by rw [ea, this], fun h => absurd rfl h⟩
    · rw [if_neg hz]
      have hz' : val a ≠ 0 := fun hh => hz ((ho.isZero a h4).2 hh)
      obtain ⟨s, hs⟩ := hto.recip a h4 hz'
      have hsP := (ho.recip a s h4 hs).1
      obtain ⟨l, hl⟩ : ∃ l, scaleRow o n x s this = .ok l := by
        apply mapR_total
        intro k hk
        by_cases hkx : k = x
        · exact ⟨_, if_pos hkx⟩
        · obtain ⟨b, e1, e2⟩ := row_get h2 (List.mem_range.1 hk)
          obtain ⟨c, hc⟩ := hto.mul b s e2 hsP
          exact ⟨c, by rw [if_neg hkx, vAt_some e1]; exact hc⟩
      rw [hs]
      simp only [hl]
      exact .inl ⟨_, rfl⟩
  · rw [if_neg hyx]
    by_cases hz : o.isZero a = true
    · rw [if_pos hz]; exact .inl ⟨_, rfl⟩
    · rw [if_neg hz]
      have hz' : val a ≠ 0 := fun hh => hz ((ho.isZero a h4).2 hh)
      rcases findRow_range ho h hx (y := y) with ⟨f1, f2⟩ | ⟨r, f0, f0', f1, f2, f3, f4⟩
      · rw [f1]
        have := f2 x (Nat.le_refl _) hx (Ne.symm hyx)
        exact .inr ⟨rfl, .inr this, fun _ => this, fun _ => this⟩
      · rw [f1]
        obtain ⟨row, k1, k2⟩ := h.row f0'
        obtain ⟨p, k3, k4⟩ := row_get k2 (show x < 2 * n by omega)
        simp only [vAt_some k1, vAt_some k3]
        have hp : val p ≠ 0 := by rw [← ent_eq (val := val) k1 k3]; exact f3
        obtain ⟨q, hq⟩ := hto.div a p h4 k4 hp
        have hqP := (ho.div a p q h4 k4 hq).1
        obtain ⟨l, hl⟩ : ∃ l, subRow o n x q this row = .ok l := by
          apply mapR_total
          intro k hk
          by_cases hkx : k = x
          · exact ⟨_, if_pos hkx⟩
          · obtain ⟨b, e1, e2⟩ := row_get h2 (List.mem_range.1 hk)
            obtain ⟨c, e3, e4⟩ := row_get k2 (List.mem_range.1 hk)
            obtain ⟨d, hd⟩ := hto.mul q c hqP e4
            obtain ⟨e, he⟩ := hto.sub b d e2 (ho.mul q c d hqP e4 hd).1
            exact ⟨e, by rw [if_neg hkx, vAt_some e1]; simp only [R.bind, vAt_some e3, hd, he]⟩
        rw [hq]
        simp only [hl]
        exact .inl ⟨_, rfl⟩

theorem loop_append' {f : Nat → σ → R σ} : ∀ (a b : List Nat) (s : σ), loop f (a ++ b) s = (loop f a s).bind (loop f b)
  | [], _, _ => rfl
  | k :: a, b, s => by
    show (f k s).bind (loop f (a ++ b)) = ((f k s).bind (loop f a)).bind (loop f b)
    cases f k s with
    | ok s' => exact loop_append' a b s'
    | err m => rfl
    | crash => rfl
    | hang => rfl

/-- The states a loop goes through. -/
theorem loop_seq {f : Nat → σ → R σ} : ∀ (n : Nat) (s s' : σ), loop f (List.range n) s = .ok s' →
    ∃ seq : Nat → σ, seq 0 = s ∧ seq n = s' ∧ ∀ y, y < n → f y (seq y) = .ok (seq (y + 1))
  | 0, s, s', h => by cases h; exact ⟨fun _ => s, rfl, rfl, by intro y hy; omega⟩
  | n + 1, s, s', h => by
    rw [List.range_succ, loop_append'] at h
    obtain ⟨s1, h1, h2⟩ := R.bind_eq_ok.1 h
    obtain ⟨s2, h3, h4⟩ := R.bind_eq_ok.1 h2
    cases h4
    obtain ⟨seq, e0, en, es⟩ := loop_seq n s s1 h1
    refine ⟨fun k => if k ≤ n then seq k else s', by simp [e0], by simp, ?_⟩
    intro y hy
    by_cases hyn : y < n
    · dsimp only
      rw [if_pos (by omega), if_pos (by omega)]; exact es y hyn
    · have : y = n := by omega
      subst this
      dsimp only
      rw [if_pos (by omega), if_neg (by omega), en]; exact h3

/-- A loop that goes on as long as `I` holds, or ends with the error `m`. -/
theorem loop_or {f : Nat → σ → R σ} {m : String} : ∀ (n : Nat) (s : σ) (I : Nat → σ → Prop), I 0 s →
    (∀ y s, y < n → I y s → (∃ s', f y s = .ok s' ∧ I (y + 1) s') ∨ f y s = .err m) →
    (∃ s', loop f (List.range n) s = .ok s' ∧ I n s') ∨ loop f (List.range n) s = .err m
  | 0, s, I, h0, _ => .inl ⟨s, rfl, h0⟩
  | n + 1, s, I, h0, h => by
    rw [List.range_succ, loop_append']
    rcases loop_or n s I h0 (fun y s hy => h y s (by omega)) with ⟨s', h1, h2⟩ | h1
    · rw [h1]
      rcases h n s' (by omega) h2 with ⟨s2, h3, h4⟩ | h3
      · exact .inl ⟨s2, by simp [R.bind, loop, h3], h4⟩
      · exact .inr (by simp [R.bind, loop, h3])
    · exact .inr (by rw [h1]; rfl)

/-- A loop that goes on as long as `I` holds. -/
theorem loop_on {f : Nat → σ → R σ} : ∀ (n : Nat) (s : σ) (I : Nat → σ → Prop), I 0 s →
    (∀ y s, y < n → I y s → ∃ s', f y s = .ok s' ∧ I (y + 1) s') → ∃ s', loop f (List.range n) s = .ok s' ∧ I n s'
  | 0, s, I, h0, _ => ⟨s, rfl, h0⟩
  | n + 1, s, I, h0, h => by
    rw [List.range_succ, loop_append']
    obtain ⟨s', h1, h2⟩ := loop_on n s I h0 (fun y s hy => h y s (by omega))
    rw [h1]
    obtain ⟨s2, h3, h4⟩ := h n s' (by omega) h2
    exact ⟨s2, by simp [R.bind, loop, h3], h4⟩

/-- The beginning. -/
theorem invTable_ok (ho : o.Exact P val) {data : List α} {n : Nat} (hl : data.length = n * n) (hP : ∀ a ∈ data, P a) :
    ∃ t, invTable o data n = .ok t ∧ Good n P t ∧
      KInv n 0 (fun i j => match data[i * n + j]? with | some a => val a | none => 0) (ent val t) := by
  have hin : ∀ y x, y < n → x < n → y * n + x < data.length := by
    intro y x hy hx
    rw [hl]
    calc y * n + x < y * n + n := by omega
      _ = (y + 1) * n := by ring
      _ ≤ n * n := Nat.mul_le_mul_right n hy
  have hrow : ∀ y, y < n → ∃ l, invRow o data n y = .ok l := by
    intro y hy
    obtain ⟨l, h⟩ : ∃ l, mapR (fun x => vAt data (y * n + x)) (List.range n) = .ok l := by
      apply mapR_total
      intro x hx
      exact ⟨_, vAt_some (List.getElem?_eq_getElem (hin y x hy (List.mem_range.1 hx)))⟩
    exact ⟨_, by unfold invRow; rw [h]; rfl⟩
  have hrow' : ∀ y l, y < n → invRow o data n y = .ok l → l.length = 2 * n ∧ (∀ a ∈ l, P a) ∧
      (∀ x, x < n → l[x]? = data[y * n + x]?) ∧ (∀ x, x < n → ∃ a, l[n + x]? = some a ∧ val a = δ y x) := by
    intro y l hy h
    unfold invRow at h
    obtain ⟨l1, h1, h2⟩ := R.bind_eq_ok.1 h
    cases h2
    obtain ⟨g1, g2⟩ := mapR_range h1
    refine ⟨by simp [g1]; omega, ?_, ?_, ?_⟩
    · intro a ha
      rcases List.mem_append.1 ha with ha | ha
      · obtain ⟨k, hk⟩ := List.getElem?_of_mem ha
        have hkn : k < n := by rw [← g1]; exact (List.getElem?_eq_some_iff.1 hk).1
        obtain ⟨v, e1, e2⟩ := g2 k hkn
        rw [hk] at e1; cases e1
        exact hP a (List.mem_of_getElem? (vAt_eq_ok.1 e2))
      · obtain ⟨x, _, rfl⟩ := List.mem_map.1 ha
        split
        · exact ho.one.1
        · exact ho.zero.1
    · intro x hx
      obtain ⟨v, e1, e2⟩ := g2 x hx
      rw [List.getElem?_append_left (by omega), e1, vAt_eq_ok.1 e2]
    · intro x hx
      refine ⟨if x % n = y then o.one else o.zero, ?_, ?_⟩
      · rw [List.getElem?_append_right (by omega)]
        simp [g1, hx]
      · rw [Nat.mod_eq_of_lt hx]
        by_cases hxy : x = y
        · rw [if_pos hxy, hxy, δ_self, ho.one.2]
        · rw [if_neg hxy, δ_ne (Ne.symm hxy), ho.zero.2]
  obtain ⟨t, ht⟩ : ∃ t, invTable o data n = .ok t := mapR_total fun y hy => hrow y (List.mem_range.1 hy)
  obtain ⟨g1, g2⟩ := mapR_range ht
  have hR : ∀ i, i < n → ∀ x, x < n → ent val t i (n + x) = δ i x := by
    intro i hi x hx
    obtain ⟨row, e1, e2⟩ := g2 i hi
    obtain ⟨a, e3, e4⟩ := (hrow' i row hi e2).2.2.2 x hx
    rw [ent_eq e1 e3, e4]
  refine ⟨t, ht, ⟨g1, ?_⟩, ?_, ?_, fun i hi j hj _ => hR i hi j hj⟩
  · intro row hr
    obtain ⟨k, hk⟩ := List.getElem?_of_mem hr
    have hkn : k < n := by rw [← g1]; exact (List.getElem?_eq_some_iff.1 hk).1
    obtain ⟨v, e1, e2⟩ := g2 k hkn
    rw [hk] at e1; cases e1
    have := hrow' k row hkn e2
    exact ⟨this.1, this.2.1⟩
  · intro i hi j hj
    obtain ⟨row, e1, e2⟩ := g2 i hi
    have e3 := (hrow' i row hi e2).2.2.1 j hj
    rw [Finset.sum_eq_single i]
    · rw [hR i hi i hi, δ_self, one_mul]
      simp only [ent, e1, e3]
    · intro k hk hki
      rw [hR i hi k (Finset.mem_range.1 hk), δ_ne (Ne.symm hki), zero_mul]
    · intro hc; exact absurd (Finset.mem_range.2 hi) hc
  · intro i hi j hj hc
    omega

/-- The first `k` rows and columns are not singular. -/
def MinorOk (M : Nat → Nat → K) (k : Nat) : Prop := Matrix.det (fun i j : Fin k => M i j) ≠ 0

/-- One column that succeeds. -/
theorem column_ok (ho : o.Exact P val) {n x : Nat} {M : Nat → Nat → K} {t t' : List (List α)} (hx : x < n) (h : Good n P t)
    (hi : KInv n x M (ent val t)) (hs : loop (fun y => invStep o n x y) (List.range n) t = .ok t') :
    Good n P t' ∧ KInv n (x + 1) M (ent val t') ∧ MinorOk M (x + 1) := by
  obtain ⟨seq, e0, en, es⟩ := loop_seq n t t' hs
  have hg : ∀ y, y ≤ n → Good n P (seq y) := by
    intro y
    induction y with
    | zero => intro _; rw [e0]; exact h
    | succ y ih => intro hy; exact (invStep_ok ho (ih (by omega)) hx (by omega) (es y (by omega))).1
  have hc : Col n x (fun y => ent val (seq y)) n := fun y hy => (invStep_ok ho (hg y (by omega)) hx hy (es y hy)).2
  have h0 : KInv n x M ((fun y => ent val (seq y)) 0) := by dsimp only; rw [e0]; exact hi
  have a := hc.inv hx h0
  have b := hc.pivot hx
  rw [en] at a
  refine ⟨en ▸ hg n (Nat.le_refl _), a, ?_⟩
  rw [e0] at b
  exact (pivot_iff hx hi).1 b

/-- All columns. -/
theorem eliminate_ok (ho : o.Exact P val) {n : Nat} {M : Nat → Nat → K} {t t' : List (List α)} (h : Good n P t)
    (hi : KInv n 0 M (ent val t)) (hs : eliminate o n t = .ok t') :
    Good n P t' ∧ KInv n n M (ent val t') ∧ ∀ k, 1 ≤ k → k ≤ n → MinorOk M k := by
  obtain ⟨seq, e0, en, es⟩ := loop_seq n t t' hs
  have hg : ∀ x, x ≤ n → Good n P (seq x) ∧ KInv n x M (ent val (seq x)) ∧ ∀ k, 1 ≤ k → k ≤ x → MinorOk M k := by
    intro x
    induction x with
    | zero => intro _; rw [e0]; exact ⟨h, hi, by intro k h1 h2; omega⟩
    | succ x ih =>
      intro hx
      obtain ⟨a, b, c⟩ := ih (by omega)
      obtain ⟨a', b', c'⟩ := column_ok ho (by omega) a b (es x (by omega))
      refine ⟨a', b', ?_⟩
      intro k h1 h2
      by_cases hk : k ≤ x
      · exact c k h1 hk
      · have : k = x + 1 := by omega
        rw [this]; exact c'
  have := hg n (Nat.le_refl _)
  rw [en] at this
  exact this

/-- One column that must succeed. -/
theorem column_total (ho : o.Exact P val) (hto : o.Total P val) {n x : Nat} {M : Nat → Nat → K} {t : List (List α)} (hx : x < n)
    (h : Good n P t) (hi : KInv n x M (ent val t)) (hm : MinorOk M (x + 1)) :
    ∃ t', loop (fun y => invStep o n x y) (List.range n) t = .ok t' := by
  have hp := (pivot_iff hx hi).2 hm
  have key : ∀ c, c ≤ n → ∃ t', loop (fun y => invStep o n x y) (List.range c) t = .ok t' := by
    intro c
    induction c with
    | zero => intro _; exact ⟨t, rfl⟩
    | succ c ih =>
      intro hc
      obtain ⟨t1, h1⟩ := ih (by omega)
      obtain ⟨seq, e0, en, es⟩ := loop_seq c t t1 h1
      have hg : ∀ y, y ≤ c → Good n P (seq y) := by
        intro y
        induction y with
        | zero => intro _; rw [e0]; exact h
        | succ y ih => intro hy; exact (invStep_ok ho (ih (by omega)) hx (by omega) (es y (by omega))).1
      have hcol : Col n x (fun y => ent val (seq y)) c := fun y hy => (invStep_ok ho (hg y (by omega)) hx (by omega) (es y hy)).2
      have hmid := (hcol.mid (M := M) hx (by rw [e0]; exact hi) (by rw [e0]; exact hp) c (Nat.le_refl _)
        (by omega)).2.2.2
      rw [en] at hmid
      rw [List.range_succ, loop_append', h1]
      rcases invStep_total ho hto (en ▸ hg c (Nat.le_refl _)) hx (y := c) (by omega) with ⟨t2, h2⟩ | ⟨_, _, f2, f3⟩
      · exact ⟨t2, by simp [R.bind, loop, h2]⟩
      · exfalso
        by_cases hcx : c = x
        · exact hmid (f2 (by omega))
        · exact hmid (f3 hcx)
  exact key n (Nat.le_refl _)

/-- All columns, with operators that refuse only to divide by zero. -/
theorem eliminate_total (ho : o.Exact P val) (hto : o.Total P val) {n : Nat} {M : Nat → Nat → K} {t : List (List α)} (h : Good n P t)
    (hi : KInv n 0 M (ent val t)) : (∀ k, 1 ≤ k → k ≤ n → MinorOk M k) → ∃ t', eliminate o n t = .ok t' := by
  intro hm
  obtain ⟨t', h1, _⟩ := loop_on (f := fun x => loop (fun y => invStep o n x y) (List.range n)) n t
    (fun x t => Good n P t ∧ KInv n x M (ent val t)) ⟨h, hi⟩ (by
      intro x s hx hs
      obtain ⟨s', h1⟩ := column_total ho hto hx hs.1 hs.2 (hm (x + 1) (by omega) (by omega))
      have := column_ok ho hx hs.1 hs.2 h1
      exact ⟨s', h1, this.1, this.2.1⟩)
  exact ⟨t', h1⟩

/-- Otherwise the error is this one. -/
theorem eliminate_or (ho : o.Exact P val) (hto : o.Total P val) {n : Nat} {t : List (List α)} (h : Good n P t) :
    (∃ t', eliminate o n t = .ok t') ∨ eliminate o n t = .err nonInvertible := by
  rcases loop_or (f := fun x => loop (fun y => invStep o n x y) (List.range n)) (m := nonInvertible) n t (fun _ t => Good n P t) h (by
    intro x s hx hs
    rcases loop_or (f := fun y => invStep o n x y) (m := nonInvertible) n s (fun _ t => Good n P t) hs (by
      intro y s hy hs
      rcases invStep_total ho hto hs hx hy with ⟨t', h1⟩ | h1
      · exact .inl ⟨t', h1, (invStep_ok ho hs hx hy h1).1⟩
      · exact .inr h1.1) with ⟨s', h1, h2⟩ | h1
    · exact .inl ⟨s', h1, h2⟩
    · exact .inr h1) with ⟨s', h1, _⟩ | h1
  · exact .inl ⟨s', h1⟩
  · exact .inr h1

end Verif.Arr
