import Verif.Cell.Spec

/-!
# Lemmas: evaluation with objects and evaluation with values
-/

namespace Verif.Cell
open Verif.Arr (R)
open Verif.Flt

/-- Two computations end in the same way, and the results are related. -/
def Sim {α β : Type} (r : R (α × Heap)) (s : R β) (Q : α → β → Heap → Prop) : Prop :=
  match r, s with
  | .ok x, .ok y => Q x.1 y x.2
  | .err m, .err m' => m = m'
  | .crash, .crash => True
  | .hang, .hang => True
  | _, _ => False

theorem Sim.bind {α β γ δ : Type} {m : M α} {f : α → M γ} {s : R β} {g : β → R δ} {h : Heap} {Q : α → β → Heap → Prop} {Q' : γ → δ → Heap → Prop}
    (h1 : Sim (m h) s Q) (h2 : ∀ a b h', Q a b h' → Sim (f a h') (g b) Q') : Sim ((m.bind f) h) (s.bind g) Q' := by
  unfold M.bind
  cases hm : m h <;> cases s <;> rw [hm] at h1 <;> first | exact h1.elim | exact h1 | skip
  exact h2 _ _ _ h1

/-- A step on the left only. -/
theorem Sim.left {α γ δ : Type} {m : M α} {f : α → M γ} {s : R δ} {h h' : Heap} {a : α} {Q' : γ → δ → Heap → Prop}
    (h1 : m h = .ok (a, h')) (h2 : Sim (f a h') s Q') : Sim ((m.bind f) h) s Q' := by
  unfold M.bind
  rw [h1]
  exact h2

/-- A step on the left that does not change the result on the right. -/
theorem Sim.bind_left {α β γ : Type} {m : M α} {f : α → M γ} {s : R β} {h : Heap} {Q : α → β → Heap → Prop} {Q' : γ → β → Heap → Prop}
    (h1 : Sim (m h) s Q) (h2 : ∀ a b h', Q a b h' → Sim (f a h') (.ok b) Q') : Sim ((m.bind f) h) s Q' := by
  have : s = s.bind .ok := by cases s <;> rfl
  rw [this]
  exact Sim.bind h1 h2

theorem Sim.mono {α β : Type} {r : R (α × Heap)} {s : R β} {Q Q' : α → β → Heap → Prop} (h : Sim r s Q) (hq : ∀ a b h, Q a b h → Q' a b h) : Sim r s Q' := by
  cases r <;> cases s <;> first | exact h.elim | exact h | skip
  exact hq _ _ _ h

theorem sim_lift {α : Type} (r : R α) (h : Heap) : Sim (lift r h) r (fun a b h' => a = b ∧ h' = h) := by
  cases r <;> simp [lift, R.bind, Sim]

theorem get_some {a : Nat} {h : Heap} {x : Fl} (hx : h[a]? = some x) : get a h = .ok (x, h) := by
  unfold get; rw [hx]

/-- The contents of a real scalar. -/
def ReadsS (h : Heap) : Sc → PS → Prop
  | .exact q, .exact r => q = r
  | .cell a, .flt x => h[a]? = some x
  | _, _ => False

/-- The contents of a scalar. -/
def Reads (h : Heap) : Val → PV → Prop
  | .real s, .real x => ReadsS h s x
  | .cplx a b, .cplx x y => ReadsS h a x ∧ ReadsS h b y
  | _, _ => False

/-- The first `n` cells are as before, and no cell has vanished. -/
def Keep (n : Nat) (h h' : Heap) : Prop := h.length ≤ h'.length ∧ ∀ i, i < n → h'[i]? = h[i]?

/-- A cell from `n` on. -/
def NewS (n : Nat) : Sc → Prop
  | .exact _ => True
  | .cell a => n ≤ a

/-- Cells from `n` on, two different ones. -/
def NewV (n : Nat) : Val → Prop
  | .real s => NewS n s
  | .cplx s t => NewS n s ∧ NewS n t ∧ ∀ a, s = .cell a → t ≠ .cell a

theorem Keep.refl (n : Nat) (h : Heap) : Keep n h h := ⟨Nat.le_refl _, fun _ _ => rfl⟩

theorem Keep.trans {n m : Nat} {h h' h'' : Heap} (a : Keep n h h') (b : Keep m h' h'') (hm : n ≤ m) : Keep n h h'' :=
  ⟨Nat.le_trans a.1 b.1, fun i hi => (b.2 i (by omega)).trans (a.2 i hi)⟩

theorem Keep.alloc {n : Nat} {h : Heap} (hn : n ≤ h.length) (l : Heap) : Keep n h (h ++ l) :=
  ⟨by simp, fun i hi => by rw [List.getElem?_append_left (by omega)]⟩

theorem Keep.set {n a : Nat} {h : Heap} (hn : n ≤ a) (x : Fl) : Keep n h (h.set a x) :=
  ⟨by simp, fun i hi => by rw [List.getElem?_set_ne (by omega)]⟩

theorem lt_of_some {h : Heap} {a : Nat} {x : Fl} (hx : h[a]? = some x) : a < h.length := by
  rcases Nat.lt_or_ge a h.length with hl | hl
  · exact hl
  · rw [List.getElem?_eq_none hl] at hx; cases hx

theorem ReadsS.keep {n : Nat} {h h' : Heap} {s : Sc} {x : PS} (k : Keep n h h') (r : ReadsS h s x) (hn : h.length ≤ n) : ReadsS h' s x := by
  cases s <;> cases x <;> simp only [ReadsS] at r ⊢
  · exact r
  · rw [k.2 _ (Nat.lt_of_lt_of_le (lt_of_some r) hn)]; exact r

theorem Reads.keep {n : Nat} {h h' : Heap} {v : Val} {x : PV} (k : Keep n h h') (r : Reads h v x) (hn : h.length ≤ n) : Reads h' v x := by
  cases v <;> cases x <;> simp only [Reads] at r ⊢
  · exact r.keep k hn
  · exact ⟨r.1.keep k hn, r.2.keep k hn⟩

theorem bind_ok {α γ : Type} {m : M α} {f : α → M γ} {h h' : Heap} {a : α} (h1 : m h = .ok (a, h')) : (M.bind m f) h = f a h' := by
  unfold M.bind
  rw [h1]
  rfl

theorem readS_ok {h : Heap} {s : Sc} {x : PS} (r : ReadsS h s x) : readS s h = .ok (x, h) := by
  cases s <;> cases x <;> simp only [ReadsS] at r
  · subst r; rfl
  · simp only [readS]; rw [bind_ok (get_some r)]; rfl

theorem read_ok {h : Heap} {v : Val} {x : PV} (r : Reads h v x) : read v h = .ok (x, h) := by
  cases v <;> cases x <;> simp only [Reads] at r
  · simp only [read]; rw [bind_ok (readS_ok r)]; rfl
  · simp only [read]; rw [bind_ok (readS_ok r.1), bind_ok (readS_ok r.2)]; rfl

/-- What a computation of a new scalar gives. -/
def NewPost (n : Nat) (h : Heap) (v : Val) (x : PV) (h' : Heap) : Prop := Reads h' v x ∧ Keep n h h' ∧ NewV n v

theorem newS_spec (x : PS) (h : Heap) : ∃ s l, newS x h = .ok (s, h ++ l) ∧ ReadsS (h ++ l) s x ∧ NewS h.length s ∧
    (∀ a, s = .cell a → a < (h ++ l).length) := by
  cases x with
  | exact q => exact ⟨.exact q, [], by rw [List.append_nil]; rfl, rfl, trivial, fun a ha => by cases ha⟩
  | flt x => exact ⟨.cell h.length, [x], rfl, by simp [ReadsS], Nat.le_refl _, fun a ha => by cases ha; simp⟩

theorem NewS.mono {n m : Nat} {s : Sc} (h : NewS n s) (hm : m ≤ n) : NewS m s := by
  cases s <;> simp only [NewS] at h ⊢; omega

theorem new_sim {n : Nat} {h : Heap} (hn : n ≤ h.length) (x : PV) : Sim (new x h) (.ok x) (NewPost n h) := by
  cases x with
  | real s =>
    obtain ⟨t, l, h1, h2, h3, _⟩ := newS_spec s h
    simp only [new]
    refine Sim.left h1 ?_
    exact ⟨h2, Keep.alloc hn l, h3.mono hn⟩
  | cplx s t =>
    obtain ⟨a, l, h1, h2, h3, h4⟩ := newS_spec s h
    obtain ⟨b, l', h1', h2', h3', _⟩ := newS_spec t (h ++ l)
    simp only [new]
    refine Sim.left h1 (Sim.left h1' ?_)
    show NewPost n h _ _ _
    refine ⟨⟨h2.keep (Keep.alloc (Nat.le_refl _) l') (Nat.le_refl _), h2'⟩, ?_, h3.mono hn, h3'.mono (by simp; omega), ?_⟩
    · show Keep n h (h ++ l ++ l')
      rw [List.append_assoc]
      exact Keep.alloc hn (l ++ l')
    · rintro i rfl rfl
      have := h4 i rfl
      simp only [NewS] at h3'
      omega

theorem fresh1_sim {n : Nat} {h : Heap} (hn : n ≤ h.length) (f : PV → R PV) {v : Val} {x : PV} (r : Reads h v x) : Sim (fresh1 f v h) (f x) (NewPost n h) := by
  refine Sim.left (read_ok r) ?_
  refine Sim.bind_left (sim_lift (f x) h) ?_
  rintro a b h' ⟨rfl, rfl⟩
  exact new_sim hn a

theorem fresh2_sim {n : Nat} {h : Heap} (hn : n ≤ h.length) (f : PV → PV → R PV) {u v : Val} {x y : PV} (ru : Reads h u x) (rv : Reads h v y) :
    Sim (fresh2 f u v h) (f x y) (NewPost n h) := by
  refine Sim.left (read_ok ru) (Sim.left (read_ok rv) ?_)
  refine Sim.bind_left (sim_lift (f x y) h) ?_
  rintro a b h' ⟨rfl, rfl⟩
  exact new_sim hn a

theorem floatSelf_spec (c : Ctx) {h : Heap} {s : Sc} {x : PS} (r : ReadsS h s x) : ∃ a l, floatSelf c s h = .ok (a, h ++ l) ∧ (h ++ l)[a]? = some (x.float c) ∧
    (NewS n s → n ≤ h.length → n ≤ a) ∧ (s = .cell a ∧ l = [] ∨ (∃ q, s = .exact q) ∧ a = h.length) := by
  cases s <;> cases x <;> simp only [ReadsS] at r
  · subst r; exact ⟨h.length, [_], rfl, by simp [PS.float], fun _ h => h, .inr ⟨⟨_, rfl⟩, rfl⟩⟩
  · rename_i a x
    exact ⟨a, [], by rw [List.append_nil]; rfl, by rw [List.append_nil]; exact r, fun h _ => h, .inl ⟨rfl, rfl⟩⟩

/-- The addresses of two parts. -/
theorem floatSelf2_spec (c : Ctx) (n : Nat) {h : Heap} {s t : Sc} {x y : PS} (hn : n ≤ h.length) (r : Reads h (.cplx s t) (.cplx x y)) (hnew : NewV n (.cplx s t)) :
    ∃ a b l l', floatSelf c s h = .ok (a, h ++ l) ∧ floatSelf c t (h ++ l) = .ok (b, h ++ l ++ l') ∧ (h ++ l ++ l')[a]? = some (x.float c) ∧
      (h ++ l ++ l')[b]? = some (y.float c) ∧ n ≤ a ∧ n ≤ b ∧ a ≠ b := by
  obtain ⟨r1, r2⟩ := r
  obtain ⟨n1, n2, n3⟩ := hnew
  obtain ⟨a, l, h1, h2, h3, h4⟩ := floatSelf_spec (n := n) c r1
  obtain ⟨b, l', h1', h2', h3', h4'⟩ := floatSelf_spec (n := n) c (r2.keep (Keep.alloc (Nat.le_refl _) l) (Nat.le_refl _))
  refine ⟨a, b, l, l', h1, h1', ?_, h2', h3 n1 hn, h3' n2 (by simp; omega), ?_⟩
  · rw [List.getElem?_append_left (lt_of_some h2)]; exact h2
  · rintro rfl
    have ha := lt_of_some h2
    rcases h4 with ⟨h5, rfl⟩ | ⟨_, h5⟩ <;> rcases h4' with ⟨h6, h7⟩ | ⟨_, h6⟩
    · exact n3 a h5 h6
    · omega
    · subst h6
      simp only [ReadsS] at r2
      cases y <;> simp only at r2
      have := lt_of_some r2
      omega
    · omega

theorem getElem?_set_self' {h : Heap} {a : Nat} {x y : Fl} (hx : h[a]? = some x) : (h.set a y)[a]? = some y := by
  rw [List.getElem?_set_self (lt_of_some hx)]

theorem at_sim {f : Fl → R (Rat × Fl)} {a : Nat} {h : Heap} {x : Fl} (hx : h[a]? = some x) :
    Sim (((get a).bind fun x => (lift (f x)).bind fun r => (put a r.2).bind fun _ => M.pure r.1) h) (f x) (fun z r h' => z = r.1 ∧ h' = h.set a r.2) := by
  refine Sim.left (get_some hx) ?_
  refine Sim.bind_left (sim_lift (f x) h) ?_
  rintro r s h' ⟨rfl, rfl⟩
  exact ⟨rfl, rfl⟩

theorem readAt_sim {f : Rat → R Rat} {a : Nat} {h : Heap} {x : Fl} (hx : h[a]? = some x) : Sim (readAt f a h) (f x.val) (fun z r h' => z = r ∧ h' = h) := by
  refine Sim.left (get_some hx) ?_
  exact sim_lift _ _

end Verif.Cell
