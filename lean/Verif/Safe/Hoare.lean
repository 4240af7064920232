import Verif.Arr.Lemmas3

/-!
# Operators that end

What is used to show that operators end with a value or with an Ivy error.
-/

namespace Verif.Safe
open Verif.Arr
variable {α β σ τ : Type}

/-- The operator ends with an Ivy error, or with a value of which `P` holds. -/
def Gives (P : σ → Prop) : R σ → Prop
  | .ok a => P a
  | .err _ => True
  | .crash => False
  | .hang => False

theorem gives_ok {P : σ → Prop} {a : σ} (h : P a) : Gives P (.ok a) := h

theorem gives_err {P : σ → Prop} {m : String} : Gives P (.err m) := trivial

theorem gives_mono {P Q : σ → Prop} {r : R σ} (h : Gives P r) (hq : ∀ a, P a → Q a) : Gives Q r := by
  cases r with
  | ok a => exact hq a h
  | err m => trivial
  | crash => exact h
  | hang => exact h

theorem gives_bind {P : σ → Prop} {Q : τ → Prop} {r : R σ} {f : σ → R τ} (h : Gives P r) (hf : ∀ a, P a → Gives Q (f a)) : Gives Q (r.bind f) := by
  cases r with
  | ok a => exact hf a h
  | err m => trivial
  | crash => exact h
  | hang => exact h

theorem gives_iff {P : σ → Prop} {r : R σ} : Gives P r ↔ r ≠ .crash ∧ r ≠ .hang ∧ ∀ a, r = .ok a → P a := by
  cases r with
  | ok a => simp [Gives]
  | err m => simp [Gives]
  | crash => simp [Gives]
  | hang => simp [Gives]

theorem gives_vAt {P : α → Prop} {l : List α} {i : Nat} (hl : ∀ x ∈ l, P x) (h : i < l.length) : Gives P (vAt l i) := by
  rw [vAt_lt h]
  exact hl _ (List.getElem_mem h)

theorem gives_vAt_eq {l : List α} {i : Nat} (h : i < l.length) : Gives (fun x => l[i]? = some x) (vAt l i) := by
  rw [vAt_lt h]
  exact List.getElem?_eq_getElem h

theorem gives_intAt {l : List Small} {i : Nat} {msg : String} (h : i < l.length) : Gives (fun _ => True) (intAt l i msg) := by
  unfold intAt
  rw [List.getElem?_eq_getElem h]
  cases l[i] <;> trivial

theorem gives_uintAt {l : List Small} {i : Nat} {msg : String} (h : i < l.length) : Gives (fun _ => True) (uintAt l i msg) := by
  unfold uintAt
  rw [List.getElem?_eq_getElem h]
  cases l[i] with
  | none => trivial
  | some n => dsimp only; split <;> trivial

theorem gives_loop {f : Nat → σ → R σ} (I : σ → Prop) : ∀ (ks : List Nat) {s : σ}, I s → (∀ k ∈ ks, ∀ s, I s → Gives I (f k s)) → Gives I (loop f ks s)
  | [], _, h0, _ => h0
  | k :: ks, _, h0, h =>
    gives_bind (h k (List.mem_cons_self ..) _ h0) fun _ hs => gives_loop I ks hs fun j hj s => h j (List.mem_cons_of_mem _ hj) s

theorem gives_loopOver {f : β → σ → R σ} (I : σ → Prop) : ∀ (ks : List β) {s : σ}, I s → (∀ k ∈ ks, ∀ s, I s → Gives I (f k s)) → Gives I (loopOver f ks s)
  | [], _, h0, _ => h0
  | k :: ks, _, h0, h =>
    gives_bind (h k (List.mem_cons_self ..) _ h0) fun _ hs => gives_loopOver I ks hs fun j hj s => h j (List.mem_cons_of_mem _ hj) s

/-- A loop over the numbers from `lo`, with an invariant that depends on the number. -/
theorem gives_range {f : Nat → σ → R σ} (I : Nat → σ → Prop) (lo cnt : Nat) {s : σ} (h0 : I lo s)
    (h : ∀ k s, lo ≤ k → k < lo + cnt → I k s → Gives (I (k + 1)) (f k s)) : Gives (I (lo + cnt)) (loop f (List.range' lo cnt) s) := by
  induction cnt generalizing lo s with
  | zero => exact h0
  | succ n ih =>
    rw [List.range'_succ]
    refine gives_bind (h lo s (Nat.le_refl _) (by omega) h0) fun t ht => ?_
    rw [show lo + (n + 1) = lo + 1 + n by omega]
    exact ih (lo + 1) ht fun k s h1 h2 => h k s (by omega) (by omega)

theorem gives_range0 {f : Nat → σ → R σ} (I : Nat → σ → Prop) (cnt : Nat) {s : σ} (h0 : I 0 s)
    (h : ∀ k s, k < cnt → I k s → Gives (I (k + 1)) (f k s)) : Gives (I cnt) (loop f (List.range cnt) s) := by
  rw [List.range_eq_range']
  have := gives_range I 0 cnt h0 fun k s _ h2 => h k s (by omega)
  rwa [Nat.zero_add] at this

/-! ## Vectors being made -/

/-- A vector of length `n` being made: the elements set satisfy `P`, and those at `D` are set. -/
structure Fl (P : α → Prop) (n : Nat) (D : Nat → Prop) (e : Ed α) : Prop where
  len : e.length = n
  all : ∀ (i : Nat) (x : α), e[i]? = some (some x) → P x
  done : ∀ i : Nat, D i → i < n → ∃ x, e[i]? = some (some x)

theorem fl_mono {P : α → Prop} {n : Nat} {D D' : Nat → Prop} {e : Ed α} (h : Fl P n D e) (hd : ∀ i, i < n → D' i → D i) : Fl P n D' e :=
  ⟨h.len, h.all, fun i hi hn => h.done i (hd i hn hi) hn⟩

theorem fl_new {P : α → Prop} {n : Nat} : Fl P n (fun _ => False) (newEd n : Ed α) := by
  refine ⟨by simp [newEd], ?_, fun i h => h.elim⟩
  intro i x h
  simp [newEd, List.getElem?_replicate] at h

theorem fl_edit {P : α → Prop} {l : List α} (h : ∀ x ∈ l, P x) : Fl P l.length (fun _ => True) (edit l) := by
  refine ⟨by simp [edit], ?_, fun i _ hi => ⟨l[i], by simp [edit, hi]⟩⟩
  intro i x hx
  simp only [edit, List.getElem?_map, Option.map_eq_some_iff] at hx
  obtain ⟨y, h1, h2⟩ := hx
  cases h2
  exact h _ (List.mem_of_getElem? h1)

theorem fl_put {P : α → Prop} {n : Nat} {D : Nat → Prop} {e : Ed α} (h : Fl P n D e) {i : Nat} {x : α} (hi : i < n) (hx : P x) :
    Gives (Fl P n fun j => D j ∨ j = i) (e.put i x) := by
  unfold Ed.put
  rw [if_pos (by rw [h.len]; exact hi)]
  refine ⟨by rw [List.length_set]; exact h.len, ?_, ?_⟩
  · intro j y hy
    rw [List.getElem?_set] at hy
    split at hy
    · split at hy
      · cases hy; exact hx
      · cases hy
    · exact h.all j y hy
  · intro j hj hn
    rw [List.getElem?_set]
    by_cases e : i = j
    · rw [if_pos e, if_pos (by rw [h.len]; exact hi)]
      exact ⟨x, rfl⟩
    · rw [if_neg e]
      exact h.done j (hj.resolve_right fun c => e c.symm) hn

theorem fl_get {P : α → Prop} {n : Nat} {D : Nat → Prop} {e : Ed α} (h : Fl P n D e) {i : Nat} (hi : i < n) (hd : D i) : Gives P (e.get i) := by
  obtain ⟨x, hx⟩ := h.done i hd hi
  unfold Ed.get
  rw [hx]
  exact h.all i x hx

theorem full_of : ∀ (e : Ed α), (∀ i : Nat, i < e.length → ∃ x, e[i]? = some (some x)) → ∃ l : List α, e = l.map some
  | [], _ => ⟨[], rfl⟩
  | y :: e, h => by
    obtain ⟨x, hx⟩ := h 0 (by simp)
    obtain ⟨l, hl⟩ := full_of e fun i hi => h (i + 1) (by simpa using hi)
    refine ⟨x :: l, ?_⟩
    simp only [List.getElem?_cons_zero, Option.some.injEq] at hx
    rw [hx, hl]; rfl

theorem fl_publish {P : α → Prop} {n : Nat} {D : Nat → Prop} {e : Ed α} (h : Fl P n D e) (hd : ∀ i, i < n → D i) :
    Gives (fun l : List α => l.length = n ∧ ∀ x ∈ l, P x) e.publish := by
  obtain ⟨l, rfl⟩ := full_of e fun i hi => h.done i (hd i (by rw [← h.len]; exact hi)) (by rw [← h.len]; exact hi)
  rw [publish_edit]
  refine ⟨by rw [← h.len, List.length_map], fun x hx => ?_⟩
  obtain ⟨i, hi, rfl⟩ := List.getElem_of_mem hx
  exact h.all i _ (by simp [hi])

/-- A loop that makes the elements at `w k` in turn `k`. -/
theorem fl_loop {P : α → Prop} {n : Nat} {f : Nat → Ed α → R (Ed α)} (w : Nat → Nat → Prop) : ∀ (ks : List Nat) {D : Nat → Prop} {e : Ed α}, Fl P n D e →
    (∀ k ∈ ks, ∀ D e, Fl P n D e → Gives (Fl P n fun j => D j ∨ w k j) (f k e)) →
    Gives (Fl P n fun j => D j ∨ ∃ k ∈ ks, w k j) (loop f ks e)
  | [], _, _, h, _ => fl_mono h fun i _ hi => hi.elim id fun ⟨_, hk, _⟩ => (List.not_mem_nil hk).elim
  | k :: ks, D, e, h, hf => by
    refine gives_bind (hf k (List.mem_cons_self ..) D e h) fun e' he => ?_
    refine gives_mono (fl_loop w ks he fun j hj => hf j (List.mem_cons_of_mem _ hj)) fun e'' he'' => fl_mono he'' fun i _ hi => ?_
    rcases hi with hi | ⟨j, hj, hw⟩
    · exact .inl (.inl hi)
    · rcases List.mem_cons.1 hj with rfl | hj
      · exact .inl (.inr hw)
      · exact .inr ⟨j, hj, hw⟩

/-- A loop that keeps what is made and may change elements. -/
theorem fl_loop_keep {P : α → Prop} {n : Nat} {f : Nat → Ed α → R (Ed α)} {D : Nat → Prop} (ks : List Nat) {e : Ed α} (h : Fl P n D e)
    (hf : ∀ k ∈ ks, ∀ e, Fl P n D e → Gives (Fl P n D) (f k e)) : Gives (Fl P n D) (loop f ks e) := gives_loop _ ks h hf

theorem fl_loopOver {P : α → Prop} {n : Nat} {f : β → Ed α → R (Ed α)} (w : β → Nat → Prop) : ∀ (ks : List β) {D : Nat → Prop} {e : Ed α}, Fl P n D e →
    (∀ k ∈ ks, ∀ D e, Fl P n D e → Gives (Fl P n fun j => D j ∨ w k j) (f k e)) →
    Gives (Fl P n fun j => D j ∨ ∃ k ∈ ks, w k j) (loopOver f ks e)
  | [], _, _, h, _ => fl_mono h fun i _ hi => hi.elim id fun ⟨_, hk, _⟩ => (List.not_mem_nil hk).elim
  | k :: ks, D, e, h, hf => by
    refine gives_bind (hf k (List.mem_cons_self ..) D e h) fun e' he => ?_
    refine gives_mono (fl_loopOver w ks he fun j hj => hf j (List.mem_cons_of_mem _ hj)) fun e'' he'' => fl_mono he'' fun i _ hi => ?_
    rcases hi with hi | ⟨j, hj, hw⟩
    · exact .inl (.inl hi)
    · rcases List.mem_cons.1 hj with rfl | hj
      · exact .inl (.inr hw)
      · exact .inr ⟨j, hj, hw⟩

/-- `pfor` with a function of ranges, making the elements at `w k` for `k` in the range. -/
theorem fl_pfor (S : Sched) (size N : Nat) {P : α → Prop} {n : Nat} {f : Nat → Nat → Ed α → R (Ed α)} (w : Nat → Nat → Prop) {D : Nat → Prop} {e : Ed α} (h : Fl P n D e)
    (hf : ∀ lo hi, (∀ k, lo ≤ k → k < hi → k < N) → ∀ D e, Fl P n D e → Gives (Fl P n fun j => D j ∨ ∃ k, lo ≤ k ∧ k < hi ∧ w k j) (f lo hi e)) :
    Gives (Fl P n fun j => D j ∨ ∃ k, k < N ∧ w k j) (pfor (S.ranges size N) f e) := by
  unfold pfor
  refine gives_mono (fl_loopOver (f := fun r : Nat × Nat => f r.1 r.2) (fun r j => ∃ k, r.1 ≤ k ∧ k < r.2 ∧ w k j) (S.ranges size N) h fun r hr D e he =>
    hf r.1 r.2 (fun k h1 h2 => sched_bound S size N hr h1 h2) D e he) fun e' he => fl_mono he fun i _ hi => ?_
  rcases hi with hi | ⟨k, hk, hw⟩
  · exact .inl hi
  · obtain ⟨r, hr, h1, h2⟩ := sched_mem S size N k hk
    exact .inr ⟨r, hr, k, h1, h2, hw⟩

/-- `pfor` with the usual body. -/
theorem fl_each (S : Sched) (size N : Nat) {P : α → Prop} {n : Nat} {f : Nat → Ed α → R (Ed α)} (w : Nat → Nat → Prop) {D : Nat → Prop} {e : Ed α} (h : Fl P n D e)
    (hf : ∀ k, k < N → ∀ D e, Fl P n D e → Gives (Fl P n fun j => D j ∨ w k j) (f k e)) :
    Gives (Fl P n fun j => D j ∨ ∃ k, k < N ∧ w k j) (pfor (S.ranges size N) (each f) e) := by
  refine fl_pfor S size N w h fun lo hi hb D e he => ?_
  unfold each
  refine gives_mono (fl_loop w (List.range' lo (hi - lo)) he fun k hk D e he => hf k (hb k ?_ ?_) D e he) fun e' he => fl_mono he fun i _ hi' => ?_
  · have := List.mem_range'_1.1 hk; omega
  · have := List.mem_range'_1.1 hk; omega
  · rcases hi' with h' | ⟨k, h1, h2, h3⟩
    · exact .inl h'
    · exact .inr ⟨k, List.mem_range'_1.2 ⟨h1, by omega⟩, h3⟩

/-- Every element made by a parallel loop, one in each turn. -/
theorem made_each (S : Sched) (size n : Nat) {P : α → Prop} {f : Nat → Ed α → R (Ed α)}
    (hf : ∀ k, k < n → ∀ D e, Fl P n D e → Gives (Fl P n fun j => D j ∨ j = k) (f k e)) :
    Gives (fun l : List α => l.length = n ∧ ∀ x ∈ l, P x) ((pfor (S.ranges size n) (each f) (newEd n)).bind fun e => e.publish) :=
  gives_bind (fl_each S size n (fun k j => j = k) fl_new hf) fun _ he => fl_publish he fun i hi => .inr ⟨i, hi, rfl⟩

/-! ## Sizes and matrices -/

theorem gives_sizeFrom : ∀ (s : List Nat) (n : Nat), Gives (fun r => r = n * vol s) (sizeFrom n s)
  | [], n => by simp [sizeFrom, Gives, vol]
  | d :: ds, n => by
    unfold sizeFrom
    split
    · trivial
    · refine gives_mono (gives_sizeFrom ds (n * d)) fun r hr => ?_
      rw [hr, Nat.mul_assoc]; rfl

theorem gives_size (s : List Nat) : Gives (fun r => r = vol s) (size s) := by
  have := gives_sizeFrom s 1
  simpa [size] using this

theorem gives_prodCheck : ∀ (s : List Nat) (n : Nat), Gives (fun r => r = n * vol s) (prodCheck n s)
  | [], n => by simp [prodCheck, Gives, vol]
  | d :: ds, n => by
    unfold prodCheck
    split
    · trivial
    · refine gives_mono (gives_prodCheck ds (n * d)) fun r hr => ?_
      rw [hr, Nat.mul_assoc]; rfl

/-- `NewMatrix` makes a matrix as it should be, of the shape and the elements given, or an error. -/
theorem gives_newMatrix (s : List Nat) (d : List α) : Gives (fun m : Mat α => m.shape = s ∧ m.data = d ∧ (s ≠ [] → m.WF)) (newMatrix s d) := by
  cases s with
  | nil =>
    unfold newMatrix
    dsimp only [R.bind]
    split
    · trivial
    · exact ⟨rfl, rfl, fun h => (h rfl).elim⟩
  | cons x xs =>
    unfold newMatrix
    refine gives_bind (gives_prodCheck xs x) fun n hn => ?_
    split
    · trivial
    · rename_i hne
      refine ⟨rfl, rfl, fun _ => ⟨by simp, ?_⟩⟩
      show d.length = vol (x :: xs)
      have : n = d.length := Decidable.not_not.1 hne
      rw [← this, hn]; rfl

/-- Values as they should be: matrices have as many elements as their shape says, and `P` holds of the elements. -/
def GoodV (P : α → Prop) : V α → Prop
  | .elem x => P x
  | .vec l => ∀ x ∈ l, P x
  | .mat m => m.WF ∧ ∀ x ∈ m.data, P x

/-- The same for a matrix. -/
def GoodM (P : α → Prop) (m : Mat α) : Prop := m.WF ∧ ∀ x ∈ m.data, P x

theorem gives_mat {P : α → Prop} {s : List Nat} (hs : s ≠ []) {d : List α} (hd : ∀ x ∈ d, P x) : Gives (fun m => GoodM P m ∧ m.shape = s) (newMatrix s d) :=
  gives_mono (gives_newMatrix s d) fun m h => ⟨⟨h.2.2 hs, by rw [h.2.1]; exact hd⟩, h.1⟩

theorem gives_matV {P : α → Prop} {s : List Nat} (hs : s ≠ []) {d : List α} (hd : ∀ x ∈ d, P x) :
    Gives (GoodV P) ((newMatrix s d).bind fun m => .ok (.mat m)) :=
  gives_bind (gives_mat hs hd) fun _ h => h.1

end Verif.Safe
