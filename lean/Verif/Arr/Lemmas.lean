import Verif.Arr.Model
import Verif.Arr.Spec

/-! # Lemmas about loops, editors and coordinates -/

namespace Verif.Arr
variable {α σ τ β : Type}

@[simp] theorem bind_ok (a : σ) (f : σ → R τ) : (R.ok a).bind f = f a := rfl
@[simp] theorem bind_err (m : String) (f : σ → R τ) : (R.err m : R σ).bind f = .err m := rfl
@[simp] theorem bind_crash (f : σ → R τ) : (R.crash : R σ).bind f = .crash := rfl
@[simp] theorem bind_hang (f : σ → R τ) : (R.hang : R σ).bind f = .hang := rfl

theorem bind_eq_ok {r : R σ} {f : σ → R τ} {b : τ} : r.bind f = .ok b ↔ ∃ a, r = .ok a ∧ f a = .ok b := by
  cases r <;> simp

theorem bind_assoc {υ : Type} (r : R σ) (f : σ → R τ) (g : τ → R υ) : (r.bind f).bind g = r.bind fun a => (f a).bind g := by
  cases r <;> rfl

theorem vAt_ok {l : List α} {i : Nat} {x : α} : vAt l i = .ok x ↔ l[i]? = some x := by
  unfold vAt; cases h : l[i]? <;> simp

theorem vAt_lt {l : List α} {i : Nat} (h : i < l.length) : vAt l i = .ok l[i] :=
  vAt_ok.mpr (List.getElem?_eq_getElem h)

/-! ## Loops -/

/-- The rule for a loop: an invariant indexed by the list of values done. -/
theorem loop_inv {f : Nat → σ → R σ} (P : List Nat → σ → Prop) : ∀ (ks done : List Nat) (s : σ), P done s →
    (∀ d k s, P d s → (∃ r, done ++ ks = d ++ k :: r) → ∃ s', f k s = .ok s' ∧ P (d ++ [k]) s') →
    ∃ s', loop f ks s = .ok s' ∧ P (done ++ ks) s' := by
  intro ks
  induction ks with
  | nil => intro done s hs _; exact ⟨s, rfl, by simpa using hs⟩
  | cons k ks ih =>
    intro done s hs step
    obtain ⟨s1, e1, p1⟩ := step done k s hs ⟨ks, rfl⟩
    obtain ⟨s2, e2, p2⟩ := ih (done ++ [k]) s1 p1 (fun d k' s h hr => step d k' s h (by simpa using hr))
    exact ⟨s2, by simp [loop, e1, e2], by simpa using p2⟩

/-- The rule for a counting loop. -/
theorem loop_range {f : Nat → σ → R σ} (P : Nat → σ → Prop) (lo cnt : Nat) (s : σ) (h0 : P lo s)
    (step : ∀ k s, lo ≤ k → k < lo + cnt → P k s → ∃ s', f k s = .ok s' ∧ P (k + 1) s') :
    ∃ s', loop f (List.range' lo cnt) s = .ok s' ∧ P (lo + cnt) s' := by
  induction cnt generalizing lo s with
  | zero => exact ⟨s, rfl, h0⟩
  | succ n ih =>
    obtain ⟨s1, e1, p1⟩ := step lo s (by omega) (by omega) h0
    obtain ⟨s2, e2, p2⟩ := ih (lo + 1) s1 p1 (fun k s a b => step k s (by omega) (by omega))
    refine ⟨s2, ?_, by rwa [show lo + (n + 1) = lo + 1 + n by omega]⟩
    simp [List.range', loop, e1, e2]

theorem loop_range0 {f : Nat → σ → R σ} (P : Nat → σ → Prop) (cnt : Nat) (s : σ) (h0 : P 0 s)
    (step : ∀ k s, k < cnt → P k s → ∃ s', f k s = .ok s' ∧ P (k + 1) s') :
    ∃ s', loop f (List.range cnt) s = .ok s' ∧ P cnt s' := by
  have := loop_range (f := f) P 0 cnt s h0 (fun k s _ b => step k s (by omega))
  rwa [← List.range_eq_range', Nat.zero_add] at this

/-- The rule for a loop over any list, with an invariant that each iteration keeps and a set of facts it adds. -/
theorem loop_acc {f : Nat → σ → R σ} (I : (Nat → Prop) → σ → Prop) (w : Nat → Nat → Prop) : ∀ (ks : List Nat) (W : Nat → Prop) (s : σ),
    I W s → (∀ k ∈ ks, ∀ W s, I W s → ∃ s', f k s = .ok s' ∧ I (fun i => W i ∨ w k i) s') →
    ∃ s', loop f ks s = .ok s' ∧ I (fun i => W i ∨ ∃ k ∈ ks, w k i) s' := by
  intro ks
  induction ks with
  | nil => intro W s h _; exact ⟨s, rfl, by simpa using h⟩
  | cons k ks ih =>
    intro W s h step
    obtain ⟨s1, e1, p1⟩ := step k (by simp) W s h
    obtain ⟨s2, e2, p2⟩ := ih _ s1 p1 (fun k' hk' => step k' (by simp [hk']))
    refine ⟨s2, by simp [loop, e1, e2], ?_⟩
    have : (fun i => (W i ∨ w k i) ∨ ∃ k' ∈ ks, w k' i) = (fun i => W i ∨ ∃ k' ∈ k :: ks, w k' i) := by
      funext i; simp [or_assoc]
    rwa [this] at p2

theorem loopOver_acc {f : β → σ → R σ} (I : (Nat → Prop) → σ → Prop) (w : β → Nat → Prop) : ∀ (ks : List β) (W : Nat → Prop) (s : σ),
    I W s → (∀ k ∈ ks, ∀ W s, I W s → ∃ s', f k s = .ok s' ∧ I (fun i => W i ∨ w k i) s') →
    ∃ s', loopOver f ks s = .ok s' ∧ I (fun i => W i ∨ ∃ k ∈ ks, w k i) s' := by
  intro ks
  induction ks with
  | nil => intro W s h _; exact ⟨s, rfl, by simpa using h⟩
  | cons k ks ih =>
    intro W s h step
    obtain ⟨s1, e1, p1⟩ := step k (by simp) W s h
    obtain ⟨s2, e2, p2⟩ := ih _ s1 p1 (fun k' hk' => step k' (by simp [hk']))
    refine ⟨s2, by simp [loopOver, e1, e2], ?_⟩
    have : (fun i => (W i ∨ w k i) ∨ ∃ k' ∈ ks, w k' i) = (fun i => W i ∨ ∃ k' ∈ k :: ks, w k' i) := by
      funext i; simp [or_assoc]
    rwa [this] at p2

/-! ## Editors -/

/-- An editor on its way to holding `t`: the elements in `W` are right. -/
structure Toward (t : List α) (W : Nat → Prop) (e : Ed α) : Prop where
  len : e.length = t.length
  done : ∀ i : Nat, W i → ∀ x, t[i]? = some x → e[i]? = some (some x)

theorem toward_new (t : List α) {n : Nat} (h : n = t.length) : Toward t (fun _ => False) (newEd n : Ed α) := by
  subst h
  exact ⟨by simp [newEd], by simp⟩

theorem toward_put {t : List α} {W : Nat → Prop} {e : Ed α} (h : Toward t W e) {i : Nat} {x : α} (hx : t[i]? = some x) :
    ∃ e', e.put i x = .ok e' ∧ Toward t (fun j => W j ∨ j = i) e' := by
  have hi : i < t.length := by
    rcases Nat.lt_or_ge i t.length with h | h
    · exact h
    · rw [List.getElem?_eq_none h] at hx; cases hx
  refine ⟨e.set i (some x), by simp [Ed.put, h.len, hi], ?_, ?_⟩
  · simp [h.len]
  · intro j hj y hy
    rw [List.getElem?_set]
    by_cases e1 : i = j
    · subst e1; rw [hx] at hy; cases hy; simp [h.len, hi]
    · simp [e1]
      rcases hj with hj | hj
      · exact h.done j hj y hy
      · exact absurd hj.symm e1

theorem toward_mono {t : List α} {W W' : Nat → Prop} {e : Ed α} (h : Toward t W e) (hw : ∀ i, i < t.length → W' i → W i) : Toward t W' e :=
  ⟨h.len, fun i hi x hx => h.done i (hw i (List.getElem?_eq_some_iff.mp hx).1 hi) x hx⟩

theorem full_map (l : List α) : Ed.full (l.map some) = some l := by
  induction l with
  | nil => rfl
  | cons x xs ih => simp [Ed.full, ih]

theorem publish_edit (l : List α) : Ed.publish (l.map some) = .ok l := by simp [Ed.publish, full_map]

theorem toward_publish {t : List α} {W : Nat → Prop} {e : Ed α} (h : Toward t W e) (hw : ∀ i, i < t.length → W i) : e.publish = .ok t := by
  have : e = t.map some := by
    apply List.ext_getElem?
    intro i
    rcases Nat.lt_or_ge i t.length with hi | hi
    · have := h.done i (hw i hi) t[i] (List.getElem?_eq_getElem hi)
      simp [this, List.getElem?_eq_getElem hi]
    · rw [List.getElem?_eq_none (by rw [h.len]; exact hi), List.getElem?_eq_none (by simpa using hi)]
  rw [this, publish_edit]

theorem put_edit {l : List α} {i : Nat} {x : α} (h : i < l.length) : (edit l).put i x = .ok (edit (l.set i x)) := by
  simp [edit, Ed.put, h, List.map_set]

theorem get_edit {l : List α} {i : Nat} (h : i < l.length) : (edit l).get i = .ok l[i] := by
  simp [edit, Ed.get, List.getElem?_eq_getElem h]

theorem get_put {t : List α} {W : Nat → Prop} {e : Ed α} (h : Toward t W e) {i : Nat} (hi : W i) {x : α} (hx : t[i]? = some x) :
    e.get i = .ok x := by simp [Ed.get, h.done i hi x hx]

/-! ## Parallel loops -/

theorem sched_mem (S : Sched) (size n k : Nat) (h : k < n) : ∃ r ∈ S.ranges size n, r.1 ≤ k ∧ k < r.2 := by
  have : k ∈ (S.ranges size n).flatMap (fun r => List.range' r.1 (r.2 - r.1)) := (S.cover size n).mem_iff.mpr (by simpa using h)
  obtain ⟨r, hr, hk⟩ := List.mem_flatMap.mp this
  rw [List.mem_range'] at hk
  obtain ⟨i, hi, he⟩ := hk
  exact ⟨r, hr, by omega, by omega⟩

theorem sched_bound (S : Sched) (size n : Nat) {r : Nat × Nat} (hr : r ∈ S.ranges size n) {k : Nat} (h1 : r.1 ≤ k) (h2 : k < r.2) : k < n := by
  have : k ∈ (S.ranges size n).flatMap (fun r => List.range' r.1 (r.2 - r.1)) := by
    refine List.mem_flatMap.mpr ⟨r, hr, ?_⟩
    rw [List.mem_range']
    exact ⟨k - r.1, by omega, by omega⟩
  simpa using (S.cover size n).mem_iff.mp this

/-- A parallel loop whose body makes, for the indexes of its range, the writes `w` towards `t`. -/
theorem pfor_toward {t : List α} (S : Sched) (size n : Nat) (f : Nat → Nat → Ed α → R (Ed α)) (w : Nat → Nat → Prop)
    (hf : ∀ r ∈ S.ranges size n, ∀ W e, Toward t W e → ∃ e', f r.1 r.2 e = .ok e' ∧
      Toward t (fun i => W i ∨ ∃ k, r.1 ≤ k ∧ k < r.2 ∧ w k i) e') {N : Nat} (hN : N = t.length)
    (hw : ∀ i, i < t.length → ∃ k, k < n ∧ w k i) :
    ∃ e, pfor (S.ranges size n) f (newEd N) = .ok e ∧ e.publish = .ok t := by
  obtain ⟨e, h1, h2⟩ := loopOver_acc (f := fun r : Nat × Nat => f r.1 r.2) (Toward t)
    (fun r i => ∃ k, r.1 ≤ k ∧ k < r.2 ∧ w k i) (S.ranges size n) (fun _ => False) (newEd N) (toward_new t hN)
    (fun r hr W s h => hf r hr W s h)
  refine ⟨e, h1, toward_publish h2 ?_⟩
  intro i hi
  obtain ⟨k, hk, hw⟩ := hw i hi
  obtain ⟨r, hr, a, b⟩ := sched_mem S size n k hk
  exact .inr ⟨r, hr, k, a, b, hw⟩

/-- The same for a body that does its indexes one after the other. -/
theorem pfor_each {t : List α} (S : Sched) (size n : Nat) (f : Nat → Ed α → R (Ed α)) (w : Nat → Nat → Prop)
    (hf : ∀ k, k < n → ∀ W e, Toward t W e → ∃ e', f k e = .ok e' ∧ Toward t (fun i => W i ∨ w k i) e') {N : Nat} (hN : N = t.length)
    (hw : ∀ i, i < t.length → ∃ k, k < n ∧ w k i) :
    ∃ e, pfor (S.ranges size n) (each f) (newEd N) = .ok e ∧ e.publish = .ok t := by
  refine pfor_toward S size n (each f) w ?_ hN hw
  intro r hr W e he
  obtain ⟨e', h1, h2⟩ := loop_acc (Toward t) w (List.range' r.1 (r.2 - r.1)) W e he (by
    intro k hk W s hs
    rw [List.mem_range'] at hk
    obtain ⟨i, hi, he⟩ := hk
    exact hf k (sched_bound S size n hr (by omega) (by omega)) W s hs)
  refine ⟨e', h1, toward_mono h2 ?_⟩
  rintro i _ (h | ⟨k, a, b, h⟩)
  · exact .inl h
  · exact .inr ⟨k, by rw [List.mem_range']; exact ⟨k - r.1, by omega, by omega⟩, h⟩

/-- A loop of writes, all of them towards `t`. -/
theorem loop_toward {t : List α} {f : Nat → Ed α → R (Ed α)} (w : Nat → Nat → Prop) (ks : List Nat)
    (hf : ∀ k ∈ ks, ∀ W e, Toward t W e → ∃ e', f k e = .ok e' ∧ Toward t (fun i => W i ∨ w k i) e') {W : Nat → Prop} {e : Ed α}
    (he : Toward t W e) : ∃ e', loop f ks e = .ok e' ∧ Toward t (fun i => W i ∨ ∃ k ∈ ks, w k i) e' :=
  loop_acc (Toward t) w ks W e he hf

/-! ## Shapes and coordinates -/

theorem vol_append (s t : List Nat) : vol (s ++ t) = vol s * vol t := by
  induction s with
  | nil => simp [vol]
  | cons d s ih => simp [vol, ih, Nat.mul_assoc]

theorem inB_length : ∀ {s c : List Nat}, InB s c → c.length = s.length
  | [], [], _ => rfl
  | _ :: s, _ :: c, h => by simp [inB_length (s := s) (c := c) h.2]

theorem ravel_lt : ∀ {s c : List Nat}, InB s c → ravel s c < vol s
  | [], [], _ => by simp [ravel, vol]
  | d :: s, i :: c, h => by
    have := ravel_lt h.2
    have h1 := h.1
    simp only [ravel, vol]
    calc i * vol s + ravel s c < i * vol s + vol s := by omega
      _ = (i + 1) * vol s := by rw [Nat.succ_mul]
      _ ≤ d * vol s := Nat.mul_le_mul_right _ h1

/-- The coordinates of the `k`-th element. -/
def unravel : List Nat → Nat → List Nat
  | [], _ => []
  | _ :: s, k => (k / vol s) :: unravel s (k % vol s)

theorem unravel_inB : ∀ {s : List Nat} {k : Nat}, k < vol s → InB s (unravel s k)
  | [], _, _ => trivial
  | d :: s, k, h => by
    have hp : 0 < vol s := by
      rcases Nat.eq_zero_or_pos (vol s) with h0 | h0
      · simp [vol, h0] at h
      · exact h0
    refine ⟨?_, unravel_inB (Nat.mod_lt _ hp)⟩
    rw [Nat.div_lt_iff_lt_mul hp]; exact h

theorem ravel_unravel : ∀ {s : List Nat} {k : Nat}, k < vol s → ravel s (unravel s k) = k
  | [], k, h => by simp [vol] at h; simp [ravel, h]
  | d :: s, k, h => by
    have hp : 0 < vol s := by
      rcases Nat.eq_zero_or_pos (vol s) with h0 | h0
      · simp [vol, h0] at h
      · exact h0
    simp only [ravel, unravel, ravel_unravel (Nat.mod_lt _ hp)]
    rw [Nat.mul_comm]; exact Nat.div_add_mod _ _

theorem unravel_ravel : ∀ {s c : List Nat}, InB s c → unravel s (ravel s c) = c
  | [], [], _ => rfl
  | d :: s, i :: c, h => by
    have h1 := ravel_lt h.2
    have hp : 0 < vol s := by omega
    have e1 : (i * vol s + ravel s c) / vol s = i := by
      rw [Nat.mul_comm, Nat.mul_add_div hp, Nat.div_eq_of_lt h1]; simp
    have e2 : (i * vol s + ravel s c) % vol s = ravel s c := by
      rw [Nat.mul_comm, Nat.mul_add_mod, Nat.mod_eq_of_lt h1]
    simp [ravel, unravel, e1, e2, unravel_ravel h.2]

theorem unravel_length (s : List Nat) : ∀ k, (unravel s k).length = s.length := by
  induction s with
  | nil => intro k; rfl
  | cons d s ih => intro k; simp [unravel, ih]

theorem at_unravel {m : Mat α} (h : m.WF) {k : Nat} (hk : k < m.data.length) : m.at (unravel m.shape k) = m.data[k]? := by
  have hk' : k < vol m.shape := by rw [← h.len]; exact hk
  simp [Mat.at, unravel_inB hk', ravel_unravel hk']

theorem at_some {m : Mat α} (h : m.WF) {c : List Nat} (hc : InB m.shape c) : ∃ x, m.at c = some x := by
  have := ravel_lt hc
  rw [← h.len] at this
  exact ⟨m.data[ravel m.shape c], by simp [Mat.at, hc, List.getElem?_eq_getElem this]⟩

/-- Two matrices of the same shape with the same element everywhere are the same. -/
theorem mat_ext {m m' : Mat α} (h : m.WF) (h' : m'.WF) (hs : m.shape = m'.shape)
    (he : ∀ c, InB m.shape c → m.at c = m'.at c) : m = m' := by
  have hl : m.data.length = m'.data.length := by rw [h.len, h'.len, hs]
  have hd : m.data = m'.data := by
    apply List.ext_getElem?
    intro k
    rcases Nat.lt_or_ge k m.data.length with hk | hk
    · rw [← at_unravel h hk, ← at_unravel h' (hl ▸ hk), ← hs]
      exact he _ (unravel_inB (by rw [← h.len]; exact hk))
    · rw [List.getElem?_eq_none hk, List.getElem?_eq_none (hl ▸ hk)]
  cases m; cases m'; cases hs; cases hd; rfl

/-- What the elements of a matrix are, from its data. -/
theorem at_mk {s : List Nat} {n : Nat} (hn : n = vol s) {g : Nat → α} {c : List Nat} (hc : InB s c) :
    (Mat.mk s ((List.range n).map g)).at c = some (g (ravel s c)) := by
  have := ravel_lt hc
  simp [Mat.at, hc, hn, List.getElem?_map, List.getElem?_range this]

/-! ## NewMatrix and size -/

theorem prodCheck_ok : ∀ (ds : List Nat) (n p : Nat), prodCheck n ds = .ok p ↔
    p = n * vol ds ∧ ∀ k, 1 ≤ k → k ≤ ds.length → n * vol (ds.take k) ≤ maxInt
  | [], n, p => by
    simp only [prodCheck, vol, R.ok.injEq, Nat.mul_one, List.length_nil]
    constructor
    · intro h; exact ⟨h.symm, fun k h1 h2 => by omega⟩
    · intro h; exact h.1.symm
  | d :: ds, n, p => by
    unfold prodCheck
    have ih := prodCheck_ok ds (n * d) p
    by_cases h : n * d > maxInt
    · rw [if_pos h]
      constructor
      · intro h; cases h
      · rintro ⟨_, h2⟩
        have := h2 1 (by omega) (by simp)
        simp [vol] at this; omega
    · rw [if_neg h, ih]
      constructor
      · rintro ⟨h1, h2⟩
        refine ⟨by rw [h1, vol, Nat.mul_assoc], ?_⟩
        intro k hk1 hk2
        match k, hk1 with
        | 1, _ => simp [vol]; omega
        | k + 2, _ =>
          have := h2 (k + 1) (by omega) (by simpa using hk2)
          simpa [vol, Nat.mul_assoc] using this
      · rintro ⟨h1, h2⟩
        refine ⟨by rw [h1, vol, Nat.mul_assoc], ?_⟩
        intro k hk1 hk2
        have := h2 (k + 1) (by omega) (by simpa using hk2)
        simpa [vol, Nat.mul_assoc] using this

/-- `NewMatrix` makes a matrix exactly when the sizes are allowed and agree. -/
theorem newMatrix_ok {shape : List Nat} {data : List α} (hs : shape ≠ []) {m : Mat α} :
    newMatrix shape data = .ok m ↔ m = ⟨shape, data⟩ ∧ data.length = vol shape ∧ Fits shape := by
  cases shape with
  | nil => exact absurd rfl hs
  | cons d ds =>
    unfold newMatrix
    simp only [bind_eq_ok, prodCheck_ok]
    have hf : (∀ k, 1 ≤ k → k ≤ ds.length → d * vol (ds.take k) ≤ maxInt) ↔ Fits (d :: ds) := by
      unfold Fits
      constructor
      · intro h k h2 hk
        match k, h2 with
        | k + 2, _ => exact h (k + 1) (by omega) (by simpa using hk)
      · intro h k h1 hk
        exact h (k + 1) (by omega) (by simpa using hk)
    rw [← hf]
    constructor
    · rintro ⟨a, ⟨rfl, h2⟩, h3⟩
      split at h3
      · cases h3
      · rename_i h; cases h3
        exact ⟨rfl, by simp [vol]; omega, h2⟩
    · rintro ⟨rfl, h2, h3⟩
      exact ⟨d * vol ds, ⟨rfl, h3⟩, by simp [h2, vol]⟩

theorem newMatrix_fits {shape : List Nat} {data : List α} (hs : shape ≠ []) (hl : data.length = vol shape) (hf : Fits shape) :
    newMatrix shape data = .ok ⟨shape, data⟩ := (newMatrix_ok hs).mpr ⟨rfl, hl, hf⟩

theorem newMatrix_Ok {shape : List Nat} {data : List α} (hs : shape ≠ []) {m : Mat α} (h : newMatrix shape data = .ok m) :
    m.Ok ∧ m = ⟨shape, data⟩ := by
  obtain ⟨rfl, h2, h3⟩ := (newMatrix_ok hs).mp h
  exact ⟨⟨⟨hs, h2⟩, h3⟩, rfl⟩

theorem vol_take_le {s : List Nat} (h : 0 < vol s) (k : Nat) : vol (s.take k) ≤ vol s := by
  have e := vol_append (s.take k) (s.drop k)
  rw [List.take_append_drop] at e
  have hp : 0 < vol (s.drop k) := by
    rcases Nat.eq_zero_or_pos (vol (s.drop k)) with h0 | h0
    · rw [h0, Nat.mul_zero] at e; omega
    · exact h0
  rw [e]; exact Nat.le_mul_of_pos_right _ hp

/-- A nonempty array that is not too large is allowed whatever its shape. -/
theorem fits_of_pos {s : List Nat} (h : 0 < vol s) (hm : vol s ≤ maxInt) : Fits s :=
  fun k _ _ => Nat.le_trans (vol_take_le h k) hm

theorem sizeFrom_ok : ∀ (ds : List Nat) (n : Nat), (∀ k, k ≤ ds.length → 1 ≤ k → n * vol (ds.take k) < 2 ^ 63) →
    sizeFrom n ds = .ok (n * vol ds)
  | [], n, _ => by simp [sizeFrom, vol]
  | d :: ds, n, h => by
    unfold sizeFrom
    have h1 := h 1 (by simp) (by omega)
    simp only [List.take_succ_cons, List.take_zero, vol, Nat.mul_one] at h1
    rw [if_neg (by omega), sizeFrom_ok ds (n * d)]
    · simp [vol, Nat.mul_assoc]
    · intro k hk h1
      have := h (k + 1) (by simpa using hk) (by omega)
      simpa [vol, Nat.mul_assoc] using this

theorem size_ok {s : List Nat} (h : ∀ k, k ≤ s.length → 1 ≤ k → vol (s.take k) < 2 ^ 63) : size s = .ok (vol s) := by
  rw [size, sizeFrom_ok s 1 (by simpa using h), Nat.one_mul]

theorem sizeFrom_inv : ∀ (ds : List Nat) (n r : Nat), sizeFrom n ds = .ok r → r = n * vol ds
  | [], n, r, h => by cases h; simp [vol]
  | d :: ds, n, r, h => by
    unfold sizeFrom at h
    split at h
    · cases h
    · rw [sizeFrom_inv ds _ r h, vol, Nat.mul_assoc]

theorem size_inv {s : List Nat} {r : Nat} (h : size s = .ok r) : r = vol s := by
  rw [sizeFrom_inv s 1 r h, Nat.one_mul]

end Verif.Arr
