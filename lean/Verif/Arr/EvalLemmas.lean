import Verif.Arr.EvalSpec
import Verif.Arr.Lemmas5
import Verif.Arr.IndexLemmas6

namespace Verif.Arr
variable {α σ τ : Type}

/-! ## Parallel loops whose iterations each fill one block -/

/-- Setting the elements from `k` on. -/
def puts (e : Ed α) (k : Nat) : List α → R (Ed α)
  | [] => .ok e
  | x :: xs => (e.put k x).bind fun e => puts e (k + 1) xs

theorem put_len {e e' : Ed α} {i : Nat} {x : α} (h : e.put i x = .ok e') : e'.length = e.length := by
  unfold Ed.put at h
  split at h
  · cases h; simp
  · cases h

theorem put_in {e : Ed α} {i : Nat} {x : α} (h : i < e.length) : e.put i x = .ok (e.set i (some x)) := by
  simp [Ed.put, h]

theorem puts_len : ∀ {l : List α} {e e' : Ed α} {k : Nat}, puts e k l = .ok e' → e'.length = e.length
  | [], _, _, _, h => by cases h; rfl
  | x :: xs, e, e', k, h => by
    obtain ⟨e1, h1, h2⟩ := bind_eq_ok.mp h
    rw [puts_len h2, put_len h1]

theorem puts_in : ∀ {l : List α} {e : Ed α} {k : Nat}, k + l.length ≤ e.length → ∃ e', puts e k l = .ok e'
  | [], e, _, _ => ⟨e, rfl⟩
  | x :: xs, e, k, h => by
    simp only [List.length_cons] at h
    obtain ⟨e', he⟩ := puts_in (l := xs) (e := e.set k (some x)) (k := k + 1) (by simp; omega)
    exact ⟨e', by rw [puts, put_in (by omega)]; exact he⟩

theorem puts_toward {t : List α} : ∀ {l : List α} {e : Ed α} {k : Nat} {W : Nat → Prop}, Toward t W e →
    (∀ j x, l[j]? = some x → t[k + j]? = some x) →
    ∃ e', puts e k l = .ok e' ∧ Toward t (fun i => W i ∨ (k ≤ i ∧ i < k + l.length)) e'
  | [], e, k, W, h, _ => ⟨e, rfl, toward_mono h (by intro i _ hi; rcases hi with h | h; exact h; simp at h; omega)⟩
  | x :: xs, e, k, W, h, hx => by
    obtain ⟨e1, h1, h2⟩ := toward_put h (i := k) (x := x) (by simpa using hx 0 x (by simp))
    obtain ⟨e2, h3, h4⟩ := puts_toward (l := xs) (k := k + 1) h2 (by
      intro j y hy
      have := hx (j + 1) y (by simpa using hy)
      rw [show k + 1 + j = k + (j + 1) by omega]; exact this)
    refine ⟨e2, by rw [puts, h1]; exact h3, toward_mono h4 ?_⟩
    intro i _ hi
    simp only [List.length_cons] at hi
    rcases hi with h | h
    · exact .inl (.inl h)
    · rcases Nat.eq_or_lt_of_le h.1 with h' | h'
      · exact .inl (.inr h'.symm)
      · exact .inr ⟨h', by omega⟩

/-- If a loop gives a value, so did each iteration, in a state that meets the invariant. -/
theorem loop_all {f : Nat → σ → R σ} (I : σ → Prop) : ∀ (ks : List Nat) (s s' : σ), I s →
    (∀ k ∈ ks, ∀ s s', I s → f k s = .ok s' → I s') → loop f ks s = .ok s' →
    I s' ∧ ∀ k ∈ ks, ∃ a b, I a ∧ f k a = .ok b
  | [], s, s', h, _, e => by cases e; exact ⟨h, by simp⟩
  | k :: ks, s, s', h, hf, e => by
    obtain ⟨s1, h1, h2⟩ := bind_eq_ok.mp e
    have i1 := hf k (by simp) s s1 h h1
    obtain ⟨h3, h4⟩ := loop_all I ks s1 s' i1 (fun k hk => hf k (by simp [hk])) h2
    refine ⟨h3, ?_⟩
    intro k' hk'
    rcases List.mem_cons.mp hk' with rfl | hk'
    · exact ⟨s, s1, h, h1⟩
    · exact h4 k' hk'

theorem loopOver_all {β : Type} {f : β → σ → R σ} (I : σ → Prop) : ∀ (ks : List β) (s s' : σ), I s →
    (∀ k ∈ ks, ∀ s s', I s → f k s = .ok s' → I s') → loopOver f ks s = .ok s' →
    I s' ∧ ∀ k ∈ ks, ∃ a b, I a ∧ f k a = .ok b
  | [], s, s', h, _, e => by cases e; exact ⟨h, by simp⟩
  | k :: ks, s, s', h, hf, e => by
    obtain ⟨s1, h1, h2⟩ := bind_eq_ok.mp e
    have i1 := hf k (by simp) s s1 h h1
    obtain ⟨h3, h4⟩ := loopOver_all I ks s1 s' i1 (fun k hk => hf k (by simp [hk])) h2
    refine ⟨h3, ?_⟩
    intro k' hk'
    rcases List.mem_cons.mp hk' with rfl | hk'
    · exact ⟨s, s1, h, h1⟩
    · exact h4 k' hk'

theorem pfor_all {f : Nat → σ → R σ} (I : σ → Prop) (S : Sched) (size n : Nat) {s s' : σ} (h : I s)
    (hf : ∀ k, k < n → ∀ s s', I s → f k s = .ok s' → I s') (e : pfor (S.ranges size n) (each f) s = .ok s') :
    ∀ k, k < n → ∃ a b, I a ∧ f k a = .ok b := by
  have hin : ∀ r ∈ S.ranges size n, ∀ k ∈ List.range' r.1 (r.2 - r.1), k < n := by
    intro r hr k hk
    rw [List.mem_range'] at hk
    obtain ⟨j, hj, he⟩ := hk
    exact sched_bound S size n hr (by omega) (by omega)
  have h1 := loopOver_all (f := fun r : Nat × Nat => each f r.1 r.2) I (S.ranges size n) s s' h
    (by
      intro r hr s s' hs hr2
      exact (loop_all I _ s s' hs (fun k hk => hf k (hin r hr k hk)) hr2).1) e
  intro k hk
  obtain ⟨r, hr, h2, h3⟩ := sched_mem S size n k hk
  obtain ⟨a, b, ha, hb⟩ := h1.2 r hr
  exact (loop_all I _ a b ha (fun k hk => hf k (hin r hr k hk)) hb).2 k (by
    rw [List.mem_range']; exact ⟨k - r.1, by omega, by omega⟩)

theorem blocks_flat {w : Nat} {h : Nat → List α} : ∀ n, (∀ i, i < n → (h i).length = w) →
    ((List.range n).flatMap h).length = n * w ∧ ∀ i, i < n → ((((List.range n).flatMap h).drop (i * w)).take w) = h i
  | 0, _ => by simp
  | n + 1, hw => by
    obtain ⟨h1, h2⟩ := blocks_flat n (fun i hi => hw i (by omega))
    have hn := hw n (by omega)
    rw [List.range_succ, List.flatMap_append]
    simp only [List.flatMap_cons, List.flatMap_nil, List.append_nil]
    refine ⟨by rw [List.length_append, h1, hn, Nat.succ_mul], ?_⟩
    intro i hi
    rcases Nat.lt_or_ge i n with hi' | hi'
    · have hle : (i + 1) * w ≤ n * w := Nat.mul_le_mul_right w hi'
      rw [Nat.succ_mul] at hle
      rw [List.drop_append_of_le_length (by rw [h1]; omega), List.take_append_of_le_length (by rw [List.length_drop, h1]; omega), h2 i hi']
    · have : i = n := by omega
      subst this
      rw [List.drop_append, List.drop_eq_nil_of_le (by omega), h1, Nat.sub_self, List.nil_append, List.drop_zero, ← hn, List.take_length]

/-- A parallel loop whose iteration `i` fills block `i`, of length `w`, with `g i`: it gives a value exactly if all `g i` do. -/
theorem pfor_blocks (S : Sched) (sz n w : Nat) {f : Nat → Ed α → R (Ed α)} {g : Nat → R (List α)}
    (hg : ∀ i l, i < n → g i = .ok l → l.length = w)
    (hf : ∀ i e, i < n → e.length = n * w → f i e = (g i).bind fun l => puts e (i * w) l) {N : Nat} (hN : N = n * w) {t : List α} :
    ((pfor (S.ranges sz n) (each f) (newEd N)).bind fun e => e.publish) = .ok t ↔
      t.length = n * w ∧ ∀ i, i < n → g i = .ok ((t.drop (i * w)).take w) := by
  subst hN
  have fwd : ∀ t : List α, (t.length = n * w ∧ ∀ i, i < n → g i = .ok ((t.drop (i * w)).take w)) →
      ((pfor (S.ranges sz n) (each f) (newEd (n * w))).bind fun e => e.publish) = .ok t := by
    rintro t ⟨hl, ht⟩
    have hb : ∀ k, k < n → k * w + w ≤ n * w := by
      intro k hk
      have := Nat.mul_le_mul_right w (show k + 1 ≤ n from hk)
      rwa [Nat.succ_mul] at this
    obtain ⟨e, h1, h2⟩ := pfor_each (t := t) S sz n f (fun k i => k * w ≤ i ∧ i < k * w + w) (by
      intro k hk W e he
      rw [hf k e hk (by rw [he.len, hl]), ht k hk, bind_ok]
      have hlen : ((t.drop (k * w)).take w).length = w := by
        have := hb k hk
        rw [List.length_take, List.length_drop]; omega
      obtain ⟨e', h3, h4⟩ := puts_toward (l := (t.drop (k * w)).take w) (k := k * w) he (by
        intro j x hx
        have hj := (List.getElem?_eq_some_iff.mp hx).1
        rw [hlen] at hj
        rw [List.getElem?_take_of_lt hj, List.getElem?_drop] at hx
        exact hx)
      rw [hlen] at h4
      exact ⟨e', h3, h4⟩) hl.symm (by
      intro i hi
      rw [hl] at hi
      have hw : 0 < w := by
        rcases Nat.eq_zero_or_pos w with h | h
        · rw [h, Nat.mul_zero] at hi; omega
        · exact h
      refine ⟨i / w, (Nat.div_lt_iff_lt_mul hw).mpr hi, ?_, ?_⟩
      · exact Nat.div_mul_le_self i w
      · have h1 := Nat.div_add_mod i w
        have h2 := Nat.mod_lt i hw
        rw [Nat.mul_comm] at h1; omega)
    rw [h1, bind_ok, h2]
  constructor
  · intro h
    obtain ⟨e, h1, h2⟩ := bind_eq_ok.mp h
    have hall := pfor_all (fun e : Ed α => e.length = n * w) S sz n (by simp [newEd]) (by
      intro k hk s s' hs hs'
      rw [hf k s hk hs] at hs'
      obtain ⟨l, _, h4⟩ := bind_eq_ok.mp hs'
      exact (puts_len h4).trans hs) h1
    have hok : ∀ i, i < n → ∃ l, g i = .ok l := by
      intro i hi
      obtain ⟨a, b, ha, hb⟩ := hall i hi
      rw [hf i a hi ha] at hb
      obtain ⟨l, h3, _⟩ := bind_eq_ok.mp hb
      exact ⟨l, h3⟩
    let hh : Nat → List α := fun i => match g i with | .ok l => l | _ => []
    have hhg : ∀ i, i < n → g i = .ok (hh i) := by
      intro i hi
      obtain ⟨l, hl⟩ := hok i hi
      simp only [hh, hl]
    obtain ⟨b1, b2⟩ := blocks_flat (w := w) (h := hh) n (fun i hi => hg i _ hi (hhg i hi))
    have := fwd ((List.range n).flatMap hh) ⟨b1, fun i hi => by rw [b2 i hi]; exact hhg i hi⟩
    rw [h] at this
    cases this
    exact ⟨b1, fun i hi => by rw [b2 i hi]; exact hhg i hi⟩
  · exact fwd t

/-- A parallel loop whose iteration `i` sets element `i` to `g i`. -/
theorem pfor_map (S : Sched) (sz n : Nat) {f : Nat → Ed α → R (Ed α)} {g : Nat → R α}
    (hf : ∀ i e, i < n → f i e = (g i).bind fun x => e.put i x) {t : List α} :
    ((pfor (S.ranges sz n) (each f) (newEd n)).bind fun e => e.publish) = .ok t ↔
      t.length = n ∧ ∀ i x, t[i]? = some x → g i = .ok x := by
  rw [pfor_blocks S sz n 1 (f := f) (g := fun i => (g i).bind fun x => .ok [x]) (by
      intro i l _ h
      obtain ⟨x, _, h2⟩ := bind_eq_ok.mp h
      cases h2; rfl) (by
      intro i e hi _
      rw [hf i e hi, bind_assoc]
      congr 1
      funext x
      simp only [bind_ok, puts, Nat.mul_one]
      cases e.put i x <;> rfl) (by omega)]
  rw [Nat.mul_one]
  constructor
  · rintro ⟨h1, h2⟩
    refine ⟨h1, ?_⟩
    intro i x hx
    have hi := (List.getElem?_eq_some_iff.mp hx).1
    have h3 := h2 i (by omega)
    obtain ⟨y, h4, h5⟩ := bind_eq_ok.mp h3
    have : ((t.drop (i * 1)).take 1) = [x] := by
      rw [Nat.mul_one, List.drop_eq_getElem_cons hi, List.take_succ_cons, List.take_zero]
      rw [List.getElem?_eq_getElem hi] at hx
      cases hx; rfl
    rw [this] at h5
    cases h5
    exact h4
  · rintro ⟨h1, h2⟩
    refine ⟨h1, ?_⟩
    intro i hi
    have hi' : i < t.length := by omega
    rw [h2 i t[i] (List.getElem?_eq_getElem hi'), bind_ok, Nat.mul_one, List.drop_eq_getElem_cons hi', List.take_succ_cons, List.take_zero]

/-- The same, when all the values are there. -/
theorem pfor_map_ok (S : Sched) (sz n : Nat) {f : Nat → Ed α → R (Ed α)} {g : Nat → R α}
    (hf : ∀ i e, i < n → f i e = (g i).bind fun x => e.put i x) (h : ∀ i, i < n → ∃ x, g i = .ok x) :
    ∃ t, ((pfor (S.ranges sz n) (each f) (newEd n)).bind fun e => e.publish) = .ok t ∧ t.length = n ∧
      ∀ i x, t[i]? = some x → g i = .ok x := by
  have hch : ∃ t : List α, t.length = n ∧ ∀ i x, t[i]? = some x → g i = .ok x := by
    clear hf
    induction n with
    | zero => exact ⟨[], rfl, by simp⟩
    | succ n ih =>
      obtain ⟨t, h1, h2⟩ := ih (fun i hi => h i (by omega))
      obtain ⟨x, hx⟩ := h n (by omega)
      refine ⟨t ++ [x], by simp [h1], ?_⟩
      intro i y hy
      rcases Nat.lt_or_ge i t.length with hi | hi
      · rw [List.getElem?_append_left hi] at hy; exact h2 i y hy
      · rw [List.getElem?_append_right hi] at hy
        have h3 := (List.getElem?_eq_some_iff.mp hy).1
        simp at h3
        have : i = n := by omega
        subst this
        rw [h1, Nat.sub_self] at hy
        simp at hy
        rw [← hy]; exact hx
  obtain ⟨t, h1, h2⟩ := hch
  exact ⟨t, (pfor_map S sz n hf).mpr ⟨h1, h2⟩, h1, h2⟩

/-! ## Reductions -/

theorem foldR_snoc (f : α → α → R α) (a : α) : ∀ l : List α, foldR f (l ++ [a]) = l.foldr (fun x r => r.bind (f x)) (.ok a)
  | [] => rfl
  | [x] => rfl
  | x :: y :: r => by
    show (foldR f (y :: (r ++ [a]))).bind (f x) = _
    have := foldR_snoc f a (y :: r)
    rw [List.cons_append] at this
    rw [this]; rfl

theorem loop_acc_eq (f : α → α → R α) (l : List α) (p : Nat → Nat) : ∀ (ks : List Nat) (r : R α), (∀ k ∈ ks, p k < l.length) →
    r.bind (loop (fun k => accStep f l (p k)) ks) = (ks.filterMap fun k => l[p k]?).foldl (fun r x => r.bind (f x)) r
  | [], r, _ => by cases r <;> rfl
  | k :: ks, r, h => by
    have hk := h k (by simp)
    rw [List.filterMap_cons, List.getElem?_eq_getElem hk]
    simp only [List.foldl_cons]
    rw [← loop_acc_eq f l p ks _ (fun k hk => h k (by simp [hk])), bind_assoc]
    congr 1
    funext acc
    rw [loop]
    congr 1
    simp only [accStep, vAt, List.getElem?_eq_getElem hk, bind_ok]

/-- The loop of a reduction over the positions `p 0`, `p 1`, …, which begins with the first. -/
theorem down_eq (f : α → α → R α) (l : List α) (p : Nat → Nat) (k0 : Nat) (ks : List Nat) (h0 : p k0 < l.length) (h : ∀ k ∈ ks, p k < l.length) :
    ((vAt l (p k0)).bind fun acc => loop (fun k => accStep f l (p k)) ks acc) = foldR f ((k0 :: ks).reverse.filterMap fun k => l[p k]?) := by
  rw [show (fun acc => loop (fun k => accStep f l (p k)) ks acc) = loop (fun k => accStep f l (p k)) ks from rfl]
  rw [loop_acc_eq f l p ks _ h]
  simp only [List.reverse_cons, List.filterMap_append, List.filterMap_cons, List.filterMap_nil, List.getElem?_eq_getElem h0]
  rw [foldR_snoc, List.filterMap_reverse, List.foldr_reverse]
  simp only [vAt, List.getElem?_eq_getElem h0]

theorem filterMap_range_getElem (l : List α) : ((List.range l.length).filterMap fun k => l[k]?) = l := by
  apply List.ext_getElem?
  intro i
  induction l generalizing i with
  | nil => simp
  | cons x xs ih =>
    rw [List.length_cons, List.range_succ_eq_map, List.filterMap_cons]
    simp only [List.getElem?_cons_zero, List.filterMap_map, Function.comp_def, List.getElem?_cons_succ]
    cases i with
    | zero => rfl
    | succ i => simpa using ih i

theorem reduceList_eq (f : α → α → R α) {l : List α} (h : l ≠ []) : reduceList f l = foldR f l := by
  have hp : 0 < l.length := List.length_pos_iff.mpr h
  have := down_eq f l id (l.length - 1) (List.range (l.length - 1)).reverse (by simp only [id]; omega) (by
    intro k hk; rw [List.mem_reverse, List.mem_range] at hk; simp only [id]; omega)
  simp only [id] at this
  rw [reduceList]
  refine this.trans ?_
  rw [List.reverse_cons, List.reverse_reverse]
  congr 1
  rw [show List.range (l.length - 1) ++ [l.length - 1] = List.range l.length by
    rw [← List.range_succ]; congr 1; omega]
  exact filterMap_range_getElem l

end Verif.Arr
