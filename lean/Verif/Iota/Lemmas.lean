import Verif.Iota.Model

/-!
# Invariant of the shared numbers of `iota`
-/

namespace Verif.Iota

/-- Every element of the array is set to its index. -/
def Full (l : List (Option Nat)) : Prop := ∀ i, i < l.length → l[i]? = some (some i)

/-- The goroutine holds the lock for reading. -/
def isReader (t : Thread) : Bool :=
  match t.pc with
  | .reading | .got _ | .leaving => true
  | _ => false

/-- The goroutine holds the lock for writing or is the next to get it. -/
def isWriter (t : Thread) : Bool :=
  match t.pc with
  | .waiting | .writing | .filling _ _ | .releasing => true
  | _ => false

/-- What is known of a goroutine. -/
def Ok (s : State) (t : Thread) : Prop :=
  match t.pc with
  | .got r | .done r => r ≤ s.static ∧ Full (s.arr r) ∧ t.origin + t.n ≤ (s.arr r).length
  | .filling r k => r < s.heap.length ∧ s.static < r ∧ (s.arr r).length = t.origin + t.n + 32 ∧ k ≤ (s.arr r).length ∧
      (∀ j, j < k → (s.arr r)[j]? = some (some j)) ∧ s.len < t.origin + t.n ∧ s.readers = 0
  | .writing => s.readers = 0
  | .releasing => t.origin + t.n ≤ s.len ∧ s.readers = 0
  | _ => True

structure Inv (s : State) : Prop where
  stat : s.static < s.heap.length
  full : Full (s.arr s.static)
  rd : s.readers = s.threads.countP isReader
  wr : s.threads.countP isWriter = s.writer.toNat
  ok : ∀ t ∈ s.threads, Ok s t

theorem countP_goto (p : Thread → Bool) : ∀ {l : List Thread} {i : Nat} {a : Thread} (_ : l[i]? = some a) (b : Thread),
    (l.set i b).countP p + (p a).toNat = l.countP p + (p b).toNat
  | [], _, _, h, _ => by simp at h
  | x :: l, 0, a, h, b => by
    obtain rfl : x = a := by simpa using h
    simp only [List.set_cons_zero, List.countP_cons]
    cases p x <;> cases p b <;> simp <;> omega
  | x :: l, i + 1, a, h, b => by
    have := countP_goto p (l := l) (i := i) (a := a) (by simpa using h) b
    simp only [List.set_cons_succ, List.countP_cons]
    omega

/-- There is one writer at most. -/
theorem writer_unique {s : State} (h : Inv s) {i j : Nat} {a b : Thread} (hi : s.threads[i]? = some a) (hj : s.threads[j]? = some b) (ha : isWriter a = true)
    (hb : isWriter b = true) : i = j := by
  refine Decidable.byContradiction fun hne => ?_
  have e := countP_goto isWriter hi { a with pc := .start }
  have e2 : isWriter { a with pc := .start } = false := rfl
  rw [ha, e2, h.wr] at e
  have h0 : (s.threads.set i { a with pc := .start }).countP isWriter = 0 := by
    have : s.writer.toNat ≤ 1 := by cases s.writer <;> simp
    simp only [Bool.toNat_true, Bool.toNat_false] at e
    omega
  rw [List.countP_eq_zero] at h0
  have hm : b ∈ s.threads.set i { a with pc := .start } := by
    apply List.mem_of_getElem? (i := j)
    rw [List.getElem?_set_ne hne]
    exact hj
  exact h0 b hm hb

theorem inv_goto {s s1 : State} (h : Inv s) {i : Nat} {t : Thread} {pc : PC} (ht : s.threads[i]? = some t) (h1 : s1.threads = s.threads)
    (stat : s1.static < s1.heap.length) (full : Full (s1.arr s1.static))
    (rd : s1.readers + (isReader t).toNat = s.readers + (isReader { t with pc := pc }).toNat)
    (wr : s1.writer.toNat + (isWriter t).toNat = s.writer.toNat + (isWriter { t with pc := pc }).toNat)
    (okn : Ok s1 { t with pc := pc })
    (oko : ∀ j t2, j ≠ i → s.threads[j]? = some t2 → Ok s t2 → Ok s1 t2) : Inv (s1.goto i t pc) := by
  refine ⟨stat, full, ?_, ?_, ?_⟩
  · show s1.readers = (s1.threads.set i _).countP isReader
    rw [h1]
    have := countP_goto isReader ht { t with pc := pc }
    have := h.rd
    omega
  · show (s1.threads.set i _).countP isWriter = s1.writer.toNat
    rw [h1]
    have := countP_goto isWriter ht { t with pc := pc }
    have := h.wr
    omega
  · intro t2 h2
    obtain ⟨j, hj⟩ := List.getElem?_of_mem h2
    have hj' : (s.threads.set i { t with pc := pc })[j]? = some t2 := by rw [← h1]; exact hj
    by_cases e : j = i
    · subst e
      have hl : j < s.threads.length := (List.getElem?_eq_some_iff.1 ht).1
      rw [List.getElem?_set_self hl] at hj'
      obtain rfl := Option.some.inj hj'
      exact okn
    · rw [List.getElem?_set_ne (Ne.symm e)] at hj'
      exact oko j t2 e hj' (h.ok t2 (List.mem_of_getElem? hj'))

theorem ok_of_same {s s1 : State} (hh : s1.heap = s.heap) (hs : s1.static = s.static) (hr : s1.readers ≤ s.readers) {t : Thread} (h : Ok s t) : Ok s1 t := by
  have ha : ∀ r, s1.arr r = s.arr r := by intro r; unfold State.arr; rw [hh]
  have hl : s1.len = s.len := by unfold State.len; rw [ha, hs]
  unfold Ok at h ⊢
  simp only [ha, hl, hh, hs]
  split <;> rename_i e <;> simp only [e] at h ⊢
  · exact h
  · exact h
  · obtain ⟨h1, h2, h3, h4, h5, h6, h7⟩ := h
    exact ⟨h1, h2, h3, h4, h5, h6, by omega⟩
  · omega
  · exact ⟨h.1, by omega⟩

/-- What the writer does leaves the others alone. -/
theorem ok_of_grow {s s1 : State} (hs : s.static ≤ s1.static) (ha : ∀ r, r ≤ s.static → s1.arr r = s.arr r) {t : Thread}
    (hw : isWriter t = false) (h : Ok s t) : Ok s1 t := by
  unfold Ok at h ⊢
  unfold isWriter at hw
  split <;> rename_i e <;> simp only [e] at h hw ⊢
  · exact ⟨by omega, by rw [ha _ h.1]; exact h.2.1, by rw [ha _ h.1]; exact h.2.2⟩
  · exact ⟨by omega, by rw [ha _ h.1]; exact h.2.1, by rw [ha _ h.1]; exact h.2.2⟩
  · cases hw
  · cases hw
  · cases hw

theorem others {s : State} (h : Inv s) {i : Nat} {t : Thread} (ht : s.threads[i]? = some t) (hw : isWriter t = true) {j : Nat} {t2 : Thread} (hne : j ≠ i)
    (h2 : s.threads[j]? = some t2) : isWriter t2 = false := by
  cases hb : isWriter t2 with
  | false => rfl
  | true => exact absurd (writer_unique h h2 ht hb hw) hne

theorem arr_append {s : State} {x : List (Option Nat)} {r : Nat} (hr : r < s.heap.length) : (s.heap ++ [x]).getD r [] = s.arr r := by
  unfold State.arr
  simp [List.getD_eq_getElem?_getD, List.getElem?_append_left hr]

theorem arr_set_ne {s : State} {x : List (Option Nat)} {r k : Nat} (hr : r ≠ k) : (s.heap.set k x).getD r [] = s.arr r := by
  unfold State.arr
  simp [List.getD_eq_getElem?_getD, List.getElem?_set_ne (Ne.symm hr)]

theorem arr_set_self {s : State} {x : List (Option Nat)} {k : Nat} (hk : k < s.heap.length) : (s.heap.set k x).getD k [] = x := by
  simp [List.getD_eq_getElem?_getD, hk]

theorem writer_on {s : State} (h : Inv s) {i : Nat} {t : Thread} (ht : s.threads[i]? = some t) (hw : isWriter t = true) : s.writer = true := by
  have : 0 < s.threads.countP isWriter := List.countP_pos_iff.2 ⟨t, List.mem_of_getElem? ht, hw⟩
  rw [h.wr] at this
  cases hh : s.writer <;> simp [hh] at this ⊢

theorem readers_pos {s : State} (h : Inv s) {i : Nat} {t : Thread} (ht : s.threads[i]? = some t) (hw : isReader t = true) : 0 < s.readers := by
  have : 0 < s.threads.countP isReader := List.countP_pos_iff.2 ⟨t, List.mem_of_getElem? ht, hw⟩
  rw [h.rd]
  exact this

/-- Every step keeps the invariant. -/
theorem next_inv {s s' : State} (h : Inv s) {i : Nat} {t : Thread} (ht : s.threads[i]? = some t) (hn : next s i t = some s') : Inv s' := by
  have hok := h.ok t (List.mem_of_getElem? ht)
  obtain ⟨origin, n, pc⟩ := t
  cases pc with
  | start =>
    simp only [next] at hn
    split at hn
    · cases hn
    · rename_i hw
      cases hn
      refine inv_goto h ht rfl h.stat h.full (by simp [isReader]) (by simp [isWriter]) (by simp [Ok]) fun j t2 _ h2 k => ok_of_grow (s := s) ?_ ?_ ?_ k
      · exact Nat.le_refl _
      · exact fun _ _ => rfl
      · cases hb : isWriter t2 with
        | false => rfl
        | true => exact absurd (writer_on h h2 hb) hw
  | reading =>
    simp only [next] at hn
    split at hn
    · rename_i hl
      cases hn
      exact inv_goto h ht rfl h.stat h.full (by simp [isReader]) (by simp [isWriter]) ⟨Nat.le_refl _, h.full, hl⟩ fun j t2 _ _ k => k
    · cases hn
      exact inv_goto h ht rfl h.stat h.full (by simp [isReader]) (by simp [isWriter]) (by simp [Ok]) fun j t2 _ _ k => k
  | got r =>
    have hp := readers_pos h ht rfl
    simp only [next] at hn
    cases hn
    exact inv_goto h ht rfl h.stat h.full (by simp [isReader]; omega) (by simp [isWriter]) (ok_of_same (s := s) (s1 := { s with readers := s.readers - 1 }) rfl rfl (Nat.sub_le _ _) hok)
      fun j t2 _ _ k => ok_of_same (s := s) (s1 := { s with readers := s.readers - 1 }) rfl rfl (Nat.sub_le _ _) k
  | done r => cases hn
  | leaving =>
    have hp := readers_pos h ht rfl
    simp only [next] at hn
    cases hn
    exact inv_goto h ht rfl h.stat h.full (by simp [isReader]; omega) (by simp [isWriter]) (by simp [Ok])
      fun j t2 _ _ k => ok_of_same (s := s) (s1 := { s with readers := s.readers - 1 }) rfl rfl (Nat.sub_le _ _) k
  | asking =>
    simp only [next] at hn
    split at hn
    · cases hn
    · rename_i hw
      have hw1 : s.writer = false := by cases e : s.writer <;> simp [e] at hw ⊢
      cases hn
      exact inv_goto h ht rfl h.stat h.full (by simp [isReader]) (by simp [isWriter, hw1]) (by simp [Ok]) fun j t2 _ _ k => ok_of_same (s := s) rfl rfl (Nat.le_refl _) k
  | waiting =>
    simp only [next] at hn
    split at hn
    · cases hn
    · rename_i hr
      cases hn
      exact inv_goto h ht rfl h.stat h.full (by simp [isReader]) (by simp [isWriter]) (by simp only [Ok]; omega) fun j t2 _ _ k => k
  | writing =>
    have hst := h.stat
    have hr0 : s.readers = 0 := hok
    simp only [next] at hn
    split at hn
    · rename_i hl
      cases hn
      have ha : ∀ r, r ≤ s.static → (s.heap ++ [List.replicate (origin + n + 32) none]).getD r [] = s.arr r := fun r hr => arr_append (by omega)
      have hnew : (s.heap ++ [List.replicate (origin + n + 32) (none : Option Nat)]).getD s.heap.length [] = List.replicate (origin + n + 32) none := by
        simp [List.getD_eq_getElem?_getD]
      have hlen : ({ s with heap := s.heap ++ [List.replicate (origin + n + 32) none] } : State).len = s.len := by
        show ((s.heap ++ [_]).getD s.static []).length = _
        rw [ha _ (Nat.le_refl _)]
        rfl
      refine inv_goto h ht rfl (by simp; omega) ?_ (by simp [isReader]) (by simp [isWriter]) ?_ ?_
      · show Full ((s.heap ++ [_]).getD s.static [])
        rw [ha _ (Nat.le_refl _)]
        exact h.full
      · refine ⟨by simp, hst, ?_, Nat.zero_le _, fun j hj => absurd hj (Nat.not_lt_zero _), by rw [hlen]; exact hl, hr0⟩
        show ((s.heap ++ [_]).getD s.heap.length []).length = _
        rw [hnew, List.length_replicate]
      · intro j t2 hne h2 k
        refine ok_of_grow (s := s) ?_ ?_ (others h ht rfl hne h2) k
        · exact Nat.le_refl _
        · exact ha
    · rename_i hl
      cases hn
      exact inv_goto h ht rfl h.stat h.full (by simp [isReader]) (by simp [isWriter]) (by simp only [Ok]; omega) fun j t2 _ _ k => k
  | filling r k =>
    obtain ⟨h1, h2, h3, h4, h5, h6, h7⟩ := hok
    simp only at h3 h6
    simp only [next] at hn
    split at hn
    · rename_i hk
      cases hn
      have ha : ∀ q, q ≤ s.static → (s.heap.set r ((s.arr r).set k (some k))).getD q [] = s.arr q := fun q hq => arr_set_ne (by omega)
      have hnew : (s.heap.set r ((s.arr r).set k (some k))).getD r [] = (s.arr r).set k (some k) := arr_set_self h1
      have hlen : ({ s with heap := s.heap.set r ((s.arr r).set k (some k)) } : State).len = s.len := by
        show ((s.heap.set r _).getD s.static []).length = _
        rw [ha _ (Nat.le_refl _)]
        rfl
      have hst := h.stat
      refine inv_goto h ht rfl (by simpa using hst) ?_ (by simp [isReader]) (by simp [isWriter]) ?_ ?_
      · show Full ((s.heap.set r _).getD s.static [])
        rw [ha _ (Nat.le_refl _)]
        exact h.full
      · refine ⟨by simpa using h1, h2, ?_, ?_, ?_, by rw [hlen]; exact h6, h7⟩
        · show ((s.heap.set r _).getD r []).length = _
          rw [hnew, List.length_set]
          exact h3
        · show k + 1 ≤ ((s.heap.set r _).getD r []).length
          rw [hnew, List.length_set]
          omega
        · intro j hj
          show ((s.heap.set r _).getD r [])[j]? = _
          rw [hnew]
          by_cases e : j = k
          · subst e
            rw [List.getElem?_set_self hk]
          · rw [List.getElem?_set_ne (Ne.symm e)]
            exact h5 j (by omega)
      · intro j t2 hne hj2 q
        refine ok_of_grow (s := s) ?_ ?_ (others h ht rfl hne hj2) q
        · exact Nat.le_refl _
        · exact ha
    · rename_i hk
      cases hn
      have hlen : ({ s with static := r } : State).len = origin + n + 32 := h3
      refine inv_goto h ht rfl h1 ?_ (by simp [isReader]) (by simp [isWriter]) ?_ ?_
      · intro j hj
        have hj' : j < (s.arr r).length := hj
        exact h5 j (by omega)
      · refine ⟨?_, h7⟩
        rw [hlen]
        show origin + n ≤ _
        omega
      · intro j t2 hne hj2 q
        refine ok_of_grow (s := s) ?_ ?_ (others h ht rfl hne hj2) q
        · exact Nat.le_of_lt h2
        · exact fun _ _ => rfl
  | releasing =>
    have hw := writer_on h ht rfl
    simp only [next] at hn
    cases hn
    exact inv_goto h ht rfl h.stat h.full (by simp [isReader]) (by simp [isWriter, hw]) (by simp [Ok]) fun j t2 _ _ k => ok_of_same (s := s) rfl rfl (Nat.le_refl _) k

theorem step_inv {s s' : State} (h : Inv s) {i : Nat} (hn : step s i = some s') : Inv s' := by
  unfold step at hn
  split at hn
  · cases hn
  · rename_i t ht
    exact next_inv h ht hn

theorem run_inv : ∀ {l : List Nat} {s s' : State} (_ : Inv s) (_ : run s l = some s'), Inv s'
  | [], s, s', h, hn => by cases hn; exact h
  | i :: l, s, s', h, hn => by
    simp only [run, Option.bind_eq_some_iff] at hn
    obtain ⟨s1, h1, h2⟩ := hn
    exact run_inv (step_inv h h1) h2

theorem init_inv (calls : List (Nat × Nat)) : Inv (init calls) := by
  refine ⟨by simp [init], ?_, ?_, ?_, ?_⟩
  · intro i hi
    simp [init, State.arr] at hi
  · simp [init, List.countP_map, Function.comp_def, isReader]
  · simp [init, List.countP_map, Function.comp_def, isWriter]
  · intro t ht
    obtain ⟨c, _, rfl⟩ := List.mem_map.1 ht
    simp [Ok]

/-- The arguments of a call do not change. -/
theorem run_args : ∀ {l : List Nat} {s s' : State} (_ : run s l = some s'), s'.threads.map (fun t => (t.origin, t.n)) = s.threads.map fun t => (t.origin, t.n)
  | [], s, s', h => by cases h; rfl
  | i :: l, s, s', h => by
    simp only [run, Option.bind_eq_some_iff] at h
    obtain ⟨s1, h1, h2⟩ := h
    rw [run_args h2]
    unfold step at h1
    split at h1
    · cases h1
    · rename_i t ht
      have key : ∀ pc, (s.threads.set i { t with pc := pc }).map (fun t => (t.origin, t.n)) = s.threads.map fun t => (t.origin, t.n) := by
        intro pc
        apply List.ext_getElem?
        intro j
        by_cases e : i = j
        · subst e
          have hl : i < s.threads.length := (List.getElem?_eq_some_iff.1 ht).1
          rw [List.getElem?_map, List.getElem?_set_self hl, List.getElem?_map, ht]
          rfl
        · rw [List.getElem?_map, List.getElem?_set_ne e, List.getElem?_map]
      unfold next at h1
      split at h1 <;> (try split at h1) <;> first | (cases h1; exact key _) | cases h1

/-- The steps a goroutine has still to take, at most. -/
def weight (s : State) (t : Thread) : Nat :=
  match t.pc with
  | .done _ => 0
  | .got _ => 1
  | .reading => if t.origin + t.n ≤ s.len then 2 else t.origin + t.n + 42
  | .start => if t.origin + t.n ≤ s.len then 3 else t.origin + t.n + 43
  | .releasing => 4
  | .filling _ k => 5 + (t.origin + t.n + 32 - k)
  | .writing => t.origin + t.n + 38
  | .waiting => t.origin + t.n + 39
  | .asking => t.origin + t.n + 40
  | .leaving => t.origin + t.n + 41

theorem weight_le {s s1 : State} (hl : s.len ≤ s1.len) (t : Thread) : weight s1 t ≤ weight s t := by
  unfold weight
  split <;> (try split) <;> (try split) <;> omega

theorem sum_set (f g : Thread → Nat) (hfg : ∀ t, g t ≤ f t) : ∀ {l : List Thread} {i : Nat} {a : Thread} (_ : l[i]? = some a) {b : Thread} (_ : g b < f a),
    ((l.set i b).map g).sum < (l.map f).sum
  | [], _, _, h, _, _ => by simp at h
  | x :: l, 0, a, h, b, hb => by
    obtain rfl : x = a := by simpa using h
    have key : ∀ l : List Thread, (l.map g).sum ≤ (l.map f).sum := by
      intro l
      induction l with
      | nil => exact Nat.le_refl _
      | cons y l ih => simp only [List.map_cons, List.sum_cons]; have := hfg y; omega
    have := key l
    simp only [List.set_cons_zero, List.map_cons, List.sum_cons]
    omega
  | x :: l, i + 1, a, h, b, hb => by
    have := sum_set f g hfg (l := l) (i := i) (a := a) (by simpa using h) hb
    have := hfg x
    simp only [List.set_cons_succ, List.map_cons, List.sum_cons]
    omega

/-- Every step counts. -/
theorem step_less {s s' : State} (h : Inv s) {i : Nat} (hn : step s i = some s') : (s'.threads.map (weight s')).sum < (s.threads.map (weight s)).sum := by
  unfold step at hn
  split at hn
  · cases hn
  · rename_i t ht
    have hok := h.ok t (List.mem_of_getElem? ht)
    have key : ∀ (s1 : State) (pc : PC), s1.threads = s.threads → s.len ≤ s1.len → weight s1 { t with pc := pc } < weight s t →
        (((s1.goto i t pc).threads).map (weight (s1.goto i t pc))).sum < (s.threads.map (weight s)).sum := by
      intro s1 pc h1 hl hlt
      show ((s1.threads.set i { t with pc := pc }).map (weight s1)).sum < _
      rw [h1]
      exact sum_set (weight s) (weight s1) (weight_le hl) ht hlt
    obtain ⟨origin, n, pc⟩ := t
    cases pc with
    | start =>
      simp only [next] at hn
      split at hn
      · cases hn
      · cases hn
        refine key _ _ rfl (Nat.le_refl _) ?_
        show (if origin + n ≤ s.len then 2 else origin + n + 42) < if origin + n ≤ s.len then 3 else origin + n + 43
        split <;> omega
    | reading =>
      simp only [next] at hn
      split at hn <;> rename_i hc <;> cases hn <;> refine key _ _ rfl (Nat.le_refl _) ?_ <;> simp only [weight, hc, if_true, if_false] <;> omega
    | got r => cases hn; exact key _ _ rfl (Nat.le_refl _) (by simp [weight])
    | done r => cases hn
    | leaving => cases hn; exact key _ _ rfl (Nat.le_refl _) (by simp [weight])
    | asking =>
      simp only [next] at hn
      split at hn
      · cases hn
      · cases hn
        exact key _ _ rfl (Nat.le_refl _) (by simp [weight])
    | waiting =>
      simp only [next] at hn
      split at hn
      · cases hn
      · cases hn
        exact key _ _ rfl (Nat.le_refl _) (by simp [weight])
    | writing =>
      simp only [next] at hn
      split at hn
      · cases hn
        refine key _ _ rfl ?_ (by simp only [weight]; omega)
        show s.len ≤ ((s.heap ++ [_]).getD s.static []).length
        rw [arr_append h.stat]
        exact Nat.le_refl _
      · cases hn
        exact key _ _ rfl (Nat.le_refl _) (by simp only [weight]; omega)
    | filling r k =>
      obtain ⟨h1, h2, h3, h4, h5, h6, _⟩ := hok
      simp only at h3 h6
      simp only [next] at hn
      split at hn
      · cases hn
        refine key _ _ rfl ?_ (by simp only [weight]; omega)
        show s.len ≤ ((s.heap.set r _).getD s.static []).length
        rw [arr_set_ne (by omega)]
        exact Nat.le_refl _
      · cases hn
        refine key _ _ rfl ?_ (by simp only [weight]; omega)
        show s.len ≤ (s.arr r).length
        omega
    | releasing =>
      cases hn
      refine key _ _ rfl (Nat.le_refl _) ?_
      have hk : origin + n ≤ s.len := hok.1
      show (if origin + n ≤ s.len then 3 else origin + n + 43) < 4
      rw [if_pos hk]
      omega

theorem run_less : ∀ {l : List Nat} {s s' : State} (_ : Inv s) (_ : run s l = some s'), l.length + (s'.threads.map (weight s')).sum ≤ (s.threads.map (weight s)).sum
  | [], s, s', _, h => by cases h; simp
  | i :: l, s, s', hi, h => by
    simp only [run, Option.bind_eq_some_iff] at h
    obtain ⟨s1, h1, h2⟩ := h
    have := run_less (step_inv hi h1) h2
    have := step_less hi h1
    simp only [List.length_cons]
    omega

end Verif.Iota
