import Verif.Blanks.Model

/-!
# Invariant of the shared blanks
-/

namespace Verif.Blanks

/-- The goroutine holds the lock for reading. -/
def isReader (t : Thread) : Bool :=
  match t.pc with
  | .reading | .got _ | .leaving => true
  | _ => false

/-- The goroutine holds the lock for writing or is the next to get it. -/
def isWriter (t : Thread) : Bool :=
  match t.pc with
  | .waiting | .writing | .releasing => true
  | _ => false

/-- What is known of a goroutine. -/
def Ok (s : State) (t : Thread) : Prop :=
  match t.pc with
  | .got r | .done r => r = List.replicate t.n ' '
  | .writing => s.readers = 0
  | .releasing => s.readers = 0 ∧ t.n ≤ s.static.length
  | _ => True

structure Inv (s : State) : Prop where
  stat : ∃ m, s.static = List.replicate m ' '
  rd : s.readers = s.threads.countP isReader
  wr : s.threads.countP isWriter = s.writer.toNat
  ok : ∀ t ∈ s.threads, Ok s t

theorem countP_goto (p : Thread → Bool) : ∀ {l : List Thread} {i : Nat} {a : Thread} (_ : l[i]? = some a) (b : Thread),
    (l.set i b).countP p + (p a).toNat = l.countP p + (p b).toNat
  | [], _, _, h, _ => by simp at h
  | x :: l, 0, a, h, b => by
    obtain rfl : x = a := by simpa using h
    simp only [List.set_cons_zero, List.countP_cons]
    cases p x <;> cases p b <;> simp <;> omega
  | x :: l, i + 1, a, h, b => by
    have := countP_goto p (l := l) (i := i) (a := a) (by simpa using h) b
    simp only [List.set_cons_succ, List.countP_cons]
    omega

/-- There is one writer at most. -/
theorem writer_unique {s : State} (h : Inv s) {i j : Nat} {a b : Thread} (hi : s.threads[i]? = some a) (hj : s.threads[j]? = some b) (ha : isWriter a = true)
    (hb : isWriter b = true) : i = j := by
  refine Decidable.byContradiction fun hne => ?_
  have e := countP_goto isWriter hi { a with pc := .start }
  have e2 : isWriter { a with pc := .start } = false := rfl
  rw [ha, e2, h.wr] at e
  have h0 : (s.threads.set i { a with pc := .start }).countP isWriter = 0 := by
    have : s.writer.toNat ≤ 1 := by cases s.writer <;> simp
    simp only [Bool.toNat_true, Bool.toNat_false] at e
    omega
  rw [List.countP_eq_zero] at h0
  have hm : b ∈ s.threads.set i { a with pc := .start } := by
    apply List.mem_of_getElem? (i := j)
    rw [List.getElem?_set_ne hne]
    exact hj
  exact h0 b hm hb

theorem others {s : State} (h : Inv s) {i : Nat} {t : Thread} (ht : s.threads[i]? = some t) (hw : isWriter t = true) {j : Nat} {t2 : Thread} (hne : j ≠ i)
    (h2 : s.threads[j]? = some t2) : isWriter t2 = false := by
  cases hb : isWriter t2 with
  | false => rfl
  | true => exact absurd (writer_unique h h2 ht hb hw) hne

theorem writer_on {s : State} (h : Inv s) {t : Thread} (ht : t ∈ s.threads) (hw : isWriter t = true) : s.writer = true := by
  have : 0 < s.threads.countP isWriter := List.countP_pos_iff.2 ⟨t, ht, hw⟩
  rw [h.wr] at this
  cases hh : s.writer <;> simp [hh] at this ⊢

theorem readers_pos {s : State} (h : Inv s) {t : Thread} (ht : t ∈ s.threads) (hw : isReader t = true) : 0 < s.readers := by
  have : 0 < s.threads.countP isReader := List.countP_pos_iff.2 ⟨t, ht, hw⟩
  rw [h.rd]
  exact this

theorem inv_goto {s s1 : State} (h : Inv s) {i : Nat} {t : Thread} {pc : PC} (ht : s.threads[i]? = some t) (h1 : s1.threads = s.threads)
    (stat : ∃ m, s1.static = List.replicate m ' ')
    (rd : s1.readers + (isReader t).toNat = s.readers + (isReader { t with pc := pc }).toNat)
    (wr : s1.writer.toNat + (isWriter t).toNat = s.writer.toNat + (isWriter { t with pc := pc }).toNat)
    (okn : Ok s1 { t with pc := pc })
    (oko : ∀ j t2, j ≠ i → s.threads[j]? = some t2 → Ok s t2 → Ok s1 t2) : Inv (s1.goto i t pc) := by
  refine ⟨stat, ?_, ?_, ?_⟩
  · show s1.readers = (s1.threads.set i _).countP isReader
    rw [h1]
    have := countP_goto isReader ht { t with pc := pc }
    have := h.rd
    omega
  · show (s1.threads.set i _).countP isWriter = s1.writer.toNat
    rw [h1]
    have := countP_goto isWriter ht { t with pc := pc }
    have := h.wr
    omega
  · intro t2 h2
    obtain ⟨j, hj⟩ := List.getElem?_of_mem h2
    have hj' : (s.threads.set i { t with pc := pc })[j]? = some t2 := by rw [← h1]; exact hj
    by_cases e : j = i
    · subst e
      have hl : j < s.threads.length := (List.getElem?_eq_some_iff.1 ht).1
      rw [List.getElem?_set_self hl] at hj'
      obtain rfl := Option.some.inj hj'
      exact okn
    · rw [List.getElem?_set_ne (Ne.symm e)] at hj'
      exact oko j t2 e hj' (h.ok t2 (List.mem_of_getElem? hj'))

/-- A goroutine is not concerned if the string stays and there are not more readers. -/
theorem ok_of_less {s s1 : State} (hs : s1.static = s.static) (hr : s1.readers ≤ s.readers) {t : Thread} (h : Ok s t) : Ok s1 t := by
  unfold Ok at h ⊢
  split <;> rename_i e <;> simp only [e] at h ⊢
  · exact h
  · exact h
  · omega
  · rw [hs]
    exact ⟨by omega, h.2⟩

/-- Nor is one that is not the writer. -/
theorem ok_of_other {s s1 : State} {t : Thread} (hw : isWriter t = false) (h : Ok s t) : Ok s1 t := by
  unfold Ok at h ⊢
  unfold isWriter at hw
  split <;> rename_i e <;> simp only [e] at h hw ⊢
  · exact h
  · exact h
  · cases hw
  · cases hw

/-- Every step keeps the invariant. -/
theorem next_inv {s s' : State} (h : Inv s) {i : Nat} {t : Thread} (ht : s.threads[i]? = some t) (hn : next s i t = some s') : Inv s' := by
  have hm := List.mem_of_getElem? ht
  have hok := h.ok t hm
  obtain ⟨n, pc⟩ := t
  cases pc with
  | start =>
    simp only [next] at hn
    split at hn
    · cases hn
    · rename_i hw
      cases hn
      refine inv_goto h ht rfl h.stat (by simp [isReader]) (by simp [isWriter]) (by simp [Ok]) fun j t2 _ h2 k => ok_of_other ?_ k
      cases hb : isWriter t2 with
      | false => rfl
      | true => exact absurd (writer_on h (List.mem_of_getElem? h2) hb) hw
  | reading =>
    simp only [next] at hn
    split at hn
    · rename_i hl
      cases hn
      obtain ⟨m, hst⟩ := h.stat
      refine inv_goto h ht rfl h.stat (by simp [isReader]) (by simp [isWriter]) ?_ fun j t2 _ _ k => k
      show s.static.take n = _
      rw [hst] at hl ⊢
      rw [List.length_replicate] at hl
      rw [List.take_replicate, Nat.min_eq_left hl]
    · cases hn
      exact inv_goto h ht rfl h.stat (by simp [isReader]) (by simp [isWriter]) (by simp [Ok]) fun j t2 _ _ k => k
  | got r =>
    have hp := readers_pos h hm rfl
    simp only [next] at hn
    cases hn
    exact inv_goto h ht rfl h.stat (by simp [isReader]; omega) (by simp [isWriter]) hok fun j t2 _ _ k => ok_of_less (s := s) (s1 := { s with readers := s.readers - 1 }) rfl (Nat.sub_le _ _) k
  | done r => cases hn
  | leaving =>
    have hp := readers_pos h hm rfl
    simp only [next] at hn
    cases hn
    exact inv_goto h ht rfl h.stat (by simp [isReader]; omega) (by simp [isWriter]) (by simp [Ok]) fun j t2 _ _ k => ok_of_less (s := s) (s1 := { s with readers := s.readers - 1 }) rfl (Nat.sub_le _ _) k
  | asking =>
    simp only [next] at hn
    split at hn
    · cases hn
    · rename_i hw
      have hw1 : s.writer = false := by cases e : s.writer <;> simp [e] at hw ⊢
      cases hn
      exact inv_goto h ht rfl h.stat (by simp [isReader]) (by simp [isWriter, hw1]) (by simp [Ok]) fun j t2 _ _ k => ok_of_less (s := s) rfl (Nat.le_refl _) k
  | waiting =>
    simp only [next] at hn
    split at hn
    · cases hn
    · rename_i hr
      cases hn
      exact inv_goto h ht rfl h.stat (by simp [isReader]) (by simp [isWriter]) (by simp only [Ok]; omega) fun j t2 _ _ k => k
  | writing =>
    have hr : s.readers = 0 := hok
    simp only [next] at hn
    split at hn
    · rename_i hl
      cases hn
      exact inv_goto h ht rfl ⟨_, rfl⟩ (by simp [isReader]) (by simp [isWriter]) (by simp only [Ok, List.length_replicate]; omega)
        fun j t2 hne h2 k => ok_of_other (others h ht rfl hne h2) k
    · rename_i hl
      cases hn
      exact inv_goto h ht rfl h.stat (by simp [isReader]) (by simp [isWriter]) (by simp only [Ok]; omega) fun j t2 _ _ k => k
  | releasing =>
    have hw := writer_on h hm rfl
    simp only [next] at hn
    cases hn
    exact inv_goto h ht rfl h.stat (by simp [isReader]) (by simp [isWriter, hw]) (by simp [Ok]) fun j t2 _ _ k => ok_of_less (s := s) rfl (Nat.le_refl _) k

theorem step_inv {s s' : State} (h : Inv s) {i : Nat} (hn : step s i = some s') : Inv s' := by
  unfold step at hn
  split at hn
  · cases hn
  · rename_i t ht
    exact next_inv h ht hn

theorem run_inv : ∀ {l : List Nat} {s s' : State} (_ : Inv s) (_ : run s l = some s'), Inv s'
  | [], s, s', h, hn => by cases hn; exact h
  | i :: l, s, s', h, hn => by
    simp only [run, Option.bind_eq_some_iff] at hn
    obtain ⟨s1, h1, h2⟩ := hn
    exact run_inv (step_inv h h1) h2

theorem init_inv (calls : List Nat) : Inv (init calls) := by
  refine ⟨⟨0, rfl⟩, ?_, ?_, ?_⟩
  · simp [init, List.countP_map, Function.comp_def, isReader]
  · simp [init, List.countP_map, Function.comp_def, isWriter]
  · intro t ht
    obtain ⟨c, _, rfl⟩ := List.mem_map.1 ht
    simp [Ok]

/-- The argument of a call does not change. -/
theorem run_args : ∀ {l : List Nat} {s s' : State} (_ : run s l = some s'), s'.threads.map (·.n) = s.threads.map (·.n)
  | [], s, s', h => by cases h; rfl
  | i :: l, s, s', h => by
    simp only [run, Option.bind_eq_some_iff] at h
    obtain ⟨s1, h1, h2⟩ := h
    rw [run_args h2]
    unfold step at h1
    split at h1
    · cases h1
    · rename_i t ht
      have key : ∀ pc, (s.threads.set i { t with pc := pc }).map (·.n) = s.threads.map (·.n) := by
        intro pc
        apply List.ext_getElem?
        intro j
        by_cases e : i = j
        · subst e
          have hl : i < s.threads.length := (List.getElem?_eq_some_iff.1 ht).1
          rw [List.getElem?_map, List.getElem?_set_self hl, List.getElem?_map, ht]
          rfl
        · rw [List.getElem?_map, List.getElem?_set_ne e, List.getElem?_map]
      unfold next at h1
      split at h1 <;> (try split at h1) <;> first | (cases h1; exact key _) | cases h1

/-- The steps a goroutine has still to take, at most. -/
def weight (s : State) (t : Thread) : Nat :=
  match t.pc with
  | .done _ => 0
  | .got _ => 1
  | .reading => if t.n ≤ s.static.length then 2 else 9
  | .start => if t.n ≤ s.static.length then 3 else 10
  | .releasing => 4
  | .writing => 5
  | .waiting => 6
  | .asking => 7
  | .leaving => 8

theorem weight_le {s s1 : State} (hl : s.static.length ≤ s1.static.length) (t : Thread) : weight s1 t ≤ weight s t := by
  unfold weight
  split <;> (try split) <;> (try split) <;> omega

theorem sum_set (f g : Thread → Nat) (hfg : ∀ t, g t ≤ f t) : ∀ {l : List Thread} {i : Nat} {a : Thread} (_ : l[i]? = some a) {b : Thread} (_ : g b < f a),
    ((l.set i b).map g).sum < (l.map f).sum
  | [], _, _, h, _, _ => by simp at h
  | x :: l, 0, a, h, b, hb => by
    obtain rfl : x = a := by simpa using h
    have key : ∀ l : List Thread, (l.map g).sum ≤ (l.map f).sum := by
      intro l
      induction l with
      | nil => exact Nat.le_refl _
      | cons y l ih => simp only [List.map_cons, List.sum_cons]; have := hfg y; omega
    have := key l
    simp only [List.set_cons_zero, List.map_cons, List.sum_cons]
    omega
  | x :: l, i + 1, a, h, b, hb => by
    have := sum_set f g hfg (l := l) (i := i) (a := a) (by simpa using h) hb
    have := hfg x
    simp only [List.set_cons_succ, List.map_cons, List.sum_cons]
    omega

/-- Every step counts. -/
theorem step_less {s s' : State} (h : Inv s) {i : Nat} (hn : step s i = some s') : (s'.threads.map (weight s')).sum < (s.threads.map (weight s)).sum := by
  unfold step at hn
  split at hn
  · cases hn
  · rename_i t ht
    have hok := h.ok t (List.mem_of_getElem? ht)
    have key : ∀ (s1 : State) (pc : PC), s1.threads = s.threads → s.static.length ≤ s1.static.length → weight s1 { t with pc := pc } < weight s t →
        (((s1.goto i t pc).threads).map (weight (s1.goto i t pc))).sum < (s.threads.map (weight s)).sum := by
      intro s1 pc h1 hl hlt
      show ((s1.threads.set i { t with pc := pc }).map (weight s1)).sum < _
      rw [h1]
      exact sum_set (weight s) (weight s1) (weight_le hl) ht hlt
    obtain ⟨n, pc⟩ := t
    cases pc with
    | start =>
      simp only [next] at hn
      split at hn
      · cases hn
      · cases hn
        refine key _ _ rfl (Nat.le_refl _) ?_
        show (if n ≤ s.static.length then 2 else 9) < if n ≤ s.static.length then 3 else 10
        split <;> omega
    | reading =>
      simp only [next] at hn
      split at hn <;> rename_i hc <;> cases hn <;> refine key _ _ rfl (Nat.le_refl _) ?_ <;> simp only [weight, hc, if_true, if_false] <;> omega
    | got r => cases hn; exact key _ _ rfl (Nat.le_refl _) (by simp [weight])
    | done r => cases hn
    | leaving => cases hn; exact key _ _ rfl (Nat.le_refl _) (by simp [weight])
    | asking =>
      simp only [next] at hn
      split at hn
      · cases hn
      · cases hn
        exact key _ _ rfl (Nat.le_refl _) (by simp [weight])
    | waiting =>
      simp only [next] at hn
      split at hn
      · cases hn
      · cases hn
        exact key _ _ rfl (Nat.le_refl _) (by simp [weight])
    | writing =>
      simp only [next] at hn
      split at hn
      · rename_i hl
        cases hn
        refine key _ _ rfl ?_ (by simp [weight])
        show s.static.length ≤ (List.replicate (n + 32) ' ').length
        rw [List.length_replicate]
        omega
      · cases hn
        exact key _ _ rfl (Nat.le_refl _) (by simp [weight])
    | releasing =>
      cases hn
      refine key _ _ rfl (Nat.le_refl _) ?_
      have hk : n ≤ s.static.length := hok.2
      show (if n ≤ s.static.length then 3 else 10) < 4
      rw [if_pos hk]
      omega

theorem run_less : ∀ {l : List Nat} {s s' : State} (_ : Inv s) (_ : run s l = some s'), l.length + (s'.threads.map (weight s')).sum ≤ (s.threads.map (weight s)).sum
  | [], s, s', _, h => by cases h; simp
  | i :: l, s, s', hi, h => by
    simp only [run, Option.bind_eq_some_iff] at h
    obtain ⟨s1, h1, h2⟩ := h
    have := run_less (step_inv hi h1) h2
    have := step_less hi h1
    simp only [List.length_cons]
    omega

end Verif.Blanks
