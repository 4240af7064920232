import Verif.Par.Model
import Verif.Par.Spec
import Verif.Persist.ConcLemmas
/-
Helper lemmas for the parallel loop.
-/
namespace Verif.Par
open Verif.Persist
variable {α ε : Type} [Inhabited α]
set_option linter.unusedSectionVars false

/-! ### Ranges -/

theorem workers_pos {safe : Bool} {procs minWork size n : Nat} (hp : 0 < procs) (hw : 0 < minWork)
    (h : parallel safe procs minWork size n = true) : 0 < workers procs minWork size n := by
  unfold parallel at h
  unfold workers
  simp only [Bool.and_eq_true, Bool.not_eq_true', Bool.or_eq_false_iff, decide_eq_false_iff_not] at h
  have h2 : ¬ n * size < minWork * 2 := h.2.2
  have : 1 ≤ n * size / minWork := by
    rw [Nat.le_div_iff_mul_le hw]
    omega
  split <;> omega

theorem tile_mono (n p : Nat) {i j : Nat} (h : i ≤ j) : i * n / p ≤ j * n / p :=
  Nat.div_le_div_right (Nat.mul_le_mul_right n h)

theorem tiles_flat (n p : Nat) : ∀ m, ((List.range m).map (fun i => (i * n / p, (i + 1) * n / p))).flatMap
    (fun r => List.range' r.1 (r.2 - r.1)) = List.range (m * n / p) := by
  intro m
  induction m with
  | zero => simp
  | succ m ih =>
    rw [List.range_succ, List.map_append, List.flatMap_append, ih]
    simp only [List.map_cons, List.map_nil, List.flatMap_cons, List.flatMap_nil, List.append_nil]
    have := tile_mono n p (Nat.le_succ m)
    rw [List.range_eq_range', List.range_eq_range']
    have e : m * n / p + ((m + 1) * n / p - m * n / p) = (m + 1) * n / p := by
      have h : m.succ = m + 1 := rfl
      rw [h] at this
      omega
    have h3 := List.range'_append (s := 0) (m := m * n / p) (n := (m + 1) * n / p - m * n / p) (step := 1)
    simp only [Nat.zero_add, Nat.one_mul] at h3
    rw [h3, e]

theorem ranges_flat {safe : Bool} {procs minWork size n : Nat} (hp : 0 < procs) (hw : 0 < minWork) :
    (ranges safe procs minWork size n).flatMap (fun r => List.range' r.1 (r.2 - r.1)) = List.range n := by
  unfold ranges
  split
  · rename_i h
    have := workers_pos hp hw h
    unfold tiles
    rw [tiles_flat, Nat.mul_div_cancel_left n this]
  · simp [List.range_eq_range']

theorem tiles_get {procs minWork size n : Nat} {i : Nat} {r : Nat × Nat} (h : (tiles procs minWork size n)[i]? = some r) :
    i < workers procs minWork size n ∧
      r = (i * n / workers procs minWork size n, (i + 1) * n / workers procs minWork size n) := by
  unfold tiles at h
  simp only [List.getElem?_map, Option.map_eq_some_iff] at h
  obtain ⟨a, h1, h2⟩ := h
  rw [List.getElem?_eq_some_iff] at h1
  obtain ⟨h3, h4⟩ := h1
  simp only [List.length_range] at h3
  simp only [List.getElem_range] at h4
  subst h4
  exact ⟨h3, h2.symm⟩

theorem ranges_ord {safe : Bool} {procs minWork size n : Nat} {i j : Nat} {r r' : Nat × Nat}
    (hi : (ranges safe procs minWork size n)[i]? = some r) (hj : (ranges safe procs minWork size n)[j]? = some r')
    (hij : i < j) : r.2 ≤ r'.1 := by
  unfold ranges at hi hj
  split at hi
  · rename_i h
    rw [if_pos h] at hj
    obtain ⟨_, rfl⟩ := tiles_get hi
    obtain ⟨_, rfl⟩ := tiles_get hj
    exact tile_mono _ _ hij
  · rename_i h
    rw [if_neg h] at hj
    have h1 := (List.getElem?_eq_some_iff.1 hj).1
    simp only [List.length_cons, List.length_nil] at h1
    omega

theorem ranges_bound {safe : Bool} {procs minWork size n : Nat} {r : Nat × Nat}
    (h : r ∈ ranges safe procs minWork size n) : r.1 ≤ r.2 ∧ r.2 ≤ n := by
  unfold ranges at h
  split at h
  · obtain ⟨i, hi⟩ := List.getElem?_of_mem h
    obtain ⟨h1, rfl⟩ := tiles_get hi
    refine ⟨tile_mono _ _ (Nat.le_succ i), ?_⟩
    have : (i + 1) * n / workers procs minWork size n ≤ workers procs minWork size n * n / workers procs minWork size n :=
      tile_mono _ _ h1
    rw [Nat.mul_div_cancel_left n (by omega)] at this
    exact this
  · simp only [List.mem_singleton] at h
    subst h
    exact ⟨Nat.zero_le _, Nat.le_refl _⟩

/-! ### The protocol -/

/-- Invariant of the send/receive protocol. -/
structure PI (st : St α) (ws : List (List (Nat × α) × Option ε)) (n : Nat) (p : PCfg α ε) : Prop where
  run : ∃ m, CRun m (Cfg.start st (ws.map (·.1))) p.c ∧ n = m + p.sent.count true + p.got
  outs : p.outs = ws.map (·.2)
  lsent : p.sent.length = ws.length
  lths : p.c.ths.length = ws.length
  sent : ∀ (k : Nat) th, p.sent[k]? = some true → p.c.ths[k]? = some th → th.todo = []
  count : p.got + p.chan.length = p.sent.count true
  chan : ∀ o, o ∈ p.chan → o ∈ p.outs
  err1 : ∀ e, p.err = some e → some e ∈ p.outs
  err2 : ∀ (k : Nat) e, p.sent[k]? = some true → p.outs[k]? = some (some e) → p.err.isSome = true ∨ ∃ e', some e' ∈ p.chan
  gotle : p.got ≤ ws.length

theorem count_set_true : ∀ (l : List Bool) (k : Nat), l[k]? = some false → (l.set k true).count true = l.count true + 1 := by
  intro l
  induction l with
  | nil => intro k h; cases h
  | cons a l ih =>
    intro k h
    cases k with
    | zero =>
      simp only [List.getElem?_cons_zero, Option.some.injEq] at h
      subst h
      simp
    | succ k =>
      simp only [List.getElem?_cons_succ] at h
      simp only [List.set_cons_succ, List.count_cons, ih k h]
      omega

theorem pi_start (st : St α) (ws : List (List (Nat × α) × Option ε)) : PI st ws 0 (PCfg.start st ws) := by
  have hc : (ws.map (fun _ => false)).count true = 0 := by
    rw [List.count_eq_zero]
    intro h
    simp only [List.mem_map] at h
    obtain ⟨_, _, h⟩ := h
    cases h
  have hs : ∀ k : Nat, (ws.map (fun _ => false))[k]? ≠ some true := by
    intro k h
    simp only [List.getElem?_map, Option.map_eq_some_iff] at h
    obtain ⟨_, _, h⟩ := h
    cases h
  refine ⟨⟨0, .refl, ?_⟩, rfl, by simp [PCfg.start], by simp [PCfg.start, Cfg.start], ?_, ?_, ?_, ?_, ?_, Nat.zero_le _⟩
  · show 0 = 0 + (ws.map (fun _ => false)).count true + 0
    rw [hc]
  · intro k th h
    exact absurd h (hs k)
  · show 0 + 0 = (ws.map (fun _ => false)).count true
    rw [hc]
  · intro o ho
    cases ho
  · intro e h
    cases h
  · intro k e h
    exact absurd h (hs k)

theorem pi_step {st : St α} {ws : List (List (Nat × α) × Option ε)} {n : Nat} {p p' : PCfg α ε} (I : PI st ws n p)
    (s : PStep p p') : PI st ws (n + 1) p' := by
  cases s with
  | @work c' s =>
    obtain ⟨m, hm, hn⟩ := I.run
    refine ⟨⟨m + 1, hm.snoc s, ?_⟩, I.outs, I.lsent, ?_, ?_, I.count, I.chan, I.err1, I.err2, I.gotle⟩
    · show n + 1 = m + 1 + p.sent.count true + p.got
      omega
    · cases s
      simpa using I.lths
    · intro k th h1 h2
      cases s with
      | @go j t t' st' mu' hj hs =>
        have h2' : (p.c.ths.set j t')[k]? = some th := h2
        rw [List.getElem?_set] at h2'
        split at h2'
        · rename_i e
          subst e
          exfalso
          have := I.sent j t h1 hj
          unfold Th.step at hs
          rw [this] at hs
          cases hs
        · exact I.sent k th h1 h2'
  | @send k th o h1 h2 h3 h4 =>
    obtain ⟨m, hm, hn⟩ := I.run
    have hc := count_set_true p.sent k h3
    refine ⟨⟨m, hm, ?_⟩, I.outs, by simpa using I.lsent, I.lths, ?_, ?_, ?_, I.err1, ?_, I.gotle⟩
    · show n + 1 = m + (p.sent.set k true).count true + p.got
      omega
    · intro j t hj ht
      have hj' : (p.sent.set k true)[j]? = some true := hj
      rw [List.getElem?_set] at hj'
      split at hj'
      · rename_i e
        subst e
        have ht' : p.c.ths[k]? = some t := ht
        rw [h1] at ht'
        cases ht'
        exact h2
      · exact I.sent j t hj' ht
    · show p.got + (p.chan ++ [o]).length = (p.sent.set k true).count true
      rw [hc, ← I.count]
      simp
      omega
    · intro o' ho
      rcases List.mem_append.1 ho with h | h
      · exact I.chan o' h
      · simp only [List.mem_singleton] at h
        subst h
        exact List.mem_of_getElem? h4
    · intro j e hj he
      have hj' : (p.sent.set k true)[j]? = some true := hj
      rw [List.getElem?_set] at hj'
      split at hj'
      · rename_i e1
        subst e1
        have he' : p.outs[k]? = some (some e) := he
        rw [h4] at he'
        cases he'
        exact .inr ⟨e, by simp⟩
      · rcases I.err2 j e hj' he with h | ⟨e', h⟩
        · exact .inl h
        · exact .inr ⟨e', List.mem_append_left _ h⟩
  | @recv o rest h1 h2 =>
    obtain ⟨m, hm, hn⟩ := I.run
    have hc := I.count
    rw [h1] at hc
    simp only [List.length_cons] at hc
    have hol : p.outs.length = ws.length := by rw [I.outs]; simp
    refine ⟨⟨m, hm, ?_⟩, I.outs, I.lsent, I.lths, I.sent, ?_, ?_, ?_, ?_, ?_⟩
    · show n + 1 = m + p.sent.count true + (p.got + 1)
      omega
    · show p.got + 1 + rest.length = p.sent.count true
      omega
    · intro o' ho
      exact I.chan o' (by rw [h1]; exact List.mem_cons_of_mem _ ho)
    · intro e he
      cases o with
      | none => exact I.err1 e he
      | some e0 =>
        have he' : some e0 = some e := he
        rw [← he']
        exact I.chan _ (by rw [h1]; exact List.mem_cons_self)
    · intro k e hk he
      cases o with
      | some e0 => exact .inl rfl
      | none =>
        rcases I.err2 k e hk he with h | ⟨e', h⟩
        · exact .inl h
        · rw [h1] at h
          rcases List.mem_cons.1 h with h | h
          · cases h
          · exact .inr ⟨e', h⟩
    · show p.got + 1 ≤ ws.length
      omega

theorem pi_run {st : St α} {ws : List (List (Nat × α) × Option ε)} {n : Nat} {p : PCfg α ε}
    (r : PRun n (PCfg.start st ws) p) : PI st ws n p := by
  generalize h : PCfg.start st ws = p0 at r
  induction r with
  | refl => subst h; exact pi_start st ws
  | snoc r s ih => exact pi_step (ih h) s

theorem pi_returned {st : St α} {ws : List (List (Nat × α) × Option ε)} {n : Nat} {p : PCfg α ε} (I : PI st ws n p)
    (hr : p.returned) : p.c.finished ∧ p.chan = [] ∧ (∀ k, k < ws.length → p.sent[k]? = some true) := by
  have hol : p.outs.length = ws.length := by rw [I.outs]; simp
  have hr' : p.got = ws.length := by rw [← hol]; exact hr
  have hc := I.count
  have hle : p.sent.count true ≤ p.sent.length := List.count_le_length
  rw [I.lsent] at hle
  have h0 : p.chan.length = 0 := by omega
  have hall : p.sent.count true = p.sent.length := by rw [I.lsent]; omega
  rw [List.count_eq_length] at hall
  have hs : ∀ k, k < ws.length → p.sent[k]? = some true := by
    intro k hk
    have hk' : k < p.sent.length := by rw [I.lsent]; exact hk
    rw [List.getElem?_eq_getElem hk', Option.some.injEq]
    exact (hall _ (List.getElem_mem hk')).symm
  refine ⟨fun th hm => ?_, List.length_eq_zero_iff.1 h0, hs⟩
  obtain ⟨k, hk⟩ := List.getElem?_of_mem hm
  have hkl := (List.getElem?_eq_some_iff.1 hk).1
  rw [I.lths] at hkl
  exact I.sent k th (hs k hkl) hk

/-! ### The work lists -/

theorem work_mem {g : Nat → Except ε α} : ∀ {cnt lo : Nat} {c : Nat × α}, c ∈ (work g lo cnt).1 →
    lo ≤ c.1 ∧ c.1 < lo + cnt ∧ g c.1 = .ok c.2 := by
  intro cnt
  induction cnt with
  | zero => intro lo c h; cases h
  | succ cnt ih =>
    intro lo c h
    unfold work at h
    split at h
    · cases h
    · rename_i v hv
      rcases List.mem_cons.1 h with h | h
      · subst h
        exact ⟨Nat.le_refl _, by simp only; omega, hv⟩
      · obtain ⟨h1, h2, h3⟩ := ih h
        exact ⟨by omega, by omega, h3⟩

theorem work_err {g : Nat → Except ε α} : ∀ {cnt lo : Nat} {e : ε}, (work g lo cnt).2 = some e →
    ∃ i, lo ≤ i ∧ i < lo + cnt ∧ g i = .error e ∧ ∀ j, lo ≤ j → j < i → ∃ v, g j = .ok v := by
  intro cnt
  induction cnt with
  | zero => intro lo e h; cases h
  | succ cnt ih =>
    intro lo e h
    unfold work at h
    split at h
    · rename_i e' he
      have : e' = e := Option.some.inj h
      subst this
      exact ⟨lo, Nat.le_refl _, by omega, he, fun j h1 h2 => absurd h2 (by omega)⟩
    · rename_i v hv
      obtain ⟨i, h1, h2, h3, h4⟩ := ih h
      refine ⟨i, by omega, by omega, h3, fun j hj1 hj2 => ?_⟩
      by_cases hj : j = lo
      · subst hj; exact ⟨v, hv⟩
      · exact h4 j (by omega) hj2

theorem work_ok {g : Nat → Except ε α} : ∀ {cnt lo : Nat}, (work g lo cnt).2 = none →
    (∀ i, lo ≤ i → i < lo + cnt → ∃ v, g i = .ok v) ∧ (work g lo cnt).1.map (·.1) = List.range' lo cnt := by
  intro cnt
  induction cnt with
  | zero => intro lo _; exact ⟨fun i h1 h2 => absurd h2 (by omega), rfl⟩
  | succ cnt ih =>
    intro lo h
    unfold work at h ⊢
    split at h
    · cases h
    · rename_i v hv
      obtain ⟨h1, h2⟩ := ih (lo := lo + 1) h
      refine ⟨fun i hi1 hi2 => ?_, ?_⟩
      · by_cases hi : i = lo
        · subst hi; exact ⟨v, hv⟩
        · exact h1 i (by omega) (by omega)
      · simp only [hv, List.map_cons, h2]
        rw [List.range'_succ]

theorem inOrder_ok {g : Nat → Except ε α} {n : Nat} {l : List α} :
    inOrder g n = .ok l ↔ l.length = n ∧ ∀ i, i < n → ∃ v, g i = .ok v ∧ l[i]? = some v := by
  unfold inOrder
  induction n generalizing l with
  | zero =>
    simp only [List.range_zero, List.mapM_nil]
    constructor
    · intro h; cases h; exact ⟨rfl, fun i hi => absurd hi (by omega)⟩
    · rintro ⟨h, _⟩; rw [List.length_eq_zero_iff.1 h]; rfl
  | succ n ih =>
    rw [List.range_succ, List.mapM_append]
    constructor
    · intro h
      cases h1 : (List.range n).mapM g with
      | error e => rw [h1] at h; cases h
      | ok l1 =>
        rw [h1] at h
        cases h2 : g n with
        | error e => simp only [List.mapM_cons, h2] at h; cases h
        | ok v =>
          simp only [List.mapM_cons, h2] at h
          have hl : l = l1 ++ [v] := by cases h; rfl
          obtain ⟨a, b⟩ := ih.1 h1
          subst hl
          refine ⟨by simp [a], fun i hi => ?_⟩
          by_cases hin : i = n
          · subst hin
            exact ⟨v, h2, by rw [List.getElem?_append_right (by omega), a]; simp⟩
          · obtain ⟨u, hu1, hu2⟩ := b i (by omega)
            exact ⟨u, hu1, by rw [List.getElem?_append_left (by omega)]; exact hu2⟩
    · rintro ⟨h1, h2⟩
      obtain ⟨v, hv1, hv2⟩ := h2 n (by omega)
      have e : l = l.take n ++ [v] := by
        apply List.ext_getElem?
        intro i
        by_cases hi : i < n
        · rw [List.getElem?_append_left (by rw [List.length_take]; omega), List.getElem?_take_of_lt hi]
        · by_cases hin : i = n
          · subst hin
            rw [List.getElem?_append_right (by rw [List.length_take]; omega), hv2]
            have : i - (l.take i).length = 0 := by rw [List.length_take]; omega
            rw [this]; rfl
          · rw [List.getElem?_eq_none (by omega), List.getElem?_eq_none (by rw [List.length_append, List.length_take]; simp; omega)]
      have h3 : (List.range n).mapM g = .ok (l.take n) := by
        refine ih.2 ⟨by rw [List.length_take]; omega, fun i hi => ?_⟩
        obtain ⟨u, hu1, hu2⟩ := h2 i (by omega)
        exact ⟨u, hu1, by rw [List.getElem?_take_of_lt hi]; exact hu2⟩
      rw [h3]
      simp only [List.mapM_cons, hv1]
      show Except.ok (l.take n ++ [v]) = Except.ok l
      rw [← e]

theorem inOrder_err {g : Nat → Except ε α} {n i : Nat} {e : ε} (hi : i < n) (h : g i = .error e) :
    ∃ e', inOrder g n = .error e' := by
  cases h1 : inOrder g n with
  | error e' => exact ⟨e', rfl⟩
  | ok l =>
    obtain ⟨v, hv, _⟩ := (inOrder_ok.1 h1).2 i hi
    rw [h] at hv
    cases hv

theorem inOrder_all {g : Nat → Except ε α} {n : Nat} (h : ∀ i, i < n → ∃ v, g i = .ok v) : ∃ l, inOrder g n = .ok l := by
  induction n with
  | zero => exact ⟨[], inOrder_ok.2 ⟨rfl, fun i hi => absurd hi (by omega)⟩⟩
  | succ n ih =>
    obtain ⟨l, hl⟩ := ih (fun i hi => h i (by omega))
    obtain ⟨v, hv⟩ := h n (by omega)
    obtain ⟨a, b⟩ := inOrder_ok.1 hl
    refine ⟨l ++ [v], inOrder_ok.2 ⟨by simp [a], fun i hi => ?_⟩⟩
    by_cases hin : i = n
    · subst hin
      exact ⟨v, hv, by rw [List.getElem?_append_right (by omega), a]; simp⟩
    · obtain ⟨u, hu1, hu2⟩ := b i (by omega)
      exact ⟨u, hu1, by rw [List.getElem?_append_left (by omega)]; exact hu2⟩

/-- Writing every element of `l` at its place gives `l`. -/
theorem setAll_full {l0 l : List α} {cs : List (Nat × α)} (hl : l0.length = l.length)
    (h1 : ∀ c ∈ cs, l[c.1]? = some c.2) (h2 : ∀ i, i < l.length → ∃ c ∈ cs, c.1 = i) : setAll l0 cs = l := by
  apply List.ext_getElem?
  intro i
  by_cases hi : i < l.length
  · obtain ⟨x, hx⟩ : ∃ x, l0[i]? = some x := ⟨_, List.getElem?_eq_getElem (by omega)⟩
    rw [setAll_get l0 cs i (by omega) x hx]
    cases hlk : cs.reverse.lookup i with
    | some y =>
      have := h1 (i, y) (by simpa using lookup_mem hlk)
      rw [this]; rfl
    | none =>
      exfalso
      obtain ⟨c, hc, hci⟩ := h2 i hi
      have : ∀ l' : List (Nat × α), c ∈ l' → l'.lookup i ≠ none := by
        intro l'
        induction l' with
        | nil => intro h; cases h
        | cons a l' ih =>
          intro h
          obtain ⟨a1, a2⟩ := a
          simp only [List.lookup]
          split
          · simp
          · rename_i hne
            rcases List.mem_cons.1 h with h | h
            · subst h
              simp only at hci
              subst hci
              simp at hne
            · exact ih h
      exact this _ (by simpa using hc) hlk
  · rw [List.getElem?_eq_none (by rw [setAll_length]; omega), List.getElem?_eq_none (by omega)]

theorem mkWorkers_get {g : Nat → Except ε α} {rs : List (Nat × Nat)} {k : Nat} {l : List (Nat × α)}
    (h : ((mkWorkers g rs).map (·.1))[k]? = some l) : ∃ r, rs[k]? = some r ∧ l = (work g r.1 (r.2 - r.1)).1 := by
  simp only [mkWorkers, List.map_map, List.getElem?_map, Option.map_eq_some_iff] at h
  obtain ⟨r, h1, h2⟩ := h
  exact ⟨r, h1, h2.symm⟩

theorem workers_disjoint {procs minWork size n : Nat} (g : Nat → Except ε α)
    (hp : parallel true procs minWork size n = true) :
    Disjoint ((mkWorkers g (tiles procs minWork size n)).map (·.1)) := by
  have key : ∀ (k k' : Nat) l l', k < k' → ((mkWorkers g (tiles procs minWork size n)).map (·.1))[k]? = some l →
      ((mkWorkers g (tiles procs minWork size n)).map (·.1))[k']? = some l' → ∀ a ∈ l, ∀ b ∈ l', a.1 < b.1 := by
    intro k k' l l' hlt h1 h2 a ha b hb
    obtain ⟨r, hr, rfl⟩ := mkWorkers_get h1
    obtain ⟨r', hr', rfl⟩ := mkWorkers_get h2
    have hrr : ranges true procs minWork size n = tiles procs minWork size n := by unfold ranges; rw [if_pos hp]
    have ho := ranges_ord (safe := true) (by rw [hrr]; exact hr) (by rw [hrr]; exact hr') hlt
    have hb1 := ranges_bound (safe := true) (by rw [hrr]; exact List.mem_of_getElem? hr)
    have := (work_mem ha).2.1
    have := (work_mem hb).1
    omega
  intro k k' l l' hne h1 h2 a ha b hb
  rcases Nat.lt_or_gt_of_ne hne with h | h
  · have := key k k' l l' h h1 h2 a ha b hb
    omega
  · have := key k' k l' l h h2 h1 b hb a ha
    omega

theorem parallel_safe {safe : Bool} {procs minWork size n : Nat} (h : parallel safe procs minWork size n = true) :
    parallel true procs minWork size n = true := by
  cases safe with
  | true => exact h
  | false => simp [parallel] at h

theorem workers_inRange {procs minWork size n : Nat} (g : Nat → Except ε α)
    (hp : parallel true procs minWork size n = true) :
    InRange n ((mkWorkers g (tiles procs minWork size n)).map (·.1)) := by
  intro l hl a ha
  obtain ⟨k, hk⟩ := List.getElem?_of_mem hl
  obtain ⟨r, hr, rfl⟩ := mkWorkers_get hk
  have hrr : ranges true procs minWork size n = tiles procs minWork size n := by unfold ranges; rw [if_pos hp]
  have hb1 := ranges_bound (safe := true) (by rw [hrr]; exact List.mem_of_getElem? hr)
  have := (work_mem ha).2.1
  omega

/-! ### The editor -/

theorem ereach_run {es : List (Event α)} {w : World α} (r : EReach es w) (ops : List (Op α)) : ∃ es', EReach es' (w.run ops) := by
  induction ops generalizing es w with
  | nil => exact ⟨es, r⟩
  | cons op ops ih =>
    show ∃ es', EReach es' (((w.step op).getD w).run ops)
    cases h : w.step op with
    | none => exact ih (r.snoc (.refuse h))
    | some w' => exact ih (r.snoc (.call h))

theorem spec_set_inv {a a' : Spec.World α} {k i : Nat} {x : α} {l : List α} (s : Spec.Step a (.set k (i : Nat) x) a')
    (h : a.trans[k]? = some l) : a' = { a with trans := a.trans.set k (l.set i x) } := by
  generalize hop : (Op.set k (i : Int) x : Op α) = op at s
  cases s <;> cases hop
  rename_i l' h' hi
  rw [h] at h'
  cases h'
  rfl

theorem spec_new_inv {a a' : Spec.World α} (s : Spec.Step a .newTrans a') : a' = { a with trans := a.trans ++ [[]] } := by
  generalize hop : (Op.newTrans : Op α) = op at s
  cases s <;> cases hop
  rfl

theorem spec_persist_inv {a a' : Spec.World α} {k : Nat} {l : List α} (s : Spec.Step a (.persist k) a')
    (h : a.trans[k]? = some l) : a' = { a with slices := a.slices ++ [l] } := by
  generalize hop : (Op.persist k : Op α) = op at s
  cases s <;> cases hop
  rename_i l' h'
  rw [h] at h'
  cases h'
  rfl

theorem spec_resize_inv {a a' : Spec.World α} {k n : Nat} (s : Spec.Step a (.resize k n) a') :
    ∃ l, l.length = n ∧ a' = { a with trans := a.trans.set k l } := by
  generalize hop : (Op.resize k n : Op α) = op at s
  cases s <;> cases hop
  rename_i l1 l2 h1 h2 h3
  exact ⟨l2, h2, rfl⟩

theorem run_cons {w : World α} {op : Op α} {ops : List (Op α)} {w' : World α} (e : w.step op = some w') :
    w.run (op :: ops) = w'.run ops := by
  show ((w.step _).getD w).run _ = _
  rw [e]; rfl

theorem run_sets {w : World α} (I : WI w) {k : Nat} {l : List α} (h : (abs w).trans[k]? = some l)
    (cs : List (Nat × α)) (hr : ∀ c ∈ cs, c.1 < l.length) :
    abs (w.run (cs.map (fun c => .set k (c.1 : Nat) c.2))) = { abs w with trans := (abs w).trans.set k (setAll l cs) } := by
  induction cs generalizing w l with
  | nil =>
    show abs w = _
    have : (abs w).trans.set k l = (abs w).trans := by
      apply List.ext_getElem?
      intro i
      rw [List.getElem?_set]
      split
      · rename_i e
        subst e
        rw [if_pos (List.getElem?_eq_some_iff.1 h).1, h]
      · rfl
    simp only [setAll, List.foldl_nil, this]
  | cons c cs ih =>
    have hl : Spec.Legal (abs w) (.set k (c.1 : Nat) c.2) := ⟨l, h, by omega, by have := hr c List.mem_cons_self; omega⟩
    obtain ⟨w', e, I', s⟩ := step_sim I _ hl
    have ha := spec_set_inv s h
    have hw : w.run ((c :: cs).map (fun c => .set k (c.1 : Nat) c.2)) = w'.run (cs.map (fun c => .set k (c.1 : Nat) c.2)) :=
      run_cons e
    rw [hw]
    have hk := (List.getElem?_eq_some_iff.1 h).1
    have h' : (abs w').trans[k]? = some (l.set c.1 c.2) := by
      rw [ha]
      simp [hk]
    rw [ih I' h' (fun d hd => by rw [List.length_set]; exact hr d (List.mem_cons_of_mem _ hd)), ha]
    simp [setAll]

/-- The editor starts with `n` default elements. -/
theorem newEditor_abs {w : World α} (I : WI w) (n : Nat) (d : α) :
    abs (newEditor w n d) = { abs w with trans := (abs w).trans ++ [List.replicate n d] } := by
  obtain ⟨w1, e1, I1, s1⟩ := step_sim I (.newTrans : Op α) trivial
  have a1 := spec_new_inv s1
  have hlen : w.trans.length = (abs w).trans.length := by simp [abs]
  unfold newEditor
  split
  · rename_i h0
    subst h0
    rw [run_cons e1]
    show abs w1 = _
    rw [a1]
    rfl
  · rw [run_cons e1]
    have hk : (abs w1).trans[w.trans.length]? = some [] := by
      rw [a1, hlen]
      simp
    obtain ⟨w2, e2, I2, s2⟩ := step_sim I1 (.resize w.trans.length n : Op α)
      (show w.trans.length < (abs w1).trans.length from (List.getElem?_eq_some_iff.1 hk).1)
    rw [run_cons e2]
    obtain ⟨l, hl, a2⟩ := spec_resize_inv s2
    have hk2 : (abs w2).trans[w.trans.length]? = some l := by
      rw [a2]
      simp [(List.getElem?_eq_some_iff.1 hk).1]
    have h3 := run_sets I2 hk2 ((List.range n).map (fun i => (i, d))) (by
      intro c hc
      simp only [List.mem_map, List.mem_range] at hc
      obtain ⟨i, hi, rfl⟩ := hc
      rw [hl]; exact hi)
    rw [List.map_map] at h3
    have e3 : ((fun c : Nat × α => (Op.set w.trans.length (c.1 : Int) c.2 : Op α)) ∘ fun i => (i, d)) =
        fun i : Nat => Op.set w.trans.length (i : Int) d := rfl
    rw [e3] at h3
    rw [h3, setAll_full (l := List.replicate n d) (by simp [hl])]
    · rw [a2, a1, hlen]
      simp
    · intro c hc
      simp only [List.mem_map, List.mem_range] at hc
      obtain ⟨i, hi, rfl⟩ := hc
      simp [hi]
    · intro i hi
      rw [List.length_replicate] at hi
      exact ⟨(i, d), by simp [hi], rfl⟩

theorem abs_slices_length (w : World α) : w.slices.length = (abs w).slices.length := by simp [abs]

/-- Publishing the editor. -/
theorem publish_abs {w : World α} (I : WI w) {k : Nat} {l : List α} (h : (abs w).trans[k]? = some l) :
    abs (w.run [.persist k]) = { abs w with slices := (abs w).slices ++ [l] } := by
  obtain ⟨w1, e1, I1, s1⟩ := step_sim I (.persist k : Op α) (List.getElem?_eq_some_iff.1 h).1
  rw [run_cons e1]
  exact spec_persist_inv s1 h

/-- A whole element-wise operation on lists: all elements in order, or an error and nothing published. -/
theorem elemOp_sim {safe : Bool} {procs minWork size n : Nat} (hp0 : 0 < procs) (hw0 : 0 < minWork)
    {g : Nat → Except ε α} {d : α} {es : List (Event α)} {w w' : World α} {res : Except ε Nat} (hw : EReach es w)
    (E : ElemOp safe procs minWork size n g d w w' res) :
    (∃ es', EReach es' w') ∧
    match res with
    | .ok k => ∃ l, inOrder g n = .ok l ∧ k = w.slices.length ∧ (abs w').slices = (abs w).slices ++ [l]
    | .error e => (abs w').slices = (abs w).slices ∧ ∃ i, i < n ∧ g i = .error e := by
  have I := (ereach_sim hw).1
  obtain ⟨es1, r1⟩ : ∃ es1, EReach es1 (newEditor w n d) := ereach_run hw _
  have I1 := (ereach_sim r1).1
  have a1 := newEditor_abs I n d
  have hlen : w.trans.length = (abs w).trans.length := by simp [abs]
  have hk1 : (abs (newEditor w n d)).trans[w.trans.length]? = some (List.replicate n d) := by
    rw [a1, hlen]; simp
  have hsl : (abs (newEditor w n d)).slices = (abs w).slices := by rw [a1]
  have hseq : ∀ cs : List (Nat × α), (∀ c ∈ cs, c.1 < n) →
      ∃ es2, EReach es2 ((newEditor w n d).run (cs.map (fun c => .set w.trans.length (c.1 : Nat) c.2))) ∧
        abs ((newEditor w n d).run (cs.map (fun c => .set w.trans.length (c.1 : Nat) c.2))) =
          { abs (newEditor w n d) with
            trans := (abs (newEditor w n d)).trans.set w.trans.length (setAll (List.replicate n d) cs) } := by
    intro cs hcs
    obtain ⟨es2, r2⟩ := ereach_run r1 (cs.map (fun c => .set w.trans.length (c.1 : Nat) c.2))
    exact ⟨es2, r2, run_sets I1 hk1 cs (by rw [List.length_replicate]; exact hcs)⟩
  have hin : ∀ c ∈ (work g 0 n).1, c.1 < n := fun c hc => by have := (work_mem hc).2.1; omega
  have hpar : ∀ (t : Trans) (m : Nat) (p : PCfg α ε), parallel safe procs minWork size n = true →
      (newEditor w n d).trans[w.trans.length]? = some t →
      PRun m (PCfg.start ⟨(newEditor w n d).h, t⟩ (mkWorkers g (tiles procs minWork size n))) p → p.returned →
      ∃ es2, EReach es2 { newEditor w n d with h := p.c.st.h, trans := (newEditor w n d).trans.set w.trans.length p.c.st.t } ∧
        abs { newEditor w n d with h := p.c.st.h, trans := (newEditor w n d).trans.set w.trans.length p.c.st.t } =
          { abs (newEditor w n d) with
            trans := (abs (newEditor w n d)).trans.set w.trans.length
              (setAll (List.replicate n d) ((mkWorkers g (tiles procs minWork size n)).map (·.1)).flatten) } ∧
        PI ⟨(newEditor w n d).h, t⟩ (mkWorkers g (tiles procs minWork size n)) m p := by
    intro t m p hpp ht r hr
    have PIp := pi_run r
    obtain ⟨q, hq, _⟩ := PIp.run
    have hf := (pi_returned PIp hr).1
    have htl : t.len = n := by
      have h2 := trans_len I1 ht
      have h3 : (abs (newEditor w n d)).trans[w.trans.length]? = some (contents (newEditor w n d).h t.s) := by
        simp [abs, ht]
      rw [hk1] at h3
      have h4 := contents_length (newEditor w n d).h t.s
      rw [← Option.some.inj h3, List.length_replicate] at h4
      omega
    have hst : EStep (newEditor w n d) (.parallel w.trans.length ((mkWorkers g (tiles procs minWork size n)).map (·.1)))
        { newEditor w n d with h := p.c.st.h, trans := (newEditor w n d).trans.set w.trans.length p.c.st.t } :=
      .parallel ht (by rw [htl]; exact workers_inRange g (parallel_safe hpp)) (workers_disjoint g (parallel_safe hpp)) hq hf
    have h5 := (estep_sim I1 hst).2
    refine ⟨_, r1.snoc hst, ?_, PIp⟩
    generalize hev : (Event.parallel w.trans.length ((mkWorkers g (tiles procs minWork size n)).map (·.1)) : Event α) = ev at h5
    generalize hab : abs { newEditor w n d with h := p.c.st.h, trans := (newEditor w n d).trans.set w.trans.length p.c.st.t } = b at h5 ⊢
    cases h5 <;> cases hev
    rename_i l0 h6
    rw [hk1] at h6
    rw [← Option.some.inj h6]
  have fin : ∀ (w1 : World α) (l : List α), (∃ es2, EReach es2 w1) →
      abs w1 = { abs (newEditor w n d) with trans := (abs (newEditor w n d)).trans.set w.trans.length l } →
      (∃ es', EReach es' (w1.run [.persist w.trans.length])) ∧ w1.slices.length = w.slices.length ∧
      (abs (w1.run [.persist w.trans.length])).slices = (abs w).slices ++ [l] := by
    rintro w1 l ⟨es2, r2⟩ a2
    refine ⟨ereach_run r2 _, by rw [abs_slices_length, a2, abs_slices_length, ← hsl], ?_⟩
    have hk2 : (abs w1).trans[w.trans.length]? = some l := by
      rw [a2]
      simp [(List.getElem?_eq_some_iff.1 hk1).1]
    rw [publish_abs (ereach_sim r2).1 hk2, a2]
    simp only [hsl]
  cases E with
  | @seqOk w1 hp he h1 =>
    obtain ⟨es2, r2, a2⟩ := hseq _ hin
    obtain ⟨hall, hidx⟩ := work_ok he
    obtain ⟨l, hl⟩ := inOrder_all (g := g) (n := n) (fun i hi => hall i (Nat.zero_le _) (by omega))
    obtain ⟨hll, hle⟩ := inOrder_ok.1 hl
    have hset : setAll (List.replicate n d) (work g 0 n).1 = l := by
      refine setAll_full (by simp [hll]) (fun c hc => ?_) (fun i hi => ?_)
      · obtain ⟨v, hv, hv2⟩ := hle c.1 (hin c hc)
        rw [(work_mem hc).2.2] at hv
        cases hv
        exact hv2
      · have : i ∈ (work g 0 n).1.map (·.1) := by
          rw [hidx, List.mem_range']
          exact ⟨i, by omega, by omega⟩
        obtain ⟨c, hc, hc2⟩ := List.mem_map.1 this
        exact ⟨c, hc, hc2⟩
    rw [hset] at a2
    subst h1
    obtain ⟨f1, f2, f3⟩ := fin _ l ⟨_, r2⟩ a2
    exact ⟨f1, l, hl, f2, f3⟩
  | @seqErr w1 e hp he h1 =>
    obtain ⟨es2, r2, a2⟩ := hseq _ hin
    subst h1
    obtain ⟨i, _, hi, hg, _⟩ := work_err he
    refine ⟨⟨_, r2⟩, ?_, i, by omega, hg⟩
    rw [a2]
    exact hsl
  | @parOk t m p w1 hp ht r hr he h1 =>
    obtain ⟨es2, r2, a2, PIp⟩ := hpar t m p hp ht r hr
    obtain ⟨_, hchan, hsent⟩ := pi_returned PIp hr
    have hnone : ∀ o, o ∈ (mkWorkers g (tiles procs minWork size n)).map (·.2) → o = none := by
      intro o ho
      cases o with
      | none => rfl
      | some e =>
        exfalso
        obtain ⟨k, hk⟩ := List.getElem?_of_mem ho
        have hkl : k < (mkWorkers g (tiles procs minWork size n)).length := by
          have := (List.getElem?_eq_some_iff.1 hk).1
          simpa using this
        rcases PIp.err2 k e (hsent k hkl) (by rw [PIp.outs]; exact hk) with h | ⟨e', h⟩
        · rw [he] at h; cases h
        · rw [hchan] at h; cases h
    have hrr : ranges safe procs minWork size n = tiles procs minWork size n := by unfold ranges; rw [if_pos hp]
    have hflat := ranges_flat (safe := safe) (procs := procs) (minWork := minWork) (size := size) (n := n) hp0 hw0
    rw [hrr] at hflat
    have hfind : ∀ i, i < n → ∃ r ∈ tiles procs minWork size n, r.1 ≤ i ∧ i < r.1 + (r.2 - r.1) := by
      intro i hi
      have : i ∈ List.range n := List.mem_range.2 hi
      rw [← hflat, List.mem_flatMap] at this
      obtain ⟨r, hr1, hr2⟩ := this
      rw [List.mem_range'_1] at hr2
      exact ⟨r, hr1, hr2⟩
    have hwn : ∀ r ∈ tiles procs minWork size n, (work g r.1 (r.2 - r.1)).2 = none := by
      intro r hr
      apply hnone
      simp only [mkWorkers, List.map_map, List.mem_map]
      exact ⟨r, hr, rfl⟩
    obtain ⟨l, hl⟩ := inOrder_all (g := g) (n := n) (fun i hi => by
      obtain ⟨r, hr1, hr2, hr3⟩ := hfind i hi
      exact (work_ok (hwn r hr1)).1 i hr2 hr3)
    obtain ⟨hll, hle⟩ := inOrder_ok.1 hl
    have hset : setAll (List.replicate n d) ((mkWorkers g (tiles procs minWork size n)).map (·.1)).flatten = l := by
      refine setAll_full (by simp [hll]) (fun c hc => ?_) (fun i hi => ?_)
      · obtain ⟨cs, hcs1, hcs2⟩ := List.mem_flatten.1 hc
        have hcn := workers_inRange g (parallel_safe hp) cs hcs1 c hcs2
        obtain ⟨v, hv, hv2⟩ := hle c.1 hcn
        obtain ⟨k, hk⟩ := List.getElem?_of_mem hcs1
        obtain ⟨r, _, rfl⟩ := mkWorkers_get hk
        rw [(work_mem hcs2).2.2] at hv
        cases hv
        exact hv2
      · obtain ⟨r, hr1, hr2, hr3⟩ := hfind i (by omega)
        have : i ∈ (work g r.1 (r.2 - r.1)).1.map (·.1) := by
          rw [(work_ok (hwn r hr1)).2, List.mem_range'_1]
          exact ⟨hr2, hr3⟩
        obtain ⟨c, hc, hc2⟩ := List.mem_map.1 this
        refine ⟨c, List.mem_flatten.2 ⟨_, ?_, hc⟩, hc2⟩
        simp only [mkWorkers, List.map_map, List.mem_map]
        exact ⟨r, hr1, rfl⟩
    rw [hset] at a2
    subst h1
    obtain ⟨f1, f2, f3⟩ := fin _ l ⟨_, r2⟩ a2
    exact ⟨f1, l, hl, f2, f3⟩
  | @parErr t m p w1 e hp ht r hr he h1 =>
    obtain ⟨es2, r2, a2, PIp⟩ := hpar t m p hp ht r hr
    subst h1
    refine ⟨⟨_, r2⟩, by rw [a2]; exact hsl, ?_⟩
    have h2 := PIp.err1 e he
    rw [PIp.outs] at h2
    simp only [mkWorkers, List.map_map, List.mem_map] at h2
    obtain ⟨r, hr1, hr2⟩ := h2
    obtain ⟨i, hi1, hi2, hi3, _⟩ := work_err hr2
    have hrr : ranges safe procs minWork size n = tiles procs minWork size n := by unfold ranges; rw [if_pos hp]
    have := ranges_bound (safe := safe) (by rw [hrr]; exact hr1)
    exact ⟨i, by omega, hi3⟩

end Verif.Par
