import Verif.Persist.ConcInv
import Verif.Persist.ConcSpec
/-
Helper lemmas: every step of every goroutine keeps the invariant, cannot crash, and lowers the rank.
-/
namespace Verif.Persist
variable {α : Type} [Inhabited α]
set_option linter.unusedSectionVars false

/-- The pointer refers to a node of the transient. -/
def OwnedPtr (st : St α) (p : Ptr) : Prop := 0 < st.t.aid ∧ ∃ a nd, p = .ref a ∧ st.h.node a = some nd ∧ nd.id = st.t.aid

open Classical in
/-- How far a goroutine may still be from the end of its current call. -/
noncomputable def pcRank (st : St α) (i : Nat) : Pc α → Nat
  | .idle => (st.t.s.height + 1) * 200
  | .load level _ => level * 200 +
      if OwnedPtr st (pp st.h st.t.s.tree (st.t.s.height - 1) i (st.t.s.height - 1 - level)) then 20 else 150
  | .aidLoad level _ pl => level * 200 + if OwnedPtr st pl then 15 else if st.t.aid ≠ 0 then 100 else 140
  | .aidAdd level _ _ => level * 200 + 130
  | .aidCas level _ _ _ => level * 200 + 120
  | .check level _ pl _ => level * 200 + if OwnedPtr st pl then 10 else 90
  | .copy level _ _ j _ => level * 200 + (80 - j)
  | .cas level _ _ _ => level * 200 + 40
  | .leafStore _ => 5
  | .tailLoad => 30
  | .tailLock => 29
  | .tailCheck => 28
  | .tailCopy j _ => 25 - j
  | .tailFlag => 5
  | .tailUnlock => 4
  | .tailStore => 3

/-- Steps a goroutine may still take. -/
noncomputable def thRank (st : St α) (th : Th α) : Nat :=
  match th.todo with
  | [] => 0
  | (i, _) :: rest => rest.length * ((st.t.s.height + 2) * 200) + pcRank st i th.pc

/-- Steps all goroutines may still take. -/
noncomputable def rank (c : Cfg α) : Nat := (c.ths.map (thRank c.st)).sum

/-- A goroutine is at a sensible place. -/
def ThOK (st0 st : St α) (th : Th α) : Prop :=
  match th.todo with
  | [] => th.pc = .idle
  | (i, _) :: _ => PcOK st0 st i th.pc

/-- The last value written at `j` by a finished call. -/
def written (ths : List (Th α)) (j : Nat) : Option α := ths.findSome? (fun t => t.past.lookup j)

/-- Invariant of a concurrent execution. -/
structure GI (st0 : St α) (calls : List (List (Nat × α))) (c : Cfg α) : Prop where
  si : SI st0 c.st
  th : ∀ (k : Nat) th, c.ths[k]? = some th → ThOK st0 c.st th
  mu : ∀ (k : Nat) th, c.ths[k]? = some th → (th.pc.holds = true ↔ c.mu = some k)
  muk : ∀ k, c.mu = some k → k < c.ths.length
  len : c.ths.length = calls.length
  calls : ∀ (k : Nat) th, c.ths[k]? = some th → calls[k]? = some (th.past.reverse ++ th.todo)
  cont : ∀ j, j < st0.t.len → ev c.st.h c.st.t.s j = (written c.ths j).getD (ev st0.h st0.t.s j)

theorem lookup_mem {j : Nat} {x : α} : ∀ {l : List (Nat × α)}, l.lookup j = some x → (j, x) ∈ l := by
  intro l
  induction l with
  | nil => intro h; cases h
  | cons a l ih =>
    intro h
    rw [List.lookup_cons] at h
    split at h
    · rename_i e
      cases h
      have : j = a.1 := by simpa using e
      subst this
      exact List.mem_cons_self
    · exact List.mem_cons_of_mem _ (ih h)

theorem written_same {ths : List (Th α)} {k : Nat} {th th' : Th α} (hk : ths[k]? = some th) (hp : th'.past = th.past) (j : Nat) :
    written (ths.set k th') j = written ths j := by
  unfold written
  induction ths generalizing k with
  | nil => rfl
  | cons a l ih =>
    cases k with
    | zero =>
      simp only [List.getElem?_cons_zero, Option.some.injEq] at hk
      subst hk
      simp only [List.set_cons_zero, List.findSome?_cons, hp]
    | succ k =>
      simp only [List.getElem?_cons_succ] at hk
      simp only [List.set_cons_succ, List.findSome?_cons, ih hk]

theorem written_add {ths : List (Th α)} {k : Nat} {th th' : Th α} {i : Nat} {x : α} (hk : ths[k]? = some th)
    (hp : th'.past = (i, x) :: th.past)
    (hd : ∀ (j : Nat) t, j ≠ k → ths[j]? = some t → t.past.lookup i = none) (j : Nat) :
    written (ths.set k th') j = if j = i then some x else written ths j := by
  unfold written
  induction ths generalizing k with
  | nil => cases hk
  | cons a l ih =>
    cases k with
    | zero =>
      simp only [List.getElem?_cons_zero, Option.some.injEq] at hk
      subst hk
      simp only [List.set_cons_zero, List.findSome?_cons, hp, List.lookup_cons]
      by_cases hji : j = i
      · subst hji; simp
      · have : (j == i) = false := by simpa using hji
        simp only [if_neg hji, this]
    | succ k =>
      simp only [List.getElem?_cons_succ] at hk
      simp only [List.set_cons_succ, List.findSome?_cons,
        ih hk (fun m t hm ht => hd (m + 1) t (by omega) (by simpa using ht))]
      by_cases hji : j = i
      · subst hji
        have := hd 0 a (by omega) rfl
        simp only [this, if_true]
      · simp only [if_neg hji]

/-- What the next state of a goroutine must satisfy. -/
theorem GI.upd {st0 : St α} {calls : List (List (Nat × α))} {c : Cfg α} (G : GI st0 calls c) {k : Nat} {th : Th α}
    (hk : c.ths[k]? = some th) {st' : St α} {mu' : Option Nat} {th' : Th α} (S' : SI st0 st') (hth : ThOK st0 st' th')
    (hother : ∀ (j : Nat) t, j ≠ k → c.ths[j]? = some t → ∀ i, PcOK st0 c.st i t.pc → PcOK st0 st' i t.pc)
    (hmu : (th'.pc.holds = true ↔ mu' = some k))
    (hmu2 : mu' = c.mu ∨ (c.mu = none ∧ mu' = some k) ∨ (c.mu = some k ∧ mu' = none))
    (hcalls : th'.past.reverse ++ th'.todo = th.past.reverse ++ th.todo)
    (hcont : ∀ j, j < st0.t.len → ev st'.h st'.t.s j = (written (c.ths.set k th') j).getD (ev st0.h st0.t.s j)) :
    GI st0 calls ⟨st', mu', c.ths.set k th'⟩ := by
  have hkl : k < c.ths.length := (List.getElem?_eq_some_iff.1 hk).1
  have get : ∀ (j : Nat) t, (c.ths.set k th')[j]? = some t → (j = k ∧ t = th') ∨ (j ≠ k ∧ c.ths[j]? = some t) := by
    intro j t h
    by_cases hj : j = k
    · subst hj
      rw [List.getElem?_set_self hkl] at h
      cases h
      exact .inl ⟨rfl, rfl⟩
    · rw [List.getElem?_set_ne (by omega)] at h
      exact .inr ⟨hj, h⟩
  refine ⟨S', ?_, ?_, ?_, by rw [List.length_set]; exact G.len, ?_, hcont⟩
  · intro j t h
    rcases get j t h with ⟨_, rfl⟩ | ⟨hj, h⟩
    · exact hth
    · have := G.th j t h
      unfold ThOK at *
      cases ht : t.todo with
      | nil => rw [ht] at this; exact this
      | cons a l => rw [ht] at this; exact hother j t hj h a.1 this
  · intro j t h
    rcases get j t h with ⟨rfl, rfl⟩ | ⟨hj, h⟩
    · exact hmu
    · have := G.mu j t h
      rw [this]
      show c.mu = some j ↔ mu' = some j
      rcases hmu2 with e | ⟨e1, e2⟩ | ⟨e1, e2⟩
      · rw [e]
      · rw [e1, e2]
        simp only [Option.some.injEq, reduceCtorEq, false_iff]; omega
      · rw [e1, e2]
        simp only [Option.some.injEq, reduceCtorEq, iff_false]; omega
  · intro j h
    rw [List.length_set]
    have h' : mu' = some j := h
    rcases hmu2 with e | ⟨e1, e2⟩ | ⟨e1, e2⟩
    · exact G.muk j (by rw [← e]; exact h')
    · rw [e2] at h'; cases h'; exact hkl
    · rw [e2] at h'; cases h'
  · intro j t h
    rcases get j t h with ⟨rfl, rfl⟩ | ⟨hj, h⟩
    · rw [hcalls]; exact G.calls j th hk
    · exact G.calls j t h

/-- Moving on without touching the shared state. -/
theorem GI.goto {st0 : St α} {calls : List (List (Nat × α))} {c : Cfg α} (G : GI st0 calls c) {k : Nat} {th : Th α}
    (hk : c.ths[k]? = some th) {i : Nat} {x : α} {rest : List (Nat × α)} (ht : th.todo = (i, x) :: rest) {pc : Pc α}
    (hpc : PcOK st0 c.st i pc) (hh : pc.holds = th.pc.holds) : GI st0 calls ⟨c.st, c.mu, c.ths.set k { th with pc := pc }⟩ := by
  refine G.upd hk G.si ?_ (fun _ _ _ _ _ h => h) ?_ (.inl rfl) rfl ?_
  · unfold ThOK; simp only [ht]; exact hpc
  · rw [← G.mu k th hk]; simp only [hh]
  · intro j hj
    rw [written_same hk (by rfl)]
    exact G.cont j hj

/-- Touching the shared state inside a call. -/
theorem GI.inner {st0 : St α} {calls : List (List (Nat × α))} {c : Cfg α} (G : GI st0 calls c) {k : Nat} {th : Th α}
    (hk : c.ths[k]? = some th) {i : Nat} {x : α} {rest : List (Nat × α)} (ht : th.todo = (i, x) :: rest) {pc : Pc α} {st' : St α}
    (S' : SI st0 st') (hpc : PcOK st0 st' i pc) (hh : pc.holds = th.pc.holds)
    (hother : ∀ (j : Nat) t, j ≠ k → c.ths[j]? = some t → ∀ i, PcOK st0 c.st i t.pc → PcOK st0 st' i t.pc)
    (hev : ∀ j, j < st0.t.len → ev st'.h st'.t.s j = ev c.st.h c.st.t.s j) :
    GI st0 calls ⟨st', c.mu, c.ths.set k { th with pc := pc }⟩ := by
  refine G.upd hk S' ?_ hother ?_ (.inl rfl) rfl ?_
  · unfold ThOK; simp only [ht]; exact hpc
  · rw [← G.mu k th hk]; simp only [hh]
  · intro j hj
    rw [written_same hk (by rfl), hev j hj]
    exact G.cont j hj

/-- Finishing a call. -/
theorem GI.finish {st0 : St α} {calls : List (List (Nat × α))} {c : Cfg α} (G : GI st0 calls c) (D : Disjoint calls)
    {k : Nat} {th : Th α}
    (hk : c.ths[k]? = some th) {i : Nat} {x : α} {rest : List (Nat × α)} (ht : th.todo = (i, x) :: rest) {st' : St α}
    (S' : SI st0 st') (hh : th.pc.holds = false)
    (hother : ∀ (j : Nat) t, j ≠ k → c.ths[j]? = some t → ∀ i, PcOK st0 c.st i t.pc → PcOK st0 st' i t.pc)
    (hev : ∀ j, j < st0.t.len → ev st'.h st'.t.s j = if j = i then x else ev c.st.h c.st.t.s j) :
    GI st0 calls ⟨st', c.mu, c.ths.set k { todo := th.todo.tail, pc := .idle, past := (i, x) :: th.past }⟩ := by
  refine G.upd hk S' ?_ hother ?_ (.inl rfl) ?_ ?_
  · unfold ThOK
    simp only
    split
    · trivial
    · trivial
  · rw [← G.mu k th hk, hh]
    simp [Pc.holds]
  · simp [ht]
  · intro j hj
    rw [written_add (th := th) (i := i) (x := x) hk rfl, hev j hj]
    · by_cases hji : j = i
      · simp [hji]
      · rw [if_neg hji, if_neg hji]; exact G.cont j hj
    · intro m t hm htm
      cases hl : t.past.lookup i with
      | none => rfl
      | some y =>
        exfalso
        have h1 := lookup_mem hl
        refine D m k _ _ hm (G.calls m t htm) (G.calls k th hk) (i, y) ?_ (i, x) ?_ rfl
        · simp [h1]
        · simp [ht]

/-! ### Ranks of the other goroutines -/

theorem ownedPtr_r {top : Nat} {st st' : St α} (r : R top st st') {p : Ptr} (h : OwnedPtr st p) : OwnedPtr st' p := by
  obtain ⟨h0, a, nd, h1, h2, h3⟩ := h
  obtain ⟨nd', e1, e2, _⟩ := r.ext.same a nd h2
  exact ⟨by rw [r.aid]; exact h0, a, nd', h1, e1, by rw [e2, h3, r.aid]⟩

theorem pcRank_sameTree {st st' : St α} (e : SameTree st st') (i : Nat) (pc : Pc α) : pcRank st' i pc = pcRank st i pc := by
  have ho : ∀ p, OwnedPtr st' p = OwnedPtr st p := by
    intro p
    unfold OwnedPtr
    rw [e.aid, e.node]
  cases pc with
  | load level sl =>
    simp only [pcRank]
    rw [e.height, e.tree, pp_node e.node, ho]
  | aidLoad level sl pl =>
    simp only [pcRank]
    rw [ho, e.aid]
  | check level sl pl tid =>
    simp only [pcRank]
    rw [ho]
  | _ => simp only [pcRank, e.height]

theorem pcRank_setAid {st : St α} (h0 : st.t.aid = 0) {id : Nat} (i : Nat) (pc : Pc α)
    (hpc : ∀ level sl pl tid, pc ≠ .check level sl pl tid) :
    pcRank { st with t := { st.t with aid := id } } i pc ≤ pcRank st i pc := by
  have hn : ∀ p, ¬ OwnedPtr st p := by
    intro p h
    have := h.1
    omega
  cases pc with
  | load level sl =>
    simp only [pcRank, if_neg (hn _)]
    split <;> omega
  | aidLoad level sl pl =>
    simp only [pcRank, if_neg (hn _), h0]
    split
    · simp only [ne_eq, not_true, if_false]; omega
    · split <;> simp <;> omega
  | check level sl pl tid => exact absurd rfl (hpc level sl pl tid)
  | _ => simp only [pcRank]; exact Nat.le_refl _

theorem pcRank_r {st0 st st' : St α} (S : SI st0 st) (ha : 0 < st.t.aid)
    (r : R (st.t.s.height - 1) st st') {i : Nat} {pc : Pc α} (h : PcOK st0 st i pc) : pcRank st' i pc ≤ pcRank st i pc := by
  have e1 : st'.t.s.height = st.t.s.height := by rw [r.t_eq]
  cases pc with
  | load level sl =>
    obtain ⟨h1, h2, _⟩ := h
    simp only [pcRank]
    rw [e1]
    have : OwnedPtr st (pp st.h st.t.s.tree (st.t.s.height - 1) i (st.t.s.height - 1 - level)) →
        OwnedPtr st' (pp st'.h st'.t.s.tree (st.t.s.height - 1) i (st.t.s.height - 1 - level)) := by
      intro ho
      have ho2 := ownedPtr_r r ho
      obtain ⟨_, a, nd, x1, x2, x3⟩ := ho
      rw [r.own i (S.full.readable.fits h1).2 _ (Nat.sub_le _ _) a nd x1 x2 x3, ← x1]
      exact ho2
    by_cases ho : OwnedPtr st (pp st.h st.t.s.tree (st.t.s.height - 1) i (st.t.s.height - 1 - level))
    · rw [if_pos ho, if_pos (this ho)]; exact Nat.le_refl _
    · rw [if_neg ho]; split <;> omega
  | aidLoad level sl pl =>
    simp only [pcRank, r.aid]
    by_cases ho : OwnedPtr st pl
    · rw [if_pos ho, if_pos (ownedPtr_r r ho)]; exact Nat.le_refl _
    · rw [if_neg ho]
      rw [if_pos (by omega : st.t.aid ≠ 0)]
      split <;> omega
  | check level sl pl tid =>
    simp only [pcRank]
    by_cases ho : OwnedPtr st pl
    · rw [if_pos ho, if_pos (ownedPtr_r r ho)]; exact Nat.le_refl _
    · rw [if_neg ho]; split <;> omega
  | _ => simp only [pcRank, e1]; exact Nat.le_refl _

theorem sum_set {ths : List (Th α)} {f g : Th α → Nat} {k : Nat} {th th' : Th α} (hk : ths[k]? = some th)
    (hlt : g th' < f th) (hle : ∀ (j : Nat) t, j ≠ k → ths[j]? = some t → g t ≤ f t) :
    ((ths.set k th').map g).sum < (ths.map f).sum := by
  induction ths generalizing k with
  | nil => cases hk
  | cons a l ih =>
    cases k with
    | zero =>
      simp only [List.getElem?_cons_zero, Option.some.injEq] at hk
      subst hk
      simp only [List.set_cons_zero, List.map_cons, List.sum_cons]
      have : (l.map g).sum ≤ (l.map f).sum := by
        clear ih
        have hle' : ∀ t ∈ l, g t ≤ f t := by
          intro t ht
          obtain ⟨n, hn, e⟩ := List.getElem_of_mem ht
          exact hle (n + 1) t (by omega) (by simp [hn, e])
        clear hle
        induction l with
        | nil => exact Nat.le_refl _
        | cons b l ih =>
          simp only [List.map_cons, List.sum_cons]
          have := hle' b List.mem_cons_self
          have := ih (fun t ht => hle' t (List.mem_cons_of_mem _ ht))
          omega
      omega
    | succ k =>
      simp only [List.getElem?_cons_succ] at hk
      simp only [List.set_cons_succ, List.map_cons, List.sum_cons]
      have := ih hk (fun j t hj ht => hle (j + 1) t (by omega) (by simpa using ht))
      have := hle 0 a (by omega) rfl
      omega

end Verif.Persist
