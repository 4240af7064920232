import Verif.Persist.ConcMain
import Verif.Persist.PropLemmas
/-
Helper lemmas: executions of concurrent `Set` calls inside a program.
-/
namespace Verif.Persist
variable {α : Type} [Inhabited α]
set_option linter.unusedSectionVars false

theorem gi_start {st0 : St α} (F0 : Full st0) (calls : List (List (Nat × α))) : GI st0 calls (Cfg.start st0 calls) := by
  have get : ∀ (k : Nat) th, (Cfg.start st0 calls).ths[k]? = some th → ∃ l, calls[k]? = some l ∧ th = ⟨l, .idle, []⟩ := by
    intro k th h
    simp only [Cfg.start, List.getElem?_map, Option.map_eq_some_iff] at h
    obtain ⟨l, h1, h2⟩ := h
    exact ⟨l, h1, h2.symm⟩
  refine ⟨SI.refl F0, ?_, ?_, ?_, by simp [Cfg.start], ?_, ?_⟩
  · intro k th h
    obtain ⟨l, _, rfl⟩ := get k th h
    unfold ThOK
    cases l with
    | nil => rfl
    | cons a l => trivial
  · intro k th h
    obtain ⟨l, _, rfl⟩ := get k th h
    simp [Pc.holds, Cfg.start]
  · intro k h
    cases h
  · intro k th h
    obtain ⟨l, h1, rfl⟩ := get k th h
    simpa using h1
  · intro j _
    have : written (Cfg.start st0 calls).ths j = none := by
      unfold written Cfg.start
      rw [List.findSome?_eq_none_iff]
      intro t ht
      simp only [List.mem_map] at ht
      obtain ⟨l, _, rfl⟩ := ht
      rfl
    rw [this]
    rfl

section
variable {st0 : St α} {calls : List (List (Nat × α))}

theorem cstep_good (F0 : Full st0) (D : Disjoint calls) (IR : InRange st0.t.len calls) {c c' : Cfg α} (G : GI st0 calls c)
    (s : CStep c c') : GI st0 calls c' ∧ rank c' < rank c := by
  cases s with
  | @go k th th' st' mu' hk hs =>
    unfold Th.step at hs
    split at hs
    · cases hs
    · rename_i i x rest ht
      have := setStep_good F0 D IR G hk ht
      rw [hs] at this
      refine ⟨this.1, ?_⟩
      exact sum_set hk this.2.1 this.2.2

theorem crun_good (F0 : Full st0) (D : Disjoint calls) (IR : InRange st0.t.len calls) {n : Nat} {c : Cfg α}
    (r : CRun n (Cfg.start st0 calls) c) : GI st0 calls c ∧ n + rank c ≤ rank (Cfg.start st0 calls) := by
  generalize hc0 : Cfg.start st0 calls = c0 at r
  induction r with
  | refl => subst hc0; exact ⟨gi_start F0 calls, by omega⟩
  | snoc r s ih =>
    obtain ⟨G, hn⟩ := ih hc0
    obtain ⟨G', hlt⟩ := cstep_good F0 D IR G s
    exact ⟨G', by omega⟩

theorem start_rank (calls : List (List (Nat × α))) :
    rank (Cfg.start st0 calls) ≤ calls.flatten.length * ((st0.t.s.height + 2) * 200) := by
  unfold rank Cfg.start
  simp only [List.map_map]
  induction calls with
  | nil => simp
  | cons l ls ih =>
    simp only [List.map_cons, List.sum_cons, List.flatten_cons, List.length_append, Function.comp_apply]
    have : thRank st0 ⟨l, .idle, []⟩ ≤ l.length * ((st0.t.s.height + 2) * 200) := by
      unfold thRank
      cases l with
      | nil => simp
      | cons a l =>
        simp only [pcRank, List.length_cons]
        rw [Nat.add_mul l.length 1]
        omega
    rw [Nat.add_mul]
    omega

theorem no_crash (F0 : Full st0) (D : Disjoint calls) (IR : InRange st0.t.len calls) {c : Cfg α} (G : GI st0 calls c)
    (k : Nat) (th : Th α) (hk : c.ths[k]? = some th) : th.step c.st c.mu k ≠ .crash := by
  unfold Th.step
  split
  · simp
  · rename_i i x rest ht
    intro h
    have := setStep_good F0 D IR G hk ht
    rw [h] at this
    exact this

theorem progress (F0 : Full st0) (D : Disjoint calls) (IR : InRange st0.t.len calls) {c : Cfg α} (G : GI st0 calls c)
    (hf : ¬ c.finished) : ∃ c', CStep c c' := by
  have step : ∀ (k : Nat) th, c.ths[k]? = some th → th.todo ≠ [] → th.pc ≠ .tailLock → ∃ c', CStep c c' := by
    intro k th hk hne hl
    cases ht : th.todo with
    | nil => exact absurd ht hne
    | cons a rest =>
      obtain ⟨i, x⟩ := a
      have := setStep_good F0 D IR G hk ht
      cases hs : setStep c.st c.mu k i x th with
      | finished => rw [hs] at this; exact absurd this id
      | crash => rw [hs] at this; exact absurd this id
      | wait => rw [hs] at this; exact absurd this.1 hl
      | go st' mu' th' => exact ⟨_, .go hk (by unfold Th.step; rw [ht]; exact hs)⟩
  simp only [Cfg.finished, Classical.not_forall] at hf
  obtain ⟨th, hm, hne⟩ := hf
  obtain ⟨k, hk⟩ := List.getElem?_of_mem hm
  by_cases hl : th.pc = .tailLock
  · cases hmu : c.mu with
    | none =>
      cases ht : th.todo with
      | nil => exact absurd ht hne
      | cons a rest =>
        obtain ⟨i, x⟩ := a
        exact ⟨_, .go (k := k) (th := th) (st' := c.st) (mu' := some k) (th' := { th with pc := .tailCheck }) hk (by
          unfold Th.step; simp only [ht, setStep, hl, hmu])⟩
    | some m =>
      have hm' := G.muk m hmu
      have hg : c.ths[m]? = some c.ths[m] := List.getElem?_eq_getElem hm'
      have hh := (G.mu m _ hg).2 hmu
      refine step m _ hg ?_ ?_
      · intro h
        have := G.th m _ hg
        unfold ThOK at this
        rw [h] at this
        simp only at this
        rw [this] at hh
        cases hh
      · intro h
        rw [h] at hh
        cases hh
  · exact step k th hk hne hl

theorem SI.frame {st : St α} (F0 : Full st0) (S : SI st0 st) : ∃ tid, FrameT tid st0 st := by
  have hext0 : st0.t.aid = 0 → ∀ tid, Ext tid st0.h st.h := by
    intro h0 tid
    refine ⟨fun a nd hn _ => S.ext.keep a nd hn ?_, S.ext.same, S.ext.next, S.ext.lastId⟩
    have := F0.heap.idpos a nd hn
    omega
  have hbase : (st.t.s.tail.base = st0.t.s.tail.base ∧ st.t.wtail = st0.t.wtail) ∨ (st0.h.nextArr ≤ st.t.s.tail.base) := by
    rcases S.base with ⟨h1, h2⟩ | ⟨h1, _⟩
    · exact .inl ⟨by rw [h1], h2⟩
    · exact .inr h1
  by_cases h0 : st0.t.aid = 0
  · by_cases h1 : st.t.aid = 0
    · refine ⟨st0.h.lastId + 1, .inl ⟨h0, by omega⟩, hext0 h0 _, .inr ⟨h1, h0⟩, S.arr, S.nextArr, hbase, ?_⟩
      intro tid' _ h2 h3
      by_cases hz : tid' = 0
      · intro _ i _ k _ a nd _ hn
        have := S.full.heap.idpos a nd hn
        omega
      · exact S.avoid tid' h2 (by omega) h3
    · refine ⟨st.t.aid, .inl ⟨h0, ?_⟩, hext0 h0 _, .inl rfl, S.arr, S.nextArr, hbase, ?_⟩
      · rcases S.aid with h | ⟨_, h⟩
        · omega
        · exact h
      · intro tid' _ h2 h3
        by_cases hz : tid' = 0
        · intro _ i _ k _ a nd _ hn
          have := S.full.heap.idpos a nd hn
          omega
        · exact S.avoid tid' h2 (by omega) h3
  · have ha : st.t.aid = st0.t.aid := by
      rcases S.aid with h | ⟨h, _⟩
      · exact h
      · exact absurd h h0
    exact ⟨st0.t.aid, .inr ⟨h0, rfl⟩, S.ext, .inl ha, S.arr, S.nextArr, hbase, fun tid' h1 h2 h3 => S.avoid tid' h2 h1 h3⟩

/-! ### What the goroutines wrote -/

theorem setAll_length (l : List α) (cs : List (Nat × α)) : (setAll l cs).length = l.length := by
  unfold setAll
  induction cs generalizing l with
  | nil => rfl
  | cons c cs ih => simp only [List.foldl_cons, ih, List.length_set]

theorem lookup_append (a b : List (Nat × α)) (j : Nat) : (a ++ b).lookup j = (a.lookup j).or (b.lookup j) := by
  induction a with
  | nil => simp
  | cons c a ih =>
    obtain ⟨c1, c2⟩ := c
    simp only [List.cons_append, List.lookup]
    split
    · rfl
    · exact ih

theorem setAll_get (l : List α) (cs : List (Nat × α)) (j : Nat) (hj : j < l.length) (x : α) (hx : l[j]? = some x) :
    (setAll l cs)[j]? = some ((cs.reverse.lookup j).getD x) := by
  unfold setAll
  induction cs generalizing l x with
  | nil => simpa using hx
  | cons c cs ih =>
    simp only [List.foldl_cons, List.reverse_cons]
    rw [lookup_append]
    by_cases hc : c.1 = j
    · rw [ih (l.set c.1 c.2) (by rw [List.length_set]; exact hj) c.2 (by rw [hc, List.getElem?_set_self hj])]
      have : [c].lookup j = some c.2 := by
        obtain ⟨c1, c2⟩ := c
        simp only at hc
        simp [List.lookup, hc]
      rw [this]
      cases cs.reverse.lookup j <;> rfl
    · rw [ih (l.set c.1 c.2) (by rw [List.length_set]; exact hj) x (by rw [List.getElem?_set_ne hc]; exact hx)]
      have : [c].lookup j = none := by
        obtain ⟨c1, c2⟩ := c
        have : (j == c1) = false := by simpa using fun h => hc h.symm
        simp [List.lookup, this]
      rw [this]
      cases cs.reverse.lookup j <;> rfl

theorem disjoint_tail {l : List (Nat × α)} {ls : List (List (Nat × α))} (D : Disjoint (l :: ls)) : Disjoint ls := by
  intro k k' a b hk ha hb
  exact D (k + 1) (k' + 1) a b (by omega) (by simpa using ha) (by simpa using hb)

theorem flatten_lookup : ∀ {ls : List (List (Nat × α))} (_ : Disjoint ls) (j : Nat),
    (ls.flatten).reverse.lookup j = ls.findSome? (fun l => l.reverse.lookup j) := by
  intro ls
  induction ls with
  | nil => intro _ j; rfl
  | cons l ls ih =>
    intro D j
    simp only [List.flatten_cons, List.reverse_append]
    rw [lookup_append, ih (disjoint_tail D) j, List.findSome?_cons]
    cases h1 : l.reverse.lookup j with
    | none => simp
    | some x =>
      have h2 : ls.findSome? (fun l => l.reverse.lookup j) = none := by
        rw [List.findSome?_eq_none_iff]
        intro l' hl'
        cases h3 : l'.reverse.lookup j with
        | none => rfl
        | some y =>
          exfalso
          have m1 := lookup_mem h1
          have m2 := lookup_mem h3
          obtain ⟨m, hm⟩ := List.getElem?_of_mem hl'
          exact D 0 (m + 1) l l' (by omega) rfl (by simpa using hm) (j, x) (by simpa using m1) (j, y) (by simpa using m2) rfl
      rw [h2]
      rfl

theorem written_finished {c : Cfg α} (G : GI st0 calls c) (hf : c.finished) (j : Nat) :
    written c.ths j = calls.findSome? (fun l => l.reverse.lookup j) := by
  have e : c.ths.map (·.past) = calls.map List.reverse := by
    apply List.ext_getElem?
    intro k
    simp only [List.getElem?_map]
    cases hk : c.ths[k]? with
    | none =>
      have := List.getElem?_eq_none_iff.1 hk
      rw [G.len] at this
      rw [List.getElem?_eq_none this]
      rfl
    | some th =>
      have h1 := G.calls k th hk
      rw [hf th (List.mem_of_getElem? hk)] at h1
      rw [h1]
      simp
  have e1 : written c.ths j = (c.ths.map (·.past)).findSome? (fun l => l.lookup j) := by
    unfold written
    rw [List.findSome?_map]
    rfl
  rw [e1, e, List.findSome?_map]
  rfl

theorem finished_contents (F0 : Full st0) (D : Disjoint calls) {c : Cfg α} (G : GI st0 calls c) (hf : c.finished) :
    contents c.st.h c.st.t.s = setAll (contents st0.h st0.t.s) calls.flatten := by
  have hl : st0.t.len = st0.t.s.len := by
    simp only [Trans.len, Slice.len, F0.tl]
  have hl2 : c.st.t.s.len = st0.t.s.len := by
    simp only [Slice.len, G.si.tlen, G.si.tail_len]
  symm
  refine (contents_ext ?_ ?_).symm
  · rw [setAll_length, contents_length, hl2]
  · intro i hi
    rw [hl2] at hi
    rw [setAll_get _ _ i (by rw [contents_length]; exact hi) (ev st0.h st0.t.s i) (by rw [contents_get, if_pos hi])]
    rw [flatten_lookup D, ← written_finished G hf, G.cont i (by rw [hl]; exact hi)]

end

theorem parallel_inv {w : World α} (I : WI w) {k : Nat} {t : Trans} {calls : List (List (Nat × α))} (ht : w.trans[k]? = some t)
    (hr : InRange t.len calls) (hd : Disjoint calls) {n : Nat} {c : Cfg α} (r : CRun n (Cfg.start ⟨w.h, t⟩ calls) c) :
    WI { w with h := c.st.h, trans := w.trans.set k c.st.t } ∧
    (∀ s, s ∈ w.slices → Untouched ⟨w.h, t⟩ c.st s) ∧
    (∀ (j : Nat) u, j ≠ k → w.trans[j]? = some u → Untouched ⟨w.h, t⟩ c.st u.s) := by
  have F0 := I.tr k t ht
  obtain ⟨G, _⟩ := crun_good F0 hd hr r
  obtain ⟨tid, Fr⟩ := G.si.frame F0
  exact onTransT_inv I ht G.si.full Fr

theorem estep_sim {w w' : World α} (I : WI w) {e : Event α} (s : EStep w e w') : WI w' ∧ Spec.EStep (abs w) e (abs w') := by
  cases s with
  | @call op _ h =>
    by_cases hl : Spec.Legal (abs w) op
    · obtain ⟨w1, e1, I', s⟩ := step_sim I op hl
      rw [h] at e1
      cases e1
      exact ⟨I', .call s⟩
    · rw [step_refuse I op hl] at h
      cases h
  | @refuse op h =>
    refine ⟨I, .refuse (fun hl => ?_)⟩
    obtain ⟨w1, e1, _⟩ := step_sim I op hl
    rw [h] at e1
    cases e1
  | @parallel k t calls n c ht hr hd r hf =>
    have F0 := I.tr k t ht
    obtain ⟨I', U1, U2⟩ := parallel_inv I ht hr hd r
    obtain ⟨G, _⟩ := crun_good F0 hd hr r
    refine ⟨I', ?_⟩
    rw [abs_set_h ht U1 U2, finished_contents F0 hd G hf]
    exact .parallel (by simp [abs, ht])

theorem ereach_sim {es : List (Event α)} {w : World α} (r : EReach es w) : WI w ∧ Spec.EReach es (abs w) := by
  induction r with
  | init => exact ⟨wi_init, .init⟩
  | snoc r s ih =>
    obtain ⟨I, a⟩ := ih
    obtain ⟨I', s'⟩ := estep_sim I s
    exact ⟨I', .snoc a s'⟩

end Verif.Persist
