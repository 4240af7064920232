import Verif.Persist.ConcLemmas
/-
Property C04: concurrent `Set` calls on one transient (value/persist/slice.go).

The specification is `Verif/Persist/ConcSpec.lean`, the model `Verif/Persist/Conc.lean`. `CRun n c0 c` is an
execution of `n` atomic steps under an arbitrary schedule.
-/
namespace Verif.Persist
variable {α : Type} [Inhabited α]

/-- **C04 (safety and termination).** In every state a program can reach, start any number of goroutines that
call `Set` on one transient at indexes below its length, no index used by two goroutines. Then under every
schedule: no goroutine ever panics; as long as one is unfinished some goroutine can move (no deadlock); and
the number of steps is bounded, so every schedule ends with all calls made. -/
theorem C04_never_stuck (es : List (Event α)) (w : World α) (hw : EReach es w) (k : Nat) (t : Trans)
    (ht : w.trans[k]? = some t) (calls : List (List (Nat × α))) (hr : InRange t.len calls) (hd : Disjoint calls)
    (n : Nat) (c : Cfg α) (r : CRun n (Cfg.start ⟨w.h, t⟩ calls) c) :
    (∀ (j : Nat) th, c.ths[j]? = some th → th.step c.st c.mu j ≠ .crash) ∧
    (¬ c.finished → ∃ c', CStep c c') ∧
    n ≤ 200 * (t.s.height + 2) * calls.flatten.length := by
  have F0 := (ereach_sim hw).1.tr k t ht
  obtain ⟨G, hn⟩ := crun_good F0 hd hr r
  refine ⟨no_crash F0 hd hr G, progress F0 hd hr G, ?_⟩
  have := start_rank (st0 := ⟨w.h, t⟩) calls
  have e : 200 * (t.s.height + 2) * calls.flatten.length = calls.flatten.length * ((t.s.height + 2) * 200) := by
    rw [Nat.mul_comm, Nat.mul_comm 200]
  rw [e]
  have h2 : (⟨w.h, t⟩ : St α).t.s.height = t.s.height := rfl
  rw [h2] at this
  omega

/-- **C04 (nothing is lost).** When all goroutines are done, the transient shows the list obtained by making
all calls one after the other, goroutine by goroutine. -/
theorem C04_nothing_lost (es : List (Event α)) (w : World α) (hw : EReach es w) (k : Nat) (t : Trans)
    (ht : w.trans[k]? = some t) (calls : List (List (Nat × α))) (hr : InRange t.len calls) (hd : Disjoint calls)
    (n : Nat) (c : Cfg α) (r : CRun n (Cfg.start ⟨w.h, t⟩ calls) c) (hf : c.finished) (l : List α)
    (hl : ReadsT w.h t l) : ReadsT c.st.h c.st.t (setAll l calls.flatten) := by
  have I := (ereach_sim hw).1
  have F0 := I.tr k t ht
  obtain ⟨G, _⟩ := crun_good F0 hd hr r
  have e := finished_contents F0 hd G hf
  have hl2 : t.len = t.s.len := trans_len I ht
  have hl0 : l = contents w.h t.s := reads_unique (h := w.h) (s := t.s) ⟨by rw [← hl2]; exact hl.1, hl.2⟩ (reads_contents F0.readable)
  have hc := reads_contents G.si.full.readable
  have e' : contents c.st.h c.st.t.s = setAll l calls.flatten := by rw [e, hl0]
  rw [e'] at hc
  refine ⟨?_, hc.2⟩
  rw [← hc.1]
  simp only [Trans.len, Slice.len, G.si.full.tl]

/-- **C04 (index by index).** When all goroutines are done, the last value a goroutine wrote to an index is
there, and an index nobody wrote is unchanged. -/
theorem C04_each_index (es : List (Event α)) (w : World α) (hw : EReach es w) (k : Nat) (t : Trans)
    (ht : w.trans[k]? = some t) (calls : List (List (Nat × α))) (hr : InRange t.len calls) (hd : Disjoint calls)
    (n : Nat) (c : Cfg α) (r : CRun n (Cfg.start ⟨w.h, t⟩ calls) c) (hf : c.finished) :
    c.st.t.len = t.len ∧
    (∀ before after i x, (before ++ (i, x) :: after) ∈ calls → (∀ a ∈ after, a.1 ≠ i) → c.st.t.at c.st.h i = some x) ∧
    (∀ i : Nat, (∀ l ∈ calls, ∀ a ∈ l, a.1 ≠ i) → c.st.t.at c.st.h i = t.at w.h i) := by
  have I := (ereach_sim hw).1
  have F0 := I.tr k t ht
  obtain ⟨G, _⟩ := crun_good F0 hd hr r
  have hl2 : t.len = t.s.len := trans_len I ht
  have hlen : c.st.t.len = t.len := G.si.len F0
  have hat : ∀ i : Nat, i < t.len → c.st.t.at c.st.h i = some (ev c.st.h c.st.t.s i) := by
    intro i hi
    unfold Trans.at
    rw [at_spec G.si.full.readable, if_pos]
    · rfl
    · refine ⟨by omega, ?_⟩
      have : c.st.t.s.len = t.len := by
        rw [← hlen]; simp only [Trans.len, Slice.len, G.si.full.tl]
      omega
  refine ⟨hlen, ?_, ?_⟩
  · intro before after i x hm hafter
    have hi : i < t.len := hr _ hm (i, x) (by simp)
    rw [hat i hi, G.cont i hi, written_finished G hf, ← flatten_lookup hd]
    have : (calls.flatten).reverse.lookup i = some x := by
      rw [flatten_lookup hd]
      have hsome : (calls.findSome? (fun l => l.reverse.lookup i)).isSome := by
        rw [List.findSome?_isSome_iff]
        refine ⟨_, hm, ?_⟩
        rw [List.reverse_append, lookup_append, List.reverse_cons, lookup_append]
        simp only [List.lookup, beq_self_eq_true]
        cases after.reverse.lookup i <;> rfl
      obtain ⟨y, hy⟩ := Option.isSome_iff_exists.1 hsome
      obtain ⟨l', hl', hy'⟩ := List.exists_of_findSome?_eq_some hy
      obtain ⟨a, ha⟩ := List.getElem?_of_mem hl'
      obtain ⟨b, hb⟩ := List.getElem?_of_mem hm
      have hab : a = b := by
        by_cases h : a = b
        · exact h
        · exfalso
          exact hd a b _ _ h ha hb (i, y) (by simpa using lookup_mem hy') (i, x) (by simp) rfl
      subst hab
      rw [ha] at hb
      have hb' := Option.some.inj hb
      rw [hy, ← hy', hb', List.reverse_append, lookup_append, List.reverse_cons, lookup_append]
      have hn : after.reverse.lookup i = none := by
        cases h : after.reverse.lookup i with
        | none => rfl
        | some z => exact absurd rfl (hafter (i, z) (by simpa using lookup_mem h))
      rw [hn]
      simp [List.lookup]
    rw [this]
    rfl
  · intro i hno
    have hw' : written c.ths i = none := by
      rw [written_finished G hf, List.findSome?_eq_none_iff]
      intro l hl
      cases h : l.reverse.lookup i with
      | none => rfl
      | some y => exact absurd rfl (hno l hl (i, y) (by simpa using lookup_mem h))
    by_cases hi : i < t.len
    · rw [hat i hi, G.cont i hi, hw']
      unfold Trans.at
      rw [at_spec F0.readable, if_pos ⟨by omega, by rw [← hl2]; omega⟩]
      rfl
    · unfold Trans.at
      have : c.st.t.s.len = t.len := by
        rw [← hlen]; simp only [Trans.len, Slice.len, G.si.full.tl]
      have h3 : (⟨w.h, t⟩ : St α).t.s.len = t.len := hl2.symm
      rw [at_spec F0.readable, at_spec G.si.full.readable, if_neg (by omega), if_neg (by omega)]

/-- **C04 (others see nothing).** At every moment of a parallel phase, finished or not, every published slice
and every other transient reads exactly as before the phase. -/
theorem C04_others_unaffected (es : List (Event α)) (w : World α) (hw : EReach es w) (k : Nat) (t : Trans)
    (ht : w.trans[k]? = some t) (calls : List (List (Nat × α))) (hr : InRange t.len calls) (hd : Disjoint calls)
    (n : Nat) (c : Cfg α) (r : CRun n (Cfg.start ⟨w.h, t⟩ calls) c) :
    (∀ s, s ∈ w.slices → ∀ i, s.at c.st.h i = s.at w.h i) ∧
    (∀ (j : Nat) u, j ≠ k → w.trans[j]? = some u → ∀ i, u.at c.st.h i = u.at w.h i) := by
  have I := (ereach_sim hw).1
  obtain ⟨_, U1, U2⟩ := parallel_inv I ht hr hd r
  have key : ∀ s, Readable w.h s → Untouched ⟨w.h, t⟩ c.st s → ∀ i, s.at c.st.h i = s.at w.h i := by
    intro s hs U i
    have c1 := (reads_contents hs).2 i
    have c2 := (reads_contents U.readable).2 i
    rw [untouched_contents U] at c2
    exact c2.trans c1.symm
  exact ⟨fun s hs => key s (I.slice s hs).1 (U1 s hs), fun j u hj hu => key u.s (I.tr j u hu).readable (U2 j u hj hu)⟩

/-- **C04 (whole programs).** Every program that mixes ordinary calls with parallel phases behaves as one on
plain lists. -/
theorem C04_programs_behave_as_lists (es : List (Event α)) (w : World α) (hw : EReach es w) :
    ∃ a, Spec.EReach es a ∧ Shows w a := by
  obtain ⟨I, a⟩ := ereach_sim hw
  exact ⟨_, a, shows_abs I⟩

/-- Let goroutines move in the given order; for examples. -/
def Cfg.exec (c : Cfg α) : List Nat → Cfg α
  | [] => c
  | k :: ks =>
    match c.ths[k]? with
    | none => c.exec ks
    | some th =>
      match th.step c.st c.mu k with
      | .go st' mu' th' => Cfg.exec ⟨st', mu', c.ths.set k th'⟩ ks
      | _ => c.exec ks

theorem exec_run (ks : List Nat) : ∀ (n : Nat) (c0 c : Cfg α), CRun n c0 c → ∃ m, CRun m c0 (c.exec ks) := by
  induction ks with
  | nil => intro n c0 c r; exact ⟨n, r⟩
  | cons k ks ih =>
    intro n c0 c r
    unfold Cfg.exec
    split
    · exact ih n c0 c r
    · rename_i th hk
      split
      · rename_i st' mu' th' hs
        exact ih (n + 1) c0 _ (r.snoc (.go hk hs))
      · exact ih n c0 c r

/-- Three goroutines edit a 40-element transient of a published slice: two of them in the same leaf, one in
the tail. Under a schedule that alternates between them, all finish, every write is there, the published
slice is unchanged. -/
example :
    let ops : List (Op Nat) := [.newTrans, .append 0 (List.range 40), .persist 0, .transient 0]
    let w := World.init.run ops
    let calls : List (List (Nat × Nat)) := [[(1, 100), (3, 101)], [(2, 200), (38, 201), (2, 202)], [(39, 300)]]
    InRange 40 calls ∧ Disjoint calls ∧
    (w.trans[1]?.map (fun t =>
      let c := (Cfg.start ⟨w.h, t⟩ calls).exec ((List.replicate 120 [0, 1, 2]).flatten)
      (t.len, c.ths.map (fun th => th.todo.length), [1, 2, 3, 4, 38, 39].map (fun i => c.st.t.at c.st.h i),
        w.slices.map (fun s => s.at c.st.h 2)))) =
      some (40, [0, 0, 0], [some 100, some 202, some 101, some 4, some 201, some 300], [some 2]) := by
  intro ops w calls
  refine ⟨by unfold InRange; decide, ?_, by decide +kernel⟩
  intro k k' l l' hne hl hl'
  have h1 : k < 3 := (List.getElem?_eq_some_iff.1 hl).1
  have h2 : k' < 3 := (List.getElem?_eq_some_iff.1 hl').1
  have key : ∀ k, k < 3 → ∀ k', k' < 3 → k ≠ k' → ∀ a ∈ calls.getD k [], ∀ b ∈ calls.getD k' [], a.1 ≠ b.1 := by decide
  have e1 : calls.getD k [] = l := by rw [List.getD_eq_getElem?_getD, hl]; rfl
  have e2 : calls.getD k' [] = l' := by rw [List.getD_eq_getElem?_getD, hl']; rfl
  have := key k h1 k' h2 hne
  rw [e1, e2] at this
  exact this

end Verif.Persist
