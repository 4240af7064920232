import Verif.Persist.ConcStep
/-
Helper lemmas: the step cases of concurrent `Set`, and the induction over executions.
-/
namespace Verif.Persist
variable {α : Type} [Inhabited α]
set_option linter.unusedSectionVars false

/-- A good outcome of a step of goroutine `k`. -/
def Good (st0 : St α) (calls : List (List (Nat × α))) (c : Cfg α) (k : Nat) (th : Th α) : Res α → Prop
  | .go st' mu' th' => GI st0 calls ⟨st', mu', c.ths.set k th'⟩ ∧ thRank st' th' < thRank c.st th ∧
      ∀ (j : Nat) t, j ≠ k → c.ths[j]? = some t → thRank st' t ≤ thRank c.st t
  | .wait => th.pc = .tailLock ∧ c.mu ≠ none
  | _ => False

section
variable {st0 : St α} {calls : List (List (Nat × α))} {c : Cfg α} {k : Nat} {th : Th α} {i : Nat} {x : α}
  {rest : List (Nat × α)}

theorem good_goto (G : GI st0 calls c) (hk : c.ths[k]? = some th) (ht : th.todo = (i, x) :: rest) {pc : Pc α}
    (hpc : PcOK st0 c.st i pc) (hh : pc.holds = th.pc.holds) (hr : pcRank c.st i pc < pcRank c.st i th.pc) :
    Good st0 calls c k th (.go c.st c.mu { th with pc := pc }) := by
  refine ⟨G.goto hk ht hpc hh, ?_, fun _ _ _ _ => Nat.le_refl _⟩
  unfold thRank
  simp only [ht]
  omega

theorem good_inner (G : GI st0 calls c) (hk : c.ths[k]? = some th) (ht : th.todo = (i, x) :: rest) {pc : Pc α} {st' : St α}
    (S' : SI st0 st') (hpc : PcOK st0 st' i pc) (hh : pc.holds = th.pc.holds)
    (hother : ∀ (j : Nat) t, j ≠ k → c.ths[j]? = some t → ∀ i, PcOK st0 c.st i t.pc → PcOK st0 st' i t.pc)
    (hev : ∀ j, j < st0.t.len → ev st'.h st'.t.s j = ev c.st.h c.st.t.s j)
    (hr : pcRank st' i pc < pcRank c.st i th.pc)
    (hro : ∀ i pc, PcOK st0 c.st i pc → pcRank st' i pc ≤ pcRank c.st i pc) :
    Good st0 calls c k th (.go st' c.mu { th with pc := pc }) := by
  have hhe : st'.t.s.height = c.st.t.s.height := by rw [S'.height, G.si.height]
  refine ⟨G.inner hk ht S' hpc hh hother hev, ?_, fun j t _ hj => ?_⟩
  · unfold thRank
    simp only [ht, hhe]
    omega
  · have := G.th j t hj
    unfold thRank
    unfold ThOK at this
    cases htt : t.todo with
    | nil => simp
    | cons a l =>
      rw [htt] at this
      have := hro a.1 _ this
      simp only [hhe]
      omega

theorem good_finish (G : GI st0 calls c) (D : Disjoint calls) (hk : c.ths[k]? = some th) (ht : th.todo = (i, x) :: rest)
    {st' : St α} (S' : SI st0 st') (hh : th.pc.holds = false)
    (hother : ∀ (j : Nat) t, j ≠ k → c.ths[j]? = some t → ∀ i, PcOK st0 c.st i t.pc → PcOK st0 st' i t.pc)
    (hev : ∀ j, j < st0.t.len → ev st'.h st'.t.s j = if j = i then x else ev c.st.h c.st.t.s j)
    (hr : 0 < pcRank c.st i th.pc)
    (hro : ∀ i pc, PcOK st0 c.st i pc → pcRank st' i pc ≤ pcRank c.st i pc) :
    Good st0 calls c k th (.go st' c.mu { todo := th.todo.tail, pc := .idle, past := (i, x) :: th.past }) := by
  have hhe : st'.t.s.height = c.st.t.s.height := by rw [S'.height, G.si.height]
  refine ⟨G.finish D hk ht S' hh hother hev, ?_, fun j t _ hj => ?_⟩
  · unfold thRank
    simp only [ht, List.tail_cons, hhe]
    cases rest with
    | nil => simp only [List.length_nil]; omega
    | cons a l =>
      simp only [pcRank, hhe, List.length_cons]
      rw [Nat.add_mul l.length 1]
      omega
  · have := G.th j t hj
    unfold thRank
    unfold ThOK at this
    cases htt : t.todo with
    | nil => simp
    | cons a l =>
      rw [htt] at this
      have := hro a.1 _ this
      simp only [hhe]
      omega

theorem ev_sameTree {st st' : St α} (e : SameTree st st') (j : Nat)
    (h : ¬ j < st.t.s.tlen → st'.h.arr st'.t.s.tail.base (j - st.t.s.tlen) = st.h.arr st.t.s.tail.base (j - st.t.s.tlen)) :
    ev st'.h st'.t.s j = ev st.h st.t.s j := by
  unfold ev
  rw [e.tlen, e.height, e.tree]
  by_cases hj : j < st.t.s.tlen
  · rw [if_pos hj, if_pos hj]; exact tv_node e.node ..
  · rw [if_neg hj, if_neg hj]; exact h hj

theorem SI.len {st0 st : St α} (F0 : Full st0) (S : SI st0 st) : st.t.len = st0.t.len := by
  unfold Trans.len
  rw [S.tlen, S.full.tl, S.tail_len, F0.tl]

theorem asLevel_some {h : Heap α} {level a : Nat} {p : Ptr} {nd : Node α} (e : asLevel h level p = some (a, nd)) :
    p = .ref a ∧ h.node a = some nd ∧ nd.isLeaf = decide (level = 0) := by
  unfold asLevel at e
  split at e
  · split at e
    · split at e
      · cases e
        exact ⟨rfl, by assumption, by assumption⟩
      · cases e
    · cases e
  · cases e

theorem asLevel_none {h : Heap α} {level k : Nat} {p : Ptr} (o : okAt h level k p) (e : asLevel h level p = none) :
    p = .nil ∨ (p = .tnil ∧ k = 0) := by
  rcases o with o | o | ⟨a, nd, rfl, h1, h2⟩
  · exact .inl o
  · exact .inr o
  · simp only [asLevel, h1, h2, if_true] at e
    cases e

theorem freshNode_id (level tid : Nat) : (freshNode level tid : Node α).id = tid := by cases level <;> rfl

theorem freshNode_isLeaf (level tid : Nat) : (freshNode level tid : Node α).isLeaf = decide (level = 0) := by
  cases level <;> rfl

theorem put_spec {new nd : Node α} {j : Nat} (h : new.isLeaf = nd.isLeaf) :
    ∃ new', new.put nd j = some new' ∧ new'.id = new.id ∧ new'.isLeaf = new.isLeaf ∧
      ∀ k, (new'.child k = if k = j then nd.child k else new.child k) ∧
        (new'.elem k = if k = j then nd.elem k else new.elem k) := by
  cases new <;> cases nd <;> simp only [Node.isLeaf, reduceCtorEq] at h
  · refine ⟨_, rfl, rfl, rfl, fun k => ⟨?_, ?_⟩⟩
    · simp only [Node.child]; split
      · rename_i e; rw [e]
      · rfl
    · simp only [Node.elem]; split <;> rfl
  · refine ⟨_, rfl, rfl, rfl, fun k => ⟨?_, ?_⟩⟩
    · simp only [Node.child]; split <;> rfl
    · simp only [Node.elem]; split
      · rename_i e; rw [e]
      · rfl

theorem ptrKind_ok {h : Heap α} {level k : Nat} {p : Ptr} (o : okAt h level k p) (hl : k = 0 → level ≠ 0) :
    ∃ kd, ptrKind h p = some kd ∧ (kd = none ∨ kd = some (decide (level = 0))) := by
  rcases o with rfl | ⟨rfl, h0⟩ | ⟨a, nd, rfl, h1, h2⟩
  · exact ⟨none, rfl, .inl rfl⟩
  · exact ⟨some false, rfl, .inr (by have := hl h0; simp [this])⟩
  · exact ⟨some nd.isLeaf, by simp [ptrKind, h1], .inr (by rw [h2])⟩

theorem casTypesOK_ok {h : Heap α} {level k k' : Nat} {p q : Ptr} {new : Node α} (o : okAt h level k p) (o' : okAt h level k' q)
    (hl : k = 0 → level ≠ 0) (hl' : k' = 0 → level ≠ 0) (hn : new.isLeaf = decide (level = 0)) : casTypesOK h p q new = true := by
  obtain ⟨a, e1, h1⟩ := ptrKind_ok o hl
  obtain ⟨b, e2, h2⟩ := ptrKind_ok o' hl'
  simp only [casTypesOK, e1, e2, hn]
  rcases h1 with rfl | rfl <;> rcases h2 with rfl | rfl <;> simp

theorem setStep_good (F0 : Full st0) (D : Disjoint calls) (IR : InRange st0.t.len calls) (G : GI st0 calls c)
    (hk : c.ths[k]? = some th) (ht : th.todo = (i, x) :: rest) : Good st0 calls c k th (setStep c.st c.mu k i x th) := by
  have S := G.si
  have F := S.full
  have hP : PcOK st0 c.st i th.pc := by
    have := G.th k th hk
    unfold ThOK at this
    rw [ht] at this
    exact this
  have hir : i < st0.t.len := IR _ (List.mem_of_getElem? (G.calls k th hk)) (i, x) (by simp [ht])
  have hlen : c.st.t.len = st0.t.len := S.len F0
  have hmod := F.shape.mod
  have h16 := F.len
  have htl := F.tl
  have hlen2 : c.st.t.s.tlen + c.st.t.s.tail.len = st0.t.len := by
    rw [← hlen, ← htl]; rfl
  have fits : i < c.st.t.s.tlen → 2 ≤ c.st.t.s.height ∧ i < 16 ^ (c.st.t.s.height - 1 + 1) := fun h => F.readable.fits h
  unfold setStep
  cases hpc : th.pc with
  | idle =>
    simp only
    rw [if_neg (by omega)]
    split
    · rename_i h
      refine good_goto G hk ht h (by rw [hpc]; rfl) ?_
      rw [hpc]; simp only [pcRank]; omega
    · rename_i h
      have h' : i < c.st.t.s.tlen := by omega
      refine good_goto G hk ht ⟨h', Nat.le_refl _, ?_⟩ (by rw [hpc]; rfl) ?_
      · rw [Nat.sub_self]; exact .root
      · have := (fits h').1
        rw [hpc]; simp only [pcRank]
        split <;> omega
  | load level sl =>
    rw [hpc] at hP
    obtain ⟨hi, hl, hs⟩ := hP
    simp only [hs.load_eq]
    have hok : okAt c.st.h level (c.st.t.s.height - 1 - level)
        (pp c.st.h c.st.t.s.tree (c.st.t.s.height - 1) i (c.st.t.s.height - 1 - level)) := by
      obtain ⟨pos, T⟩ := F.tree (by have := (fits hi).1; omega)
      have := T.wf i (fits hi).2 (c.st.t.s.height - 1 - level) (Nat.sub_le _ _)
      have e : c.st.t.s.height - 1 - (c.st.t.s.height - 1 - level) = level := by omega
      rw [e] at this
      exact this
    refine good_goto G hk ht ⟨hi, hl, hs, hok, .inl rfl, fun _ _ _ _ _ => rfl⟩ (by rw [hpc]; rfl) ?_
    rw [hpc]; simp only [pcRank]
    split
    · omega
    · split <;> omega
  | aidLoad level sl pl =>
    rw [hpc] at hP
    obtain ⟨hi, hs⟩ := hP
    simp only
    split
    · rename_i h0
      refine good_goto G hk ht ⟨hi, hs⟩ (by rw [hpc]; rfl) ?_
      rw [hpc]; simp only [pcRank]
      have : ¬ OwnedPtr c.st pl := by
        intro h
        have := h.1
        omega
      rw [if_neg this, if_neg (by omega)]
      omega
    · rename_i h0
      refine good_goto G hk ht ⟨hi, hs, rfl, by omega⟩ (by rw [hpc]; rfl) ?_
      rw [hpc]; simp only [pcRank]
      split
      · omega
      · omega
  | aidAdd level sl pl =>
    rw [hpc] at hP
    obtain ⟨hi, hs⟩ := hP
    have e : SameTree c.st { c.st with h := { c.st.h with lastId := c.st.h.lastId + 1 } } :=
      ⟨rfl, Nat.le_succ _, rfl, rfl, rfl, rfl⟩
    have hle := S.ext.lastId
    refine good_inner G hk ht S.addId ⟨hi, e.seen hs, ?_, Nat.le_refl _⟩ (by rw [hpc]; rfl) ?_ (fun j _ => ev_sameTree e j (fun _ => rfl))
      ?_ (fun i pc _ => Nat.le_of_eq (pcRank_sameTree e i pc))
    · omega
    · intro j t _ _ i' h
      refine h.sameTree e (fun hh => ?_)
      rcases hh with ⟨_, _, hh⟩ | hh | hh | hh <;> (rw [hh] at h ⊢; exact h)
    · rw [hpc]; simp only [pcRank]; omega
  | aidCas level sl pl id =>
    rw [hpc] at hP
    obtain ⟨hi, hs, hid, hid2⟩ := hP
    simp only
    split
    · rename_i h0
      refine good_inner G hk ht (S.setAid F0 h0 hid hid2) ?_ (by rw [hpc]; rfl) ?_ (fun j _ => rfl) ?_ ?_
      · have := PcOK.setAid F0 S h0 hid (pc := .aidLoad level sl pl) ⟨hi, hs⟩
        exact ⟨hi, this.2, rfl, by show 0 < id; omega⟩
      · intro j t _ _ i' h
        exact PcOK.setAid F0 S h0 hid h
      · rw [hpc]; simp only [pcRank]; split <;> omega
      · intro i' pc' h
        refine pcRank_setAid h0 i' pc' ?_
        rintro l' s' p' t' rfl
        have := h.2.2.2
        omega
    · rename_i h0
      refine good_goto G hk ht ⟨hi, hs⟩ (by rw [hpc]; rfl) ?_
      rw [hpc]; simp only [pcRank]
      split
      · omega
      · omega
  | check level sl pl tid =>
    rw [hpc] at hP
    obtain ⟨hi, hs, rfl, ha⟩ := hP
    have hl := hs.le
    have hh2 := (fits hi).1
    simp only
    split
    · rename_i a nd e
      obtain ⟨rfl, hn, hlf⟩ := asLevel_some e
      split
      · rename_i hid
        have hown : OwnedPtr c.st (.ref a) := ⟨ha, a, nd, rfl, hn, hid⟩
        have hcur := hs.own a nd rfl hn hid
        refine good_goto G hk ht ?_ (by rw [hpc]; cases level <;> rfl) ?_
        · cases level with
          | zero =>
            refine ⟨hi, ha, hcur, ?_⟩
            cases nd with
            | inode => simp [Node.isLeaf] at hlf
            | leaf id v =>
              simp only [Node.id] at hid
              subst hid
              exact ⟨v, hn⟩
          | succ l =>
            refine ⟨hi, by omega, ?_⟩
            have e2 : c.st.t.s.height - 1 - l = (c.st.t.s.height - 1 - (l + 1)) + 1 := by omega
            have e3 : l + 1 = c.st.t.s.height - 1 - (c.st.t.s.height - 1 - (l + 1)) := by omega
            rw [e2]
            cases nd with
            | leaf => simp [Node.isLeaf] at hlf
            | inode id ptr =>
              simp only [Node.id] at hid
              subst hid
              have := SlotAt.child (st := c.st) (top := c.st.t.s.height - 1) (i := i) (ptr := ptr) hcur hn
              rw [← e3] at this
              exact this
        · rw [hpc]
          cases level with
          | zero => simp only [afterNode, pcRank]; rw [if_pos hown]; omega
          | succ l => simp only [afterNode, pcRank]; rw [if_pos hown]; split <;> omega
      · rename_i hid
        refine good_goto G hk ht ⟨hi, hs, ha, by omega, freshNode_id _ _, freshNode_isLeaf _ _, nd, hn, hid, hlf,
          fun k hk => absurd hk (by omega)⟩ (by rw [hpc]; rfl) ?_
        rw [hpc]; simp only [pcRank]
        rw [if_neg]
        · omega
        · rintro ⟨_, b, nd', h1, h2, h3⟩
          cases h1
          rw [hn] at h2
          cases h2
          exact hid h3
    · rename_i e
      have hnil := asLevel_none hs.ok e
      have hno : ∀ a, pl ≠ .ref a := by rcases hnil with rfl | ⟨rfl, _⟩ <;> intro a h <;> cases h
      refine good_goto G hk ht ⟨hi, hs, ha, freshNode_id _ _, freshNode_isLeaf _ _, ?_, fun a nd h => absurd h (hno a)⟩
        (by rw [hpc]; rfl) ?_
      · intro k _
        have e1 : childOf c.st.h pl k = .nil := by rcases hnil with rfl | ⟨rfl, _⟩ <;> rfl
        have e2 : leafVal c.st.h pl k = default := by rcases hnil with rfl | ⟨rfl, _⟩ <;> rfl
        rw [e1, e2]
        cases level <;> exact ⟨rfl, rfl⟩
      · rw [hpc]; simp only [pcRank]
        rw [if_neg]
        · omega
        · rintro ⟨_, b, nd', h1, h2, h3⟩
          exact hno b h1
  | copy level sl a j new =>
    rw [hpc] at hP
    obtain ⟨hi, hs, ha, hj, hid, hlf, nd, hn, hnid, hnlf, hagree⟩ := hP
    simp only
    split
    · rename_i hj'
      have hj2 : j < 16 := hj'
      obtain ⟨new', e, e1, e2, e3⟩ := put_spec (j := j) (hlf.trans hnlf.symm)
      simp only [hn, e]
      refine good_goto G hk ht ⟨hi, hs, ha, by omega, e1.trans hid, e2.trans hlf, nd, hn, hnid, hnlf, ?_⟩ (by rw [hpc]; rfl) ?_
      · intro k hk
        rw [(e3 k).1, (e3 k).2]
        by_cases hkj : k = j
        · simp [hkj]
        · rw [if_neg hkj, if_neg hkj]; exact hagree k (by omega)
      · rw [hpc]; simp only [pcRank]; omega
    · rename_i hj'
      have hj2 : ¬ j < 16 := hj'
      refine good_goto G hk ht ⟨hi, hs, ha, hid, hlf, ?_, ?_⟩ (by rw [hpc]; rfl) ?_
      · intro k hk
        have := hagree k (by omega)
        rw [this.1, this.2]
        cases nd <;> simp only [childOf, leafVal, hn, Node.child, Node.elem, and_self]
      · intro b nd' h1 h2
        cases h1
        rw [hn] at h2
        cases h2
        exact hnid
      · rw [hpc]; simp only [pcRank]; omega
  | cas level sl pl new =>
    rw [hpc] at hP
    obtain ⟨hi, hs, ha, hid, hlf, hagree, hnown⟩ := hP
    have hh2 := (fits hi).1
    have hl := hs.le
    have hfit := (fits hi).2
    have hT := F.tree (by omega)
    simp only [hs.slot.load_eq]
    have e : c.st.t.s.height - 1 - (c.st.t.s.height - 1 - level) = level := by omega
    have hok : okAt c.st.h level (c.st.t.s.height - 1 - level)
        (pp c.st.h c.st.t.s.tree (c.st.t.s.height - 1) i (c.st.t.s.height - 1 - level)) := by
      obtain ⟨pos, T⟩ := hT
      have := T.wf i hfit (c.st.t.s.height - 1 - level) (Nat.sub_le _ _)
      rw [e] at this
      exact this
    rw [if_pos (casTypesOK_ok hs.ok hok (by omega) (by omega) hlf)]
    split
    · rename_i hcur
      obtain ⟨st', e1, r, htv, hp', hn'⟩ := install_R (n := new) F.heap hT ⟨ha, F.aid⟩ hfit (Nat.sub_le _ _) hs.slot hid
        (by rw [e]; exact hlf) (by rw [hcur]; exact fun k hk => (hagree k hk).1) (by rw [hcur]; exact fun k hk => (hagree k hk).2)
        (by intro a nd h1 h2; exact hnown a nd (by rw [← hcur, h1]) h2)
      have e1' : St.store { c.st with h := c.st.h.alloc new } sl (.ref c.st.h.next) = some st' := e1
      simp only [e1']
      have S' := S.r F0 ha (by omega) r
      have eh : st'.t.s.height = c.st.t.s.height := by rw [r.t_eq]
      have et : st'.t.s.tlen = c.st.t.s.tlen := by rw [r.t_eq]
      refine good_inner G hk ht S' ?_ ?_ (fun j t _ _ i' h => h.r S (by omega) r) ?_ ?_ (fun i pc h => pcRank_r S ha r h)
      · cases level with
        | zero =>
          simp only [afterNode, PcOK]
          rw [eh, et, r.aid]
          refine ⟨hi, ha, hp', ?_⟩
          cases new with
          | inode => simp [Node.isLeaf] at hlf
          | leaf id v =>
            simp only [Node.id] at hid
            subst hid
            exact ⟨v, hn'⟩
        | succ l =>
          simp only [afterNode, PcOK]
          rw [eh, et]
          refine ⟨hi, by omega, ?_⟩
          have e2 : c.st.t.s.height - 1 - l = (c.st.t.s.height - 1 - (l + 1)) + 1 := by omega
          have e3 : l + 1 = c.st.t.s.height - 1 - (c.st.t.s.height - 1 - (l + 1)) := by omega
          rw [e2]
          cases new with
          | leaf => simp [Node.isLeaf] at hlf
          | inode id ptr =>
            simp only [Node.id] at hid
            subst hid
            have := SlotAt.child (st := st') (top := c.st.t.s.height - 1) (i := i) (ptr := ptr) hp' (by rw [r.aid]; exact hn')
            rw [← e3] at this
            exact this
      · rw [hpc]; cases level <;> rfl
      · intro j hj
        unfold ev
        rw [et, eh]
        by_cases hjt : j < c.st.t.s.tlen
        · rw [if_pos hjt, if_pos hjt]; exact htv j (F.readable.fits hjt).2
        · rw [if_neg hjt, if_neg hjt, r.arr, r.t_eq]
      · rw [hpc]
        cases level with
        | zero => simp only [afterNode, pcRank]; omega
        | succ l => simp only [afterNode, pcRank]; split <;> omega
    · rename_i hcur
      refine good_goto G hk ht ⟨hi, hl, hs.slot⟩ (by rw [hpc]; rfl) ?_
      rw [hpc]; simp only [pcRank]
      rw [if_pos]
      · omega
      · rcases hs.cur with h | h
        · exact absurd h hcur
        · exact h
  | leafStore a =>
    rw [hpc] at hP
    obtain ⟨hi, ha, hp, val, hn⟩ := hP
    have hh2 := (fits hi).1
    obtain ⟨st', e1, r, htv⟩ := leafWrite_spec F.heap (F.tree (by omega)) (fits hi).2 hp hn (fun v k => if k = i % 16 then x else v k)
    simp only [e1]
    have S' := S.r F0 ha (by omega) r
    have eh : st'.t.s.height = c.st.t.s.height := by rw [r.t_eq]
    have et : st'.t.s.tlen = c.st.t.s.tlen := by rw [r.t_eq]
    refine good_finish G D hk ht S' (by rw [hpc]; rfl) (fun j t _ _ i' h => h.r S (by omega) r) ?_ ?_ (fun i pc h => pcRank_r S ha r h)
    · intro j hj
      unfold ev
      rw [et, eh]
      by_cases hjt : j < c.st.t.s.tlen
      · rw [if_pos hjt, if_pos hjt, htv j (F.readable.fits hjt).2]
        by_cases hd : j / 16 = i / 16
        · rw [if_pos hd]
          by_cases hji : j = i
          · rw [hji]; simp
          · rw [if_neg hji, if_neg (by omega)]
            have hpj : pp c.st.h c.st.t.s.tree (c.st.t.s.height - 1) j (c.st.t.s.height - 1) =
                pp c.st.h c.st.t.s.tree (c.st.t.s.height - 1) i (c.st.t.s.height - 1) :=
              pp_pfx (n := 1) (Nat.le_refl _) (by omega) (by simpa using hd)
            unfold tv
            rw [hpj, hp]
            simp only [leafVal, hn]
        · rw [if_neg hd, if_neg (by intro h; rw [h] at hd; exact hd rfl)]
      · rw [if_neg hjt, if_neg hjt, if_neg (by omega), r.arr, r.t_eq]
    · rw [hpc]; simp only [pcRank]; omega
  | tailLoad =>
    rw [hpc] at hP
    simp only
    split
    · rename_i hw
      exact good_goto G hk ht ⟨hP, hw⟩ (by rw [hpc]; rfl) (by rw [hpc]; simp only [pcRank]; omega)
    · exact good_goto G hk ht hP (by rw [hpc]; rfl) (by rw [hpc]; simp only [pcRank]; omega)
  | tailLock =>
    rw [hpc] at hP
    simp only
    cases hmu : c.mu with
    | some m => exact ⟨hpc, by rw [hmu]; simp⟩
    | none =>
      refine ⟨G.upd hk S ?_ (fun _ _ _ _ _ h => h) ?_ (.inr (.inl ⟨hmu, rfl⟩)) rfl ?_, ?_, fun _ _ _ _ => Nat.le_refl _⟩
      · unfold ThOK; simp only [ht]; exact hP
      · simp [Pc.holds]
      · intro j hj
        rw [written_same hk (by rfl)]
        exact G.cont j hj
      · unfold thRank
        simp only [ht, hpc, pcRank]
        omega
  | tailCheck =>
    rw [hpc] at hP
    simp only
    split
    · rename_i hw
      exact good_goto G hk ht ⟨hP, hw⟩ (by rw [hpc]; rfl) (by rw [hpc]; simp only [pcRank]; omega)
    · rename_i hw
      exact good_goto G hk ht ⟨hP, by simpa using hw, Nat.zero_le _, fun k hk => absurd hk (by omega)⟩ (by rw [hpc]; rfl)
        (by rw [hpc]; simp only [pcRank]; omega)
  | tailCopy j new =>
    rw [hpc] at hP
    obtain ⟨hi, hw, hj, hagree⟩ := hP
    have hmine : c.mu = some k := (G.mu k th hk).1 (by rw [hpc]; rfl)
    simp only
    split
    · rename_i hj'
      refine good_goto G hk ht ⟨hi, hw, by omega, ?_⟩ (by rw [hpc]; rfl) (by rw [hpc]; simp only [pcRank]; omega)
      intro m hm
      by_cases hmj : m = j
      · simp [hmj]
      · simp only [if_neg hmj]; exact hagree m (by omega)
    · rename_i hj'
      have e : SameTree c.st
          (⟨{ c.st.h with arr := fun b => if b = c.st.h.nextArr then new else c.st.h.arr b, nextArr := c.st.h.nextArr + 1 },
            c.st.t.setTail ⟨c.st.h.nextArr, c.st.t.s.tail.len, chunk⟩⟩ : St α) := ⟨rfl, Nat.le_refl _, rfl, rfl, rfl, rfl⟩
      refine good_inner G hk ht (S.newTail hw new) ⟨hi, hw, rfl, S.nextArr⟩ (by rw [hpc]; rfl) ?_ (fun m hm => ev_sameTree e m ?_)
        ?_ (fun i pc _ => Nat.le_of_eq (pcRank_sameTree e i pc))
      · intro m t hmk htm i' h
        refine h.sameTree e (fun hh => ?_)
        have hno : t.pc.holds = true → False := by
          intro ho
          have := (G.mu m t htm).1 ho
          rw [hmine] at this
          cases this
          exact hmk rfl
        rcases hh with ⟨_, _, hh⟩ | hh | hh | hh
        · exact absurd (by rw [hh]; rfl) hno
        · exact absurd (by rw [hh]; rfl) hno
        · exact absurd (by rw [hh]; rfl) hno
        · rw [hh] at h
          have := h.2
          rw [hw] at this
          cases this
      · intro hm2
        show (if c.st.h.nextArr = c.st.h.nextArr then new else _) (m - c.st.t.s.tlen) = _
        rw [if_pos rfl]
        exact hagree (m - c.st.t.s.tlen) (by omega)
      · rw [hpc]; simp only [pcRank]; omega
  | tailFlag =>
    rw [hpc] at hP
    obtain ⟨hi, hw, hc, hb⟩ := hP
    have hmine : c.mu = some k := (G.mu k th hk).1 (by rw [hpc]; rfl)
    have e : SameTree c.st { c.st with t := { c.st.t with wtail := true } } := ⟨rfl, Nat.le_refl _, rfl, rfl, rfl, rfl⟩
    have hb0 := F0.base
    refine good_inner G hk ht (S.flag hc hb (by omega) hw) ⟨hi, rfl⟩ (by rw [hpc]; rfl) ?_ (fun m hm => rfl)
      ?_ (fun i pc _ => Nat.le_of_eq (pcRank_sameTree e i pc))
    · intro m t hmk htm i' h
      refine h.sameTree e (fun hh => ?_)
      have hno : t.pc.holds = true → False := by
        intro ho
        have := (G.mu m t htm).1 ho
        rw [hmine] at this
        cases this
        exact hmk rfl
      rcases hh with ⟨_, _, hh⟩ | hh | hh | hh
      · exact absurd (by rw [hh]; rfl) hno
      · exact absurd (by rw [hh]; rfl) hno
      · exact absurd (by rw [hh]; rfl) hno
      · rw [hh] at h
        have := h.2
        rw [hw] at this
        cases this
    · rw [hpc]; simp only [pcRank]; omega
  | tailUnlock =>
    rw [hpc] at hP
    have hmine : c.mu = some k := (G.mu k th hk).1 (by rw [hpc]; rfl)
    refine ⟨G.upd hk S ?_ (fun _ _ _ _ _ h => h) ?_ (.inr (.inr ⟨hmine, rfl⟩)) rfl ?_, ?_, fun _ _ _ _ => Nat.le_refl _⟩
    · unfold ThOK; simp only [ht]; exact hP
    · simp [Pc.holds]
    · intro j hj
      rw [written_same hk (by rfl)]
      exact G.cont j hj
    · unfold thRank
      simp only [ht, hpc, pcRank]
      omega
  | tailStore =>
    rw [hpc] at hP
    obtain ⟨hi, hw⟩ := hP
    simp only
    rw [if_pos (by omega)]
    have e : SameTree c.st (c.st.tailWrite (fun v k => if k = i % 16 then x else v k)) := ⟨rfl, Nat.le_refl _, rfl, rfl, rfl, rfl⟩
    refine good_finish G D hk ht (S.tailWrite hw _) (by rw [hpc]; rfl) ?_ ?_ (by rw [hpc]; simp only [pcRank]; omega)
      (fun i pc _ => Nat.le_of_eq (pcRank_sameTree e i pc))
    · intro m t hmk htm i' h
      refine h.sameTree e (fun hh => ?_)
      rcases hh with ⟨_, _, hh⟩ | hh | hh | hh
      · rw [hh] at h
        have := h.2.1
        rw [hw] at this
        cases this
      · rw [hh] at h
        have := h.2.1
        rw [hw] at this
        cases this
      · rw [hh] at h ⊢; exact h
      · rw [hh] at h ⊢; exact h
    · intro j hj
      by_cases hjt : j < c.st.t.s.tlen
      · rw [if_neg (by omega)]
        exact ev_sameTree e j (fun h => absurd hjt h)
      · unfold ev
        have e1 : (c.st.tailWrite (fun v k => if k = i % 16 then x else v k)).t = c.st.t := rfl
        rw [e1, if_neg hjt, if_neg hjt]
        simp only [St.tailWrite, if_true]
        by_cases hji : j = i
        · rw [if_pos hji, if_pos (by omega)]
        · rw [if_neg hji, if_neg (by omega)]

end
end Verif.Persist
