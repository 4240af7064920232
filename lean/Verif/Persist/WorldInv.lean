import Verif.Persist.Api
import Verif.Persist.Spec
/-
Helper lemmas: the global ownership invariant and its preservation by every call.
-/
namespace Verif.Persist
variable {α : Type} [Inhabited α]

/-- The invariant of a whole program state. -/
structure WI (w : World α) : Prop where
  heap : HeapInv w.h
  arr0 : 0 < w.h.nextArr
  slice : ∀ s, s ∈ w.slices → Readable w.h s ∧ s.tail.base < w.h.nextArr ∧ s.tail.len ≤ s.tail.cap
  tr : ∀ (k : Nat) t, w.trans[k]? = some t → Full ⟨w.h, t⟩
  iso1 : ∀ (k : Nat) t, w.trans[k]? = some t → t.aid ≠ 0 → ∀ s, s ∈ w.slices → AvoidS w.h t.aid s
  iso2 : ∀ (j k : Nat) t u, j ≠ k → w.trans[j]? = some t → w.trans[k]? = some u → t.aid ≠ 0 →
    AvoidS w.h t.aid u.s ∧ u.aid ≠ t.aid
  tail1 : ∀ (k : Nat) t, w.trans[k]? = some t → t.wtail = true → ∀ s, s ∈ w.slices → s.tail.base ≠ t.s.tail.base
  tail2 : ∀ (j k : Nat) t u, j ≠ k → w.trans[j]? = some t → w.trans[k]? = some u → t.wtail = true →
    u.s.tail.base ≠ t.s.tail.base

/-- A slice whose storage is untouched by an operation. -/
structure Untouched (st st' : St α) (s : Slice) : Prop where
  readable : Readable st'.h s
  ev : ∀ j, j < s.len → ev st'.h s j = ev st.h s j
  base : s.tail.base < st'.h.nextArr
  avoid : ∀ tid, AvoidS st.h tid s → AvoidS st'.h tid s
  tree : ∀ tid, (s.height ≠ 0 → ∃ pos, TreeInv st.h tid pos s.tree (s.height - 1)) →
    (s.height ≠ 0 → ∃ pos, TreeInv st'.h tid pos s.tree (s.height - 1))

/-- What an operation, or several concurrent ones, of the owner `tid` may do outside its own transient. -/
structure FrameT (tid : Nat) (st st' : St α) : Prop where
  own : (st.t.aid = 0 ∧ st.h.lastId < tid) ∨ (st.t.aid ≠ 0 ∧ tid = st.t.aid)
  ext : Ext tid st.h st'.h
  aid : st'.t.aid = tid ∨ (st'.t.aid = 0 ∧ st.t.aid = 0)
  arr : ∀ c, c < st.h.nextArr → (st.t.wtail = true → c ≠ st.t.s.tail.base) → st'.h.arr c = st.h.arr c
  nextArr : st.h.nextArr ≤ st'.h.nextArr
  base : (st'.t.s.tail.base = st.t.s.tail.base ∧ st'.t.wtail = st.t.wtail) ∨
    (st.h.nextArr ≤ st'.t.s.tail.base)
  avoid : ∀ tid', tid' ≠ tid → tid' ≤ st.h.lastId → AvoidS st.h tid' st.t.s → AvoidS st'.h tid' st'.t.s

theorem Frame.toT {st st' : St α} (F : Frame st st') : FrameT (tidOf st) st st' := by
  refine ⟨?_, F.ext, ?_, F.arr, F.nextArr, F.base, fun tid' h _ => F.avoid tid' h⟩
  · unfold tidOf
    by_cases h : st.t.aid = 0
    · rw [if_pos h]; exact .inl ⟨h, Nat.lt_succ_self _⟩
    · rw [if_neg h]; exact .inr ⟨h, rfl⟩
  · rcases F.aid with h | ⟨h1, h2, _⟩
    · exact .inl h
    · exact .inr ⟨h1, h2⟩

theorem untouched {tid : Nat} {st st' : St α} (F : FrameT tid st st') {s : Slice} (r : Readable st.h s)
    (hb : s.tail.base < st.h.nextArr) (hav : AvoidS st.h tid s)
    (ht : st.t.wtail = true → s.tail.base ≠ st.t.s.tail.base) : Untouched st st' s := by
  have hpp : s.height ≠ 0 → ∀ i, i < 16 ^ (s.height - 1 + 1) → ∀ k, k ≤ s.height - 1 →
      pp st'.h s.tree (s.height - 1) i k = pp st.h s.tree (s.height - 1) i k :=
    fun hh i hi => pp_ext F.ext (fun k hk => r.wf hh i hi k hk) (fun k hk => hav hh i hi k hk)
  have hnode : s.height ≠ 0 → ∀ i, i < 16 ^ (s.height - 1 + 1) → ∀ k, k ≤ s.height - 1 → ∀ a nd,
      pp st.h s.tree (s.height - 1) i k = .ref a → st'.h.node a = some nd → st.h.node a = some nd := by
    intro hh i hi k hk a nd hp hn
    rcases r.wf hh i hi k hk with w | ⟨w, _⟩ | ⟨b, nb, w, hb, _⟩
    · rw [w] at hp; cases hp
    · rw [w] at hp; cases hp
    · rw [w] at hp
      cases hp
      have := F.ext.keep _ _ hb (hav hh i hi k hk _ _ w hb)
      rw [this] at hn
      cases hn
      exact hb
  refine ⟨⟨⟨r.shape.height, r.shape.mod, fun hh k hk => ?_⟩, fun hh i hi k hk => ?_, r.len⟩, fun j hj => ?_,
    Nat.lt_of_lt_of_le hb F.nextArr, fun tid ha hh i hi k hk a nd hp hn => ?_, fun tid hT hh => ?_⟩
  · rw [hpp hh 0 (pow16_pos _) k hk]
    exact r.shape.left hh k hk
  · rw [hpp hh i hi k hk]
    exact okAt_ext F.ext (r.wf hh i hi k hk)
  · unfold Verif.Persist.ev
    by_cases hjt : j < s.tlen
    · rw [if_pos hjt, if_pos hjt]
      obtain ⟨h2, hfit⟩ := r.fits hjt
      exact tv_ext F.ext (fun k hk => r.wf (by omega) j hfit k hk) (fun k hk => hav (by omega) j hfit k hk)
    · rw [if_neg hjt, if_neg hjt, F.arr _ hb ht]
  · rw [hpp hh i hi k hk] at hp
    exact ha hh i hi k hk a nd hp (hnode hh i hi k hk a nd hp hn)
  · obtain ⟨pos, T⟩ := hT hh
    refine ⟨pos, fun i hi k hk => ?_, fun i hi k hk a nd hp hn hid => ?_⟩
    · rw [hpp hh i hi k hk]
      exact okAt_ext F.ext (T.wf i hi k hk)
    · rw [hpp hh i hi k hk] at hp
      exact T.pos i hi k hk a nd hp (hnode hh i hi k hk a nd hp hn) hid

/-- Nothing carries an id that has not been handed out yet. -/
theorem avoidS_fresh {h : Heap α} (HI : HeapInv h) (s : Slice) {tid : Nat} (ht : h.lastId < tid) : AvoidS h tid s := by
  intro _ i _ k _ a nd _ hn he
  have := HI.idle _ _ hn
  omega

/-- One transient operation, or several concurrent ones, inside a program. -/
theorem onTransT_inv {w : World α} (I : WI w) {k : Nat} {t : Trans} (hk : w.trans[k]? = some t) {st' : St α} {tid : Nat}
    (F' : Full st') (Fr : FrameT tid ⟨w.h, t⟩ st') :
    WI { w with h := st'.h, trans := w.trans.set k st'.t } ∧
    (∀ s, s ∈ w.slices → Untouched ⟨w.h, t⟩ st' s) ∧
    (∀ (j : Nat) u, j ≠ k → w.trans[j]? = some u → Untouched ⟨w.h, t⟩ st' u.s) := by
  have hav1 : ∀ s, s ∈ w.slices → AvoidS w.h tid s := by
    intro s hs
    rcases Fr.own with ⟨_, h⟩ | ⟨h0, rfl⟩
    · exact avoidS_fresh I.heap s h
    · exact I.iso1 k t hk h0 s hs
  have hav2 : ∀ (j : Nat) u, j ≠ k → w.trans[j]? = some u → AvoidS w.h tid u.s ∧ u.aid ≠ tid := by
    intro j u hj hu
    rcases Fr.own with ⟨_, h⟩ | ⟨h0, rfl⟩
    · refine ⟨avoidS_fresh I.heap u.s h, ?_⟩
      have := (I.tr j u hu).aid
      simp only at this h
      omega
    · exact I.iso2 k j t u (Ne.symm hj) hk hu h0
  have U1 : ∀ s, s ∈ w.slices → Untouched ⟨w.h, t⟩ st' s := fun s hs =>
    untouched Fr (I.slice s hs).1 (I.slice s hs).2.1 (hav1 s hs) (fun hw => I.tail1 k t hk hw s hs)
  have U2 : ∀ (j : Nat) u, j ≠ k → w.trans[j]? = some u → Untouched ⟨w.h, t⟩ st' u.s := fun j u hj hu =>
    untouched Fr (I.tr j u hu).readable (I.tr j u hu).base (hav2 j u hj hu).1
      (fun hw => I.tail2 k j t u (Ne.symm hj) hk hu hw)
  have hklt : k < w.trans.length := by
    by_cases h : k < w.trans.length
    · exact h
    · rw [List.getElem?_eq_none (by omega)] at hk; cases hk
  have hget : ∀ (j : Nat) u, (w.trans.set k st'.t)[j]? = some u → (j = k ∧ u = st'.t) ∨ (j ≠ k ∧ w.trans[j]? = some u) := by
    intro j u hu
    rw [List.getElem?_set] at hu
    split at hu
    · rename_i e
      cases hu
      exact .inl ⟨e.symm, rfl⟩
    · rename_i e
      exact .inr ⟨fun h => e h.symm, hu⟩
  have hbase : ∀ b, b < w.h.nextArr → (t.wtail = true → b ≠ t.s.tail.base) → st'.t.wtail = true →
      b ≠ st'.t.s.tail.base := by
    intro b hb hne hw
    rcases Fr.base with ⟨h1, h2⟩ | h
    · rw [h1]; exact hne (by rw [← hw, h2])
    · simp only at h; omega
  refine ⟨⟨F'.heap, Nat.lt_of_lt_of_le I.arr0 Fr.nextArr, ?_, ?_, ?_, ?_, ?_, ?_⟩, U1, U2⟩
  · intro s hs
    exact ⟨(U1 s hs).readable, (U1 s hs).base, (I.slice s hs).2.2⟩
  · intro j u hu
    rcases hget j u hu with ⟨_, rfl⟩ | ⟨hj, hu⟩
    · exact F'
    · have := I.tr j u hu
      have U := U2 j u hj hu
      exact ⟨⟨F'.heap, Nat.le_trans this.aid Fr.ext.lastId, this.h2, U.tree u.aid this.tree, U.base, this.wt, this.cap, this.tl,
        this.len⟩, U.readable.shape⟩
  · intro j u hu h0 s hs
    rcases hget j u hu with ⟨_, rfl⟩ | ⟨hj, hu⟩
    · rcases Fr.aid with h | ⟨h, _⟩
      · rw [h]
        exact (U1 s hs).avoid _ (hav1 s hs)
      · exact absurd h h0
    · exact (U1 s hs).avoid _ (I.iso1 j u hu h0 s hs)
  · intro i j u v hij hu hv h0
    rcases hget i u hu with ⟨rfl, rfl⟩ | ⟨hi, hu2⟩
    · rcases hget j v hv with ⟨rfl, rfl⟩ | ⟨hj, hv⟩
      · exact absurd rfl hij
      · rcases Fr.aid with h | ⟨h, _⟩
        · rw [h]
          exact ⟨(U2 j v hj hv).avoid _ (hav2 j v hj hv).1, (hav2 j v hj hv).2⟩
        · exact absurd h h0
    · rcases hget j v hv with ⟨rfl, rfl⟩ | ⟨hj, hv⟩
      · have h1 := I.iso2 i j u t hij hu2 hk h0
        have h2 := hav2 i u hij hu2
        refine ⟨Fr.avoid _ h2.2 (I.tr i u hu2).aid h1.1, ?_⟩
        rcases Fr.aid with h | ⟨h, _⟩
        · rw [h]; exact fun e => h2.2 e.symm
        · rw [h]; exact fun e => h0 e.symm
      · have h1 := I.iso2 i j u v hij hu2 hv h0
        exact ⟨(U2 j v hj hv).avoid _ h1.1, h1.2⟩
  · intro j u hu hw s hs
    rcases hget j u hu with ⟨_, rfl⟩ | ⟨hj, hu⟩
    · exact hbase _ (I.slice s hs).2.1 (fun hw => I.tail1 k t hk hw s hs) hw
    · exact I.tail1 j u hu hw s hs
  · intro i j u v hij hu hv hw
    rcases hget i u hu with ⟨rfl, rfl⟩ | ⟨hi, hu2⟩
    · rcases hget j v hv with ⟨rfl, rfl⟩ | ⟨hj, hv⟩
      · exact absurd rfl hij
      · exact hbase _ (I.tr j v hv).base (fun hw => I.tail2 i j t v hij hk hv hw) hw
    · rcases hget j v hv with ⟨rfl, rfl⟩ | ⟨hj, hv⟩
      · have := I.tail2 i j u t hij hu2 hk hw
        rcases Fr.base with ⟨h1, _⟩ | h
        · rw [h1]; exact this
        · have h3 := (I.tr i u hu2).base
          simp only at h h3
          omega
      · exact I.tail2 i j u v hij hu2 hv hw

/-- One transient operation inside a program. -/
theorem onTrans_inv {w : World α} (I : WI w) {k : Nat} {t : Trans} (hk : w.trans[k]? = some t) {st' : St α}
    (F' : Full st') (Fr : Frame ⟨w.h, t⟩ st') :
    WI { w with h := st'.h, trans := w.trans.set k st'.t } ∧
    (∀ s, s ∈ w.slices → Untouched ⟨w.h, t⟩ st' s) ∧
    (∀ (j : Nat) u, j ≠ k → w.trans[j]? = some u → Untouched ⟨w.h, t⟩ st' u.s) := onTransT_inv I hk F' Fr.toT

end Verif.Persist
