import Verif.Arr.EvalLemmas4

namespace Verif.Arr
variable {α σ τ : Type}

/-! ## Shapes of elementwise operators -/

theorem isScalar_iff (s : List Nat) : isScalarShape s = true ↔ Ones s := by
  simp [isScalarShape, Ones, List.all_eq_true]

theorem isVector_iff (u s : List Nat) : isVectorShape u s = true ↔ ∃ n, u.head? = some n ∧ s.getLast? = some n ∧ Ones (u.drop 1) := by
  cases u with
  | nil => simp [isVectorShape]
  | cons a u =>
    rcases List.eq_nil_or_concat s with rfl | ⟨s0, b, rfl⟩
    · simp [isVectorShape]
    · simp [isVectorShape, Ones, List.all_eq_true]
      intro _
      exact eq_comm

/-- `p` finds in the data of `u` the element to use. -/
def Src (u : V α) (s : List Nat) (p : Nat → Nat) : Prop := ∀ c, InB s c → u.data[p (ravel s c)]? = u.src c

theorem src_same {u : V α} {s : List Nat} (h : u.shape = s) : Src u s id := by
  intro c hc
  unfold V.src
  rw [h, inB_length hc, Nat.sub_self, List.drop_zero, at_data (by rw [h]; exact hc), h]
  rfl

theorem src_ones {u : V α} {s : List Nat} (h : u.shape = s) (ho : Ones s) : Src u s (fun _ => 0) := by
  intro c hc
  have : ravel s c = 0 := by
    have h1 := ravel_lt hc
    have : vol s = 1 := by
      clear h1 hc h
      induction s with
      | nil => rfl
      | cons d s ih => rw [vol, ih (fun x hx => ho x (by simp [hx])), ho d (by simp)]
    omega
  have h2 := src_same h c hc
  rw [this] at h2
  exact h2

theorem src_elem {x : α} {s : List Nat} : Src (.elem x) s (fun _ => 0) := by
  intro c _
  simp [V.src, V.shape, V.data, V.at, InB, ravel]

theorem src_vec {l : List α} {s0 : List Nat} : Src (.vec l) (s0 ++ [l.length]) (fun k => k % l.length) := by
  intro c hc
  obtain ⟨c', i, rfl, h1, h2⟩ := inB_split hc
  have hi : InB (V.vec l).shape [i] := ⟨h2, trivial⟩
  unfold V.src
  rw [show (V.vec l).shape.length = 1 from rfl, List.length_append, List.length_singleton, Nat.add_sub_cancel, List.drop_left, at_data hi]
  show (V.vec l).data[ravel (s0 ++ [l.length]) (c' ++ [i]) % l.length]? = _
  rw [ravel_snoc s0 c' _ i (inB_length h1), Nat.add_comm, Nat.add_mul_mod_self_right, Nat.mod_eq_of_lt h2]
  simp [V.data, V.shape, ravel, vol]

theorem src_vec1 {l : List α} {s0 : List Nat} (h : l.length = 1) : Src (.vec l) (s0 ++ [l.length]) (fun _ => 0) := by
  intro c hc
  have := src_vec c hc
  simp only [h, Nat.mod_one] at this
  rw [h]
  exact this

/-- What the loops of an elementwise operator amount to. -/
theorem elementwise_core [Wide α] (S : Sched) (f : α → α → R α) {u v : V α} (hu : u.Ok) (hv : v.Ok) (pu : u.Plain) (pv : v.Plain) {s : List Nat}
    (eu : u.Extends s) (ev : v.Extends s) (hs : u.shape = s ∨ v.shape = s) (hne : s ≠ [])
    (hbug : ¬ (v.shape ≠ s ∧ Ones u.shape ∧ 2 ≤ u.shape.length)) :
    ∃ p q, elementwise S f u v = ((zipData S f u.data v.data p q (vol s)).bind fun t =>
      if s.length = 1 then R.ok (V.vec t) else (newMatrix s t).bind fun r => R.ok (V.mat r)) ∧ Src u s p ∧ Src v s q := by
  by_cases hm : u.isMat = true ∨ v.isMat = true
  · obtain ⟨mu, e1, o1, d1, s1, _⟩ := toMat_any hu
    obtain ⟨mv, e2, o2, d2, s2, _⟩ := toMat_any hv
    have hmodel : elementwise S f u v = (binaryMat S f mu mv).bind fun r => .ok (.mat r) := by
      have : elementwise S f u v = if u.isMat ∨ v.isMat then u.toMat.bind fun u => v.toMat.bind fun v => (binaryMat S f u v).bind fun r => .ok (.mat r)
          else u.toVec.bind fun u => v.toVec.bind fun v => (binaryVec S f u v).bind fun r => .ok (.vec r) := by
        unfold elementwise
        cases u <;> cases v <;> first | rfl | (simp [V.isMat] at hm)
      rw [this, if_pos hm, e1, bind_ok, e2, bind_ok]
    -- a matrix has the shape of the result
    have ext : ∀ w : V α, w.Plain → w.Extends s → w.isMat = true → w.shape = s ∧ 2 ≤ s.length := by
      intro w hp he hw
      have h2 := hp.mp hw
      rcases he with h | h | h
      · exact ⟨h, by rw [← h]; exact h2⟩
      · rw [h] at h2; simp at h2
      · omega
    have hs2 : 2 ≤ s.length := by
      rcases hm with h | h
      · exact (ext u pu eu h).2
      · exact (ext v pv ev h).2
    have small : ∀ w : V α, w.Plain → w.Extends s → w.shape ≠ s → (∃ x, w = .elem x) ∨ ∃ l s0, w = .vec l ∧ s = s0 ++ [l.length] := by
      intro w hp he hw
      cases w with
      | elem x => exact .inl ⟨x, rfl⟩
      | vec l =>
        rcases he with h | h | ⟨_, s0, h⟩
        · exact absurd h hw
        · simp [V.shape] at h
        · exact .inr ⟨l, s0, rfl, h⟩
      | mat m => exact absurd (ext _ hp he rfl).1 hw
    have full : ∀ w : V α, ∀ m : Mat α, w.Plain → w.shape = s → (m.shape = w.promote.shape ∨ w.shape = [] ∧ m.shape = [1, 1]) → m.shape = s := by
      intro w m hp hw h
      replace h := h.resolve_right (fun h => hne (hw.symm.trans h.1))
      cases w with
      | elem x => rw [← hw] at hne; simp [V.shape] at hne
      | vec l => exact h.trans hw
      | mat m' => exact h.trans hw
    rw [hmodel]
    unfold binaryMat
    rw [← d1, ← d2]
    have fin : ∀ (t : R (List α)), ((t.bind (newMatrix s)).bind fun r => R.ok (V.mat r)) =
        t.bind fun t => if s.length = 1 then R.ok (V.vec t) else (newMatrix s t).bind fun r => R.ok (V.mat r) := by
      intro t
      rw [bind_assoc]; congr 1; funext x; rw [if_neg (by omega)]
    by_cases hus : u.shape = s
    · have m1 : mu.shape = s := full u mu pu hus s1
      have l1 : mu.data.length = vol s := by rw [o1.1.len, m1]
      by_cases hvs : v.shape = s
      · have m2 : mv.shape = s := full v mv pv hvs s2
        have l2 : mv.data.length = vol s := by rw [o2.1.len, m2]
        rw [m1, m2, l1, l2]
        by_cases ho : Ones s
        · rw [if_pos ((isScalar_iff s).mpr ho)]
          exact ⟨_, _, fin _, src_ones hus ho, src_same hvs⟩
        · have hnv : ¬ isVectorShape s s = true := by
            rw [isVector_iff]
            rintro ⟨n, h1, h2, h3⟩
            apply ho
            match s, hs2 with
            | a :: b :: r, _ =>
              have hn : n ∈ (b :: r) := by
                rw [List.getLast?_cons_cons] at h2
                exact List.mem_of_getLast? h2
              have h4 := h3 n (by simpa using hn)
              simp at h1
              intro d hd
              rcases List.mem_cons.mp hd with rfl | hd
              · omega
              · exact h3 d (by simpa using hd)
          rw [if_neg (by rw [isScalar_iff]; exact ho), if_neg (by rw [isScalar_iff]; exact ho), if_neg hnv, if_neg hnv, if_neg (by simp)]
          exact ⟨_, _, fin _, src_same hus, src_same hvs⟩
      · have hno : ¬ Ones s := by
          intro ho
          exact hbug ⟨hvs, by rw [hus]; exact ho, by rw [hus]; exact hs2⟩
        rw [m1, l1, if_neg (by rw [isScalar_iff]; exact hno)]
        rcases small v pv ev hvs with ⟨x, rfl⟩ | ⟨l, s0, rfl, hl⟩
        · rw [if_pos (by rcases s2 with h | h
                         · rw [show mv.shape = [1] from h]; decide
                         · rw [h.2]; decide)]
          exact ⟨_, _, fin _, src_same hus, src_elem⟩
        · have m2 : mv.shape = [l.length] := s2.resolve_right (fun h => by simp [V.shape] at h)
          rw [m2]
          by_cases h1 : l.length = 1
          · rw [if_pos (by rw [h1]; decide)]
            exact ⟨_, _, fin _, src_same hus, by rw [hl]; exact src_vec1 h1⟩
          · rw [if_neg (by rw [isScalar_iff]; intro h; exact h1 (h _ (by simp))), if_neg (by
              rw [isVector_iff]
              rintro ⟨n, h2, h3, h4⟩
              simp at h3
              apply h1
              apply h4
              rw [hl]
              rcases s0 with _ | ⟨a, s0⟩
              · rw [hl] at hs2; simp at hs2
              · simp), if_pos (by
              rw [isVector_iff]
              exact ⟨l.length, rfl, by rw [hl]; simp, by simp [Ones]⟩)]
            exact ⟨_, _, fin _, src_same hus, by rw [hl]; exact src_vec⟩
    · have hvs : v.shape = s := hs.resolve_left hus
      have m2 : mv.shape = s := full v mv pv hvs s2
      have l2 : mv.data.length = vol s := by rw [o2.1.len, m2]
      rw [m2, l2]
      rcases small u pu eu hus with ⟨x, rfl⟩ | ⟨l, s0, rfl, hl⟩
      · rw [if_pos (by rcases s1 with h | h
                       · rw [show mu.shape = [1] from h]; decide
                       · rw [h.2]; decide)]
        exact ⟨_, _, fin _, src_elem, src_same hvs⟩
      · have m1 : mu.shape = [l.length] := s1.resolve_right (fun h => by simp [V.shape] at h)
        rw [m1]
        by_cases h1 : l.length = 1
        · rw [if_pos (by rw [h1]; decide)]
          exact ⟨_, _, fin _, by rw [hl]; exact src_vec1 h1, src_same hvs⟩
        · rw [if_neg (by rw [isScalar_iff]; intro h; exact h1 (h _ (by simp))), if_neg (by
            rw [isScalar_iff]; intro h; exact h1 (h _ (by rw [hl]; simp))), if_pos (by
            rw [isVector_iff]
            exact ⟨l.length, rfl, by rw [hl]; simp, by simp [Ones]⟩)]
          exact ⟨_, _, fin _, by rw [hl]; exact src_vec, src_same hvs⟩
  · have hmu : ¬ u.isMat = true := fun h => hm (.inl h)
    have hmv : ¬ v.isMat = true := fun h => hm (.inr h)
    obtain ⟨e1, p1⟩ := toVec_eq hmu
    obtain ⟨e2, p2⟩ := toVec_eq hmv
    have hs1 : s.length = 1 := by
      have key : ∀ w : V α, ¬ w.isMat = true → w.shape = s → s.length = 1 := by
        intro w hw h
        cases w with
        | elem x => rw [← h] at hne; simp [V.shape] at hne
        | vec l => rw [← h]; rfl
        | mat m => exact absurd rfl hw
      rcases hs with h | h
      · exact key u hmu h
      · exact key v hmv h
    obtain ⟨n, rfl⟩ : ∃ n, s = [n] := by
      match s, hs1 with
      | [n], _ => exact ⟨n, rfl⟩
    have hvol : vol [n] = n := by simp [vol]
    have kind : ∀ w : V α, ¬ w.isMat = true → w.Extends [n] → (∃ x, w = .elem x) ∨ ∃ l, w = .vec l ∧ l.length = n := by
      intro w hw he
      cases w with
      | elem x => exact .inl ⟨x, rfl⟩
      | vec l =>
        refine .inr ⟨l, rfl, ?_⟩
        rcases he with h | h | ⟨_, s0, h⟩
        · simpa [V.shape] using h
        · simp [V.shape] at h
        · rcases s0 with _ | ⟨a, s0⟩
          · simp [V.shape] at h; exact h.symm
          · simp [V.shape] at h
      | mat m => exact absurd rfl hw
    have hmodel : elementwise S f u v = (binaryVec S f u.data v.data).bind fun t => .ok (.vec t) := by
      have : (∃ x, u = .elem x) ∧ (∃ y, v = .elem y) ∨ elementwise S f u v =
          if u.isMat ∨ v.isMat then u.toMat.bind fun u => v.toMat.bind fun v => (binaryMat S f u v).bind fun r => .ok (.mat r)
          else u.toVec.bind fun u => v.toVec.bind fun v => (binaryVec S f u v).bind fun r => .ok (.vec r) := by
        unfold elementwise
        cases u <;> cases v <;> first | exact .inr rfl | exact .inl ⟨⟨_, rfl⟩, ⟨_, rfl⟩⟩
      rcases this with ⟨⟨x, rfl⟩, ⟨y, rfl⟩⟩ | h
      · simp [V.shape] at hs
      · rw [h, if_neg hm, e1, bind_ok, e2, bind_ok]
    rw [hmodel]
    simp only [hs1, if_true]
    unfold binaryVec
    have one : ∀ l : List α, l.length = 1 → l.length = n → Src (.vec l) [n] (fun _ => 0) := by
      intro l h1 h2
      subst h2
      exact src_vec1 (s0 := []) h1
    have same : ∀ l : List α, l.length = n → Src (.vec l) [n] id := fun l h => src_same (by rw [← h]; rfl)
    have dv : ∀ l : List α, (V.vec l).data = l := fun _ => rfl
    have de : ∀ x : α, (V.elem x).data = [x] := fun _ => rfl
    rcases kind u hmu eu with ⟨x, rfl⟩ | ⟨l, rfl, hl⟩
    · rcases kind v hmv ev with ⟨y, rfl⟩ | ⟨l', rfl, hl'⟩
      · simp [V.shape] at hs
      · rw [dv, de, if_pos (show [x].length = 1 from rfl)]
        refine ⟨_, _, ?_, src_elem, same l' hl'⟩
        rw [hvol, ← hl']
    · rcases kind v hmv ev with ⟨y, rfl⟩ | ⟨l', rfl, hl'⟩
      · rw [dv, de]
        by_cases h1 : l.length = 1
        · rw [if_pos h1]
          refine ⟨_, id, ?_, one l h1 hl, ?_⟩
          · rw [hvol, ← hl, h1]; rfl
          · have hn1 : n = 1 := by omega
            subst hn1
            intro c hc
            have := ravel_lt hc
            rw [hvol] at this
            rw [show ravel [1] c = 0 by omega]
            exact src_elem (s := [1]) c hc
        · rw [if_neg h1, if_pos (show [y].length = 1 from rfl)]
          refine ⟨_, _, ?_, same l hl, src_elem⟩
          rw [hvol, ← hl]
      · rw [dv, dv]
        by_cases h1 : l.length = 1
        · rw [if_pos h1]
          refine ⟨_, _, ?_, one l h1 hl, same l' hl'⟩
          rw [hvol, ← hl']
        · rw [if_neg h1, if_neg (by omega), if_neg (by omega)]
          refine ⟨_, _, ?_, same l hl, same l' hl'⟩
          rw [hvol, ← hl]

/-- Elementwise operators. -/
theorem elementwise_eq [Wide α] (S : Sched) (f : α → α → R α) {u v : V α} (hu : u.Ok) (hv : v.Ok) (pu : u.Plain) (pv : v.Plain) {s : List Nat}
    (eu : u.Extends s) (ev : v.Extends s) (hs : u.shape = s ∨ v.shape = s)
    (hbug : ¬ (v.shape ≠ s ∧ Ones u.shape ∧ 2 ≤ u.shape.length)) :
    (∀ r, elementwise S f u v = .ok r → r.shape = s ∧ r.Ok ∧ r.Plain ∧
      ∀ c, InB s c → ∃ a b y, u.src c = some a ∧ v.src c = some b ∧ f a b = .ok y ∧ r.at c = some y) ∧
    ((∀ c a b, InB s c → u.src c = some a → v.src c = some b → ∃ y, f a b = .ok y) → ∃ r, elementwise S f u v = .ok r) := by
  by_cases hne : s = []
  · subst hne
    have el : ∀ w : V α, w.Ok → w.Extends [] → ∃ x, w = .elem x := by
      intro w hw he
      have : w.shape = [] := by
        rcases he with h | h | ⟨h1, s0, h⟩
        · exact h
        · exact h
        · exact (List.append_eq_nil_iff.mp h.symm).2
      cases w with
      | elem x => exact ⟨x, rfl⟩
      | vec l => simp [V.shape] at this
      | mat m => exact absurd this hw.1.rank
    obtain ⟨x, rfl⟩ := el u hu eu
    obtain ⟨y, rfl⟩ := el v hv ev
    simp only [elementwise]
    constructor
    · intro r hr
      obtain ⟨z, hz, h2⟩ := bind_eq_ok.mp hr
      cases h2
      refine ⟨rfl, trivial, by simp [V.Plain, V.isMat, V.shape], ?_⟩
      intro c hc
      match c, hc with
      | [], _ => exact ⟨x, y, z, rfl, rfl, hz, rfl⟩
    · intro h
      obtain ⟨z, hz⟩ := h [] x y trivial rfl rfl
      exact ⟨.elem z, by rw [hz, bind_ok]⟩
  · obtain ⟨p, q, hmodel, sp, sq⟩ := elementwise_core S f hu hv pu pv eu ev hs hne hbug
    have hfit : Fits s := by
      have key : ∀ w : V α, w.Ok → w.shape = s → Fits s := by
        intro w hw h
        cases w with
        | elem x => exact absurd h.symm hne
        | vec l => rw [← h]; intro k h2 hk; simp [V.shape] at hk; omega
        | mat m => rw [← h]; exact hw.1.fits
      rcases hs with h | h
      · exact key u hu h
      · exact key v hv h
    have hdims : ∀ x ∈ s, x ≤ maxInt := by
      rcases hs with h | h
      · rw [← h]; exact dims_small hu
      · rw [← h]; exact dims_small hv
    constructor
    · intro r hr
      rw [hmodel] at hr
      obtain ⟨t, ht, hr⟩ := bind_eq_ok.mp hr
      obtain ⟨h1, h2⟩ := (zipData_iff S f _ _ _ _ _).mp ht
      obtain ⟨r', hr', h3, h4, h5, h6⟩ := finish hne h1 hfit hdims
      rw [hr'] at hr
      cases hr
      refine ⟨h3, h5, h6, ?_⟩
      intro c hc
      have hlt : ravel s c < t.length := by rw [h1]; exact ravel_lt hc
      obtain ⟨a, b, ha, hb, hy⟩ := h2 _ _ (List.getElem?_eq_getElem hlt)
      refine ⟨a, b, _, by rw [← sp c hc]; exact ha, by rw [← sq c hc]; exact hb, hy, ?_⟩
      rw [at_data (by rw [h3]; exact hc), h4, h3, List.getElem?_eq_getElem hlt]
    · intro hall
      have some_src : ∀ w : V α, w.Ok → w.Extends s → ∀ c, InB s c → ∃ x, w.src c = some x := by
        intro w hw he c hc
        have hin : InB w.shape (c.drop (c.length - w.shape.length)) := by
          rcases he with h | h | ⟨h1, s0, h⟩
          · rw [h, inB_length hc, Nat.sub_self, List.drop_zero]; exact hc
          · rw [h]; simp [InB]
          · rw [h] at hc
            obtain ⟨c1, c2, rfl, i1, i2⟩ := inB_split2 hc
            rw [List.length_append, inB_length i2, Nat.add_sub_cancel, List.drop_left]
            exact i2
        unfold V.src
        rw [at_data hin]
        have := ravel_lt hin
        rw [← data_length hw] at this
        exact ⟨_, List.getElem?_eq_getElem this⟩
      obtain ⟨t, ht⟩ := zipData_ok S f u.data v.data p q (vol s) (by
        intro i hi
        have hc := unravel_inB hi
        obtain ⟨a, ha⟩ := some_src u hu eu _ hc
        obtain ⟨b, hb⟩ := some_src v hv ev _ hc
        obtain ⟨y, hy⟩ := hall _ a b hc ha hb
        refine ⟨a, b, y, ?_, ?_, hy⟩
        · have := sp _ hc; rw [ravel_unravel hi] at this; rw [this]; exact ha
        · have := sq _ hc; rw [ravel_unravel hi] at this; rw [this]; exact hb)
      obtain ⟨h1, _⟩ := (zipData_iff S f _ _ _ _ _).mp ht
      obtain ⟨r, hr, _⟩ := finish hne h1 hfit hdims
      exact ⟨r, by rw [hmodel, ht, bind_ok, hr]⟩

/-- Other shapes are refused, but for matrices of the shape `n 1 … 1`. -/
theorem elementwise_refused [Wide α] (S : Sched) (f : α → α → R α) {u v : V α} (hu : u.Ok) (hv : v.Ok) (pu : u.Plain) (pv : v.Plain)
    (hou : ¬ Ones u.shape) (hov : ¬ Ones v.shape) (hs : u.shape ≠ v.shape) (eu : ¬ u.Extends v.shape) (ev : ¬ v.Extends u.shape)
    (hcu : 2 ≤ u.shape.length → ¬ Ones (u.shape.drop 1)) (hcv : 2 ≤ v.shape.length → ¬ Ones (v.shape.drop 1)) :
    ∃ e, elementwise S f u v = .err e := by
  have notElem : ∀ w : V α, ¬ Ones w.shape → ∀ x, w ≠ .elem x := by
    rintro w hw x rfl
    exact hw (by simp [Ones, V.shape])
  have hprom : ∀ w : V α, ¬ Ones w.shape → w.promote = w := by
    intro w hw
    cases w with
    | elem x => exact absurd rfl (notElem _ hw x)
    | vec l => rfl
    | mat m => rfl
  have hmodel : elementwise S f u v =
      if u.isMat ∨ v.isMat then u.toMat.bind fun u => v.toMat.bind fun v => (binaryMat S f u v).bind fun r => .ok (.mat r)
      else u.toVec.bind fun u => v.toVec.bind fun v => (binaryVec S f u v).bind fun r => .ok (.vec r) := by
    unfold elementwise
    cases u with
    | elem x => exact absurd rfl (notElem _ hou x)
    | vec l => cases v <;> rfl
    | mat m => cases v <;> rfl
  rw [hmodel]
  by_cases hm : u.isMat = true ∨ v.isMat = true
  · rw [if_pos hm]
    obtain ⟨mu, e1, o1, d1, s1, _⟩ := toMat_any hu
    obtain ⟨mv, e2, o2, d2, s2, _⟩ := toMat_any hv
    replace s1 := s1.resolve_right (fun h => hou (by rw [h.1]; simp [Ones]))
    replace s2 := s2.resolve_right (fun h => hov (by rw [h.1]; simp [Ones]))
    rw [hprom u hou] at s1
    rw [hprom v hov] at s2
    rw [e1, bind_ok, e2, bind_ok]
    have nv : ∀ w w' : V α, w.Plain → ¬ Ones w.shape → ¬ w.Extends w'.shape → (2 ≤ w.shape.length → ¬ Ones (w.shape.drop 1)) →
        ¬ isVectorShape w.shape w'.shape = true := by
      intro w w' hp ho he hc
      rw [isVector_iff]
      rintro ⟨n, h1, h2, h3⟩
      rcases Nat.lt_or_ge w.shape.length 2 with h | h
      · match hw : w.shape, h1, h with
        | [a], h1, _ =>
          simp at h1
          apply he
          refine .inr (.inr ⟨by simp [hw], ?_⟩)
          obtain ⟨s0, h4⟩ := List.getLast?_eq_some_iff.mp h2
          exact ⟨s0, by rw [h4, hw, h1]⟩
        | [], h1, _ => simp at h1
        | _ :: _ :: _, _, h => simp at h; omega
      · exact hc h h3
    unfold binaryMat
    rw [s1, s2, if_neg (by rw [isScalar_iff]; exact hou), if_neg (by rw [isScalar_iff]; exact hov), if_neg (nv u v pu hou eu hcu),
      if_neg (nv v u pv hov ev hcv), if_pos hs]
    exact ⟨_, rfl⟩
  · rw [if_neg hm]
    obtain ⟨e1, p1⟩ := toVec_eq (v := u) (fun h => hm (.inl h))
    obtain ⟨e2, p2⟩ := toVec_eq (v := v) (fun h => hm (.inr h))
    rw [hprom u hou] at p1
    rw [hprom v hov] at p2
    rw [p1] at hou hs
    rw [p2] at hov hs
    have l1 : ¬ u.data.length = 1 := fun h => hou (by intro d hd; simp [V.shape] at hd; omega)
    have l2 : ¬ v.data.length = 1 := fun h => hov (by intro d hd; simp [V.shape] at hd; omega)
    have l3 : u.data.length ≠ v.data.length := fun h => hs (by simp [V.shape, h])
    rw [e1, bind_ok, e2, bind_ok]
    unfold binaryVec
    rw [if_neg l1, if_neg l2, if_pos l3]
    exact ⟨_, rfl⟩

/-- Elementwise unary operators. -/
theorem unary_eq (S : Sched) (f : α → R α) {v : V α} (hv : v.Ok) (pv : v.Plain) :
    (∀ r, unaryElementwise S f v = .ok r → r.shape = v.shape ∧ r.Ok ∧ r.Plain ∧ ∀ c, InB v.shape c → ∃ a y, v.at c = some a ∧ f a = .ok y ∧ r.at c = some y) ∧
    ((∀ c a, v.at c = some a → ∃ y, f a = .ok y) → ∃ r, unaryElementwise S f v = .ok r) := by
  have hmap : ∀ (l t : List α), mapData S f l = .ok t ↔ t.length = l.length ∧ ∀ (i : Nat) (x : α), t[i]? = some x → ∃ a, l[i]? = some a ∧ f a = .ok x := by
    intro l t
    unfold mapData
    rw [pfor_map S 1 l.length (g := fun k => (vAt l k).bind fun a => f a) (fun i e _ => by rw [bind_assoc])]
    have : ∀ i x, ((vAt l i).bind fun a => f a) = .ok x ↔ ∃ a, l[i]? = some a ∧ f a = .ok x := by
      intro i x
      constructor
      · intro h
        obtain ⟨a, h1, h2⟩ := bind_eq_ok.mp h
        exact ⟨a, vAt_eq.mp h1, h2⟩
      · rintro ⟨a, h1, h2⟩
        rw [vAt_eq.mpr h1, bind_ok, h2]
    simp only [this]
  have hmapok : ∀ l : List α, (∀ a ∈ l, ∃ y, f a = .ok y) → ∃ t, mapData S f l = .ok t := by
    intro l h
    obtain ⟨t, ht, _⟩ := pfor_map_ok S 1 l.length (g := fun k => (vAt l k).bind fun a => f a)
      (f := fun k e => (vAt l k).bind fun a => (f a).bind fun y => e.put k y) (fun i e _ => by rw [bind_assoc]) (by
        intro i hi
        obtain ⟨y, hy⟩ := h l[i] (List.getElem_mem hi)
        exact ⟨y, by rw [vAt_eq.mpr (List.getElem?_eq_getElem hi), bind_ok, hy]⟩)
    exact ⟨t, ht⟩
  have hmem : (∀ c a, v.at c = some a → ∃ y, f a = .ok y) → ∀ a ∈ v.data, ∃ y, f a = .ok y := by
    intro h a ha
    obtain ⟨i, hi, rfl⟩ := List.getElem_of_mem ha
    have hi' : i < vol v.shape := by rw [← data_length hv]; exact hi
    exact h (unravel v.shape i) _ (by rw [at_data (unravel_inB hi'), ravel_unravel hi', List.getElem?_eq_getElem hi])
  have atR : ∀ {r : V α} {t : List α}, r.shape = v.shape → r.data = t → t.length = v.data.length →
      (∀ (i : Nat) (x : α), t[i]? = some x → ∃ a, v.data[i]? = some a ∧ f a = .ok x) →
      ∀ c, InB v.shape c → ∃ a y, v.at c = some a ∧ f a = .ok y ∧ r.at c = some y := by
    intro r t h1 h2 h3 h4 c hc
    have hlt : ravel v.shape c < t.length := by rw [h3, data_length hv]; exact ravel_lt hc
    obtain ⟨a, ha, hy⟩ := h4 _ _ (List.getElem?_eq_getElem hlt)
    refine ⟨a, _, by rw [at_data hc]; exact ha, hy, ?_⟩
    rw [at_data (by rw [h1]; exact hc), h1, h2, List.getElem?_eq_getElem hlt]
  cases v with
  | elem x =>
    simp only [unaryElementwise]
    constructor
    · intro r hr
      obtain ⟨y, hy, h2⟩ := bind_eq_ok.mp hr
      cases h2
      refine ⟨rfl, trivial, by simp [V.Plain, V.isMat, V.shape], ?_⟩
      intro c hc
      match c, hc with
      | [], _ => exact ⟨x, y, rfl, hy, rfl⟩
    · intro h
      obtain ⟨y, hy⟩ := h [] x rfl
      exact ⟨_, by rw [hy, bind_ok]⟩
  | vec l =>
    simp only [unaryElementwise]
    constructor
    · intro r hr
      obtain ⟨t, ht, h2⟩ := bind_eq_ok.mp hr
      cases h2
      obtain ⟨h3, h4⟩ := (hmap l t).mp ht
      have hsh : (V.vec t).shape = (V.vec l).shape := by simp [V.shape, h3]
      exact ⟨hsh, by rw [V.Ok, h3]; exact hv, by simp [V.Plain, V.isMat, V.shape], atR hsh rfl h3 h4⟩
    · intro h
      obtain ⟨t, ht⟩ := hmapok l (hmem h)
      exact ⟨_, by rw [ht, bind_ok]⟩
  | mat m =>
    simp only [unaryElementwise]
    constructor
    · intro r hr
      obtain ⟨t, ht, h2⟩ := bind_eq_ok.mp hr
      obtain ⟨h3, h4⟩ := (hmap m.data t).mp ht
      rw [newMatrix_fits hv.1.rank (by rw [h3]; exact hv.1.len) hv.1.fits, bind_ok] at h2
      cases h2
      refine ⟨rfl, ⟨⟨⟨hv.1.rank, by rw [h3]; exact hv.1.len⟩, hv.1.fits⟩, by rw [h3]; exact hv.2.1, hv.2.2⟩, pv, atR rfl rfl h3 h4⟩
    · intro h
      obtain ⟨t, ht⟩ := hmapok m.data (hmem h)
      obtain ⟨h3, _⟩ := (hmap m.data t).mp ht
      exact ⟨_, by rw [ht, bind_ok, newMatrix_fits hv.1.rank (by rw [h3]; exact hv.1.len) hv.1.fits, bind_ok]⟩

end Verif.Arr
