import Verif.Arr.IndexLemmas5

/-! # Lemmas about indexed assignment, in terms of coordinates -/

namespace Verif.Arr
variable {α : Type}

theorem fillOut_length : ∀ (ixs : List Ix) (ds ds' : List Nat), ds.length = ds'.length → (fillOut ixs ds).length = (fillOut ixs ds').length
  | [], _, _, _ => by simp [fillOut]
  | .missing :: ixs, [], [], _ => by simp [fillOut]
  | .missing :: ixs, d :: ds, d' :: ds', h => by simp [fillOut, fillOut_length ixs ds ds' (by simpa using h)]
  | .missing :: ixs, [], _ :: _, h => by simp at h
  | .missing :: ixs, _ :: _, [], h => by simp at h
  | .int k :: ixs, ds, ds', h => by simp [fillOut, fillOut_length ixs ds ds' h]
  | .vec l :: ixs, ds, ds', h => by simp [fillOut, fillOut_length ixs ds ds' h]
  | .mat m :: ixs, ds, ds', h => by simp [fillOut, fillOut_length ixs ds ds' h]
  | .other :: ixs, ds, ds', h => by simp [fillOut, fillOut_length ixs ds ds' h]

theorem codeShape_length {ixs : List Ix} {shape : List Nat} (hl : ixs.length ≤ shape.length) : (codeShape ixs shape).length = (selShape ixs shape).length := by
  unfold codeShape selShape
  rw [List.length_append, List.length_append, ← fillOut_right ixs shape hl, fillOut_length ixs _ (missingDims ixs shape) (by simp)]

theorem codeShape_nil {ixs : List Ix} {shape : List Nat} (hl : ixs.length ≤ shape.length) : codeShape ixs shape = [] ↔ selShape ixs shape = [] := by
  rw [← List.length_eq_zero_iff, codeShape_length hl, List.length_eq_zero_iff]

theorem storedVal_code {ixs : List Ix} {shape : List Nat} (hl : ixs.length ≤ shape.length) (toElem : V α → α) (y : V α) (w : Nat) :
    storedVal (codeShape ixs shape) toElem y w = storedVal (selShape ixs shape) toElem y w := by
  unfold storedVal
  by_cases h : selShape ixs shape = []
  · rw [if_pos h, if_pos ((codeShape_nil hl).mpr h)]
  · rw [if_neg h, if_neg (fun e => h ((codeShape_nil hl).mp e))]

theorem codeShape_pal {ixs : List Ix} {shape : List Nat} (hl : ixs.length ≤ shape.length) (hp : (missingDims ixs shape).reverse = missingDims ixs shape) :
    codeShape ixs shape = selShape ixs shape := by
  unfold codeShape selShape
  rw [hp, fillOut_right ixs shape hl]

theorem inB_split2 : ∀ {s t c : List Nat}, InB (s ++ t) c → ∃ a b, c = a ++ b ∧ InB s a ∧ InB t b
  | [], _, c, h => ⟨[], c, rfl, trivial, h⟩
  | d :: s, t, [], h => by simp [InB] at h
  | d :: s, t, i :: c, h => by
    obtain ⟨a, b, h1, h2, h3⟩ := inB_split2 (s := s) (t := t) h.2
    exact ⟨i :: a, b, by simp [h1], ⟨h.1, h2⟩, h3⟩

theorem ravel_inj {s c d : List Nat} (hc : InB s c) (hd : InB s d) (h : ravel s c = ravel s d) : c = d := by
  rw [← unravel_ravel hc, ← unravel_ravel hd, h]

/-- What the stores mean for each cell. -/
theorem wrote_cells {origin : Nat} {ixs : List Ix} {shape : List Nat} {ks : List (List Nat)} (hw : ∀ ix ∈ ixs, ix.Ok) (h : Denote origin ixs shape ks)
    {data l : List α} (hl : data.length = vol shape) {val : Nat → Option α}
    (hwr : Wrote data (addrOf (plainOff shape ixs.length ks) (vol (shape.drop ixs.length))) val
      (fun w => w < vol (ks.map List.length) * vol (shape.drop ixs.length)) (edit l)) :
    l.length = data.length ∧ ∀ p, InB shape p →
      (∃ cs rest, InBs (ixShapes ixs shape) cs ∧ InB (shape.drop ixs.length) rest ∧ pickAll ks (ixShapes ixs shape) cs ++ rest = p ∧
        l[ravel shape p]? = val (ravel (selShape ixs shape) (cs.flatten ++ rest))) ∨
      ((∀ cs rest, InBs (ixShapes ixs shape) cs → InB (shape.drop ixs.length) rest → pickAll ks (ixShapes ixs shape) cs ++ rest ≠ p) ∧
        l[ravel shape p]? = data[ravel shape p]?) := by
  obtain ⟨l', he, hll, hp⟩ := hwr
  have : l = l' := by
    unfold edit at he
    exact List.map_injective_iff.mpr (fun a b h => Option.some.inj h) he
  subst this
  have key : ∀ cs rest, InBs (ixShapes ixs shape) cs → InB (shape.drop ixs.length) rest →
      ravel (selShape ixs shape) (cs.flatten ++ rest) < vol (ks.map List.length) * vol (shape.drop ixs.length) ∧
      addrOf (plainOff shape ixs.length ks) (vol (shape.drop ixs.length)) (ravel (selShape ixs shape) (cs.flatten ++ rest)) =
        ravel shape (pickAll ks (ixShapes ixs shape) cs ++ rest) ∧ InB shape (pickAll ks (ixShapes ixs shape) cs ++ rest) := by
    intro cs rest hcs hr
    obtain ⟨i, i1, i2, i3, i4, i5⟩ := sel_addr hw h hcs hr
    have hrl := ravel_lt hr
    have hc : 0 < vol (shape.drop ixs.length) := by omega
    refine ⟨by rw [i3]; exact off_lt i1 hrl rfl, ?_, i2⟩
    unfold addrOf
    rw [i3, i4]
    have e1 : (i * vol (shape.drop ixs.length) + ravel (shape.drop ixs.length) rest) / vol (shape.drop ixs.length) = i := by
      rw [Nat.mul_comm, Nat.mul_add_div hc, Nat.div_eq_of_lt hrl]; simp
    have e2 : (i * vol (shape.drop ixs.length) + ravel (shape.drop ixs.length) rest) % vol (shape.drop ixs.length) = ravel (shape.drop ixs.length) rest := by
      rw [Nat.mul_comm, Nat.mul_add_mod, Nat.mod_eq_of_lt hrl]
    rw [e1, e2]
  refine ⟨hll, fun p hpi => ?_⟩
  rcases hp (ravel shape p) (by rw [hl]; exact ravel_lt hpi) with ⟨w, a, b, c⟩ | ⟨a, b⟩
  · left
    have hvol : vol (selShape ixs shape) = vol (ks.map List.length) * vol (shape.drop ixs.length) := by
      rw [selShape, vol_append, vol_flatten, (denote_lens hw h).1]
    rw [← hvol] at a
    have hin := unravel_inB a
    obtain ⟨c1, rest, e1, g1, g2⟩ := inB_split2 hin
    obtain ⟨cs, g3, rfl⟩ := sel_coords g1
    have hrw : ravel (selShape ixs shape) (cs.flatten ++ rest) = w := by rw [← e1]; exact ravel_unravel a
    obtain ⟨k1, k2, k3⟩ := key cs rest g3 g2
    refine ⟨cs, rest, g3, g2, ?_, by rw [hrw]; exact c⟩
    apply ravel_inj k3 hpi
    rw [← k2, hrw, b]
  · refine .inr ⟨fun cs rest g3 g2 e => ?_, b⟩
    obtain ⟨k1, k2, k3⟩ := key cs rest g3 g2
    exact a _ k1 (by rw [k2, e])

/-- Distinct places: the coordinates of the indexes can be told from the cell. -/
theorem pickAll_inj : ∀ {ks ss cs cs' : List (List Nat)}, ks.map List.length = ss.map vol → (∀ k ∈ ks, k.Nodup) → InBs ss cs → InBs ss cs' →
    pickAll ks ss cs = pickAll ks ss cs' → cs = cs'
  | [], [], [], [], _, _, _, _, _ => rfl
  | k :: ks, s :: ss, c :: cs, c' :: cs', hl, hn, h, h', e => by
    simp only [List.map_cons, List.cons.injEq] at hl
    simp only [pickAll, List.cons.injEq] at e
    have h1 := ravel_lt h.1
    have h2 := ravel_lt h'.1
    have hk : ravel s c < k.length := by omega
    have hk' : ravel s c' < k.length := by omega
    have e1 := e.1
    rw [List.getD_eq_getElem?_getD, List.getD_eq_getElem?_getD, List.getElem?_eq_getElem hk, List.getElem?_eq_getElem hk'] at e1
    simp only [Option.getD_some] at e1
    have := (List.Nodup.getElem_inj_iff (hn k (by simp))).mp e1
    rw [ravel_inj h.1 h'.1 this, pickAll_inj hl.2 (fun x hx => hn x (by simp [hx])) h.2 h'.2 e.2]
  | [], _ :: _, _, _, hl, _, _, _, _ => by simp at hl
  | _ :: _, [], _, _, hl, _, _, _, _ => by simp at hl

theorem pickAll_length : ∀ {ks ss cs : List (List Nat)}, ks.length = ss.length → InBs ss cs → (pickAll ks ss cs).length = ks.length
  | [], [], [], _, _ => rfl
  | k :: ks, s :: ss, c :: cs, hl, h => by simp [pickAll, pickAll_length (ks := ks) (ss := ss) (by simpa using hl) h.2]
  | [], _ :: _, _, hl, _ => by simp at hl
  | _ :: _, [], _, hl, _ => by simp at hl

end Verif.Arr
