import Verif.Arr.IndexSpec
import Verif.Arr.Lemmas5
import Mathlib.Tactic.Ring

/-! # Lemmas about indexing -/

namespace Verif.Arr
variable {α : Type}

/-! ## The shape of the result -/

/-- The index vector before the missing ones are filled in. -/
def Ix.raw : Ix → Option (List IxElem)
  | .missing => none
  | .int k => some [.int k]
  | .vec l => some l
  | .mat m => some m.data
  | .other => none

/-- The places in the shape of the missing indexes, from the first. -/
def missPos : List Ix → List Nat
  | [] => []
  | .missing :: ixs => 0 :: (missPos ixs).map (· + 1)
  | ix :: ixs => (missPos ixs).map (· + (ix.shape 0).length)

/-- The shape with zeros for the missing indexes. -/
def shape0 (ixs : List Ix) : List Nat := (ixs.map fun ix => ix.shape 0).flatten

def NoOther (ixs : List Ix) : Prop := ∀ ix ∈ ixs, ix ≠ Ix.other

theorem gather_ok : ∀ (ixs : List Ix), NoOther ixs → ∃ upd, gather ixs = .ok (ixs.map Ix.raw, (shape0 ixs).reverse, upd) ∧
    (∀ o ∈ upd, o < (shape0 ixs).length) ∧ (upd.map fun o => (shape0 ixs).length - o - 1) = (missPos ixs).reverse
  | [], _ => ⟨[], rfl, by simp, rfl⟩
  | ix :: ixs, h => by
    obtain ⟨upd, h1, h2, h3⟩ := gather_ok ixs fun x hx => h x (by simp [hx])
    have key : ∀ k, (upd.map fun o => (k + (shape0 ixs).length) - o - 1) = ((missPos ixs).map (· + k)).reverse := by
      intro k
      rw [← List.map_reverse, ← h3, List.map_map]
      apply List.map_congr_left
      intro o ho
      have := h2 o ho
      simp only [Function.comp]
      omega
    cases ix with
    | other => exact absurd rfl (h .other (by simp))
    | missing =>
      refine ⟨upd ++ [(shape0 ixs).length], ?_, ?_, ?_⟩
      · simp [gather, h1, shape0, Ix.raw, Ix.shape]
      · intro o ho
        have hl : (shape0 (Ix.missing :: ixs)).length = 1 + (shape0 ixs).length := by simp [shape0, Ix.shape]; omega
        rw [hl]
        rcases List.mem_append.mp ho with ho | ho
        · have := h2 o ho; omega
        · have := List.mem_singleton.mp ho; omega
      · have hl : (shape0 (Ix.missing :: ixs)).length = 1 + (shape0 ixs).length := by simp [shape0, Ix.shape]; omega
        rw [hl, List.map_append, key 1]
        simp [missPos]
    | int k =>
      refine ⟨upd, ?_, ?_, ?_⟩
      · simp [gather, h1, shape0, Ix.raw, Ix.shape]
      · intro o ho; simpa [shape0, Ix.shape] using h2 o ho
      · have hl : (shape0 (Ix.int k :: ixs)).length = 0 + (shape0 ixs).length := by simp [shape0, Ix.shape]
        rw [hl, key 0]
        simp [missPos, Ix.shape]
    | vec l =>
      refine ⟨upd, ?_, ?_, ?_⟩
      · simp [gather, h1, shape0, Ix.raw, Ix.shape]
      · intro o ho; have := h2 o ho; simp [shape0, Ix.shape] at this ⊢; omega
      · have hl : (shape0 (Ix.vec l :: ixs)).length = 1 + (shape0 ixs).length := by simp [shape0, Ix.shape]; omega
        rw [hl, key 1]
        simp [missPos, Ix.shape]
    | mat m =>
      refine ⟨upd, ?_, ?_, ?_⟩
      · simp [gather, h1, shape0, Ix.raw, Ix.shape]
      · intro o ho; have := h2 o ho; simp [shape0, Ix.shape] at this ⊢; omega
      · have hl : (shape0 (Ix.mat m :: ixs)).length = m.shape.length + (shape0 ixs).length := by simp [shape0, Ix.shape]
        rw [hl, key m.shape.length]
        simp [missPos, Ix.shape]

theorem gather_other : ∀ (ixs : List Ix), ¬ NoOther ixs → ∃ e, gather ixs = .err e
  | [], h => absurd (fun x hx => by simp at hx) h
  | ix :: ixs, h => by
    unfold gather
    by_cases ht : NoOther ixs
    · obtain ⟨upd, h1, _⟩ := gather_ok ixs ht
      rw [h1, bind_ok]
      cases ix with
      | other => exact ⟨_, rfl⟩
      | _ =>
        exfalso; apply h
        intro x hx
        rcases List.mem_cons.mp hx with rfl | hx
        · simp
        · exact ht x hx
    · obtain ⟨e, he⟩ := gather_other ixs ht
      exact ⟨e, by rw [he]; rfl⟩

/-- The shape with the given lengths for the missing indexes. -/
def fillOut : List Ix → List Nat → List Nat
  | [], _ => []
  | .missing :: ixs, d :: ds => d :: fillOut ixs ds
  | .missing :: ixs, [] => 0 :: fillOut ixs []
  | ix :: ixs, ds => ix.shape 0 ++ fillOut ixs ds

/-- Setting several places. -/
def setAll (s : List Nat) (ps : List (Nat × Nat)) : List Nat := ps.foldl (fun s p => s.set p.1 p.2) s

theorem setAll_shift (a : List Nat) : ∀ (ps : List (Nat × Nat)) (b : List Nat),
    setAll (a ++ b) (ps.map fun p => (p.1 + a.length, p.2)) = a ++ setAll b ps
  | [], b => rfl
  | p :: ps, b => by
    simp only [setAll, List.map_cons, List.foldl_cons]
    rw [List.set_append, if_neg (by omega), Nat.add_sub_cancel]
    exact setAll_shift a ps (b.set p.1 p.2)

theorem zip_map_left' (f : Nat → Nat) : ∀ (l : List Nat) (d : List Nat), (l.map f).zip d = (l.zip d).map fun p => (f p.1, p.2)
  | [], _ => by simp
  | _ :: _, [] => by simp
  | a :: l, b :: d => by simp [zip_map_left' f l d]

theorem setAll_fill : ∀ (ixs : List Ix) (ds : List Nat), NoOther ixs → ds.length = (missPos ixs).length →
    setAll (shape0 ixs) ((missPos ixs).zip ds) = fillOut ixs ds
  | [], ds, _, _ => by simp [missPos, setAll, shape0, fillOut]
  | ix :: ixs, ds, ho, hl => by
    have hot : NoOther ixs := fun x hx => ho x (by simp [hx])
    cases ix with
    | missing =>
      cases ds with
      | nil => simp [missPos] at hl
      | cons d ds =>
        have ih := setAll_fill ixs ds hot (by simpa [missPos] using hl)
        have := setAll_shift [d] ((missPos ixs).zip ds) (shape0 ixs)
        simp only [missPos, List.zip_cons_cons, zip_map_left', setAll, List.foldl_cons, fillOut]
        have e : (shape0 (Ix.missing :: ixs)).set 0 d = [d] ++ shape0 ixs := by simp [shape0, Ix.shape]
        rw [e]
        have := setAll_shift [d] ((missPos ixs).zip ds) (shape0 ixs)
        unfold setAll at this ih
        rw [show [d].length = 1 from rfl] at this
        rw [this, ih]; rfl
    | other => exact absurd rfl (ho .other (by simp))
    | int k =>
      have ih := setAll_fill ixs ds hot (by simpa [missPos, Ix.shape] using hl)
      have e : shape0 (Ix.int k :: ixs) = shape0 ixs := by simp [shape0, Ix.shape]
      have e2 : missPos (Ix.int k :: ixs) = missPos ixs := by simp [missPos, Ix.shape]
      rw [e, e2, ih]; rfl
    | vec l =>
      have ih := setAll_fill ixs ds hot (by simpa [missPos, Ix.shape] using hl)
      have e : shape0 (Ix.vec l :: ixs) = [l.length] ++ shape0 ixs := by simp [shape0, Ix.shape]
      have e2 : missPos (Ix.vec l :: ixs) = (missPos ixs).map (· + [l.length].length) := rfl
      rw [e, e2, zip_map_left', setAll_shift, ih]; rfl
    | mat m =>
      have ih := setAll_fill ixs ds hot (by simpa [missPos, Ix.shape] using hl)
      have e : shape0 (Ix.mat m :: ixs) = m.shape ++ shape0 ixs := by simp [shape0, Ix.shape]
      have e2 : missPos (Ix.mat m :: ixs) = (missPos ixs).map (· + m.shape.length) := rfl
      rw [e, e2, zip_map_left', setAll_shift, ih]; rfl

theorem setAll_get (ps : List (Nat × Nat)) : ∀ (s : List Nat), (ps.map Prod.fst).Nodup → ∀ i : Nat,
    (setAll s ps)[i]? = if i < s.length then (match ps.find? (fun p => p.1 = i) with | some p => some p.2 | none => s[i]?) else none := by
  induction ps with
  | nil => intro s _ i; simp only [setAll, List.foldl_nil, List.find?_nil]; split <;> simp_all
  | cons p ps ih =>
    intro s hn i
    have hn' := (List.nodup_cons.mp (by simpa using hn : (p.1 :: ps.map Prod.fst).Nodup))
    have := ih (s.set p.1 p.2) hn'.2 i
    simp only [setAll, List.foldl_cons] at this ⊢
    rw [this, List.length_set, List.find?_cons]
    by_cases hi : i < s.length
    · rw [if_pos hi, if_pos hi]
      by_cases hp : p.1 = i
      · have hnone : ps.find? (fun q => decide (q.1 = i)) = none := by
          rw [List.find?_eq_none]
          intro q hq
          simp only [decide_eq_true_eq]
          intro hqi
          exact hn'.1 (List.mem_map.mpr ⟨q, hq, by omega⟩)
        simp [hnone, hp, List.getElem?_set, hi]
      · simp only [hp, decide_false]
        cases ps.find? (fun q => decide (q.1 = i)) <;> simp [List.getElem?_set, hp]
    · rw [if_neg hi, if_neg hi]

theorem find_perm {ps qs : List (Nat × Nat)} (h : ps.Perm qs) (hn : (ps.map Prod.fst).Nodup) (i : Nat) :
    ps.find? (fun p => decide (p.1 = i)) = qs.find? (fun p => decide (p.1 = i)) := by
  have key : ∀ {l : List (Nat × Nat)}, (l.map Prod.fst).Nodup → ∀ p, l.find? (fun p => decide (p.1 = i)) = some p ↔ p ∈ l ∧ p.1 = i := by
    intro l
    induction l with
    | nil => intro _ p; simp
    | cons q l ih =>
      intro hl p
      have hl' := (List.nodup_cons.mp (by simpa using hl : (q.1 :: l.map Prod.fst).Nodup))
      rw [List.find?_cons]
      by_cases hq : q.1 = i
      · simp only [hq, decide_true, Option.some.injEq, List.mem_cons]
        constructor
        · rintro rfl; exact ⟨.inl rfl, hq⟩
        · rintro ⟨rfl | hp, hpi⟩
          · rfl
          · exfalso; exact hl'.1 (List.mem_map.mpr ⟨p, hp, by omega⟩)
      · simp only [hq, decide_false, ih hl'.2, List.mem_cons]
        constructor
        · rintro ⟨a, b⟩; exact ⟨.inr a, b⟩
        · rintro ⟨rfl | a, b⟩
          · exact absurd b hq
          · exact ⟨a, b⟩
  have hn2 : (qs.map Prod.fst).Nodup := (h.map _).nodup_iff.mp hn
  apply Option.ext
  intro p
  rw [key hn, key hn2, h.mem_iff]

theorem setAll_perm {ps qs : List (Nat × Nat)} (h : ps.Perm qs) (hn : (ps.map Prod.fst).Nodup) (s : List Nat) : setAll s ps = setAll s qs := by
  apply List.ext_getElem?
  intro i
  rw [setAll_get ps s hn, setAll_get qs s ((h.map _).nodup_iff.mp hn), find_perm h hn]

theorem missPos_lt : ∀ (ixs : List Ix), ∀ o ∈ missPos ixs, o < (shape0 ixs).length
  | [], o, h => by simp [missPos] at h
  | ix :: ixs, o, h => by
    have ih := missPos_lt ixs
    have hl : (shape0 (ix :: ixs)).length = (ix.shape 0).length + (shape0 ixs).length := by simp [shape0]
    rw [hl]
    cases ix with
    | missing =>
      simp only [missPos, List.mem_cons, List.mem_map] at h
      rcases h with rfl | ⟨a, ha, rfl⟩
      · simp [Ix.shape]
      · have := ih a ha; simp [Ix.shape]; omega
    | _ =>
      simp only [missPos, List.mem_map] at h
      obtain ⟨a, ha, rfl⟩ := h
      have := ih a ha; omega

theorem missPos_nodup : ∀ (ixs : List Ix), (missPos ixs).Nodup
  | [] => by simp [missPos]
  | ix :: ixs => by
    have ih := missPos_nodup ixs
    have sh : ∀ k, ((missPos ixs).map (· + k)).Nodup := fun k => List.Nodup.map (fun a b h => by simpa using h) ih
    cases ix with
    | missing =>
      simp only [missPos, List.nodup_cons]
      exact ⟨by simp, sh 1⟩
    | _ => exact sh _

theorem missingDims_length : ∀ (ixs : List Ix) (shape : List Nat), ixs.length ≤ shape.length → (missingDims ixs shape).length = (missPos ixs).length
  | [], _, _ => by simp [missingDims, missPos]
  | ix :: ixs, [], h => by simp at h
  | ix :: ixs, d :: ds, h => by
    have ih := missingDims_length ixs ds (by simpa using h)
    cases ix <;> simp [missingDims, missPos, ih]

/-- The index vector. -/
def Ix.full (origin d : Nat) (ix : Ix) : List IxElem :=
  match ix.raw with
  | some l => l
  | none => (List.range d).map fun i => .int ((origin + i : Nat) : Int)

theorem fillMissing_ok (origin : Nat) : ∀ (ixs : List Ix) (shape upd out : List Nat), ixs.length ≤ shape.length → NoOther ixs →
    (∀ d ∈ missingDims ixs shape, d ≤ maxInt) → upd.length = (missPos ixs).length → (∀ u ∈ upd, u < out.length) →
    fillMissing origin (ixs.map Ix.raw) shape upd out =
      .ok (List.zipWith (fun ix d => ix.full origin d) ixs shape, setAll out (upd.zip (missingDims ixs shape)))
  | [], shape, upd, out, _, _, _, _, _ => by simp [fillMissing, missingDims, setAll]
  | ix :: ixs, [], _, _, h, _, _, _, _ => by simp at h
  | ix :: ixs, d :: ds, upd, out, hl, ho, hd, hu, hb => by
    have ih := fun upd out => fillMissing_ok origin ixs ds upd out (by simpa using hl) (fun x hx => ho x (by simp [hx]))
    cases ix with
    | other => exact absurd rfl (ho .other (by simp))
    | missing =>
      cases upd with
      | nil => simp [missPos] at hu
      | cons u upd =>
        simp only [List.map_cons, Ix.raw, fillMissing]
        have hdm : d ≤ maxInt := hd d (by simp [missingDims])
        have hni : newIota origin d = .ok ((List.range d).map fun i => .int ((origin + i : Nat) : Int)) := by
          unfold newIota; rw [if_neg (by omega)]
        rw [hni, bind_ok, if_pos (hb u (by simp)), ih upd _ (fun x hx => hd x (by simp [missingDims, hx]))
          (by simpa [missPos] using hu) (by intro x hx; rw [List.length_set]; exact hb x (by simp [hx])), bind_ok]
        simp [missingDims, setAll, Ix.full, Ix.raw]
    | int k =>
      simp only [List.map_cons, Ix.raw, fillMissing]
      rw [ih upd out hd (by simpa [missPos] using hu) hb, bind_ok]
      rfl
    | vec l =>
      simp only [List.map_cons, Ix.raw, fillMissing]
      rw [ih upd out hd (by simpa [missPos] using hu) hb, bind_ok]
      rfl
    | mat m =>
      simp only [List.map_cons, Ix.raw, fillMissing]
      rw [ih upd out hd (by simpa [missPos] using hu) hb, bind_ok]
      rfl

/-- The shape `init` computes: the lengths of the missing indexes are put in the reverse order. -/
theorem fill_shape {ixs : List Ix} {shape : List Nat} (hl : ixs.length ≤ shape.length) (ho : NoOther ixs) :
    setAll (shape0 ixs) ((missPos ixs).reverse.zip (missingDims ixs shape)) = fillOut ixs (missingDims ixs shape).reverse := by
  have hlen := missingDims_length ixs shape hl
  have hz : (missPos ixs).reverse.zip (missingDims ixs shape) = ((missPos ixs).zip (missingDims ixs shape).reverse).reverse := by
    rw [List.zip_eq_zipWith, List.zip_eq_zipWith, List.reverse_zipWith (by simp [hlen]), List.reverse_reverse]
  have hn : (((missPos ixs).zip (missingDims ixs shape).reverse).map Prod.fst).Nodup := by
    rw [List.map_fst_zip (by simp [hlen])]; exact missPos_nodup ixs
  rw [hz, setAll_perm (List.reverse_perm _) (by rw [List.map_reverse]; exact List.nodup_reverse.mpr hn)]
  exact setAll_fill ixs _ ho (by simp [hlen])

theorem fillOut_right : ∀ (ixs : List Ix) (shape : List Nat), ixs.length ≤ shape.length →
    fillOut ixs (missingDims ixs shape) = (ixShapes ixs shape).flatten
  | [], _, _ => by simp [fillOut, ixShapes]
  | ix :: ixs, [], h => by simp at h
  | ix :: ixs, d :: ds, h => by
    have ih := fillOut_right ixs ds (by simpa using h)
    unfold ixShapes at ih ⊢
    cases ix <;> simp [fillOut, missingDims, Ix.shape, ih]

theorem fillOut_inj : ∀ (ixs : List Ix) (a b : List Nat), a.length = (missPos ixs).length → b.length = (missPos ixs).length →
    fillOut ixs a = fillOut ixs b → a = b
  | [], a, b, ha, hb, _ => by
    simp [missPos] at ha hb; rw [ha, hb]
  | ix :: ixs, a, b, ha, hb, h => by
    cases ix with
    | missing =>
      match a, b, ha, hb with
      | x :: a, y :: b, ha, hb =>
        simp only [fillOut, List.cons.injEq] at h
        rw [h.1, fillOut_inj ixs a b (by simpa [missPos] using ha) (by simpa [missPos] using hb) h.2]
      | [], _, ha, _ => simp [missPos] at ha
      | _ :: _, [], _, hb => simp [missPos] at hb
    | _ =>
      apply fillOut_inj ixs a b (by simpa [missPos] using ha) (by simpa [missPos] using hb)
      simpa [fillOut] using h

theorem vol_fillOut_perm : ∀ (ixs : List Ix) (a b : List Nat), a.Perm b → a.length = (missPos ixs).length → vol (fillOut ixs a) = vol (fillOut ixs b) := by
  have key : ∀ (ixs : List Ix) (a : List Nat), a.length = (missPos ixs).length → vol (fillOut ixs a) = vol (((ixs.filter fun ix => match ix with | .missing => false | _ => true).map fun ix => ix.shape 0).flatten) * vol a := by
    intro ixs
    induction ixs with
    | nil => intro a ha; simp [missPos] at ha; subst ha; simp [fillOut, vol]
    | cons ix ixs ih =>
      intro a ha
      cases ix with
      | missing =>
        cases a with
        | nil => simp [missPos] at ha
        | cons x a =>
          simp only [fillOut, vol, List.filter_cons, Bool.false_eq_true, if_false]
          rw [ih a (by simpa [missPos] using ha)]
          ring
      | _ =>
        simp only [fillOut, List.filter_cons, if_true, List.map_cons, List.flatten_cons, vol_append]
        rw [ih a (by simpa [missPos] using ha)]
        ring
  intro ixs a b h ha
  rw [key ixs a ha, key ixs b (by rw [← h.length_eq]; exact ha), vol_prod a, vol_prod b, h.prod_eq]

end Verif.Arr
