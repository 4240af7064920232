import Verif.Print.Lemmas6
import Verif.Lit.LemmasPrint

/-! # Printing: helper lemmas on values -/

namespace Verif.Print
open Verif.Arr
open Verif.Order (Val)

/-! ## Scalars -/

theorem sprint_scalar {sp : Val → Str} {o : Nat} {v : Val} (h : IsScalar v) : sprint sp o v = .ok (scalarText sp v) := by
  cases v with
  | num n => cases n <;> rfl
  | cplx a b => rfl
  | vec l => exact absurd h id
  | mat s d => exact absurd h id

theorem elemsOf_scalars {sp : Val → Str} {o : Nat} : ∀ {l : List Val}, (∀ v ∈ l, IsScalar v) → elemsOf sp o l = .ok (l.map fun v => ⟨kindOf v, scalarText sp v⟩)
  | [], _ => by simp [elemsOf]
  | v :: l, h => by
    simp only [elemsOf]
    rw [sprint_scalar (h v (by simp)), bind_ok, elemsOf_scalars fun x hx => h x (List.mem_cons_of_mem _ hx)]
    rfl

theorem kind_scalar {v : Val} (h : IsScalar v) : (kindOf v = .char ∧ IsChar v) ∨ (kindOf v = .number ∧ ¬ IsChar v) := by
  cases v with
  | num n => cases n <;> first | exact .inl ⟨rfl, trivial⟩ | exact .inr ⟨rfl, id⟩
  | cplx a b => exact .inr ⟨rfl, id⟩
  | vec l => exact absurd h id
  | mat s d => exact absurd h id

theorem scalars_all {sp : Val → Str} {l : List Val} (h : ∀ v ∈ l, IsScalar v) : allScalars (l.map fun v => (⟨kindOf v, scalarText sp v⟩ : Elem)) = true := by
  unfold allScalars
  rw [List.all_eq_true]
  intro e he
  obtain ⟨v, hv, rfl⟩ := List.mem_map.mp he
  rcases kind_scalar (h v hv) with h | h <;> simp [Elem.scalar, h.1]

theorem chars_all {sp : Val → Str} {l : List Val} (h : ∀ v ∈ l, IsChar v) : allChars (l.map fun v => (⟨kindOf v, scalarText sp v⟩ : Elem)) = true := by
  unfold allChars
  rw [List.all_eq_true]
  intro e he
  obtain ⟨v, hv, rfl⟩ := List.mem_map.mp he
  cases v with
  | num n => cases n <;> first | rfl | exact absurd (h _ hv) id
  | cplx a b => exact absurd (h _ hv) id
  | vec l => exact absurd (h _ hv) id
  | mat s d => exact absurd (h _ hv) id

theorem chars_not {sp : Val → Str} {l : List Val} (h : ∀ v ∈ l, IsScalar v) (hn : ∃ v ∈ l, ¬ IsChar v) :
    allChars (l.map fun v => (⟨kindOf v, scalarText sp v⟩ : Elem)) = false := by
  rw [Bool.eq_false_iff]
  intro hc
  obtain ⟨v, hv, hnc⟩ := hn
  unfold allChars at hc
  rw [List.all_eq_true] at hc
  have := hc _ (List.mem_map.mpr ⟨v, hv, rfl⟩)
  rcases kind_scalar (h v hv) with h | h
  · exact hnc h.2
  · simp [h.1] at this

theorem IsNumber.scalar {v : Val} (h : IsNumber v) : IsScalar v := by
  cases v with
  | num n => trivial
  | cplx a b => trivial
  | vec l => exact absurd h id
  | mat s d => exact absurd h id

theorem IsNumber.notChar {v : Val} (h : IsNumber v) : ¬ IsChar v := by
  cases v with
  | num n => cases n <;> first | exact id | exact absurd h id
  | cplx a b => exact id
  | vec l => exact id
  | mat s d => exact id

theorem IsNumber.text {sp : Val → Str} {v : Val} (h : IsNumber v) : scalarText sp v = sp v := by
  cases v with
  | num n => cases n <;> first | rfl | exact absurd h id
  | cplx a b => rfl
  | vec l => rfl
  | mat s d => rfl

theorem IsNumber.kind {v : Val} (h : IsNumber v) : kindOf v = .number := by
  rcases kind_scalar h.scalar with h1 | h1
  · exact absurd h1.2 h.notChar
  · exact h1.1

theorem IsChar.scalar {v : Val} (h : IsChar v) : IsScalar v := by
  cases v with
  | num n => trivial
  | cplx a b => trivial
  | vec l => exact absurd h id
  | mat s d => exact absurd h id

theorem texts_numbers {sp : Val → Str} {l : List Val} (h : ∀ v ∈ l, IsNumber v) : l.map (scalarText sp) = l.map sp :=
  List.map_congr_left fun v hv => (h v hv).text

theorem elems_text {sp : Val → Str} (l : List Val) : (l.map fun v => (⟨kindOf v, scalarText sp v⟩ : Elem)).map Elem.text = l.map (scalarText sp) := by
  rw [List.map_map]
  rfl

/-! ## Tables are rectangles -/

theorem intercalate_length {sep : Str} : ∀ {a b : List Str}, a.map List.length = b.map List.length → (List.intercalate sep a).length = (List.intercalate sep b).length
  | [], [], _ => rfl
  | [s], [t], h => by simpa [intercalate_one] using h
  | s :: s1 :: a, t :: t1 :: b, h => by
    simp only [List.map_cons, List.cons.injEq] at h
    rw [intercalate_cons (r := s1 :: a) (by simp), intercalate_cons (r := t1 :: b) (by simp), List.length_append, List.length_append, List.length_append, List.length_append, h.1,
      intercalate_length (a := s1 :: a) (b := t1 :: b) (by simp [h.2])]
  | [], t :: b, h => by simp at h
  | [s], [], h => by simp at h
  | [s], t :: t1 :: b, h => by simp at h
  | s :: s1 :: a, [], h => by simp at h
  | s :: s1 :: a, [t], h => by simp at h

theorem tableLine_lengths {f : Nat → Nat} {row row' : List Str} (hl : row.length = row'.length) (h : ∀ (i : Nat) s, row[i]? = some s → s.length ≤ f i)
    (h' : ∀ (i : Nat) s, row'[i]? = some s → s.length ≤ f i) : (tableLine f row).length = (tableLine f row').length := by
  have key : ∀ {row : List Str}, (∀ (i : Nat) s, row[i]? = some s → s.length ≤ f i) →
      (row.mapIdx fun j s => padLeft (f j) s).map List.length = (List.range row.length).map f := by
    intro row h
    apply List.ext_getElem?
    intro i
    rw [List.getElem?_map, List.getElem?_mapIdx, List.getElem?_map]
    cases hi : row[i]? with
    | none =>
      rw [List.getElem?_eq_none (by have := List.getElem?_eq_none_iff.mp hi; simpa using this)]
      rfl
    | some s =>
      have hlt := (List.getElem?_eq_some_iff.mp hi).1
      rw [List.getElem?_range hlt]
      have := h i s hi
      simp [padLeft]
      omega
  unfold tableLine
  exact intercalate_length (by rw [key h, key h', hl])

/-- The lines of a table. -/
theorem tableLines_props {r c : Nat} {ts : List Str} (hc : 0 < c) (hl : ts.length = r * c) (hne : ∀ s ∈ ts, s ≠ []) (hnl : ∀ s ∈ ts, 10 ∉ s) :
    ∃ w, ∀ l ∈ tableLines r c ts, 10 ∉ l ∧ l.length = w ∧ l ≠ [] := by
  have hrow : ∀ i, i < r → ((ts.drop (i * c)).take c).length = c := by
    intro i hi
    have : (i + 1) * c ≤ r * c := Nat.mul_le_mul_right c hi
    rw [Nat.add_mul] at this
    simp
    omega
  have hmem : ∀ i, ∀ s ∈ (ts.drop (i * c)).take c, s ∈ ts := fun i s hs => List.mem_of_mem_drop (List.mem_of_mem_take hs)
  have hfit : ∀ i, ∀ (j : Nat) s, ((ts.drop (i * c)).take c)[j]? = some s → s.length ≤ width c ts j := by
    intro i j s hj
    have hjc : j < c := by
      have := (List.getElem?_eq_some_iff.mp hj).1
      simp at this
      omega
    rw [List.getElem?_take_of_lt hjc, List.getElem?_drop] at hj
    unfold width
    split
    · exact le_longest (List.mem_of_getElem? hj)
    · refine le_longest (mem_column hj ?_)
      rw [Nat.zero_add, Nat.add_comm, Nat.add_mul_mod_self_right]
      exact Nat.mod_eq_of_lt hjc
  refine ⟨(tableLine (width c ts) ((ts.drop (0 * c)).take c)).length, ?_⟩
  intro l hl'
  simp only [tableLines, tableRows, List.map_map, List.mem_map] at hl'
  obtain ⟨i, hi, rfl⟩ := hl'
  have hir := List.mem_range.mp hi
  refine ⟨tableLine_nl fun s hs => hnl s (hmem i s hs), ?_, ?_⟩
  · exact tableLine_lengths (by rw [hrow i hir, hrow 0 (by omega)]) (hfit i) (hfit 0)
  · simp only [Function.comp_apply]
    have h1 := hrow i hir
    cases hs : (ts.drop (i * c)).take c with
    | nil => rw [hs] at h1; simp at h1; omega
    | cons s row =>
      exact tableLine_ne (s := s) rfl (hne s (hmem i s (by rw [hs]; simp)))

theorem tableLines_length (r c : Nat) (ts : List Str) : (tableLines r c ts).length = r := by simp [tableLines, tableRows]

/-! ## Tables in an array -/

/-- The lines of an element. -/
def faceLines (sp : Val → Str) : Val → List Str
  | .mat [r, c] d => tableLines r c (d.map sp)
  | v => [sp v]

/-- Its text. -/
def faceElem (sp : Val → Str) (v : Val) : Elem := ⟨kindOf v, List.intercalate [10] (faceLines sp v)⟩

theorem sprint_face {sp : Val → Str} {o : Nat} {v : Val} (h : IsNumber v ∨ IsTable sp v) : sprint sp o v = .ok (faceElem sp v).text := by
  rcases h with h | ⟨r, c, d, rfl, hr, hc, hl, hd⟩
  · rw [sprint_scalar h.scalar, h.text]
    cases v with
    | num n => simp [faceElem, faceLines, intercalate_one]
    | cplx a b => simp [faceElem, faceLines, intercalate_one]
    | vec l => exact absurd h id
    | mat s d => exact absurd h id
  · have hsc : ∀ v ∈ d, IsScalar v := fun v hv => (hd v hv).1.scalar
    have hne : ∃ v ∈ d, ¬ IsChar v := by
      cases d with
      | nil =>
        have : 0 < r * c := Nat.mul_pos (by omega) hc
        simp at hl
        omega
      | cons v d => exact ⟨v, by simp, (hd v (by simp)).1.notChar⟩
    simp only [sprint]
    rw [elemsOf_scalars hsc, bind_ok]
    simp only [matText, List.length_cons, List.length_nil, Nat.reduceLeDiff, if_true, lowText]
    rw [text2_scalars (by omega) hc (by rw [List.length_map, hl]) (scalars_all hsc) (chars_not hsc hne), elems_text, texts_numbers fun v hv => (hd v hv).1]
    rfl

theorem elemsOf_faces {sp : Val → Str} {o : Nat} : ∀ {l : List Val}, (∀ v ∈ l, IsNumber v ∨ IsTable sp v) → elemsOf sp o l = .ok (l.map (faceElem sp))
  | [], _ => by simp [elemsOf]
  | v :: l, h => by
    simp only [elemsOf]
    rw [sprint_face (h v (by simp)), bind_ok, elemsOf_faces fun x hx => h x (List.mem_cons_of_mem _ hx)]
    rfl

theorem table_two {sp : Val → Str} {v : Val} (h : IsTable sp v) : (faceElem sp v).scalar = false ∧ 2 ≤ (faceLines sp v).length ∧ ∃ w, Rect (faceElem sp v) (faceLines sp v) w := by
  obtain ⟨r, c, d, rfl, hr, hc, hl, hd⟩ := h
  refine ⟨rfl, by simp only [faceLines]; rw [tableLines_length]; exact hr, ?_⟩
  obtain ⟨w, hw⟩ := tableLines_props (r := r) (ts := d.map sp) hc (by simpa using hl)
    (fun s hs => by obtain ⟨v, hv, rfl⟩ := List.mem_map.mp hs; exact (hd v hv).2.1)
    (fun s hs => by obtain ⟨v, hv, rfl⟩ := List.mem_map.mp hs; exact (hd v hv).2.2)
  refine ⟨w, ?_, rfl, hw⟩
  intro h0
  have := tableLines_length r c (d.map sp)
  simp only [faceLines] at h0
  rw [h0] at this
  simp at this
  omega

theorem number_one {sp : Val → Str} {v : Val} (h : IsNumber v) (h1 : sp v ≠ []) (h2 : 10 ∉ sp v) :
    (faceElem sp v).scalar = true ∧ faceLines sp v = [sp v] ∧ ∃ w, Rect (faceElem sp v) (faceLines sp v) w := by
  have hl : faceLines sp v = [sp v] := by
    cases v with
    | num n => rfl
    | cplx a b => rfl
    | vec l => exact absurd h id
    | mat s d => exact absurd h id
  refine ⟨?_, hl, (sp v).length, ?_, ?_, ?_⟩
  · unfold Elem.scalar faceElem
    rw [h.kind]
    rfl
  · rw [hl]; simp
  · rfl
  · rw [hl]
    intro l hl
    rw [List.mem_singleton] at hl
    subst hl
    exact ⟨h2, rfl, h1⟩

theorem faces_regular {sp : Val → Str} {l : List Val} (h : ∀ v ∈ l, (IsNumber v ∧ sp v ≠ [] ∧ 10 ∉ sp v) ∨ IsTable sp v) :
    Regular (l.map (faceElem sp)) (l.map (faceLines sp)) := by
  have key : ∀ (i : Nat) e ls, (l.map (faceElem sp))[i]? = some e → (l.map (faceLines sp))[i]? = some ls → ∃ v ∈ l, e = faceElem sp v ∧ ls = faceLines sp v := by
    intro i e ls he hls
    rw [List.getElem?_map] at he hls
    cases hv : l[i]? with
    | none => rw [hv] at he; simp at he
    | some v =>
      rw [hv] at he hls
      simp only [Option.map_some, Option.some.injEq] at he hls
      exact ⟨v, List.mem_of_getElem? hv, he.symm, hls.symm⟩
  refine ⟨by simp, ?_, .inr ?_⟩
  · intro i e ls he hls
    obtain ⟨v, hv, rfl, rfl⟩ := key i e ls he hls
    rcases h v hv with ⟨h1, h2, h3⟩ | h1
    · obtain ⟨a, b, c⟩ := number_one h1 h2 h3
      exact ⟨c, fun _ => by rw [b]; rfl⟩
    · obtain ⟨a, b, c⟩ := table_two h1
      exact ⟨c, fun hs => by rw [a] at hs; simp at hs⟩
  · intro i e ls he hls hs
    obtain ⟨v, hv, rfl, rfl⟩ := key i e ls he hls
    rcases h v hv with ⟨h1, h2, h3⟩ | h1
    · rw [(number_one h1 h2 h3).1] at hs; simp at hs
    · exact (table_two h1).2.1

theorem faces_shown {sp : Val → Str} {l : List Val} (h : ∀ v ∈ l, IsNumber v ∨ IsTable sp v) : shownAll (l.map (faceElem sp)) (l.map (faceLines sp)) = l.map (face sp) := by
  induction l with
  | nil => rfl
  | cons v l ih =>
    have := ih fun x hx => h x (List.mem_cons_of_mem _ hx)
    simp only [shownAll, List.map_cons, List.zipWith_cons_cons] at this ⊢
    rw [this]
    congr 1
    rcases h v (by simp) with h1 | ⟨r, c, d, rfl, _⟩
    · cases v with
      | num n => cases n <;> first | rfl | exact absurd h1 id
      | cplx a b => rfl
      | vec l => exact absurd h1 id
      | mat s d => exact absurd h1 id
    · rfl

theorem faces_notScalar {sp : Val → Str} {l : List Val} (h : ∃ v ∈ l, IsTable sp v) : allScalars (l.map (faceElem sp)) = false := by
  rw [Bool.eq_false_iff]
  intro hs
  obtain ⟨v, hv, ht⟩ := h
  unfold allScalars at hs
  rw [List.all_eq_true] at hs
  have := hs _ (List.mem_map.mpr ⟨v, hv, rfl⟩)
  rw [(table_two ht).1] at this
  simp at this

/-! ## The texts of numbers -/

theorem dg_char {b : Nat} {c : Char} (h : Lit.Dg b c) : c.toNat ≠ 32 ∧ c.toNat ≠ 10 ∧ c.toNat ≠ 91 := by
  obtain ⟨d, h, _⟩ := h
  have e0 : '0'.toNat = 48 := rfl
  have ea : 'a'.toNat = 97 := rfl
  have eA : 'A'.toNat = 65 := rfl
  rcases h with ⟨h1, h2⟩ | ⟨h1, h2, h3 | h3⟩ <;> omega

theorem real_chars {b : Nat} {t : List Char} (h : Lit.RealText b t) : ∀ c ∈ t, c.toNat ≠ 32 ∧ c.toNat ≠ 10 ∧ c.toNat ≠ 91 := by
  obtain ⟨sg, ds, fr, rfl, h1, _, h2, h3⟩ := h
  intro c hc
  simp only [List.mem_append] at hc
  rcases hc with (hc | hc) | hc
  · rcases h1 with rfl | rfl
    · simp at hc
    · rw [List.mem_singleton] at hc
      subst hc
      decide
  · exact dg_char (h2 c hc)
  · rcases h3 with rfl | ⟨es, rfl, _, h4⟩
    · simp at hc
    · simp only [List.mem_cons] at hc
      rcases hc with rfl | hc
      · decide
      · exact dg_char (h4 c hc)

theorem numText_word {b : Nat} {t : List Char} (h : Lit.NumText b t) : Word (t.map Char.toNat) := by
  have hall : ∀ c ∈ t, c.toNat ≠ 32 ∧ c.toNat ≠ 10 ∧ c.toNat ≠ 91 := by
    rcases h with h | ⟨x, y, rfl, hx, hy⟩
    · exact real_chars h
    · intro c hc
      simp only [List.mem_append, List.mem_cons] at hc
      rcases hc with hc | rfl | hc
      · exact real_chars hx c hc
      · decide
      · exact real_chars hy c hc
  obtain ⟨c, s, rfl, _⟩ := h.head
  refine ⟨by simp, ?_, ?_, ?_⟩
  · intro hm
    obtain ⟨x, hx, hx1⟩ := List.mem_map.mp hm
    exact (hall x hx).1 hx1
  · intro hm
    obtain ⟨x, hx, hx1⟩ := List.mem_map.mp hm
    exact (hall x hx).2.1 hx1
  · intro hm
    simp only [List.map_cons, List.head?_cons, Option.some.injEq] at hm
    exact (hall c (by simp)).2.2 hm

theorem toNat_inj {s t : List Char} (h : s.map Char.toNat = t.map Char.toNat) : s = t := by
  have hinj : Function.Injective Char.toNat := fun a b hab => by
    apply Char.ext
    exact UInt32.toNat_inj.mp hab
  exact List.map_injective_iff.mpr hinj h

end Verif.Print
