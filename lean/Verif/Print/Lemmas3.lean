import Verif.Print.Lemmas2

/-! # Printing: helper lemmas on arrays of four and more axes -/

namespace Verif.Print
open Verif.Arr

/-- A text is one line, or a line and the rest. -/
theorem line_or (s : Str) : 10 ∉ s ∨ ∃ l r, s = l ++ 10 :: r ∧ 10 ∉ l := by
  induction s with
  | nil => exact .inl (by simp)
  | cons x s ih =>
    by_cases hx : x = 10
    · exact .inr ⟨[], s, by simp [hx], by simp⟩
    · rcases ih with h | ⟨l, r, h1, h2⟩
      · exact .inl (by simp only [List.mem_cons, not_or]; exact ⟨fun e => hx e.symm, h⟩)
      · exact .inr ⟨x :: l, r, by simp [h1], by simp only [List.mem_cons, not_or]; exact ⟨fun e => hx e.symm, h2⟩⟩

theorem splitAfter_cons {c : Nat} (r : Str) (h : c ≠ 10) : splitAfter (c :: r) = match splitAfter r with
    | [] => [[c]]
    | l :: ls => (c :: l) :: ls := by
  rw [splitAfter]
  · rfl
  · exact h

theorem splitAfter_one : ∀ {s : Str}, 10 ∉ s → splitAfter s = if s = [] then [] else [s]
  | [], _ => rfl
  | x :: s, h => by
    simp only [List.mem_cons, not_or] at h
    rw [splitAfter_cons s (fun e => h.1 e.symm), splitAfter_one h.2]
    by_cases hs : s = []
    · simp [hs]
    · simp [hs]

theorem splitAfter_line : ∀ {l : Str} (r : Str), 10 ∉ l → splitAfter (l ++ 10 :: r) = (l ++ [10]) :: splitAfter r
  | [], r, _ => by simp [splitAfter]
  | x :: l, r, h => by
    simp only [List.mem_cons, not_or] at h
    rw [List.cons_append, splitAfter_cons _ (fun e => h.1 e.symm), splitAfter_line r h.2]
    simp

theorem indent_line {n : Nat} {l : Str} (r : Str) (h : 10 ∉ l) :
    indent (n + 1) (l ++ 10 :: r) = List.replicate (2 * Nat.min (n + 1) 10) 32 ++ l ++ 10 :: indent (n + 1) r := by
  unfold indent
  rw [if_neg (by omega), if_neg (by omega), splitAfter_line r h]
  simp

theorem indent_contents (n : Nat) (s : Str) : contents (indent n s) = contents s := by
  cases n with
  | zero => rfl
  | succ n =>
    suffices ∀ (k : Nat) (s : Str), s.length ≤ k → contents (indent (n + 1) s) = contents s from this _ s (Nat.le_refl _)
    intro k
    induction k with
    | zero =>
      intro s hs
      have : s = [] := List.length_eq_zero_iff.mp (by omega)
      subst this
      rfl
    | succ k ih =>
      intro s hs
      rcases line_or s with h | ⟨l, r, rfl, h⟩
      · unfold indent
        rw [if_neg (by omega), splitAfter_one h]
        by_cases hs0 : s = []
        · simp [hs0]
        · rw [if_neg hs0]
          simp only [List.map_cons, List.map_nil, List.flatten_cons, List.flatten_nil, List.append_nil]
          rw [contents_line h, contents_line, heading_blanks, words_blanks]
          simp only [List.mem_append, List.mem_replicate, not_or, not_and]
          exact ⟨fun _ => by decide, h⟩
      · simp only [List.length_append, List.length_cons] at hs
        rw [indent_line r h, contents_append, contents_append, ih r (by omega), contents_line h, contents_line, heading_blanks, words_blanks]
        simp only [List.mem_append, List.mem_replicate, not_or, not_and]
        exact ⟨fun _ => by decide, h⟩

theorem indent_heading {n : Nat} {l : Str} (h : 10 ∉ l) : ∃ p, indent n (l ++ [10]) = List.replicate p 32 ++ l ++ [10] := by
  cases n with
  | zero => exact ⟨0, by simp [indent]⟩
  | succ n =>
    refine ⟨2 * Nat.min (n + 1) 10, ?_⟩
    rw [indent_line [] h]
    simp [indent, splitAfter]

/-- Nothing but newlines. -/
theorem contents_newlines : ∀ {s : Str}, (∀ x ∈ s, x = 10) → contents s = []
  | [], _ => rfl
  | x :: s, h => by
    have hx := h x (by simp)
    subst hx
    have := contents_append [] s
    rw [List.nil_append] at this
    rw [this, contents_nil, contents_newlines fun y hy => h y (List.mem_cons_of_mem _ hy)]
    rfl

theorem vecText_nil : vecText [] = .ok [] := rfl

theorem text2_nil (r c : Nat) : ∃ s, text2 r c [] = .ok s ∧ contents s = [] := by
  unfold text2
  split
  · exact ⟨_, rfl, rfl⟩
  · rw [if_pos (by rfl), collect_map (g := fun _ => [])]
    · refine ⟨_, rfl, ?_⟩
      rw [joinWith_eq, contents_join1]
      simp only [List.flatMap_map, contents_nil]
      simp
    · intro i _
      simp [vecText_nil]

theorem text3_nil (n r c : Nat) : ∃ s, text3 n r c [] = .ok s ∧ contents s = [] := by
  unfold text3
  obtain ⟨s, h1, h2⟩ := text2_nil r c
  rw [if_pos (by rfl), collect_map (g := fun _ => s)]
  · refine ⟨_, rfl, ?_⟩
    rw [joinWith_eq, contents_join2]
    simp [h2]
  · intro i _
    simp [h1]

/-- Elements that are numbers, with texts that can be told apart. -/
def Plain (es : List Elem) : Prop := ∀ e ∈ es, e.kind = .number ∧ Word e.text

theorem Plain.scalars {es : List Elem} (h : Plain es) : allScalars es = true := by
  unfold allScalars
  rw [List.all_eq_true]
  intro e he
  unfold Elem.scalar
  rw [(h e he).1]; rfl

theorem Plain.chars {es : List Elem} (h : Plain es) (hne : es ≠ []) : allChars es = false := by
  cases es with
  | nil => exact absurd rfl hne
  | cons e es =>
    unfold allChars
    rw [List.all_cons, (h e (by simp)).1]; rfl

theorem Plain.words {es : List Elem} (h : Plain es) : ∀ s ∈ es.map Elem.text, Word s := by
  intro s hs
  obtain ⟨e, he, rfl⟩ := List.mem_map.mp hs
  exact (h e he).2

theorem digits_plain (n : Nat) : ∀ x ∈ (Nat.toDigits 10 n).map Char.toNat, x ≠ 10 := by
  intro x hx
  obtain ⟨c, hc, rfl⟩ := List.mem_map.mp hx
  have := Nat.isDigit_of_mem_toDigits (by decide) (by decide) hc
  intro e
  simp only [Char.isDigit, Bool.and_eq_true, decide_eq_true_eq] at this
  have h1 : '0'.toNat ≤ c.toNat := this.1
  rw [e] at h1
  exact absurd h1 (by decide)

theorem decimal_plain (i : Int) : 10 ∉ decimal i := by
  unfold decimal
  simp only [List.mem_append, not_or]
  refine ⟨by split <;> simp, fun h => digits_plain _ _ h rfl⟩

theorem higher_contents (origin : Nat) : ∀ (shape : List Nat) (pre : Str) (ind : Nat) (es : List Elem), 3 ≤ shape.length → shape.prod ≤ es.length →
    (es = [] ∨ ∀ d ∈ shape, 0 < d) → Plain es → 10 ∉ pre → pre.head? = some 91 →
    ∃ s, higher origin shape pre ind es = .ok s ∧ contents s = (es.map Elem.text).take shape.prod
  | [], _, _, _, h, _, _, _, _, _ => by simp at h
  | n :: shape, pre, ind, es, h3, hl, hz, hp, hpre, h91 => by
    simp only [higher]
    by_cases hs : shape.length < 3
    · rw [if_pos hs]
      match shape, h3, hs with
      | [r, c], _, _ =>
        simp only [lowText]
        rcases hz with rfl | hz
        · obtain ⟨s, h1, h2⟩ := text3_nil n r c
          rw [h1]
          exact ⟨_, rfl, by rw [indent_contents, h2]; simp⟩
        · have hn := hz n (by simp)
          have hr := hz r (by simp)
          have hc := hz c (by simp)
          simp only [List.prod_cons, List.prod_nil, Nat.mul_one] at hl ⊢
          have hne : es ≠ [] := by
            rintro rfl
            have := Nat.mul_pos hn (Nat.mul_pos hr hc)
            simp at hl
            omega
          rw [text3_scalars hr hc hl hp.scalars (hp.chars hne)]
          refine ⟨_, rfl, ?_⟩
          rw [indent_contents, tables_contents hc (by simpa using hl) hp.words]
    · rw [if_neg hs]
      have hsub : ∀ i ∈ List.range n, ∃ s, higher origin shape (pre ++ decimal ((i : Int) + origin) ++ [32]) (ind + 1) (es.drop (i * shape.prod)) = .ok s ∧
          contents s = ((es.map Elem.text).drop (i * shape.prod)).take shape.prod := by
        intro i hi
        rw [List.mem_range] at hi
        have h2 : (i + 1) * shape.prod ≤ n * shape.prod := Nat.mul_le_mul hi (Nat.le_refl _)
        rw [Nat.add_mul, Nat.one_mul] at h2
        rw [List.prod_cons] at hl
        obtain ⟨s, e1, e2⟩ := higher_contents origin shape (pre ++ decimal ((i : Int) + origin) ++ [32]) (ind + 1) (es.drop (i * shape.prod)) (by omega)
          (by simp; omega)
          (by
            rcases hz with rfl | hz
            · exact .inl (by simp)
            · exact .inr fun d hd => hz d (List.mem_cons_of_mem _ hd))
          (fun e he => hp e (List.mem_of_mem_drop he))
          (by simp only [List.mem_append, List.mem_singleton, not_or]; exact ⟨⟨hpre, decimal_plain _⟩, by decide⟩)
          (by cases pre <;> simp_all)
        exact ⟨s, e1, by rw [e2, List.map_drop]⟩
      have hb : ∀ i ∈ List.range n, ∃ s, ((higher origin shape (pre ++ decimal ((i : Int) + origin) ++ [32]) (ind + 1) (es.drop (i * shape.prod))).bind fun s =>
          R.ok (indent ind (pre ++ decimal ((i : Int) + origin) ++ [32] ++ (List.replicate shape.length [32, 42]).flatten.drop 1 ++ [93, 58, 10]) ++ s)) = .ok s ∧
          contents s = ((es.map Elem.text).drop (i * shape.prod)).take shape.prod := by
        intro i hi
        obtain ⟨s, e1, e2⟩ := hsub i hi
        rw [e1]
        refine ⟨_, rfl, ?_⟩
        generalize hh : pre ++ decimal ((i : Int) + origin) ++ [32] ++ (List.replicate shape.length [32, 42]).flatten.drop 1 ++ [93, 58] = hdr
        have hhdr : pre ++ decimal ((i : Int) + origin) ++ [32] ++ (List.replicate shape.length [32, 42]).flatten.drop 1 ++ [93, 58, 10] = hdr ++ [10] := by
          rw [← hh]; simp
        have hnl : 10 ∉ hdr := by
          rw [← hh]
          simp only [List.mem_append, not_or]
          refine ⟨⟨⟨⟨hpre, decimal_plain _⟩, by decide⟩, ?_⟩, by decide⟩
          intro hm
          have := List.mem_of_mem_drop hm
          simp only [List.mem_flatten, List.mem_replicate] at this
          obtain ⟨l, ⟨_, rfl⟩, hl⟩ := this
          exact absurd hl (by decide)
        have h91' : heading hdr = true := by
          rw [← hh]
          unfold heading
          cases pre with
          | nil => simp at h91
          | cons x pre =>
            simp only [List.head?_cons, Option.some.injEq] at h91
            subst h91
            simp [List.dropWhile_cons]
        rw [hhdr]
        obtain ⟨p, hpd⟩ := indent_heading (n := ind) hnl
        rw [hpd, List.append_assoc, List.singleton_append, contents_append, contents_line, heading_blanks, h91', e2]
        · simp
        · simp only [List.mem_append, List.mem_replicate, not_or, not_and]
          exact ⟨fun _ => by decide, hnl⟩
      have hg : ∃ g : Nat → Str, ∀ i ∈ List.range n, ((higher origin shape (pre ++ decimal ((i : Int) + origin) ++ [32]) (ind + 1) (es.drop (i * shape.prod))).bind fun s =>
          R.ok (indent ind (pre ++ decimal ((i : Int) + origin) ++ [32] ++ (List.replicate shape.length [32, 42]).flatten.drop 1 ++ [93, 58, 10]) ++ s)) = .ok (g i) ∧
          contents (g i) = ((es.map Elem.text).drop (i * shape.prod)).take shape.prod := by
        refine ⟨fun i => if h : i ∈ List.range n then Classical.choose (hb i h) else [], fun i hi => ?_⟩
        simp only [hi, dif_pos]
        exact Classical.choose_spec (hb i hi)
      obtain ⟨g, hg⟩ := hg
      rw [collect_map (g := g) fun i hi => (hg i hi).1]
      refine ⟨_, rfl, ?_⟩
      rw [joinWith_eq, contents_join2, List.flatMap_map, List.prod_cons, ← flatMap_take shape.prod n _ (by rw [List.prod_cons] at hl; simpa using hl)]
      rw [List.flatMap_def, List.flatMap_def]
      congr 1
      exact List.map_congr_left fun i hi => (hg i hi).2

theorem prod_zero : ∀ {l : List Nat}, 0 ∈ l → l.prod = 0
  | d :: l, h => by
    simp only [List.mem_cons] at h
    rcases h with rfl | h
    · simp
    · rw [List.prod_cons, prod_zero h, Nat.mul_zero]

/-- Whatever the shape, the numbers are printed once each and in order. -/
theorem matText_contents {origin : Nat} {shape : List Nat} {es : List Elem} (hs : shape ≠ []) (hl : es.length = shape.prod) (hp : Plain es) :
    ∃ s, matText origin shape es = .ok s ∧ contents s = es.map Elem.text := by
  have htake : (es.map Elem.text).take shape.prod = es.map Elem.text := List.take_of_length_le (by simp [hl])
  have hz : es = [] ∨ ∀ d ∈ shape, 0 < d := by
    by_cases hne : es = []
    · exact .inl hne
    · refine .inr fun d hd => ?_
      rcases Nat.eq_zero_or_pos d with rfl | h
      · exact absurd (List.length_eq_zero_iff.mp (hl.trans (prod_zero hd))) hne
      · exact h
  unfold matText
  split
  · rename_i h3
    match shape, hs, h3 with
    | [n], _, _ =>
      simp only [lowText]
      rw [vecText_scalars hp.scalars]
      refine ⟨_, rfl, ?_⟩
      by_cases hne : es = []
      · subst hne; rfl
      · rw [hp.chars hne]
        simp only [Bool.false_eq_true, if_false]
        have h0 := tableLine_contents (f := fun _ => 0) (row := es.map Elem.text) (by simpa using hne) hp.words
        have : tableLine (fun _ => 0) (es.map Elem.text) = List.intercalate [32] (es.map Elem.text) := by
          unfold tableLine
          congr 1
          conv => rhs; rw [← List.map_id (es.map Elem.text)]
          rw [List.mapIdx_eq_zipIdx_map]
          simp [padLeft]
        rw [← this]
        exact h0.1
    | [r, c], _, _ =>
      simp only [lowText]
      rcases hz with rfl | hz
      · obtain ⟨s, h1, h2⟩ := text2_nil r c
        exact ⟨s, h1, h2⟩
      · have hr := hz r (by simp)
        have hc := hz c (by simp)
        simp only [List.prod_cons, List.prod_nil, Nat.mul_one] at hl htake
        have hne : es ≠ [] := by
          rintro rfl
          have := Nat.mul_pos hr hc
          simp at hl
          omega
        rw [text2_scalars hr hc (by omega) hp.scalars (hp.chars hne)]
        refine ⟨_, rfl, ?_⟩
        rw [table_contents hc (by simp; omega) hp.words, htake]
    | [n, r, c], _, _ =>
      simp only [lowText]
      rcases hz with rfl | hz
      · obtain ⟨s, h1, h2⟩ := text3_nil n r c
        exact ⟨s, h1, h2⟩
      · have hr := hz r (by simp)
        have hc := hz c (by simp)
        have hn := hz n (by simp)
        simp only [List.prod_cons, List.prod_nil, Nat.mul_one] at hl htake
        have hne : es ≠ [] := by
          rintro rfl
          have := Nat.mul_pos hn (Nat.mul_pos hr hc)
          simp at hl
          omega
        rw [text3_scalars hr hc (by omega) hp.scalars (hp.chars hne)]
        refine ⟨_, rfl, ?_⟩
        rw [tables_contents hc (by simp; omega) hp.words, htake]
  · rename_i h3
    obtain ⟨s, h1, h2⟩ := higher_contents origin shape [91] 0 es (by omega) (by omega) hz hp (by decide) rfl
    exact ⟨s, h1, by rw [h2, htake]⟩

end Verif.Print
