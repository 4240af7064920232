import Verif.Print.Lemmas4

/-! # Printing: helper lemmas on vectors of boxes -/

namespace Verif.Print
open Verif.Arr

/-! ## Lines of boxes side by side -/

theorem intercalate_append {sep : Str} : ∀ {a c : List Str}, a ≠ [] → c ≠ [] → List.intercalate sep (a ++ c) = List.intercalate sep a ++ sep ++ List.intercalate sep c
  | [s], c, _, hc => by rw [List.singleton_append, intercalate_cons hc, intercalate_one]
  | s :: t :: r, c, _, hc => by
    rw [List.cons_append, intercalate_cons (by simp), intercalate_append (a := t :: r) (by simp) hc, intercalate_cons (r := t :: r) (by simp)]
    simp

theorem beside_nil (sep : Str) (j : Nat) : beside sep [] j = [] := rfl

theorem beside_snoc {sep : Str} (bs : List (List Str)) (b : List Str) (j : Nat) :
    beside sep (bs ++ [b]) j = beside sep bs j ++ (if bs = [] then [] else sep) ++ cell (wide b) b j := by
  unfold beside
  rw [List.map_append]
  by_cases h : bs = []
  · subst h
    simp [intercalate_one, intercalate_nil']
  · rw [intercalate_append (by simpa using h) (by simp), if_neg h]
    simp [intercalate_one]

theorem beside_prefix {sep : Str} (j : Nat) : ∀ (c bs : List (List Str)), ∃ t, beside sep (bs ++ c) j = beside sep bs j ++ t
  | [], bs => ⟨[], by simp⟩
  | b :: c, bs => by
    obtain ⟨t, ht⟩ := beside_prefix (sep := sep) j c (bs ++ [b])
    refine ⟨(if bs = [] then [] else sep) ++ cell (wide b) b j ++ t, ?_⟩
    rw [show bs ++ b :: c = (bs ++ [b]) ++ c by simp, ht, beside_snoc]
    simp

theorem beside_take {sep : Str} (j k : Nat) (bs : List (List Str)) :
    (beside sep bs j).take (beside sep (bs.take k) j).length = beside sep (bs.take k) j := by
  obtain ⟨t, ht⟩ := beside_prefix (sep := sep) j (bs.drop k) (bs.take k)
  rw [List.take_append_drop] at ht
  rw [ht]
  simp

/-- All are boxes. -/
def Boxes (bs : List (List Str)) : Prop := ∀ b ∈ bs, ∃ w, Box b w

theorem cell_length {b : List Str} {w : Nat} (h : Box b w) (j : Nat) : (cell (wide b) b j).length = wide b := by
  rw [head_length h]
  unfold cell
  cases hj : b[j]? with
  | none => simp
  | some l => exact h.line l (List.mem_of_getElem? hj)

/-- How wide boxes side by side are. -/
def total (sep : Str) : List (List Str) → Nat
  | [] => 0
  | [b] => wide b
  | b :: r => wide b + sep.length + total sep r

theorem total_eq {sep : Str} (j : Nat) : ∀ {bs : List (List Str)}, Boxes bs → (beside sep bs j).length = total sep bs
  | [], _ => rfl
  | [b], h => by
    obtain ⟨w, hw⟩ := h b (by simp)
    simp only [beside, List.map_cons, List.map_nil, intercalate_one, total]
    exact cell_length hw j
  | b :: b1 :: r, h => by
    obtain ⟨w, hw⟩ := h b (by simp)
    have ih := total_eq (sep := sep) j (bs := b1 :: r) (fun x hx => h x (List.mem_cons_of_mem _ hx))
    unfold beside at ih ⊢
    rw [List.map_cons, intercalate_cons (by simp), total]
    · simp only [List.length_append]
      rw [cell_length hw j, ih]
    · simp

theorem total_snoc {sep : Str} {bs : List (List Str)} {b : List Str} (h : Boxes (bs ++ [b])) :
    total sep (bs ++ [b]) = total sep bs + (if bs = [] then 0 else sep.length) + wide b := by
  have h1 : Boxes bs := fun x hx => h x (by simp [hx])
  obtain ⟨w, hw⟩ := h b (by simp)
  rw [← total_eq 0 h, ← total_eq 0 h1, beside_snoc, List.length_append, List.length_append, cell_length hw]
  split <;> simp

theorem tallest_snoc : ∀ (bs : List (List Str)) (b : List Str), tallest (bs ++ [b]) = max (tallest bs) b.length
  | [], b => by simp [tallest]
  | c :: bs, b => by simp only [List.cons_append, tallest]; rw [tallest_snoc bs b]; omega

theorem le_tallest : ∀ {bs : List (List Str)} {b : List Str}, b ∈ bs → b.length ≤ tallest bs
  | c :: bs, b, h => by
    simp only [List.mem_cons] at h
    simp only [tallest]
    rcases h with rfl | h
    · omega
    · have := le_tallest h; omega

theorem tallest_pos {bs : List (List Str)} (h : Boxes bs) (hn : bs ≠ []) : 0 < tallest bs := by
  cases bs with
  | nil => exact absurd rfl hn
  | cons b r =>
    obtain ⟨w, hw⟩ := h b (by simp)
    have := List.length_pos_iff.mpr hw.some
    simp only [tallest]
    omega

theorem upTo_le (j : Nat) (bs : List (List Str)) : upTo j bs ≤ bs.length := by
  unfold upTo
  have := (List.dropWhile_sublist (fun b => decide (b.length ≤ j)) (l := bs.reverse)).length_le
  simpa using this

theorem upTo_snoc (j : Nat) (bs : List (List Str)) (b : List Str) : upTo j (bs ++ [b]) = if b.length ≤ j then upTo j bs else bs.length + 1 := by
  unfold upTo
  rw [List.reverse_append, List.reverse_singleton, List.singleton_append, List.dropWhile_cons]
  by_cases h : b.length ≤ j <;> simp [h]

theorem upTo_zero {j : Nat} : ∀ {bs : List (List Str)}, tallest bs ≤ j → upTo j bs = 0 := by
  intro bs h
  unfold upTo
  rw [List.length_eq_zero_iff]
  have hall : ∀ l : List (List Str), (∀ b ∈ l, b.length ≤ j) → l.dropWhile (fun b => decide (b.length ≤ j)) = [] := by
    intro l
    induction l with
    | nil => intro _; rfl
    | cons b l ih =>
      intro h
      rw [List.dropWhile_cons, if_pos (by simpa using h b (by simp))]
      exact ih fun x hx => h x (List.mem_cons_of_mem _ hx)
  refine hall _ fun b hb => ?_
  have := le_tallest (List.mem_reverse.mp hb)
  omega

/-- Below all boxes there are blanks. -/
theorem beside_blank {sep : Str} (hsep : ∀ c ∈ sep, c = 32) {j : Nat} : ∀ {bs : List (List Str)}, tallest bs ≤ j → ∀ c ∈ beside sep bs j, c = 32 := by
  intro bs
  unfold beside
  induction bs with
  | nil => intro _ c hc; simp [intercalate_nil'] at hc
  | cons b r ih =>
    intro h
    simp only [tallest] at h
    have hcell : ∀ c ∈ cell (wide b) b j, c = 32 := by
      unfold cell
      rw [List.getElem?_eq_none (by omega)]
      intro c hc
      simp only [Option.getD_none] at hc
      exact List.eq_of_mem_replicate hc
    cases r with
    | nil =>
      rw [List.map_cons, List.map_nil, intercalate_one]
      exact hcell
    | cons b1 r =>
      rw [List.map_cons, intercalate_cons (by simp)]
      intro c hc
      simp only [List.mem_append] at hc
      rcases hc with (hc | hc) | hc
      · exact hcell c hc
      · exact hsep c hc
      · exact ih (by omega) c hc

theorem beside_below {sep : Str} (hsep : ∀ c ∈ sep, c = 32) {j : Nat} {bs : List (List Str)} (hb : Boxes bs) (h : tallest bs ≤ j) :
    beside sep bs j = List.replicate (total sep bs) 32 := by
  rw [List.eq_replicate_iff]
  exact ⟨total_eq j hb, beside_blank hsep h⟩

/-! ## The lines while the loop runs -/

/-- Line `j` once the boxes `bs` are written. -/
def stateLine (sep : Str) (bs : List (List Str)) (j : Nat) : Row := (beside sep bs j, (beside sep (bs.take (upTo j bs)) j).length)

/-- The lines once the boxes `bs` are written. -/
def state (sep : Str) (bs : List (List Str)) : List Row := (List.range (tallest bs)).map (stateLine sep bs)

theorem foldl_same {M : Nat} : ∀ {rows : List Row}, (∀ l ∈ rows, l.1.length = M) →
    rows.foldl (fun w l => if l.1.length > w then l.1.length else w) M = M
  | [], _ => rfl
  | l :: rows, h => by
    rw [List.foldl_cons, if_neg (by rw [h l (by simp)]; omega)]
    exact foldl_same fun x hx => h x (List.mem_cons_of_mem _ hx)

theorem widest_same {M : Nat} {rows : List Row} (hr : rows ≠ []) (h : ∀ l ∈ rows, l.1.length = M) : widest rows = M := by
  cases rows with
  | nil => exact absurd rfl hr
  | cons l rows =>
    unfold widest
    rw [List.foldl_cons, h l (by simp)]
    have : (if M > 0 then M else 0) = M := by split <;> omega
    rw [this]
    exact foldl_same fun x hx => h x (List.mem_cons_of_mem _ hx)

theorem state_length (sep : Str) (bs : List (List Str)) : (state sep bs).length = tallest bs := by simp [state]

theorem state_line {sep : Str} {bs : List (List Str)} (hb : Boxes bs) : ∀ l ∈ state sep bs, l.1.length = total sep bs := by
  intro l hl
  simp only [state, List.mem_map] at hl
  obtain ⟨j, _, rfl⟩ := hl
  exact total_eq j hb

theorem grow_state {sep : Str} (hsep : ∀ c ∈ sep, c = 32) {bs : List (List Str)} (hb : Boxes bs) (n : Nat) :
    grow n (state sep bs) = (List.range (max (tallest bs) n)).map (stateLine sep bs) := by
  unfold grow
  rw [state_length]
  by_cases h : n > tallest bs
  · rw [if_pos h, show max (tallest bs) n = tallest bs + (n - tallest bs) by omega, List.range_eq_range', List.range'_append_1.symm, List.map_append]
    simp only [Nat.zero_add]
    congr 1
    · rw [state, List.range_eq_range']
    · apply List.map_congr_left
      intro j hj
      have hj1 := (List.mem_range'_1.mp hj).1
      unfold stateLine
      rw [upTo_zero hj1, beside_below hsep hb hj1]
      simp only [List.take_zero, beside_nil, List.length_nil, Prod.mk.injEq, and_true]
      by_cases hbs : bs = []
      · subst hbs
        simp [state, tallest, total, widest]
      · have hp := tallest_pos hb hbs
        rw [if_pos (by omega), widest_same (M := total sep bs) _ (state_line hb)]
        intro h0
        have := state_length sep bs
        rw [h0] at this
        simp at this
        omega
  · rw [if_neg h, show max (tallest bs) n = tallest bs by omega, state]

/-- A line once a piece of a box is written on it. -/
def addLine (b : List Str) (w j : Nat) (l : Row) : Row :=
  match b[j]? with
  | some s => put s l
  | none => (l.1 ++ List.replicate w 32, l.2)

theorem attach_map {w : Nat} {f : Nat → Row} : ∀ (b : List Str) (k n : Nat), b.length ≤ n →
    attach b w ((List.range' k n).map f) = (List.range' k n).map fun j => addLine b w (j - k) (f j)
  | [], k, n, _ => by
    simp only [attach, List.length_nil, List.take_zero, zipPut, List.drop_zero, List.nil_append, List.map_map]
    apply List.map_congr_left
    intro j _
    simp [addLine]
  | s :: b, k, n + 1, h => by
    have ih := attach_map (w := w) (f := f) b (k + 1) n (by simpa using h)
    simp only [List.range'_succ, List.map_cons]
    unfold attach at ih ⊢
    simp only [List.length_cons, List.take_succ_cons, List.drop_succ_cons, zipPut, List.cons_append]
    rw [ih]
    congr 1
    · simp [addLine]
    · apply List.map_congr_left
      intro j hj
      have := (List.mem_range'_1.mp hj).1
      unfold addLine
      rw [show j - k = (j - (k + 1)) + 1 by omega, List.getElem?_cons_succ]
  | s :: b, k, 0, h => by simp at h

/-- The lines before a box is added. -/
def ready (sep : Str) (bs : List (List Str)) (n : Nat) : List Row :=
  (List.range (max (tallest bs) n)).map fun j => ((stateLine sep bs j).1 ++ (if bs = [] then [] else sep), (stateLine sep bs j).2)

theorem attach_state {sep : Str} {bs : List (List Str)} {b : List Str} :
    attach b (wide b) (ready sep bs b.length) = state sep (bs ++ [b]) := by
  unfold ready state
  rw [List.range_eq_range', attach_map b 0 _ (by omega), tallest_snoc, List.range_eq_range']
  apply List.map_congr_left
  intro j _
  simp only [Nat.sub_zero]
  unfold stateLine addLine
  rw [beside_snoc, upTo_snoc]
  by_cases hj : b.length ≤ j
  · rw [if_pos hj, List.getElem?_eq_none hj, List.take_append_of_le_length (upTo_le j bs)]
    simp only [cell, List.getElem?_eq_none hj, Option.getD_none]
  · rw [if_neg hj]
    have hlt : j < b.length := by omega
    rw [List.getElem?_eq_getElem hlt, List.take_of_length_le (l := bs ++ [b]) (by simp), beside_snoc]
    simp only [put, cell, List.getElem?_eq_getElem hlt, Option.getD_some]

/-! ## The loop -/

/-- Where the boxes end. -/
def boxEnds (sep : Str) : List (List Str) → List (List Str) → List Nat
  | _, [] => []
  | bs, b :: r => total sep (bs ++ [b]) :: boxEnds sep (bs ++ [b]) r

/-- An element and its lines; `one` says whether all elements have one line. -/
def FitLine (one : Bool) (e : Elem) (l : List Str) : Prop :=
  (∃ w, Rect e l w) ∧ (e.scalar = true → l.length = 1) ∧ (one = true → l.length = 1) ∧ (one = false → e.scalar = false → 2 ≤ l.length)

theorem shown_length (sc : Bool) (ls : List Str) : (shown sc ls).length = ls.length := by
  unfold shown
  split
  · rfl
  · exact box_count ls

theorem addElem_state {spaces one : Bool} {sep : Str} (hsp : sep = if spaces then [32] else []) {e : Elem} {l : List Str} {bs : List (List Str)}
    (hb : Boxes bs) (hf : FitLine one e l) (ht : one = true → tallest bs ≤ 1) :
    addElem spaces bs.isEmpty e (state sep bs) = .ok (state sep (bs ++ [shown e.scalar l]), total sep (bs ++ [shown e.scalar l])) := by
  have hsep : ∀ c ∈ sep, c = 32 := by
    rw [hsp]
    cases spaces <;> simp
  obtain ⟨⟨w, hr⟩, h1, h2, h3⟩ := hf
  obtain ⟨w', hw'⟩ := shown_box hr
  have hready : ready sep bs l.length = if (spaces && !bs.isEmpty) = true then spaceAll (grow l.length (state sep bs)) else grow l.length (state sep bs) := by
    rw [grow_state hsep hb]
    unfold ready spaceAll
    cases spaces with
    | false =>
      subst hsp
      simp
    | true =>
      subst hsp
      cases bs with
      | nil => simp
      | cons b r => simp
  have hlen : ∀ x ∈ ready sep bs l.length, x.1.length = total sep bs + (if bs = [] then 0 else sep.length) := by
    intro x hx
    simp only [ready, List.mem_map] at hx
    obtain ⟨j, _, rfl⟩ := hx
    simp only [List.length_append]
    rw [stateLine, total_eq j hb]
    split <;> simp
  rw [addElem_box hr h1 (fun hs hl => by
    rw [state_length]
    cases one with
    | true => exact ht rfl
    | false => have := h3 rfl hs; omega) hready hlen]
  have hbs : Boxes (bs ++ [shown e.scalar l]) := by
    intro x hx
    simp only [List.mem_append, List.mem_singleton] at hx
    rcases hx with hx | rfl
    · exact hb x hx
    · exact ⟨w', hw'⟩
  rw [total_snoc hbs, ← attach_state, shown_length]

theorem multiLoop_state {spaces one : Bool} {sep : Str} (hsp : sep = if spaces then [32] else []) : ∀ (es : List Elem) (ls : List (List Str)) (bs : List (List Str)),
    List.Forall₂ (FitLine one) es ls → Boxes bs → (one = true → tallest bs ≤ 1) →
    multiLoop spaces bs.isEmpty es (state sep bs) = .ok (state sep (bs ++ shownAll es ls), boxEnds sep bs (shownAll es ls))
  | [], [], bs, _, _, _ => by simp [multiLoop, shownAll, boxEnds]
  | e :: es, l :: ls, bs, .cons hf hfs, hb, ht => by
    obtain ⟨⟨w, hr⟩, h1, h2, h3⟩ := hf
    obtain ⟨w', hw'⟩ := shown_box hr
    have hbs : Boxes (bs ++ [shown e.scalar l]) := by
      intro x hx
      simp only [List.mem_append, List.mem_singleton] at hx
      rcases hx with hx | rfl
      · exact hb x hx
      · exact ⟨w', hw'⟩
    have ih := multiLoop_state hsp es ls (bs ++ [shown e.scalar l]) hfs hbs (fun ho => by
      rw [tallest_snoc, shown_length, h2 ho]
      have := ht ho
      omega)
    have hemp : (bs ++ [shown e.scalar l]).isEmpty = false := by cases bs <;> rfl
    rw [hemp] at ih
    simp only [multiLoop]
    rw [addElem_state hsp hb ⟨⟨w, hr⟩, h1, h2, h3⟩ ht]
    simp only [bind_ok]
    rw [ih]
    simp [shownAll, boxEnds]

theorem forall₂_of_index {α β : Type} {r : α → β → Prop} : ∀ {a : List α} {b : List β}, a.length = b.length →
    (∀ (i : Nat) x y, a[i]? = some x → b[i]? = some y → r x y) → List.Forall₂ r a b
  | [], [], _, _ => .nil
  | x :: a, y :: b, h, hp => .cons (hp 0 x y rfl rfl) (forall₂_of_index (by simpa using h) fun i u v hu hv => hp (i + 1) u v hu hv)

/-- What `Regular` says, element by element. -/
theorem Regular.fit {es : List Elem} {ls : List (List Str)} (h : Regular es ls) : ∃ one, List.Forall₂ (FitLine one) es ls := by
  have key : ∀ one, (∀ (i : Nat) e l, es[i]? = some e → ls[i]? = some l → FitLine one e l) → List.Forall₂ (FitLine one) es ls := by
    intro one hp
    exact forall₂_of_index h.len hp
  rcases h.tall with ht | ht
  · refine ⟨true, key true fun i e l he hl => ⟨(h.rect i e l he hl).1, (h.rect i e l he hl).2, fun _ => ht l (List.mem_of_getElem? hl), by simp⟩⟩
  · exact ⟨false, key false fun i e l he hl => ⟨(h.rect i e l he hl).1, (h.rect i e l he hl).2, by simp, fun _ => ht i e l he hl⟩⟩

theorem multi_state {spaces trim : Bool} {es : List Elem} {ls : List (List Str)} (h : Regular es ls) (hn : allScalars es = false) :
    multi spaces trim es = .ok ((List.range (tallest (shownAll es ls))).map (fun j =>
      beside (if spaces then [32] else []) (if trim then (shownAll es ls).take (upTo j (shownAll es ls)) else shownAll es ls) j),
      boxEnds (if spaces then [32] else []) [] (shownAll es ls)) := by
  obtain ⟨one, hf⟩ := h.fit
  unfold multi
  rw [hn]
  simp only [Bool.false_eq_true, if_false]
  have := multiLoop_state (spaces := spaces) rfl es ls [] hf (by intro b hb; simp at hb) (by simp [tallest])
  have h0 : state (if spaces = true then [32] else []) [] = [] := rfl
  rw [h0] at this
  simp only [List.isEmpty_nil, List.nil_append] at this
  rw [this]
  simp only [bind_ok, state, List.map_map]
  congr 2
  apply List.map_congr_left
  intro j _
  simp only [Function.comp_apply, stateLine]
  cases trim
  · simp
  · simp only [if_true]
    exact beside_take j _ _

/-- A vector of boxes. -/
theorem vecText_boxes {es : List Elem} {ls : List (List Str)} (h : Regular es ls) (hn : allScalars es = false) :
    vecText es = .ok (List.intercalate [10] ((List.range (tallest (shownAll es ls))).map fun j =>
      beside [32] ((shownAll es ls).take (upTo j (shownAll es ls))) j)) := by
  have hc : allChars es = false := by
    rw [Bool.eq_false_iff] at hn ⊢
    intro hc
    apply hn
    unfold allChars at hc
    unfold allScalars
    rw [List.all_eq_true] at hc ⊢
    intro e he
    have := hc e he
    unfold Elem.scalar
    rw [this]; rfl
  unfold vecText
  rw [hc, Bool.not_false, multi_state h hn]
  simp only [bind_ok, joinWith_eq, if_true]

end Verif.Print
