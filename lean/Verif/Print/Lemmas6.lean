import Verif.Print.Lemmas5

/-! # Printing: helper lemmas on matrices of boxes -/

namespace Verif.Print
open Verif.Arr

/-! ## The pieces -/

theorem seen_again {c : Nat} {ts : List Str} {s : Str} {w : Widths} (hc : 0 < c) (h : Seen c (ts ++ [s]) w) :
    w.addColumn (ts.length % c) s.length = .ok w := by
  have hmod := Nat.mod_lt ts.length hc
  have hle := Nat.mod_le ts.length c
  have hlt : ts.length % c < w.wid.length := by
    rw [h.len]
    simp only [List.length_append, List.length_singleton]
    omega
  have hcol : s.length ≤ longest (column c (ts.length % c) 0 (ts ++ [s])) := le_longest (mem_column (i := ts.length) (by simp) (by simp))
  have hmax : s.length ≤ w.max := by
    rw [h.max]
    exact le_longest (by simp)
  unfold Widths.addColumn
  rw [if_pos hlt, List.getD_eq_getElem?_getD, h.wid _ hlt]
  have h1 : Nat.max w.max s.length = w.max := Nat.max_eq_left hmax
  have h2 : w.wid.set (ts.length % c) (Nat.max s.length (longest (column c (ts.length % c) 0 (ts ++ [s])))) = w.wid := by
    apply List.ext_getElem?
    intro i
    rw [List.getElem?_set]
    split
    · rename_i he
      subst he
      rw [h.wid _ hlt]
      congr 1
      exact Nat.max_eq_right hcol
    · rfl
  simp only [Option.getD_some]
  rw [h1, h2]

theorem cutRows_again {col a b n : Nat} {w : Widths} {f g : Nat → Str} (hw : w.addColumn col n = .ok w) : ∀ js : List Nat,
    (∀ j ∈ js, f j ≠ [] ∧ cut (f j) a b = .ok (g j) ∧ (g j).length = n) → cutRows col a b (js.map f) w = .ok (js.map g, w)
  | [], _ => rfl
  | j :: js, h => by
    obtain ⟨h1, h2, h3⟩ := h j (by simp)
    simp only [List.map_cons, cutRows]
    rw [if_neg h1, h2]
    simp only [bind_ok]
    rw [h3, hw]
    simp only [bind_ok]
    rw [cutRows_again hw js fun x hx => h x (List.mem_cons_of_mem _ hx)]
    rfl

theorem cutRows_first {col a b n : Nat} {w w1 : Widths} {f g : Nat → Str} (hw : w.addColumn col n = .ok w1) (hw1 : w1.addColumn col n = .ok w1)
    {js : List Nat} (hj : js ≠ []) (h : ∀ j ∈ js, f j ≠ [] ∧ cut (f j) a b = .ok (g j) ∧ (g j).length = n) :
    cutRows col a b (js.map f) w = .ok (js.map g, w1) := by
  cases js with
  | nil => exact absurd rfl hj
  | cons j js =>
    obtain ⟨h1, h2, h3⟩ := h j (by simp)
    simp only [List.map_cons, cutRows]
    rw [if_neg h1, h2]
    simp only [bind_ok]
    rw [h3, hw]
    simp only [bind_ok]
    rw [cutRows_again hw1 js fun x hx => h x (List.mem_cons_of_mem _ hx)]
    rfl

theorem beside_bare (a c : List (List Str)) (j : Nat) : beside [] (a ++ c) j = beside [] a j ++ beside [] c j := by
  unfold beside
  rw [intercalate_empty, intercalate_empty, intercalate_empty]
  simp

/-- The lines of a piece. -/
def piece (t : Nat) (b : List Str) : List Str := (List.range t).map (cell (wide b) b)

theorem cutAll_boxes {c t : Nat} (hc : 0 < c) (ht : 0 < t) : ∀ (us bs : List (List Str)) (w : Widths), Boxes (bs ++ us) → Seen c (firstLines bs) w →
    ∃ w1, cutAll c ((List.range t).map (beside [] (bs ++ us))) bs.length (total [] bs) (boxEnds [] bs us) w = .ok (us.map (piece t), w1) ∧
      Seen c (firstLines (bs ++ us)) w1
  | [], bs, w, _, h => by
    refine ⟨w, rfl, ?_⟩
    rw [List.append_nil]; exact h
  | b :: us, bs, w, hb, h => by
    have hcons : bs ++ b :: us = (bs ++ [b]) ++ us := by simp
    have hfl : firstLines (bs ++ [b]) = firstLines bs ++ [b.head?.getD []] := by simp [firstLines]
    obtain ⟨w1, e1, h1⟩ := seen_add hc h (b.head?.getD [])
    have h1' : Seen c (firstLines (bs ++ [b])) w1 := by rw [hfl]; exact h1
    obtain ⟨w2, e2, h2⟩ := cutAll_boxes hc ht us (bs ++ [b]) w1 (by rw [← hcons]; exact hb) h1'
    refine ⟨w2, ?_, by rw [hcons]; exact h2⟩
    have hlen : (firstLines bs).length = bs.length := by simp [firstLines]
    rw [hlen] at e1
    have e1' := seen_again hc h1
    rw [hlen] at e1'
    have hb1 : Boxes (bs ++ [b]) := fun x hx => hb x (by rw [hcons]; exact List.mem_append_left _ hx)
    have hb0 : Boxes bs := fun x hx => hb x (by simp [hx])
    obtain ⟨v, hv⟩ := hb b (by simp)
    have htot : total [] (bs ++ [b]) = total [] bs + wide b := by
      rw [total_snoc hb1]
      split <;> simp
    simp only [boxEnds, cutAll]
    rw [if_neg (by omega)]
    have hi : (if bs.length = 0 then 0 else bs.length % c) = bs.length % c := by
      split
      · rename_i e; rw [e]; simp
      · rfl
    rw [hi, cutRows_first (g := cell (wide b) b) (n := wide b) e1 e1' (by simp; omega)]
    · simp only [bind_ok]
      have hl : bs.length + 1 = (bs ++ [b]).length := by simp
      rw [hl, hcons, e2]
      simp [piece]
    · intro j _
      have hcell := cell_length hv j
      have hpos : 0 < wide b := by rw [head_length hv]; exact hv.pos
      have hj : beside [] (bs ++ b :: us) j = beside [] bs j ++ cell (wide b) b j ++ beside [] us j := by
        rw [hcons, beside_bare, beside_bare]
        simp [beside, intercalate_one]
      refine ⟨?_, ?_, hcell⟩
      · rw [hj]
        intro h0
        simp only [List.append_eq_nil_iff] at h0
        rw [h0.1.2] at hcell
        simp at hcell
        omega
      · have hbl := total_eq (sep := []) j hb0
        have hbl1 : (beside [] bs j ++ cell (wide b) b j).length = total [] bs + wide b := by rw [List.length_append, hbl, hcell]
        unfold cut
        rw [htot, hj, if_pos (by rw [List.length_append, hbl1]; omega)]
        congr 1
        rw [List.take_left' hbl1, List.drop_left' hbl]

/-- The pieces of an array of boxes. -/
theorem elemStrs_boxes {shape : List Nat} {es : List Elem} {ls : List (List Str)} {c : Nat} (h : Regular es ls) (hn : allScalars es = false)
    (hb : Boxes (shownAll es ls)) (hne : shownAll es ls ≠ []) (hl : shape.getLastD 0 = c) (hc : 0 < c) :
    ∃ w, elemStrs shape es = .ok ((shownAll es ls).map (piece (tallest (shownAll es ls))), w) ∧ w.Fit c (firstLines (shownAll es ls)) := by
  unfold elemStrs
  rw [multi_state h hn, hl]
  simp only [bind_ok, Bool.false_eq_true, if_false]
  obtain ⟨w, e, hs⟩ := cutAll_boxes hc (tallest_pos hb hne) (shownAll es ls) [] ⟨[], 0⟩ hb (seen_nil c)
  simp only [List.nil_append, List.length_nil] at e hs
  exact ⟨w, e, fun j hj => seen_column hs hj⟩

/-! ## The rows -/

theorem writeLine_fun {α : Type} {w : Widths} {f : Nat → Nat} {line : Nat} {G : α → List Str} {S : α → Str} : ∀ (row : List α) (k : Nat),
    (∀ b ∈ row, (G b)[line]? = some (S b)) →
    (∀ (i : Nat) b, row[i]? = some b → w.column (k + i) = .ok (f (k + i)) ∧ (S b).length ≤ f (k + i)) →
    writeLine w line k (row.map G) = .ok (List.intercalate [32] ((row.map S).mapIdx fun j s => padLeft (f (k + j)) s))
  | [], k, _, _ => rfl
  | b :: row, k, hg, h => by
    obtain ⟨h1, h2⟩ := h 0 b rfl
    simp only [Nat.add_zero] at h1 h2
    have ih := writeLine_fun (w := w) (f := f) (line := line) (G := G) (S := S) row (k + 1) (fun x hx => hg x (List.mem_cons_of_mem _ hx)) (fun i t ht => by
      have := h (i + 1) t (by simpa using ht)
      rwa [show k + (i + 1) = k + 1 + i by omega] at this)
    simp only [List.map_cons, writeLine]
    rw [hg b (by simp)]
    simp only
    rw [h1]
    simp only [bind_ok]
    rw [blanks_nat _ _ h2]
    simp only [bind_ok]
    rw [ih]
    simp only [bind_ok, List.mapIdx_cons, Nat.add_zero]
    have he : ((row.map S).mapIdx fun j s => padLeft (f (k + (j + 1))) s) = (row.map S).mapIdx fun j s => padLeft (f (k + 1 + j)) s := by
      congr 1; funext j s; congr 2; omega
    rw [he]
    cases row with
    | nil => simp [intercalate_one, padLeft, List.intercalate]
    | cons t row => rw [intercalate_cons (by simp)]; simp [padLeft]

/-- A box whose last line is not blank, if it has several. -/
def Inked (b : List Str) : Prop := b.length = 1 ∨ ∃ l, b.getLast? = some l ∧ nonBlank l = true

theorem foldl_none {p : Nat → Bool} : ∀ (js : List Nat) (nb : Nat), (∀ j ∈ js, p j = false) → js.foldl (fun nb j => if p j = true then j else nb) nb = nb
  | [], nb, _ => rfl
  | j :: js, nb, h => by
    rw [List.foldl_cons, h j (by simp)]
    simp only [Bool.false_eq_true, if_false]
    exact foldl_none js nb fun x hx => h x (List.mem_cons_of_mem _ hx)

theorem foldl_last {p : Nat → Bool} {k n L : Nat} (hk : k ≤ L) (hL : L < k + n) (hp : p L = true) (h : ∀ j, L < j → p j = false) (nb : Nat) :
    (List.range' k n).foldl (fun nb j => if p j = true then j else nb) nb = L := by
  have hsplit : List.range' k n = List.range' k (L - k) ++ (L :: List.range' (L + 1) (k + n - L - 1)) := by
    rw [← List.range'_succ, show k + n - L - 1 + 1 = n - (L - k) by omega]
    have := List.range'_append_1 (s := k) (m := L - k) (n := n - (L - k))
    rw [show k + (L - k) = L by omega, show L - k + (n - (L - k)) = n by omega] at this
    exact this.symm
  rw [hsplit, List.foldl_append, List.foldl_cons, hp]
  simp only [if_true]
  exact foldl_none _ _ fun j hj => h j (by have := (List.mem_range'_1.mp hj).1; omega)

theorem nonBlank_blanks (n : Nat) : nonBlank (List.replicate n 32) = false := by
  unfold nonBlank
  rw [List.any_eq_false]
  intro c hc
  rw [List.eq_of_mem_replicate hc]
  decide

theorem piece_get {t j : Nat} (h : j < t) (b : List Str) : (piece t b)[j]? = some (cell (wide b) b j) := by
  unfold piece
  rw [List.getElem?_map, List.getElem?_range h]
  rfl

theorem lastLine_step {t nb : Nat} {b : List Str} (hb : b ≠ []) (hi : Inked b) (ht : b.length ≤ t) (hn : nb < t) :
    (List.range' nb ((piece t b).length - nb)).foldl (fun nb line => if nonBlank ((piece t b).getD line []) = true then line else nb) nb = max nb (b.length - 1) := by
  have hlen : (piece t b).length = t := by simp [piece]
  have hpos := List.length_pos_iff.mpr hb
  rw [hlen]
  have hbelow : ∀ j, b.length ≤ j → nonBlank ((piece t b).getD j []) = false := by
    intro j hj
    rw [List.getD_eq_getElem?_getD]
    by_cases hjt : j < t
    · rw [piece_get hjt, Option.getD_some, cell, List.getElem?_eq_none hj]
      exact nonBlank_blanks _
    · rw [List.getElem?_eq_none (by rw [hlen]; omega)]
      rfl
  by_cases hin : nonBlank ((piece t b).getD (b.length - 1) []) = true
  · by_cases hle : nb ≤ b.length - 1
    · rw [foldl_last (p := fun line => nonBlank ((piece t b).getD line [])) hle (by omega) hin (fun j hj => hbelow j (by omega))]
      omega
    · rw [foldl_none (p := fun line => nonBlank ((piece t b).getD line []))]
      · omega
      · intro j hj
        have := (List.mem_range'_1.mp hj).1
        exact hbelow j (by omega)
  · have h1 : b.length = 1 := by
      rcases hi with h | ⟨l, hl, hl2⟩
      · exact h
      · exfalso
        apply hin
        rw [List.getD_eq_getElem?_getD, piece_get (by omega), Option.getD_some, cell, ← List.getLast?_eq_getElem?, hl]
        exact hl2
    rw [foldl_none (p := fun line => nonBlank ((piece t b).getD line []))]
    · omega
    · intro j hj
      rcases Nat.eq_zero_or_pos j with h0 | h0
      · subst h0
        rw [h1] at hin
        simpa using hin
      · exact hbelow j (by omega)

theorem lastLine_fold {t : Nat} : ∀ (row : List (List Str)) (nb : Nat), (∀ b ∈ row, b ≠ [] ∧ Inked b ∧ b.length ≤ t) → nb < t →
    (row.map (piece t)).foldl (fun nb strs => (List.range' nb (strs.length - nb)).foldl (fun nb line => if nonBlank (strs.getD line []) = true then line else nb) nb) nb =
      max nb (tallest row - 1)
  | [], nb, _, _ => by simp [tallest]
  | b :: row, nb, h, hn => by
    obtain ⟨h1, h2, h3⟩ := h b (by simp)
    rw [List.map_cons, List.foldl_cons, lastLine_step h1 h2 h3 hn, lastLine_fold row _ (fun x hx => h x (List.mem_cons_of_mem _ hx)) (by
      have := List.length_pos_iff.mpr h1
      omega)]
    simp only [tallest]
    omega

theorem lastLine_boxes {t : Nat} {row : List (List Str)} (h : ∀ b ∈ row, b ≠ [] ∧ Inked b ∧ b.length ≤ t) (ht : 0 < t) :
    lastLine (row.map (piece t)) = tallest row - 1 := by
  unfold lastLine
  rw [lastLine_fold row 0 h ht]
  omega

/-! ## No line ends with a newline -/

theorem mem_intercalate' {sep : Str} {x : Nat} : ∀ {l : List Str}, x ∈ List.intercalate sep l → x ∈ sep ∨ ∃ s ∈ l, x ∈ s
  | [], h => by simp [intercalate_nil'] at h
  | [s], h => by rw [intercalate_one] at h; exact .inr ⟨s, by simp, h⟩
  | s :: t :: r, h => by
    rw [intercalate_cons (by simp)] at h
    simp only [List.mem_append] at h
    rcases h with (h | h) | h
    · exact .inr ⟨s, by simp, h⟩
    · exact .inl h
    · rcases mem_intercalate' (l := t :: r) h with h | ⟨u, hu, hx⟩
      · exact .inl h
      · exact .inr ⟨u, List.mem_cons_of_mem _ hu, hx⟩

theorem tableLine_nl {w : Nat → Nat} {row : List Str} (h : ∀ s ∈ row, 10 ∉ s) : 10 ∉ tableLine w row := by
  intro hm
  rcases mem_intercalate' hm with h1 | ⟨s, hs, h1⟩
  · simp at h1
  · rw [List.mem_mapIdx] at hs
    obtain ⟨i, hi, rfl⟩ := hs
    simp only [padLeft, List.mem_append, List.mem_replicate] at h1
    rcases h1 with h1 | h1
    · omega
    · exact h _ (List.getElem_mem hi) h1

theorem tableLine_ne {w : Nat → Nat} {row : List Str} {s : Str} (h : row = s :: row.tail) (hs : s ≠ []) : tableLine w row ≠ [] := by
  rw [h]
  unfold tableLine
  rw [List.mapIdx_cons, intercalate_flatMap]
  simp [padLeft, hs]

/-- A text that ends, but not with a newline. -/
def Ended (b : Str) : Prop := ∃ c, b.getLast? = some c ∧ c ≠ 10

theorem ended_append {a b : Str} (h : Ended b) : Ended (a ++ b) := by
  obtain ⟨c, h1, h2⟩ := h
  exact ⟨c, by rw [List.getLast?_append, h1]; rfl, h2⟩

theorem ended_of {b : Str} (hn : b ≠ []) (h : 10 ∉ b) : Ended b := by
  cases hb : b.getLast? with
  | none => simp at hb; exact absurd hb hn
  | some c => exact ⟨c, hb, fun hc => h (by rw [← hc]; exact List.mem_of_getLast? hb)⟩

theorem cell_nl {b : List Str} {v : Nat} (h : Box b v) (j : Nat) : 10 ∉ cell (wide b) b j := by
  unfold cell
  cases hj : b[j]? with
  | none =>
    intro hm
    have := List.eq_of_mem_replicate hm
    omega
  | some l => exact h.nl l (List.mem_of_getElem? hj)

theorem boxRow_ended {w : Nat → Nat} {row : List (List Str)} (h : Boxes row) (hn : row ≠ []) : Ended (boxRow w row) := by
  have hpos := tallest_pos h hn
  have hline : Ended (tableLine w (row.map fun b => cell (wide b) b (tallest row - 1))) := by
    cases row with
    | nil => exact absurd rfl hn
    | cons b r =>
      apply ended_of
      · refine tableLine_ne (s := cell (wide b) b (tallest (b :: r) - 1)) rfl ?_
        obtain ⟨v, hv⟩ := h b (by simp)
        intro h0
        have := cell_length hv (tallest (b :: r) - 1)
        rw [h0, head_length hv] at this
        have := hv.pos
        simp at *
        omega
      · apply tableLine_nl
        intro s hs
        rw [List.mem_map] at hs
        obtain ⟨x, hx, rfl⟩ := hs
        obtain ⟨v, hv⟩ := h x hx
        exact cell_nl hv _
  unfold boxRow
  rw [show tallest row = (tallest row - 1) + 1 by omega, List.range_succ, List.map_append]
  simp only [List.map_cons, List.map_nil, Nat.add_sub_cancel]
  by_cases h0 : (List.range (tallest row - 1)).map (fun j => tableLine w (row.map fun b => cell (wide b) b j)) = []
  · rw [h0, List.nil_append, intercalate_one]
    exact hline
  · rw [intercalate_append h0 (by simp), intercalate_one]
    exact ended_append hline

/-! ## Matrices -/

theorem tallest_mem_le {row bs : List (List Str)} (h : ∀ b ∈ row, b ∈ bs) : tallest row ≤ tallest bs := by
  induction row with
  | nil => simp [tallest]
  | cons b r ih =>
    simp only [tallest]
    have h1 := le_tallest (h b (by simp))
    have h2 := ih fun x hx => h x (List.mem_cons_of_mem _ hx)
    omega

theorem writeRows_boxes {nested : Bool} {c t : Nat} {w : Widths} {f : Nat → Nat} (hc : 0 < c) (ht : 0 < t) : ∀ (n : Nat) (first : Bool) (b : Str) (bs : List (List Str)),
    n * c ≤ bs.length → Boxes bs → (∀ x ∈ bs, Inked x ∧ x.length ≤ t) →
    (∀ (i j : Nat) x, j < c → bs[i * c + j]? = some x → w.column j = .ok (f j) ∧ wide x ≤ f j) → (first = true ∨ Ended b) →
    writeRows nested c w n first b (bs.map (piece t)) =
      .ok (b ++ (if first = false ∧ 0 < n then (if nested then [10, 10] else [10]) else []) ++
        List.intercalate (if nested then [10, 10] else [10]) ((List.range n).map fun i => boxRow f ((bs.drop (i * c)).take c)))
  | 0, first, b, bs, _, _, _, _, _ => by simp [writeRows, intercalate_nil']
  | n + 1, first, b, bs, hl, hb, hi, hf, hfirst => by
    have hc1 : c ≤ bs.length := by rw [Nat.add_mul] at hl; omega
    have hbr : rowBreak nested first b = .ok (b ++ (if first = false then (if nested then [10, 10] else [10]) else [])) := by
      unfold rowBreak
      cases first with
      | true => simp
      | false =>
        cases nested with
        | true =>
          rcases hfirst with h | ⟨x, h1, h2⟩
          · simp at h
          · simp [h1, h2]
        | false => simp
    have htake : (bs.map (piece t)).take c = (bs.take c).map (piece t) := by rw [List.map_take]
    have hdrop : (bs.map (piece t)).drop c = (bs.drop c).map (piece t) := by rw [List.map_drop]
    have hbt : Boxes (bs.take c) := fun x hx => hb x (List.mem_of_mem_take hx)
    have hnt : bs.take c ≠ [] := by
      intro h0
      have := congrArg List.length h0
      rw [List.length_take, List.length_nil] at this
      omega
    have hlast : lastLine ((bs.take c).map (piece t)) + 1 = tallest (bs.take c) := by
      have := tallest_pos hbt hnt
      rw [lastLine_boxes (t := t) _ ht]
      · omega
      · intro x hx
        obtain ⟨v, hv⟩ := hbt x hx
        exact ⟨hv.some, hi x (List.mem_of_mem_take hx)⟩
    have htall : tallest (bs.take c) ≤ t := by
      have : ∀ l : List (List Str), (∀ x ∈ l, x.length ≤ t) → tallest l ≤ t := by
        intro l
        induction l with
        | nil => intro _; simp [tallest]
        | cons y l ih =>
          intro h
          simp only [tallest]
          have h1 := h y (by simp)
          have h2 := ih fun x hx => h x (List.mem_cons_of_mem _ hx)
          omega
      exact this _ fun x hx => (hi x (List.mem_of_mem_take hx)).2
    have hlines : collect ((List.range (tallest (bs.take c))).map fun line => writeLine w line 0 ((bs.take c).map (piece t))) =
        .ok ((List.range (tallest (bs.take c))).map fun j => tableLine f ((bs.take c).map fun b => cell (wide b) b j)) := by
      apply collect_map
      intro j hj
      have hjt : j < t := by have := List.mem_range.mp hj; omega
      rw [writeLine_fun (f := f) (S := fun b => cell (wide b) b j) (bs.take c) 0 (fun x _ => piece_get hjt x)]
      · simp [tableLine]
      · intro i x hx
        have hic : i < c := by
          have := (List.getElem?_eq_some_iff.mp hx).1
          simp at this
          omega
        have hmem := List.mem_of_getElem? hx
        rw [List.getElem?_take_of_lt hic] at hx
        obtain ⟨v, hv⟩ := hbt x hmem
        rw [cell_length hv]
        simpa using hf 0 i x hic (by simpa using hx)
    simp only [writeRows]
    rw [hbr]
    simp only [bind_ok]
    rw [htake, if_neg (by simp; omega), hlast, hlines]
    simp only [bind_ok, joinWith_eq]
    rw [show List.intercalate [10] ((List.range (tallest (bs.take c))).map fun j => tableLine f ((bs.take c).map fun b => cell (wide b) b j)) = boxRow f (bs.take c) from rfl,
      hdrop, writeRows_boxes hc ht n false _ (bs.drop c) (by simp [Nat.add_mul] at hl ⊢; omega) (fun x hx => hb x (List.mem_of_mem_drop hx))
      (fun x hx => hi x (List.mem_of_mem_drop hx))
      (fun i j s hj hi => hf (i + 1) j s hj (by rw [List.getElem?_drop] at hi; rw [← hi]; congr 1; rw [Nat.add_mul]; omega))
      (.inr (ended_append (boxRow_ended (w := f) hbt hnt)))]
    have hsucc : ((List.range (n + 1)).map fun i => boxRow f ((bs.drop (i * c)).take c)) =
        boxRow f (bs.take c) :: (List.range n).map fun i => boxRow f (((bs.drop c).drop (i * c)).take c) := by
      rw [List.range_succ_eq_map]
      simp only [List.map_cons, Nat.zero_mul, List.drop_zero, List.map_map]
      congr 1
      apply List.map_congr_left
      intro i _
      simp only [Function.comp_apply, List.drop_drop]
      congr 3
      rw [Nat.succ_mul]
      omega
    rw [hsucc]
    cases n with
    | zero => simp [intercalate_nil', intercalate_one, boxRow]
    | succ n =>
      rw [intercalate_cons (r := (List.range (n + 1)).map _) (by simp)]
      simp [boxRow]

theorem boxRest_last : ∀ {ls : List Str}, ls ≠ [] → ∃ s, (boxRest ls).getLast? = some (s ++ [41])
  | [s], _ => ⟨[124] ++ s, by simp [boxRest]⟩
  | s :: t :: r, _ => by
    obtain ⟨u, hu⟩ := boxRest_last (ls := t :: r) (by simp)
    refine ⟨u, ?_⟩
    rw [boxRest]
    · rw [List.getLast?_cons, hu]; rfl
    · simp

theorem box_inked {ls : List Str} (h : ls ≠ []) : Inked (box ls) := by
  match ls, h with
  | [s], _ => exact .inl (by simp [box])
  | s :: t :: r, _ =>
    right
    obtain ⟨u, hu⟩ := boxRest_last (ls := t :: r) (by simp)
    refine ⟨u ++ [41], ?_, ?_⟩
    · rw [box]
      · rw [List.getLast?_cons, hu]; rfl
      · simp
    · simp [nonBlank]

theorem shownAll_props {es : List Elem} {ls : List (List Str)} {one : Bool} (h : List.Forall₂ (FitLine one) es ls) :
    Boxes (shownAll es ls) ∧ ∀ x ∈ shownAll es ls, Inked x := by
  induction h with
  | nil => exact ⟨by intro b hb; simp [shownAll] at hb, by intro b hb; simp [shownAll] at hb⟩
  | @cons e l es ls hf _ ih =>
    obtain ⟨⟨w, hr⟩, h1, h2, h3⟩ := hf
    have hin : Inked (shown e.scalar l) := by
      cases hs : e.scalar with
      | true => exact .inl (h1 hs)
      | false => exact box_inked hr.some
    constructor
    · intro b hb
      simp only [shownAll, List.zipWith_cons_cons, List.mem_cons] at hb
      rcases hb with rfl | hb
      · exact shown_box hr
      · exact ih.1 b hb
    · intro b hb
      simp only [shownAll, List.zipWith_cons_cons, List.mem_cons] at hb
      rcases hb with rfl | hb
      · exact hin
      · exact ih.2 b hb

theorem shownAll_length {es : List Elem} {ls : List (List Str)} (h : es.length = ls.length) : (shownAll es ls).length = es.length := by
  simp [shownAll, h]

theorem box_fit {c : Nat} {w : Widths} {bs : List (List Str)} (hw : w.Fit c (firstLines bs)) (k i j : Nat) (x : List Str) (hj : j < c)
    (h : bs[k * c + (i * c + j)]? = some x) : w.column j = .ok (width c (firstLines bs) j) ∧ wide x ≤ width c (firstLines bs) j := by
  have := scalar_fit (by omega) hw k i j (x.head?.getD []) hj (by simp [firstLines, h])
  exact this

theorem isNested_mostly (es : List Elem) : isNested 2 es = mostly es := by
  unfold isNested mostly
  have : (es.filter fun e => e.kind == .matrix && decide (2 > 1)) = es.filter fun e => e.kind == .matrix := by
    congr 1; funext e; simp
  rw [this]
  congr 1
  apply propext
  omega

theorem text2_boxes {r c : Nat} {es : List Elem} {ls : List (List Str)} (hr : 0 < r) (hc : 0 < c) (hl : es.length = r * c) (h : Regular es ls)
    (hn : allScalars es = false) :
    text2 r c es = .ok (boxTable (if mostly es then [10, 10] else [10]) r c (shownAll es ls)) := by
  have hch : allChars es = false := by
    rw [Bool.eq_false_iff] at hn ⊢
    intro hc
    apply hn
    unfold allChars at hc
    unfold allScalars
    rw [List.all_eq_true] at hc ⊢
    intro e he
    have := hc e he
    unfold Elem.scalar
    rw [this]; rfl
  obtain ⟨one, hf⟩ := h.fit
  obtain ⟨hb, hi⟩ := shownAll_props hf
  have hlen := shownAll_length h.len
  have hne : shownAll es ls ≠ [] := by
    intro h0
    rw [h0, hl] at hlen
    have : 0 < r * c := Nat.mul_pos hr hc
    simp at hlen
    omega
  unfold text2
  rw [if_neg (by omega), hch]
  simp only [Bool.false_eq_true, if_false]
  obtain ⟨w, he, hw⟩ := elemStrs_boxes (shape := [r, c]) h hn hb hne (c := c) rfl hc
  rw [he]
  simp only [bind_ok, write2d]
  rw [writeRows_boxes (f := width c (firstLines (shownAll es ls))) hc (tallest_pos hb hne) r true [] _ (by rw [hlen, hl]) hb
    (fun x hx => ⟨hi x hx, le_tallest hx⟩) (fun i j x hj hx => box_fit hw 0 i j x hj (by simpa using hx)) (.inl rfl), isNested_mostly]
  simp [boxTable]

end Verif.Print
