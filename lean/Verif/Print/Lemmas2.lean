import Verif.Print.Lemmas1

/-! # Printing: helper lemmas on the words of what is printed -/

namespace Verif.Print
open Verif.Arr

/-! ## Matrices of rank two and three -/

theorem isNested_scalars {rank : Nat} {es : List Elem} (h : allScalars es = true) (hn : isNested rank es = true) : es.length ≤ 1 := by
  unfold isNested at hn
  have : (es.filter fun e => e.kind == .matrix && decide (rank > 1)) = [] := by
    rw [List.filter_eq_nil_iff]
    intro e he
    have := List.all_eq_true.mp h e he
    unfold Elem.scalar at this
    cases hk : e.kind <;> simp_all
  rw [this] at hn
  simp at hn
  omega

theorem scalar_fit {c : Nat} {w : Widths} {ts : List Str} (hc : 0 < c) (hw : w.Fit c ts) (k i j : Nat) (s : Str) (hj : j < c)
    (h : ts[k * c + (i * c + j)]? = some s) : w.column j = .ok (width c ts j) ∧ s.length ≤ width c ts j := by
  have hlt := (List.getElem?_eq_some_iff.mp h).1
  refine ⟨hw j ?_, ?_⟩
  · rw [Nat.lt_min]
    refine ⟨?_, hj⟩
    have : 0 ≤ k * c + i * c := Nat.zero_le _
    omega
  · unfold width
    split
    · exact le_longest (List.mem_of_getElem? h)
    · refine le_longest (mem_column h ?_)
      rw [Nat.zero_add, ← Nat.add_assoc, ← Nat.add_mul, Nat.add_comm, Nat.add_mul_mod_self_right]
      exact Nat.mod_eq_of_lt hj

theorem text2_scalars {r c : Nat} {es : List Elem} (hr : 0 < r) (hc : 0 < c) (hl : r * c ≤ es.length) (hs : allScalars es = true) (hch : allChars es = false) :
    text2 r c es = .ok (table r c (es.map Elem.text) (es.map Elem.text)) := by
  unfold text2
  rw [if_neg (by omega), hch]
  simp only [Bool.false_eq_true, if_false]
  obtain ⟨w, he, hw⟩ := elemStrs_scalars (shape := [r, c]) hs (c := c) rfl hc
  rw [he]
  simp only [bind_ok, write2d]
  rw [writeRows_table (f := width c (es.map Elem.text)) r true [] (es.map Elem.text) (by simpa using hl)
    (fun i j s hj h => scalar_fit hc hw 0 i j s hj (by simpa using h))]
  · simp [table]
  · intro hn
    have := isNested_scalars hs hn
    right
    refine ⟨?_, rfl⟩
    have : r * 1 ≤ r * c := Nat.mul_le_mul (Nat.le_refl r) hc
    omega

theorem text2_chars {r c : Nat} {es : List Elem} (hr : 0 < r) (hc : 0 < c) (hch : allChars es = true) :
    text2 r c es = .ok (List.intercalate [10] ((tableRows r c (es.map Elem.text)).map List.flatten)) := by
  unfold text2
  rw [if_neg (by omega), if_pos hch]
  rw [collect_map (g := fun i => (((es.map Elem.text).drop (i * c)).take c).flatten)]
  · simp [joinWith_eq, tableRows]
    rfl
  · intro i _
    have h1 : allChars ((es.drop (i * c)).take c) = true := by
      unfold allChars at hch ⊢
      rw [List.all_eq_true] at hch ⊢
      exact fun e he => hch e (List.mem_of_mem_drop (List.mem_of_mem_take he))
    have h2 : allScalars ((es.drop (i * c)).take c) = true := by
      unfold allChars at h1
      unfold allScalars
      rw [List.all_eq_true] at h1 ⊢
      intro e he
      have := h1 e he
      unfold Elem.scalar
      rw [this]; rfl
    rw [vecText_scalars h2, h1]
    simp only [if_true]
    rw [intercalate_empty, List.map_take, List.map_drop]

/-- The blocks of an array of rank three. -/
def tables (n r c : Nat) (all ts : List Str) : List Str := (List.range n).map fun i => table r c all ((ts.drop (i * (r * c))).take (r * c))

theorem tables_succ (n r c : Nat) (all ts : List Str) : tables (n + 1) r c all ts = table r c all (ts.take (r * c)) :: tables n r c all (ts.drop (r * c)) := by
  unfold tables
  rw [List.range_succ_eq_map]
  simp only [List.map_cons, Nat.zero_mul, List.drop_zero, List.map_map]
  congr 1
  apply List.map_congr_left
  intro i _
  simp only [Function.comp_apply, List.drop_drop]
  congr 3
  rw [Nat.succ_mul]
  omega

theorem blocks_tables {r c : Nat} {nested : Bool} {w : Widths} {all : List Str} (hc : 0 < c) (hw : w.Fit c all) : ∀ (n k : Nat) (first : Bool) (b : Str),
    (k + n) * (r * c) ≤ all.length → (nested = true → r ≤ 1) →
    blocks r c nested w n first b ((all.drop (k * (r * c))).map fun s => [s]) =
      .ok (b ++ (if first = false ∧ 0 < n then [10, 10] else []) ++ List.intercalate [10, 10] (tables n r c all (all.drop (k * (r * c)))))
  | 0, k, first, b, _, _ => by simp [blocks, tables, intercalate_nil']
  | n + 1, k, first, b, hl, hn => by
    have hk : k * (r * c) + r * c ≤ all.length := by
      have : (k + (n + 1)) * (r * c) = k * (r * c) + r * c + n * (r * c) := by
        rw [show k + (n + 1) = k + 1 + n by omega, Nat.add_mul, Nat.add_mul, Nat.one_mul]
      omega
    simp only [blocks]
    rw [if_neg (by simp; omega), ← List.map_take, ← List.map_drop, List.drop_drop, write2d,
      writeRows_table (f := width c all) r true _ _ (by simp; omega)]
    · have hkk : k * (r * c) + r * c = (k + 1) * (r * c) := by rw [Nat.add_mul, Nat.one_mul]
      simp only [bind_ok]
      rw [hkk, blocks_tables hc hw n (k + 1) false _ (by rw [show k + 1 + n = k + (n + 1) by omega]; exact hl) hn, tables_succ, List.drop_drop, hkk]
      congr 1
      cases n with
      | zero =>
        cases first <;> simp [tables, intercalate_nil', intercalate_one, table]
      | succ n =>
        rw [intercalate_cons (r := tables (n + 1) r c all _) (by simp [tables])]
        cases first <;> simp [table]
    · intro i j s hj h
      have hij : i * c + j < r * c := by
        have := (List.getElem?_eq_some_iff.mp h).1
        simp only [List.length_take] at this
        omega
      rw [List.getElem?_take_of_lt hij, List.getElem?_drop] at h
      exact scalar_fit hc hw (k * r) i j s hj (by rw [← h]; congr 1; rw [Nat.mul_assoc])
    · intro hnest
      have := hn hnest
      rcases Nat.lt_or_ge 0 r with h0 | h0
      · exact .inr ⟨by omega, rfl⟩
      · exact .inl (by omega)

theorem text3_scalars {n r c : Nat} {es : List Elem} (hr : 0 < r) (hc : 0 < c) (hl : n * (r * c) ≤ es.length) (hs : allScalars es = true)
    (hch : allChars es = false) : text3 n r c es = .ok (List.intercalate [10, 10] (tables n r c (es.map Elem.text) (es.map Elem.text))) := by
  unfold text3
  rw [hch]
  simp only [Bool.false_eq_true, if_false]
  obtain ⟨w, he, hw⟩ := elemStrs_scalars (shape := [n, r, c]) hs (c := c) rfl hc
  rw [he]
  simp only [bind_ok]
  by_cases hn0 : n = 0
  · subst hn0
    simp [blocks, tables, intercalate_nil']
  have := blocks_tables (r := r) (nested := isNested 3 es) hc hw n 0 true [] (by simpa using hl) (fun hn => by
    have h1 := isNested_scalars hs hn
    have h2 : r * 1 ≤ r * c := Nat.mul_le_mul (Nat.le_refl r) hc
    have h3 : 1 * (r * c) ≤ n * (r * c) := Nat.mul_le_mul (by omega) (Nat.le_refl _)
    omega)
  simpa using this

/-! ## Lines and words -/

theorem lines_ne (s : Str) : lines s ≠ [] := by
  cases s with
  | nil => simp [lines]
  | cons x r =>
    simp only [lines]
    split
    · simp
    · split <;> simp

theorem lines_append : ∀ a b : Str, lines (a ++ 10 :: b) = lines a ++ lines b
  | [], b => by simp [lines]
  | x :: a, b => by
    simp only [List.cons_append, lines]
    rw [lines_append a b]
    split
    · simp
    · cases h : lines a with
      | nil => exact absurd h (lines_ne a)
      | cons l ls => simp

theorem lines_one : ∀ {s : Str}, 10 ∉ s → lines s = [s]
  | [], _ => rfl
  | x :: s, h => by
    simp only [List.mem_cons, not_or] at h
    simp only [lines]
    rw [if_neg (fun e => h.1 e.symm), lines_one h.2]

theorem contents_append (a b : Str) : contents (a ++ 10 :: b) = contents a ++ contents b := by
  simp [contents, lines_append]

theorem contents_line {s : Str} (h : 10 ∉ s) : contents s = if heading s then [] else words s := by
  simp only [contents, lines_one h]
  cases h : heading s <;> simp [h]

theorem contents_nil : contents [] = [] := rfl

theorem contents_join1 : ∀ ls : List Str, contents (List.intercalate [10] ls) = ls.flatMap contents
  | [] => rfl
  | [s] => by simp [intercalate_one]
  | s :: t :: r => by
    rw [intercalate_cons (by simp), List.append_assoc, List.singleton_append, contents_append, contents_join1 (t :: r)]
    simp

theorem contents_join2 : ∀ ls : List Str, contents (List.intercalate [10, 10] ls) = ls.flatMap contents
  | [] => rfl
  | [s] => by simp [intercalate_one]
  | s :: t :: r => by
    rw [intercalate_cons (by simp), List.append_assoc, List.cons_append, contents_append, List.singleton_append]
    have := contents_append [] (List.intercalate [10, 10] (t :: r))
    rw [List.nil_append] at this
    rw [this, contents_nil, contents_join2 (t :: r)]
    simp

theorem words_blanks (n : Nat) (s : Str) : words (List.replicate n 32 ++ s) = words s := by
  induction n with
  | zero => rfl
  | succ n ih => rw [List.replicate_succ, List.cons_append, words, if_pos rfl, ih]

theorem words_word : ∀ {s : Str}, s ≠ [] → 32 ∉ s → words s = [s]
  | [x], _, h => by
    simp only [List.mem_singleton] at h
    rw [words, if_neg (fun e => h e.symm)]
    rfl
  | x :: y :: s, _, h => by
    simp only [List.mem_cons, not_or] at h
    rw [words, if_neg (fun e => h.1 e.symm)]
    rw [if_neg (by simpa using fun e : y = 32 => h.2.1 e.symm), words_word (s := y :: s) (by simp) (by simp [h])]

theorem words_cons : ∀ {s : Str} (r : Str), s ≠ [] → 32 ∉ s → words (s ++ 32 :: r) = s :: words r
  | [x], r, _, h => by
    simp only [List.mem_singleton] at h
    simp only [List.singleton_append]
    rw [words, if_neg (fun e => h e.symm)]
    rw [if_pos (by rfl), words, if_pos rfl]
  | x :: y :: s, r, _, h => by
    simp only [List.mem_cons, not_or] at h
    simp only [List.cons_append]
    rw [words, if_neg (fun e => h.1 e.symm)]
    rw [if_neg (by simpa using fun e : y = 32 => h.2.1 e.symm)]
    have := words_cons (s := y :: s) r (by simp) (by simp [h])
    simp only [List.cons_append] at this
    rw [this]

theorem words_padded : ∀ {row : List Str} (f : Nat → Nat), (∀ s ∈ row, Word s) → words (List.intercalate [32] (row.mapIdx fun j s => padLeft (f j) s)) = row
  | [], f, _ => rfl
  | [s], f, h => by
    have hs := h s (by simp)
    simp only [List.mapIdx_cons, List.mapIdx_nil, intercalate_one, padLeft]
    rw [words_blanks, words_word hs.1 hs.2.1]
  | s :: t :: row, f, h => by
    have hs := h s (by simp)
    have ih := words_padded (row := t :: row) (fun j => f (j + 1)) (fun x hx => h x (List.mem_cons_of_mem _ hx))
    rw [List.mapIdx_cons, intercalate_cons (by simp [List.mapIdx_cons])]
    unfold padLeft at ih ⊢
    rw [List.append_assoc, List.append_assoc, words_blanks, List.singleton_append, words_cons _ hs.1 hs.2.1, ih]

theorem dropBlanks (n : Nat) (s : Str) : (List.replicate n 32 ++ s).dropWhile (· == 32) = s.dropWhile (· == 32) := by
  induction n with
  | zero => rfl
  | succ n ih => rw [List.replicate_succ, List.cons_append, List.dropWhile_cons]; simpa using ih

theorem heading_blanks (n : Nat) (s : Str) : heading (List.replicate n 32 ++ s) = heading s := by
  unfold heading
  rw [dropBlanks]

theorem heading_word {s : Str} (r : Str) (h : Word s) : heading (s ++ r) = false := by
  cases s with
  | nil => exact absurd rfl h.1
  | cons x s =>
    have h1 : x ≠ 32 := fun e => h.2.1 (by simp [e])
    have h2 : x ≠ 91 := fun e => h.2.2.2 (by simp [e])
    unfold heading
    rw [List.cons_append, List.dropWhile_cons]
    simp [h1, h2]

theorem tableLine_contents {f : Nat → Nat} {row : List Str} (hne : row ≠ []) (h : ∀ s ∈ row, Word s) : contents (tableLine f row) = row ∧ 10 ∉ tableLine f row := by
  have hnl : 10 ∉ tableLine f row := by
    unfold tableLine
    intro hm
    have : ∀ (l : List Str), (∀ s ∈ l, 10 ∉ s) → 10 ∉ List.intercalate [32] l := by
      intro l
      induction l with
      | nil => intro _; simp [intercalate_nil']
      | cons s l ih =>
        intro hl
        rw [intercalate_flatMap]
        simp only [List.mem_append, List.mem_flatMap, not_or, not_exists, not_and]
        exact ⟨hl s (by simp), fun t ht => by simp [hl t (List.mem_cons_of_mem _ ht)]⟩
    refine this _ ?_ hm
    intro s hs
    rw [List.mem_mapIdx] at hs
    obtain ⟨i, hi, rfl⟩ := hs
    unfold padLeft
    simp only [List.mem_append, List.mem_replicate, not_or, not_and]
    exact ⟨fun _ => by decide, (h _ (List.getElem_mem hi)).2.2.1⟩
  refine ⟨?_, hnl⟩
  rw [contents_line hnl]
  have : heading (tableLine f row) = false := by
    cases row with
    | nil => exact absurd rfl hne
    | cons s row =>
      unfold tableLine
      rw [List.mapIdx_cons, intercalate_flatMap]
      unfold padLeft
      rw [List.append_assoc, heading_blanks]
      exact heading_word _ (h s (by simp))
  rw [this]
  simp only [Bool.false_eq_true, if_false]
  exact words_padded f h

theorem flatMap_take (c : Nat) : ∀ (n : Nat) (ts : List Str), n * c ≤ ts.length → ((List.range n).flatMap fun i => (ts.drop (i * c)).take c) = ts.take (n * c)
  | 0, ts, _ => by simp
  | n + 1, ts, h => by
    rw [Nat.add_mul, Nat.one_mul] at h
    rw [List.range_succ, List.flatMap_append, flatMap_take c n ts (by omega)]
    simp only [List.flatMap_singleton]
    rw [Nat.add_mul, Nat.one_mul, List.take_add]

theorem table_contents {r c : Nat} {all ts : List Str} (hc : 0 < c) (hl : r * c ≤ ts.length) (h : ∀ s ∈ ts, Word s) : contents (table r c all ts) = ts.take (r * c) := by
  unfold table
  rw [contents_join1, List.flatMap_map, ← flatMap_take c r ts hl]
  unfold tableRows
  rw [List.flatMap_map]
  rw [List.flatMap_def, List.flatMap_def]
  congr 1
  apply List.map_congr_left
  intro i hi
  rw [List.mem_range] at hi
  refine (tableLine_contents ?_ fun s hs => h s (List.mem_of_mem_drop (List.mem_of_mem_take hs))).1
  intro he
  have h1 := congrArg List.length he
  have h2 : (i + 1) * c ≤ r * c := Nat.mul_le_mul hi (Nat.le_refl c)
  rw [Nat.add_mul, Nat.one_mul] at h2
  simp at h1
  omega

theorem tables_contents {n r c : Nat} {all ts : List Str} (hc : 0 < c) (hl : n * (r * c) ≤ ts.length) (h : ∀ s ∈ ts, Word s) :
    contents (List.intercalate [10, 10] (tables n r c all ts)) = ts.take (n * (r * c)) := by
  rw [contents_join2, ← flatMap_take (r * c) n ts hl]
  unfold tables
  rw [List.flatMap_map, List.flatMap_def, List.flatMap_def]
  congr 1
  apply List.map_congr_left
  intro i hi
  rw [List.mem_range] at hi
  have h2 : (i + 1) * (r * c) ≤ n * (r * c) := Nat.mul_le_mul hi (Nat.le_refl _)
  rw [Nat.add_mul, Nat.one_mul] at h2
  rw [table_contents hc (by simp; omega) fun s hs => h s (List.mem_of_mem_drop (List.mem_of_mem_take hs))]
  rw [List.take_take, Nat.min_self]

end Verif.Print
