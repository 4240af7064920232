import Verif.Print.Spec
import Verif.Arr.Lemmas

/-! # Printing: helper lemmas on arrays of scalars -/

namespace Verif.Print
open Verif.Arr

theorem intercalate_nil' (sep : Str) : List.intercalate sep [] = [] := rfl

theorem intercalate_one (sep s : Str) : List.intercalate sep [s] = s := by simp [List.intercalate]

theorem intercalate_cons {sep s : Str} {r : List Str} (h : r ≠ []) : List.intercalate sep (s :: r) = s ++ sep ++ List.intercalate sep r := by
  cases r with
  | nil => exact absurd rfl h
  | cons t r => simp [List.intercalate]

theorem joinWith_eq (sep : Str) : ∀ l : List Str, joinWith sep l = List.intercalate sep l
  | [] => rfl
  | [s] => (intercalate_one sep s).symm
  | s :: t :: r => by rw [joinWith, joinWith_eq sep (t :: r), intercalate_cons (r := t :: r) (by simp)]; simp

theorem intercalate_flatMap (sep s : Str) : ∀ r : List Str, List.intercalate sep (s :: r) = s ++ r.flatMap (sep ++ ·)
  | [] => by simp [intercalate_one]
  | t :: r => by rw [intercalate_cons (by simp), intercalate_flatMap sep t r]; simp

theorem intercalate_empty : ∀ l : List Str, List.intercalate [] l = l.flatten
  | [] => rfl
  | s :: r => by rw [intercalate_flatMap]; simp [List.flatMap_def]

theorem collect_ok {α : Type} : ∀ l : List α, collect (l.map R.ok) = .ok l
  | [] => rfl
  | x :: l => by simp [collect, collect_ok l]

theorem collect_map {α β : Type} {f : α → R β} {g : α → β} {l : List α} (h : ∀ x ∈ l, f x = .ok (g x)) : collect (l.map f) = .ok (l.map g) := by
  rw [← collect_ok, List.map_map]
  congr 1
  exact List.map_congr_left h

/-! ## One line -/

/-- Where the elements end that are written after `n` bytes, with nothing between them. -/
def ends : Nat → List Str → List Nat
  | _, [] => []
  | n, s :: r => (n + s.length) :: ends (n + s.length) r

theorem oneLine_spaces : ∀ (es : List Elem) (b : Str), (oneLine true false b es).1 = b ++ (es.map Elem.text).flatMap ([32] ++ ·)
  | [], b => by simp [oneLine]
  | e :: es, b => by
    simp only [oneLine]
    rw [oneLine_spaces es]
    simp

theorem oneLine_first (es : List Elem) : (oneLine true true [] es).1 = List.intercalate [32] (es.map Elem.text) := by
  cases es with
  | nil => rfl
  | cons e es =>
    simp only [oneLine, List.map_cons]
    rw [oneLine_spaces, intercalate_flatMap]
    simp

theorem oneLine_bare : ∀ (es : List Elem) (first : Bool) (b : Str), oneLine false first b es = (b ++ (es.map Elem.text).flatten, ends b.length (es.map Elem.text))
  | [], first, b => by simp [oneLine, ends]
  | e :: es, first, b => by
    simp only [oneLine, Bool.false_and, Bool.false_eq_true, if_false]
    rw [oneLine_bare es]
    simp [ends]

theorem vecText_scalars {es : List Elem} (h : allScalars es = true) :
    vecText es = .ok (List.intercalate (if allChars es then [] else [32]) (es.map Elem.text)) := by
  unfold vecText multi
  rw [if_pos h]
  simp only [bind_ok, joinWith]
  cases allChars es
  · simp only [Bool.not_false, Bool.false_eq_true, if_false]; rw [oneLine_first]
  · simp only [Bool.not_true, if_true]; rw [oneLine_bare, intercalate_empty]; simp

/-! ## Columns -/

theorem longest_append : ∀ a b : List Str, longest (a ++ b) = max (longest a) (longest b)
  | [], b => by simp [longest]
  | s :: a, b => by simp only [List.cons_append, longest]; rw [longest_append a b]; omega

theorem column_append (c j : Nat) : ∀ (a : List Str) (k : Nat) (b : List Str), column c j k (a ++ b) = column c j k a ++ column c j (k + a.length) b
  | [], k, b => by simp [column]
  | s :: a, k, b => by
    simp only [List.cons_append, column]
    rw [column_append c j a (k + 1) b]
    have : k + 1 + a.length = k + (s :: a).length := by simp; omega
    rw [this]
    split <;> simp

theorem le_longest : ∀ {ts : List Str} {s : Str}, s ∈ ts → s.length ≤ longest ts
  | t :: ts, s, h => by
    simp only [List.mem_cons] at h
    simp only [longest]
    rcases h with rfl | h
    · omega
    · have := le_longest h; omega

theorem mem_column {c j : Nat} : ∀ {ts : List Str} {k i : Nat} {s : Str}, ts[i]? = some s → (k + i) % c = j → s ∈ column c j k ts
  | t :: ts, k, 0, s, h, hj => by
    simp only [List.getElem?_cons_zero, Option.some.injEq] at h
    simp only [column]
    rw [if_pos (by simpa using hj)]
    simp [h]
  | t :: ts, k, i + 1, s, h, hj => by
    simp only [List.getElem?_cons_succ] at h
    have := mem_column (c := c) (j := j) (ts := ts) (k := k + 1) (i := i) h (by rw [← hj]; congr 1; omega)
    simp only [column]
    split
    · exact List.mem_cons_of_mem _ this
    · exact this

/-- What the widths are after the texts `ts` have been seen. -/
structure Seen (c : Nat) (ts : List Str) (w : Widths) : Prop where
  max : w.max = longest ts
  len : w.wid.length = min ts.length c
  wid : ∀ j : Nat, j < w.wid.length → w.wid[j]? = some (longest (column c j 0 ts))

theorem column_none (c j : Nat) : ∀ (ts : List Str) (k : Nat), k + ts.length ≤ j → j < c → column c j k ts = []
  | [], k, h, hc => rfl
  | s :: ts, k, h, hc => by
    simp only [List.length_cons] at h
    simp only [column]
    rw [if_neg (by rw [Nat.mod_eq_of_lt (by omega)]; omega)]
    exact column_none c j ts (k + 1) (by omega) hc

theorem seen_add {c : Nat} {ts : List Str} {w : Widths} (hc : 0 < c) (h : Seen c ts w) (s : Str) :
    ∃ w1, w.addColumn (ts.length % c) s.length = .ok w1 ∧ Seen c (ts ++ [s]) w1 := by
  have hmod := Nat.mod_lt ts.length hc
  have hcol : ∀ j, longest (column c j 0 (ts ++ [s])) = if ts.length % c = j then max (longest (column c j 0 ts)) s.length else longest (column c j 0 ts) := by
    intro j
    rw [column_append, longest_append]
    simp only [Nat.zero_add, column]
    split <;> simp [longest]
  have hmax : longest (ts ++ [s]) = max w.max s.length := by rw [longest_append, h.max]; simp [longest]
  unfold Widths.addColumn
  by_cases h1 : ts.length % c < w.wid.length
  · rw [if_pos h1]
    have hw : w.wid.getD (ts.length % c) 0 = longest (column c (ts.length % c) 0 ts) := by
      rw [List.getD_eq_getElem?_getD, h.wid _ h1]; rfl
    refine ⟨_, rfl, ?_, ?_, ?_⟩
    · exact hmax.symm
    · simp only [List.length_set, List.length_append, List.length_singleton]
      rw [h.len]
      have : ts.length % c < min ts.length c := by rw [← h.len]; exact h1
      rcases Nat.lt_or_ge ts.length c with hl | hl
      · rw [Nat.mod_eq_of_lt hl] at this; omega
      · omega
    · intro j hj
      simp only [List.length_set] at hj
      rw [List.getElem?_set]
      rw [hcol]
      by_cases he : ts.length % c = j
      · subst he
        rw [if_pos rfl, if_pos hj, if_pos rfl, hw]
        congr 1
        exact Nat.max_comm _ _
      · rw [if_neg he, if_neg he]; exact h.wid j hj
  · rw [if_neg h1]
    have hlt : ts.length < c := by
      rcases Nat.lt_or_ge ts.length c with hl | hl
      · exact hl
      · rw [h.len, Nat.min_eq_right hl] at h1; omega
    have he : ts.length % c = ts.length := Nat.mod_eq_of_lt hlt
    have hlen : w.wid.length = ts.length := by rw [h.len]; omega
    rw [he, if_pos hlen.symm]
    refine ⟨_, rfl, hmax.symm, ?_, ?_⟩
    · simp only [List.length_append, List.length_singleton]; omega
    · intro j hj
      simp only [List.length_append, List.length_singleton] at hj
      rw [hcol, he]
      by_cases hjl : j < w.wid.length
      · rw [List.getElem?_append_left hjl, if_neg (by omega)]
        exact h.wid j hjl
      · rw [List.getElem?_append_right (by omega)]
        have : j = ts.length := by omega
        subst this
        rw [if_pos rfl, hlen, column_none c _ ts 0 (by omega) hlt]
        simp [longest]

theorem seen_column {c : Nat} {ts : List Str} {w : Widths} (h : Seen c ts w) {j : Nat} (hj : j < min ts.length c) : w.column j = .ok (width c ts j) := by
  unfold Widths.column width
  rw [h.max]
  split
  · rfl
  · rw [h.wid j (by rw [h.len]; exact hj)]

/-- As far as the widths matter. -/
def Widths.Fit (w : Widths) (c : Nat) (ts : List Str) : Prop := ∀ j, j < min ts.length c → w.column j = .ok (width c ts j)

/-- All texts are empty. -/
theorem longest_flatten : ∀ {ts : List Str}, ts.flatten = [] → longest ts = 0
  | [], _ => rfl
  | s :: ts, h => by
    simp only [List.flatten_cons, List.append_eq_nil_iff] at h
    simp [longest, h.1, longest_flatten h.2]

theorem cutAll_empty {c : Nat} (hc : 0 < c) : ∀ (us : List Str) (i p : Nat) (w : Widths), us.flatten = [] →
    cutAll c [[]] i p (ends p us) w = .ok (us.map fun s => [s], w)
  | [], i, p, w, _ => rfl
  | s :: us, i, p, w, h => by
    simp only [List.flatten_cons, List.append_eq_nil_iff] at h
    simp only [ends, cutAll]
    rw [if_neg (by omega)]
    simp only [cutRows, if_true, bind_ok]
    rw [cutAll_empty hc us _ _ w h.2]
    simp [h.1]

theorem cutAll_line {c : Nat} (hc : 0 < c) : ∀ (us ts : List Str) (w : Widths), (ts ++ us).flatten ≠ [] → Seen c ts w →
    ∃ w1, cutAll c [(ts ++ us).flatten] ts.length ts.flatten.length (ends ts.flatten.length us) w = .ok (us.map fun s => [s], w1) ∧ Seen c (ts ++ us) w1
  | [], ts, w, _, h => by
    refine ⟨w, rfl, ?_⟩
    rw [List.append_nil]; exact h
  | s :: us, ts, w, hne, h => by
    obtain ⟨w1, e1, h1⟩ := seen_add hc h s
    have hcons : ts ++ s :: us = (ts ++ [s]) ++ us := by simp
    obtain ⟨w2, e2, h2⟩ := cutAll_line hc us (ts ++ [s]) w1 (by rw [← hcons]; exact hne) h1
    refine ⟨w2, ?_, by rw [hcons]; exact h2⟩
    simp only [ends, cutAll]
    rw [if_neg (by omega)]
    have hi : (if ts.length = 0 then 0 else ts.length % c) = ts.length % c := by
      split
      · rename_i e; rw [e]; simp
      · rfl
    rw [hi]
    have hcut : cut (ts ++ s :: us).flatten ts.flatten.length (ts.flatten.length + s.length) = .ok s := by
      unfold cut
      rw [if_pos (by simp)]
      congr 1
      simp only [List.flatten_append, List.flatten_cons]
      rw [← List.append_assoc, show ts.flatten.length + s.length = (ts.flatten ++ s).length by simp, List.take_left']
      · simp
      · rfl
    simp only [cutRows]
    rw [if_neg hne, hcut]
    simp only [bind_ok]
    rw [e1]
    simp only [bind_ok]
    have hl : ts.length + 1 = (ts ++ [s]).length := by simp
    have hf : ts.flatten.length + s.length = (ts ++ [s]).flatten.length := by simp
    rw [hl, hf, hcons, e2]
    simp

theorem seen_nil (c : Nat) : Seen c [] ⟨[], 0⟩ := ⟨rfl, by simp, fun j h => by simp at h⟩

/-- The pieces of an array of scalars. -/
theorem elemStrs_scalars {shape : List Nat} {es : List Elem} {c : Nat} (hs : allScalars es = true) (hl : shape.getLastD 0 = c) (hc : 0 < c) :
    ∃ w, elemStrs shape es = .ok ((es.map Elem.text).map fun s => [s], w) ∧ w.Fit c (es.map Elem.text) := by
  unfold elemStrs multi
  rw [if_pos hs, hl]
  simp only [bind_ok]
  rw [oneLine_bare]
  simp only [List.nil_append, List.length_nil]
  generalize es.map Elem.text = ts
  by_cases hne : ts.flatten = []
  · rw [hne, cutAll_empty hc ts 0 0 _ hne]
    refine ⟨_, rfl, fun j _ => ?_⟩
    unfold Widths.column width
    rw [longest_flatten hne]
    rfl
  · obtain ⟨w, e, h⟩ := cutAll_line hc ts [] ⟨[], 0⟩ hne (seen_nil c)
    simp only [List.nil_append, List.length_nil, List.flatten_nil] at e h
    exact ⟨w, e, fun j hj => seen_column h hj⟩

/-! ## Tables -/

theorem blanks_nat (n : Nat) (m : Nat) (h : m ≤ n) : blanks ((n : Int) - m) = .ok (List.replicate (n - m) 32) := by
  unfold blanks
  rw [if_neg (by omega)]
  congr 2
  omega

/-- The text of a line from column `k` on. -/
theorem writeLine_eq {w : Widths} {f : Nat → Nat} : ∀ (row : List Str) (k : Nat),
    (∀ (i : Nat) s, row[i]? = some s → w.column (k + i) = .ok (f (k + i)) ∧ s.length ≤ f (k + i)) →
    writeLine w 0 k (row.map fun s => [s]) = .ok (List.intercalate [32] (row.mapIdx fun j s => padLeft (f (k + j)) s))
  | [], k, _ => rfl
  | s :: row, k, h => by
    obtain ⟨h1, h2⟩ := h 0 s rfl
    simp only [Nat.add_zero] at h1 h2
    have ih := writeLine_eq (w := w) (f := f) row (k + 1) (fun i t ht => by
      have := h (i + 1) t (by simpa using ht)
      rwa [show k + (i + 1) = k + 1 + i by omega] at this)
    simp only [List.map_cons, writeLine, List.getElem?_cons_zero]
    rw [h1]
    simp only [bind_ok]
    rw [blanks_nat _ _ h2]
    simp only [bind_ok]
    rw [ih]
    simp only [bind_ok, List.mapIdx_cons, Nat.add_zero]
    have he : (row.mapIdx fun j s => padLeft (f (k + (j + 1))) s) = row.mapIdx fun j s => padLeft (f (k + 1 + j)) s := by
      congr 1; funext j s; congr 2; omega
    rw [he]
    cases row with
    | nil => simp [intercalate_one, padLeft, List.intercalate]
    | cons t row => rw [intercalate_cons (by simp)]; simp [padLeft]

theorem lastLine_singles : ∀ row : List Str, lastLine (row.map fun s => [s]) = 0 := by
  intro row
  unfold lastLine
  induction row with
  | nil => rfl
  | cons s row ih =>
    simp only [List.map_cons, List.foldl_cons]
    have : (List.range' 0 ([s].length - 0)).foldl (fun nb line => if nonBlank ([s].getD line []) = true then line else nb) 0 = 0 := by
      simp [List.range']
    rw [this]
    exact ih

theorem tableRows_succ (n c : Nat) (ts : List Str) : tableRows (n + 1) c ts = ts.take c :: tableRows n c (ts.drop c) := by
  unfold tableRows
  rw [List.range_succ_eq_map]
  simp only [List.map_cons, Nat.zero_mul, List.drop_zero, List.map_map]
  congr 1
  apply List.map_congr_left
  intro i _
  simp only [Function.comp_apply, List.drop_drop]
  congr 2
  rw [Nat.succ_mul]
  omega

theorem writeRows_table {nested : Bool} {c : Nat} {w : Widths} {f : Nat → Nat} : ∀ (n : Nat) (first : Bool) (b : Str) (ts : List Str),
    n * c ≤ ts.length → (∀ (i j : Nat) s, j < c → ts[i * c + j]? = some s → w.column j = .ok (f j) ∧ s.length ≤ f j) →
    (nested = true → n = 0 ∨ (n = 1 ∧ first = true)) →
    writeRows nested c w n first b (ts.map fun s => [s]) =
      .ok (b ++ (if first = false ∧ 0 < n then [10] else []) ++ List.intercalate [10] ((tableRows n c ts).map (tableLine f)))
  | 0, first, b, ts, _, _, _ => by simp [writeRows, tableRows, intercalate_nil']
  | n + 1, first, b, ts, hl, hf, hn => by
    have hc1 : c ≤ ts.length := by rw [Nat.add_mul] at hl; omega
    have hb : rowBreak nested first b = .ok (b ++ (if first = false then [10] else [])) := by
      unfold rowBreak
      cases first with
      | true => simp
      | false =>
        cases nested with
        | true => have := hn rfl; simp at this
        | false => simp
    have htake : (ts.map fun s => [s]).take c = (ts.take c).map fun s => [s] := by rw [List.map_take]
    have hdrop : (ts.map fun s => [s]).drop c = (ts.drop c).map fun s => [s] := by rw [List.map_drop]
    have hline : writeLine w 0 0 ((ts.take c).map fun s => [s]) = .ok (tableLine f (ts.take c)) := by
      rw [writeLine_eq (f := f) (ts.take c) 0]
      · simp [tableLine]
      · intro i s hi
        have hic : i < c := by
          have := (List.getElem?_eq_some_iff.mp hi).1
          simp at this
          omega
        rw [List.getElem?_take_of_lt hic] at hi
        simpa using hf 0 i s hic (by simpa using hi)
    simp only [writeRows]
    rw [hb]
    simp only [bind_ok]
    rw [htake, if_neg (by simp; omega), lastLine_singles]
    simp only [Nat.zero_add, List.range_one, List.map_cons, List.map_nil]
    rw [hline]
    simp only [collect, bind_ok, joinWith]
    rw [hdrop, writeRows_table n false _ (ts.drop c) (by simp [Nat.add_mul] at hl ⊢; omega)
      (fun i j s hj hi => hf (i + 1) j s hj (by rw [List.getElem?_drop] at hi; rw [← hi]; congr 1; rw [Nat.add_mul]; omega))
      (fun hnest => by have := hn hnest; omega)]
    rw [tableRows_succ]
    simp only [List.map_cons]
    cases n with
    | zero => simp [tableRows, intercalate_nil', intercalate_one]
    | succ n =>
      rw [intercalate_cons (r := (tableRows (n + 1) c (ts.drop c)).map _) (by simp [tableRows])]
      simp

end Verif.Print
