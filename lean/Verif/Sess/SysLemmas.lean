import Verif.Sess.SysSpec

/-!
# Lemmas on lines
-/

namespace Verif.Sess.Sys

theorem dropCR_cases (l : List Char) : (l.getLast? ≠ some '\r' ∧ dropCR l = l) ∨ ∃ m, l = m ++ ['\r'] ∧ dropCR l = m := by
  unfold dropCR
  by_cases h : l.getLast? = some '\r'
  · right
    rw [if_pos h]
    obtain ⟨m, rfl⟩ := List.getLast?_eq_some_iff.1 h
    exact ⟨m, rfl, by simp⟩
  · left
    rw [if_neg h]
    exact ⟨h, rfl⟩

theorem scanLines_lines : ∀ (s acc : List Char), '\n' ∉ acc → Lines (acc.reverse ++ s) (scanLines acc s)
  | [], acc, h => by
    unfold scanLines
    by_cases ha : acc = []
    · subst ha; exact .nil
    · rw [if_neg (by simpa using ha), List.append_nil]
      have hr : '\n' ∉ acc.reverse := by simpa using h
      rcases dropCR_cases acc.reverse with ⟨h1, h2⟩ | ⟨m, h1, h2⟩
      · rw [h2]; exact .last (by simpa using ha) hr h1
      · rw [h2, h1]
        rw [h1] at hr
        exact .lastcr fun hm => hr (by simp [hm])
  | c :: s, acc, h => by
    unfold scanLines
    have hr : '\n' ∉ acc.reverse := by simpa using h
    by_cases hc : c = '\n'
    · subst hc
      rw [if_pos rfl]
      have ih := scanLines_lines s [] (by simp)
      rcases dropCR_cases acc.reverse with ⟨h1, h2⟩ | ⟨m, h1, h2⟩
      · rw [h2]; exact .lf hr h1 ih
      · rw [h2, h1, List.append_assoc]
        rw [h1] at hr
        exact .crlf (fun hm => hr (by simp [hm])) ih
    · rw [if_neg hc]
      have := scanLines_lines s (c :: acc) (by simp [Ne.symm hc, h])
      simpa using this

theorem scan_go : ∀ (l rest acc : List Char), '\n' ∉ l → scanLines acc (l ++ '\n' :: rest) = dropCR (acc.reverse ++ l) :: scanLines [] rest
  | [], rest, acc, _ => by simp [scanLines]
  | c :: l, rest, acc, h => by
    have hc : c ≠ '\n' := fun e => h (by simp [e])
    rw [List.cons_append, scanLines, if_neg hc, scan_go l rest (c :: acc) fun hm => h (by simp [hm])]
    simp

theorem scan_end : ∀ (l acc : List Char), '\n' ∉ l → acc.reverse ++ l ≠ [] → scanLines acc l = [dropCR (acc.reverse ++ l)]
  | [], acc, _, h => by
    have : acc ≠ [] := by simpa using h
    simp [scanLines, this]
  | c :: l, acc, h, _ => by
    have hc : c ≠ '\n' := fun e => h (by simp [e])
    rw [scanLines, if_neg hc, scan_end l (c :: acc) (fun hm => h (by simp [hm])) (by simp)]
    simp

theorem dropCR_same {l : List Char} (h : l.getLast? ≠ some '\r') : dropCR l = l := by simp [dropCR, h]
theorem dropCR_cr (l : List Char) : dropCR (l ++ ['\r']) = l := by simp [dropCR]

theorem lines_scan {s : List Char} {ls : List (List Char)} (h : Lines s ls) : scanLines [] s = ls := by
  induction h with
  | nil => rfl
  | lf h1 h2 _ ih => rw [scan_go _ _ _ h1, ih]; simp [dropCR_same h2]
  | @crlf l rest ls h1 _ ih =>
    have e : l ++ '\r' :: '\n' :: rest = (l ++ ['\r']) ++ '\n' :: rest := by simp
    rw [e, scan_go _ _ _ (by simp [h1]), ih]
    simp [dropCR_cr]
  | last h1 h2 h3 => rw [scan_end _ _ h2 (by simpa using h1)]; simp [dropCR_same h3]
  | lastcr h1 => rw [scan_end _ _ (by simp [h1]) (by simp)]; simp [dropCR_cr]

theorem text_chars (s : List Char) : text (s.map .char) = some s := by
  induction s with
  | nil => rfl
  | cons c s ih => simp [text, ih]

theorem evalString_long {s : List Char} (h : s.length ≠ 1) : evalString s = .vec (s.map .char) := by
  unfold evalString
  split
  · simp at h
  · rfl

end Verif.Sess.Sys
