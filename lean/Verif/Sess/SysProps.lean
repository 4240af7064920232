import Verif.Sess.SysLemmas

/-!
# What sys gives

`Lines` (`Verif/Sess/SysSpec.lean`) is the specification of the lines of a file.
-/

namespace Verif.Sess.Sys

/-- C97: `sys "read" name` gives the lines of the file, one vector of characters for each, for every name that has not one character only. Missing: names of one
character, for which it fails. -/
theorem C97_read_partial (get : String → Val) (files : List Char → Option (List Char)) {name content : List Char} (hn : name.length ≠ 1) (hf : files name = some content) :
    ∃ ls, Lines content ls ∧ sys get files [evalString "read".toList, evalString name] = .ok (.vec (ls.map fun l => .vec (l.map .char))) := by
  refine ⟨scanLines [] content, by simpa using scanLines_lines content [] (by simp), ?_⟩
  have he : evalString name = .vec (name.map .char) := evalString_long hn
  rw [he]
  have hr : evalString "read".toList = .vec ("read".toList.map .char) := by rfl
  rw [hr]
  unfold sys
  simp only [text, text_chars, sysRead, hf]
  rfl

/-- C97: the lines are determined by the text. -/
theorem C97_unique {s : List Char} {a b : List (List Char)} (ha : Lines s a) (hb : Lines s b) : a = b := by rw [← lines_scan ha, lines_scan hb]

/-- C97 fails for names of one character: a string of one character is no vector. -/
theorem C97_violated (get : String → Val) (files : List Char → Option (List Char)) (c : Char) :
    sys get files [evalString "read".toList, evalString [c]] = .err "usage" := rfl

/-- C97: a setting is given when asked for by its name, refused with an argument; files that cannot be opened are errors, and so are several names. -/
theorem C97_settings (get : String → Val) (files : List Char → Option (List Char)) :
    (∀ verb ∈ sys1, (∃ l, evalString verb.toList = .vec l ∧ sys get files l = .ok (get verb)) ∧
      ∀ a args, sys get files (evalString verb.toList :: a :: args) = .err "takes no arguments") ∧
    (∀ name : List Char, name.length ≠ 1 → files name = none → sys get files [evalString "read".toList, evalString name] = .err "open") ∧
    (∀ args, args.length ≠ 1 → sys get files (evalString "read".toList :: args) = .err "usage") := by
  refine ⟨fun verb hv => ?_, fun name hn hf => ?_, fun args ha => ?_⟩
  · have e : evalString verb.toList = .vec (verb.toList.map .char) := by
      have : ∀ v ∈ sys1, v.toList.length ≠ 1 := by decide +kernel
      exact evalString_long (this verb hv)
    refine ⟨⟨_, e, ?_⟩, fun a args => ?_⟩
    · unfold sys
      simp only [text_chars, String.ofList_toList, hv, if_true]
    · rw [e]
      unfold sys
      have hne : verb ≠ "read" := by rintro rfl; revert hv; decide
      simp only [text, text_chars, String.ofList_toList, hv, hne, if_true, if_false]
  · have he : evalString name = .vec (name.map .char) := evalString_long hn
    rw [he]
    have hr : evalString "read".toList = .vec ("read".toList.map .char) := by rfl
    rw [hr]
    unfold sys
    simp only [text, text_chars, sysRead, hf]
    rfl
  · have hr : evalString "read".toList = .vec ("read".toList.map .char) := by rfl
    rw [hr]
    unfold sys
    simp only [text, text_chars]
    show sysRead files args = _
    unfold sysRead
    split
    · simp at ha
    · rfl

/-- A file of four lines. -/
example : scanLines [] "ab\r\n\nc\nd".toList = ["ab".toList, [], ['c'], ['d']] := by decide +kernel
example : sys (fun _ => .other 0) (fun n => if n = "f.txt".toList then some "ab\nc".toList else none) [evalString "read".toList, evalString "f.txt".toList] =
    .ok (.vec [.vec [.char 'a', .char 'b'], .vec [.char 'c']]) := by rfl
example : Lines "a\r\nb".toList [['a'], ['b']] := .crlf (l := ['a']) (by decide) (.last (by decide) (by decide) (by decide))

end Verif.Sess.Sys
