import Verif.Sess.HtmlSpec

/-!
# Lemmas on escaped text
-/

namespace Verif.Sess

theorem app_cons (c : Char) (l : List Char) : app (c :: l) = app [c] ++ app l := by
  by_cases h3 : c = '<'
  · subst h3; rfl
  · by_cases h4 : c = '>'
    · subst h4; rfl
    · rw [app, app]
      · rfl
      all_goals assumption

theorem app_append (a b : List Char) : app (a ++ b) = app a ++ app b := by
  induction a with
  | nil => rfl
  | cons c l ih => rw [List.cons_append, app_cons, ih, app_cons c l, List.append_assoc]

/-- A character other than these is shown as it is. -/
theorem browser_plain {b : Bool} {c : Char} (l : List Char) (h : c ≠ '&') (h2 : c ≠ ' ') (h3 : c ≠ '\t') :
    browser b (c :: l) = (if c = '\u00a0' then ' ' else c) :: browser false l := by
  rw [browser]
  · rw [if_neg (by simp [h2, h3])]
  all_goals
    rintro _ rfl
    exact absurd rfl h

theorem browser_one {b : Bool} {c : Char} (l : List Char) (ht : c ≠ '\t') (ha : c ≠ '&') :
    browser b (app (escape1 c) ++ l) = (if c = '\u00a0' then ' ' else c) :: browser false l := by
  unfold escape1
  by_cases h1 : c = ' '
  · subst h1
    exact browser_plain l (by decide) (by decide) (by decide)
  · rw [if_neg h1, if_neg ht]
    by_cases h2 : c = '\\'
    · subst h2
      rfl
    · rw [if_neg h2]
      by_cases h3 : c = '<'
      · subst h3; rfl
      · by_cases h4 : c = '>'
        · subst h4; rfl
        · have : app [c] = [c] := by
            rw [app]
            · rfl
            · rintro rfl; exact h3 rfl
            · rintro rfl; exact h4 rfl
          rw [this]
          exact browser_plain l ha h1 ht

theorem browser_any : ∀ (text : List Char) (b : Bool), (∀ c ∈ text, c ≠ '\t' ∧ c ≠ '&') →
    browser b (app (escape text)) = text.map fun c => if c = '\u00a0' then ' ' else c
  | [], _, _ => rfl
  | c :: l, b, h => by
    have hc := h c (by simp)
    unfold escape
    rw [app_append, browser_one _ hc.1 hc.2, browser_any l false fun c hc => h c (by simp [hc])]
    rfl

end Verif.Sess
