/-!
# Specification: the calendar

Dates follow each other; 1 January 1970 is day 0. This determines the date of every day, before and after.
-/

namespace Verif.Time.Spec

/-- A year, a month from 1 and a day from 1. -/
structure Date where
  year : Int
  month : Nat
  day : Nat
deriving DecidableEq, Repr

/-- Every fourth year is a leap year, except every hundredth that is not a four hundredth. -/
def Leap (y : Int) : Prop := 400 ∣ y ∨ (4 ∣ y ∧ ¬100 ∣ y)

/-- The length of a month. -/
def monthLength (leap : Bool) : Nat → Nat
  | 2 => if leap then 29 else 28
  | 4 | 6 | 9 | 11 => 30
  | _ => 31

/-- The day after. -/
def next (leap : Bool) (d : Date) : Date :=
  if d.day < monthLength leap d.month then ⟨d.year, d.month, d.day + 1⟩
  else if d.month < 12 then ⟨d.year, d.month + 1, 1⟩
  else ⟨d.year + 1, 1, 1⟩

end Verif.Time.Spec
