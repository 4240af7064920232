import Verif.Time.ZoneLemmas

/-!
# What time zones do

`Names` (`Verif/Time/ZoneLemmas.lean`) is the specification, a relation of names and locations.
-/

namespace Verif.Time.Zone
variable {Loc : Type}

/-- C99: a name that is accepted stands for the location of the system that has it, and the name, unless it begins with a small letter and was searched for, goes on standing for it: times are
converted with the offset that this location has at the time that is converted, not with the one it had when it was set. Missing: such names, which
may be refused. -/
theorem C99_set_partial (sys : System Loc) {now : Int} {z : Str} {c c' : Conf} (hz : capital z = z ∨ (sys.load (stdZone z)).isSome) (h : setLocation sys now z c = some c') :
    c'.timeZone = z ∧ ∃ loc, Names sys (stdZone z) loc ∧ ∀ t own, locationAt sys t own c' = (z, sys.offset loc t) := by
  unfold setLocation loadLocation at h
  rw [Option.map_eq_some_iff] at h
  obtain ⟨p, hp, rfl⟩ := h
  rw [Option.map_eq_some_iff] at hp
  obtain ⟨⟨name, loc⟩, hf, rfl⟩ := hp
  obtain rfl := find_name sys hz hf
  refine ⟨rfl, loc, find_names sys hf, fun t own => ?_⟩
  unfold locationAt loadLocation
  simp [hf]

/-- C99: a name is refused only if neither it nor what the table has for it is a location of the system. -/
theorem C99_refused (sys : System Loc) (now : Int) (z : Str) (c : Conf) : setLocation sys now z c = none ↔ ¬ ∃ loc, Names sys (stdZone z) loc := by
  constructor
  · rintro h ⟨loc, hl⟩
    obtain ⟨name, hf⟩ := names_find sys hl
    simp [setLocation, loadLocation, hf] at h
  · intro h
    cases hf : find sys z with
    | none => simp [setLocation, loadLocation, hf]
    | some p => exact absurd ⟨p.2, find_names sys (z := z) (name := p.1) hf⟩ h

/-- C99: the abbreviations of the table that are in capital letters can be written in letters of any size. -/
theorem C99_case (p : String × String) (hp : p ∈ table) (z : Str) (hu : upper z = p.1.toList) : stdZone z = p.2.toList := by
  have h1 : ∀ p ∈ table, lookup p.1.toList = some p.2.toList := by decide +kernel
  have h2 : ∀ p ∈ table, ∀ q ∈ table, upper q.1.toList = p.1.toList → q = p := by decide +kernel
  unfold stdZone
  cases hl : lookup z with
  | none => simp only [hu, h1 p hp]
  | some tz =>
    simp only
    unfold lookup at hl
    rw [Option.map_eq_some_iff] at hl
    obtain ⟨q, hq, rfl⟩ := hl
    have hm := List.mem_of_find?_eq_some hq
    have he := List.find?_some hq
    simp only [beq_iff_eq] at he
    rw [h2 p hp q hm (by rw [he]; exact hu)]

/-- A system with two locations, in which the sizes of letters matter. -/
def exSys : System Nat where
  load z := if z = "Europe/Paris".toList then some 1 else if z = "America/Chicago".toList then some 2 else none
  glob z := if z = "Paris".toList then ["Europe/Paris".toList] else if z = "Chicago".toList then ["America/Chicago".toList] else []
  offset l t := if l = 1 then (if t < 100 then 3600 else 7200) else -21600

/-- C99 fails: the name with a capital letter is made, so as to "allow us to say "paris" as well as "Paris"", but not used for the search; `)timezone "paris"` is refused.
So is `)timezone "chicago"`, though `Chicago` is in the table. -/
theorem C99_violated (c : Conf) : setLocation exSys 0 "paris".toList c = none ∧ (setLocation exSys 0 "Paris".toList c).isSome ∧
    setLocation exSys 0 "chicago".toList c = none ∧ (setLocation exSys 0 "Chicago".toList c).isSome := by
  exact ⟨rfl, rfl, rfl, rfl⟩

example (c : Conf) : setLocation exSys 0 "Paris".toList c = some { timeZone := "Paris".toList, location := ("Paris".toList, 3600) } ∧ capital "Paris".toList = "Paris".toList := by
  constructor
  · rcases c with ⟨_, _⟩
    rfl
  · decide +kernel
/-- Later, in summer. -/
example : locationAt exSys 200 ([], 0) { timeZone := "Paris".toList, location := ("Paris".toList, 3600) } = ("Paris".toList, 7200) := by decide +kernel
example : stdZone "pst".toList = "America/Los_Angeles".toList := C99_case ("PST", "America/Los_Angeles") (by decide) _ (by decide +kernel)

end Verif.Time.Zone
