import Verif.Time.Zone

/-!
# Names of locations: specification and lemmas
-/

namespace Verif.Time.Zone
variable {Loc : Type}

/-- The name is that of a location in the system, in full or without the directory, of which the first is taken. -/
inductive Names (sys : System Loc) : Str → Loc → Prop
  | full {z loc} : sys.load z = some loc → Names sys z loc
  | part {z f fs loc} : sys.load z = none → sys.glob z = f :: fs → sys.load f = some loc → Names sys z loc

theorem find_names (sys : System Loc) {z name : Str} {loc : Loc} : find sys z = some (name, loc) → Names sys (stdZone z) loc := by
  intro h
  unfold find at h
  split at h
  · rename_i l hl
    cases h
    exact .full hl
  · rename_i hl
    split at h
    · cases h
    · rename_i f fs hg
      rw [Option.map_eq_some_iff] at h
      obtain ⟨l, h1, h2⟩ := h
      cases h2
      exact .part hl hg h1

theorem names_find (sys : System Loc) {z : Str} {loc : Loc} (h : Names sys (stdZone z) loc) : ∃ name, find sys z = some (name, loc) := by
  unfold find
  cases h with
  | full h => exact ⟨z, by rw [h]⟩
  | part h hg hl => exact ⟨_, by rw [h, hg]; simp only [hl, Option.map_some]; rfl⟩

theorem find_name (sys : System Loc) {z name : Str} {loc : Loc} (hz : capital z = z ∨ (sys.load (stdZone z)).isSome) (h : find sys z = some (name, loc)) : name = z := by
  unfold find at h
  split at h
  · cases h; rfl
  · rename_i hn
    rw [hn] at hz
    replace hz : capital z = z := hz.resolve_right (by simp)
    split at h
    · cases h
    · rw [Option.map_eq_some_iff] at h
      obtain ⟨l, _, h2⟩ := h
      rw [hz] at h2
      cases h2
      split <;> rfl

end Verif.Time.Zone
