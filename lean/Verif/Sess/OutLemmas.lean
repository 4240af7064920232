import Verif.Sess.OutModel

/-!
# Printing the values of a line: specification and lemmas
-/

namespace Verif.Sess.Out
variable {ν : Type}

/-- The values that are not quiet. -/
def shown : List (V ν) → List ν := List.filterMap fun v => match v with
  | .plain v => some v
  | .quiet _ => none

/-- The text is not empty and does not end with a newline. -/
def Clean (s : List Char) : Prop := s ≠ [] ∧ s.getLast? ≠ some '\n'

instance (s : List Char) : Decidable (Clean s) := inferInstanceAs (Decidable (_ ∧ _))

/-- Texts with blanks between them and a newline at the end. -/
def joined (l : List (List Char)) : List Char := if l = [] then [] else [' '].intercalate l ++ ['\n']

/-- The last value of the line is shown, or none is. -/
def LastShown (vs : List (V ν)) : Prop := (∃ v, vs.getLast? = some (.plain v)) ∨ shown vs = []

theorem needsBlank_iff (s : List Char) : needsBlank s = true ↔ ¬(s = [] ∨ s.getLast? = some '\n') := by
  unfold needsBlank
  cases h : s.getLast? with
  | none => simp [List.getLast?_eq_none_iff.1 h]
  | some c =>
    have : s ≠ [] := by rintro rfl; cases h
    simp [this]

/-- The loop looks at the values shown only. -/
theorem values_shown (text : ν → List Char) : ∀ (vs : List (V ν)) {b : Bool}, (values text vs b).1 = (values text ((shown vs).map .plain) b).1
  | [], _ => rfl
  | .quiet _ :: vs, b => values_shown text vs
  | .plain v :: vs, b => by
    show _ ++ text v ++ (values text vs true).1 = _ ++ text v ++ (values text ((shown vs).map .plain) true).1
    rw [values_shown text vs]

theorem values_more (text : ν → List Char) : ∀ ws : List ν, (values text (ws.map V.plain) true).1 =
    (ws.flatMap fun w => (if text w = [] ∨ (text w).getLast? = some '\n' then [] else [' ']) ++ text w) ++ ['\n']
  | [] => rfl
  | w :: ws => by
    show (if (true && needsBlank (text w)) = true then [' '] else []) ++ text w ++ (values text (ws.map V.plain) true).1 = _
    rw [values_more text ws, Bool.true_and, List.flatMap_cons]
    by_cases h : text w = [] ∨ (text w).getLast? = some '\n'
    · rw [if_neg (fun e => (needsBlank_iff _).1 e h), if_pos h]
      simp
    · rw [if_pos ((needsBlank_iff _).2 h), if_neg h]
      simp

theorem values_first (text : ν → List Char) (v : ν) (ws : List ν) : (values text ((v :: ws).map V.plain) false).1 =
    text v ++ (ws.flatMap fun w => (if text w = [] ∨ (text w).getLast? = some '\n' then [] else [' ']) ++ text w) ++ ['\n'] := by
  show [] ++ text v ++ (values text (ws.map V.plain) true).1 = _
  rw [values_more]
  simp

theorem intercalate_cons (x : List Char) : ∀ l : List (List Char), [' '].intercalate (x :: l) = x ++ l.flatMap fun w => ' ' :: w
  | [] => by simp [List.intercalate]
  | y :: l => by
    have := intercalate_cons y l
    simp only [List.intercalate, List.intersperse_cons₂, List.flatten_cons] at this ⊢
    rw [this]
    simp

theorem values_joined (text : ν → List Char) (vs : List (V ν)) (h : ∀ v ∈ shown vs, Clean (text v)) :
    (values text vs false).1 = joined ((shown vs).map text) := by
  rw [values_shown]
  generalize shown vs = l at h
  cases l with
  | nil => rfl
  | cons v ws =>
    rw [values_first, List.map_cons, joined, if_neg (by simp), intercalate_cons]
    congr 2
    rw [List.flatMap_map]
    clear vs
    induction ws with
    | nil => rfl
    | cons w ws ih =>
      rw [List.flatMap_cons, List.flatMap_cons, ih fun x hx => h x (by simp only [List.mem_cons] at hx ⊢; rcases hx with hx | hx <;> simp [hx])]
      have hc := h w (by simp)
      rw [if_neg (fun e => e.elim hc.1 hc.2)]
      rfl

theorem printValues_text (typ : V ν → List Char) (text : ν → List Char) (vs : List (V ν)) : (printValues false typ text vs).1 = (values text vs false).1 := by
  cases vs <;> simp [printValues, values]

theorem values_flag (text : ν → List Char) : ∀ (vs : List (V ν)) (b : Bool), (values text vs b).2 = true ↔ b = true ∨ shown vs ≠ []
  | [], b => by simp [values, shown]
  | .quiet _ :: vs, b => values_flag text vs b
  | .plain v :: vs, b => by
    show (values text vs true).2 = true ↔ _
    rw [values_flag text vs]
    simp [shown]

theorem printValues_flag (debugTypes : Bool) (typ : V ν → List Char) (text : ν → List Char) (vs : List (V ν)) :
    (printValues debugTypes typ text vs).2 = true ↔ shown vs ≠ [] := by
  cases vs with
  | nil => simp [printValues, shown]
  | cons v vs =>
    show (values text (v :: vs) false).2 = true ↔ _
    rw [values_flag]
    simp

theorem types_more (typ : V ν → List Char) : ∀ (vs : List (V ν)) (i : Nat), types typ vs (i + 1) = (vs.flatMap fun w => ',' :: typ w) ++ ['\n']
  | [], _ => rfl
  | v :: vs, i => by
    rw [types, types_more typ vs (i + 1)]
    simp

theorem types_all (typ : V ν → List Char) (v : V ν) (vs : List (V ν)) : types typ (v :: vs) 0 = typ v ++ (vs.flatMap fun w => ',' :: typ w) ++ ['\n'] := by
  rw [types, types_more]
  simp

theorem shown_last {vs : List (V ν)} {v : ν} (h : vs.getLast? = some (.plain v)) : (shown vs).getLast? = some v := by
  obtain ⟨l, rfl⟩ := List.getLast?_eq_some_iff.1 h
  simp [shown]

theorem session_last (debugTypes : Bool) (typ : V ν → List Char) (text : ν → List Char) : ∀ (ls : List (Option (V ν) → List (V ν))) (u : Option (V ν))
    (_ : ∀ p ∈ (session debugTypes typ text ls u).1, LastShown p.1),
    (session debugTypes typ text ls u).2 = match ((session debugTypes typ text ls u).1.flatMap fun p => shown p.1).getLast? with
      | some v => some (.plain v)
      | none => u
  | [], u, _ => rfl
  | l :: ls, u, h => by
    simp only [session] at h ⊢
    have ih := session_last debugTypes typ text ls (after debugTypes typ text (l u) u).2 fun p hp => h p (List.mem_cons_of_mem _ hp)
    have hl := h (l u, _) List.mem_cons_self
    rw [ih]
    simp only [List.flatMap_cons, List.getLast?_append]
    have ha : (after debugTypes typ text (l u) u).2 = match (shown (l u)).getLast? with
        | some v => some (.plain v)
        | none => u := by
      show (if (printValues debugTypes typ text (l u)).2 = true then _ else _) = _
      rcases hl with ⟨v, hv⟩ | hv
      · have hs := shown_last hv
        rw [if_pos ((printValues_flag ..).2 (by intro e; rw [e] at hs; cases hs)), hs]
        exact hv
      · rw [if_neg (fun e => (printValues_flag ..).1 e hv), hv]
        rfl
    rw [ha]
    have key : ∀ x y : Option ν, (match x with
        | some v => some (V.plain v)
        | none => match y with
          | some v => some (V.plain v)
          | none => u) = match x.or y with
        | some v => some (V.plain v)
        | none => u := by
      intro x y
      cases x <;> rfl
    exact key _ _

theorem fileLine_all (text : ν → List Char) : ∀ (vs : List (V ν)) (u : Option (V ν)), fileLine text vs u = ((shown vs).flatMap fun v => text v ++ ['\n'],
    match (shown vs).getLast? with
    | some v => some (.plain v)
    | none => u)
  | [], _ => rfl
  | .quiet _ :: vs, u => fileLine_all text vs u
  | .plain v :: vs, u => by
    show (text v ++ '\n' :: (fileLine text vs (some (.plain v))).1, (fileLine text vs (some (.plain v))).2) = _
    rw [fileLine_all text vs]
    show _ = ((v :: shown vs).flatMap _, match (v :: shown vs).getLast? with
      | some v => some (V.plain v)
      | none => u)
    rw [List.flatMap_cons, List.getLast?_cons]
    cases (shown vs).getLast? <;> simp

end Verif.Sess.Out
