import Verif.Safe.Lemmas2
import Verif.Exec.Lemmas3

/-!
# The evaluator with guarded operators: names, indexes, what the evaluator asks of values
-/

namespace Verif.Safe
open Verif.Arr Verif.Num
open Verif.Order (Val)

/-! ## Names -/

theorem table2_ok {op : String} {f : F2} (h : table2 op = some f) : f.Ok := by
  unfold table2 at h
  split at h <;> first | (cases h; trivial) | cases h

theorem table1_ok {op : String} {f : F1} (h : table1 op = some f) : f.Ok := by
  unfold table1 at h
  split at h <;> first | (cases h; trivial) | cases h

theorem parse2_ok (user : String → Bool) : ∀ (n : Nat) (op : List Char), (parse2 user n op).Ok
  | 0, _ => trivial
  | n + 1, op => by
    unfold parse2
    split
    · split
      · trivial
      · rename_i h
        refine ⟨?_, parse2_ok user n _⟩
        simpa using h
    · split
      · dsimp only
        split
        · exact parse2_ok user n _
        · exact ⟨parse2_ok user n _, parse2_ok user n _⟩
      · split
        · trivial
        · cases e : table2 (String.ofList op) with
          | none => trivial
          | some f => exact table2_ok e

theorem parse1_ok (user1 user2 : String → Bool) : ∀ (n : Nat) (op : List Char), (parse1 user1 user2 n op).Ok
  | 0, _ => trivial
  | n + 1, op => by
    have hp : (if user1 (String.ofList op) then .no "operators of the user are not modelled here"
      else (table1 (String.ofList op)).getD (.no "unary not implemented") : F1).Ok := by
      split
      · trivial
      · cases e : table1 (String.ofList op) with
        | none => trivial
        | some f => exact table1_ok e
    unfold parse1
    dsimp only
    split
    · exact hp
    · split
      · exact parse2_ok user2 _ _
      · exact parse2_ok user2 _ _
      · exact parse2_ok user2 _ _
      · exact parse2_ok user2 _ _
      · exact parse1_ok user1 user2 n _
      · exact hp

/-! ## Indexes -/

theorem ixOf_ok {i : Option Val} (h : ∀ v, i = some v → Well v) : (ixOf i).Ok := by
  cases i with
  | none => trivial
  | some v =>
    cases v with
    | num n => cases n <;> trivial
    | cplx a b => trivial
    | vec l => trivial
    | mat s d =>
      have := (goodV_toV (h _ rfl)).1
      exact ⟨this.rank, by show (d.map ixElem).length = _; rw [List.length_map]; exact this.len⟩

theorem firstVec_of {ixs : List Ix} (h : VecIndex ixs) : firstVec ixs = true := by
  obtain ⟨v, r, e⟩ := h
  match ixs, e with
  | [.vec l], e =>
    simp only [List.map_cons, List.map_nil, Ix.raw, List.cons.injEq, Option.some.injEq, and_true] at e
    subst e; rfl
  | [.mat ⟨s, l⟩], e =>
    simp only [List.map_cons, List.map_nil, Ix.raw, List.cons.injEq, Option.some.injEq, and_true] at e
    subst e; rfl
  | [.int k], e => simp [Ix.raw] at e
  | [.missing], e => simp [Ix.raw] at e
  | [.other], e => simp [Ix.raw] at e

theorem indexable {u : Val} {ixs : List Ix} (h : indexFine u ixs = true) : Indexable (toV u) ixs := by
  unfold indexFine at h
  cases e : toV u with
  | elem x => exact .inl (by simp [V.data])
  | vec l =>
    rw [e] at h
    cases l with
    | cons x xs => exact .inl (by simp [V.data])
    | nil =>
      refine .inr ⟨⟨[], rfl⟩, fun hv => ?_⟩
      simp [firstVec_of hv] at h
  | mat m =>
    rw [e] at h
    refine .inl ?_
    show 0 < m.data.length
    cases hd : m.data with
    | cons x xs => simp
    | nil => simp [hd] at h

theorem gives_indexVal {c : Conf} (hc : c.guard = true) {u : Val} (hu : Well u) {is : List (Option Val)} (hi : is ≠ []) (hw : ∀ i ∈ is, ∀ v, i = some v → Well v) :
    Gives Well (indexVal c u (is.map ixOf)) :=
  gives_need hc fun h => gives_back (gives_index (goodV_toV hu) (fun ix hx => by
    obtain ⟨i, h1, rfl⟩ := List.mem_map.1 hx
    exact ixOf_ok (hw i h1)) (by simpa using hi) (indexable h))

theorem gives_setIndexVal {c : Conf} (hc : c.guard = true) {u w : Val} (hu : Well u) (hr : Well w) {is : List (Option Val)} (hi : is ≠ [])
    (hw : ∀ i ∈ is, ∀ v, i = some v → Well v) : Gives Well (setIndexVal c u (is.map ixOf) w) :=
  gives_need hc fun h => by
    have key := gives_indexAssign (S := c.S) (origin := c.origin) (toElem := ofV) (x := ⟨toV u, none⟩) (y := toV w) (ixs := is.map ixOf) (P := Well) (fun y hy => well_ofV hy)
      ⟨goodV_toV hu, .inl rfl⟩ (goodV_toV hr) (fun ix hx => by
        obtain ⟨i, h1, rfl⟩ := List.mem_map.1 hx
        exact ixOf_ok (hw i h1)) (by simpa using hi) (indexable h)
    dsimp only
    exact gives_bind key.2 fun _ _ => gives_bind (gives_read key.1) fun q hq => well_ofV hq.2

mutual
theorem gives_isTrueV : ∀ v : Val, Gives (fun _ => True) (isTrueV v)
  | .num (.int _) => trivial
  | .num (.char _) => trivial
  | .num (.bigInt _) => trivial
  | .num (.bigRat _) => trivial
  | .cplx _ _ => trivial
  | .vec l => by rw [isTrueV]; exact gives_isTrueL l
  | .mat _ l => by rw [isTrueV]; exact gives_isTrueL l
theorem gives_isTrueL : ∀ l : List Val, Gives (fun _ => True) (isTrueL l)
  | [] => trivial
  | [x] => by rw [isTrueL]; exact gives_isTrueV x
  | _ :: _ :: _ => trivial
end

end Verif.Safe
