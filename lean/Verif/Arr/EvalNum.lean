import Verif.Arr.EvalLemmas5
import Verif.Num.Props

/-!
# Elements that are exact numbers
-/

namespace Verif.Arr
variable {α : Type}

/-- The operators of the model of numbers as operators on elements. -/
def numOp (maxBits : Nat) (op : Num.Op2) (x y : Num.Num) : R Num.Num :=
  match (op.impl maxBits).eval x y with
  | .ok z => .ok z
  | .err => .err "number"
  | .crash => .crash
  | .float => .err "float"

/-- `value/bigrat.go:195-196`: of the exact numbers, fractions become matrices of rank two. -/
instance : Wide Num.Num where
  wide
    | .bigRat _ => true
    | _ => false

/-- The names of the arithmetic and logical operators for which scans take the short way. -/
def shortName : Num.Op2 → Option String
  | .add => some "+" | .mul => some "*" | .min => some "min" | .max => some "max" | .or => some "or" | .and => some "and" | .xor => some "xor"
  | _ => none

/-- What they do with the numbers. -/
def shortMul : Num.Op2 → Rat → Rat → Rat
  | .add, a, b => a + b
  | .mul, a, b => a * b
  | .min, a, b => min a b
  | .max, a, b => max a b
  | .or, a, b => Num.truth (a ≠ 0 ∨ b ≠ 0)
  | .and, a, b => Num.truth (a ≠ 0 ∧ b ≠ 0)
  | .xor, a, b => Num.truth ((a ≠ 0) ≠ (b ≠ 0))
  | _, a, _ => a

theorem shortMul_assoc (op : Num.Op2) (a b c : Rat) : shortMul op (shortMul op a b) c = shortMul op a (shortMul op b c) := by
  cases op <;> simp only [shortMul]
  · exact add_assoc a b c
  · exact mul_assoc a b c
  · by_cases h1 : a = 0 <;> by_cases h2 : b = 0 <;> by_cases h3 : c = 0 <;> simp [Num.truth, h1, h2, h3]
  · by_cases h1 : a = 0 <;> by_cases h2 : b = 0 <;> by_cases h3 : c = 0 <;> simp [Num.truth, h1, h2, h3]
  · by_cases h1 : a = 0 <;> by_cases h2 : b = 0 <;> by_cases h3 : c = 0 <;> simp [Num.truth, h1, h2, h3]
  · exact min_assoc a b c
  · exact max_assoc a b c

theorem numOp_short {mb : Nat} {op : Num.Op2} (hop : shortName op ≠ none) {x y z : Num.Num} (hx : x.Small) (hy : y.Small) (h : numOp mb op x y = .ok z) :
    z.Small ∧ z.val = shortMul op x.val y.val := by
  have h1 : (op.impl mb).eval x y = .ok z := by
    unfold numOp at h
    split at h <;> first | (cases h; assumption) | cases h
  cases op <;> simp only [shortName, ne_eq, not_true_eq_false] at hop
  · exact (Num.add_ok hx hy).2 z h1
  · exact (Num.mul_ok hx hy).2 z h1
  · exact (Num.and_ok (mb := mb) hx hy).2 z h1
  · exact (Num.or_ok (mb := mb) hx hy).2 z h1
  · exact (Num.xor_ok (mb := mb) hx hy).2 z h1
  · obtain ⟨h2, h3, h4, h5⟩ := (Num.min_ok hx hy).2 z h1
    refine ⟨h2, ?_⟩
    show z.val = min x.val y.val
    refine le_antisymm (le_min h4 h5) ?_
    rcases h3 with h | h <;> rw [h]
    · exact min_le_left _ _
    · exact min_le_right _ _
  · obtain ⟨h2, h3, h4, h5⟩ := (Num.max_ok hx hy).2 z h1
    refine ⟨h2, ?_⟩
    show z.val = max x.val y.val
    refine le_antisymm ?_ (max_le h4 h5)
    rcases h3 with h | h <;> rw [h]
    · exact le_max_left _ _
    · exact le_max_right _ _

theorem scanVals_total {f : α → α → R α} {P : α → Prop} (hf : ∀ x y, P x → P y → ∃ z, f x y = .ok z ∧ P z) :
    ∀ (xs : List α) (a : α), P a → (∀ z ∈ xs, P z) → ∃ l, scanA f a xs = .ok l
  | [], _, _, _ => ⟨[], rfl⟩
  | x :: xs, a, ha, h => by
    obtain ⟨z, h1, h2⟩ := hf a x ha (h x (by simp))
    obtain ⟨l, hl⟩ := scanVals_total hf xs z h2 (fun w hw => h w (by simp [hw]))
    exact ⟨z :: l, by simp only [scanA, h1, bind_ok, hl]⟩

theorem foldR_total {f : α → α → R α} {P : α → Prop} (hf : ∀ x y, P x → P y → ∃ z, f x y = .ok z ∧ P z) :
    ∀ (xs : List α), xs ≠ [] → (∀ z ∈ xs, P z) → ∃ z, foldR f xs = .ok z ∧ P z
  | [], h, _ => absurd rfl h
  | [x], _, h => ⟨x, rfl, h x (by simp)⟩
  | x :: y :: xs, _, h => by
    obtain ⟨z, h1, h2⟩ := foldR_total hf (y :: xs) (by simp) (fun w hw => h w (by simp at hw ⊢; tauto))
    obtain ⟨w, h3, h4⟩ := hf x z (h x (by simp)) h2
    exact ⟨w, by simp only [foldR, h1, bind_ok, h3], h4⟩

theorem numOp_total {op : Num.Op2} (hop : shortName op ≠ none) {x y : Num.Num} (hx : x.Small) (hy : y.Small) :
    ∃ z, numOp 0 op x y = .ok z ∧ z.Small := by
  have h : Num.IsOk ((op.impl 0).eval x y) := by
    cases op <;> simp only [shortName, ne_eq, not_true_eq_false] at hop
    · exact Num.add_some hx.isNum hy.isNum
    · exact Num.mul_some hx.isNum hy.isNum
    · exact Num.bool_isOk hx.isNum hy.isNum
    · exact Num.bool_isOk hx.isNum hy.isNum
    · exact Num.bool_isOk hx.isNum hy.isNum
    · exact Num.min_isOk hx.isNum hy.isNum
    · exact Num.max_isOk hx.isNum hy.isNum
  obtain ⟨z, hz⟩ := h
  have h1 : numOp 0 op x y = .ok z := by simp only [numOp, hz]
  exact ⟨z, h1, (numOp_short hop hx hy h1).1⟩

end Verif.Arr
