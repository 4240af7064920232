import Verif.Cell.Lemmas5

/-!
# From objects to errors
-/

namespace Verif.Cell
open Verif.Arr (R)
open Verif.Flt
open Verif.Flt.Spec (IsFloat)

/-- A part of an operand: a number that is converted to the float `x`, or an object with the float `x`. -/
def Part (p : ℕ) (h : Heap) (x : ℚ) : Sc → Prop
  | .exact q => x = rnd p q
  | .cell a => h[a]? = some ⟨p, x⟩ ∧ IsFloat p x

/-- A complex number with the parts `x` and `y`, no real number, made of two different objects if they are objects. -/
def Operand (p : ℕ) (h : Heap) (x y : ℚ) (v : Val) : Prop :=
  ∃ s t, v = .cplx s t ∧ Part p h x s ∧ Part p h y t ∧ y ≠ 0 ∧ ∀ a, s = .cell a → t ≠ .cell a

theorem Part.reads {c : Ctx} (hp : 1 ≤ c.p) {h : Heap} {x : ℚ} {s : Sc} (hs : Part c.p h x s) : ∃ u, ReadsS h s u ∧ u.float c = ⟨c.p, x⟩ ∧ IsFloat c.p x ∧ (x ≠ 0 → u.val ≠ 0) := by
  cases s with
  | exact q =>
    refine ⟨.exact q, rfl, ?_, ?_, ?_⟩
    · simp only [Part] at hs
      simp only [PS.float, floatOf, hs]
    · simp only [Part] at hs
      rw [hs]; exact rnd_isFloat hp _
    · simp only [Part] at hs
      intro hx h0
      simp only [PS.val] at h0
      apply hx
      rw [hs, h0]
      exact rnd_self hp ⟨0, 0, by positivity, by norm_num⟩
  | cell a =>
    exact ⟨.flt ⟨c.p, x⟩, hs.1, rfl, hs.2, fun h => h⟩

theorem operand_value {c : Ctx} (hp : 1 ≤ c.p) {h : Heap} {x y : ℚ} {v : Val} (ho : Operand c.p h x y v) : IsFloat c.p x ∧ IsFloat c.p y ∧
    ∀ {real : Nat → M Rat} {complex : Sc → Sc → M Val} {k : Fl → Fl → R PV} {r : Val} {h' : Heap},
      (∀ {s t : Sc} {x y : PS}, Reads h (.cplx s t) (.cplx x y) → NewV 0 (.cplx s t) → Sim (complex s t h) (k (x.float c) (y.float c)) (NewPost 0 h)) →
      trig c real complex v h = .ok (r, h') → ∃ w, read r h' = .ok (w, h') ∧ k ⟨c.p, x⟩ ⟨c.p, y⟩ = .ok w := by
  obtain ⟨s, t, rfl, hs, ht, hy, hst⟩ := ho
  obtain ⟨u, u1, u2, u3, -⟩ := hs.reads hp
  obtain ⟨w, w1, w2, w3, w4⟩ := ht.reads hp
  refine ⟨u3, w3, fun {real complex k r h'} hc hr => ?_⟩
  have hnew : ∀ s, NewS 0 s := fun s => by cases s <;> simp [NewS]
  have hsim := hc (x := u) (y := w) ⟨u1, w1⟩ ⟨hnew s, hnew t, hst⟩
  rw [u2, w2] at hsim
  unfold trig at hr
  simp only at hr
  rw [bind_ok (readS_ok w1)] at hr
  simp only [if_pos (w4 hy), ne_eq] at hr
  rw [hr] at hsim
  cases hk : k ⟨c.p, x⟩ ⟨c.p, y⟩ <;> rw [hk] at hsim <;> first | exact hsim.elim | skip
  exact ⟨_, read_ok hsim.1, rfl⟩

end Verif.Cell
