import Verif.Save.Model
/-
Helper definitions: values can be compared, for the examples.
-/
namespace Verif.Save

mutual
/-- The values are the same. -/
def same : Val → Val → Bool
  | .scal x, .scal y => decide (x = y)
  | .vec l, .vec m => sameAll l m
  | .mat s l, .mat t m => decide (s = t) && sameAll l m
  | _, _ => false

/-- The elements are the same. -/
def sameAll : List Val → List Val → Bool
  | [], [] => true
  | v :: l, w :: m => same v w && sameAll l m
  | _, _ => false
end

mutual
theorem same_eq : ∀ v w : Val, same v w = true → v = w
  | .scal x, .scal y, h => by simp [same] at h; rw [h]
  | .vec l, .vec m, h => by simp [same] at h; rw [sameAll_eq l m h]
  | .mat s l, .mat t m, h => by simp [same] at h; rw [h.1, sameAll_eq l m h.2]
  | .scal _, .vec _, h => by simp [same] at h
  | .scal _, .mat _ _, h => by simp [same] at h
  | .vec _, .scal _, h => by simp [same] at h
  | .vec _, .mat _ _, h => by simp [same] at h
  | .mat _ _, .scal _, h => by simp [same] at h
  | .mat _ _, .vec _, h => by simp [same] at h
theorem sameAll_eq : ∀ l m : List Val, sameAll l m = true → l = m
  | [], [], _ => rfl
  | v :: l, w :: m, h => by
    simp [sameAll] at h
    rw [same_eq v w h.1, sameAll_eq l m h.2]
  | [], _ :: _, h => by simp [sameAll] at h
  | _ :: _, [], h => by simp [sameAll] at h
end

mutual
theorem same_refl : ∀ v : Val, same v v = true
  | .scal x => by simp [same]
  | .vec l => by simp [same, sameAll_refl l]
  | .mat s l => by simp [same, sameAll_refl l]
theorem sameAll_refl : ∀ l : List Val, sameAll l l = true
  | [] => by simp [sameAll]
  | v :: l => by simp [sameAll, same_refl v, sameAll_refl l]
end

instance : DecidableEq Val := fun v w =>
  if h : same v w = true then isTrue (same_eq v w h) else isFalse fun e => h (e ▸ same_refl v)

end Verif.Save
