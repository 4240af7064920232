import Verif.Safe.Ops3
import Verif.Safe.Ops4
import Verif.Safe.Ops5
import Verif.Safe.Ops6
import Verif.Safe.Spec
import Verif.Order.Lemmas4

/-!
# Operators on nested values: well-formed values, elementwise operators
-/

namespace Verif.Safe
open Verif.Arr Verif.Num
open Verif.Order (Val)

theorem vol_prod : ∀ s : List Nat, vol s = s.prod
  | [] => rfl
  | d :: s => by rw [vol, List.prod_cons, vol_prod s]

theorem wells_iff : ∀ {l : List Val}, Wells l ↔ ∀ x ∈ l, Well x
  | [] => by simp [Wells]
  | x :: xs => by simp [Wells, wells_iff (l := xs)]

theorem goodV_toV {v : Val} (h : Well v) : GoodV Well (toV v) := by
  cases v with
  | num n => exact h
  | cplx a b => exact h
  | vec l => exact wells_iff.1 h
  | mat s d => exact ⟨⟨h.1, by rw [vol_prod]; exact h.2.1⟩, wells_iff.1 h.2.2⟩

theorem well_ofV {v : V Val} (h : GoodV Well v) : Well (ofV v) := by
  cases v with
  | elem x => exact h
  | vec l => exact wells_iff.2 h
  | mat m => exact ⟨h.1.rank, by rw [← vol_prod]; exact h.1.len, wells_iff.2 h.2⟩

theorem well_mat {m : Mat Val} (h : GoodM Well m) : Well (.mat m.shape m.data) := well_ofV (v := .mat m) h

theorem gives_back {r : R (V Val)} (h : Gives (GoodV Well) r) : Gives Well (back r) := gives_bind h fun _ hv => well_ofV hv

theorem well_zero : Well zeroV := tidy_zero
theorem well_one : Well oneV := tidy_one
theorem well_int (i : Int) : Well (intVal i) := tidy_wrap i
theorem well_ints (l : List Int) : Well (.vec (l.map intVal)) := wells_iff.2 fun x hx => by
  obtain ⟨i, _, rfl⟩ := List.mem_map.1 hx
  exact well_int i

theorem good_mapV {α β : Type} {P : α → Prop} {Q : β → Prop} {f : α → β} (hf : ∀ x, P x → Q (f x)) {v : V α} (h : GoodV P v) : GoodV Q (mapV f v) := by
  cases v with
  | elem x => exact hf x h
  | vec l =>
    intro y hy
    obtain ⟨x, hx, rfl⟩ := List.mem_map.1 hy
    exact hf x (h x hx)
  | mat m =>
    refine ⟨⟨h.1.rank, by show (m.data.map f).length = _; rw [List.length_map]; exact h.1.len⟩, fun y hy => ?_⟩
    obtain ⟨x, hx, rfl⟩ := List.mem_map.1 hy
    exact hf x (h.2 x hx)

theorem well_ofInts {v : V (V Int)} (h : GoodI v) : Well (ofInts v) :=
  well_ofV (good_mapV (fun _ hw => well_ofV (good_mapV (fun i _ => well_int i) hw)) h)

/-! ## Depth -/

theorem depths_le : ∀ {l : List Val} {k : Nat}, depths l ≤ k ↔ ∀ x ∈ l, depth x ≤ k
  | [], k => by simp [depths]
  | x :: xs, k => by
    have := depths_le (l := xs) (k := k)
    simp only [depths, List.mem_cons, forall_eq_or_imp, ← this]
    omega

/-- Well-formed and not nested deeper than `k`. -/
def Deep (k : Nat) (v : Val) : Prop := Well v ∧ depth v ≤ k

theorem deep_toV {k : Nat} {v : Val} (h : Deep (k + 1) v) : GoodV (Deep k) (toV v) := by
  cases v with
  | num n => exact ⟨h.1, by simp [depth]⟩
  | cplx a b => exact ⟨h.1, by simp [depth]⟩
  | vec l =>
    have h2 : depths l ≤ k := by have := h.2; simp only [depth] at this; omega
    exact fun x hx => ⟨wells_iff.1 h.1 x hx, depths_le.1 h2 x hx⟩
  | mat s d =>
    have h2 : depths d ≤ k := by have := h.2; simp only [depth] at this; omega
    exact ⟨(goodV_toV h.1).1, fun x hx => ⟨wells_iff.1 h.1.2.2 x hx, depths_le.1 h2 x hx⟩⟩

theorem deep_ofV {k : Nat} {v : V Val} (h : GoodV (Deep k) v) : Deep (k + 1) (ofV v) := by
  refine ⟨well_ofV ?_, ?_⟩
  · cases v with
    | elem x => exact h.1
    | vec l => exact fun x hx => (h x hx).1
    | mat m => exact ⟨h.1, fun x hx => (h.2 x hx).1⟩
  · cases v with
    | elem x => exact Nat.le_succ_of_le h.2
    | vec l => exact Nat.succ_le_succ (depths_le.2 fun x hx => (h x hx).2)
    | mat m => exact Nat.succ_le_succ (depths_le.2 fun x hx => (h.2 x hx).2)

theorem deep_back {k : Nat} {r : R (V Val)} (h : Gives (GoodV (Deep k)) r) : Gives (Deep (k + 1)) (back r) := gives_bind h fun _ hv => deep_ofV hv

theorem tidy_toC {v : Val} {x : CNum} (h : Well v) (e : toC v = some x) : TidyC x := by
  cases v with
  | num n => cases e; exact h
  | cplx a b => cases e; exact h
  | vec l => cases e
  | mat s d => cases e

theorem deep_ofRes {k : Nat} {r : Res CNum} (h : Sound TidyC r) : Gives (Deep k) (ofRes r) := by
  cases r with
  | ok x =>
    cases x with
    | num n => exact ⟨h, by simp [ofC, depth]⟩
    | cx c => exact ⟨h, by simp [ofC, depth]⟩
  | err => trivial
  | crash => exact h
  | float => trivial

theorem real1_sound (o : Op1) {x : CNum} (h : TidyC x) : Sound TidyC (real1 o x) := by
  cases x with
  | num n => exact sound_asNum (op1_sound o h)
  | cx c => trivial

theorem real2_sound (mb : Nat) (o : Op2) {x y : CNum} (hx : TidyC x) (hy : TidyC y) : Sound TidyC (real2 mb o x y) := by
  cases x with
  | num a =>
    cases y with
    | num b => exact sound_asNum (op2_sound mb o hx hy)
    | cx c => trivial
  | cx c => trivial

theorem s1_sound (mb : Nat) (o : S1) {x : CNum} (h : TidyC x) : Sound TidyC (o.eval mb x) := by
  cases o with
  | base o => exact cop1_sound o h
  | floor => exact cFloor_sound h
  | ceil => exact cCeil_sound h
  | abs => exact real1_sound _ h
  | sgn => exact real1_sound _ h
  | fac => exact real1_sound _ h
  | compl => exact real1_sound _ h
  | char =>
    unfold S1.eval
    dsimp only
    split
    · unfold toChar
      exact sound_ite (fun _ => trivial) fun _ => trivial
    · trivial
  | code =>
    unfold S1.eval
    dsimp only
    split
    · exact tidy_wrap _
    · trivial

theorem s2_sound (mb : Nat) (o : S2) {x y : CNum} (hx : TidyC x) (hy : TidyC y) : Sound TidyC (o.eval mb x y) := by
  cases o with
  | j => exact cop2_sound (mb := mb) .j hx hy
  | op o =>
    unfold S2.eval
    dsimp only
    cases Op2.cplx o with
    | some d => exact cop2_sound (mb := mb) d hx hy
    | none => exact real2_sound mb o hx hy

theorem toC_none {v : Val} (h : toC v = none) : 1 ≤ depth v := by
  cases v with
  | num n => cases h
  | cplx a b => cases h
  | vec l => simp [depth]
  | mat s d => simp [depth]

theorem gives_un1 (c : Conf) (o : S1) : ∀ (k : Nat) {v : Val}, Deep k v → Gives (Deep k) (un1 c o (k + 1) v)
  | k, v, h => by
    unfold un1
    split
    · rename_i x e
      exact deep_ofRes (s1_sound _ o (tidy_toC h.1 e))
    · rename_i e
      cases k with
      | zero => have := toC_none e; have := h.2; omega
      | succ k => exact deep_back (gives_unaryElementwise c.S (fun a ha => gives_un1 c o k ha) (deep_toV h))

theorem gives_bin2 (c : Conf) (o : S2) : ∀ (k : Nat) {u v : Val}, Deep k u → Deep k v → Gives (Deep k) (bin2 c o (k + 1) u v)
  | k, u, v, hu, hv => by
    unfold bin2
    split
    · rename_i x y ex ey
      exact deep_ofRes (s2_sound _ o (tidy_toC hu.1 ex) (tidy_toC hv.1 ey))
    · rename_i e
      cases k with
      | zero =>
        cases eu : toC u with
        | none => have := toC_none eu; have := hu.2; omega
        | some x =>
          cases ev : toC v with
          | none => have := toC_none ev; have := hv.2; omega
          | some y => exact (e x y eu ev).elim
      | succ k => exact deep_back (gives_elementwise c.S (fun a b ha hb => gives_bin2 c o k ha hb) (deep_toV hu) (deep_toV hv))

theorem gives_elem1 (c : Conf) (o : S1) {v : Val} (h : Well v) : Gives Well (elem1 c o v) :=
  gives_mono (gives_un1 c o _ ⟨h, Nat.le_refl _⟩) fun _ h => h.1

theorem gives_elem2 (c : Conf) (o : S2) {u v : Val} (hu : Well u) (hv : Well v) : Gives Well (elem2 c o u v) :=
  gives_mono (gives_bin2 c o _ ⟨hu, Nat.le_max_left ..⟩ ⟨hv, Nat.le_max_right ..⟩) fun _ h => h.1

end Verif.Safe
