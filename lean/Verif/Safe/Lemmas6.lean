import Verif.Safe.Refine

/-!
# The guard lets everything through that has elements
-/

namespace Verif.Safe
open Verif.Arr
open Verif.Order (Val)

theorem ends_of {r : R Val} (h : Gives Well r) : Ends r := by
  cases r with
  | ok v => exact Or.inl ⟨v, rfl, h⟩
  | err m => exact Or.inr ⟨m, rfl⟩
  | crash => exact h.elim
  | hang => exact h.elim

theorem need_true {c : Conf} {b : Bool} (h : b = true) (r : R Val) : need c b r = r := by
  unfold need
  rw [h]
  simp

theorem solid_of {v : Val} (h : HasElems v) : solid v = true := by
  cases v with
  | mat s d => cases d with | nil => exact (h rfl).elim | cons x xs => rfl
  | _ => rfl

theorem data_of {v : Val} (h : HasElems v) : (toV v).data.isEmpty = false := by
  cases v with
  | mat s d => cases d with | nil => exact (h rfl).elim | cons x xs => rfl
  | vec d => cases d with | nil => exact (h rfl).elim | cons x xs => rfl
  | _ => rfl

theorem dense_of (u : Val) {v : Val} (h : HasElems v) : dense u v = true := by
  unfold dense
  rw [data_of h]
  simp

theorem head_of {s : List Nat} {d : List Val} (h : Well (.mat s d)) (he : HasElems (.mat s d)) : s.head? ≠ some 0 := by
  intro e
  cases s with
  | nil => cases e
  | cons a s =>
    simp only [List.head?_cons, Option.some.injEq] at e
    subst e
    have := h.2.1
    simp only [List.prod_cons, Nat.zero_mul] at this
    exact he (List.eq_nil_of_length_eq_zero this)

theorem decodeFine_of {u v : Val} (hu : HasElems u) (hw : Well v) (hv : HasElems v) (hf : ¬ FlatMat v) : decodeFine u v = true := by
  have hd := data_of hu
  cases v with
  | mat s d =>
    have h1 := head_of hw hv
    have h0 : s ≠ [] := hw.1
    have h2 : 2 ≤ s.length := by
      have : s.length ≠ 1 := hf
      have : s.length ≠ 0 := fun h => h0 (List.eq_nil_of_length_eq_zero h)
      omega
    unfold decodeFine
    cases u with
    | mat _ _ => rfl
    | num n => simp [toV, h1, h2, V.data]
    | cplx a b => simp [toV, h1, h2, V.data]
    | vec l =>
      cases l with
      | nil => cases hd
      | cons x xs => simp [toV, h1, h2, V.data]
  | num n => unfold decodeFine; cases u <;> rfl
  | cplx a b => unfold decodeFine; cases u <;> rfl
  | vec l => unfold decodeFine; cases u <;> rfl

theorem transpFine_of {v : Val} (hw : Well v) (hv : HasElems v) : transpFine v = true := by
  unfold transpFine
  split
  · rename_i x y d
    have := hw.2.1
    simp only [List.prod_cons, List.prod_nil, Nat.mul_one] at this
    cases y with
    | zero => exact (hv (List.eq_nil_of_length_eq_zero (by simpa using this))).elim
    | succ y => simp
  · rfl

theorem plain2 (c : Conf) {f : F2} (hs : f.Simple) {u v : Val} (wv : Well v) (hu : HasElems u) (hv : HasElems v) (hd : f = .decode → ¬ FlatMat v) :
    f.eval c.guarded u v = f.eval c.plain u v := by
  have su := solid_of hu
  have sv := solid_of hv
  have same : ∀ (b : Bool) (r : R Val), b = true → need c.guarded b r = need c.plain b r := fun b r h => by rw [need_true h, need_true h]
  cases f with
  | s o => exact congrFun (congrFun (elem2_same c o) u) v
  | rot => exact same _ _ (dense_of u hv)
  | flip => exact same _ _ (dense_of u hv)
  | decode => exact same _ _ (decodeFine_of hu wv hv (hd rfl))
  | iota => exact same _ _ (dense_of v hu)
  | cat => exact same _ _ (by rw [su, sv]; rfl)
  | sel => exact same _ _ sv
  | part => exact same _ _ sv
  | inner _ _ => exact hs.elim
  | outer _ => exact hs.elim
  | each _ _ => exact hs.elim
  | _ => rfl

theorem plain1 (c : Conf) {f : F1} (hs : f.Simple) {v : Val} (wv : Well v) (hv : HasElems v) : f.eval c.guarded v = f.eval c.plain v := by
  have sv := solid_of hv
  have same : ∀ (b : Bool) (r : R Val), b = true → need c.guarded b r = need c.plain b r := fun b r h => by rw [need_true h, need_true h]
  cases f with
  | s o => exact congrFun (elem1_same c o) v
  | up => exact same _ _ sv
  | down => exact same _ _ sv
  | rot => exact same _ _ sv
  | transp => exact same _ _ (transpFine_of wv hv)
  | inv => unfold F1.eval; rw [valOps_same]; exact same _ _ sv
  | reduce _ => exact hs.elim
  | reduceFirst _ => exact hs.elim
  | scan _ _ => exact hs.elim
  | scanFirst _ _ => exact hs.elim
  | each _ _ => exact hs.elim
  | _ => rfl

theorem simple2_ok {f : F2} (h : f.Simple) : f.Ok := by
  cases f with
  | inner _ _ => exact h.elim
  | outer _ => exact h.elim
  | each _ _ => exact h.elim
  | _ => trivial

theorem simple1_ok {f : F1} (h : f.Simple) : f.Ok := by
  cases f with
  | reduce _ => exact h.elim
  | reduceFirst _ => exact h.elim
  | scan _ _ => exact h.elim
  | scanFirst _ _ => exact h.elim
  | each _ _ => exact h.elim
  | _ => trivial

theorem indexFine_of {u : Val} (hu : HasElems u) (ixs : List Ix) : indexFine u ixs = true := by
  have := data_of hu
  unfold indexFine
  cases u with
  | mat s d => cases d with | nil => cases this | cons x xs => rfl
  | vec d => cases d with | nil => cases this | cons x xs => rfl
  | _ => rfl

end Verif.Safe
