import Verif.Order.Model
import Verif.Num.Spec

/-! # What order, equality, membership and grade mean, without reference to how they are computed -/

namespace Verif.Order
open Verif.Num

/-- Values whose complex numbers are in the form in which arithmetic leaves them: numeric parts, and an imaginary
part that is not zero (`Complex.shrink`, `value/complex.go:91-100`). -/
inductive Val.Ok : Val → Prop
  | num (n : Num) : Val.Ok (.num n)
  | cplx {re im : Num} : re.isNum → im.isNum → im.val ≠ 0 → Val.Ok (.cplx re im)
  | vec {l : List Val} : (∀ x ∈ l, Val.Ok x) → Val.Ok (.vec l)
  | mat {s : List Nat} {l : List Val} : (∀ x ∈ l, Val.Ok x) → Val.Ok (.mat s l)

/-- Values in which no matrix occurs. -/
inductive Val.NoMat : Val → Prop
  | num (n : Num) : Val.NoMat (.num n)
  | cplx (re im : Num) : Val.NoMat (.cplx re im)
  | vec {l : List Val} : (∀ x ∈ l, Val.NoMat x) → Val.NoMat (.vec l)

/-- Two values are the same: the same character, the same number, vectors of the same length with the same elements,
matrices of the same shape with the same elements. -/
inductive Same : Val → Val → Prop
  | char (c : Int) : Same (.num (.char c)) (.num (.char c))
  | num {a b : Num} : a.isNum → b.isNum → a.val = b.val → Same (.num a) (.num b)
  | cplx {a b c d : Num} : a.val = c.val → b.val = d.val → Same (.cplx a b) (.cplx c d)
  | vec {l m : List Val} : l.length = m.length → (∀ i (h : i < l.length) (h' : i < m.length), Same l[i] m[i]) →
      Same (.vec l) (.vec m)
  | mat {s : List Nat} {l m : List Val} : l.length = m.length →
      (∀ i (h : i < l.length) (h' : i < m.length), Same l[i] m[i]) → Same (.mat s l) (.mat s m)

/-- The same, except that matrices need only have the same elements in the same order. -/
inductive SameData : Val → Val → Prop
  | char (c : Int) : SameData (.num (.char c)) (.num (.char c))
  | num {a b : Num} : a.isNum → b.isNum → a.val = b.val → SameData (.num a) (.num b)
  | cplx {a b c d : Num} : a.val = c.val → b.val = d.val → SameData (.cplx a b) (.cplx c d)
  | vec {l m : List Val} : l.length = m.length → (∀ i (h : i < l.length) (h' : i < m.length), SameData l[i] m[i]) →
      SameData (.vec l) (.vec m)
  | mat {s t : List Nat} {l m : List Val} : l.length = m.length →
      (∀ i (h : i < l.length) (h' : i < m.length), SameData l[i] m[i]) → SameData (.mat s l) (.mat t m)

/-- The kinds of values in their order: characters, real numbers, complex numbers, vectors, matrices. -/
inductive Kind : Val → Nat → Prop
  | char (c : Int) : Kind (.num (.char c)) 0
  | num {a : Num} : a.isNum → Kind (.num a) 1
  | cplx (a b : Num) : Kind (.cplx a b) 2
  | vec (l : List Val) : Kind (.vec l) 3
  | mat (s : List Nat) (l : List Val) : Kind (.mat s l) 4

/-- The order documented at `value/sets.go:176-197`: by kind; within a kind characters by code point, real numbers by
numerical value, complex numbers by their real and then by their imaginary parts, vectors and matrices by the number of
elements and then by the first pair of elements that differ. -/
inductive Below : Val → Val → Prop
  | kind {u v : Val} {i j : Nat} : Kind u i → Kind v j → i < j → Below u v
  | char {a b : Int} : a < b → Below (.num (.char a)) (.num (.char b))
  | num {a b : Num} : a.isNum → b.isNum → a.val < b.val → Below (.num a) (.num b)
  | re {a b c d : Num} : a.val < c.val → Below (.cplx a b) (.cplx c d)
  | im {a b c d : Num} : a.val = c.val → b.val < d.val → Below (.cplx a b) (.cplx c d)
  | vecLen {l m : List Val} : l.length < m.length → Below (.vec l) (.vec m)
  | vec {l m : List Val} (k : Nat) (h : k < l.length) (h' : k < m.length) : l.length = m.length →
      (∀ i (hi : i < k), SameData (l[i]'(by omega)) (m[i]'(by omega))) → Below l[k] m[k] → Below (.vec l) (.vec m)
  | matLen {s t : List Nat} {l m : List Val} : l.length < m.length → Below (.mat s l) (.mat t m)
  | mat {s t : List Nat} {l m : List Val} (k : Nat) (h : k < l.length) (h' : k < m.length) : l.length = m.length →
      (∀ i (hi : i < k), SameData (l[i]'(by omega)) (m[i]'(by omega))) → Below l[k] m[k] → Below (.mat s l) (.mat t m)

/-- All elements of a list are in canonical form. -/
def AllOk (l : List Val) : Prop := ∀ x ∈ l, x.Ok

end Verif.Order
