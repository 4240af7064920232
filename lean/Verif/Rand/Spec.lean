import Verif.Rand.Model
/-
What the properties of random numbers say, in terms of the numbers shown.
-/
namespace Verif.Rand
open Verif.Num
variable {σ : Type}

/-- What the library promises: `Int64N` and `rand.Int` give a number less than their operand, `Perm` a
rearrangement of the numbers less than its operand. -/
structure Gen.Ok (G : Gen σ) : Prop where
  int64N : ∀ i s, 0 < i → (G.int64N i s).1 < i
  bigInt : ∀ b s, 0 < b → (G.bigInt b s).1 < b
  perm : ∀ n s, (G.perm n s).1.Perm (List.range n)

/-- A number for a roll of `n`: an integer from the origin on, one of `n`. -/
def Num.Rolled (origin n : Int) (y : Num) : Prop := ∃ k : Int, (y = .int k ∨ y = .bigInt k) ∧ origin ≤ k ∧ k < origin + n

mutual
/-- A value rolled for a value: of the same structure, every number in its range. -/
def T.Rolled (origin : Int) : T → T → Prop
  | .num x, .num y => ∃ n : Int, (x = .int n ∨ x = .bigInt n) ∧ 0 < n ∧ Num.Rolled origin n y
  | .arr l, .arr m => T.RolledAll origin l m
  | _, _ => False
/-- The same for the elements. -/
def T.RolledAll (origin : Int) : List T → List T → Prop
  | [], [] => True
  | x :: l, y :: m => T.Rolled origin x y ∧ T.RolledAll origin l m
  | _, _ => False
end

mutual
/-- All numbers of a value satisfy `P`. -/
def T.All (P : Num → Prop) : T → Prop
  | .num x => P x
  | .arr l => T.AllIn P l
/-- The same for the elements. -/
def T.AllIn (P : Num → Prop) : List T → Prop
  | [] => True
  | x :: l => T.All P x ∧ T.AllIn P l
end

/-- A number of at most `p` bits, times a power of two. -/
def Bits (p : Nat) (f : Rat) : Prop := ∃ (m : Nat) (e : Int), m < 2 ^ p ∧ f = m * (2 : Rat) ^ e

/-- Two sessions of the same commands show the same. -/
def Reproducible (G : Gen σ) (procs minWork prec : Nat) (origin : Int) (cs : List Cmd) : Prop :=
  ∀ (n : Nat) (s s' : σ) (os os' : List Out) (t t' : σ), Session G procs minWork prec origin (.seed n :: cs) s os t →
    Session G procs minWork prec origin (.seed n :: cs) s' os' t' → os = os' ∧ t = t'

/-- A generator for the witnesses: it counts its calls. -/
def counter : Gen Nat where
  int64N i s := (s % i, s + 1)
  bigInt b s := (s % b, s + 1)
  perm n s := (List.range n, s + 1)
  seeded _ := 0

/-- Another, whose big integers are as large as can be. -/
def topmost : Gen Nat where
  int64N i s := (i - 1, s)
  bigInt b s := (b - 1, s)
  perm n s := (List.range n, s)
  seeded _ := 0

end Verif.Rand
