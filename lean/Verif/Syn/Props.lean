import Verif.Syn.Lemmas5

/-!
# Syntax: the properties C41 and C42

Beside each theorem an example shows a concrete case that meets its hypotheses.
-/

namespace Verif.Syn
open Verif.Arr (R)
open Verif.Exec (Expr Fn Env Sem params)
variable {ν : Type} {Γ : Names} {W : Print ν}

/-! ## Constants for the examples: integers, which print as one token, and complex numbers, which print as
`value/complex.go:49-51` says: `(1)j(2)`. -/

/-- A constant, for the examples. -/
inductive Lit where
  | int (n : Int)
  | cpx (re im : Int)
deriving DecidableEq

/-- The words among the names of operators and variables in the examples; other names of operators are symbols. -/
def exWord (x : String) : Bool := x == "j" || x == "div" || x == "x" || x == "y" || x == "f" || x == "g"

/-- Printing, for the examples. -/
def exPrint : Print Lit where
  isChar _ := false
  value v := match v with
    | .int n => .ok [.num (some (.int n))]
    | .cpx a b => .ok [.lparen, .num (some (.int a)), .rparen, .id "j", .lparen, .num (some (.int b)), .rparen]
  word := exWord

/-- Built-in operators, for the examples: the words `j`, which is unary and binary, and `div`, which is binary. -/
def exNames : Names where
  unary x := x == "j"
  binary x := x == "j" || x == "div"

/-- Values do not matter for the examples. -/
def exSem : Sem Lit where
  inner := id
  quiet := id
  ofList l := l.headD (.int 0)
  asVector _ := none
  isTrue _ := .ok true
  isZero v := v == .int 0
  okIndex _ := none
  index _ _ := .err "cannot index"
  setIndex _ _ _ := .err "cannot index"
  unaryDerived _ := none
  binaryDerived _ _ _ := none
  unary _ := none
  binary _ := none

/-- A context without operators or variables. -/
def exEnv : Env Lit := ⟨fun _ => none, fun _ => none, fun _ => none, [], []⟩

/-- The token of an integer. -/
def n (k : Int) : Tok Lit := .num (some (.int k))

/-- An integer constant. -/
def l (k : Int) : Expr Lit := .lit (.int k)

/-! ## C42: expressions group to the right -/

/-- Reading accepts exactly the lines of the grammar, with exactly the trees the grammar gives them. -/
theorem C42_line {ts : List (Tok ν)} {es : List (Expr ν)} : parseLine Γ ts = .ok es ↔ Line Γ ts es := parseLine_iff

/-- `1 - x div 2; x` -/
example : parseLine exNames [n 1, .op "-", .id "x", .id "div", n 2, .semi, .id "x"] =
    .ok [.binary "-" (l 1) (.binary "div" (.var "x" 0) (l 2)), .var "x" 0] := rfl

/-- Reading an expression, likewise. -/
theorem C42_expression {ts : List (Tok ν)} {e : Expr ν} : parseExpr Γ ts = .ok (e, []) ↔ Reads Γ ts e := by
  constructor
  · intro h
    obtain ⟨pre, h1, h2, -⟩ := parseExpr_sound h
    simp only [List.append_nil] at h1
    exact h1 ▸ h2
  · intro h
    have := parseExpr_complete h (rest := []) (by trivial)
    simpa using this

/-- `- 1 2 div x[3]` -/
example : parseExpr exNames [.op "-", n 1, n 2, .id "div", .id "x", .lbrack, n 3, .rbrack] =
    .ok (.unary "-" (.binary "div" (.vec [l 1, l 2]) (.index (.var "x" 0) [l 3])), []) := rfl

/-- The grammar gives every sequence of tokens at most one tree. -/
theorem C42_unambiguous {ts : List (Tok ν)} {e e' : Expr ν} (h : Reads Γ ts e) (h' : Reads Γ ts e') : e = e' := by
  have h1 := C42_expression.2 h
  rw [C42_expression.2 h'] at h1
  simp only [R.ok.injEq, Prod.mk.injEq, and_true] at h1
  exact h1.symm

/-- Reading a line comes to an end, with trees or with an error message: there is no sequence of tokens on which it
crashes or goes on for ever. -/
theorem C42_total (Γ : Names) (ts : List (Tok ν)) : parseLine Γ ts ≠ .crash ∧ parseLine Γ ts ≠ .hang := by
  have := parseLine_fine (Γ := Γ) ts
  exact ⟨this.2, this.1⟩

/-- `1 +` is an error. -/
example : ∃ m, parseLine exNames [n 1, .op "+"] = .err m := ⟨_, rfl⟩

/-- A unary operator applies to everything on its right. -/
theorem C42_unary {t : Tok ν} {x : String} {ts : List (Tok ν)} {e : Expr ν} (ht : UnaryTok Γ t x)
    (h : parseExpr Γ ts = .ok (e, [])) : parseExpr Γ (t :: ts) = .ok (.unary x e, []) :=
  C42_expression.2 (.unary ht (C42_expression.1 h))

/-- `- 1 + 2` is `-(1 + 2)` and `j 1 + 2` is `j (1 + 2)`. -/
example : UnaryTok (ν := Lit) exNames (.op "-") "-" ∧ UnaryTok (ν := Lit) exNames (.id "j") "j" ∧
    parseExpr exNames [n 1, .op "+", n 2] = .ok (.binary "+" (l 1) (l 2), []) :=
  ⟨Or.inl rfl, Or.inr ⟨rfl, rfl⟩, rfl⟩

/-- Operands, each followed by a binary operator, and then `ts`. -/
def chain : List (List (Tok ν) × Tok ν) → List (Tok ν) → List (Tok ν)
  | [], ts => ts
  | (us, t) :: r, ts => us ++ t :: chain r ts

/-- The tree grouping to the right: the first operand, the first operator and the tree of all the rest. -/
def rightTree : List (Expr ν × String) → Expr ν → Expr ν
  | [], e => e
  | (a, x) :: r, e => .binary x a (rightTree r e)

/-- Binary operators group to the right, whichever they are. -/
theorem C42_right (os : List ((List (Tok ν) × Expr ν) × (Tok ν × String)))
    (h : ∀ o ∈ os, Operand Γ o.1.1 o.1.2 ∧ BinaryTok Γ o.2.1 o.2.2) {ts : List (Tok ν)} {e : Expr ν}
    (he : parseExpr Γ ts = .ok (e, [])) :
    parseExpr Γ (chain (os.map fun o => (o.1.1, o.2.1)) ts) =
      .ok (rightTree (os.map fun o => (o.1.2, o.2.2)) e, []) := by
  rw [C42_expression] at he ⊢
  induction os with
  | nil => exact he
  | cons o os ih =>
    have ho := h o (by simp)
    exact .binary ho.1 ho.2 (ih fun o ho => h o (by simp [ho]))

/-- `1 2 - x div 3` is `(1 2) - (x div 3)`. -/
example : parseExpr exNames (chain [([n 1, n 2], .op "-"), ([.id "x"], .id "div")] [n 3]) =
    .ok (rightTree [(.vec [l 1, l 2], "-"), (.var "x" 0, "div")] (l 3), []) := rfl

/-- The operands of the example. -/
example : Operand exNames [n 1, n 2] (.vec [l 1, l 2]) ∧ Operand (ν := Lit) exNames [.id "x"] (.var "x" 0) ∧
    BinaryTok (ν := Lit) exNames (.op "-") "-" ∧ BinaryTok (ν := Lit) exNames (.id "div") "div" :=
  ⟨.mk (v := false) (us := []) (.more (.num) trivial (.one .num trivial)) .none (Or.inl rfl),
    .mk (v := true) (us := []) (.one (.var (x := "x") .none) (by simp [Admits, exNames, trimAt])) .none (Or.inl rfl),
    Or.inl rfl, Or.inr ⟨rfl, rfl⟩⟩

/-- Indexing a variable binds tighter than anything: the brackets go to the variable even if other elements of a vector
stand before it. -/
theorem C42_index {v : Bool} {us : List (Tok ν)} {es : List (Expr ν)} {x : String} {is : List (Tok ν)}
    {ixs : List (Expr ν)} (hv : Elements Γ true v us es) (hx : Γ.op x = false) (hi : Indexes Γ is ixs) :
    parseExpr Γ (us ++ .id x :: .lbrack :: is ++ [.rbrack]) = .ok (.vec (es ++ [.index (.var x 0) ixs]), []) := by
  have last : Elements Γ false true (.id x :: .lbrack :: is ++ [.rbrack]) [.index (.var x 0) ixs] :=
    .one (.var (.more (ts := []) hi .none)) (by simpa [Admits] using hx)
  have key : ∀ {a v us es}, Elements Γ a v us es →
      Elements Γ a true (us ++ (.id x :: .lbrack :: is ++ [.rbrack])) (es ++ [.index (.var x 0) ixs]) := by
    intro a v us es h
    induction es generalizing a us with
    | nil => cases h
    | cons e es ih =>
      cases h with
      | one h1 h2 => exact .more h1 h2 last
      | more h1 h2 h3 =>
        rw [List.append_assoc]
        exact .more h1 h2 (ih h3)
  have hvec : vector (es ++ [.index (.var x 0) ixs]) = .vec (es ++ [.index (.var x 0) ixs]) := by
    cases es with
    | nil => cases hv
    | cons e es => cases es <;> rfl
  have := Operand.mk (us := []) (key hv) Brackets.none (Or.inl rfl)
  rw [hvec] at this
  have h := C42_expression.2 (Reads.operand this)
  simpa using h

/-- `1 x[2]` is a vector whose second element is `x[2]`. -/
example : parseExpr exNames [n 1, .id "x", .lbrack, n 2, .rbrack] =
    .ok (.vec [l 1, .index (.var "x" 0) [l 2]], []) := rfl

/-- Indexing anything else binds tighter than the operators, but applies to the whole vector: `1 + 2 3[1]` is
`1 + ((2 3)[1])`. -/
example : parseExpr exNames [n 1, .op "+", n 2, n 3, .lbrack, n 1, .rbrack] =
    .ok (.binary "+" (l 1) (.index (.vec [l 2, l 3]) [l 1]), []) := rfl

/-- Printing the tree of an expression and reading the result gives the same tree, if the tree is `Tidy`: every constant
is printed as one token that stands for it, no variable bears the name of an operator, and no vector has a constant with
indexes among its elements.

*Missing:* trees that are not (`C42_violated_index`, `C42_violated_variable`, `C41_violated_complex`). -/
theorem C42_print_partial {ts : List (Tok ν)} {e : Expr ν} (h : parseExpr Γ ts = .ok (e, []))
    (hs : ∀ t ∈ ts, W.Scanned t) (ht : Tidy W Γ e) :
    ∃ us, print W e = .ok us ∧ parseExpr Γ us = .ok (e, []) := by
  have hr := C42_expression.1 h
  obtain ⟨us, h1, h2, -⟩ := print_reads e (hr.shape hs) ht
  exact ⟨us, h1, C42_expression.2 h2⟩

/-- `(1 - 2) div (x y)[3; - y]`: the parentheses are kept, and the whole is `Tidy`. -/
example : let ts := [.lparen, n 1, .op "-", n 2, .rparen, .id "div", .lparen, .id "x", .id "y", .rparen, .lbrack, n 3,
      .semi, .op "-", .id "y", .rbrack]
    let e : Expr Lit := .binary "div" (.binary "-" (l 1) (l 2))
      (.index (.vec [.var "x" 0, .var "y" 0]) [l 3, .unary "-" (.var "y" 0)])
    parseExpr exNames ts = .ok (e, []) ∧ print exPrint e = .ok ts ∧ (∀ t ∈ ts, exPrint.Scanned t) ∧
      Tidy exPrint exNames e := by
  refine ⟨rfl, rfl, ?_, ?_⟩
  · simp [Print.Scanned, exPrint, exWord, n]
  · simp [Tidy, TidyAll, Print.Readable, exPrint, l, Names.op, exNames, constIndexed, trimAt]

/-- **The code violates C42**: a constant with indexes is printed without parentheses (`value/expr.go:126-130`,
`IsCompound`), so that `6 (5[1])` comes back as `(6 5)[1]`. -/
theorem C42_violated_index :
    let ts := [n 6, .lparen, n 5, .lbrack, n 1, .rbrack, .rparen]
    ∃ e us e', parseExpr exNames ts = .ok (e, []) ∧ print exPrint e = .ok us ∧ parseExpr exNames us = .ok (e', []) ∧
      e' ≠ e := by
  refine ⟨.vec [l 6, .index (l 5) [l 1]], [n 6, n 5, .lbrack, n 1, .rbrack], .index (.vec [l 6, l 5]) [l 1], ?_, ?_, ?_,
    by simp [l]⟩ <;> rfl

/-- **The code violates C42**: a variable bearing the name of an operator, which can be written in parentheses, is
printed without them; `1 (div)` comes back as `1 div`, which is an error. -/
theorem C42_violated_variable :
    let ts := [n 1, .lparen, .id "div", .rparen]
    ∃ e us m, parseExpr exNames ts = .ok (e, []) ∧ print exPrint e = .ok us ∧ parseExpr exNames us = .err m := by
  exact ⟨.vec [l 1, .var "div" 0], [n 1, .id "div"], _, rfl, rfl, rfl⟩

/-! ## C41: saved operators read back equal -/

/-- If a definition was accepted, and its body is `Tidy`, then the text of the stored operator is accepted in any context
that has operators of the same names (and no variable of that name other than zero), and stores the same operator:
parameters, body, local variables and their numbers.  In particular it is accepted in the context in which the definition
was made.

*Missing:* operators without body (`C41_violated_declared`), bodies that are not `Tidy` (`C41_violated_complex`,
`C41_violated_index`), and contexts in which operators used in the body are missing or have other forms; for those )save
writes declarations first, and those of binary operators are always rejected (`C41_violated_forward`). -/
theorem C41_partial {builtin : Names} {S : Sem ν} {g g' : Env ν} {ts : List (Tok ν)} {more : List (List (Tok ν))}
    (hg : g.declared = []) (hs : ∀ t ∈ ts, W.Scanned t) (hm : ∀ l ∈ more, ∀ t ∈ l, W.Scanned t)
    (h : define builtin S g ts more = (.ok (), g')) :
    ∃ f, g'.lookup f.name f.isBinary = some f ∧ (∀ x b, (x, b) ≠ (f.name, f.isBinary) → g'.lookup x b = g.lookup x b) ∧
      ∀ es, f.body = some es → (∀ e ∈ es, Tidy W (inBody builtin g f.name f.isBinary (params f)) e) →
        ∃ us ls, printFn W f = .ok (us, ls) ∧
          ∀ k : Env ν, SameOps g k → k.declared = [] → (∀ v, k.globals f.name = some v → S.isZero v = true) →
            ∃ k', define builtin S k us ls = (.ok (), k') ∧
              ∀ x b, k'.lookup x b = if x = f.name ∧ b = f.isBinary then some f else k.lookup x b :=
  define_again hg hs hm h

/-- `op x f (y g) = x == y : 1; (x - 1) f y g` -/
def exDef : List (Tok Lit) :=
  [.id "x", .id "f", .lparen, .id "y", .id "g", .rparen, .assign, .id "x", .op "==", .id "y", .colon, n 1, .semi,
    .lparen, .id "x", .op "-", n 1, .rparen, .id "f", .id "y", .id "g"]

/-- It is accepted, and its text is `op x f (y g) =` followed by the two statements on lines of their own. -/
example : (define exNames exSem exEnv exDef []).1 = .ok () ∧
    ((define exNames exSem exEnv exDef []).2.binaryFn "f").map (printFn exPrint) =
      some (.ok ([.id "x", .id "f", .lparen, .id "y", .id "g", .rparen, .assign],
        [[.lparen, .id "x", .op "==", .id "y", .rparen, .colon, n 1],
          [.lparen, .id "x", .op "-", n 1, .rparen, .id "f", .id "y", .id "g"]])) ∧
    (define exNames exSem exEnv exDef []).2.binaryFn "f" = (define exNames exSem exEnv
      [.id "x", .id "f", .lparen, .id "y", .id "g", .rparen, .assign]
        [[.lparen, .id "x", .op "==", .id "y", .rparen, .colon, n 1],
          [.lparen, .id "x", .op "-", n 1, .rparen, .id "f", .id "y", .id "g"]]).2.binaryFn "f" := by
  refine ⟨rfl, rfl, ?_⟩
  rfl

/-- The stored operator is `Tidy`. -/
example : ∀ f es, (define exNames exSem exEnv exDef []).2.binaryFn "f" = some f → f.body = some es →
    (∀ t ∈ exDef, exPrint.Scanned t) ∧ ∀ e ∈ es, Tidy exPrint (inBody exNames exEnv f.name f.isBinary (params f)) e := by
  intro f es hf hb
  have : some f = some (⟨true, "f", some (.var "x" 1), .vec [.var "y" 3, .var "g" 2], some
      [.cond (.binary "==" (.var "x" 1) (.var "y" 3)) (l 1),
        .binary "f" (.binary "-" (.var "x" 1) (l 1)) (.vec [.var "y" 3, .var "g" 2])], ["x", "g", "y"]⟩ : Fn Lit) := by
    rw [← hf]; rfl
  simp only [Option.some.injEq] at this
  subst this
  simp only [Option.some.injEq] at hb
  subst hb
  refine ⟨by simp [exDef, Print.Scanned, exPrint, exWord, n], ?_⟩
  simp [Tidy, TidyAll, Print.Readable, exPrint, l, Names.op, inBody, exNames, constIndexed, trimAt, exEnv, params,
    Exec.paramNames, Exec.paramNamesRev]

/-- **The code violates C41**: a complex number is printed as two numbers in parentheses around a `j`
(`value/complex.go:49-51` uses `String` of its parts, which writes parentheses), so the operator `op f x = 3 1j2`, a vector
of two numbers, comes back as `(3 1) j 2`. -/
theorem C41_violated_complex :
    let ts := [.id "f", .id "x", .assign, n 3, .num (some (.cpx 1 2))]
    ∃ g f us ls k f', define exNames exSem exEnv ts [] = (.ok (), g) ∧ g.unaryFn "f" = some f ∧
      printFn exPrint f = .ok (us, ls) ∧ define exNames exSem exEnv us ls = (.ok (), k) ∧ k.unaryFn "f" = some f' ∧
      f.body = some [.vec [l 3, .lit (.cpx 1 2)]] ∧ f'.body = some [.binary "j" (.vec [l 3, l 1]) (l 2)] :=
  ⟨_, _, _, _, _, _, rfl, rfl, rfl, rfl, rfl, rfl, rfl⟩

/-- **The code violates C41** for constants with indexes, as `C42_violated_index`. -/
theorem C41_violated_index :
    let ts := [.id "f", .id "x", .assign, n 6, .lparen, n 5, .lbrack, .id "x", .rbrack, .rparen]
    ∃ g f us ls k f', define exNames exSem exEnv ts [] = (.ok (), g) ∧ g.unaryFn "f" = some f ∧
      printFn exPrint f = .ok (us, ls) ∧ define exNames exSem exEnv us ls = (.ok (), k) ∧ k.unaryFn "f" = some f' ∧
      f.body = some [.vec [l 6, .index (l 5) [.var "x" 1]]] ∧
      f'.body = some [.index (.vec [l 6, l 5]) [.var "x" 1]] :=
  ⟨_, _, _, _, _, _, rfl, rfl, rfl, rfl, rfl, rfl, rfl⟩

/-- **The code violates C41**: an operator that is only declared is printed as `op f x =`, which is an error on its own
(and would take any lines that follow as its body). -/
theorem C41_violated_declared :
    ∃ g f us ls m k, define exNames exSem exEnv [.id "f", .id "x"] [] = (.ok (), g) ∧ g.unaryFn "f" = some f ∧
      printFn exPrint f = .ok (us, ls) ∧ define exNames exSem exEnv us ls = (.err m, k) :=
  ⟨_, _, _, _, _, _, rfl, rfl, rfl, rfl⟩

/-- **The code violates C41**: the declaration `op _ f _` that )save writes before the first operator whose body uses the
binary operator `f`, if `f` comes later or is that operator itself (`parse/save.go:95-97`), is rejected whatever `f` is
and whatever the context. -/
theorem C41_violated_forward (builtin : Names) (S : Sem ν) (g : Env ν) (f : String) :
    ∃ m g', define builtin S g [.id "_", .id f, .id "_"] [] = (.err m, g') := by
  have hh : header ([.id "_", .id f, .id "_"] : List (Tok ν)) =
      .ok (⟨true, f, some (.var "_" 0), .var "_" 0, none, []⟩, []) := rfl
  unfold define
  rw [hh]
  dsimp only
  unfold Exec.definition
  split
  · exact ⟨_, _, rfl⟩
  · have hp : params (⟨true, f, some (.var "_" 0), .var "_" 0, none, []⟩ : Fn ν) = ["_", "_"] := rfl
    rw [hp]
    unfold Exec.declareAll
    by_cases h1 : "_" = f
    · rw [if_pos h1]; exact ⟨_, _, rfl⟩
    · rw [if_neg h1, if_neg (by simp)]
      unfold Exec.declareAll
      rw [if_neg h1, if_pos (by simp)]
      exact ⟨_, _, rfl⟩

/-- The declaration of a unary operator is accepted. -/
example : (define exNames exSem exEnv [.id "f", .id "_"] []).1 = .ok () := rfl

end Verif.Syn
