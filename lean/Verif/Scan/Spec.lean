import Verif.Scan.Model
/-
What the properties of the scanner say, in terms of texts and tokens.
-/
namespace Verif.Scan

/-- The text is the tokens one after another, with nothing but spaces and tabs between them, and spaces or a comment at
the end. -/
inductive Layout : List Tok → List Char → Prop where
  | done {sp : List Char} (h : ∀ c ∈ sp, isSpace c = true) : Layout [] sp
  | comment {sp rest : List Char} (h : ∀ c ∈ sp, isSpace c = true) (hr : '\n' ∉ rest) : Layout [] (sp ++ '#' :: rest)
  | tok {sp : List Char} {t : Tok} {ts : List Tok} {rest : List Char} (h : ∀ c ∈ sp, isSpace c = true) (ht : t.text ≠ [])
      (hn : ∀ c, t.text.head? = some c → isSpace c = false) (hr : Layout ts rest) : Layout (t :: ts) (sp ++ t.text ++ rest)

/-- The beginning of the text is so; something follows. -/
inductive Layout.Upto : List Tok → List Char → Prop where
  | rest {s : List Char} : Upto [] s
  | tok {sp : List Char} {t : Tok} {ts : List Tok} {rest : List Char} (h : ∀ c ∈ sp, isSpace c = true) (ht : t.text ≠ [])
      (hr : Upto ts rest) : Upto (t :: ts) (sp ++ t.text ++ rest)

/-- What may stand between two quotes: a backslash takes the character after it along; no newline. -/
inductive Quoted (q : Char) : List Char → Prop where
  | nil : Quoted q []
  | plain {c : Char} {s : List Char} (h1 : c ≠ '\\') (h2 : c ≠ '\n') (h3 : c ≠ q) (hs : Quoted q s) : Quoted q (c :: s)
  | escape {d : Char} {s : List Char} (h : d ≠ '\n') (hs : Quoted q s) : Quoted q ('\\' :: d :: s)

/-- The text of a token fits its type: a string stands between two equal quotes, a newline is a newline after a comment if
there is one, an identifier is letters, digits and underscores, perhaps with `@` after them, and the others are what they
are called. -/
def Form (U : Uni) (t : Tok) : Prop :=
  match t.ty with
  | .string => (∃ q body, t.text = q :: body ++ [q] ∧ (q = '\'' ∨ q = '"') ∧ Quoted q body) ∨ ∃ body, t.text = '`' :: body ++ ['`'] ∧ '`' ∉ body
  | .newline => t.text = ['\n'] ∨ ∃ com, t.text = '#' :: com ++ ['\n'] ∧ '\n' ∉ com
  | .identifier => ∃ w k, t.text = w ++ List.replicate k '@' ∧ w ≠ [] ∧ ∀ c ∈ w, isAlphaNumeric U c = true
  | .semicolon => t.text = [';']
  | .assign => t.text = ['=']
  | .leftParen => t.text = ['(']
  | .rightParen => t.text = [')']
  | .leftBrack => t.text = ['[']
  | .rightBrack => t.text = [']']
  | .colon => t.text = [':']
  | .char => ∃ c, t.text = [c] ∧ U.print c = true
  | .op => ∃ k j, t.text = List.replicate k '@' ++ "op".toList ++ List.replicate j '@'
  | .opDelete => ∃ k j, t.text = List.replicate k '@' ++ "opdelete".toList ++ List.replicate j '@'
  | .number => ∀ c ∈ t.text.head?, c = '+' ∨ c = '-' ∨ c = '.' ∨ c = 'j' ∨ c = '_' ∨ isAlphaNumeric U c = true
  | .operator => True

/-- What package unicode says of ASCII. -/
structure Uni.Ok (U : Uni) : Prop where
  letter : ∀ c : Char, c.toNat < 128 → U.letter c = (decide ('a' ≤ c ∧ c ≤ 'z') || decide ('A' ≤ c ∧ c ≤ 'Z'))
  digit : ∀ c : Char, c.toNat < 128 → U.digit c = isDigit c
  punct : ∀ c : Char, c.toNat < 128 → U.punct c = "!\"#%&'()*,-./:;?@[\\]_{}".toList.contains c
  symbol : ∀ c : Char, c.toNat < 128 → U.symbol c = "$+<=>^`|~".toList.contains c
  print : ∀ c : Char, c.toNat < 128 → U.print c = decide (32 ≤ c.toNat ∧ c.toNat < 127)
  apart : ∀ c : Char, 128 ≤ c.toNat → U.letter c = true ∨ U.digit c = true → U.punct c = false ∧ U.symbol c = false

/-- A word: letters, digits and underscores, the first of them no digit. -/
def Word (U : Uni) (w : List Char) : Prop :=
  w ≠ [] ∧ (∀ c ∈ w, isAlphaNumeric U c = true) ∧ ∀ c, w.head? = some c → U.digit c = false

/-- A digit of the input base; the base 0 means 10. -/
def DigitIn (base : Nat) (c : Char) : Prop :=
  isDigit c = true ∨ (10 < base ∧ ∃ k, k < base - 10 ∧ (c = Char.ofNat ('a'.toNat + k) ∨ c = Char.ofNat ('A'.toNat + k)))

/-- What may stand after a word: the end, or a character which is no part of one (and no `@`, which would make it an
operator). -/
def Ends (U : Uni) (rest : List Char) : Prop :=
  ∀ c, rest.head? = some c → (isSpace c = true ∨ isEndOfLine c = true ∨ U.punct c = true ∨ U.symbol c = true) ∧
    isAlphaNumeric U c = false ∧ c ≠ '@'

/-- The word is a name in the context: not a keyword, not an operator. -/
def Free (C : Ctx) (w : List Char) : Prop :=
  w ≠ "op".toList ∧ w ≠ "opdelete".toList ∧ w ≠ ['o'] ∧ defined C w = false ∧ C.binary w = false ∧ C.userUnary w = false

/-- ASCII only, for examples. -/
def ascii : Uni where
  letter c := decide ('a' ≤ c ∧ c ≤ 'z') || decide ('A' ≤ c ∧ c ≤ 'Z')
  digit := isDigit
  punct c := "!\"#%&'()*,-./:;?@[\\]_{}".toList.contains c
  symbol c := "$+<=>^`|~".toList.contains c
  print c := decide (32 ≤ c.toNat ∧ c.toNat < 127)

/-- A context with a few operators, for examples. -/
def someCtx (base : Nat) : Ctx where
  base := base
  predefined w := ["rho".toList, "+".toList, "-".toList, "/".toList].contains w
  binary w := ["rho".toList, "+".toList, "-".toList, "/".toList].contains w
  userBinary _ := false
  userUnary _ := false

end Verif.Scan
