import Verif.Sess.Props
import Verif.Save.Props

/-!
# Sessions: property C55, the settings in a saved workspace

`)save` writes the settings as special commands around the definitions.  Here the file is what `save` writes, as lines of
tokens, and reading it is `)get` (or running the file as a program), as modelled in `Verif/Sess/Model.lean`.
-/

namespace Verif.Sess
open Verif.Arr (R)
open Verif.Scan (Uni ascii ascii_ok)

/-! ## Model -/

/-- A special command with a number, as written by `fmt.Fprintf(out, ")… %d\n")` (`parse/save.go:75-79, 125-126`) and
scanned again: decimal digits are one number in every input base (`scan/scan.go:569-588`). -/
def numLine (x : String) (n : Nat) : Line := .special [.id x, .num (Nat.toDigits 10 n)]

/-- A special command with a string, as written by `fmt.Fprintf(out, ")… %q\n")` (`parse/save.go:80-81`) and read by
`value.ParseString` (`value/char.go:70-130`), both as in `Verif/Save/Model.lean`. -/
def strLine (U : Uni) (x s : String) : Line :=
  .special [.id x, .str ((Save.parseString (Save.quote U '"' s.toList)).map String.ofList)]

/-- `parse/save.go:75-81`: the settings at the beginning of the file. -/
def saveHead (U : Uni) (c : Conf) : List Line :=
  [numLine "prec" c.prec, numLine "maxbits" c.maxBits, numLine "maxdigits" c.maxDigits, numLine "origin" c.origin,
   strLine U "prompt" c.prompt, strLine U "format" c.format]

/-- `parse/save.go:110-122`: the variables, if there are any, are preceded by `)base 10`. -/
def saveVars (vars : List Line) : List Line := if vars.isEmpty then [] else numLine "base" 10 :: vars

/-- `parse/save.go:124-126`: the bases at the end of the file. -/
def saveTail (c : Conf) : List Line := [numLine "ibase" c.ibase, numLine "obase" c.obase]

/-- `parse/save.go:57-130`: the lines of the file; `ops` are those of the operators (`parse/save.go:84-108`), `vars` those of
the variables. -/
def saveFile (U : Uni) (c : Conf) (ops vars : List Line) : List Line := saveHead U c ++ (ops ++ (saveVars vars ++ saveTail c))

/-! ## Specification -/

/-- Settings that special commands accept. -/
structure Settable (c : Conf) : Prop where
  prec : 0 < c.prec ∧ c.prec ≤ 1000000
  maxBits : c.maxBits < 2 ^ 31
  maxDigits : c.maxDigits < 2 ^ 31
  origin : c.origin < 2 ^ 31
  ibase : c.ibase = 0 ∨ 2 ≤ c.ibase ∧ c.ibase ≤ 16
  obase : c.obase = 0 ∨ 2 ≤ c.obase ∧ c.obase ≤ 16

/-- Lines that define operators or variables: run in base `b` they succeed and change no setting and no file. -/
def Defines (w : World) (g : String → St → R Unit × St) (b : Nat) (ls : List Line) : Prop :=
  ∀ l ∈ ls, ∀ s : St, s.conf.ibase = b → runLine w g l s = (.ok (), s)

/-- **C55** in full: after `)get` of a file written when the settings were `c`, all settings are `c`. -/
def C55_full (w : World) (n : Nat) : Prop :=
  ∀ (U : Uni) (c : Conf) (ops vars : List Line) (s : St) (x : String), U.Ok → Settable c → s.runDepth = 0 → s.files x = some (saveFile U c ops vars) →
    Defines w (get w n) 0 ops → Defines w (get w n) 10 vars →
    (step w (n + 1) (getLine x) s).2.conf = c

/-! ## Running the file -/

theorem runLines_append (w : World) (g : String → St → R Unit × St) (ms : List Line) :
    ∀ (ls : List Line) (s t : St), runLines w g ls s = (.ok (), t) → runLines w g (ls ++ ms) s = runLines w g ms t
  | [], s, t, h => by cases h; rfl
  | l :: ls, s, t, h => by
    rcases hl : runLine w g l s with ⟨r, s1⟩
    cases r with
    | ok =>
      have h' : runLines w g ls s1 = (.ok (), t) := by simpa [runLines, hl] using h
      have := runLines_append w g ms ls s1 t h'
      simpa [runLines, hl] using this
    | err m => simp [runLines, hl] at h
    | crash => simp [runLines, hl] at h
    | hang => simp [runLines, hl] at h

theorem defines_run {w : World} {g : String → St → R Unit × St} {b : Nat} :
    ∀ {ls : List Line}, Defines w g b ls → ∀ s : St, s.conf.ibase = b → runLines w g ls s = (.ok (), s)
  | [], _, s, _ => rfl
  | l :: ls, h, s, hs => by
    have h1 := h l (by simp) s hs
    have h2 := defines_run (fun l' hl => h l' (by simp [hl]) : Defines w g b ls) s hs
    simp [runLines, h1, h2]

theorem strLine_ok {U : Uni} (hU : U.Ok) (x s : String) : strLine U x s = .special [.id x, .str (some s)] := by
  unfold strLine
  rw [Save.parseString_quote hU (by simp [Save.IsQuote])]
  simp

theorem strLine_prompt {U : Uni} (hU : U.Ok) (w : World) (g : String → St → R Unit × St) (x : String) (s : St) :
    runLine w g (strLine U "prompt" x) s = (.ok (), { s with conf := { s.conf with prompt := x } }) := by
  rw [strLine_ok hU]
  simp [runLine, special, name, command, settingStr, getString, M.then, finish, St.setBase]

theorem strLine_format {U : Uni} (hU : U.Ok) (w : World) (g : String → St → R Unit × St) (x : String) (s : St) :
    runLine w g (strLine U "format" x) s = (.ok (), { s with conf := { s.conf with format := x } }) := by
  rw [strLine_ok hU]
  simp [runLine, special, name, command, settingStr, getString, M.then, finish, St.setBase]

/-- The settings at the beginning of the file are set, and no other. -/
theorem head_run {U : Uni} (hU : U.Ok) (w : World) (g : String → St → R Unit × St) {c : Conf} (hc : Settable c) (s : St) :
    runLines w g (saveHead U c) s =
      (.ok (), { s with conf := { s.conf with
        prec := c.prec, maxBits := c.maxBits, maxDigits := c.maxDigits, origin := c.origin, prompt := c.prompt,
        format := c.format } }) := by
  have d := fun k t => C43_decimal w g t k
  simp only [saveHead, runLines, numLine, runLine]
  rw [(d c.prec _).2.2.2.2.1 hc.prec.1 hc.prec.2]
  dsimp only
  rw [(d c.maxBits _).1 hc.maxBits]
  dsimp only
  rw [(d c.maxDigits _).2.1 hc.maxDigits]
  dsimp only
  rw [(d c.origin _).2.2.2.1 hc.origin]
  dsimp only
  rw [strLine_prompt hU]
  dsimp only
  rw [strLine_format hU]

theorem tail_run (w : World) (g : String → St → R Unit × St) {c : Conf} (hc : Settable c) (s : St) :
    runLines w g (saveTail c) s = (.ok (), s.setBase c.ibase c.obase) := by
  simp only [saveTail, runLines, numLine, runLine]
  rw [(C43_base_decimal w g s c.ibase hc.ibase).2.1]
  dsimp only
  rw [(C43_base_decimal w g _ c.obase hc.obase).2.2]
  rfl

/-- The whole file, run in base `b`: the settings that are in it become those of `c`. -/
theorem file_run {U : Uni} (hU : U.Ok) (w : World) (g : String → St → R Unit × St) {c : Conf} (hc : Settable c) {ops vars : List Line} (s : St)
    (ho : Defines w g s.conf.ibase ops) (hv : Defines w g 10 vars) :
    runLines w g (saveFile U c ops vars) s =
      (.ok (), { s with conf := { s.conf with
        prec := c.prec, maxBits := c.maxBits, maxDigits := c.maxDigits, origin := c.origin, prompt := c.prompt,
        format := c.format, ibase := c.ibase, obase := c.obase } }) := by
  unfold saveFile
  rw [runLines_append w g _ _ _ _ (head_run hU w g hc s)]
  rw [runLines_append w g _ _ _ _ (defines_run ho { s with conf := { s.conf with
        prec := c.prec, maxBits := c.maxBits, maxDigits := c.maxDigits, origin := c.origin, prompt := c.prompt,
        format := c.format } } rfl)]
  unfold saveVars
  split
  · rw [List.nil_append, tail_run w g hc]; rfl
  · have hb := (C43_base_decimal w g { s with conf := { s.conf with
        prec := c.prec, maxBits := c.maxBits, maxDigits := c.maxDigits, origin := c.origin, prompt := c.prompt,
        format := c.format } } 10 (by omega)).1
    rw [List.cons_append]
    unfold runLines
    rw [show runLine w g (numLine "base" 10) = special w g [.id "base", .num (Nat.toDigits 10 10)] from by
      funext t; simp [numLine, runLine]]
    rw [hb]
    dsimp only
    rw [runLines_append w g _ _ _ _ (defines_run hv { s with conf := { s.conf with
        prec := c.prec, maxBits := c.maxBits, maxDigits := c.maxDigits, origin := c.origin, prompt := c.prompt,
        format := c.format, ibase := 10, obase := 10 } } rfl), tail_run w g hc]
    rfl

/-! ## C55 -/

/-- **C55**: run as a program, in a session that starts with base `b`, the file sets the precision, the limits of
integers, the origin, the prompt, the format and the bases as they were when it was written, and nothing else. -/
theorem C55_program {U : Uni} (hU : U.Ok) (w : World) (n : Nat) (c : Conf) (hc : Settable c) (ops vars : List Line) (s : St)
    (ho : Defines w (get w n) s.conf.ibase ops) (hv : Defines w (get w n) 10 vars) :
    (runLines w (get w n) (saveFile U c ops vars) s).1 = .ok () ∧
    (runLines w (get w n) (saveFile U c ops vars) s).2.conf =
      { c with maxStack := s.conf.maxStack, seed := s.conf.seed, zone := s.conf.zone, debug := s.conf.debug } := by
  rw [file_run hU w (get w n) hc s ho hv]
  exact ⟨rfl, rfl⟩

theorem step_get (w : World) (n : Nat) (x : String) (s : St) :
    (step w n (getLine x) s).2.conf = { (get w n x (s.setBase 0 0)).2.conf with ibase := s.conf.ibase, obase := s.conf.obase } := by
  have h := special_get w (get w n) x s
  unfold step getLine
  simp only [runLine]
  rcases hp : special w (get w n) [.id "get", .str (some x)] s with ⟨r, t⟩
  rw [hp] at h
  have : t.conf = { (get w n x (s.setBase 0 0)).2.conf with ibase := s.conf.ibase, obase := s.conf.obase } := by
    rw [show t = _ from h.1, setBase_conf]
  cases r <;> exact this

/-- **C55** (partial): `)get` of the file sets the precision, the limits of integers, the origin, the prompt and the
format as they were when it was written, if they can be set by special commands; all other settings stay as they are
in the session that reads.  Missing: the bases, the limit of the stack, the seed, the time zone and the debugging flags, and
settings of 2^31 and more (`C55_violated`, `_stack`, `C55_lost`). -/
theorem C55_partial {U : Uni} (hU : U.Ok) (w : World) (n : Nat) (c : Conf) (hc : Settable c) (ops vars : List Line) (s : St) (x : String)
    (hd : s.runDepth ≤ 8) (hx : s.files x = some (saveFile U c ops vars))
    (ho : Defines w (get w n) 0 ops) (hv : Defines w (get w n) 10 vars) :
    (step w (n + 1) (getLine x) s).2.conf =
      { s.conf with prec := c.prec, maxBits := c.maxBits, maxDigits := c.maxDigits, origin := c.origin,
                    prompt := c.prompt, format := c.format } := by
  rw [step_get]
  have h := (get_reads w n x _ (s.setBase 0 0) hd hx).1
  rw [h, file_run hU w (get w n) hc _ ho hv]
  rfl

/-- **C55** is violated: a file written with settings of 2^31 and more bits (`ivy -maxbits 3000000000`) cannot be read:
`)get` stops at that line, and sets the precision only; none of the definitions is read, whatever they are. -/
theorem C55_lost (U : Uni) (w : World) (n : Nat) (c : Conf) (hp : 0 < c.prec ∧ c.prec ≤ 1000000) (hb : 2 ^ 31 ≤ c.maxBits)
    (ops vars : List Line) (s : St) (x : String) (hd : s.runDepth ≤ 8)
    (hx : s.files x = some (saveFile U c ops vars)) :
    (step w (n + 1) (getLine x) s).2.conf = { s.conf with prec := c.prec } := by
  rw [step_get]
  have h := (get_reads w n x _ (s.setBase 0 0) hd hx).1
  rw [h]
  obtain ⟨m, hm⟩ := C43_too_large w (get w n) { (s.setBase 0 0) with
      conf := { (s.setBase 0 0).conf with prec := c.prec }, runDepth := s.runDepth + 2, nest := s.nest + 1,
      peak := max s.peak (s.nest + 1) } c.maxBits hb "maxbits" (by simp)
  have e1 : runLine w (get w n) (numLine "prec" c.prec) = special w (get w n) [.id "prec", .num (Nat.toDigits 10 c.prec)] := by
    funext t; simp [numLine, runLine]
  have e2 : runLine w (get w n) (numLine "maxbits" c.maxBits) =
      special w (get w n) [.id "maxbits", .num (Nat.toDigits 10 c.maxBits)] := by
    funext t; simp [numLine, runLine]
  simp only [saveFile, saveHead, List.cons_append, runLines, e1, e2]
  rw [(C43_decimal w (get w n) _ c.prec).2.2.2.2.1 hp.1 hp.2]
  dsimp only
  rw [show ∀ t, t = { (s.setBase 0 0) with
      conf := { (s.setBase 0 0).conf with prec := c.prec }, runDepth := s.runDepth + 2, nest := s.nest + 1,
      peak := max s.peak (s.nest + 1) } → special w (get w n) [.id "maxbits", .num (Nat.toDigits 10 c.maxBits)] t = (.err m, t) from
    fun t ht => by subst ht; exact hm]
  · rfl
  · rfl

/-! ## Examples -/

/-- Settings with 100 bits, origin 0, input base 16, a limit of the stack and a format. -/
def exSaved : Conf :=
  ⟨16, 10, 1000, 10, 7, 0, 100, 3, "%.3f", "> ", "UTC", fun _ => some 0⟩

theorem exSaved_ok : Settable exSaved := ⟨by decide, by decide, by decide, by decide, by decide, by decide⟩

/-- The line of an operator, and that of a variable: wrong if read in another base than 0 or 10. -/
def exOp : Line := .exprs (.look fun c => if c.ibase = 0 ∨ c.ibase = 10 then .done else .fail "bad number")

theorem exOp_defines (w : World) (g : String → St → R Unit × St) (b : Nat) (hb : b = 0 ∨ b = 10) :
    Defines w g b [exOp] := by
  intro l hl s hs
  simp only [List.mem_singleton] at hl
  subst hl
  simp [exOp, runLine, runAct, hs, hb]

/-- A session in base 7 that reads the file. -/
def exRead : St := { exSt with files := fun x => if x = "f" then some (saveFile ascii exSaved [exOp] [exOp]) else none }

example : ascii.Ok ∧ Settable exSaved ∧ exRead.runDepth ≤ 8 ∧ exRead.files "f" = some (saveFile ascii exSaved [exOp] [exOp]) ∧
    Defines exW (get exW 6) 0 [exOp] ∧ Defines exW (get exW 6) 10 [exOp] :=
  ⟨ascii_ok, exSaved_ok, by decide, rfl, exOp_defines _ _ _ (.inl rfl), exOp_defines _ _ _ (.inr rfl)⟩

/-- **C55** is violated: after `)get` the bases are not the saved ones, though the file sets them at its end. -/
theorem C55_violated : ¬ C55_full exW 6 := by
  intro h
  have h1 := h ascii exSaved [exOp] [exOp] exRead "f" ascii_ok exSaved_ok rfl rfl (exOp_defines _ _ _ (.inl rfl)) (exOp_defines _ _ _ (.inr rfl))
  rw [C55_partial ascii_ok exW 6 exSaved exSaved_ok [exOp] [exOp] exRead "f" (by decide) rfl (exOp_defines _ _ _ (.inl rfl))
    (exOp_defines _ _ _ (.inr rfl))] at h1
  exact absurd (congrArg Conf.ibase h1) (by decide)

/-- **C55** is violated: the limit of the stack is not saved, so not even running the file as a program restores it. -/
theorem C55_violated_stack :
    (runLines exW (get exW 6) (saveFile ascii exSaved [] []) { exSt with conf := { exConf with ibase := 0, obase := 0 } }).2.conf.maxStack = 100000 ∧
    (runLines exW (get exW 6) (saveFile ascii exSaved [] []) { exSt with conf := { exConf with ibase := 0, obase := 0 } }).2.conf.ibase = 16 ∧
    exSaved.maxStack = 7 := by
  rw [(C55_program ascii_ok exW 6 exSaved exSaved_ok [] [] { exSt with conf := { exConf with ibase := 0, obase := 0 } }
    (fun l hl => by simp at hl) (fun l hl => by simp at hl)).2]
  exact ⟨rfl, rfl, rfl⟩

example : 2 ^ 31 ≤ { exSaved with maxBits := 3000000000 }.maxBits := by decide

end Verif.Sess
