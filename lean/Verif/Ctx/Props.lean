import Verif.Ctx.Model
import Verif.Flt.AccProps2
/-
C88: the constants are those of the precision, and special commands leave variables alone.
-/
namespace Verif.Ctx
open Verif.Flt

/-! ## Specification -/

/-- The constants that are used in context `i` are those of its precision. -/
def Right (s : State) (i : Nat) : Prop := ∀ c, s.ctxs[i]? = some c → floatCtx s c = ctxOf c.prec

/-- Nothing of the line, nor of the files it reads, sets the precision and has an error after that. -/
inductive Clean : Line → Prop
  | prec (n) : Clean (.special (.prec n) false)
  | get (ls junk) (h : ∀ l ∈ ls, Clean l) : Clean (.special (.get ls) junk)
  | sfail (junk) : Clean (.special .fail junk)
  | sother (junk) : Clean (.special .other junk)
  | assign (x v) : Clean (.assign x v)
  | fail : Clean .fail
  | other : Clean .other

/-- Neither the line nor a file it reads assigns to the variable. -/
inductive Spares (x : String) : Line → Prop
  | prec (n junk) : Spares x (.special (.prec n) junk)
  | get (ls junk) (h : ∀ l ∈ ls, Spares x l) : Spares x (.special (.get ls) junk)
  | sfail (junk) : Spares x (.special .fail junk)
  | sother (junk) : Spares x (.special .other junk)
  | assign (y v) (h : y ≠ x) : Spares x (.assign y v)
  | fail : Spares x .fail
  | other : Spares x .other

/-- The value of a variable. -/
def State.global (s : State) (i : Nat) (x : String) : Option Val := s.ctxs[i]?.bind fun c => c.globals x

/-- **C88, full statement.** In all programs the constants used in every context are those of its precision; and lines that do not assign to a variable leave it as it is. -/
def C88_full : Prop :=
  (∀ es i, Right (run es) i) ∧ (∀ es i j l x, Spares x l → (step (run es) (.line i l)).global j x = (run es).global j x)

/-! ## Lemmas -/

theorem constants_right (i : Nat) (s : State) : Right (setConstants i s) i := by
  intro c hc
  unfold setConstants at hc ⊢
  cases h : s.ctxs[i]? with
  | none => rw [h] at hc; simp only [h] at hc; cases hc
  | some c0 =>
    rw [h] at hc
    simp only at hc ⊢
    have hi : i < s.ctxs.length := by
      by_contra hn
      rw [List.getElem?_eq_none (by omega)] at h
      cases h
    rw [List.getElem?_set_self hi] at hc
    cases hc
    rfl

theorem update_right {i : Nat} {s : State} {f : Context → Context} (hf : ∀ c, (f c).prec = c.prec) (h : Right s i) : Right (s.update i f) i := by
  intro c hc
  unfold State.update at hc ⊢
  cases hg : s.ctxs[i]? with
  | none => rw [hg] at hc; simp only [hg] at hc; cases hc
  | some c0 =>
    rw [hg] at hc
    simp only at hc ⊢
    have hi : i < s.ctxs.length := by
      by_contra hn
      rw [List.getElem?_eq_none (by omega)] at hg
      cases hg
    rw [List.getElem?_set_self hi] at hc
    cases hc
    have := h c0 hg
    unfold floatCtx at this ⊢
    rw [hf c0]
    exact this

theorem finish_right {i : Nat} {junk : Bool} {s : State} (h : junk = true → Right s i) : Right (finish i junk s).2 i := by
  unfold finish
  cases junk with
  | true => exact h rfl
  | false => exact constants_right i s

mutual
theorem line_right (i : Nat) : ∀ (l : Line) (s : State), Clean l → Right s i → Right (runLine i l s).2 i
  | .special (.prec n) junk, s, hc, h => by
    unfold runLine
    split
    · exact h
    · cases hc
      exact constants_right i _
  | .special (.get ls) junk, s, hc, h => by
    unfold runLine
    cases hc with
    | get _ _ hl => exact finish_right fun _ => lines_right i ls s hl h
  | .special .fail _, s, _, h => h
  | .special .other junk, s, _, h => by
    unfold runLine
    exact finish_right fun _ => h
  | .assign x v, s, _, h => by
    unfold runLine
    exact update_right (fun _ => rfl) h
  | .fail, s, _, h => h
  | .other, s, _, h => h

theorem lines_right (i : Nat) : ∀ (ls : List Line) (s : State), (∀ l ∈ ls, Clean l) → Right s i → Right (runLines i ls s) i
  | [], s, _, h => h
  | l :: ls, s, hc, h => by
    unfold runLines
    have h1 := line_right i l s (hc l (by simp)) h
    split
    · exact lines_right i ls _ (fun l hl => hc l (by simp [hl])) h1
    · exact h1
end

theorem update_ctx (s : State) (i j : Nat) (f : Context → Context) : (s.update i f).ctxs[j]? = if i = j then s.ctxs[j]?.map f else s.ctxs[j]? := by
  unfold State.update
  cases hg : s.ctxs[i]? with
  | none =>
    by_cases hij : i = j
    · subst hij; simp [hg]
    · simp [hij]
  | some c0 =>
    have hi : i < s.ctxs.length := by
      by_contra hn
      rw [List.getElem?_eq_none (by omega)] at hg
      cases hg
    simp only
    by_cases hij : i = j
    · subst hij
      rw [List.getElem?_set_self hi, hg]; simp
    · rw [List.getElem?_set_ne hij, if_neg hij]

theorem setConstants_update (i : Nat) (s : State) :
    (setConstants i s).ctxs = (s.update i fun c => (c.assign "e" (.float c.prec (constsOf c.prec).e)).assign "pi" (.float c.prec (constsOf c.prec).pi)).ctxs := by
  unfold setConstants State.update
  cases s.ctxs[i]? <;> rfl

theorem update_global {s : State} {i j : Nat} {x : String} {f : Context → Context} (hf : ∀ c, (f c).globals x = c.globals x) : (s.update i f).global j x = s.global j x := by
  unfold State.global
  rw [update_ctx]
  split
  · cases s.ctxs[j]? with
    | none => rfl
    | some c => exact hf c
  · rfl

theorem constants_global {i j : Nat} {x : String} (s : State) (h1 : x ≠ "e") (h2 : x ≠ "pi") : (setConstants i s).global j x = s.global j x := by
  have := update_global (s := s) (i := i) (j := j) (x := x) (f := fun c => (c.assign "e" (.float c.prec (constsOf c.prec).e)).assign "pi" (.float c.prec (constsOf c.prec).pi)) (by
    intro c; simp only [Context.assign, if_neg h1, if_neg h2])
  rw [← this]
  unfold State.global
  rw [setConstants_update]

theorem finish_global {i j : Nat} {junk : Bool} {x : String} (s : State) (h1 : x ≠ "e") (h2 : x ≠ "pi") : (finish i junk s).2.global j x = s.global j x := by
  unfold finish
  cases junk with
  | true => rfl
  | false => exact constants_global s h1 h2

mutual
theorem line_global (i j : Nat) {x : String} (h1 : x ≠ "e") (h2 : x ≠ "pi") : ∀ (l : Line) (s : State), Spares x l → (runLine i l s).2.global j x = s.global j x
  | .special (.prec n) junk, s, hc => by
    unfold runLine
    split
    · rfl
    · rw [finish_global _ h1 h2]
      exact update_global fun _ => rfl
  | .special (.get ls) junk, s, hc => by
    unfold runLine
    cases hc with
    | get _ _ hl => rw [finish_global _ h1 h2, lines_global i j h1 h2 ls s hl]
  | .special .fail _, s, _ => rfl
  | .special .other junk, s, _ => by
    unfold runLine
    rw [finish_global _ h1 h2]
  | .assign y v, s, hc => by
    unfold runLine
    cases hc with
    | assign _ _ hy => exact update_global fun c => by simp only [Context.assign, if_neg (Ne.symm hy)]
  | .fail, s, _ => rfl
  | .other, s, _ => rfl

theorem lines_global (i j : Nat) {x : String} (h1 : x ≠ "e") (h2 : x ≠ "pi") : ∀ (ls : List Line) (s : State), (∀ l ∈ ls, Spares x l) → (runLines i ls s).global j x = s.global j x
  | [], s, _ => rfl
  | l :: ls, s, hc => by
    unfold runLines
    have h3 := line_global i j h1 h2 l s (hc l (by simp))
    split
    · rw [lines_global i j h1 h2 ls _ (fun l hl => hc l (by simp [hl])), h3]
    · exact h3
end

/-! ## Theorems -/

/-- **C88, one context.** In a program with one context, if no `)prec` is followed by an error in its line, the constants are those of the precision after every line, whatever the files read do. -/
theorem C88_one_partial (p : Nat) (ls : List Line) (h : ∀ l ∈ ls, Clean l) : Right (run (.new p :: ls.map (.line 0))) 0 := by
  unfold run
  rw [List.foldl_cons]
  have h0 : Right (step ⟨⟨0, 0, 0, 0⟩, []⟩ (.new p)) 0 := constants_right 0 _
  generalize step ⟨⟨0, 0, 0, 0⟩, []⟩ (.new p) = s at h0 ⊢
  induction ls generalizing s with
  | nil => exact h0
  | cons l ls ih =>
    rw [List.map_cons, List.foldl_cons]
    exact ih (fun l hl => h l (by simp [hl])) _ (line_right 0 l s (h l (by simp)) h0)

example : Clean (.special (.get [.special (.prec 64) false, .fail]) false) ∧ (run [.new 256, .line 0 (.special (.get [.special (.prec 64) false, .fail]) false)]).consts = constsOf 64 :=
  ⟨.get _ _ (by intro l hl; simp only [List.mem_cons, List.not_mem_nil, or_false] at hl; rcases hl with rfl | rfl; exacts [.prec _, .fail]), by decide +kernel⟩

/-- **C88, several contexts.** Whatever has happened before, after a special command of a context has ended without error the constants are those of its precision. -/
theorem C88_after (es : List Event) (i : Nat) (c : Cmd) (junk : Bool) (h : (runLine i (.special c junk) (run es)).1 = true) : Right (run (es ++ [.line i (.special c junk)])) i := by
  have : run (es ++ [.line i (.special c junk)]) = (runLine i (.special c junk) (run es)).2 := by unfold run; rw [List.foldl_append]; rfl
  rw [this]
  generalize run es = s at h ⊢
  have key : ∀ s', (finish i junk s').1 = true → Right (finish i junk s').2 i := by
    intro s' h'
    apply finish_right
    rintro rfl
    unfold finish at h'
    simp at h'
  cases c with
  | prec n =>
    unfold runLine at h ⊢
    split
    · rename_i hn; rw [if_pos hn] at h; cases h
    · rename_i hn; rw [if_neg hn] at h; exact key _ h
  | get ls => unfold runLine at h ⊢; exact key _ h
  | fail => unfold runLine at h; cases h
  | other => unfold runLine at h ⊢; exact key _ h

example : (runLine 0 (.special .other false) (run [.new 256, .new 64])).1 = true := by decide +kernel

/-- **C88, logarithms.** So in such a program the logarithm has the accuracy of the precision that is set (with `C73_log`). -/
theorem C88_log (p : Nat) (ls : List Line) (h : ∀ l ∈ ls, Clean l) (c : Context) (hc : (run (.new p :: ls.map (.line 0))).ctxs[0]? = some c) (h16 : 16 ≤ c.prec) (h4 : c.prec ≤ constPrecisionInBits)
    (x : ℚ) (hx : Spec.IsFloat c.prec x) (h0 : 0 < x) :
    ∃ n, ∀ fuel, n ≤ fuel → ∃ z, floatLog (floatCtx (run (.new p :: ls.map (.line 0))) c) fuel x = .ok z ∧
      |(z : ℝ) - Real.log x| ≤ (300 * (c.prec + 1) + 12 * |Real.log x|) * (2 : ℝ) ^ (-(c.prec : ℤ)) := by
  rw [C88_one_partial p ls h c hc]
  exact C73_log c.prec h16 h4 x hx h0

example : ∃ c, (run (.new 256 :: [Line.special (.prec 100) false].map (.line 0))).ctxs[0]? = some c ∧ 16 ≤ c.prec ∧ c.prec ≤ constPrecisionInBits ∧ Spec.IsFloat c.prec 3 :=
  ⟨_, rfl, by decide, by decide, 3, 0, by decide +kernel, by norm_num⟩

/-- **C88, variables.** A line that does not assign to a variable, itself or in the files it reads, leaves it as it is in all contexts; except `e` and `pi`. -/
theorem C88_variables_partial (es : List Event) (i j : Nat) (l : Line) (x : String) (h : Spares x l) (h1 : x ≠ "e") (h2 : x ≠ "pi") :
    (step (run es) (.line i l)).global j x = (run es).global j x := line_global i j h1 h2 l (run es) h

example : Spares "x" (.special (.get [.assign "y" (.other 1)]) false) ∧
    (run [.new 256, .line 0 (.assign "x" (.other 3)), .line 0 (.special (.get [.assign "y" (.other 1)]) false)]).global 0 "x" = some (.other 3) :=
  ⟨.get _ _ (by intro l hl; simp only [List.mem_cons, List.not_mem_nil, or_false] at hl; subst hl; exact .assign _ _ (by decide)), by decide +kernel⟩

/-- **C88 is violated** (finding): a second context, of 64 bits, makes the constants of the first, of 256 bits, wrong. -/
theorem C88_violated : ¬ C88_full := by
  intro h
  have := h.1 [.new 256, .new 64] 0
  have h2 : floatPi 64 = floatPi 256 := congrArg Flt.Ctx.pi (this _ rfl)
  exact absurd h2 (by decide +kernel)

/-- **C88 is violated** (finding): `)prec 1000` with something behind it is an error, but the precision is set all the same and the constants are not. -/
theorem C88_violated_error : ¬ C88_full := by
  intro h
  have := h.1 [.new 256, .line 0 (.special (.prec 1000) true)] 0
  have h2 : floatPi 256 = floatPi 1000 := congrArg Flt.Ctx.pi (this _ rfl)
  exact absurd h2 (by decide +kernel)

/-- **C88 is violated** (finding): after `e = 5`, every special command, such as `)origin`, sets `e` to 2.718… again. -/
theorem C88_violated_variable : ¬ C88_full := by
  intro h
  have := h.2 [.new 256, .line 0 (.assign "e" (.other 5))] 0 0 (.special .other false) "e" (.sother _)
  rw [show (run [.new 256, .line 0 (.assign "e" (.other 5))]).global 0 "e" = some (.other 5) by decide +kernel] at this
  exact absurd this (by decide +kernel)

/-- **C88 is violated** (finding): so a variable `e` that is saved, with the commands `)save` writes after it, is not what it was when the file is read. -/
theorem C88_violated_saved (v : Val) (hv : v ≠ .float 256 (floatE 256)) :
    (run [.new 256, .line 0 (.special (.get [.special .other false, .assign "e" v, .special .other false]) false)]).global 0 "e" ≠ some v := by
  have : (run [.new 256, .line 0 (.special (.get [.special .other false, .assign "e" v, .special .other false]) false)]).global 0 "e" = some (.float 256 (floatE 256)) := rfl
  rw [this]
  intro h
  exact hv (Option.some.inj h).symm

end Verif.Ctx
