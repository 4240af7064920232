import Verif.Sess.Props

/-!
# Sessions: property C90, `Reset` of package mobile

`mobile.Reset` "clears all state to the initial value", so that a user of the package can start anew.  The model of
sessions is that of `Verif/Sess/Model.lean`; variables and operators are not part of it, as `Reset` makes a new context.
-/

namespace Verif.Sess
open Verif.Arr (R)

/-! ## Model -/

/-- `mobile/mobile.go:87-97`: `Reset`, on the settings.  The variable `runDepth` (`parse/special.go:381`) belongs to
package parse and is not touched. -/
def reset (s : St) : St :=
  { s with conf := { s.conf with
      format := "", maxBits := 1000000000, maxDigits := 10000, origin := 1, prompt := "", ibase := 0, obase := 0,
      seed := 0 } }

/-- `config/config.go:64-83` and `mobile/mobile.go:36-38`: the settings with which the package starts; the time zone is
that of the system, and there are six flags for debugging, all 0 (`config/config.go:20-28`). -/
def initConf (zone : String) : Conf :=
  { ibase := 0, obase := 0, maxBits := 1000000000, maxDigits := 10000, maxStack := 100000, origin := 1, prec := 256,
    seed := 0, format := "", prompt := "", zone := zone
    debug := fun x => if x ∈ ["cpu", "panic", "parse", "tokens", "trace", "types"] then some 0 else none }

/-! ## Specification -/

/-- **C90** in full: `Reset` brings back all settings with which the session began, whatever was done, and files can be
read again. -/
def C90_full (w : World) (n : Nat) : Prop :=
  ∀ (zone : String) (s : St) (hist : List Line), s.conf = initConf zone → s.runDepth = 0 → s.refused = 0 →
    (reset (session w n hist s).2).conf = s.conf ∧ (reset (session w n hist s).2).runDepth = 0

/-- The command sets one of the settings that `Reset` leaves alone. -/
def Lasting : List Tok → Prop
  | t :: _ => name t = some "maxstack" ∨ name t = some "prec" ∨ name t = some "debug" ∨ name t = some "timezone"
  | [] => False

/-- Nothing in the line sets one of the settings that `Reset` leaves alone, nor do lines that it runs by `ivy`. -/
inductive Clean : Line ⊕ Act → Prop where
  | special {ts : List Tok} (h : ¬Lasting ts) : Clean (.inl (.special ts))
  | exprs {a : Act} (h : Clean (.inr a)) : Clean (.inl (.exprs a))
  | other {r : Option String} : Clean (.inl (.other r))
  | done : Clean (.inr .done)
  | fail {m : String} : Clean (.inr (.fail m))
  | crash : Clean (.inr .crash)
  | look {k : Conf → Act} (h : ∀ c, Clean (.inr (k c))) : Clean (.inr (.look k))
  | ivy {l : Line} {k : Act} (h1 : Clean (.inl l)) (h2 : Clean (.inr k)) : Clean (.inr (.ivy l k))

/-- All lines are clean. -/
def CleanLines (ls : List Line) : Prop := ∀ l ∈ ls, Clean (.inl l)

/-- All lines of all files are clean. -/
def CleanFiles (s : St) : Prop := ∀ x ls, s.files x = some ls → CleanLines ls

/-- What `)save` writes is clean. -/
def CleanSave (w : World) : Prop := ∀ s ls, w.save s = .ok ls → CleanLines ls

/-! ## Settings that stay -/

/-- The four settings are the same, and the files of the new state are clean if those of the old one are. -/
structure Keep (s s' : St) : Prop where
  maxStack : s'.conf.maxStack = s.conf.maxStack
  prec : s'.conf.prec = s.conf.prec
  debug : s'.conf.debug = s.conf.debug
  zone : s'.conf.zone = s.conf.zone
  files : CleanFiles s → CleanFiles s'

theorem Keep.refl (s : St) : Keep s s := ⟨rfl, rfl, rfl, rfl, fun h => h⟩

theorem Keep.trans {a b c : St} (h : Keep a b) (k : Keep b c) : Keep a c :=
  ⟨k.1.trans h.1, k.2.trans h.2, k.3.trans h.3, k.4.trans h.4, fun x => k.5 (h.5 x)⟩

theorem setBase_keep (s : St) (i o : Nat) : Keep s (s.setBase i o) := ⟨rfl, rfl, rfl, rfl, fun h => h⟩

theorem number64_keep (ts : List Tok) (s : St) : Keep s (number64 ts s).2 := ⟨rfl, rfl, rfl, rfl, fun h => h⟩

theorem number_keep (ts : List Tok) (s : St) : Keep s (number ts s).2 := by
  have h := number64_keep ts s
  unfold number
  split
  · rename_i heq; rw [heq] at h; exact h
  · exact h

theorem setting_keep (ts : List Tok) (s : St) (ok : Nat → Bool) (set : Conf → Nat → Conf)
    (hs : ∀ (t : St) n, Keep t { t with conf := set t.conf n }) : Keep s (setting ts s ok set).2 := by
  unfold setting
  split
  · exact Keep.refl s
  · refine M.then_rel (Q := Keep) Keep.trans (number_keep _ s) ?_
    intro n ts' s'
    split
    · exact hs _ _
    · exact Keep.refl _

theorem settingStr_keep (ts : List Tok) (s : St) (set : Conf → String → Conf)
    (hs : ∀ (t : St) n, Keep t { t with conf := set t.conf n }) : Keep s (settingStr ts s set).2 := by
  unfold settingStr
  split
  · exact Keep.refl s
  · refine M.then_rel (Q := Keep) Keep.trans (by rw [getString_same]; exact Keep.refl s) ?_
    intro n ts' s'
    exact hs _ _

theorem outcome_keep (r : R Unit) (ts : List Tok) (s : St) : Keep s (outcome r ts s).2 := by
  rw [outcome_state]; exact Keep.refl s

theorem save_keep {w : World} (hw : CleanSave w) (x : String) (ts : List Tok) (s : St) : Keep s (save w x ts s).2 := by
  unfold save
  split
  · rename_i ls heq
    refine ⟨rfl, rfl, rfl, rfl, fun h y ms hy => ?_⟩
    by_cases e : y = x
    · have : ls = ms := by simpa [St.setBase, e] using hy
      rw [← this]; exact hw _ _ heq
    · exact h y ms (by simpa [St.setBase, e] using hy)
  · exact setBase_keep _ _ _
  · exact setBase_keep _ _ _
  · exact setBase_keep _ _ _

theorem baseCmd_keep (text : String) (ib ob : Nat) (ts : List Tok) (s : St) : Keep s (baseCmd text ib ob ts s).2 := by
  unfold baseCmd
  split
  · exact Keep.refl s
  · refine M.then_rel (Q := Keep) Keep.trans (number_keep _ s) ?_
    intro n ts s'
    split
    · exact Keep.refl _
    · split <;> exact Keep.refl _

theorem opCmd_keep (w : World) (ts : List Tok) (s : St) : Keep s (opCmd w ts s).2 := by
  unfold opCmd
  split
  · exact Keep.refl s
  · exact outcome_keep _ _ _
  · exact outcome_keep _ _ _
  · exact Keep.refl s

theorem varCmd_keep (w : World) (ts : List Tok) (s : St) : Keep s (varCmd w ts s).2 := by
  unfold varCmd
  split
  · exact Keep.refl s
  · exact outcome_keep _ _ _
  · exact Keep.refl s

/-- What is asked of `get`. -/
def GetKeep (get : String → St → R Unit × St) : Prop := ∀ x s, CleanFiles s → Keep s (get x s).2

theorem command_keep {w : World} (hw : CleanSave w) {get : String → St → R Unit × St} (hg : GetKeep get) (text : String)
    (ht : ¬(text = "maxstack" ∨ text = "prec" ∨ text = "debug" ∨ text = "timezone")) (ib ob : Nat)
    (ts : List Tok) (s : St) (hf : CleanFiles s) : Keep s (command w get text ib ob ts s).2 := by
  have id2 : ∀ (t : St) (c : Conf), c.maxStack = t.conf.maxStack → c.prec = t.conf.prec → c.debug = t.conf.debug →
      c.zone = t.conf.zone → Keep t { t with conf := c } := fun t c a b d e => ⟨a, b, d, e, fun h => h⟩
  unfold command
  split
  · split <;> exact Keep.refl s
  · exact Keep.refl s
  · exact absurd (by simp) ht
  · split
    · exact outcome_keep _ _ _
    · exact Keep.refl s
  · exact settingStr_keep ts s _ fun t n => id2 t _ rfl rfl rfl rfl
  · split
    · dsimp only; rw [outcome_state]; exact hg _ _ hf
    · rcases hq : getString ts s with ⟨r, s'⟩
      have e : s' = s := by have := getString_same ts s; rw [hq] at this; exact this
      subst e
      cases r with
      | ok p => simp only [M.then]; rw [outcome_state]; exact hg _ _ hf
      | err m => exact Keep.refl _
      | crash => exact Keep.refl _
      | hang => exact Keep.refl _
  · exact setting_keep ts s _ _ fun t n => id2 t _ rfl rfl rfl rfl
  · exact setting_keep ts s _ _ fun t n => id2 t _ rfl rfl rfl rfl
  · exact absurd (by simp) ht
  · exact opCmd_keep w ts s
  · exact opCmd_keep w ts s
  · exact setting_keep ts s _ _ fun t n => id2 t _ rfl rfl rfl rfl
  · exact absurd (by simp) ht
  · exact settingStr_keep ts s _ fun t n => id2 t _ rfl rfl rfl rfl
  · dsimp only
    split
    · exact (setBase_keep s ib ob).trans (save_keep hw _ _ _)
    · refine M.then_rel (Q := Keep) Keep.trans (by rw [getString_same]; exact setBase_keep s ib ob) ?_
      intro x ts' s'
      exact save_keep hw _ _ _
  · split
    · exact Keep.refl s
    · refine M.then_rel (Q := Keep) Keep.trans (number64_keep _ s) ?_
      intro x ts' s'
      exact id2 _ _ rfl rfl rfl rfl
  · exact absurd (by simp) ht
  · exact varCmd_keep w ts s
  · exact varCmd_keep w ts s
  · exact Keep.refl s

theorem finish_keep (ib ob : Nat) (m : M (Nat × Nat)) : Keep m.2 (finish ib ob m).2 := by
  unfold finish
  split <;> exact ⟨rfl, rfl, rfl, rfl, fun h => h⟩

theorem special_keep {w : World} (hw : CleanSave w) {get : String → St → R Unit × St} (hg : GetKeep get) (ts : List Tok)
    (hts : ¬Lasting ts) (s : St) (hf : CleanFiles s) : Keep s (special w get ts s).2 := by
  have h0 := setBase_keep s 0 0
  unfold special
  dsimp only
  split
  · exact h0.trans (finish_keep _ _ (.err _, s.setBase 0 0))
  · rename_i t ts'
    split
    · exact h0.trans (finish_keep _ _ (.err _, s.setBase 0 0))
    · rename_i text heq
      split
      · exact (h0.trans (baseCmd_keep _ _ _ _ _)).trans (finish_keep _ _ _)
      · refine Keep.trans (M.then_rel (Q := Keep) Keep.trans (h0.trans (command_keep hw hg text ?_ _ _ _ _ hf)) ?_)
          (finish_keep _ _ _)
        · intro h
          apply hts
          simp only [Lasting, heq, Option.some.injEq]
          exact h
        · intro a ts s'
          exact Keep.refl _

mutual
theorem runLine_keep {w : World} (hw : CleanSave w) {get : String → St → R Unit × St} (hg : GetKeep get) :
    ∀ (l : Line), Clean (.inl l) → ∀ (s : St), CleanFiles s → Keep s (runLine w get l s).2
  | .special ts, h, s, hf => by cases h with | special h => exact special_keep hw hg ts h s hf
  | .exprs a, h, s, hf => by unfold runLine; cases h with | exprs h => exact runAct_keep hw hg a h s hf
  | .other none, _, s, _ => Keep.refl s
  | .other (some _), _, s, _ => Keep.refl s

theorem runAct_keep {w : World} (hw : CleanSave w) {get : String → St → R Unit × St} (hg : GetKeep get) :
    ∀ (a : Act), Clean (.inr a) → ∀ (s : St), CleanFiles s → Keep s (runAct w get a s).2
  | .done, _, s, _ => Keep.refl s
  | .fail _, _, s, _ => Keep.refl s
  | .crash, _, s, _ => Keep.refl s
  | .look k, h, s, hf => by
    unfold runAct
    cases h with | look h => exact runAct_keep hw hg (k s.conf) (h _) s hf
  | .ivy l k, h, s, hf => by
    unfold runAct
    cases h with
    | ivy h1 h2 =>
      have h := runLine_keep hw hg l h1 s hf
      split
      · rename_i u s1 heq
        rw [heq] at h
        exact h.trans (runAct_keep hw hg k h2 s1 (h.files hf))
      · exact h
end

theorem runLines_keep {w : World} (hw : CleanSave w) {get : String → St → R Unit × St} (hg : GetKeep get) :
    ∀ (ls : List Line), CleanLines ls → ∀ (s : St), CleanFiles s → Keep s (runLines w get ls s).2
  | [], _, s, _ => Keep.refl s
  | l :: ls, hl, s, hf => by
    unfold runLines
    have h := runLine_keep hw hg l (hl l (by simp)) s hf
    split
    · rename_i u s1 heq
      rw [heq] at h
      exact h.trans (runLines_keep hw hg ls (fun m hm => hl m (by simp [hm])) s1 (h.files hf))
    · exact h

theorem recovered_keep (p : R Unit × St) : Keep p.2 (recovered p).2 := by
  unfold recovered
  dsimp only
  split <;> exact ⟨rfl, rfl, rfl, rfl, fun h => h⟩

theorem get_keep {w : World} (hw : CleanSave w) : ∀ n, GetKeep (get w n)
  | 0 => fun _ s _ => Keep.refl s
  | n + 1 => fun x s hf => by
    unfold get
    split
    · exact Keep.refl s
    · rename_i ls heq
      unfold runFromReader
      dsimp only
      split
      · exact ⟨rfl, rfl, rfl, rfl, fun h => h⟩
      · refine Keep.trans ?_ (recovered_keep _)
        unfold runUntilError
        dsimp only
        split
        · exact ⟨rfl, rfl, rfl, rfl, fun h => h⟩
        · refine Keep.trans ?_ (recovered_keep _)
          have k := runLines_keep hw (get_keep hw n) ls (hf x ls heq)
            { s with runDepth := s.runDepth + 1 + 1, nest := s.nest + 1, peak := max s.peak (s.nest + 1) } hf
          exact ⟨k.1, k.2, k.3, k.4, k.5⟩

theorem session_keep {w : World} (hw : CleanSave w) (n : Nat) :
    ∀ (ls : List Line), CleanLines ls → ∀ (s : St), CleanFiles s → Keep s (session w n ls s).2
  | [], _, s, _ => Keep.refl s
  | l :: ls, hl, s, hf => by
    have h1 : Keep s (step w n l s).2 := by
      have h := runLine_keep hw (get_keep hw n) l (hl l (by simp)) s hf
      unfold step
      split
      · rename_i m s1 heq
        rw [heq] at h
        exact h.trans ⟨rfl, rfl, rfl, rfl, fun h => h⟩
      · exact h
    unfold session
    split
    · rename_i u s1 heq
      rw [heq] at h1
      exact h1.trans (session_keep hw n ls (fun m hm => hl m (by simp [hm])) s1 (h1.files hf))
    · exact h1

/-! ## C90 -/

/-- **C90** (partial): `Reset` brings back all settings with which the session began, if nothing that was run, in files
and by `ivy` included, was one of the commands `)prec`, `)maxstack`, `)debug` and `)timezone`.  Missing: the four settings
these set (`C90_violated`), and the depth of files (`C90_violated_depth`). -/
theorem C90_partial (w : World) (hw : CleanSave w) (n : Nat) (zone : String) (s : St) (hs : s.conf = initConf zone)
    (hf : CleanFiles s) (hist : List Line) (hl : CleanLines hist) :
    (reset (session w n hist s).2).conf = s.conf := by
  have k := session_keep hw n hist hl s hf
  have h1 := k.maxStack; have h2 := k.prec; have h3 := k.debug; have h4 := k.zone
  generalize (session w n hist s).2 = t at *
  rw [hs] at h1 h2 h3 h4 ⊢
  simp only [reset, initConf] at *
  rw [h1, h2, h3, h4]

/-- **C90**: whatever was done, the settings other than those four are those with which a session begins. -/
theorem C90_rest (w : World) (n : Nat) (zone : String) (s : St) (hist : List Line) :
    ∃ k p d z, (reset (session w n hist s).2).conf =
      { initConf zone with maxStack := k, prec := p, debug := d, zone := z } :=
  ⟨_, _, _, _, rfl⟩

/-- A new session of package mobile, with the files of `exSt`. -/
def exNew : St := { exSt with conf := initConf "UTC" }

/-- Lines that set the origin, read a file that sets it, and set the base by `ivy`. -/
def exHist : List Line :=
  [.special [.id "origin", .num ['0']], getLine "b",
   .exprs (.ivy (.special [.id "base", .num ['1', '6']]) .done)]

theorem exNew_clean : CleanFiles exNew := by
  intro x ls h
  have h' : (if x = "b" then some [Line.special [.id "origin", .num ['5']]]
      else if x = "a" then some [Line.special [.id "get", .str (some "a")]]
      else if x = "c" then some [Line.special [.id "get", .str (some "b")], Line.special [.id "nonsense"]]
      else none) = some ls := h
  intro l hl
  split at h'
  · cases h'; simp only [List.mem_singleton] at hl; subst hl; exact .special (by simp [Lasting, name])
  · split at h'
    · cases h'; simp only [List.mem_singleton] at hl; subst hl; exact .special (by simp [Lasting, name])
    · split at h'
      · cases h'
        simp only [List.mem_cons, List.not_mem_nil, or_false] at hl
        rcases hl with rfl | rfl <;> exact .special (by simp [Lasting, name])
      · cases h'

example : CleanSave exW ∧ exNew.conf = initConf "UTC" ∧ CleanFiles exNew ∧ CleanLines exHist ∧
    (session exW 6 exHist exNew).2.conf.origin = 5 ∧ (session exW 6 exHist exNew).2.conf.ibase = 16 := by
  refine ⟨fun s ls h => by simp [exW] at h, rfl, exNew_clean, ?_, by decide +kernel, by decide +kernel⟩
  intro l hl
  simp only [exHist, List.mem_cons, List.not_mem_nil, or_false] at hl
  rcases hl with rfl | rfl | rfl
  · exact .special (by simp [Lasting, name])
  · exact .special (by simp [Lasting, name])
  · exact .exprs (.ivy (.special (by simp [Lasting, name])) .done)

/-- **C90** is violated: after `)prec 10` and `Reset` the precision is still 10. -/
theorem C90_violated : ¬ C90_full exW 6 := by
  intro h
  have h1 := (h "UTC" exNew [.special [.id "prec", .num ['1', '0']]] rfl rfl rfl).1
  have h2 := congrArg Conf.prec h1
  revert h2
  decide +kernel

/-- **C90** is violated: `)maxstack 3`, `)debug trace 1` and `)timezone "Asia/Tokyo"` outlast `Reset` as well. -/
theorem C90_violated_others :
    (reset (session exW 6 [.special [.id "maxstack", .num ['3']]] exNew).2).conf.maxStack = 3 ∧
    (reset (session exW 6 [.special [.id "debug", .id "trace", .num ['1']]] exNew).2).conf.debug "trace" = some 1 ∧
    (reset (session exW 6 [.special [.id "timezone", .str (some "Asia/Tokyo")]] exNew).2).conf.zone = "Asia/Tokyo" := by
  refine ⟨by decide +kernel, by decide +kernel, by decide +kernel⟩

/-- **C90** is violated: wherever there is a file that reads itself, after nine commands `)get` of it and `Reset` no file can
be read, whatever is done afterwards. -/
theorem C90_violated_depth (w : World) (x : String) (n : Nat) (hn : 5 ≤ n) (s : St) (hx : s.files x = some [getLine x])
    (hist : List Line) (m : Nat) (y : String) :
    let s1 := reset (session w (n + 1) (List.replicate 9 (getLine x)) s).2
    let s2 := (session w (n + 1) hist s1).2
    (get w m y s2).2.conf = s2.conf ∧ (get w m y s2).2.files = s2.files := by
  obtain ⟨h1, h2, h3, -⟩ := session_self w x n hn 9 s hx
  have h4 := (C44_depth w (n + 1) (List.replicate 9 (getLine x)) s).2
  have := C44_lost w (n + 1) hist (reset (session w (n + 1) (List.replicate 9 (getLine x)) s).2)
    (by simp only [reset]; omega) m y
  exact ⟨this.1, this.2.1⟩

example : exNew.files "a" = some [getLine "a"] := rfl

end Verif.Sess
