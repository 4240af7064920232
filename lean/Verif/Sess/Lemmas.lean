import Verif.Sess.Model

/-!
# Sessions: lemmas
-/

namespace Verif.Sess
open Verif.Arr (R)

/-- What `runDepth` and the counters go through when `s` becomes `s'`. -/
structure Rel (s s' : St) : Prop where
  leak : s'.runDepth + s.refused = s.runDepth + s'.refused
  mono : s.refused ≤ s'.refused
  nest : s'.nest = s.nest
  peak : 2 * s.nest ≤ s.runDepth → s.peak ≤ 5 → s'.peak ≤ 5

theorem Rel.refl (s : St) : Rel s s := ⟨rfl, Nat.le_refl _, rfl, fun _ h => h⟩

theorem Rel.trans {a b c : St} (h : Rel a b) (k : Rel b c) : Rel a c := by
  refine ⟨?_, Nat.le_trans h.mono k.mono, by rw [k.nest, h.nest], ?_⟩
  · have := h.leak; have := k.leak; omega
  · intro h1 h2
    refine k.peak ?_ (h.peak h1 h2)
    have := h.leak; have := h.mono; rw [h.nest]; omega

theorem Rel.depth {s s' : St} (h : Rel s s') : s.runDepth ≤ s'.runDepth := by
  have := h.leak; have := h.mono; omega

/-- The state is the same but for settings, files and messages. -/
def Same (s s' : St) : Prop :=
  s'.runDepth = s.runDepth ∧ s'.nest = s.nest ∧ s'.peak = s.peak ∧ s'.refused = s.refused

theorem Same.refl (s : St) : Same s s := ⟨rfl, rfl, rfl, rfl⟩

theorem Same.trans {a b c : St} (h : Same a b) (k : Same b c) : Same a c :=
  ⟨k.1.trans h.1, k.2.1.trans h.2.1, k.2.2.1.trans h.2.2.1, k.2.2.2.trans h.2.2.2⟩

theorem Same.rel {s s' : St} (h : Same s s') : Rel s s' := by
  obtain ⟨h1, h2, h3, h4⟩ := h
  exact ⟨by omega, by omega, h2, by intro _ h; omega⟩

/-! ## Commands -/

theorem number64_same (ts : List Tok) (s : St) : Same s (number64 ts s).2 := ⟨rfl, rfl, rfl, rfl⟩

theorem number_same (ts : List Tok) (s : St) : Same s (number ts s).2 := by
  have h := number64_same ts s
  unfold number
  split
  · rename_i heq; rw [heq] at h; exact h
  · exact h

theorem getString_same (ts : List Tok) (s : St) : (getString ts s).2 = s := by
  unfold getString
  split <;> rfl

theorem M.then_rel {α β : Type} {Q : St → St → Prop} (tr : ∀ {a b c}, Q a b → Q b c → Q a c) {s : St} {m : M α}
    {k : α → List Tok → St → M β} (hm : Q s m.2) (hk : ∀ a ts s', Q s' (k a ts s').2) : Q s (m.then k).2 := by
  unfold M.then
  split
  · exact tr hm (hk _ _ _)
  · exact hm
  · exact hm
  · exact hm

theorem setting_same (ts : List Tok) (s : St) (ok : Nat → Bool) (set : Conf → Nat → Conf) :
    Same s (setting ts s ok set).2 := by
  unfold setting
  split
  · exact Same.refl s
  · refine M.then_rel (Q := Same) Same.trans (number_same _ s) ?_
    intro n ts s'
    split <;> exact ⟨rfl, rfl, rfl, rfl⟩

theorem settingStr_same (ts : List Tok) (s : St) (set : Conf → String → Conf) : Same s (settingStr ts s set).2 := by
  unfold settingStr
  split
  · exact Same.refl s
  · refine M.then_rel (Q := Same) Same.trans (by rw [getString_same]; exact Same.refl s) ?_
    intro n ts s'
    exact ⟨rfl, rfl, rfl, rfl⟩

theorem debugCmd_same (ts : List Tok) (s : St) : Same s (debugCmd ts s).2 := by
  unfold debugCmd
  split
  · exact Same.refl s
  · split
    · exact Same.refl s
    · split
      · exact ⟨rfl, rfl, rfl, rfl⟩
      · refine M.then_rel (Q := Same) Same.trans (number_same _ s) ?_
        intro n ts s'
        exact ⟨rfl, rfl, rfl, rfl⟩
  · exact Same.refl s

theorem outcome_state (r : R Unit) (ts : List Tok) (s : St) : (outcome r ts s).2 = s := by
  cases r <;> rfl

theorem outcome_same (r : R Unit) (ts : List Tok) (s : St) : Same s (outcome r ts s).2 := by
  rw [outcome_state]; exact Same.refl s

theorem save_same (w : World) (x : String) (ts : List Tok) (s : St) : Same s (save w x ts s).2 := by
  unfold save
  split <;> exact ⟨rfl, rfl, rfl, rfl⟩

theorem baseCmd_same (text : String) (ib ob : Nat) (ts : List Tok) (s : St) : Same s (baseCmd text ib ob ts s).2 := by
  unfold baseCmd
  split
  · exact Same.refl s
  · refine M.then_rel (Q := Same) Same.trans (number_same _ s) ?_
    intro n ts s'
    split
    · exact Same.refl _
    · split <;> exact Same.refl _

/-- What is asked of `get`. -/
def GetRel (get : String → St → R Unit × St) : Prop := ∀ x s, Rel s (get x s).2

theorem opCmd_same (w : World) (ts : List Tok) (s : St) : Same s (opCmd w ts s).2 := by
  unfold opCmd
  split
  · exact Same.refl s
  · exact outcome_same _ _ _
  · exact outcome_same _ _ _
  · exact Same.refl s

theorem varCmd_same (w : World) (ts : List Tok) (s : St) : Same s (varCmd w ts s).2 := by
  unfold varCmd
  split
  · exact Same.refl s
  · exact outcome_same _ _ _
  · exact Same.refl s

theorem command_rel (w : World) {get : String → St → R Unit × St} (hg : GetRel get) (text : String) (ib ob : Nat)
    (ts : List Tok) (s : St) : Rel s (command w get text ib ob ts s).2 := by
  unfold command
  split
  · split <;> exact Rel.refl s
  · exact Rel.refl s
  · exact (debugCmd_same ts s).rel
  · split
    · exact (outcome_same _ _ _).rel
    · exact Rel.refl s
  · exact (settingStr_same ts s _).rel
  · split
    · dsimp only; rw [outcome_state]; exact hg _ _
    · refine M.then_rel (Q := Rel) Rel.trans (by rw [getString_same]; exact Rel.refl s) ?_
      intro x ts' s'
      dsimp only; rw [outcome_state]; exact hg _ _
  · exact (setting_same ts s _ _).rel
  · exact (setting_same ts s _ _).rel
  · exact (setting_same ts s _ _).rel
  · exact (opCmd_same w ts s).rel
  · exact (opCmd_same w ts s).rel
  · exact (setting_same ts s _ _).rel
  · exact (setting_same ts s _ _).rel
  · exact (settingStr_same ts s _).rel
  · have h1 : Same s (s.setBase ib ob) := ⟨rfl, rfl, rfl, rfl⟩
    dsimp only
    split
    · exact (h1.trans (save_same _ _ _ _)).rel
    · refine M.then_rel (Q := Rel) Rel.trans (by rw [getString_same]; exact h1.rel) ?_
      intro x ts' s'
      exact (save_same _ _ _ _).rel
  · split
    · exact Rel.refl s
    · refine (M.then_rel (Q := Same) Same.trans (number64_same _ s) ?_ : Same s _).rel
      intro x ts' s'
      exact ⟨rfl, rfl, rfl, rfl⟩
  · split
    · exact Rel.refl s
    · refine (M.then_rel (Q := Same) Same.trans (by rw [getString_same]; exact Same.refl s) ?_ : Same s _).rel
      intro x ts' s'
      dsimp only
      split <;> exact ⟨rfl, rfl, rfl, rfl⟩
  · exact (varCmd_same w ts s).rel
  · exact (varCmd_same w ts s).rel
  · exact Rel.refl s

theorem finish_same (ib ob : Nat) (m : M (Nat × Nat)) : Same m.2 (finish ib ob m).2 := by
  unfold finish
  split <;> exact ⟨rfl, rfl, rfl, rfl⟩

theorem special_rel (w : World) {get : String → St → R Unit × St} (hg : GetRel get) (ts : List Tok) (s : St) :
    Rel s (special w get ts s).2 := by
  have h0 : Same s (s.setBase 0 0) := ⟨rfl, rfl, rfl, rfl⟩
  unfold special
  dsimp only
  split
  · exact (h0.trans (finish_same _ _ _)).rel
  · split
    · exact (h0.trans (finish_same _ _ _)).rel
    · split
      · exact ((h0.trans (baseCmd_same _ _ _ _ _)).trans (finish_same _ _ _)).rel
      · refine Rel.trans (M.then_rel (Q := Rel) Rel.trans (h0.rel.trans (command_rel w hg _ _ _ _ _)) ?_)
          (finish_same _ _ _).rel
        intro a ts s'
        exact Rel.refl _

/-! ## Lines -/

mutual
theorem runLine_rel (w : World) {get : String → St → R Unit × St} (hg : GetRel get) :
    ∀ (l : Line) (s : St), Rel s (runLine w get l s).2
  | .special ts, s => special_rel w hg ts s
  | .exprs a, s => by unfold runLine; exact runAct_rel w hg a s
  | .other none, s => Rel.refl s
  | .other (some _), s => Rel.refl s

theorem runAct_rel (w : World) {get : String → St → R Unit × St} (hg : GetRel get) :
    ∀ (a : Act) (s : St), Rel s (runAct w get a s).2
  | .done, s => Rel.refl s
  | .fail _, s => Rel.refl s
  | .crash, s => Rel.refl s
  | .look k, s => by unfold runAct; exact runAct_rel w hg (k s.conf) s
  | .ivy l k, s => by
    unfold runAct
    have h := runLine_rel w hg l s
    split
    · rename_i u s1 heq
      rw [heq] at h
      exact h.trans (runAct_rel w hg k s1)
    · exact h
end

theorem runLines_rel (w : World) {get : String → St → R Unit × St} (hg : GetRel get) :
    ∀ (ls : List Line) (s : St), Rel s (runLines w get ls s).2
  | [], s => Rel.refl s
  | l :: ls, s => by
    unfold runLines
    have h := runLine_rel w hg l s
    split
    · rename_i u s1 heq
      rw [heq] at h
      exact h.trans (runLines_rel w hg ls s1)
    · exact h

theorem recovered_state (p : R Unit × St) : (recovered p).2.runDepth = p.2.runDepth - 1 ∧
    (recovered p).2.nest = p.2.nest ∧ (recovered p).2.peak = p.2.peak ∧ (recovered p).2.refused = p.2.refused := by
  unfold recovered
  dsimp only
  split <;> exact ⟨rfl, rfl, rfl, rfl⟩

theorem runUntilError_rel (w : World) {get : String → St → R Unit × St} (hg : GetRel get) (ls : List Line) (s : St) :
    (runUntilError w get ls s).2.runDepth + s.refused = s.runDepth + (runUntilError w get ls s).2.refused ∧
      s.refused ≤ (runUntilError w get ls s).2.refused ∧ (runUntilError w get ls s).2.nest = s.nest ∧
      (2 * s.nest + 1 ≤ s.runDepth → s.peak ≤ 5 → (runUntilError w get ls s).2.peak ≤ 5) := by
  unfold runUntilError
  dsimp only
  split
  · dsimp only; omega
  · rename_i hd
    have h := runLines_rel w hg ls { s with runDepth := s.runDepth + 1, nest := s.nest + 1, peak := max s.peak (s.nest + 1) }
    obtain ⟨h1, h2, h3, h4⟩ := h
    dsimp only at h1 h2 h3 h4
    obtain ⟨r1, r2, r3, r4⟩ := recovered_state ((runLines w get ls { s with runDepth := s.runDepth + 1, nest := s.nest + 1, peak := max s.peak (s.nest + 1) }).1, { (runLines w get ls { s with runDepth := s.runDepth + 1, nest := s.nest + 1, peak := max s.peak (s.nest + 1) }).2 with nest := (runLines w get ls { s with runDepth := s.runDepth + 1, nest := s.nest + 1, peak := max s.peak (s.nest + 1) }).2.nest - 1 })
    dsimp only at r1 r2 r3 r4
    rw [r1, r2, r3, r4]
    refine ⟨by omega, by omega, by omega, fun hs hp => h4 (by omega) (by omega)⟩

theorem runFromReader_rel (w : World) {get : String → St → R Unit × St} (hg : GetRel get) (ls : List Line) (s : St) :
    Rel s (runFromReader w get ls s).2 := by
  unfold runFromReader
  dsimp only
  split
  · refine ⟨?_, ?_, ?_, ?_⟩ <;> dsimp only <;> omega
  · obtain ⟨h1, h2, h3, h4⟩ := runUntilError_rel w hg ls { s with runDepth := s.runDepth + 1 }
    obtain ⟨r1, r2, r3, r4⟩ := recovered_state (runUntilError w get ls { s with runDepth := s.runDepth + 1 })
    dsimp only at h1 h2 h3 h4
    refine ⟨by rw [r1, r4]; omega, by rw [r4]; omega, by rw [r2]; omega, fun hs hp => by rw [r3]; exact h4 (by omega) hp⟩

theorem get_rel (w : World) : ∀ n, GetRel (get w n)
  | 0 => fun _ s => Rel.refl s
  | n + 1 => fun x s => by
    unfold get
    split
    · exact Rel.refl s
    · exact runFromReader_rel w (get_rel w n) _ s

theorem step_rel (w : World) (n : Nat) (l : Line) (s : St) : Rel s (step w n l s).2 := by
  have h := runLine_rel w (get_rel w n) l s
  unfold step
  split
  · rename_i m s1 heq
    rw [heq] at h
    exact h.trans (Same.rel ⟨rfl, rfl, rfl, rfl⟩)
  · exact h

theorem session_rel (w : World) (n : Nat) : ∀ (ls : List Line) (s : St), Rel s (session w n ls s).2
  | [], s => Rel.refl s
  | l :: ls, s => by
    have h := step_rel w n l s
    unfold session
    split
    · rename_i u s1 heq
      rw [heq] at h
      exact h.trans (session_rel w n ls s1)
    · exact h

/-! ## Nothing is nested without end -/

/-- What is asked of `get` in states of depth `d` or more. -/
def GetEnds (d : Nat) (get : String → St → R Unit × St) : Prop := ∀ x s, d ≤ s.runDepth → (get x s).1 ≠ .hang

theorem M.then_ends {α β : Type} {m : M α} {k : α → List Tok → St → M β} (hm : m.1 ≠ .hang)
    (hk : ∀ a ts s', m.2 = s' → (k a ts s').1 ≠ .hang) : (m.then k).1 ≠ .hang := by
  unfold M.then
  split
  · exact hk _ _ _ rfl
  · simp
  · simp
  · exact absurd rfl hm

theorem number64_ends (ts : List Tok) (s : St) : (number64 ts s).1 ≠ .hang := by
  unfold number64
  dsimp only
  split
  · split
    · split <;> simp
    · simp
  · simp

theorem number_ends (ts : List Tok) (s : St) : (number ts s).1 ≠ .hang := by
  have h := number64_ends ts s
  unfold number
  split
  · dsimp only; split <;> simp
  · exact h

theorem getString_ends (ts : List Tok) (s : St) : (getString ts s).1 ≠ .hang := by
  unfold getString
  split <;> simp

theorem setting_ends (ts : List Tok) (s : St) (ok : Nat → Bool) (set : Conf → Nat → Conf) :
    (setting ts s ok set).1 ≠ .hang := by
  unfold setting
  split
  · simp
  · refine M.then_ends (number_ends _ s) ?_
    intro n ts s' _
    split <;> simp

theorem settingStr_ends (ts : List Tok) (s : St) (set : Conf → String → Conf) : (settingStr ts s set).1 ≠ .hang := by
  unfold settingStr
  split
  · simp
  · refine M.then_ends (getString_ends _ s) ?_
    intro n ts s' _
    simp

theorem debugCmd_ends (ts : List Tok) (s : St) : (debugCmd ts s).1 ≠ .hang := by
  unfold debugCmd
  split
  · simp
  · split
    · simp
    · split
      · simp
      · refine M.then_ends (number_ends _ s) ?_
        intro n ts s' _
        simp
  · simp

theorem outcome_ends {r : R Unit} (h : r ≠ .hang) (ts : List Tok) (s : St) : (outcome r ts s).1 ≠ .hang := by
  cases r <;> simp_all [outcome]

/-- What is left open comes to an end. -/
structure World.Ends (w : World) : Prop where
  save : ∀ s, w.save s ≠ .hang
  demo : w.demo ≠ .hang
  var : ∀ x, w.var x ≠ .hang
  op : ∀ x, w.op x ≠ .hang

theorem save_ends {w : World} (hw : w.Ends) (x : String) (ts : List Tok) (s : St) : (save w x ts s).1 ≠ .hang := by
  have h := hw.save s
  unfold save
  split
  · simp
  · simp
  · simp
  · rename_i heq; exact absurd heq h

theorem baseCmd_ends (text : String) (ib ob : Nat) (ts : List Tok) (s : St) :
    (baseCmd text ib ob ts s).1 ≠ .hang := by
  unfold baseCmd
  split
  · simp
  · refine M.then_ends (number_ends _ s) ?_
    intro n ts s' _
    split
    · simp
    · split <;> simp

theorem opCmd_ends {w : World} (hw : w.Ends) (ts : List Tok) (s : St) : (opCmd w ts s).1 ≠ .hang := by
  unfold opCmd
  split
  · simp
  · exact outcome_ends (hw.op _) _ _
  · exact outcome_ends (hw.op _) _ _
  · simp

theorem varCmd_ends {w : World} (hw : w.Ends) (ts : List Tok) (s : St) : (varCmd w ts s).1 ≠ .hang := by
  unfold varCmd
  split
  · simp
  · exact outcome_ends (hw.var _) _ _
  · simp

theorem command_ends {w : World} (hw : w.Ends) {d : Nat} {get : String → St → R Unit × St} (hg : GetEnds d get)
    (text : String) (ib ob : Nat) (ts : List Tok) (s : St) (hs : d ≤ s.runDepth) :
    (command w get text ib ob ts s).1 ≠ .hang := by
  unfold command
  split
  · split <;> simp
  · simp
  · exact debugCmd_ends ts s
  · split
    · exact outcome_ends hw.demo _ _
    · simp
  · exact settingStr_ends ts s _
  · split
    · exact outcome_ends (hg _ _ hs) _ _
    · refine M.then_ends (getString_ends _ s) ?_
      intro x ts' s' h
      rw [getString_same] at h
      subst h
      exact outcome_ends (hg _ _ hs) _ _
  · exact setting_ends ts s _ _
  · exact setting_ends ts s _ _
  · exact setting_ends ts s _ _
  · exact opCmd_ends hw ts s
  · exact opCmd_ends hw ts s
  · exact setting_ends ts s _ _
  · exact setting_ends ts s _ _
  · exact settingStr_ends ts s _
  · dsimp only
    split
    · exact save_ends hw _ _ _
    · refine M.then_ends (getString_ends _ _) ?_
      intro x ts' s' _
      exact save_ends hw _ _ _
  · split
    · simp
    · refine M.then_ends (number64_ends _ s) ?_
      intro x ts' s' _
      simp
  · split
    · simp
    · refine M.then_ends (getString_ends _ s) ?_
      intro x ts' s' _
      split <;> simp
  · exact varCmd_ends hw ts s
  · exact varCmd_ends hw ts s
  · simp

theorem finish_ends (ib ob : Nat) {m : M (Nat × Nat)} (h : m.1 ≠ .hang) : (finish ib ob m).1 ≠ .hang := by
  unfold finish
  split
  · dsimp only; split <;> simp
  · simp
  · simp
  · exact absurd rfl h

theorem special_ends {w : World} (hw : w.Ends) {d : Nat} {get : String → St → R Unit × St} (hg : GetEnds d get)
    (ts : List Tok) (s : St) (hs : d ≤ s.runDepth) : (special w get ts s).1 ≠ .hang := by
  unfold special
  dsimp only
  split
  · exact finish_ends _ _ (by simp)
  · split
    · exact finish_ends _ _ (by simp)
    · split
      · exact finish_ends _ _ (baseCmd_ends _ _ _ _ _)
      · refine finish_ends _ _ (M.then_ends (command_ends hw hg _ _ _ _ _ hs) ?_)
        intro a ts s' _
        simp

mutual
theorem runLine_ends {w : World} (hw : w.Ends) {d : Nat} {get : String → St → R Unit × St} (hr : GetRel get)
    (hg : GetEnds d get) : ∀ (l : Line) (s : St), d ≤ s.runDepth → (runLine w get l s).1 ≠ .hang
  | .special ts, s, hs => special_ends hw hg ts s hs
  | .exprs a, s, hs => by unfold runLine; exact runAct_ends hw hr hg a s hs
  | .other none, s, _ => by simp [runLine]
  | .other (some _), s, _ => by simp [runLine]

theorem runAct_ends {w : World} (hw : w.Ends) {d : Nat} {get : String → St → R Unit × St} (hr : GetRel get)
    (hg : GetEnds d get) : ∀ (a : Act) (s : St), d ≤ s.runDepth → (runAct w get a s).1 ≠ .hang
  | .done, s, _ => by simp [runAct]
  | .fail _, s, _ => by simp [runAct]
  | .crash, s, _ => by simp [runAct]
  | .look k, s, hs => by unfold runAct; exact runAct_ends hw hr hg (k s.conf) s hs
  | .ivy l k, s, hs => by
    unfold runAct
    have h := runLine_ends hw hr hg l s hs
    have h' := (runLine_rel w hr l s).depth
    split
    · rename_i u s1 heq
      rw [heq] at h'
      exact runAct_ends hw hr hg k s1 (Nat.le_trans hs h')
    · exact h
end

theorem runLines_ends {w : World} (hw : w.Ends) {d : Nat} {get : String → St → R Unit × St} (hr : GetRel get)
    (hg : GetEnds d get) : ∀ (ls : List Line) (s : St), d ≤ s.runDepth → (runLines w get ls s).1 ≠ .hang
  | [], s, _ => by simp [runLines]
  | l :: ls, s, hs => by
    unfold runLines
    have h := runLine_ends hw hr hg l s hs
    have h' := (runLine_rel w hr l s).depth
    split
    · rename_i u s1 heq
      rw [heq] at h'
      exact runLines_ends hw hr hg ls s1 (Nat.le_trans hs h')
    · exact h

theorem recovered_ends {p : R Unit × St} (h : p.1 ≠ .hang) : (recovered p).1 ≠ .hang := by
  unfold recovered
  dsimp only
  split
  · simp
  · exact h

theorem runFromReader_ends {w : World} (hw : w.Ends) {get : String → St → R Unit × St} (hr : GetRel get)
    (ls : List Line) (s : St) (hg : s.runDepth ≤ 8 → GetEnds (s.runDepth + 2) get) :
    (runFromReader w get ls s).1 ≠ .hang := by
  unfold runFromReader
  dsimp only
  split
  · simp
  · refine recovered_ends ?_
    unfold runUntilError
    dsimp only
    split
    · simp
    · exact recovered_ends (runLines_ends hw hr (hg (by omega)) ls _ (Nat.le_refl _))

theorem get_ends {w : World} (hw : w.Ends) (n : Nat) : GetEnds (9 - 2 * n) (get w (n + 1)) := by
  induction n with
  | zero =>
    intro x s hs
    unfold get
    split
    · simp
    · exact runFromReader_ends hw (get_rel w 0) _ s (by omega)
  | succ n ih =>
    intro x s hs
    unfold get
    split
    · simp
    · refine runFromReader_ends hw (get_rel w (n + 1)) _ s ?_
      intro _ y t ht
      exact ih y t (by omega)

theorem session_ends {w : World} (hw : w.Ends) (n : Nat) (hn : 6 ≤ n) :
    ∀ (ls : List Line) (s : St), (session w n ls s).1 ≠ .hang
  | [], s => by simp [session]
  | l :: ls, s => by
    obtain ⟨m, rfl⟩ : ∃ m, n = m + 1 := ⟨n - 1, by omega⟩
    have h : (step w (m + 1) l s).1 ≠ .hang := by
      have h := runLine_ends hw (get_rel w (m + 1)) (get_ends hw m) l s (by omega)
      unfold step
      split
      · simp
      · exact h
    unfold session
    split
    · exact session_ends hw (m + 1) hn ls _
    · exact h

/-! ## Numbers -/

theorem digitVal_isDigit {c : Char} (h : c.isDigit = true) : digitVal c = some (c.toNat - '0'.toNat) ∧
    c.toNat - '0'.toNat < 10 := by
  simp only [Char.isDigit, Bool.and_eq_true, decide_eq_true_eq] at h
  obtain ⟨h1, h2⟩ := h
  have g1 : 48 ≤ c.toNat := h1
  have g2 : c.toNat ≤ 57 := h2
  refine ⟨?_, ?_⟩
  · unfold digitVal
    rw [if_pos]
    exact ⟨h1, h2⟩
  · show c.toNat - 48 < 10
    omega

theorem foldl_addDigit : ∀ (cs : List Char) (a : Nat), (∀ c ∈ cs, c.isDigit = true) →
    cs.foldl (addDigit 10) (some a) = some (cs.foldl (fun n c => 10 * n + (c.toNat - '0'.toNat)) a)
  | [], a, _ => rfl
  | c :: cs, a, h => by
    obtain ⟨h1, h2⟩ := digitVal_isDigit (h c (by simp))
    have h3 : addDigit 10 (some a) c = some (10 * a + (c.toNat - '0'.toNat)) := by
      simp only [addDigit, h1]
      rw [if_pos h2]
    rw [List.foldl_cons, h3, foldl_addDigit cs _ (fun d hd => h d (by simp [hd]))]
    rfl

theorem parseNat_toDigits (k : Nat) : parseNat 10 (Nat.toDigits 10 k) = some k := by
  have h0 : Nat.toDigits 10 k ≠ [] := Nat.toDigits_ne_nil
  have h1 : (Nat.toDigits 10 k).isEmpty = false := by simpa using h0
  unfold parseNat
  rw [if_neg (by decide)]
  unfold parseDigits
  rw [h1]
  simp only [Bool.false_eq_true, if_false]
  rw [foldl_addDigit _ _ (fun c hc => Nat.isDigit_of_mem_toDigits (by decide) (by decide) hc)]
  rw [← Nat.ofDigitChars_eq_foldl, Nat.ofDigitChars_ten_toDigits]

theorem number64_dec (k : Nat) (ts : List Tok) (s : St) (h : k < 2 ^ 63) :
    number64 (.num (Nat.toDigits 10 k) :: ts) s = (.ok (k, ts), s) := by
  unfold number64
  dsimp only
  have : (s.setBase 10 s.conf.obase).conf.ibase = 10 := rfl
  rw [this, parseNat_toDigits]
  dsimp only
  rw [if_pos h]
  rfl

theorem number64_big (k : Nat) (ts : List Tok) (s : St) (h : 2 ^ 63 ≤ k) :
    ∃ m, number64 (.num (Nat.toDigits 10 k) :: ts) s = (.err m, s) := by
  refine ⟨"value out of range", ?_⟩
  unfold number64
  dsimp only
  have : (s.setBase 10 s.conf.obase).conf.ibase = 10 := rfl
  rw [this, parseNat_toDigits]
  dsimp only
  rw [if_neg (by omega)]
  rfl

theorem number_dec (k : Nat) (ts : List Tok) (s : St) (h : k < 2 ^ 31) :
    number (.num (Nat.toDigits 10 k) :: ts) s = (.ok (k, ts), s) := by
  unfold number
  rw [number64_dec k ts s (by omega)]
  dsimp only
  rw [if_pos h]

theorem number_big (k : Nat) (ts : List Tok) (s : St) (h : 2 ^ 31 ≤ k) :
    ∃ m, number (.num (Nat.toDigits 10 k) :: ts) s = (.err m, s) := by
  unfold number
  by_cases h2 : k < 2 ^ 63
  · rw [number64_dec k ts s h2]
    dsimp only
    rw [if_neg (by omega)]
    exact ⟨_, rfl⟩
  · obtain ⟨m, hm⟩ := number64_big k ts s (by omega)
    rw [hm]
    exact ⟨m, rfl⟩

/-! ## Bases -/

/-- The state has the bases `i` and `o`. -/
def Bases (s : St) (i o : Nat) : Prop := s.conf.ibase = i ∧ s.conf.obase = o

theorem finish_bases {i o ib ob : Nat} {m : M (Nat × Nat)} (h : ∀ a ts, m.1 = .ok (a, ts) → a = (ib, ob))
    (e : i = ib ∧ o = ob) : Bases (finish i o m).2 ib ob := by
  obtain ⟨rfl, rfl⟩ := e
  unfold finish
  split
  · have := h _ _ rfl
    cases this
    exact ⟨rfl, rfl⟩
  · exact ⟨rfl, rfl⟩
  · exact ⟨rfl, rfl⟩
  · exact ⟨rfl, rfl⟩

theorem then_base {m : M Unit} {ib ob : Nat} {a : Nat × Nat} {ts : List Tok}
    (h : (m.then fun _ rest s2 => (.ok ((ib, ob), rest), s2)).1 = .ok (a, ts)) : a = (ib, ob) := by
  unfold M.then at h
  split at h
  · cases h; rfl
  · cases h
  · cases h
  · cases h

theorem number_rest {a : Tok} {s s' : St} {n : Nat} {ts : List Tok} (h : number [a] s = (.ok (n, ts), s')) :
    ts = [] := by
  have key : ∀ {n ts}, (number64 [a] s).1 = .ok (n, ts) → ts = [] := by
    intro n ts h
    unfold number64 at h
    dsimp only at h
    split at h
    · rename_i heq
      cases heq
      split at h
      · split at h
        · cases h; rfl
        · cases h
      · cases h
    · cases h
  unfold number at h
  split at h
  · rename_i heq
    split at h
    · cases h
      exact key (by rw [heq])
    · cases h
  · exact key (by rw [h])

theorem baseCmd_rest {text : String} {ib ob : Nat} {a : Tok} {s : St} {p : Nat × Nat} {ts : List Tok}
    (h : (baseCmd text ib ob [a] s).1 = .ok (p, ts)) : ts = [] := by
  unfold baseCmd at h
  dsimp only at h
  unfold M.then at h
  split at h
  · rename_i heq
    have := number_rest heq
    dsimp only at h
    split at h
    · cases h
    · split at h <;> (cases h; exact this)
  · cases h
  · cases h
  · cases h

/-! ## Reading a file -/

theorem recovered_conf (p : R Unit × St) : (recovered p).2.conf = p.2.conf ∧ (recovered p).2.files = p.2.files ∧
    ((recovered p).1 = .ok () ↔ ∃ m, p.1 = .ok () ∨ p.1 = .err m) := by
  unfold recovered
  dsimp only
  split
  · rename_i heq
    exact ⟨rfl, rfl, by simp [heq]⟩
  · rename_i hne
    refine ⟨rfl, rfl, ?_⟩
    constructor
    · intro h; exact ⟨"", .inl h⟩
    · rintro ⟨m, h | h⟩
      · exact h
      · exact absurd h (hne m)

theorem get_reads (w : World) (n : Nat) (x : String) (ls : List Line) (s : St) (h8 : s.runDepth ≤ 8)
    (hx : s.files x = some ls) :
    let p := runLines w (get w n) ls
      { s with runDepth := s.runDepth + 2, nest := s.nest + 1, peak := max s.peak (s.nest + 1) }
    (get w (n + 1) x s).2.conf = p.2.conf ∧ (get w (n + 1) x s).2.files = p.2.files ∧
      ((get w (n + 1) x s).1 = .ok () ↔ ∃ m, p.1 = .ok () ∨ p.1 = .err m) := by
  intro p
  have e : get w (n + 1) x s = recovered (recovered (p.1, { p.2 with nest := p.2.nest - 1 })) := by
    conv => lhs; unfold get
    rw [hx]
    dsimp only
    unfold runFromReader
    dsimp only
    rw [if_neg (by omega)]
    unfold runUntilError
    dsimp only
    rw [if_neg (by omega)]
  obtain ⟨a1, a2, a3⟩ := recovered_conf (p.1, { p.2 with nest := p.2.nest - 1 })
  obtain ⟨b1, b2, b3⟩ := recovered_conf (recovered (p.1, { p.2 with nest := p.2.nest - 1 }))
  rw [e]
  refine ⟨by rw [b1, a1], by rw [b2, a2], ?_⟩
  rw [b3]
  constructor
  · rintro ⟨m, h | h⟩
    · exact a3.1 h
    · exfalso
      unfold recovered at h
      dsimp only at h
      split at h
      · cases h
      · rename_i hne; exact hne m h
  · intro h
    exact ⟨"", .inl (a3.2 h)⟩

theorem get_refuses (w : World) (m : Nat) (x : String) (s : St) (h9 : 9 ≤ s.runDepth) :
    (get w m x s).2.conf = s.conf ∧ (get w m x s).2.files = s.files ∧ (get w m x s).2.peak = s.peak := by
  unfold get
  split
  · exact ⟨rfl, rfl, rfl⟩
  · split
    · exact ⟨rfl, rfl, rfl⟩
    · unfold runFromReader
      dsimp only
      split
      · exact ⟨rfl, rfl, rfl⟩
      · unfold runUntilError
        dsimp only
        rw [if_pos (by omega)]
        exact ⟨rfl, rfl, rfl⟩

/-! ## A file that reads itself -/

theorem special_get (w : World) (get : String → St → R Unit × St) (x : String) (s : St) :
    (special w get [.id "get", .str (some x)] s).2 =
        (get x (s.setBase 0 0)).2.setBase s.conf.ibase s.conf.obase ∧
      (special w get [.id "get", .str (some x)] s).1 = (get x (s.setBase 0 0)).1 := by
  rcases h : get x (s.setBase 0 0) with ⟨r, s2⟩
  cases r <;> simp [special, name, command, getString, M.then, outcome, finish, h] <;> rfl

theorem runLines_one (w : World) (get : String → St → R Unit × St) (l : Line) (s : St) :
    (runLines w get [l] s).2 = (runLine w get l s).2 ∧ (runLines w get [l] s).1 = (runLine w get l s).1 := by
  rcases h : runLine w get l s with ⟨r, s2⟩
  cases r <;> simp [runLines, h]

theorem setBase_conf (s : St) (i o : Nat) : (s.setBase i o).conf = { s.conf with ibase := i, obase := o } := rfl

/-- The line `)get x`. -/
def getLine (x : String) : Line := .special [.id "get", .str (some x)]

theorem recovered_outcome {p : R Unit × St} (h : p.1 ≠ .crash) (h' : p.1 ≠ .hang) : (recovered p).1 = .ok () := by
  rcases p with ⟨r, s⟩
  cases r <;> simp_all [recovered]

/-- Each reading of a file that reads itself is refused once, and changes nothing else. -/
theorem get_self (w : World) (x : String) : ∀ (n : Nat) (s : St), s.files x = some [getLine x] →
    9 ≤ s.runDepth + 2 * n → (get w (n + 1) x s).2.files = s.files ∧ (get w (n + 1) x s).2.conf = s.conf ∧
      (get w (n + 1) x s).2.refused = s.refused + 1 ∧ (get w (n + 1) x s).1 ≠ .crash ∧
      (get w (n + 1) x s).1 ≠ .hang := by
  intro n
  induction n with
  | zero =>
    intro s hx hd
    unfold get
    rw [hx]
    unfold runFromReader
    dsimp only
    split
    · simp
    · unfold runUntilError
      dsimp only
      rw [if_pos (by omega)]
      simp [recovered]
  | succ n ih =>
    intro s hx hd
    by_cases h9 : 9 ≤ s.runDepth
    · unfold get
      rw [hx]
      unfold runFromReader
      dsimp only
      split
      · simp
      · unfold runUntilError
        dsimp only
        rw [if_pos (by omega)]
        simp [recovered]
    · have e : get w (n + 2) x s = runFromReader w (get w (n + 1)) [getLine x] s := by
        conv => lhs; unfold get
        rw [hx]
      rw [e]
      unfold runFromReader
      dsimp only
      rw [if_neg (by omega)]
      unfold runUntilError
      dsimp only
      rw [if_neg (by omega)]
      obtain ⟨h1, h2⟩ := runLines_one w (get w (n + 1)) (getLine x)
        { s with runDepth := s.runDepth + 1 + 1, nest := s.nest + 1, peak := max s.peak (s.nest + 1) }
      obtain ⟨h3, h4⟩ := special_get w (get w (n + 1)) x
        { s with runDepth := s.runDepth + 1 + 1, nest := s.nest + 1, peak := max s.peak (s.nest + 1) }
      obtain ⟨i1, i2, i3, i4, i5⟩ := ih (St.setBase { s with runDepth := s.runDepth + 1 + 1, nest := s.nest + 1, peak := max s.peak (s.nest + 1) } 0 0) hx
        (by show 9 ≤ s.runDepth + 1 + 1 + 2 * n; omega)
      have e1 := h1.trans h3
      have e2 := h2.trans h4
      revert e1 e2 i1 i2 i3 i4 i5
      generalize get w (n + 1) x (St.setBase { s with runDepth := s.runDepth + 1 + 1, nest := s.nest + 1, peak := max s.peak (s.nest + 1) } 0 0) = q
      generalize runLines w (get w (n + 1)) [getLine x] { s with runDepth := s.runDepth + 1 + 1, nest := s.nest + 1, peak := max s.peak (s.nest + 1) } = p
      intro i1 i2 i3 i4 i5 e1 e2
      have o1 : (recovered (p.1, { p.2 with nest := p.2.nest - 1 })).1 = .ok () :=
        recovered_outcome (by rw [e2]; exact i4) (by rw [e2]; exact i5)
      have o2 : (recovered (recovered (p.1, { p.2 with nest := p.2.nest - 1 }))).1 = .ok () :=
        recovered_outcome (by rw [o1]; simp) (by rw [o1]; simp)
      obtain ⟨a1, a2, -⟩ := recovered_conf (p.1, { p.2 with nest := p.2.nest - 1 })
      obtain ⟨b1, b2, -⟩ := recovered_conf (recovered (p.1, { p.2 with nest := p.2.nest - 1 }))
      obtain ⟨-, -, -, a4⟩ := recovered_state (p.1, { p.2 with nest := p.2.nest - 1 })
      obtain ⟨-, -, -, b4⟩ := recovered_state (recovered (p.1, { p.2 with nest := p.2.nest - 1 }))
      refine ⟨?_, ?_, ?_, ?_, ?_⟩
      · rw [b2, a2]
        dsimp only
        rw [e1]
        exact i1
      · rw [b1, a1]
        dsimp only
        rw [e1]
        dsimp only [St.setBase]
        rw [i2]
        rfl
      · rw [b4, a4]
        dsimp only
        rw [e1]
        exact i3
      · rw [o2]; simp
      · rw [o2]; simp

/-- Any number of readings of a file that reads itself. -/
theorem session_self (w : World) (x : String) (n : Nat) (hn : 5 ≤ n) : ∀ (k : Nat) (s : St),
    s.files x = some [getLine x] →
    (session w (n + 1) (List.replicate k (getLine x)) s).2.files = s.files ∧
      (session w (n + 1) (List.replicate k (getLine x)) s).2.conf = s.conf ∧
      (session w (n + 1) (List.replicate k (getLine x)) s).2.refused = s.refused + k ∧
      (session w (n + 1) (List.replicate k (getLine x)) s).1 = .ok () := by
  intro k
  induction k with
  | zero => intro s _; exact ⟨rfl, rfl, rfl, rfl⟩
  | succ k ih =>
    intro s hx
    obtain ⟨g1, g2, g3, g4, g5⟩ := get_self w x n (s.setBase 0 0) hx (by omega)
    obtain ⟨s1, s2⟩ := special_get w (get w (n + 1)) x s
    have hs : step w (n + 1) (getLine x) s = (.ok (), (step w (n + 1) (getLine x) s).2) ∧
        (step w (n + 1) (getLine x) s).2.files = s.files ∧ (step w (n + 1) (getLine x) s).2.conf = s.conf ∧
        (step w (n + 1) (getLine x) s).2.refused = s.refused + 1 := by
      have e : runLine w (get w (n + 1)) (getLine x) s = special w (get w (n + 1)) [.id "get", .str (some x)] s := rfl
      unfold step
      rw [e]
      revert s1 s2
      generalize special w (get w (n + 1)) [.id "get", .str (some x)] s = p
      intro s1 s2
      rcases p with ⟨r, t⟩
      dsimp only at s1 s2
      have c : t.files = s.files ∧ t.conf = s.conf ∧ t.refused = s.refused + 1 := by
        refine ⟨?_, ?_, ?_⟩
        · rw [s1]; exact g1
        · rw [s1, setBase_conf, g2]; rfl
        · rw [s1]; exact g3
      rw [← s2] at g4 g5
      cases r with
      | ok u => exact ⟨rfl, c⟩
      | err m => exact ⟨rfl, c⟩
      | crash => exact absurd rfl g4
      | hang => exact absurd rfl g5
    obtain ⟨h0, h1, h2, h3⟩ := hs
    obtain ⟨i1, i2, i3, i4⟩ := ih (step w (n + 1) (getLine x) s).2 (by rw [h1]; exact hx)
    rw [List.replicate_succ]
    unfold session
    rw [h0]
    dsimp only
    exact ⟨by rw [i1, h1], by rw [i2, h2], by rw [i3, h3]; omega, i4⟩

theorem session_append (w : World) (n : Nat) (ms : List Line) : ∀ (ls : List Line) (s : St),
    (session w n ls s).1 = .ok () → session w n (ls ++ ms) s = session w n ms (session w n ls s).2
  | [], s, _ => rfl
  | l :: ls, s, h => by
    have key : ∀ ls, session w n (l :: ls) s = match step w n l s with
        | (.ok _, s1) => session w n ls s1
        | r => r := fun _ => rfl
    rw [List.cons_append, key, key] at *
    rcases hs : step w n l s with ⟨r, t⟩
    rw [hs] at h
    cases r with
    | ok u => exact session_append w n ms ls t h
    | err m => simp at h
    | crash => simp at h
    | hang => simp at h

end Verif.Sess
