import Verif.Sess.Lemmas

/-!
# Sessions: properties C43 and C44

C43: special commands other than those that set a base leave both bases alone, however they end, and read numbers in
decimal whatever the bases are.  C44: the nesting of `)get` is bounded; the depth is restored after files that are read,
but each refusal leaves it one too high, so that after nine refusals no file can be read any more.
-/

namespace Verif.Sess
open Verif.Arr (R)

/-! ## Examples -/

/-- Settings to start from, with the bases 7 and 16. -/
def exConf : Conf :=
  ⟨7, 16, 1000000, 10000, 100000, 1, 256, 0, "", "", "Local", fun x => if x = "parse" then some 0 else none⟩

/-- A state with three files: `b` sets the origin to 5, `a` reads itself, `c` reads `b` and then fails. -/
def exSt : St :=
  { conf := exConf
    files := fun x =>
      if x = "b" then some [.special [.id "origin", .num ['5']]]
      else if x = "a" then some [.special [.id "get", .str (some "a")]]
      else if x = "c" then some [.special [.id "get", .str (some "b")], .special [.id "nonsense"]]
      else none
    log := [], runDepth := 0, nest := 0, peak := 0, refused := 0 }

/-- A world in which writing fails and everything else succeeds. -/
def exW : World := ⟨fun _ => .err "disk full", .ok (), fun _ => .ok (), fun _ => .ok (), fun _ => true⟩

theorem exW_ends : exW.Ends := ⟨fun _ => by simp [exW], by simp [exW], fun _ => by simp [exW], fun _ => by simp [exW]⟩

/-! ## C43 -/

/-- The command sets a base: it is one of the three, and has an argument (`ts` follows the right parenthesis). -/
def SetsBase : List Tok → Prop
  | t :: _ :: _ => name t = some "base" ∨ name t = some "ibase" ∨ name t = some "obase"
  | _ => False

/-- **C43**: a command that does not set a base leaves both bases as they were, however it ends, whatever the files it
runs do. -/
theorem C43_bases (w : World) (get : String → St → R Unit × St) (ts : List Tok) (s : St) (h : ¬SetsBase ts) :
    (special w get ts s).2.conf.ibase = s.conf.ibase ∧ (special w get ts s).2.conf.obase = s.conf.obase := by
  unfold special
  dsimp only
  split
  · exact finish_bases (by simp) ⟨rfl, rfl⟩
  · rename_i t ts'
    split
    · exact finish_bases (by simp) ⟨rfl, rfl⟩
    · rename_i text heq
      split
      · rename_i hb
        match ts', h with
        | [], _ =>
          refine finish_bases ?_ ⟨rfl, rfl⟩
          intro a ts h
          cases h
          rfl
        | a :: ts, h =>
          exact absurd (show SetsBase (t :: a :: ts) by rcases hb with rfl | rfl | rfl <;> simp [SetsBase, heq]) h
      · exact finish_bases (fun a ts h => then_base h) ⟨rfl, rfl⟩

example : ¬SetsBase [.id "save"] ∧ ¬SetsBase [.id "get", .str (some "c")] ∧ ¬SetsBase [.id "base"] := by
  simp [SetsBase, name]

/-- Writing sets the bases to 10 and fails; the bases are 7 and 16 again. -/
example : (special exW (get exW 6) [.id "save"] exSt).1 = .err "disk full" ∧
    (save exW "save.ivy" [] exSt).2.conf.ibase = 10 ∧
    (special exW (get exW 6) [.id "save"] exSt).2.conf.ibase = 7 := ⟨rfl, rfl, rfl⟩

/-- **C43**: a command that would set a base but fails on its only argument leaves the bases as they were. -/
theorem C43_base_fails (w : World) (get : String → St → R Unit × St) (t a : Tok) (s : St) (m : String)
    (h : (special w get [t, a] s).1 = .err m) :
    (special w get [t, a] s).2.conf.ibase = s.conf.ibase ∧ (special w get [t, a] s).2.conf.obase = s.conf.obase := by
  by_cases hs : SetsBase [t, a]
  · have key : ∀ text, (finish s.conf.ibase s.conf.obase
        (baseCmd text s.conf.ibase s.conf.obase [a] (s.setBase 0 0))).1 = .err m →
        Bases (finish s.conf.ibase s.conf.obase
          (baseCmd text s.conf.ibase s.conf.obase [a] (s.setBase 0 0))).2 s.conf.ibase s.conf.obase := by
      intro text h
      have hr : ∀ p ts, (baseCmd text s.conf.ibase s.conf.obase [a] (s.setBase 0 0)).1 = .ok (p, ts) → ts = [] :=
        fun p ts hk => baseCmd_rest hk
      refine finish_bases ?_ ⟨rfl, rfl⟩
      intro p ts hk
      have := hr p ts hk
      subst this
      exfalso
      revert h
      rcases hb : baseCmd text s.conf.ibase s.conf.obase [a] (s.setBase 0 0) with ⟨r, s2⟩
      rw [hb] at hk
      dsimp only at hk
      subst hk
      simp [finish]
    have hn : ∀ text, name t = some text → (text = "base" ∨ text = "ibase" ∨ text = "obase") →
        special w get [t, a] s = finish s.conf.ibase s.conf.obase
          (baseCmd text s.conf.ibase s.conf.obase [a] (s.setBase 0 0)) := by
      intro text h1 h2
      unfold special
      simp only [h1]
      rw [if_pos h2]
    rcases hs with h1 | h1 | h1
    · have e := hn _ h1 (by simp); rw [e] at h ⊢; exact key _ h
    · have e := hn _ h1 (by simp); rw [e] at h ⊢; exact key _ h
    · have e := hn _ h1 (by simp); rw [e] at h ⊢; exact key _ h
  · exact C43_bases w get _ s hs

example : (special exW (get exW 6) [.id "base", .num ['1', '7']] exSt).1 = .err "illegal base" := rfl

/-- An observation: with something after the argument the command is reported as wrong, yet the base is set. -/
example : (special exW (get exW 6) [.id "base", .num ['3'], .other] exSt).1 = .err "expected EOF" ∧
    (special exW (get exW 6) [.id "base", .num ['3'], .other] exSt).2.conf.ibase = 3 := ⟨rfl, rfl⟩

/-- **C43**: the commands that set a base read it in decimal, whatever the base is, and set what they say and nothing
else. -/
theorem C43_base_decimal (w : World) (get : String → St → R Unit × St) (s : St) (k : Nat)
    (hk : k = 0 ∨ 2 ≤ k ∧ k ≤ 16) :
    special w get [.id "base", .num (Nat.toDigits 10 k)] s =
      (.ok (), { s with conf := { s.conf with ibase := k, obase := k } }) ∧
    special w get [.id "ibase", .num (Nat.toDigits 10 k)] s =
      (.ok (), { s with conf := { s.conf with ibase := k } }) ∧
    special w get [.id "obase", .num (Nat.toDigits 10 k)] s =
      (.ok (), { s with conf := { s.conf with obase := k } }) := by
  have h1 : k < 2 ^ 31 := by omega
  have h2 : ¬(k ≠ 0 ∧ (k < 2 ∨ 16 < k)) := by omega
  refine ⟨?_, ?_, ?_⟩
  · simp [special, name, baseCmd, number_dec k _ _ h1, M.then, if_neg h2, finish, St.setBase]
  · simp [special, name, baseCmd, number_dec k _ _ h1, M.then, if_neg h2, finish, St.setBase]
  · simp [special, name, baseCmd, number_dec k _ _ h1, M.then, if_neg h2, finish, St.setBase]

example : special exW (get exW 6) [.id "base", .num ['1', '0']] exSt =
    (.ok (), { exSt with conf := { exConf with ibase := 10, obase := 10 } }) := rfl

/-- **C43**: any other base is refused, and nothing changes. -/
theorem C43_base_refused (w : World) (get : String → St → R Unit × St) (s : St) (k : Nat)
    (hk : ¬(k = 0 ∨ 2 ≤ k ∧ k ≤ 16)) (c : String) (hc : c = "base" ∨ c = "ibase" ∨ c = "obase") :
    ∃ m, special w get [.id c, .num (Nat.toDigits 10 k)] s = (.err m, s) := by
  by_cases h : k < 2 ^ 31
  · have h2 : k ≠ 0 ∧ (k < 2 ∨ 16 < k) := by omega
    refine ⟨"illegal base", ?_⟩
    rcases hc with rfl | rfl | rfl
    · simp [special, name, baseCmd, number_dec k _ _ h, M.then, if_pos h2, finish]; rfl
    · simp [special, name, baseCmd, number_dec k _ _ h, M.then, if_pos h2, finish]; rfl
    · simp [special, name, baseCmd, number_dec k _ _ h, M.then, if_pos h2, finish]; rfl
  · obtain ⟨m, hm⟩ := number_big k [] (s.setBase 0 0) (by omega)
    refine ⟨m, ?_⟩
    rcases hc with rfl | rfl | rfl
    · simp [special, name, baseCmd, hm, M.then, finish]; rfl
    · simp [special, name, baseCmd, hm, M.then, finish]; rfl
    · simp [special, name, baseCmd, hm, M.then, finish]; rfl

example : special exW (get exW 6) [.id "ibase", .num ['1', '7']] exSt = (.err "illegal base", exSt) := rfl

/-- **C43**: numbers are read in decimal, whatever the bases are; the setting gets that value and nothing else changes. -/
theorem C43_decimal (w : World) (get : String → St → R Unit × St) (s : St) (k : Nat) :
    (k < 2 ^ 31 → special w get [.id "maxbits", .num (Nat.toDigits 10 k)] s =
      (.ok (), { s with conf := { s.conf with maxBits := k } })) ∧
    (k < 2 ^ 31 → special w get [.id "maxdigits", .num (Nat.toDigits 10 k)] s =
      (.ok (), { s with conf := { s.conf with maxDigits := k } })) ∧
    (k < 2 ^ 31 → special w get [.id "maxstack", .num (Nat.toDigits 10 k)] s =
      (.ok (), { s with conf := { s.conf with maxStack := k } })) ∧
    (k < 2 ^ 31 → special w get [.id "origin", .num (Nat.toDigits 10 k)] s =
      (.ok (), { s with conf := { s.conf with origin := k } })) ∧
    (0 < k → k ≤ 1000000 → special w get [.id "prec", .num (Nat.toDigits 10 k)] s =
      (.ok (), { s with conf := { s.conf with prec := k } })) ∧
    (k < 2 ^ 63 → special w get [.id "seed", .num (Nat.toDigits 10 k)] s =
      (.ok (), { s with conf := { s.conf with seed := k } })) := by
  refine ⟨fun h => ?_, fun h => ?_, fun h => ?_, fun h => ?_, fun h0 h => ?_, fun h => ?_⟩
  · simp [special, name, command, setting, number_dec k _ _ h, M.then, finish, St.setBase]
  · simp [special, name, command, setting, number_dec k _ _ h, M.then, finish, St.setBase]
  · simp [special, name, command, setting, number_dec k _ _ h, M.then, finish, St.setBase]
  · simp [special, name, command, setting, number_dec k _ _ h, M.then, finish, St.setBase]
  · have h1 : k < 2 ^ 31 := by omega
    have h2 : (k != 0 && decide (k ≤ 1000000)) = true := by
      have : k ≠ 0 := by omega
      simp [this, h]
    simp [special, name, command, setting, number_dec k _ _ h1, M.then, h2, finish, St.setBase]
  · simp [special, name, command, number64_dec k _ _ h, M.then, finish, St.setBase]

example : (special exW (get exW 6) [.id "maxbits", .num ['1', '9']] exSt).2.conf.maxBits = 19 := rfl

/-- **C43**: numbers of 2^31 and more are refused, and nothing changes. -/
theorem C43_too_large (w : World) (get : String → St → R Unit × St) (s : St) (k : Nat) (h : 2 ^ 31 ≤ k) (c : String)
    (hc : c ∈ ["base", "ibase", "obase", "maxbits", "maxdigits", "maxstack", "origin", "prec"]) :
    ∃ m, special w get [.id c, .num (Nat.toDigits 10 k)] s = (.err m, s) := by
  obtain ⟨m, hm⟩ := number_big k [] (s.setBase 0 0) h
  refine ⟨m, ?_⟩
  simp only [List.mem_cons, List.not_mem_nil, or_false] at hc
  rcases hc with rfl | rfl | rfl | rfl | rfl | rfl | rfl | rfl
  · simp [special, name, baseCmd, hm, M.then, finish]; rfl
  · simp [special, name, baseCmd, hm, M.then, finish]; rfl
  · simp [special, name, baseCmd, hm, M.then, finish]; rfl
  · simp [special, name, command, setting, hm, M.then, finish]; rfl
  · simp [special, name, command, setting, hm, M.then, finish]; rfl
  · simp [special, name, command, setting, hm, M.then, finish]; rfl
  · simp [special, name, command, setting, hm, M.then, finish]; rfl
  · simp [special, name, command, setting, hm, M.then, finish]; rfl

example : (special exW (get exW 6) [.id "origin", .num ['4', '0', '0', '0', '0', '0', '0', '0', '0', '0']] exSt).1 =
    .err "value too large" := rfl

/-! ## C44 -/

/-- **C44**: reading files is bounded: a session comes to an end whatever the files hold, and at most five files are open
at once. -/
theorem C44_bounded (w : World) (hw : w.Ends) (n : Nat) (hn : 6 ≤ n) (ls : List Line) (s : St) :
    (session w n ls s).1 ≠ .hang ∧
      (s.nest = 0 → s.peak ≤ 5 → (session w n ls s).2.peak ≤ 5) :=
  ⟨session_ends hw n hn ls s, fun h0 hp => (session_rel w n ls s).peak (by omega) hp⟩

/-- A file that reads itself: five are open at once. -/
example : (session exW 6 [getLine "a"] exSt).2.peak = 5 ∧ exSt.nest = 0 ∧ exSt.peak ≤ 5 := by
  refine ⟨by decide +kernel, rfl, by decide⟩

/-- **C44**: after any session, however its files end, all files are closed, and the depth is as before but for one more
for each refusal. -/
theorem C44_depth (w : World) (n : Nat) (ls : List Line) (s : St) :
    (session w n ls s).2.nest = s.nest ∧
    (session w n ls s).2.runDepth = s.runDepth + ((session w n ls s).2.refused - s.refused) := by
  have h := session_rel w n ls s
  refine ⟨h.nest, ?_⟩
  have := h.leak; have := h.mono; omega

/-- A file that is read and then fails, and one that is refused. -/
example : (session exW 6 [getLine "c"] exSt).2.refused = 0 ∧ (session exW 6 [getLine "c"] exSt).2.runDepth = 0 ∧
    (session exW 6 [getLine "a"] exSt).2.refused = 1 ∧ (session exW 6 [getLine "a"] exSt).2.runDepth = 1 := by
  refine ⟨by decide +kernel, by decide +kernel, by decide +kernel, by decide +kernel⟩

/-- **C44** (partial): as long as there have been at most eight refusals, a session that starts with depth 0 can read
files: `)get` does to settings and files what the lines of the file do.  Missing: the same after nine or more refusals,
which is false (`C44_lost`). -/
theorem C44_reads_partial (w : World) (n : Nat) (hist : List Line) (s : St) (h0 : s.runDepth = 0) (hr : s.refused = 0)
    (h8 : (session w n hist s).2.refused ≤ 8) (x : String) (ls : List Line)
    (hx : (session w n hist s).2.files x = some ls) :
    let s1 := (session w n hist s).2
    let p := runLines w (get w n) ls
      { s1 with runDepth := s1.runDepth + 2, nest := s1.nest + 1, peak := max s1.peak (s1.nest + 1) }
    (get w (n + 1) x s1).2.conf = p.2.conf ∧ (get w (n + 1) x s1).2.files = p.2.files ∧
      ((get w (n + 1) x s1).1 = .ok () ↔ ∃ m, p.1 = .ok () ∨ p.1 = .err m) := by
  have hd := (C44_depth w n hist s).2
  have h8' : (session w n hist s).2.runDepth ≤ 8 := by omega
  generalize (session w n hist s).2 = s1 at *
  exact get_reads w n x ls s1 h8' hx

example : (session exW 6 [getLine "a"] exSt).2.refused ≤ 8 ∧ exSt.runDepth = 0 ∧ exSt.refused = 0 ∧
    (get exW 7 "b" exSt).2.conf.origin = 5 := by
  refine ⟨by decide +kernel, rfl, rfl, by decide +kernel⟩

/-- **C44** is violated: once the depth is 9, no later `)get` of the session reads anything. -/
theorem C44_lost (w : World) (n : Nat) (hist : List Line) (s : St) (h9 : 9 ≤ s.runDepth) (m : Nat) (x : String) :
    let s1 := (session w n hist s).2
    (get w m x s1).2.conf = s1.conf ∧ (get w m x s1).2.files = s1.files ∧ (get w m x s1).2.peak = s1.peak := by
  have hd := (session_rel w n hist s).depth
  generalize (session w n hist s).2 = s1 at *
  exact get_refuses w m x s1 (by omega)

/-- **C44** is violated: wherever there is a file that reads itself, nine commands `)get` of it make every later `)get` of
any file do nothing, whatever is done in between. -/
theorem C44_violated (w : World) (x : String) (n : Nat) (hn : 5 ≤ n) (s : St) (hx : s.files x = some [getLine x])
    (hist : List Line) (m : Nat) (y : String) :
    let s1 := (session w (n + 1) (List.replicate 9 (getLine x)) s).2
    let s2 := (session w (n + 1) hist s1).2
    s1.files = s.files ∧ s1.conf = s.conf ∧ (get w m y s2).2.conf = s2.conf ∧ (get w m y s2).2.files = s2.files ∧
      (get w m y s2).2.peak = s2.peak := by
  obtain ⟨h1, h2, h3, -⟩ := session_self w x n hn 9 s hx
  have h4 := (C44_depth w (n + 1) (List.replicate 9 (getLine x)) s).2
  exact ⟨h1, h2, C44_lost w (n + 1) hist _ (by omega) m y⟩

/-- The file `b` sets the origin to 5; after nine times `)get "a"`, where `a` reads itself, `)get "b"` does nothing. -/
theorem C44_violated_example :
    (session exW 6 [getLine "b"] exSt).2.conf.origin = 5 ∧
    (session exW 6 (List.replicate 9 (getLine "a") ++ [getLine "b"]) exSt).2.conf.origin = 1 := by
  refine ⟨by decide +kernel, ?_⟩
  obtain ⟨h1, h2, h3, h4⟩ := session_self exW "a" 5 (by decide) 9 exSt rfl
  have h5 := (C44_depth exW 6 (List.replicate 9 (getLine "a")) exSt).2
  rw [session_append _ _ _ _ _ h4]
  revert h1 h2 h3 h5
  generalize (session exW 6 (List.replicate 9 (getLine "a")) exSt).2 = s1
  intro h1 h2 h3 h5
  rw [h3] at h5
  have h6 : s1.runDepth = 9 := h5
  obtain ⟨g1, g2⟩ := special_get exW (get exW 6) "b" s1
  have r := (get_refuses exW 6 "b" (s1.setBase 0 0) (by show 9 ≤ s1.runDepth; omega)).1
  have e : (special exW (get exW 6) [.id "get", .str (some "b")] s1).2.conf.origin = 1 := by
    rw [g1, setBase_conf, r]
    show s1.conf.origin = 1
    rw [h2]
    rfl
  have k : runLine exW (get exW 6) (getLine "b") s1 =
    special exW (get exW 6) [.id "get", .str (some "b")] s1 := rfl
  unfold session step
  rw [k]
  revert e
  generalize special exW (get exW 6) [.id "get", .str (some "b")] s1 = p
  intro e
  rcases p with ⟨r, t⟩
  cases r <;> exact e

end Verif.Sess
