import Verif.Lit.Lemmas
/-
Helper lemmas: reading decimals.
-/
namespace Verif.Lit
open Verif.Num (CNum Cx shrinkBig shrinkRat)

theorem prefix_stop {base : Nat} {c : Char} {i r : List Char} {ds : List Nat} (hi : Digs 10 i ds) (hc : prefixBase c = none) (h0 : c ≠ '0') :
    c ∈ (uintPrefix base (i ++ c :: r)).2 ∧ ∀ f, c ∈ (scanPrefix base f (i ++ c :: r)).2.2.2.2 := by
  have hm : c ∈ i ++ c :: r := by simp
  by_cases hb : base ≠ 0
  · unfold uintPrefix scanPrefix
    rw [if_pos hb]
    refine ⟨hm, fun f => ?_⟩
    rw [if_pos hb]
    exact hm
  · have hb : base = 0 := by omega
    subst hb
    constructor
    · unfold uintPrefix
      rw [if_neg (by simp)]
      generalize i ++ c :: r = s at hm
      split
      · rename_i x y t
        cases hp : prefixBase x with
        | none => simp at hm ⊢; tauto
        | some b =>
          have : c ≠ x := by rintro rfl; rw [hc] at hp; cases hp
          simp at hm ⊢; tauto
      · simp at hm; tauto
      · exact hm
    · intro f
      unfold scanPrefix
      rw [if_neg (by simp)]
      generalize i ++ c :: r = s at hm
      split
      · rename_i x t
        cases hp : prefixBase x with
        | none => cases f <;> (simp at hm ⊢; tauto)
        | some b =>
          have : c ≠ x := by rintro rfl; rw [hc] at hp; cases hp
          simp at hm ⊢; tauto
      · simp at hm; tauto
      · exact hm

theorem prefix_base {base : Nat} {c : Char} {i r : List Char} {ds : List Nat} (hi : Digs 10 i ds) (hc : prefixBase c = none) (h0 : c ≠ '0') :
    (uintPrefix base (i ++ c :: r)).1 ≤ max base 10 ∧ ∀ f, (scanPrefix base f (i ++ c :: r)).1 ≤ max base 10 := by
  by_cases hb : base ≠ 0
  · unfold uintPrefix scanPrefix
    rw [if_pos hb]
    refine ⟨by simp, fun f => ?_⟩
    rw [if_pos hb]
    simp
  · have hb : base = 0 := by omega
    subst hb
    have key : ∀ x t, i ++ c :: r = '0' :: x :: t → prefixBase x = none := by
      intro x t e
      cases hi with
      | nil => simp at e; tauto
      | cons h hs =>
        cases hs with
        | nil => simp at e; rw [← e.2.1]; exact hc
        | cons h' _ => simp at e; rw [← e.2.1]; exact h'.1.noPrefix h'.2
    constructor
    · unfold uintPrefix
      rw [if_neg (by simp)]
      generalize i ++ c :: r = s at key
      split
      · rename_i x y t
        rw [key x (y :: t) rfl]; simp
      · simp
      · simp
    · intro f
      unfold scanPrefix
      rw [if_neg (by simp)]
      generalize i ++ c :: r = s at key
      split
      · rename_i x t
        rw [key x t rfl]
        cases f <;> simp
      · simp
      · simp

/-- A text with a point, or with an exponent if the base is not too large, is not an integer. -/
theorem not_int {base : Nat} {c : Char} {sg i r : List Char} {neg : Bool} {ds : List Nat} (hsg : Sign sg neg) (hi : Digs 10 i ds) (hc : prefixBase c = none)
    (hu : c ≠ '_' ∧ c ≠ '+' ∧ c ≠ '-' ∧ c ≠ '0') (hd : ∀ d, digitVal c = some d → max base 10 ≤ d) :
    parseInt32 base (sg ++ (i ++ c :: r)) = none ∧ setString base (sg ++ (i ++ c :: r)) = none := by
  have hh : (i ++ c :: r).head? ≠ some '+' ∧ (i ++ c :: r).head? ≠ some '-' := by
    have := head_of_digs hi
    cases i with
    | nil => simp; tauto
    | cons x i => simpa using this
  have hun := unsign_sign hsg hh.1 hh.2
  have hm := prefix_stop (base := base) (r := r) hi hc hu.2.2.2
  have hb := prefix_base (base := base) (r := r) hi hc hu.2.2.2
  constructor
  · unfold parseInt32 parseUint
    rw [hun]
    dsimp only
    rw [if_neg (by simp), uintLoop_stop _ _ hu.1 (fun d h => le_trans hb.1 (hd d h)) _ _ hm.1]
    rfl
  · unfold setString natScan
    rw [hun]
    dsimp only
    have hm' := hm.2 false
    have hb' := hb.2 false
    generalize scanPrefix base false (i ++ c :: r) = q at hm' hb'
    obtain ⟨b, octal, prev, count, t⟩ := q
    dsimp only at hm' hb' ⊢
    have := scanLoop_stop (base == 0) b hu.1 (fun d h => le_trans hb' (hd d h)) t ⟨prev, false, false, 0, count, none⟩ rfl hm'
    generalize scanLoop (base == 0) b ⟨prev, false, false, 0, count, none⟩ t = w at this
    obtain ⟨st, rest⟩ := w
    dsimp only at this ⊢
    cases rest with
    | nil => cases this
    | cons x rest =>
      split
      · rename_i heq
        exfalso
        split at heq
        · cases octal <;> simp at heq
        · split at heq <;> simp at heq
      · rfl

theorem ofDigits_append_rev (b : Nat) (d e : List Nat) : Nat.ofDigits b (d ++ e).reverse = Nat.ofDigits b d.reverse * b ^ e.length + Nat.ofDigits b e.reverse := by
  rw [List.reverse_append, Nat.ofDigits_append, List.length_reverse]
  ring

/-- The digits before the point. -/
theorem scan_int {i : List Char} {ds : List Nat} (hi : Digs 10 i ds) (c : Char) (r : List Char) (hc : prefixBase c = none) (h0 : c ≠ '0') :
    ∃ prev, (i ≠ [] → prev = Saw.digit) ∧ (i = [] → prev = Saw.other) ∧
      ∃ p0 c0 t, scanPrefix 0 true (i ++ c :: r) = (10, false, p0, c0, t) ∧
        scanLoop true 10 ⟨p0, false, true, 0, c0, none⟩ t = scanLoop true 10 ⟨prev, false, true, Nat.ofDigits 10 ds.reverse, ds.length, none⟩ (c :: r) := by
  cases hi with
  | nil =>
    refine ⟨.other, by simp, by simp, .other, 0, c :: r, ?_, by simp [Nat.ofDigits]⟩
    exact scanPrefix_zero _ (by simpa using h0)
  | @cons x d i ds hx hi =>
    refine ⟨.digit, by simp, by simp, ?_⟩
    by_cases hz : x = '0'
    · subst hz
      have hd0 : d = 0 := by
        have := digitVal_digit hx.1
        rw [show digitVal '0' = some 0 from rfl] at this
        cases this; rfl
      subst hd0
      have hp : scanPrefix 0 true ('0' :: i ++ c :: r) = (10, false, .digit, 1, i ++ c :: r) := by
        unfold scanPrefix
        rw [if_neg (by simp)]
        cases hi with
        | nil => simp [hc]
        | cons h _ => simp [h.1.noPrefix h.2]
      refine ⟨.digit, 1, _, hp, ?_⟩
      rw [ofDigits_cons_rev]
      cases hi with
      | nil => simp [Nat.ofDigits]
      | @cons y e i ds hy hi =>
        have hi' : Digs 10 (y :: i) (e :: ds) := .cons hy hi
        have hu := Digs.noUnder hi'
        rw [scanLoop_digits true 10 (c :: r) (y :: i) (e :: ds) ⟨.digit, false, true, 0, 1, none⟩ (by simp) (by rw [filter_plain hu]; exact hi') (Or.inl rfl)
          (spaced_plain hu) (fun _ => rfl)]
        simp [Nat.add_comm]
    · have hi' : Digs 10 (x :: i) (d :: ds) := .cons hx hi
      have hu := Digs.noUnder hi'
      refine ⟨.other, 0, _, scanPrefix_zero _ (by simpa using hz), ?_⟩
      rw [scanLoop_digits true 10 (c :: r) (x :: i) (d :: ds) ⟨.other, false, true, 0, 0, none⟩ (by simp) (by rw [filter_plain hu]; exact hi') (Or.inl rfl)
          (spaced_plain hu) (fun h => absurd (List.mem_of_mem_head? h) hu)]
      simp

/-- What ends the digits after the point. -/
def Ender (ex : List Char) : Prop := ex = [] ∨ ∃ c r, ex = c :: r ∧ (c = 'e' ∨ c = 'E')

theorem scanLoop_end {ex : List Char} (h : Ender ex) (st : St) : scanLoop true 10 st ex = (st, ex) := by
  rcases h with rfl | ⟨c, r, rfl, rfl | rfl⟩
  · rfl
  · simp only [scanLoop]
    rw [if_neg (by rintro ⟨h, _⟩; exact absurd h (by decide)), if_neg (by rintro ⟨h, _⟩; exact absurd h (by decide))]
    rfl
  · simp only [scanLoop]
    rw [if_neg (by rintro ⟨h, _⟩; exact absurd h (by decide)), if_neg (by rintro ⟨h, _⟩; exact absurd h (by decide))]
    rfl

theorem natScan_point {i f ex : List Char} {ds es : List Nat} (hi : Digs 10 i ds) (hf : Digs 10 f es) (hex : Ender ex) (hne : i ++ f ≠ []) :
    natScan 0 true (i ++ '.' :: (f ++ ex)) = some (Nat.ofDigits 10 (ds ++ es).reverse, 10, -(f.length : Int), ex) := by
  obtain ⟨prev, hp1, hp2, p0, c0, t, hpre, hloop⟩ := scan_int hi '.' (f ++ ex) (by decide) (by decide)
  unfold natScan
  rw [hpre]
  dsimp only
  have e : ((0 : Nat) == 0) = true := rfl
  rw [e, hloop]
  have hpu : prev ≠ .under := by
    cases i with
    | nil => rw [hp2 rfl]; simp
    | cons x i => rw [hp1 (by simp)]; simp
  have step : scanLoop true 10 ⟨prev, false, true, Nat.ofDigits 10 ds.reverse, ds.length, none⟩ ('.' :: (f ++ ex)) =
      scanLoop true 10 ⟨.other, false, false, Nat.ofDigits 10 ds.reverse, ds.length, some ds.length⟩ (f ++ ex) := by
    rw [scanLoop.eq_2]
    rw [if_pos ⟨rfl, rfl⟩]
    dsimp only
    have : (prev == Saw.under) = false := by simpa using hpu
    rw [this]; rfl
  rw [step, ofDigits_append_rev]
  have hl : ds.length + es.length ≠ 0 := by
    rw [← hi.length_eq, ← hf.length_eq]
    intro h0
    exact hne (by rw [List.append_eq_nil_iff]; constructor <;> (apply List.length_eq_zero_iff.1; omega))
  cases hf with
  | nil =>
    rw [List.nil_append, scanLoop_end hex]
    dsimp only
    rw [if_neg (by simpa using hl), if_neg (by simp)]
    simp [Nat.ofDigits]
  | @cons y e f es hy hf =>
    have hf' : Digs 10 (y :: f) (e :: es) := .cons hy hf
    have hu := Digs.noUnder hf'
    rw [scanLoop_digits true 10 ex (y :: f) (e :: es) ⟨.other, false, false, Nat.ofDigits 10 ds.reverse, ds.length, some ds.length⟩ (by simp)
      (by rw [filter_plain hu]; exact hf') (Or.inl rfl) (spaced_plain hu) (fun h => absurd (List.mem_of_mem_head? h) hu), scanLoop_end hex]
    dsimp only
    rw [if_neg hl, if_neg (by simp)]
    have : f.length = es.length := hf.length_eq
    simp [this]

theorem natScan_exp {i ex : List Char} {ds : List Nat} (hi : Digs 10 i ds) {c : Char} {r : List Char} (hx : ex = c :: r) (hc : c = 'e' ∨ c = 'E') (hne : i ≠ []) :
    natScan 0 true (i ++ ex) = some (Nat.ofDigits 10 ds.reverse, 10, (i.length : Int), ex) := by
  subst hx
  obtain ⟨prev, hp1, hp2, p0, c0, t, hpre, hloop⟩ := scan_int hi c r (by rcases hc with rfl | rfl <;> decide) (by rcases hc with rfl | rfl <;> decide)
  unfold natScan
  rw [hpre]
  dsimp only
  have e : ((0 : Nat) == 0) = true := rfl
  have hl := hi.length_eq
  rw [e, hloop, scanLoop_end (Or.inr ⟨c, r, rfl, hc⟩)]
  dsimp only
  rw [if_neg (by rw [← hl]; simpa using hne), if_neg (by rw [hp1 hne]; simp), hl]

theorem expLoop_digits : ∀ {s : List Char} {ds : List Nat}, Digs 10 s ds → ∀ (prev : Saw) (has : Bool) (n : Nat), s ≠ [] →
    expLoop prev false has n s = (.digit, false, true, n * 10 ^ ds.length + Nat.ofDigits 10 ds.reverse, []) := by
  intro s ds h
  induction h with
  | nil => intro _ _ _ h; exact absurd rfl h
  | @cons c d s ds h hs ih =>
    intro prev has n _
    simp only [expLoop]
    have hr : '0' ≤ c ∧ c ≤ '9' := by
      rcases h.1.range (by omega) with h' | h'
      · exact h'
      · omega
    have hv : c.toNat - '0'.toNat = d := by
      have := digitVal_digit h.1
      unfold digitVal at this
      rw [if_pos hr] at this
      simpa using this
    rw [if_pos hr, hv, ofDigits_cons_rev]
    cases hs with
    | nil => simp [expLoop, Nat.ofDigits]
    | cons h' hs =>
      rw [ih _ _ _ (by simp)]
      simp only [List.length_cons, pow_succ]
      congr 4; ring

theorem scanExponent_of {ex : List Char} {x : Int} (h : Exponent ex x) : scanExponent ex = some (x, 10, []) ∧ Ender ex := by
  rcases h with ⟨rfl, rfl⟩ | ⟨c, sg, ds, neg, n, rfl, hc, hsg, ⟨hne, es, hd, rfl⟩, rfl⟩
  · exact ⟨rfl, Or.inl rfl⟩
  · refine ⟨?_, Or.inr ⟨c, sg ++ ds, rfl, hc⟩⟩
    have hh := head_of_digs hd
    rw [List.cons_append]
    unfold scanExponent
    dsimp only
    rw [if_neg (by rcases hc with rfl | rfl <;> simp), unsign_sign hsg hh.1 hh.2]
    dsimp only
    rw [expLoop_digits hd _ _ _ hne]
    dsimp only
    rw [if_neg (by simp), if_pos hc]
    simp only [Nat.zero_mul, Nat.zero_add]
    rfl

theorem zpow_eq (b : Nat) (e : Int) : zpow b e = (b : Rat) ^ e := by
  unfold zpow
  split
  · rename_i h
    obtain ⟨k, rfl⟩ : ∃ k : Nat, e = -(k : Int) := ⟨e.natAbs, by omega⟩
    simp
  · rename_i h
    obtain ⟨k, rfl⟩ : ∃ k : Nat, e = (k : Int) := ⟨e.natAbs, by omega⟩
    simp

theorem ratSetString_of {sg t : List Char} {neg : Bool} {n : Nat} {k x : Int} {ex : List Char} (hne : t ≠ []) (hun : unsign (sg ++ t) = (neg, t))
    (hs : natScan 0 true t = some (n, 10, k, ex)) (hx : Exponent ex x) (hlim : ((if k < 0 then k else 0) + x).natAbs ≤ 1000000) :
    ratSetString (sg ++ t) = some (withSign neg (n * (10 : Rat) ^ ((if k < 0 then k else 0) + x))) := by
  unfold ratSetString
  rw [if_neg (by simp [hne]), hun]
  dsimp only
  rw [hs]
  dsimp only [Option.bind_some]
  rw [(scanExponent_of hx).1]
  dsimp only [Option.bind_some]
  rw [if_neg (by simp)]
  by_cases h0 : n = 0
  · subst h0
    rw [if_pos rfl]
    unfold withSign
    simp
  · rw [if_neg h0]
    simp only [if_true, true_or]
    rw [if_neg (by omega), zpow_eq, zpow_eq, mul_assoc, ← mul_zpow]
    congr 1
    unfold signed withSign
    split <;> (push_cast; norm_num)

end Verif.Lit
