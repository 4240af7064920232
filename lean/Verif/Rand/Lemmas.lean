import Verif.Rand.Spec
import Verif.Par.Lemmas
import Mathlib.Tactic.Linarith
import Mathlib.Tactic.FieldSimp
import Mathlib.Tactic.Positivity
import Mathlib.Algebra.Order.Field.Power
import Mathlib.Data.Rat.Floor
/-
Helper lemmas for the properties of random numbers.
-/
namespace Verif.Rand
open Verif.Num Verif.Par
variable {σ : Type}

/-! ### One goroutine -/

/-- The elements `w` done one after another. -/
def fin (G : Gen σ) (prec : Nat) (l : List Rat) : List Nat → List (Option Rat) → Bool → σ → List (Option Rat) × Bool × σ
  | [], out, b, s => (out, b, s)
  | i :: w, out, b, s =>
    match rand1 G prec (l.getD i 0) s with
    | (some y, s) => fin G prec l w (out.set i (some y)) b s
    | (none, s) => (out, true, s)

theorem one_step (G : Gen σ) (prec : Nat) (l : List Rat) (k : Nat) (w : List Nat) (out : List (Option Rat)) (b : Bool) (s : σ) :
    ∃ w' out' b' s', (⟨[w], out, b, s⟩ : Run σ).step G prec l k = ⟨[w'], out', b', s'⟩ ∧
      fin G prec l w' out' b' s' = fin G prec l w out b s := by
  unfold Run.step
  cases k with
  | zero =>
    cases w with
    | nil => exact ⟨[], out, b, s, rfl, rfl⟩
    | cons i w =>
      simp only [List.getElem?_cons_zero]
      cases h : rand1 G prec (l.getD i 0) s with
      | mk o s1 =>
        cases o with
        | none => exact ⟨[], out, true, s1, rfl, by simp only [fin, h]⟩
        | some y => exact ⟨w, out.set i (some y), b, s1, rfl, by simp only [fin, h]⟩
  | succ k => exact ⟨w, out, b, s, by simp, rfl⟩

theorem one_steps (G : Gen σ) (prec : Nat) (l : List Rat) (sched : List Nat) : ∀ (w : List Nat) (out : List (Option Rat)) (b : Bool) (s : σ),
    ∃ w' out' b' s', (⟨[w], out, b, s⟩ : Run σ).steps G prec l sched = ⟨[w'], out', b', s'⟩ ∧
      fin G prec l w' out' b' s' = fin G prec l w out b s := by
  induction sched with
  | nil => exact fun w out b s => ⟨w, out, b, s, rfl, rfl⟩
  | cons k sched ih =>
    intro w out b s
    obtain ⟨w1, o1, b1, s1, h1, h2⟩ := one_step G prec l k w out b s
    obtain ⟨w2, o2, b2, s2, h3, h4⟩ := ih w1 o1 b1 s1
    exact ⟨w2, o2, b2, s2, by rw [← h3, ← h1]; rfl, h4.trans h2⟩

theorem one_det {G : Gen σ} {prec : Nat} {l : List Rat} {w : List Nat} {out : List (Option Rat)} {b : Bool} {s : σ} {sched : List Nat}
    (h : ((⟨[w], out, b, s⟩ : Run σ).steps G prec l sched).over) :
    ∃ w', (⟨[w], out, b, s⟩ : Run σ).steps G prec l sched =
      ⟨w', (fin G prec l w out b s).1, (fin G prec l w out b s).2.1, (fin G prec l w out b s).2.2⟩ := by
  obtain ⟨w', o, b', s', h1, h2⟩ := one_steps G prec l sched w out b s
  rw [h1] at h ⊢
  have : w' = [] := h w' (by simp)
  subst this
  refine ⟨[[]], ?_⟩
  rw [← h2]
  rfl

theorem rands_det {G : Gen σ} {procs minWork prec : Nat} {l : List Rat} {s : σ} (hn : parallel true procs minWork 1 l.length = false)
    {out out' : Option (List (Option Rat))} {t t' : σ} (h : Rands G procs minWork prec l s out t)
    (h' : Rands G procs minWork prec l s out' t') : out = out' ∧ t = t' := by
  obtain ⟨sc, h1, h2, h3⟩ := h
  obtain ⟨sc', h1', h2', h3'⟩ := h'
  have hr : randRanges procs minWork l.length = [(0, l.length)] := by unfold randRanges ranges; simp [hn]
  rw [hr] at h1 h2 h3 h1' h2' h3'
  simp only [Run.start, List.map_cons, List.map_nil] at h1 h2 h3 h1' h2' h3'
  obtain ⟨w, hw⟩ := one_det h1
  obtain ⟨w', hw'⟩ := one_det h1'
  rw [hw] at h2 h3
  rw [hw'] at h2' h3'
  exact ⟨h2.symm.trans h2', h3.symm.trans h3'⟩

theorem not_parallel {procs minWork n : Nat} (h : procs = 1 ∨ n < 2 * minWork) : parallel true procs minWork 1 n = false := by
  unfold parallel
  rcases h with h | h
  · simp [h]
  · have : decide (n * 1 < minWork * 2) = true := by simp; omega
    rw [this]
    simp

theorem step_det {G : Gen σ} {procs minWork prec : Nat} {origin : Int} {c : Cmd}
    (hn : ∀ l, c = .rand l → parallel true procs minWork 1 l.length = false) {s t t' : σ} {o o' : Out}
    (h : Step G procs minWork prec origin c s o t) (h' : Step G procs minWork prec origin c s o' t') : o = o' ∧ t = t' := by
  cases h with
  | seed => cases h'; exact ⟨rfl, rfl⟩
  | roll h => cases h' with | roll h' => rw [h] at h'; cases h'; exact ⟨rfl, rfl⟩
  | deal h => cases h' with | deal h' => rw [h] at h'; cases h'; exact ⟨rfl, rfl⟩
  | rand h =>
    cases h' with
    | rand h' =>
      obtain ⟨h1, h2⟩ := rands_det (hn _ rfl) h h'
      exact ⟨by rw [h1], h2⟩

theorem session_det {G : Gen σ} {procs minWork prec : Nat} {origin : Int} {cs : List Cmd}
    (hn : ∀ l, Cmd.rand l ∈ cs → parallel true procs minWork 1 l.length = false) {s t : σ} {os : List Out}
    (h : Session G procs minWork prec origin cs s os t) : ∀ {os' : List Out} {t' : σ}, Session G procs minWork prec origin cs s os' t' → os = os' ∧ t = t' := by
  induction h with
  | nil => intro os' t' h'; cases h'; exact ⟨rfl, rfl⟩
  | cons h1 _ ih =>
    intro os' t' h'
    cases h' with
    | cons h1' h2' =>
      obtain ⟨rfl, rfl⟩ := step_det (fun l hl => hn l (by simp [hl])) h1 h1'
      obtain ⟨rfl, rfl⟩ := ih (fun l hl => hn l (by simp [hl])) h2'
      exact ⟨rfl, rfl⟩

/-! ### Many goroutines -/

/-- How many elements are left. -/
def Run.left (r : Run σ) : Nat := (r.todo.map List.length).sum

theorem sum_set {l : List Nat} {k a b : Nat} (h : l[k]? = some a) (hab : b < a) : (l.set k b).sum < l.sum := by
  induction l generalizing k with
  | nil => simp at h
  | cons x l ih =>
    cases k with
    | zero => simp at h; simp; omega
    | succ k =>
      simp at h
      have := ih h
      simp; omega

theorem step_left (G : Gen σ) (prec : Nat) (l : List Rat) (r : Run σ) (k i : Nat) (rest : List Nat) (h : r.todo[k]? = some (i :: rest)) :
    (r.step G prec l k).left < r.left := by
  unfold Run.step
  rw [h]
  dsimp only
  have hm : (r.todo.map List.length)[k]? = some (rest.length + 1) := by simp [h]
  split
  · unfold Run.left
    simp only [List.map_set]
    exact sum_set hm (by omega)
  · unfold Run.left
    simp only [List.map_set]
    exact sum_set hm (by simp)

theorem can_finish (G : Gen σ) (prec : Nat) (l : List Rat) (n : Nat) : ∀ r : Run σ, r.left ≤ n → ∃ sched, (r.steps G prec l sched).over := by
  induction n with
  | zero =>
    intro r h
    refine ⟨[], fun w hw => ?_⟩
    have : w.length ∈ r.todo.map List.length := List.mem_map.2 ⟨w, hw, rfl⟩
    have := List.le_sum_of_mem this
    unfold Run.left at h
    exact List.length_eq_zero_iff.1 (by omega)
  | succ n ih =>
    intro r h
    by_cases ho : r.over
    · exact ⟨[], ho⟩
    · unfold Run.over at ho
      push Not at ho
      obtain ⟨w, hw, hne⟩ := ho
      obtain ⟨k, hk⟩ := List.getElem?_of_mem hw
      cases w with
      | nil => exact absurd rfl hne
      | cons i rest =>
        have := step_left G prec l r k i rest hk
        obtain ⟨sc, hs⟩ := ih (r.step G prec l k) (by omega)
        exact ⟨k :: sc, hs⟩

theorem rands_exist (G : Gen σ) (procs minWork prec : Nat) (l : List Rat) (s : σ) : ∃ out t, Rands G procs minWork prec l s out t := by
  obtain ⟨sc, h⟩ := can_finish G prec l _ (Run.start (randRanges procs minWork l.length) l.length s) (Nat.le_refl _)
  exact ⟨_, _, sc, h, rfl, rfl⟩

/-- What holds while the goroutines run: results there are, or elements to do, or an error. -/
structure Good (prec : Nat) (l : List Rat) (r : Run σ) : Prop where
  len : r.out.length = l.length
  bound : ∀ w ∈ r.todo, ∀ i ∈ w, i < l.length
  bad : r.bad = true → ∃ f ∈ l, f < 0
  done : r.bad = false → ∀ i, i < l.length → (∃ w ∈ r.todo, i ∈ w) ∨
    (0 ≤ l.getD i 0 ∧ ∃ m, m < 2 ^ prec + 1 ∧ r.out[i]? = some (some (scale prec m (l.getD i 0))))
  keep : ∀ i, r.out[i]? = some none ∨ r.out[i]? = none ∨
    ∃ m, m < 2 ^ prec + 1 ∧ r.out[i]? = some (some (scale prec m (l.getD i 0)))

theorem good_step {G : Gen σ} (hG : G.Ok) {prec : Nat} {l : List Rat} {r : Run σ} (h : Good prec l r) (k : Nat) : Good prec l (r.step G prec l k) := by
  unfold Run.step
  split
  · rename_i i rest hk
    have hmem := List.mem_of_getElem? hk
    have hi : i < l.length := h.bound _ hmem i (by simp)
    have hsub : ∀ w ∈ r.todo.set k rest, ∀ j ∈ w, j < l.length := by
      intro w hw j hj
      rcases List.mem_or_eq_of_mem_set hw with hw | rfl
      · exact h.bound w hw j hj
      · exact h.bound _ hmem j (by simp [hj])
    split
    · rename_i y s hy
      unfold rand1 at hy
      split at hy
      · cases hy
      · rename_i hneg
        simp only [Prod.mk.injEq, Option.some.injEq] at hy
        obtain ⟨rfl, rfl⟩ := hy
        have hm := hG.bigInt (2 ^ prec + 1) r.gen (Nat.succ_pos _)
        refine ⟨by simp [h.len], hsub, h.bad, fun hb j hj => ?_, fun j => ?_⟩
        · by_cases hij : i = j
          · subst hij
            right
            exact ⟨not_lt.1 hneg, _, hm, by rw [List.getElem?_set_self (by rw [h.len]; exact hi)]⟩
          · rcases h.done hb j hj with ⟨w, hw, hjw⟩ | ⟨h1, m, h2, h3⟩
            · left
              obtain ⟨k', hk'⟩ := List.getElem?_of_mem hw
              by_cases hkk : k = k'
              · subst hkk
                rw [hk] at hk'
                cases hk'
                refine ⟨rest, List.mem_iff_getElem?.2 ⟨k, ?_⟩, ?_⟩
                · rw [List.getElem?_set_self]
                  exact (List.getElem?_eq_some_iff.1 hk).1
                · rcases List.mem_cons.1 hjw with rfl | hj'
                  · exact absurd rfl hij
                  · exact hj'
              · exact ⟨w, List.mem_iff_getElem?.2 ⟨k', by rw [List.getElem?_set_ne hkk]; exact hk'⟩, hjw⟩
            · right
              exact ⟨h1, m, h2, by rw [List.getElem?_set_ne hij]; exact h3⟩
        · by_cases hij : i = j
          · subst hij
            right; right
            exact ⟨_, hm, by rw [List.getElem?_set_self (by rw [h.len]; exact hi)]⟩
          · rw [List.getElem?_set_ne hij]
            exact h.keep j
    · rename_i s hy
      unfold rand1 at hy
      split at hy
      · rename_i hneg
        refine ⟨h.len, fun w hw j hj => ?_, fun _ => ⟨l.getD i 0, ?_, hneg⟩, fun hb => by simp at hb, h.keep⟩
        · rcases List.mem_or_eq_of_mem_set hw with hw | rfl
          · exact h.bound w hw j hj
          · simp at hj
        · rw [List.getD_eq_getElem _ _ hi]
          exact List.getElem_mem hi
      · simp at hy
  · exact h

theorem good_steps {G : Gen σ} (hG : G.Ok) {prec : Nat} {l : List Rat} (sched : List Nat) : ∀ {r : Run σ}, Good prec l r → Good prec l (r.steps G prec l sched) := by
  induction sched with
  | nil => exact fun h => h
  | cons k sched ih => exact fun h => ih (good_step hG h k)

theorem good_start (procs minWork prec : Nat) (hp : 0 < procs) (hw : 0 < minWork) (l : List Rat) (s : σ) :
    Good prec l (Run.start (randRanges procs minWork l.length) l.length s) := by
  have hflat := ranges_flat (safe := true) (procs := procs) (minWork := minWork) (size := 1) (n := l.length) hp hw
  have hiff : ∀ i, (∃ w ∈ (randRanges procs minWork l.length).map fun r => List.range' r.1 (r.2 - r.1), i ∈ w) ↔ i < l.length := by
    intro i
    have : i ∈ (ranges true procs minWork 1 l.length).flatMap (fun r => List.range' r.1 (r.2 - r.1)) ↔ i < l.length := by
      rw [hflat]; exact List.mem_range
    rw [← this, List.mem_flatMap]
    simp only [List.mem_map, randRanges]
    constructor
    · rintro ⟨w, ⟨r, hr, rfl⟩, hi⟩; exact ⟨r, hr, hi⟩
    · rintro ⟨r, hr, hi⟩; exact ⟨_, ⟨r, hr, rfl⟩, hi⟩
  refine ⟨by simp [Run.start], fun w hw i hi => (hiff i).1 ⟨w, hw, hi⟩, fun h => by simp [Run.start] at h,
    fun _ i hi => Or.inl ((hiff i).2 hi), fun i => ?_⟩
  simp only [Run.start, List.getElem?_replicate]
  split <;> simp

theorem rands_good {G : Gen σ} (hG : G.Ok) {procs minWork prec : Nat} (hp : 0 < procs) (hw : 0 < minWork) {l : List Rat} {s t : σ}
    {out : Option (List (Option Rat))} (h : Rands G procs minWork prec l s out t) :
    (out = none ∧ ∃ f ∈ l, f < 0) ∨ ∃ ys, out = some ys ∧ ys.length = l.length ∧ ∀ i, i < l.length → 0 ≤ l.getD i 0 ∧
      ∃ m, m < 2 ^ prec + 1 ∧ ys[i]? = some (some (scale prec m (l.getD i 0))) := by
  obtain ⟨sc, h1, h2, h3⟩ := h
  have hg := good_steps hG sc (good_start procs minWork prec hp hw l s)
  generalize (Run.start (randRanges procs minWork l.length) l.length s).steps G prec l sc = r at h1 h2 h3 hg
  unfold Run.result at h2
  split at h2
  · rename_i hb
    exact Or.inl ⟨h2.symm, hg.bad hb⟩
  · rename_i hb
    refine Or.inr ⟨r.out, h2.symm, hg.len, fun i hi => ?_⟩
    rcases hg.done (by simpa using hb) i hi with ⟨w, hw, hiw⟩ | h
    · rw [h1 w hw] at hiw; simp at hiw
    · exact h

/-! ### Rounding -/

theorem nearest_le {q : Rat} {z : Int} (h : q ≤ z) : nearest q ≤ z := by
  unfold nearest
  have h1 : (q.floor : Rat) ≤ q := Rat.le_floor_iff.1 (le_refl _)
  have h2 : q < q.floor + 1 := by have := Rat.lt_floor_add_one q; push_cast at this; exact this
  have h3 : (q.floor : Rat) ≤ z := le_trans h1 h
  have h3' : q.floor ≤ z := by exact_mod_cast h3
  have key : 1 / 2 ≤ q - q.floor → q.floor + 1 ≤ z := by
    intro hh
    have : (q.floor : Rat) < z := by linarith
    have : q.floor < z := by exact_mod_cast this
    omega
  dsimp only
  split
  · exact h3'
  · rename_i h4
    split
    · exact key (by linarith)
    · split
      · exact h3'
      · exact key (by linarith)

theorem le_nearest {q : Rat} {z : Int} (h : z ≤ q) : z ≤ nearest q := by
  have : z ≤ q.floor := Rat.le_floor_iff.2 h
  unfold nearest
  dsimp only
  split
  · exact this
  · split
    · omega
    · split <;> omega

theorem pow2_pos (e : Int) : (0 : Rat) < (2 : Rat) ^ e := zpow_pos (by norm_num) e

theorem lastBit_spec (p : Nat) {q : Rat} (h : 0 < q) :
    (2 : Rat) ^ (lastBit p q + p - 1) ≤ q ∧ q < (2 : Rat) ^ (lastBit p q + p) := by
  have hn : 0 < q.num := Rat.num_pos.2 h
  obtain ⟨n, hn'⟩ : ∃ n : Nat, q.num = n := ⟨q.num.toNat, by omega⟩
  obtain ⟨d, hdd⟩ : ∃ d : Nat, q.den = d := ⟨_, rfl⟩
  have hd : 0 < d := hdd ▸ q.den_pos
  have hq : q = (n : Rat) / d := by
    conv_lhs => rw [← Rat.num_div_den q]
    rw [hn', hdd]; push_cast; rfl
  have hnpos : 0 < n := by omega
  have n1 : 2 ^ n.log2 ≤ n := Nat.log2_self_le (by omega)
  have n2 : n < 2 ^ (n.log2 + 1) := Nat.lt_log2_self
  have d1 : 2 ^ d.log2 ≤ d := Nat.log2_self_le (by omega)
  have d2 : d < 2 ^ (d.log2 + 1) := Nat.lt_log2_self
  have N1 : (2 : Rat) ^ (n.log2 : Int) ≤ n := by rw [zpow_natCast]; exact_mod_cast n1
  have N2 : (n : Rat) < (2 : Rat) ^ ((n.log2 : Int) + 1) := by
    have : (n : Rat) < (2 : Rat) ^ (n.log2 + 1) := by exact_mod_cast n2
    calc _ < _ := this
      _ = _ := by rw [← zpow_natCast]; push_cast; rfl
  have D1 : (2 : Rat) ^ (d.log2 : Int) ≤ d := by rw [zpow_natCast]; exact_mod_cast d1
  have D2 : (d : Rat) < (2 : Rat) ^ ((d.log2 : Int) + 1) := by
    have : (d : Rat) < (2 : Rat) ^ (d.log2 + 1) := by exact_mod_cast d2
    calc _ < _ := this
      _ = _ := by rw [← zpow_natCast]; push_cast; rfl
  have hdq : (0 : Rat) < d := by exact_mod_cast hd
  have e2 : (2 : Rat) ≠ 0 := by norm_num
  -- the bounds that the logarithms give
  have lo : (2 : Rat) ^ ((n.log2 : Int) - d.log2 - 1) < q := by
    rw [hq, lt_div_iff₀ hdq]
    calc (2 : Rat) ^ ((n.log2 : Int) - d.log2 - 1) * d
        < (2 : Rat) ^ ((n.log2 : Int) - d.log2 - 1) * (2 : Rat) ^ ((d.log2 : Int) + 1) := by
          exact mul_lt_mul_of_pos_left D2 (pow2_pos _)
      _ = (2 : Rat) ^ (n.log2 : Int) := by rw [← zpow_add₀ e2]; congr 1; ring
      _ ≤ n := N1
  have hi : q < (2 : Rat) ^ ((n.log2 : Int) - d.log2 + 1) := by
    rw [hq, div_lt_iff₀ hdq]
    calc (n : Rat) < (2 : Rat) ^ ((n.log2 : Int) + 1) := N2
      _ = (2 : Rat) ^ ((n.log2 : Int) - d.log2 + 1) * (2 : Rat) ^ (d.log2 : Int) := by rw [← zpow_add₀ e2]; congr 1; ring
      _ ≤ (2 : Rat) ^ ((n.log2 : Int) - d.log2 + 1) * d := mul_le_mul_of_nonneg_left D1 (le_of_lt (pow2_pos _))
  have hcmp : (if 0 ≤ (n.log2 : Int) - d.log2 then n < d * 2 ^ ((n.log2 : Int) - d.log2).toNat
      else n * 2 ^ (-((n.log2 : Int) - d.log2)).toNat < d) ↔ q < (2 : Rat) ^ ((n.log2 : Int) - d.log2) := by
    generalize (n.log2 : Int) - d.log2 = k
    split
    · rename_i hk
      obtain ⟨j, rfl⟩ := Int.eq_ofNat_of_zero_le hk
      rw [hq, div_lt_iff₀ hdq, Int.toNat_natCast, zpow_natCast, mul_comm]
      constructor
      · intro hh; exact_mod_cast hh
      · intro hh; exact_mod_cast hh
    · rename_i hk
      obtain ⟨j, hj⟩ := Int.eq_ofNat_of_zero_le (show 0 ≤ -k by omega)
      have hkj : k = -(j : Int) := by omega
      subst hkj
      rw [hq, div_lt_iff₀ hdq, neg_neg, Int.toNat_natCast, zpow_neg, zpow_natCast, inv_mul_eq_div, lt_div_iff₀ (by positivity)]
      constructor
      · intro hh; exact_mod_cast hh
      · intro hh; exact_mod_cast hh
  have htn : q.num.toNat = n := by omega
  unfold lastBit
  dsimp only
  rw [htn, hdd]
  by_cases hc : q < (2 : Rat) ^ ((n.log2 : Int) - d.log2)
  · rw [if_pos (hcmp.2 hc)]
    constructor
    · rw [show (n.log2 : Int) - d.log2 - p + p - 1 = (n.log2 : Int) - d.log2 - 1 by ring]
      exact le_of_lt lo
    · rw [show (n.log2 : Int) - d.log2 - p + p = (n.log2 : Int) - d.log2 by ring]
      exact hc
  · rw [if_neg (fun h => hc (hcmp.1 h))]
    constructor
    · rw [show (n.log2 : Int) - d.log2 + 1 - p + p - 1 = (n.log2 : Int) - d.log2 by ring]
      exact not_lt.1 hc
    · rw [show (n.log2 : Int) - d.log2 + 1 - p + p = (n.log2 : Int) - d.log2 + 1 by ring]
      exact hi

theorem bits_multiple {m : Nat} {e e' : Int} (he : e ≤ e') : ∃ z : Int, (m : Rat) * (2 : Rat) ^ e' = z * (2 : Rat) ^ e := by
  obtain ⟨j, hj⟩ := Int.eq_ofNat_of_zero_le (show 0 ≤ e' - e by omega)
  refine ⟨m * 2 ^ j, ?_⟩
  rw [show e' = j + e by omega, zpow_add₀ (by norm_num), zpow_natCast]
  push_cast
  ring

/-- Rounding does not pass a number of `p` bits. -/
theorem rnd_le {p : Nat} {q r : Rat} (hr : Bits p r) (h : q ≤ r) (hr0 : 0 ≤ r) : rnd p q ≤ r := by
  unfold rnd
  split
  · exact hr0
  · rename_i hq
    have hq : 0 < q := not_le.1 hq
    obtain ⟨s1, s2⟩ := lastBit_spec p hq
    generalize lastBit p q = e at s1 s2
    dsimp only
    obtain ⟨m, e', hm, rfl⟩ := hr
    have hp2 := pow2_pos e
    by_cases he : e ≤ e'
    · obtain ⟨z, hz⟩ := bits_multiple (m := m) he
      rw [hz] at h ⊢
      have : q / (2 : Rat) ^ e ≤ z := by rw [div_le_iff₀ hp2]; exact h
      have := nearest_le this
      have : (nearest (q / (2 : Rat) ^ e) : Rat) ≤ z := by exact_mod_cast this
      exact mul_le_mul_of_nonneg_right this (le_of_lt hp2)
    · exfalso
      have h1 : (m : Rat) * (2 : Rat) ^ e' < (2 : Rat) ^ (p : Int) * (2 : Rat) ^ e' := by
        apply mul_lt_mul_of_pos_right _ (pow2_pos e')
        rw [zpow_natCast]; exact_mod_cast hm
      rw [← zpow_add₀ (by norm_num)] at h1
      have h2 : (2 : Rat) ^ ((p : Int) + e') ≤ (2 : Rat) ^ (e + p - 1) := zpow_le_zpow_right₀ (by norm_num) (by omega)
      linarith

theorem le_rnd {p : Nat} (hp : 0 < p) {q r : Rat} (hr : Bits p r) (h : r ≤ q) : r ≤ rnd p q := by
  unfold rnd
  split
  · linarith
  · rename_i hq
    have hq : 0 < q := not_le.1 hq
    obtain ⟨s1, s2⟩ := lastBit_spec p hq
    generalize lastBit p q = e at s1 s2
    dsimp only
    obtain ⟨m, e', hm, rfl⟩ := hr
    have hp2 := pow2_pos e
    by_cases he : e ≤ e'
    · obtain ⟨z, hz⟩ := bits_multiple (m := m) he
      rw [hz] at h ⊢
      have : (z : Rat) ≤ q / (2 : Rat) ^ e := by rw [le_div_iff₀ hp2]; exact h
      have := le_nearest this
      have : (z : Rat) ≤ nearest (q / (2 : Rat) ^ e) := by exact_mod_cast this
      exact mul_le_mul_of_nonneg_right this (le_of_lt hp2)
    · have h1 : (m : Rat) * (2 : Rat) ^ e' < (2 : Rat) ^ (p : Int) * (2 : Rat) ^ e' := by
        apply mul_lt_mul_of_pos_right _ (pow2_pos e')
        rw [zpow_natCast]; exact_mod_cast hm
      rw [← zpow_add₀ (by norm_num)] at h1
      have h2 : (2 : Rat) ^ ((p : Int) + e') ≤ (2 : Rat) ^ (e + p - 1) := zpow_le_zpow_right₀ (by norm_num) (by omega)
      have h3 : (((2 ^ (p - 1) : Nat) : Int) : Rat) ≤ q / (2 : Rat) ^ e := by
        rw [le_div_iff₀ hp2]
        push_cast
        rw [← zpow_natCast, ← zpow_add₀ (by norm_num)]
        rwa [show ((p - 1 : Nat) : Int) + e = e + p - 1 by omega]
      have h4 := le_nearest h3
      have h5 : (((2 ^ (p - 1) : Nat) : Int) : Rat) ≤ nearest (q / (2 : Rat) ^ e) := by exact_mod_cast h4
      have h6 := mul_le_mul_of_nonneg_right h5 (le_of_lt hp2)
      have h7 : (((2 ^ (p - 1) : Nat) : Int) : Rat) * (2 : Rat) ^ e = (2 : Rat) ^ (e + p - 1) := by
        push_cast
        rw [← zpow_natCast, ← zpow_add₀ (by norm_num)]
        rw [show ((p - 1 : Nat) : Int) + e = e + p - 1 by omega]
      linarith

theorem bits_pow {p : Nat} (hp : 0 < p) (e : Int) : Bits p ((2 : Rat) ^ e) :=
  ⟨1, e, Nat.one_lt_two_pow (by omega), by simp⟩

theorem rnd_nonneg (p : Nat) (q : Rat) : 0 ≤ rnd p q := by
  unfold rnd
  split
  · exact le_refl _
  · rename_i hq
    have hq : 0 < q := not_le.1 hq
    have h0 : ((0 : Int) : Rat) ≤ q / (2 : Rat) ^ lastBit p q := by
      rw [Int.cast_zero]; exact le_of_lt (div_pos hq (pow2_pos _))
    have := le_nearest h0
    have : (0 : Rat) ≤ nearest (q / (2 : Rat) ^ lastBit p q) := by exact_mod_cast this
    exact mul_nonneg this (le_of_lt (pow2_pos _))

theorem scale_range {prec m : Nat} (hm : m < 2 ^ prec + 1) {f : Rat} (hf : 0 ≤ f) :
    0 ≤ scale prec m f ∧ (Bits 53 f → scale prec m f ≤ f) := by
  refine ⟨rnd_nonneg _ _, fun hb => rnd_le hb ?_ hf⟩
  have h1 : rnd 53 (m : Rat) ≤ (2 : Rat) ^ (prec : Int) := by
    refine rnd_le (bits_pow (by omega) _) ?_ (le_of_lt (pow2_pos _))
    rw [zpow_natCast]
    exact_mod_cast Nat.lt_succ_iff.1 hm
  have h2 : (2 : Rat) ^ (prec : Int) ≤ rnd 53 ((2 ^ prec + 1 : Nat) : Rat) := by
    refine le_rnd (by omega) (bits_pow (by omega) _) ?_
    rw [zpow_natCast]
    exact_mod_cast Nat.le_succ _
  have h3 : rnd 53 (m : Rat) / rnd 53 ((2 ^ prec + 1 : Nat) : Rat) ≤ 1 := by
    rw [div_le_one (lt_of_lt_of_le (pow2_pos _) h2)]
    exact le_trans h1 h2
  have h4 : rnd 53 (rnd 53 (m : Rat) / rnd 53 ((2 ^ prec + 1 : Nat) : Rat)) ≤ 1 := by
    refine rnd_le ?_ h3 (by norm_num)
    have := bits_pow (p := 53) (by omega) 0
    simpa using this
  calc _ ≤ 1 * f := mul_le_mul_of_nonneg_right h4 hf
    _ = f := one_mul f

theorem rnd_bits {p : Nat} (hp : p ≠ 0) (q : Rat) : Bits p (rnd p q) := by
  unfold rnd
  split
  · exact ⟨0, 0, Nat.two_pow_pos p, by simp⟩
  · rename_i hq
    have hq : 0 < q := not_le.1 hq
    obtain ⟨s1, s2⟩ := lastBit_spec p hq
    generalize lastBit p q = e at s1 s2
    dsimp only
    have hp2 := pow2_pos e
    have h0 : ((0 : Int) : Rat) ≤ q / (2 : Rat) ^ e := by
      rw [Int.cast_zero]; exact le_of_lt (div_pos hq hp2)
    have h1 : q / (2 : Rat) ^ e ≤ ((2 ^ p : Nat) : Int) := by
      rw [div_le_iff₀ hp2]
      push_cast
      rw [← zpow_natCast, ← zpow_add₀ (by norm_num), add_comm]
      exact le_of_lt s2
    have h0 := le_nearest h0
    have h1 := nearest_le h1
    obtain ⟨m, hm⟩ := Int.eq_ofNat_of_zero_le h0
    rw [hm] at h1 ⊢
    by_cases hlt : m < 2 ^ p
    · exact ⟨m, e, hlt, by push_cast; rfl⟩
    · have : m = 2 ^ p := by omega
      subst this
      refine ⟨1, e + p, Nat.one_lt_two_pow hp, ?_⟩
      rw [zpow_add₀ (by norm_num), zpow_natCast]
      push_cast
      ring

/-! ### Rolls -/

/-- What can be rolled. -/
def Rollable (x : Num) : Prop := ∃ n : Int, (x = .int n ∨ x = .bigInt n) ∧ 0 < n

theorem roll1_some {G : Gen σ} {origin : Int} {x : Num} {s : σ} : (roll1 G origin x s).1.isSome = true ↔ Rollable x := by
  unfold roll1 Rollable
  cases x with
  | int i =>
    dsimp only
    split <;> rename_i h
    · simp; omega
    · simp; omega
  | bigInt i =>
    dsimp only
    split <;> rename_i h
    · simp; omega
    · simp; omega
  | char c => simp
  | bigRat r => simp

theorem roll1_range {G : Gen σ} (hG : G.Ok) {origin : Int} {x y : Num} {s : σ} (h : (roll1 G origin x s).1 = some y)
    (hs : origin = 0 ∨ ∀ n, x ≠ .bigInt n) : ∃ n : Int, (x = .int n ∨ x = .bigInt n) ∧ 0 < n ∧ Num.Rolled origin n y := by
  unfold roll1 at h
  cases x with
  | int i =>
    dsimp only at h
    split at h
    · simp at h
    · rename_i hi
      simp only [Option.some.injEq] at h
      subst h
      have := hG.int64N i.toNat s (by omega)
      exact ⟨i, Or.inl rfl, by omega, _, Or.inl rfl, by omega, by omega⟩
  | bigInt i =>
    dsimp only at h
    split at h
    · simp at h
    · rename_i hi
      simp only [Option.some.injEq] at h
      subst h
      have := hG.bigInt i.toNat s (by omega)
      rcases hs with rfl | hs
      · refine ⟨i, Or.inr rfl, by omega, ((G.bigInt i.toNat s).1 : Int), ?_, by omega, by omega⟩
        unfold shrinkBig
        split
        · exact Or.inl rfl
        · exact Or.inr rfl
      · exact absurd rfl (hs i)
  | char c => simp at h
  | bigRat r => simp at h

mutual
theorem roll_some {G : Gen σ} {origin : Int} : ∀ (x : T) (s : σ), (roll G origin x s).1.isSome = true ↔ x.All Rollable
  | .num x, s => by
    simp only [roll, T.All]
    rw [← roll1_some (G := G) (origin := origin) (s := s)]
    cases h : roll1 G origin x s with
    | mk o s' => cases o <;> simp
  | .arr l, s => by
    simp only [roll, T.All]
    rw [← rolls_some (G := G) (origin := origin) l s]
    cases h : rolls G origin l s with
    | mk o s' => cases o <;> simp
theorem rolls_some {G : Gen σ} {origin : Int} : ∀ (l : List T) (s : σ), (rolls G origin l s).1.isSome = true ↔ T.AllIn Rollable l
  | [], s => by simp [rolls, T.AllIn]
  | x :: l, s => by
    simp only [rolls, T.AllIn]
    have hx := roll_some (G := G) (origin := origin) x s
    cases h : roll G origin x s with
    | mk o s' =>
      rw [h] at hx
      cases o with
      | none => simp only [Option.isSome_none, Bool.false_eq_true, false_iff] at hx ⊢; tauto
      | some y =>
        have hl := rolls_some (G := G) (origin := origin) l s'
        cases h' : rolls G origin l s' with
        | mk o' s'' =>
          rw [h'] at hl
          dsimp only
          rw [h']
          cases o' with
          | none => simp only [Option.isSome_none, Bool.false_eq_true, false_iff, Option.isSome_some, true_iff] at hl hx ⊢; tauto
          | some ys => simp only [Option.isSome_some, true_iff] at hl hx ⊢; tauto
end

/-- Not a big integer, unless the origin is 0. -/
def Shown (origin : Int) (x : Num) : Prop := origin = 0 ∨ ∀ n, x ≠ .bigInt n

mutual
theorem roll_range {G : Gen σ} (hG : G.Ok) {origin : Int} : ∀ (x : T) (y : T) (s : σ), x.All (Shown origin) → (roll G origin x s).1 = some y → T.Rolled origin x y
  | .num x, y, s => by
    simp only [roll, T.All]
    intro hs h
    cases h1 : roll1 G origin x s with
    | mk o s' =>
      rw [h1] at h
      cases o with
      | none => simp at h
      | some z =>
        simp only [Option.some.injEq] at h
        subst h
        exact roll1_range hG (by rw [h1]) hs
  | .arr l, y, s => by
    simp only [roll, T.All]
    intro hs h
    cases h1 : rolls G origin l s with
    | mk o s' =>
      rw [h1] at h
      cases o with
      | none => simp at h
      | some z =>
        simp only [Option.some.injEq] at h
        subst h
        exact rolls_range hG l z s hs (by rw [h1])
theorem rolls_range {G : Gen σ} (hG : G.Ok) {origin : Int} : ∀ (l : List T) (m : List T) (s : σ), T.AllIn (Shown origin) l → (rolls G origin l s).1 = some m → T.RolledAll origin l m
  | [], m, s => by
    intro _ h
    simp only [rolls, Option.some.injEq] at h
    subst h
    simp [T.RolledAll]
  | x :: l, m, s => by
    simp only [rolls, T.AllIn]
    intro hs h
    cases h1 : roll G origin x s with
    | mk o s' =>
      rw [h1] at h
      cases o with
      | none => simp at h
      | some y =>
        dsimp only at h
        cases h2 : rolls G origin l s' with
        | mk o' s'' =>
          rw [h2] at h
          cases o' with
          | none => simp at h
          | some ys =>
            simp only [Option.some.injEq] at h
            subst h
            simp only [T.RolledAll]
            exact ⟨roll_range hG x y s hs.1 (by rw [h1]), rolls_range hG l ys s' hs.2 (by rw [h2])⟩
end

mutual
theorem all_of {P : Num → Prop} (h : ∀ n, P n) : ∀ x : T, x.All P
  | .num x => by simp only [T.All]; exact h x
  | .arr l => by simp only [T.All]; exact allIn_of h l
theorem allIn_of {P : Num → Prop} (h : ∀ n, P n) : ∀ l : List T, T.AllIn P l
  | [] => by simp [T.AllIn]
  | x :: l => by simp only [T.AllIn]; exact ⟨all_of h x, allIn_of h l⟩
end

mutual
theorem all_mono {P Q : Num → Prop} (h : ∀ n, P n → Q n) : ∀ x : T, x.All P → x.All Q
  | .num x => by simp only [T.All]; exact h x
  | .arr l => by simp only [T.All]; exact allIn_mono h l
theorem allIn_mono {P Q : Num → Prop} (h : ∀ n, P n → Q n) : ∀ l : List T, T.AllIn P l → T.AllIn Q l
  | [] => by simp [T.AllIn]
  | x :: l => by simp only [T.AllIn]; exact fun ⟨a, b⟩ => ⟨all_mono h x a, allIn_mono h l b⟩
end

theorem seedWord_inj {a b : Nat} (ha : a < 2 ^ 64) (hb : b < 2 ^ 64) (h : seedWord a = seedWord b) : a = b := by
  have hr : List.range 8 = [0, 1, 2, 3, 4, 5, 6, 7] := rfl
  unfold seedWord at h
  rw [hr] at h
  simp only [List.map_cons, List.map_nil, List.cons.injEq, and_true] at h
  norm_num at h
  omega

end Verif.Rand
