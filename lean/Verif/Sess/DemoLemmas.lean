import Verif.Sess.Demo
import Verif.Sess.DemoSpec
import Verif.Sess.SysLemmas

/-!
# Lemmas on demonstrations
-/

namespace Verif.Sess.Sys
variable {σ Out : Type}

theorem Short.right {a b : List Char} (h : Short (a ++ b)) : Short b := fun x m y e hm => h (a ++ x) m y (by simp [e]) hm

theorem scan1_lines : ∀ (l acc : List Char), '\n' ∉ acc → Short (acc.reverse ++ l) →
    (scan1 acc l = .eof ∧ scanLines acc l = []) ∨ ∃ line rest, scan1 acc l = .tok line rest ∧ scanLines acc l = line :: scanLines [] rest ∧ Short rest
  | [], acc, _, _ => by
    rw [scan1, scanLines]
    by_cases ha : acc.isEmpty
    · rw [if_pos ha, if_pos ha]
      exact .inl ⟨rfl, rfl⟩
    · rw [if_neg ha, if_neg ha]
      refine .inr ⟨_, _, rfl, rfl, fun a m b e _ => ?_⟩
      have := congrArg List.length e
      simp at this
      omega
  | c :: l, acc, ha, hs => by
    rw [scan1, scanLines]
    by_cases hc : c = '\n'
    · rw [if_pos hc, if_pos hc]
      refine .inr ⟨_, _, rfl, rfl, ?_⟩
      have : Short ((acc.reverse ++ [c]) ++ l) := by simpa using hs
      exact this.right
    · rw [if_neg hc, if_neg hc]
      have hm : '\n' ∉ acc.reverse ++ [c] := by
        simp only [List.mem_append, List.mem_reverse, List.mem_singleton]
        rintro (h | h)
        · exact ha h
        · exact hc h.symm
      have hl := hs [] (acc.reverse ++ [c]) l (by simp) hm
      rw [if_neg (by simp at hl; omega)]
      exact scan1_lines l (c :: acc) (by simp [ha, Ne.symm hc]) (by simpa using hs)

theorem nexts_eof (eval : σ → List Char → σ × Out) : ∀ (n : Nat) (s : σ) {d : Demo}, d.bad = false → scan1 [] d.rest = .eof → d.nexts eval n s = List.replicate n .eof
  | 0, _, _, _, _ => rfl
  | n + 1, s, d, hb, h => by
    have e : d.next eval s = (.eof, s, { d with rest := [] }) := by simp [Demo.next, hb, h]
    rw [Demo.nexts, e, nexts_eof eval n s (d := { d with rest := [] }) hb rfl]
    rfl

theorem nexts_bad (eval : σ → List Char → σ × Out) : ∀ (n : Nat) (s : σ) {d : Demo}, d.bad = true → d.nexts eval n s = List.replicate n .tooLong
  | 0, _, _, _ => rfl
  | n + 1, s, d, hb => by
    have e : d.next eval s = (.tooLong, s, d) := by simp [Demo.next, hb]
    rw [Demo.nexts, e, nexts_bad eval n s hb]
    rfl

theorem nexts_lines (eval : σ → List Char → σ × Out) : ∀ (n : Nat) (s : σ) (rest : List Char), Short rest →
    (newDemo rest).nexts eval n s = ((outputs eval s (scanLines [] rest)).map Shown.out ++ List.replicate n Shown.eof).take n
  | 0, _, _, _ => by simp [Demo.nexts]
  | n + 1, s, rest, hs => by
    rcases scan1_lines rest [] (by simp) (by simpa using hs) with ⟨h1, h2⟩ | ⟨line, r, h1, h2, h3⟩
    · rw [nexts_eof eval (n + 1) s (d := newDemo rest) rfl h1, h2]
      simp [outputs]
    · have e : (newDemo rest).next eval s = (.out (eval s line).2, (eval s line).1, newDemo r) := by simp [Demo.next, newDemo, h1]
      rw [Demo.nexts, e, nexts_lines eval n _ r h3, h2]
      simp only [outputs, List.map_cons, List.cons_append, List.take_succ_cons, List.cons.injEq, true_and]
      simp only [List.take_append, List.take_replicate]
      congr 2
      omega

theorem scan1_long : ∀ (m acc l : List Char), '\n' ∉ m → acc.length < 65536 → 65536 ≤ acc.length + m.length → scan1 acc (m ++ l) = .tooLong
  | [], acc, l, _, h1, h2 => by simp at h2; omega
  | c :: m, acc, l, hm, h1, h2 => by
    have hc : c ≠ '\n' := fun e => hm (by simp [e])
    rw [List.cons_append, scan1, if_neg hc]
    split
    · rfl
    · exact scan1_long m (c :: acc) l (fun h => hm (by simp [h])) (by simp; omega) (by simp at h2 ⊢; omega)

end Verif.Sess.Sys
