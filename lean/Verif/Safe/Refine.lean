import Verif.Safe.Lemmas5

/-!
# Guarded and unguarded interpreters agree, up to the first refusal
-/

namespace Verif.Safe
open Verif.Arr
open Verif.Order (Val)

/-- The guarded outcome `r` is a refusal, or the same as the other. -/
def Ref {α : Type} (r r' : R α) : Prop := r = .err refused ∨ r = r'

section
variable {α β γ σ τ : Type}

theorem ref_refl (r : R α) : Ref r r := Or.inr rfl

theorem ref_bind {r r' : R α} {f f' : α → R β} (h : Ref r r') (hf : ∀ a, Ref (f a) (f' a)) : Ref (r.bind f) (r'.bind f') := by
  rcases h with rfl | rfl
  · exact Or.inl rfl
  · cases r with
    | ok a => exact hf a
    | err m => exact Or.inr rfl
    | crash => exact Or.inr rfl
    | hang => exact Or.inr rfl

theorem ref_then (r : R α) {f f' : α → R β} (hf : ∀ a, Ref (f a) (f' a)) : Ref (r.bind f) (r.bind f') := ref_bind (ref_refl r) hf

theorem ref_first {r r' : R α} (f : α → R β) (h : Ref r r') : Ref (r.bind f) (r'.bind f) := ref_bind h fun _ => ref_refl _

theorem ref_ite {p : Prop} [Decidable p] {a a' b b' : R α} (h : Ref a a') (k : Ref b b') : Ref (if p then a else b) (if p then a' else b') := by
  by_cases hp : p
  · rw [if_pos hp, if_pos hp]; exact h
  · rw [if_neg hp, if_neg hp]; exact k

theorem ref_loop {f f' : Nat → σ → R σ} (h : ∀ k s, Ref (f k s) (f' k s)) : ∀ (ks : List Nat) (s : σ), Ref (loop f ks s) (loop f' ks s)
  | [], s => ref_refl _
  | k :: ks, s => ref_bind (h k s) fun a => ref_loop h ks a

theorem ref_loopOver {f f' : β → σ → R σ} (h : ∀ k s, Ref (f k s) (f' k s)) : ∀ (ks : List β) (s : σ), Ref (loopOver f ks s) (loopOver f' ks s)
  | [], s => ref_refl _
  | k :: ks, s => ref_bind (h k s) fun a => ref_loopOver h ks a

theorem ref_pfor {f f' : Nat → σ → R σ} (h : ∀ k s, Ref (f k s) (f' k s)) (rs : List (Nat × Nat)) (s : σ) : Ref (pfor rs (each f) s) (pfor rs (each f') s) :=
  ref_loopOver (fun _ s => ref_loop h _ s) rs s

variable {f f' g g' : α → α → R α}

theorem ref_accStep (h : ∀ x y, Ref (f x y) (f' x y)) (l : List α) (i : Nat) (a : α) : Ref (accStep f l i a) (accStep f' l i a) := ref_then _ fun x => h x a

theorem ref_reduceList (h : ∀ x y, Ref (f x y) (f' x y)) (l : List α) : Ref (reduceList f l) (reduceList f' l) :=
  ref_then _ fun _ => ref_loop (fun k s => ref_accStep h l k s) _ _

theorem ref_reduceRow (h : ∀ x y, Ref (f x y) (f' x y)) (l : List α) (s i : Nat) : Ref (reduceRow f l s i) (reduceRow f' l s i) :=
  ref_then _ fun _ => ref_loop (fun _ a => ref_accStep h l _ a) _ _

theorem ref_reduceCol (h : ∀ x y, Ref (f x y) (f' x y)) (l : List α) (s i : Nat) : Ref (reduceCol f l s i) (reduceCol f' l s i) :=
  ref_then _ fun _ => ref_loop (fun k a => ref_accStep h l k a) _ _

theorem ref_reduce (h : ∀ x y, Ref (f x y) (f' x y)) (S : Sched) (num : α → Bool) : ∀ v : V α, Ref (reduce S num f v) (reduce S num f' v)
  | .elem x => ref_refl _
  | .vec l => ref_ite (ref_refl _) (ref_first _ (ref_reduceList h l))
  | .mat m => ref_ite (ref_refl _) (ref_then _ fun stride => ref_ite (ref_refl _) (ref_then _ fun n =>
      ref_first _ (ref_pfor (fun i e => ref_first _ (ref_reduceRow h m.data stride i)) _ _)))

theorem ref_reduceFirst (h : ∀ x y, Ref (f x y) (f' x y)) (S : Sched) (num : α → Bool) : ∀ v : V α, Ref (reduceFirst S num f v) (reduceFirst S num f' v)
  | .elem x => by unfold reduceFirst; exact ref_reduce h S num _
  | .vec l => by unfold reduceFirst; exact ref_reduce h S num _
  | .mat m => ref_ite (ref_refl _) (ref_then _ fun _ => ref_ite (ref_refl _) (ref_then _ fun stride => ref_ite (ref_refl _) (ref_then _ fun n =>
      ref_first _ (ref_pfor (fun i e => ref_first _ (ref_reduceCol h m.data stride i)) _ _))))

theorem ref_scanRow (h : ∀ x y, Ref (f x y) (f' x y)) (assoc : Bool) (l : List α) (i n : Nat) (e : Ed α) : Ref (scanRow assoc f l i n e) (scanRow assoc f' l i n e) :=
  ref_then _ fun _ => ref_then _ fun _ => ref_ite (ref_loop (fun _ _ => ref_then _ fun a => ref_then _ fun x => ref_first _ (h a x)) _ _)
    (ref_loop (fun _ _ => ref_first _ (ref_reduceList h _)) _ _)

theorem ref_scan (h : ∀ x y, Ref (f x y) (f' x y)) (S : Sched) (num : α → Bool) (op : String) : ∀ v : V α, Ref (scan S num op f v) (scan S num op f' v)
  | .elem x => ref_refl _
  | .vec l => ref_ite (ref_refl _) (ref_first _ (ref_scanRow h _ l _ _ _))
  | .mat m => ref_ite (ref_refl _) (ref_then _ fun stride => ref_ite (ref_refl _) (ref_then _ fun n =>
      ref_first _ (ref_pfor (fun i e => ref_scanRow h _ m.data _ _ e) _ _)))

theorem ref_scanFirst (h : ∀ x y, Ref (f x y) (f' x y)) (S : Sched) (o : Nat) (num : α → Bool) (op : String) : ∀ v : V α, Ref (scanFirst S o num op f v) (scanFirst S o num op f' v)
  | .elem x => by unfold scanFirst; exact ref_scan h S num op _
  | .vec l => by unfold scanFirst; exact ref_scan h S num op _
  | .mat m => ref_ite (ref_refl _) (ref_then _ fun stride => ref_ite (ref_refl _) (ref_then _ fun n => ref_first _ (ref_scan h S num op _)))

theorem ref_innerAcc (h : ∀ x y, Ref (f x y) (f' x y)) (k : ∀ x y, Ref (g x y) (g' x y)) (u v : List α) (p q : Nat → Nat) (n : Nat) :
    Ref (innerAcc f g u v p q n) (innerAcc f' g' u v p q n) :=
  ref_bind (ref_then _ fun a => ref_then _ fun b => k a b) fun _ =>
    ref_loop (fun _ acc => ref_bind (ref_then _ fun a => ref_then _ fun b => k a b) fun x => h x acc) _ _

theorem ref_inner [Wide α] (h : ∀ x y, Ref (f x y) (f' x y)) (k : ∀ x y, Ref (g x y) (g' x y)) (S : Sched) (u v : V α) : Ref (inner S f g u v) (inner S f' g' u v) :=
  ref_ite
    (ref_then _ fun _ => ref_then _ fun _ => ref_ite (ref_refl _) (ref_then _ fun _ => ref_ite (ref_refl _)
      (ref_first _ (ref_pfor (fun _ _ => ref_first _ (ref_innerAcc h k _ _ _ _ _)) _ _))))
    (ref_then _ fun _ => ref_then _ fun _ => ref_ite (ref_refl _) (ref_ite (ref_refl _) (ref_first _ (ref_innerAcc h k _ _ _ _ _))))

theorem ref_outerData (h : ∀ x y, Ref (f x y) (f' x y)) (S : Sched) (u v : List α) : Ref (outerData S f u v) (outerData S f' u v) :=
  ref_first _ (ref_pfor (fun _ _ => ref_then _ fun a => ref_then _ fun b => ref_first _ (h a b)) _ _)

theorem ref_outer [Wide α] (h : ∀ x y, Ref (f x y) (f' x y)) (S : Sched) (u v : V α) : Ref (outer S f u v) (outer S f' u v) :=
  ref_ite (ref_then _ fun _ => ref_then _ fun _ => ref_first _ (ref_outerData h S _ _)) (ref_then _ fun _ => ref_then _ fun _ => ref_first _ (ref_outerData h S _ _))
end

section
variable {α β γ σ : Type}

theorem ref_eachLoop {g g' : V α → σ → R (β × σ)} (h : ∀ x s, Ref (g x s) (g' x s)) : ∀ (l : List (R (V α))) (s : List β × σ), Ref (eachLoop g l s) (eachLoop g' l s)
  | [], s => ref_refl _
  | x :: xs, s => ref_then _ fun x => ref_bind (h x _) fun _ => ref_eachLoop h xs _

theorem ref_eachLoop2 {g g' : V α → V γ → σ → R (β × σ)} (h : ∀ x y s, Ref (g x y s) (g' x y s)) (rhs : List (R (V γ))) : ∀ (l : List (R (V α))) (s : List β × σ),
    Ref (eachLoop2 g rhs l s) (eachLoop2 g' rhs l s)
  | [], s => ref_refl _
  | x :: xs, s => ref_then _ fun x => ref_bind (ref_eachLoop (fun y s => h x y s) rhs _) fun _ => ref_eachLoop2 h rhs xs _

theorem ref_Each [Wide α] {f f' : List Char → V α → σ → R (β × σ)} (h : ∀ n x s, Ref (f n x s) (f' n x s)) (op : List Char) (v : V α) (s : σ) : Ref (Each f op v s) (Each f' op v s) :=
  ref_then _ fun _ => ref_ite (ref_refl _) (ref_then _ fun _ => ref_first _ (ref_eachLoop (fun x s => h _ x s) _ _))

theorem ref_BinaryEach [Wide α] [Wide γ] {f f' : List Char → V α → V γ → σ → R (β × σ)} (h : ∀ n x y s, Ref (f n x y s) (f' n x y s)) (op : List Char) (u : V α) (v : V γ) (s : σ) :
    Ref (BinaryEach f op u v s) (BinaryEach f' op u v s) :=
  ref_then _ fun _ => ref_ite (ref_refl _) (ref_then _ fun _ => ref_then _ fun _ => ref_ite (ref_refl _) (ref_then _ fun _ => ref_ite (ref_refl _)
    (ref_first _ (ref_eachLoop2 (fun x y s => h _ x y s) _ _ _))))
end

theorem ref_eachU {h h' : Val → R Val} (k : ∀ v, Ref (h v) (h' v)) : ∀ (n : Nat) (op : List Char) (v : Val), Ref (eachU h n op v) (eachU h' n op v)
  | 0, _, _ => ref_refl _
  | n + 1, op, v => ref_ite (ref_first _ (ref_Each (fun _ _ _ => ref_first _ (ref_eachU k n _ _)) _ _ _)) (k v)

theorem ref_eachB {h h' : Val → Val → R Val} (k : ∀ u v, Ref (h u v) (h' u v)) : ∀ (n : Nat) (op : List Char) (u v : Val), Ref (eachB h n op u v) (eachB h' n op u v)
  | 0, _, _, _ => ref_refl _
  | n + 1, op, u, v => ref_ite (ref_first _ (ref_BinaryEach (fun _ _ _ _ => ref_first _ (ref_eachB k n _ _ _)) _ _ _ _)) (k u v)

theorem ref_need (c : Conf) (b : Bool) {r r' : R Val} (h : Ref r r') : Ref (need c.guarded b r) (need c.plain b r') := by
  unfold need Conf.guarded Conf.plain
  cases b
  · exact Or.inl rfl
  · exact h

theorem ref_back {r r' : R (V Val)} (h : Ref r r') : Ref (back r) (back r') := ref_first _ h

theorem un1_same (c : Conf) (o : S1) : ∀ n, un1 c.guarded o n = un1 c.plain o n
  | 0 => rfl
  | n + 1 => by
    funext v
    unfold un1
    rw [un1_same c o n]
    rfl

theorem bin2_same (c : Conf) (o : S2) : ∀ n, bin2 c.guarded o n = bin2 c.plain o n
  | 0 => rfl
  | n + 1 => by
    funext u v
    unfold bin2
    rw [bin2_same c o n]
    rfl

theorem elem1_same (c : Conf) (o : S1) : elem1 c.guarded o = elem1 c.plain o := by
  funext v
  unfold elem1
  rw [un1_same]

theorem elem2_same (c : Conf) (o : S2) : elem2 c.guarded o = elem2 c.plain o := by
  funext u v
  unfold elem2
  rw [bin2_same]

theorem valOps_same (c : Conf) : valOps c.guarded = valOps c.plain := by
  unfold valOps
  simp only [elem1_same, elem2_same]

theorem ref_F2 (c : Conf) : ∀ (f : F2) (u v : Val), Ref (f.eval c.guarded u v) (f.eval c.plain u v)
  | .s o, u, v => Or.inr (congrFun (congrFun (elem2_same c o) u) v)
  | .rho, _, _ => ref_refl _
  | .rot, _, _ => ref_need c _ (ref_refl _)
  | .flip, _, _ => ref_need c _ (ref_refl _)
  | .transp, _, _ => ref_refl _
  | .take, _, _ => ref_refl _
  | .drop, _, _ => ref_refl _
  | .decode, _, _ => ref_need c _ (ref_refl _)
  | .encode, _, _ => ref_refl _
  | .mem, _, _ => ref_refl _
  | .iota, _, _ => ref_need c _ (ref_refl _)
  | .cat, _, _ => ref_need c _ (ref_refl _)
  | .catFirst, _, _ => ref_refl _
  | .fill, _, _ => ref_refl _
  | .sel, _, _ => ref_need c _ (ref_refl _)
  | .part, _, _ => ref_need c _ (ref_refl _)
  | .same, _, _ => ref_refl _
  | .notSame, _, _ => ref_refl _
  | .intersect, _, _ => ref_refl _
  | .union, _, _ => ref_refl _
  | .inner f g, u, v => ref_need c _ (ref_back (ref_inner (fun x y => ref_F2 c f x y) (fun x y => ref_F2 c g x y) _ _ _))
  | .outer f, u, v => ref_back (ref_outer (fun x y => ref_F2 c f x y) _ _ _)
  | .each op f, u, v => ref_eachB (fun x y => ref_F2 c f x y) _ _ _ _
  | .no _, _, _ => ref_refl _

theorem ref_F1 (c : Conf) : ∀ (f : F1) (v : Val), Ref (f.eval c.guarded v) (f.eval c.plain v)
  | .s o, v => Or.inr (congrFun (elem1_same c o) v)
  | .plus, _ => ref_refl _
  | .iota, _ => ref_refl _
  | .where_, _ => ref_refl _
  | .rho, _ => ref_refl _
  | .count, _ => ref_refl _
  | .flatten, _ => ref_refl _
  | .ravel, _ => ref_refl _
  | .up, _ => ref_need c _ (ref_refl _)
  | .down, _ => ref_need c _ (ref_refl _)
  | .rot, _ => ref_need c _ (ref_refl _)
  | .flip, _ => ref_refl _
  | .transp, _ => ref_need c _ (ref_refl _)
  | .inv, v => by
    unfold F1.eval
    rw [valOps_same]
    exact ref_need c _ (ref_refl _)
  | .split, _ => ref_refl _
  | .mix, _ => ref_refl _
  | .unique, _ => ref_refl _
  | .box, _ => ref_refl _
  | .first, _ => ref_refl _
  | .reduce f, v => ref_back (ref_reduce (fun x y => ref_F2 c f x y) _ _ _)
  | .reduceFirst f, v => ref_back (ref_reduceFirst (fun x y => ref_F2 c f x y) _ _ _)
  | .scan _ f, v => ref_back (ref_scan (fun x y => ref_F2 c f x y) _ _ _ _)
  | .scanFirst _ f, v => ref_back (ref_scanFirst (fun x y => ref_F2 c f x y) _ _ _ _ _)
  | .each op f, v => ref_eachU (fun x => ref_F1 c f x) _ _ _
  | .no _, _ => ref_refl _

/-! ## The evaluator -/
section
open Verif.Exec

/-- The outcome is a refusal, or outcome and state are the same. -/
def RefP {α : Type} (p p' : Exec.Res Val α) : Prop := p.1 = .err refused ∨ p = p'

theorem refP_refl {α : Type} (p : Exec.Res Val α) : RefP p p := Or.inr rfl

theorem refP_bind {α β : Type} {p p' : Exec.Res Val α} {f f' : α → Ctx Val → Exec.Res Val β} (h : RefP p p') (hf : ∀ a c, RefP (f a c) (f' a c)) :
    RefP (andThen p f) (andThen p' f') := by
  rcases h with h | rfl
  · left; unfold andThen; rw [h]
  · obtain ⟨r, c⟩ := p
    cases r with
    | ok a => exact hf a c
    | err m => exact Or.inr rfl
    | crash => exact Or.inr rfl
    | hang => exact Or.inr rfl

theorem refP_of {α : Type} {r r' : R α} (c : Ctx Val) (h : Ref r r') : RefP (r, c) (r', c) := by
  rcases h with rfl | rfl
  · exact Or.inl rfl
  · exact Or.inr rfl

/-- Operators that agree up to refusals. -/
inductive RefAct : Act Val → Act Val → Prop where
  | done (r r') : Ref r r' → RefAct (.done r) (.done r')
  | look (k k') : (∀ g, RefAct (k g) (k' g)) → RefAct (.look k) (.look k')

/-- The same for optional ones. -/
def RefOpt : Option (Act Val) → Option (Act Val) → Prop
  | none, none => True
  | some p, some p' => RefAct p p'
  | _, _ => False

/-- What the evaluator asks of values agrees up to refusals. -/
structure RefSem (S S' : Sem Val) : Prop where
  inner : S.inner = S'.inner
  quiet : S.quiet = S'.quiet
  ofList : S.ofList = S'.ofList
  asVector : S.asVector = S'.asVector
  isTrue : S.isTrue = S'.isTrue
  isZero : S.isZero = S'.isZero
  okIndex : S.okIndex = S'.okIndex
  index : ∀ u is, Ref (S.index u is) (S'.index u is)
  setIndex : ∀ u is w, Ref (S.setIndex u is w) (S'.setIndex u is w)
  unaryDerived : ∀ op v, RefOpt ((S.unaryDerived op).map (· v)) ((S'.unaryDerived op).map (· v))
  binaryDerived : ∀ l op r, RefOpt (S.binaryDerived l op r) (S'.binaryDerived l op r)
  unary : ∀ op v, RefOpt ((S.unary op).map (· v)) ((S'.unary op).map (· v))
  binary : ∀ op u v, RefOpt ((S.binary op).map (· u v)) ((S'.binary op).map (· u v))

theorem refSem_ivy (c : Conf) : RefSem (ivy c.guarded) (ivy c.plain) where
  inner := rfl
  quiet := rfl
  ofList := rfl
  asVector := rfl
  isTrue := rfl
  isZero := rfl
  okIndex := rfl
  index := fun _ _ => ref_need c _ (ref_refl _)
  setIndex := fun _ _ _ => ref_need c _ (ref_refl _)
  unaryDerived := fun op v => by
    unfold ivy
    dsimp only
    by_cases h : derived1 op.toList = true
    · rw [if_pos h, if_pos h]
      exact RefAct.look _ _ fun g => RefAct.done _ _ (ref_F1 c _ v)
    · rw [if_neg h, if_neg h]
      trivial
  binaryDerived := fun l op r => by
    unfold ivy
    dsimp only
    by_cases h : derived2 op.toList = true
    · rw [if_pos h, if_pos h]
      exact RefAct.look _ _ fun g => RefAct.done _ _ (ref_F2 c _ l r)
    · rw [if_neg h, if_neg h]
      trivial
  unary := fun op v => by
    unfold ivy
    dsimp only
    cases table1 op with
    | none => trivial
    | some f => exact RefAct.done _ _ (ref_F1 c f v)
  binary := fun op u v => by
    unfold ivy
    dsimp only
    cases table2 op with
    | none => trivial
    | some f => exact RefAct.done _ _ (ref_F2 c f u v)

variable {S S' : Sem Val} {ev ev' : Expr Val → Ctx Val → Exec.Res Val Val}

theorem refP_evalRev (h : ∀ e c, RefP (ev e c) (ev' e c)) : ∀ (es : List (Expr Val)) (c : Ctx Val), RefP (evalRev ev es c) (evalRev ev' es c)
  | [], c => refP_refl _
  | e :: es, c => refP_bind (refP_evalRev h es c) fun _ _ => refP_bind (h _ _) fun _ _ => refP_refl _

theorem refP_evalIdx1 (hS : RefSem S S') (h : ∀ e c, RefP (ev e c) (ev' e c)) (e : Expr Val) (c : Ctx Val) : RefP (evalIdx1 S ev e c) (evalIdx1 S' ev' e c) := by
  have := fun e => refP_bind (f := fun v c1 => match S.okIndex (S.inner v) with | none => (R.ok (some (S.inner v)), c1) | some m => (R.err m, c1))
    (f' := fun v c1 => match S.okIndex (S.inner v) with | none => (R.ok (some (S.inner v)), c1) | some m => (R.err m, c1)) (h e c) fun _ _ => refP_refl _
  cases e
  case hole => exact refP_refl _
  all_goals
    unfold evalIdx1
    rw [← hS.okIndex, ← hS.inner]
    exact this _

theorem refP_evalIdx (hS : RefSem S S') (h : ∀ e c, RefP (ev e c) (ev' e c)) : ∀ (es : List (Expr Val)) (c : Ctx Val), RefP (evalIdx S ev es c) (evalIdx S' ev' es c)
  | [], c => refP_refl _
  | e :: es, c => refP_bind (refP_evalIdx hS h es c) fun _ _ => refP_bind (refP_evalIdx1 hS h _ _) fun _ _ => refP_refl _

theorem refP_indexAssign (hS : RefSem S S') (h : ∀ e c, RefP (ev e c) (ev' e c)) (x : String) (loc : Nat) (is : List (Expr Val)) (v : Val) (c : Ctx Val) :
    RefP (indexAssign S ev x loc is v c) (indexAssign S' ev' x loc is v c) := by
  refine refP_bind (refP_evalIdx hS h is c) fun ivs c1 => refP_bind (refP_refl _) fun old c2 => ?_
  rcases hS.setIndex old ivs v with e | e
  · rw [e]; exact Or.inl rfl
  · rw [e]; exact refP_refl _

mutual
theorem refP_assignTo (hS : RefSem S S') (h : ∀ e c, RefP (ev e c) (ev' e c)) : ∀ (e : Expr Val) (v : Val) (c : Ctx Val), RefP (assignTo S ev e v c) (assignTo S' ev' e v c)
  | .var x loc, v, c => by simp only [assignTo]; exact refP_refl _
  | .vec es, v, c => by
    simp only [assignTo, hS.asVector]
    cases S'.asVector v with
    | none => exact refP_refl _
    | some vs =>
      dsimp only
      split
      · exact refP_refl _
      · exact refP_assignRev hS h es vs c
  | .index l is, v, c => by
    cases l with
    | var x loc => simp only [assignTo]; exact refP_indexAssign hS h x loc is v c
    | lit _ => simp only [assignTo]; exact refP_refl _
    | hole => simp only [assignTo]; exact refP_refl _
    | unary _ _ => simp only [assignTo]; exact refP_refl _
    | binary _ _ _ => simp only [assignTo]; exact refP_refl _
    | cond _ _ => simp only [assignTo]; exact refP_refl _
    | vec _ => simp only [assignTo]; exact refP_refl _
    | index _ _ => simp only [assignTo]; exact refP_refl _
  | .lit _, v, c => by simp only [assignTo]; exact refP_refl _
  | .hole, v, c => by simp only [assignTo]; exact refP_refl _
  | .unary _ _, v, c => by simp only [assignTo]; exact refP_refl _
  | .binary _ _ _, v, c => by simp only [assignTo]; exact refP_refl _
  | .cond _ _, v, c => by simp only [assignTo]; exact refP_refl _
theorem refP_assignRev (hS : RefSem S S') (h : ∀ e c, RefP (ev e c) (ev' e c)) : ∀ (es : List (Expr Val)) (vs : List Val) (c : Ctx Val),
    RefP (assignRev S ev es vs c) (assignRev S' ev' es vs c)
  | [], _, c => by simp only [assignRev]; exact refP_refl _
  | _ :: _, [], c => by simp only [assignRev]; exact refP_refl _
  | e :: es, v :: vs, c => by
    simp only [assignRev]
    exact refP_bind (refP_assignRev hS h es vs c) fun _ c1 => refP_assignTo hS h e v c1
end

theorem refP_evalBody (hS : RefSem S S') (h : ∀ e c, RefP (ev e c) (ev' e c)) : ∀ (es : List (Expr Val)) (last : Option Val) (c : Ctx Val),
    RefP (evalBody S ev es last c) (evalBody S' ev' es last c)
  | [], last, c => refP_refl _
  | e :: es, last, c => by
    have plain : RefP (andThen (ev e c) fun v c1 => evalBody S ev es (some v) c1) (andThen (ev' e c) fun v c1 => evalBody S' ev' es (some v) c1) :=
      refP_bind (h e c) fun v c1 => refP_evalBody hS h es (some v) c1
    cases e with
    | cond l r =>
      simp only [evalBody]
      refine refP_bind (h l c) fun v c1 => ?_
      rw [hS.isTrue]
      cases S'.isTrue v with
      | ok t =>
        cases t with
        | true => exact refP_bind (h r c1) fun _ _ => refP_refl _
        | false => exact refP_evalBody hS h es last c1
      | err m => exact refP_refl _
      | crash => exact refP_refl _
      | hang => exact refP_refl _
    | lit _ => exact plain
    | hole => exact plain
    | var _ _ => exact plain
    | unary _ _ => exact plain
    | binary _ _ _ => exact plain
    | vec _ => exact plain
    | index _ _ => exact plain

theorem refP_callFn (hS : RefSem S S') (h : ∀ e c, RefP (ev e c) (ev' e c)) (M : Nat) (f : Fn Val) (args : Option Val × Val) (c : Ctx Val) :
    RefP (callFn S M ev f args c) (callFn S' M ev' f args c) := by
  unfold callFn
  cases f.body with
  | none => exact refP_refl _
  | some body =>
    dsimp only
    split
    · exact refP_refl _
    · have : RefP (runFn S ev f body args (c.push f)) (runFn S' ev' f body args (c.push f)) := by
        unfold runFn
        refine refP_bind ?_ fun _ c1 => refP_bind (refP_assignTo hS h _ _ _) fun _ c2 => refP_bind (refP_evalBody hS h _ _ _) fun r c3 => ?_
        · cases f.left with
          | none => exact refP_refl _
          | some p =>
            cases args.1 with
            | none => exact refP_refl _
            | some v => exact refP_assignTo hS h p v _
        · exact refP_refl _
      rcases this with e | e
      · exact Or.inl e
      · rw [e]; exact refP_refl _

/-- Tasks that agree up to refusals. -/
inductive RefTask : Exec.Task Val → Exec.Task Val → Prop where
  | same (t) : (∀ p, t ≠ .act p) → RefTask t t
  | act (p p') : RefAct p p' → RefTask (.act p) (.act p')

theorem refP_run (hS : RefSem S S') (M : Nat) : ∀ (fuel : Nat) (t t' : Exec.Task Val) (c : Ctx Val), RefTask t t' → RefP (run S M fuel t c) (run S' M fuel t' c)
  | 0, _, _, c, _ => refP_refl _
  | fuel + 1, t, t', c, ht => by
    have ih := refP_run hS M fuel
    have hev : ∀ e c, RefP (run S M fuel (.expr e) c) (run S' M fuel (.expr e) c) := fun e c => ih _ _ c (.same _ (by simp))
    have hun : ∀ op v c, RefP (run S M fuel (.unary op v) c) (run S' M fuel (.unary op v) c) := fun op v c => ih _ _ c (.same _ (by simp))
    have hbi : ∀ u op v c, RefP (run S M fuel (.binary u op v) c) (run S' M fuel (.binary u op v) c) := fun u op v c => ih _ _ c (.same _ (by simp))
    have hac : ∀ p p' c, RefAct p p' → RefP (run S M fuel (.act p) c) (run S' M fuel (.act p') c) := fun p p' c h => ih _ _ c (.act _ _ h)
    unfold run
    cases ht with
    | act p p' h =>
      cases h with
      | done r r' h => exact refP_of c h
      | look k k' h => exact hac _ _ c (h c.env)
    | same _ h =>
      cases t with
      | act p => exact (h p rfl).elim
      | expr e =>
        show RefP (evalExpr S (run S M fuel) e c) (evalExpr S' (run S' M fuel) e c)
        unfold evalExpr
        cases e with
        | lit v => exact refP_refl _
        | hole => exact refP_refl _
        | var x loc => exact refP_refl _
        | unary op r => rw [hS.inner]; exact refP_bind (hev r c) fun v c1 => hun _ _ _
        | binary op l r =>
          dsimp only
          rw [hS.inner, hS.quiet]
          split
          · exact refP_bind (hev r c) fun v c1 => refP_bind (refP_assignTo hS hev _ _ _) fun _ c2 => refP_refl _
          · exact refP_bind (hev r c) fun v c1 => refP_bind (hev l c1) fun _ c2 => hbi _ _ _ _
        | cond l r => rw [hS.inner]; exact refP_bind (hev r c) fun v c1 => refP_bind (hev l c1) fun _ c2 => hbi _ _ _ _
        | vec es => rw [hS.ofList]; exact refP_bind (refP_evalRev hev es c) fun _ _ => refP_refl _
        | index l is => exact refP_bind (refP_evalIdx hS hev is c) fun ivs c1 => refP_bind (hev l c1) fun u c2 => refP_of c2 (hS.index u ivs)
      | unary op v =>
        show RefP (evalUnary S M (run S M fuel) op v c) (evalUnary S' M (run S' M fuel) op v c)
        unfold evalUnary
        have h1 := hS.unaryDerived op v
        have h2 := hS.unary op v
        cases e1 : S.unaryDerived op with
        | some p =>
          cases e2 : S'.unaryDerived op with
          | some p' => rw [e1, e2] at h1; exact hac _ _ c h1
          | none => rw [e1, e2] at h1; exact h1.elim
        | none =>
          cases e2 : S'.unaryDerived op with
          | some p' => rw [e1, e2] at h1; exact h1.elim
          | none =>
            dsimp only
            cases c.env.unaryFn op with
            | some f => exact refP_callFn hS hev M f _ c
            | none =>
              cases e3 : S.unary op with
              | some p =>
                cases e4 : S'.unary op with
                | some p' => rw [e3, e4] at h2; exact hac _ _ c h2
                | none => rw [e3, e4] at h2; exact h2.elim
              | none =>
                cases e4 : S'.unary op with
                | some p' => rw [e3, e4] at h2; exact h2.elim
                | none => exact refP_refl _
      | binary l op r =>
        show RefP (Exec.evalBinary S M (run S M fuel) l op r c) (Exec.evalBinary S' M (run S' M fuel) l op r c)
        unfold Exec.evalBinary
        have h1 := hS.binaryDerived l op r
        have h2 := hS.binary op l r
        cases e1 : S.binaryDerived l op r with
        | some p =>
          cases e2 : S'.binaryDerived l op r with
          | some p' => rw [e1, e2] at h1; exact hac _ _ c h1
          | none => rw [e1, e2] at h1; exact h1.elim
        | none =>
          cases e2 : S'.binaryDerived l op r with
          | some p' => rw [e1, e2] at h1; exact h1.elim
          | none =>
            dsimp only
            cases c.env.binaryFn op with
            | some f => exact refP_callFn hS hev M f _ c
            | none =>
              cases e3 : S.binary op with
              | some p =>
                cases e4 : S'.binary op with
                | some p' => rw [e3, e4] at h2; exact hac _ _ c h2
                | none => rw [e3, e4] at h2; exact h2.elim
              | none =>
                cases e4 : S'.binary op with
                | some p' => rw [e3, e4] at h2; exact h2.elim
                | none => exact refP_refl _

theorem definition_same (hz : S.isZero = S'.isZero) (g : Env Val) (f : Fn Val) (p : Env Val → R (Option (List (Expr Val)))) : definition S g f p = definition S' g f p := by
  have h1 : ∀ g x, noVar S g x = noVar S' g x := fun g x => by unfold noVar; rw [hz]
  have h2 : ∀ g f, Env.define S g f = Env.define S' g f := fun g f => by unfold Env.define; rw [h1]
  unfold definition
  simp only [h2]

/-! ## Sessions -/

theorem refP_evalAll (c : Conf) (M fuel : Nat) : ∀ (es : List (Expr Val)) (s : Ctx Val), RefP (evalAll c.guarded M fuel es s) (evalAll c.plain M fuel es s)
  | [], s => refP_refl _
  | e :: es, s => refP_bind (refP_run (refSem_ivy c) M fuel _ _ s (.same _ (by simp))) fun _ s1 => refP_bind (refP_evalAll c M fuel es s1) fun _ _ => refP_refl _

theorem refP_runLine (c : Conf) (M fuel : Nat) (l : Line) (s : Ctx Val) : RefP (runLine c.guarded M fuel l s) (runLine c.plain M fuel l s) := by
  cases l with
  | exprs es => exact refP_bind (refP_evalAll c M fuel es s) fun _ _ => refP_refl _
  | define f body => exact Or.inr (by unfold runLine; dsimp only; rw [definition_same (refSem_ivy c).isZero])
  | declare f => exact Or.inr (by unfold runLine; dsimp only; rw [definition_same (refSem_ivy c).isZero])

/-- A session of the code has the same outcomes as the guarded one, at least up to the first refusal. -/
theorem session_ref (c : Conf) (M fuel : Nat) : ∀ (ls : List Line) (s : Ctx Val),
    session c.plain M fuel ls s = session c.guarded M fuel ls s ∨
    ∃ k, (session c.guarded M fuel ls s)[k]? = some (.err refused) ∧ (session c.plain M fuel ls s).take k = (session c.guarded M fuel ls s).take k
  | [], s => Or.inl rfl
  | l :: ls, s => by
    have h := refP_runLine c M fuel l s
    unfold session
    rcases h with e | e
    · right
      refine ⟨0, ?_, by simp⟩
      generalize runLine c.guarded M fuel l s = q at e
      obtain ⟨r, s1⟩ := q
      cases e
      rfl
    · rw [e]
      generalize runLine c.plain M fuel l s = q
      obtain ⟨r, s1⟩ := q
      have step : ∀ r : R (List Val), r :: session c.plain M fuel ls s1 = r :: session c.guarded M fuel ls s1 ∨
          ∃ k, (r :: session c.guarded M fuel ls s1)[k]? = some (.err refused) ∧
            (r :: session c.plain M fuel ls s1).take k = (r :: session c.guarded M fuel ls s1).take k := by
        intro r
        rcases session_ref c M fuel ls s1 with ih | ⟨k, h1, h2⟩
        · left; rw [ih]
        · right; exact ⟨k + 1, h1, by simp only [List.take_succ_cons, h2]⟩
      cases r with
      | ok a => exact step _
      | err m => exact step _
      | crash => exact Or.inl rfl
      | hang => exact step _
end

end Verif.Safe
