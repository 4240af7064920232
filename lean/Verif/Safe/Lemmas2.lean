import Verif.Safe.Lemmas1

/-!
# Operators on nested values: every operator with the guard ends
-/

namespace Verif.Safe
open Verif.Arr Verif.Num
open Verif.Order (Val)

theorem gives_need {c : Conf} (hc : c.guard = true) {b : Bool} {r : R Val} (h : b = true → Gives Well r) : Gives Well (need c b r) := by
  unfold need
  rw [hc]
  cases b with
  | true => exact h rfl
  | false => trivial

theorem solid_pos {v : Val} (h : solid v = true) : ∀ m, toV v = .mat m → 0 < m.data.length := by
  intro m e
  cases v with
  | num n => cases e
  | cplx a b => cases e
  | vec l => cases e
  | mat s d =>
    cases e
    cases d with
    | nil => simp [solid] at h
    | cons x xs => simp

theorem well_vec {l : List Val} (h : ∀ x ∈ l, Well x) : Well (.vec l) := wells_iff.2 h

theorem gives_toMatW {v : Val} (h : Well v) : Gives (GoodM Well) (toV v).toMat := gives_mono (gives_toMat (goodV_toV h)) fun _ h => h.1

theorem gives_toVecW {v : Val} (h : Well v) : Gives (fun l => ∀ x ∈ l, Well x) (toV v).toVec := gives_toVec (goodV_toV h)

/-! ## The binary operators -/

theorem gives_rhoOp {u v : Val} (hu : Well u) (hv : Well v) : Gives Well (rhoOp u v) := by
  unfold rhoOp
  split
  · refine gives_bind (gives_toMatW hu) fun a _ => gives_bind (gives_toMatW hv) fun b hb => ?_
    split
    · trivial
    · exact gives_back (gives_reshape well_zero hb.2)
  · exact gives_bind (gives_toVecW hu) fun a _ => gives_bind (gives_toVecW hv) fun b hb => gives_back (gives_reshape well_zero hb)

theorem dense_pos {u v : Val} (h : dense u v = true) (hm : (toV u).isMat = true ∨ (toV v).isMat = true) : (toV v).data ≠ [] := by
  intro e
  unfold dense at h
  rw [e] at h
  rcases hm with hm | hm <;> rw [hm] at h <;> simp at h

theorem toMat_data {v : V Val} : Gives (fun m : Mat Val => m.data = v.data) v.toMat := by
  cases v with
  | elem x => exact gives_mono (P := fun m => m.shape = _ ∧ m.data = _ ∧ (_ ≠ [] → m.WF)) (gives_newMatrix _ _) fun m h => h.2.1
  | vec l => exact gives_mono (P := fun m => m.shape = _ ∧ m.data = _ ∧ (_ ≠ [] → m.WF)) (gives_newMatrix [l.length] l) fun m h => h.2.1
  | mat m => exact rfl

theorem gives_rotOp {f : Mat Small → Mat Val → R (Mat Val)} {u v : Val} (hu : Well u) (hv : Well v) (h0 : dense u v = true)
    (hf : ∀ (a : Mat Small) (m : Mat Val), GoodM Well m → 0 < m.data.length → Gives (fun r => GoodM Well r ∧ r.shape = m.shape) (f a m)) : Gives Well (rotOp f u v) := by
  unfold rotOp
  split
  · rename_i hm
    refine gives_bind (gives_toMatW hu) fun a _ => gives_bind (gives_and (gives_toMatW hv) toMat_data) fun b hb => ?_
    refine gives_bind (hf _ b hb.1 ?_) fun m hm => well_mat hm.1
    rw [hb.2]
    exact List.length_pos_iff.2 (dense_pos h0 hm)
  · exact gives_bind (gives_toVecW hu) fun a _ => gives_bind (gives_toVecW hv) fun b hb => gives_back (gives_rotVec hb)

theorem gives_transpOp (c : Conf) {u v : Val} (hu : Well u) (hv : Well v) : Gives Well (transpOp c u v) :=
  gives_bind (gives_toVecW hu) fun _ _ => gives_bind (gives_toMatW hv) fun _ hb => gives_back (gives_transpBy c.S c.origin hb _)

theorem well_fillValue (l : List Val) (h : ∀ x ∈ l, Well x) : Well (fillValue l) := by
  have hf : Well (if allChar l then .num (.char 32) else zeroV) := by
    split
    · trivial
    · exact well_zero
  unfold fillValue
  dsimp only
  generalize (if allChar l then .num (.char 32) else zeroV) = w at hf
  split
  · exact well_zero
  · exact well_vec fun x hx => by rw [List.eq_of_mem_replicate hx]; exact hf
  · rename_i s d _
    have hm := h (.mat s d) (List.mem_cons_self ..)
    exact ⟨hm.1, by rw [List.length_replicate]; exact hm.2.1, wells_iff.2 fun x hx => by rw [List.eq_of_mem_replicate hx]; exact hf⟩
  · exact hf

theorem gives_takeDrop {f : List Small → V Val → R (V Val)} (hf : ∀ a v, GoodV Well v → Gives (GoodV Well) (f a v)) {u v : Val} (hu : Well u) (hv : Well v) :
    Gives Well (takeDrop f u v) :=
  gives_bind (gives_toVecW hu) fun _ _ => gives_back (hf _ _ (goodV_toV hv))

theorem well_membership (lib : Order.SortLib) (u v : List Val) : ∀ x ∈ (Order.membership lib u v).map Val.num, Well x := by
  intro x hx
  simp only [Order.membership, List.mem_map] at hx
  obtain ⟨n, ⟨b, _, rfl⟩, rfl⟩ := hx
  exact tidy_toInt _

theorem well_shrinkVec {l : List Val} (h : ∀ x ∈ l, Well x) : Well (Order.shrinkVec l) := by
  unfold Order.shrinkVec
  split
  · exact h _ (List.mem_cons_self ..)
  · exact well_vec h

theorem gives_memOp (c : Conf) {u v : Val} (hu : Well u) (hv : Well v) : Gives Well (memOp c u v) := by
  unfold memOp
  split
  · refine gives_bind (gives_toMatW hu) fun a ha => gives_bind (gives_toMatW hv) fun b _ => ?_
    dsimp only
    split
    · exact well_shrinkVec (well_membership _ _ _)
    · exact gives_bind (gives_mat ha.1.rank (well_membership _ _ _)) fun m hm => well_mat hm.1
  · exact gives_bind (gives_toVecW hu) fun a _ => gives_bind (gives_toVecW hv) fun b _ => well_shrinkVec (well_membership _ _ _)

theorem gives_iotaRows (c : Conf) {a b : Mat Val} (ha : GoodM Well a) (h0 : a.data ≠ []) : Gives Well (iotaRows c a b) := by
  unfold iotaRows
  split
  · trivial
  · have hr := ha.1.rank
    have hl := ha.1.len
    cases hs : a.shape with
    | nil => exact (hr hs).elim
    | cons d ds =>
      change Gives Well (if d = 0 then _ else _)
      have hd : a.data.length = d * vol ds := by rw [hl, hs]; rfl
      have hp := List.length_pos_iff.2 h0
      have h1 : d ≠ 0 := fun h => by rw [h, Nat.zero_mul] at hd; omega
      rw [if_neg h1]
      have h2 : a.data.length / d ≠ 0 := by
        rw [hd, Nat.mul_div_cancel_left _ (Nat.pos_of_ne_zero h1)]
        intro h
        rw [h, Nat.mul_zero] at hd
        omega
      rw [if_neg h2]
      dsimp only
      split
      · exact well_ints _
      · rename_i hlen
        refine gives_back (gives_matV ?_ (wells_iff.1 (well_ints _)))
        intro h
        rw [h] at hlen
        simp at hlen

theorem toMat_dataW {v : Val} (h : Well v) : Gives (fun m : Mat Val => GoodM Well m ∧ m.data = (toV v).data) (toV v).toMat := gives_and (gives_toMatW h) toMat_data

theorem gives_iotaOp2 (c : Conf) {u v : Val} (hu : Well u) (hv : Well v) (h0 : dense v u = true) : Gives Well (iotaOp2 c u v) := by
  unfold iotaOp2
  split
  · rename_i hm
    exact gives_bind (toMat_dataW hu) fun a ha => gives_bind (gives_toMatW hv) fun b _ => gives_iotaRows c ha.1 (by rw [ha.2]; exact dense_pos h0 hm.symm)
  · exact gives_bind (gives_toVecW hu) fun a _ => gives_bind (gives_toVecW hv) fun b _ => well_ints _

theorem good_small {v : Val} (h : Well v) : GoodV (fun _ => True) (mapV small (toV v)) := good_mapV (fun _ _ => trivial) (goodV_toV h)

theorem prod_toNat : ∀ {l : List Int}, (∀ d ∈ l, 0 ≤ d) → ((l.map Int.toNat).prod : Int) = l.prod
  | [], _ => rfl
  | d :: l, h => by
    rw [List.map_cons, List.prod_cons, List.prod_cons, Int.natCast_mul, prod_toNat fun x hx => h x (List.mem_cons_of_mem _ hx), Int.toNat_of_nonneg (h d (List.mem_cons_self ..))]

theorem gives_partOp {u v : Val} (hu : Well u) (hv : Well v) (h0 : ∀ m, toV v = .mat m → 0 < m.data.length) : Gives Well (partOp u v) := by
  unfold partOp
  refine gives_bind (gives_part (good_small hu) (goodV_toV hv) h0) fun r hr => ?_
  have hw : ∀ x ∈ r.2.map Val.vec, Well x := fun x hx => by
    obtain ⟨l, hl, rfl⟩ := List.mem_map.1 hx
    exact well_vec (hr.all l hl)
  split
  · rw [if_pos (by simpa using hr.nonneg)]
    refine ⟨by simpa using hr.rank, ?_, wells_iff.2 hw⟩
    have h1 := prod_toNat hr.nonneg
    rw [hr.len] at h1
    rw [List.length_map]
    exact (Int.ofNat.inj h1).symm
  · exact well_vec hw

theorem toNums_ok {v : Val} (h : Well v) : Gives (fun w => GoodV Tidy w ∧ toV v = mapV Val.num w) (toNums v) := by
  have key : ∀ (l : List Val) (d : List Num), Wells l → nums l = some d → (∀ x ∈ d, Tidy x) ∧ l = d.map Val.num := by
    intro l
    induction l with
    | nil => intro d _ e; cases e; simp
    | cons x xs ih =>
      intro d hl e
      cases x with
      | num n =>
        simp only [nums, Option.map_eq_some_iff] at e
        obtain ⟨r, hr, rfl⟩ := e
        obtain ⟨h1, h2⟩ := ih r hl.2 hr
        refine ⟨?_, by rw [h2]; rfl⟩
        intro y hy
        rcases List.mem_cons.1 hy with rfl | hy
        · exact hl.1
        · exact h1 y hy
      | cplx a b => cases e
      | vec l => cases e
      | mat s l => cases e
  cases v with
  | num n => exact ⟨h, rfl⟩
  | cplx a b => trivial
  | vec l =>
    unfold toNums
    dsimp only
    split
    · rename_i d e
      obtain ⟨h1, h2⟩ := key l d h e
      exact ⟨h1, by rw [h2]; rfl⟩
    · trivial
  | mat s l =>
    unfold toNums
    dsimp only
    split
    · rename_i d e
      obtain ⟨h1, h2⟩ := key l d h.2.2 e
      refine ⟨⟨⟨h.1, ?_⟩, h1⟩, by rw [h2]; rfl⟩
      show d.length = vol s
      have : l.length = d.length := by rw [h2, List.length_map]
      rw [vol_prod, ← h.2.1, this]
    · trivial

theorem gives_radixOp {f : V Num → V Num → R (V Num)} {u v : Val} (hu : Well u) (hv : Well v)
    (hf : ∀ a b, GoodV Tidy a → GoodV Tidy b → toV u = mapV Val.num a → toV v = mapV Val.num b → Gives (GoodV Tidy) (f a b)) : Gives Well (radixOp f u v) :=
  gives_bind (toNums_ok hu) fun a ha => gives_bind (toNums_ok hv) fun b hb => gives_bind (hf a b ha.1 hb.1 ha.2 hb.2) fun _ hr =>
    well_ofV (good_mapV (Q := Well) (f := Val.num) (fun _ h => h) hr)

theorem gives_decodeOp (c : Conf) {u v : Val} (hu : Well u) (hv : Well v) (h0 : decodeFine u v = true) : Gives Well (radixOp (decode c.S c.mb) u v) := by
  refine gives_radixOp hu hv fun a b ha hb ea eb => gives_decode c.S c.mb ha hb fun A B eA eB => ?_
  subst eB
  unfold decodeFine at h0
  rw [ea, eb] at h0
  have hA : A = (mapV Val.num a).data.map (fun _ => A.headD zero) ∨ A.length = (mapV Val.num a).data.length := by
    right
    cases a with
    | elem x => cases eA; rfl
    | vec l => cases eA; simp [mapV, V.data]
    | mat m => cases eA
  cases a with
  | mat m => cases eA
  | elem x =>
    cases eA
    simp only [mapV, V.data, Bool.and_eq_true, decide_eq_true_eq, Bool.or_eq_true] at h0
    refine ⟨h0.1.1, by simpa using h0.1.2, fun _ _ => by simp⟩
  | vec l =>
    cases eA
    simp only [mapV, V.data, Bool.and_eq_true, decide_eq_true_eq, Bool.or_eq_true] at h0
    refine ⟨h0.1.1, by simpa using h0.1.2, fun h1 h2 h3 => ?_⟩
    rcases h0.2 with (h | h) | h
    · simp [h1] at h
    · simp at h; exact h2 h
    · simp [h3] at h

mutual
theorem well_allZeros : ∀ v : Val, Well v → Well (allZeros v)
  | .num (.char _), _ => trivial
  | .num (.int _), _ => well_zero
  | .num (.bigInt _), _ => well_zero
  | .num (.bigRat _), _ => well_zero
  | .cplx _ _, _ => well_zero
  | .vec l, h => (wells_allZeros l h).1
  | .mat _ l, h => ⟨h.1, by rw [(wells_allZeros l h.2.2).2]; exact h.2.1, (wells_allZeros l h.2.2).1⟩
theorem wells_allZeros : ∀ l : List Val, Wells l → Wells (allZerosList l) ∧ (allZerosList l).length = l.length
  | [], _ => ⟨trivial, rfl⟩
  | x :: xs, h => ⟨⟨well_allZeros x h.1, (wells_allZeros xs h.2).1⟩, by simp [allZerosList, (wells_allZeros xs h.2).2]⟩
end

/-! ## Sets -/

theorem mem_marked {p : List Num} {w : Num → Bool} {l : List Val} {x : Val} (h : x ∈ Order.marked p w l) : x ∈ l := by
  simp only [Order.marked, List.mem_map, List.mem_filter] at h
  obtain ⟨q, ⟨hq, _⟩, rfl⟩ := h
  exact (List.of_mem_zip hq).2

theorem mem_dedup : ∀ {l : List (Nat × Val)} {p x : Nat × Val}, x ∈ Order.dedup p l → x ∈ l
  | [], _, _, h => by simp [Order.dedup] at h
  | y :: ys, p, x, h => by
    unfold Order.dedup at h
    split at h
    · rcases List.mem_cons.1 h with rfl | h
      · exact List.mem_cons_self ..
      · exact List.mem_cons_of_mem _ (mem_dedup h)
    · exact List.mem_cons_of_mem _ (mem_dedup h)

theorem mem_uniqueVec {lib : Order.SortLib} {v : List Val} {x : Val} (h : x ∈ Order.uniqueVec lib v) : x ∈ v := by
  have hp := lib.slice_perm Order.lessIndexed (v.zipIdx.map fun p => (p.2, p.1))
  unfold Order.uniqueVec at h
  split at h
  · simp at h
  · rename_i p rest e
    obtain ⟨q, hq, rfl⟩ := List.mem_map.1 h
    have hq := (lib.slice_perm _ _).mem_iff.1 hq
    have hq : q ∈ p :: rest := by
      rcases List.mem_cons.1 hq with rfl | hq
      · exact List.mem_cons_self ..
      · exact List.mem_cons_of_mem _ (mem_dedup hq)
    rw [e] at hp
    have hq := hp.mem_iff.1 hq
    obtain ⟨r, hr, rfl⟩ := List.mem_map.1 hq
    exact List.mem_of_getElem? (List.mem_zipIdx_iff_getElem?.1 hr)

theorem gives_orErr {o : Option Val} (h : ∀ v, o = some v → Well v) : Gives Well (orErr o) := by
  cases o with
  | none => trivial
  | some v => exact h v rfl

theorem gives_unique (lib : Order.SortLib) {v : Val} (hv : Well v) : Gives Well (orErr (Order.unique lib v)) := by
  refine gives_orErr fun w hw => ?_
  unfold Order.unique at hw
  split at hw
  · cases hw
  · split at hw
    · cases hw; exact hv
    · cases hw; exact well_vec fun x hx => wells_iff.1 hv x (mem_uniqueVec hx)
  · cases hw; exact hv

theorem gives_union (lib : Order.SortLib) {u v : Val} (hu : Well u) (hv : Well v) : Gives Well (orErr (Order.union lib u v)) := by
  refine gives_orErr fun w hw => ?_
  unfold Order.union at hw
  split at hw
  · cases hw
  · cases hw
  · cases hw
    refine well_vec fun x hx => ?_
    rcases List.mem_append.1 hx with hx | hx
    · exact wells_iff.1 hu x hx
    · exact wells_iff.1 hv x (mem_marked hx)
  · split at hw
    · cases hw; exact hu
    · cases hw
      refine well_vec fun x hx => ?_
      rcases List.mem_append.1 hx with hx | hx
      · exact wells_iff.1 hu x hx
      · rw [List.mem_singleton.1 hx]; exact hv
  · cases hw
    refine well_vec fun x hx => ?_
    rcases List.mem_cons.1 hx with rfl | hx
    · exact hu
    · exact wells_iff.1 hv x (List.mem_filter.1 hx).1
  · split at hw
    · cases hw; exact hu
    · cases hw; exact ⟨hu, hv, trivial⟩

theorem gives_intersect (lib : Order.SortLib) {u v : Val} (hu : Well u) (hv : Well v) : Gives Well (orErr (Order.intersect lib u v)) := by
  refine gives_orErr fun w hw => ?_
  unfold Order.intersect at hw
  split at hw
  · cases hw
  · cases hw
  · cases hw
    exact well_vec fun x hx => wells_iff.1 hu x (mem_marked hx)
  · cases hw
    exact well_vec fun x hx => wells_iff.1 hu x (List.mem_filter.1 hx).1
  · split at hw
    · cases hw; exact ⟨hu, trivial⟩
    · cases hw; trivial
  · split at hw
    · cases hw; exact hu
    · cases hw; trivial

/-! ## All binary operators -/

theorem gives_eachB {h : Val → Val → R Val} (hh : ∀ u v, Well u → Well v → Gives Well (h u v)) : ∀ (n : Nat) (op : List Char) {u v : Val}, op.length < n →
    (∃ c ∈ op, c ≠ '@') → Well u → Well v → Gives Well (eachB h n op u v)
  | 0, op, u, v, hn, _, _, _ => by omega
  | n + 1, op, u, v, hn, ha, hu, hv => by
    unfold eachB
    split
    · rename_i hat
      refine gives_bind (gives_BinaryEach (P := Well) (T := Well) (Q := Well) (J := fun _ => True) ha hat (fun name x y s h1 h2 hx hy _ => ?_) (goodV_toV hu) (goodV_toV hv) trivial)
        fun r hr => well_ofV hr.1
      exact gives_bind (gives_eachB hh n name (by omega) h2 (well_ofV hx) (well_ofV hy)) fun z hz => ⟨hz, trivial⟩
    · exact hh u v hu hv

/-- Names of `each` in an operator have something between the `@`s. -/
def F2.Ok : F2 → Prop
  | .inner f g => f.Ok ∧ g.Ok
  | .outer f => f.Ok
  | .each op f => (∃ c ∈ op, c ≠ '@') ∧ f.Ok
  | _ => True

theorem gives_F2 {c : Conf} (hc : c.guard = true) : ∀ (f : F2), f.Ok → ∀ u v, Well u → Well v → Gives Well (f.eval c u v)
  | .s o, _, u, v, hu, hv => gives_elem2 c o hu hv
  | .rho, _, u, v, hu, hv => gives_rhoOp hu hv
  | .rot, _, u, v, hu, hv => gives_need hc fun h => gives_rotOp hu hv h fun a m hm h0 => gives_rotMat c.S hm h0
  | .flip, _, u, v, hu, hv => gives_need hc fun h => gives_rotOp hu hv h fun a m hm h0 => gives_flipMat c.S hm h0
  | .transp, _, u, v, hu, hv => gives_transpOp c hu hv
  | .take, _, u, v, hu, hv => gives_takeDrop (fun _ _ h => gives_takeOp well_fillValue h) hu hv
  | .drop, _, u, v, hu, hv => gives_takeDrop (fun _ _ h => gives_dropOp well_fillValue h) hu hv
  | .decode, _, u, v, hu, hv => gives_need hc fun h => gives_decodeOp c hu hv h
  | .encode, _, u, v, hu, hv => gives_radixOp hu hv fun _ _ ha hb _ _ => gives_encode c.S ha hb
  | .mem, _, u, v, hu, hv => gives_memOp c hu hv
  | .iota, _, u, v, hu, hv => gives_need hc fun h => gives_iotaOp2 c hu hv h
  | .cat, _, u, v, hu, hv => gives_need hc fun h => by
      rw [Bool.and_eq_true] at h
      exact gives_back (gives_catOp (goodV_toV hu) (goodV_toV hv) (solid_pos h.1) (solid_pos h.2))
  | .catFirst, _, u, v, hu, hv => gives_back (gives_catFirstOp (goodV_toV hu) (goodV_toV hv))
  | .fill, _, u, v, _, hv => gives_back (gives_fill trivial well_zero _ (goodV_toV hv))
  | .sel, _, u, v, _, hv => gives_need hc fun h => gives_back (gives_sel well_allZeros _ (goodV_toV hv) (solid_pos h))
  | .part, _, u, v, hu, hv => gives_need hc fun h => gives_partOp hu hv (solid_pos h)
  | .same, _, u, v, _, _ => tidy_toInt _
  | .notSame, _, u, v, _, _ => tidy_toInt _
  | .intersect, _, u, v, hu, hv => gives_intersect c.lib hu hv
  | .union, _, u, v, hu, hv => gives_union c.lib hu hv
  | .inner f g, ho, u, v, hu, hv => gives_need hc fun h => by
      rw [Bool.and_eq_true] at h
      exact gives_back (gives_inner c.S (gives_F2 hc f ho.1) (gives_F2 hc g ho.2) (goodV_toV hu) (goodV_toV hv) (solid_pos h.1) (solid_pos h.2))
  | .outer f, ho, u, v, hu, hv => gives_back (gives_outer c.S (gives_F2 hc f ho) (goodV_toV hu) (goodV_toV hv))
  | .each op f, ho, u, v, hu, hv => gives_eachB (gives_F2 hc f ho.2) _ op (Nat.lt_succ_self _) ho.1 hu hv
  | .no _, _, _, _, _, _ => trivial

/-! ## All unary operators -/

theorem gives_eachU {h : Val → R Val} (hh : ∀ v, Well v → Gives Well (h v)) : ∀ (n : Nat) (op : List Char) {v : Val}, op.length < n → Well v → Gives Well (eachU h n op v)
  | 0, op, v, hn, _ => by omega
  | n + 1, op, v, hn, hv => by
    unfold eachU
    split
    · rename_i hat
      refine gives_bind (gives_Each (P := Well) (Q := Well) (J := fun _ => True) (fun name x s h1 hx _ => ?_) (goodV_toV hv) trivial (by intro h; rw [h] at hat; simp at hat))
        fun r hr => well_ofV hr.1
      exact gives_bind (gives_eachU hh n name (by omega) (well_ofV hx)) fun z hz => ⟨hz, trivial⟩
    · exact hh v hv

mutual
theorem wells_flatten : ∀ v : Val, Well v → ∀ x ∈ flattenV v, Well x
  | .num _, h => by simpa [flattenV] using h
  | .cplx _ _, h => by simpa [flattenV] using h
  | .vec l, h => by rw [flattenV]; exact wells_flattenL l h
  | .mat _ l, h => by rw [flattenV]; exact wells_flattenL l h.2.2
theorem wells_flattenL : ∀ l : List Val, Wells l → ∀ x ∈ flattenL l, Well x
  | [], _ => by simp [flattenL]
  | x :: xs, h => by
    intro y hy
    rw [flattenL, List.mem_append] at hy
    rcases hy with hy | hy
    · exact wells_flatten x h.1 y hy
    · exact wells_flattenL xs h.2 y hy
end

theorem gives_upOp (c : Conf) {v : Val} (hv : Well v) (h0 : solid v = true) : Gives Well (upOp c v) := by
  cases v with
  | num n => exact hv
  | cplx a b => trivial
  | vec l => exact well_ints _
  | mat s d =>
    cases s with
    | nil => exact (hv.1 rfl).elim
    | cons r s =>
      cases r with
      | zero =>
        have := hv.2.1
        rw [List.prod_cons, Nat.zero_mul] at this
        rw [List.eq_nil_of_length_eq_zero this] at h0
        simp [solid] at h0
      | succ r => exact well_ints _

theorem gives_reverseW {l : List Val} (h : ∀ x ∈ l, Well x) : Gives Well ((Arr.reverse l).bind fun l => .ok (.vec l)) :=
  gives_bind (gives_reverse h) fun _ hl => well_vec hl.2

theorem gives_downOp (c : Conf) {v : Val} (hv : Well v) (h0 : solid v = true) : Gives Well (downOp c v) := by
  unfold downOp
  split
  · exact hv
  · refine gives_bind (gives_upOp c hv h0) fun r hr => ?_
    split
    · exact gives_reverseW (wells_iff.1 hr)
    · exact hr

theorem gives_turnOp {f : Mat Val → R (Mat Val)} {v : Val} (hv : Well v) (hf : ∀ m, GoodM Well m → toV v = .mat m → Gives (GoodM Well) (f m)) : Gives Well (turnOp f v) := by
  cases v with
  | num n => exact hv
  | cplx a b => exact hv
  | vec l => exact gives_reverseW (wells_iff.1 hv)
  | mat s d => exact gives_bind (hf _ (goodV_toV hv) rfl) fun m hm => well_mat hm

theorem goodOps (c : Conf) : GoodOps Well (valOps c) where
  one := well_one
  zero := well_zero
  recip := fun a ha => gives_elem1 c _ ha
  conj := fun a ha => by
    unfold valOps
    dsimp only
    split
    · exact gives_elem1 c _ ha
    · exact ha
  add := fun a b ha hb => gives_elem2 c _ ha hb
  mul := fun a b ha hb => gives_elem2 c _ ha hb
  sub := fun a b ha hb => gives_elem2 c _ ha hb
  div := fun a b ha hb => gives_elem2 c _ ha hb

theorem gives_selfNum {v : Val} (hv : Well v) : Gives Well (selfNum v) := by
  unfold selfNum
  split
  · trivial
  · exact hv

theorem gives_splitOp {v : Val} (hv : Well v) : Gives Well (splitOp v) := by
  unfold splitOp
  split
  · exact gives_bind (gives_split (m := ⟨_, _⟩) (goodV_toV hv)) fun w hw => well_ofV (good_mapV (fun _ h => well_ofV h) hw)
  · trivial
  · exact gives_selfNum hv

theorem gives_mixOp1 {v : Val} (hv : Well v) : Gives Well (mixOp1 v) := by
  unfold mixOp1
  split
  · exact gives_back (gives_mixOp well_fillValue (good_mapV (fun _ h => goodV_toV h) (goodV_toV hv)))
  · exact gives_back (gives_mixOp well_fillValue (good_mapV (fun _ h => goodV_toV h) (goodV_toV hv)))
  · exact gives_selfNum hv

/-- The same as `F2.Ok` for unary operators. -/
def F1.Ok : F1 → Prop
  | .reduce f => f.Ok
  | .reduceFirst f => f.Ok
  | .scan _ f => f.Ok
  | .scanFirst _ f => f.Ok
  | .each _ f => f.Ok
  | _ => True

theorem gives_F1 {c : Conf} (hc : c.guard = true) : ∀ (f : F1), f.Ok → ∀ v, Well v → Gives Well (f.eval c v)
  | .s o, _, v, hv => gives_elem1 c o hv
  | .plus, _, v, hv => by
    unfold F1.eval
    split
    · trivial
    · exact hv
  | .iota, _, v, _ => gives_bind (gives_iotaOp c.origin _) fun _ hr => well_ofInts hr
  | .where_, _, v, _ => gives_bind (gives_whereOp c.origin _) fun _ hr => well_ofInts hr
  | .rho, _, v, _ => by
    show Well (shapeOp v)
    unfold shapeOp
    split
    · exact ⟨well_int _, trivial⟩
    · refine well_vec fun x hx => ?_
      obtain ⟨d, _, rfl⟩ := List.mem_map.1 hx
      exact well_int _
    · trivial
  | .count, _, v, _ => by
    show Well (countOp v)
    unfold countOp
    split
    · exact well_int _
    · exact well_int _
    · exact well_one
  | .flatten, _, v, hv => well_vec (wells_flatten v hv)
  | .ravel, _, v, hv => well_vec (good_data (goodV_toV hv))
  | .up, _, v, hv => gives_need hc fun h => gives_upOp c hv h
  | .down, _, v, hv => gives_need hc fun h => gives_downOp c hv h
  | .rot, _, v, hv => gives_need hc fun h => gives_turnOp hv fun m hm e => gives_mono (gives_rotRows hm (solid_pos h m e)) fun _ h => h.1
  | .flip, _, v, hv => gives_turnOp hv fun m hm _ => gives_mono (gives_flipRows hm) fun _ h => h.1
  | .transp, _, v, hv => gives_need hc fun h => by
      cases v with
      | num n => exact hv
      | cplx a b => exact hv
      | vec l => exact hv
      | mat s d =>
        refine gives_bind (gives_transp c.S c.origin (m := ⟨s, d⟩) (goodV_toV hv) fun x y e => ?_) fun m hm => well_mat hm
        change s = [x, y] at e
        subst e
        simpa [transpFine] using h
  | .inv, _, v, hv => gives_need hc fun h => gives_back (gives_inv (goodOps c) (goodV_toV hv) (solid_pos h))
  | .split, _, v, hv => gives_splitOp hv
  | .mix, _, v, hv => gives_mixOp1 hv
  | .unique, _, v, hv => gives_unique c.lib hv
  | .box, _, v, hv => ⟨hv, trivial⟩
  | .first, _, v, hv => by
    show Well (firstOp v)
    have := good_data (goodV_toV hv)
    unfold firstOp
    cases e : (toV v).data with
    | nil => exact well_zero
    | cons x xs => exact this x (by rw [e]; exact List.mem_cons_self ..)
  | .reduce f, ho, v, hv => gives_back (gives_reduce c.S isNumber (gives_F2 hc f ho) (goodV_toV hv))
  | .reduceFirst f, ho, v, hv => gives_back (gives_reduceFirst c.S isNumber (gives_F2 hc f ho) (goodV_toV hv))
  | .scan name f, ho, v, hv => gives_back (gives_scan c.S isNumber name (gives_F2 hc f ho) (goodV_toV hv))
  | .scanFirst name f, ho, v, hv => gives_back (gives_scanFirst c.S c.origin isNumber name (gives_F2 hc f ho) (goodV_toV hv))
  | .each op f, ho, v, hv => gives_eachU (gives_F1 hc f ho) _ op (Nat.lt_succ_self _) hv
  | .no _, _, _, _ => trivial

end Verif.Safe
