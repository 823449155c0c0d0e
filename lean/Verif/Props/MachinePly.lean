import Verif.Model.MachinePly
import Verif.Props.Pointer
import Verif.Props.Machine
import Verif.Props.Chain
/-!
# C101: traversals with 64 bits
-/

namespace Ra.Spec

/-- Arrays with no more than the largest number of elements that can be represented. -/
def SizedArrays (b : List (Option (Int × Int))) : Prop := ∀ x ∈ b, ∃ lo n, x = some (lo, n) ∧ n ≤ dimMax

/-- In each axis but the last: the number of elements in it and the axes after it can be represented; and so can, in each array, the distance between elements that are as many apart, on the last
axis, as elements there are in the axes after. -/
def Measured {m : Type → Type} {α : Type} (a : Iter m α) (s : List Nat) : Prop :=
  ∀ k < s.length, (size (s.drop k) : Int) ≤ dimMax ∧
    (1 ≤ k → ∀ x ∈ (pointersAt a []).zip (pointersAt a (List.replicate (s.length - 1) 0 ++ [(size (s.drop k) : Int)])), -dimMax - 1 ≤ x.2 - x.1 ∧ x.2 - x.1 ≤ dimMax)

end Ra.Spec

namespace Ra.Props
open Spec

section
variable {m : Type → Type} {α β : Type}

mutual
theorem length_ptrs_adv (a : Iter m α) (k : Nat) (d : Int) : (a.adv k d).ptrs.length = a.ptrs.length := by
  cases a with
  | scalar c => rfl
  | cell dims cp rd => rfl
  | reframe dest a =>
    simp only [Iter.adv]
    split
    · exact length_ptrs_adv a _ d
    · rfl
  | node op t => exact length_ptrsList_adv t k d
theorem length_ptrsList_adv (t : List (Iter m α)) (k : Nat) (d : Int) : (ptrsList (advList t k d)).length = (ptrsList t).length := by
  cases t with
  | nil => rfl
  | cons a t => simp only [advList, ptrsList, List.length_append, length_ptrs_adv a k d, length_ptrsList_adv t k d]
end

mutual
/-- The products are the differences of the pointers. -/
theorem mulFits_diff (a : Iter m α) (k : Nat) (d : Int) (h : ∀ x ∈ a.ptrs.zip (a.adv k d).ptrs, fits (x.2 - x.1) = true) : a.mulFits k d = true := by
  cases a with
  | scalar c => rfl
  | cell dims cp rd =>
    have := h (cp, cp + stepOf dims k * d) (by simp [Iter.ptrs, Iter.adv])
    simp only [Iter.mulFits]
    simpa using this
  | reframe dest a =>
    simp only [Iter.mulFits]
    cases ho : orig dest k with
    | none => rfl
    | some l =>
      refine mulFits_diff a l d ?_
      intro x hx
      refine h x ?_
      simp only [Iter.adv, ho, Iter.ptrs]
      exact hx
  | node op t => exact mulFitsList_diff t k d h
theorem mulFitsList_diff (t : List (Iter m α)) (k : Nat) (d : Int) (h : ∀ x ∈ (ptrsList t).zip (ptrsList (advList t k d)), fits (x.2 - x.1) = true) : mulFitsList t k d = true := by
  cases t with
  | nil => rfl
  | cons a t =>
    simp only [ptrsList, advList] at h
    rw [List.zip_append (length_ptrs_adv a k d).symm] at h
    simp only [mulFitsList, Bool.and_eq_true]
    exact ⟨mulFits_diff a k d fun x hx => h x (List.mem_append_left _ hx), mulFitsList_diff t k d fun x hx => h x (List.mem_append_right _ hx)⟩
end

theorem mulFits_ok {b : List (Option (Int × Int))} (hb : SizedArrays b) {a : Iter m α} (hl : a.ptrs.length = b.length) {k : Nat} {d : Int} (h : a.ptrsOk b = true) (h' : (a.adv k d).ptrsOk b = true) :
    a.mulFits k d = true := by
  refine mulFits_diff a k d ?_
  intro x hx
  obtain ⟨i, hi, e⟩ := List.getElem_of_mem hx
  rw [ptrsOk_iff] at h h'
  have hi1 : i < a.ptrs.length := by simp at hi; omega
  have hi2 : i < (a.adv k d).ptrs.length := by simp at hi; omega
  have hi3 : i < b.length := by omega
  obtain ⟨lo, n, eb, hn⟩ := hb b[i] (List.getElem_mem hi3)
  have h1 := h (a.ptrs[i], b[i]) (by
    have : (a.ptrs.zip b)[i]'(by simp; omega) = (a.ptrs[i], b[i]) := by simp
    rw [← this]; exact List.getElem_mem _)
  have h2 := h' ((a.adv k d).ptrs[i], b[i]) (by
    have : ((a.adv k d).ptrs.zip b)[i]'(by simp; omega) = ((a.adv k d).ptrs[i], b[i]) := by simp
    rw [← this]; exact List.getElem_mem _)
  have e' : x = (a.ptrs[i], (a.adv k d).ptrs[i]) := by rw [← e]; simp
  simp only [eb, InArray] at h1 h2
  rw [e', fits_iff]
  simp only
  omega

mutual
theorem keepM_eq (a : Iter m α) (st : Int) (z j : Nat) (h : a.mulFits z st = true) : a.keepM st z j = .ok (a.keep st z j) := by
  cases a with
  | scalar c => rfl
  | cell dims cp rd =>
    simp only [Iter.mulFits, mul_comm] at h
    simp only [Iter.keepM, Iter.keep, mulM, h, if_true, bind, Except.bind, pure, Except.pure]
  | reframe dest a =>
    simp only [Iter.mulFits] at h
    simp only [Iter.keepM, Iter.keep]
    cases hz : orig dest z with
    | none => rfl
    | some wz =>
      cases hj : orig dest j with
      | none => rfl
      | some wj =>
        rw [hz] at h
        exact keepM_eq a st wz wj h
  | node op t => exact keepListM_eq t st z j h
theorem keepListM_eq (t : List (Iter m α)) (st : Int) (z j : Nat) (h : mulFitsList t z st = true) : keepListM t st z j = .ok (keepList t st z j) := by
  cases t with
  | nil => rfl
  | cons a t =>
    simp only [mulFitsList, Bool.and_eq_true] at h
    simp only [keepListM, keepList, keepM_eq a st z j h.1, bind, Except.bind]
    cases a.keep st z j with
    | true => simpa using keepListM_eq t st z j h.2
    | false => rfl
end

theorem ptrsOk_start {b : List (Option (Int × Int))} {a : Iter m α} (h : Roomy a a.natShape b) {r : Nat} (hr : a.rank.toNat = r + 1) : a.ptrsOk b = true := by
  have := roomy_ok h (natShape_get a (k := 0) (by omega)) (i := []) (by simp [Valid]) (t := 0) (by omega) (by omega)
  have e : disp ([] ++ [(0 : Int)]) = fun _ => 0 := by funext k; cases k <;> simp [disp]
  rwa [e, Iter.shift_zero] at this

theorem length_ptrs_shift (a : Iter m α) (j : List Int) : (a.shift (disp j)).ptrs.length = a.ptrs.length := by
  have h0 : a.ptrs = pointersAt a [] := by
    rw [← ptrs_shift]
    have : disp [] = fun _ => 0 := by funext k; simp [disp]
    rw [this, Iter.shift_zero]
  rw [ptrs_shift, h0]
  exact length_pointersAt a _ _

theorem compactM_eq {a : Iter m α} (ha : a.WF) (hb : a.Bounded) {r : Nat} (hr : a.rank.toNat = r + 1)
    (hf : ∀ k, 1 ≤ k → k ≤ r → Raveled a r k → a.mulFits r (Spec.size (a.natShape.drop k)) = true) (hs : ∀ k, k ≤ r → (size (a.natShape.drop k) : Int) ≤ dimMax) (n : Nat) (hn : n ≤ r) (ss : Int)
    (hss : ss = Spec.size (a.natShape.drop n)) (hrav : Raveled a r n) : compactM a r n ss = .ok (compact a r n ss) := by
  induction n generalizing ss with
  | zero => rfl
  | succ n ih =>
    have hfit : a.mulFits r ss = true := by rw [hss]; exact hf (n+1) (by omega) hn hrav
    simp only [compactM, compact, keepM_eq a ss r n hfit, bind, Except.bind]
    split
    · rename_i hk
      have hd := drop_shape (a := a) (n := n) (by omega)
      have hlen := hb n (by omega)
      have hprod : ss * a.len n = Spec.size (a.natShape.drop n) := by
        rw [hd, Spec.size, hss]; push_cast; rw [Int.toNat_of_nonneg hlen]; ring
      have hle := hs n (by omega)
      have hm : mulM ss (a.len n) = .ok (ss * a.len n) := by
        unfold mulM
        rw [if_pos]
        rw [fits_iff, hprod]
        constructor
        · have : (0 : Int) ≤ dimMax := by decide
          omega
        · omega
      rw [hm]
      refine ih (by omega) _ hprod ?_
      intro v j hj
      rw [hd] at hj ⊢
      cases j with
      | nil => simp [Valid] at hj
      | cons i j =>
        simp only [Valid] at hj
        rw [addAt_cons, hrav _ _ hj.2.2, bump_comm]
        obtain ⟨i', rfl⟩ : ∃ i' : Nat, i = i' := ⟨i.toNat, by omega⟩
        rw [keep_many a ha hk, bump_bump]
        simp only [position]
        rw [hss]; congr 2; ring
    · rfl

theorem fits_nonempty {b : List (Option (Int × Int))} (hsz : SizedArrays b) {a : Iter m α} (hl : a.ptrs.length = b.length) (ha : a.WF) (h : Roomy a a.natShape b)
    (h0 : 0 ∉ a.natShape) {r : Nat} (hr : a.rank.toNat = r + 1) (n : Nat) (hn : n ≤ r) (hrav : Raveled a r n) : a.mulFits r (Spec.size (a.natShape.drop n)) = true := by
  have hz : Valid (a.natShape.take n) (List.replicate n 0) := by
    have := valid_zeros_pos (s := a.natShape.take n) fun h => h0 (List.mem_of_mem_take h)
    rwa [List.length_take, length_natShape, Nat.min_eq_left (by omega)] at this
  have hd0 : disp (List.replicate n (0 : Int)) = fun _ => 0 := by
    funext k; simp only [disp, List.getD_eq_getElem?_getD, List.getElem?_replicate]; split <;> rfl
  have hpos : 0 < size (a.natShape.drop n) := Nat.pos_of_ne_zero fun e => h0 (List.mem_of_mem_drop (size_zero.mp e))
  have hok := inner_ok ha h hr hn hrav hz (Spec.size (a.natShape.drop n)) hpos (le_refl _)
  rw [hd0] at hok
  refine mulFits_ok hsz hl (ptrsOk_start h hr) ?_
  have e := a.adv_shift ha (fun _ => 0) r (Spec.size (a.natShape.drop n))
  rw [Iter.shift_zero] at e
  rw [e]
  exact hok

variable [Monad m] [LawfulMonad m] [MonadFault m]

omit [LawfulMonad m] in
theorem advM_ok {b : List (Option (Int × Int))} (hb : SizedArrays b) {a : Iter m α} (hl : a.ptrs.length = b.length) {k : Nat} {d : Int} (h : a.ptrsOk b = true) (h' : (a.adv k d).ptrsOk b = true) :
    advM b a k d = pure (a.adv k d) := by
  rw [advM, if_pos (mulFits_ok hb hl h h'), moved_ok h']

theorem subplyM_eq (b : List (Option (Int × Int))) (hsz : SizedArrays b) (stop : α → Option β) (a : Iter m α) (hl : a.ptrs.length = b.length) (ha : a.WF) (hb : a.Bounded)
    (h : Roomy a a.natShape b) {r : Nat} (hr : a.rank.toNat = r + 1) (k : Nat) : k ≤ r → ∀ i, Valid (a.natShape.take (r-k)) i →
    subplyM b stop (r+1) (a.len r) (a.step r) k (a.shift (disp i)) = subply stop (r+1) (a.len r) (a.step r) k (a.shift (disp i)) := by
  induction k with
  | zero =>
    intro h1 i hi
    exact subplyP_eq b stop a ha hb h hr 0 h1 i hi
  | succ k ih =>
    intro hk i hi
    have ho : r + 1 - 1 - (k + 1) = r - (k+1) := by omega
    have ho' : r - (k + 1) + 1 = r - k := by omega
    have hg := natShape_get a (k := r - (k+1)) (by omega)
    have hlen := hb (r - (k+1)) (by omega)
    have hil : i.length = r - (k+1) := by rw [hi.length]; simp [length_natShape]; omega
    have hok : ∀ t : Int, 0 ≤ t → t ≤ (a.len (r-(k+1))).toNat → (a.shift (bump (disp i) (r-(k+1)) t)).ptrsOk b = true := by
      intro t t0 t1
      have h1 := roomy_ok h hg hi (t := t) t0 t1
      rwa [disp_concat, hil] at h1
    have hln : ∀ t : Int, (a.shift (bump (disp i) (r-(k+1)) t)).ptrs.length = b.length := by
      intro t
      have := length_ptrs_shift a (i ++ [t])
      rw [disp_concat, hil] at this
      rw [this, hl]
    have hloop : ∀ (n t : Nat), t + n ≤ (a.len (r-(k+1))).toNat → subplyLoopM b (subplyM b stop (r+1) (a.len r) (a.step r) k) (r-(k+1)) n (a.shift (bump (disp i) (r-(k+1)) t)) =
        subplyLoop (subply stop (r+1) (a.len r) (a.step r) k) (r-(k+1)) n (a.shift (bump (disp i) (r-(k+1)) t)) := by
      intro n
      induction n with
      | zero => intro t _; rfl
      | succ n ihn =>
        intro t ht
        have hv : Valid (a.natShape.take (r-k)) (i ++ [(t : Int)]) := by
          rw [← ho', List.take_add_one, hg]
          exact valid_append hi ⟨by omega, by omega, trivial⟩
        have hc := disp_concat i (t : Int)
        rw [hil] at hc
        simp only [subplyLoopM, subplyLoop]
        rw [← hc, ih (by omega) _ hv, subply_eq stop a ha hb hr k (by omega)]
        simp only [bind_assoc]
        congr 1; funext x
        cases x with
        | some y => simp
        | none =>
          simp only [pure_bind]
          have e := a.adv_shift ha (bump (disp i) (r-(k+1)) t) (r-(k+1)) 1
          rw [hc, advM_ok hsz (hln _) (hok _ (by omega) (by omega)) (by rw [e, bump_bump]; exact hok _ (by omega) (by omega)), pure_bind, e, bump_bump]
          have := ihn (t+1) (by omega)
          push_cast at this
          exact this
    have h0 := hloop (a.len (r-(k+1))).toNat 0 (by omega)
    rw [Nat.cast_zero, bump_zero] at h0
    have h1 := subplyLoop_eq stop a ha (subply stop (r+1) (a.len r) (a.step r) k) (r-(k+1)) (rowMajor (a.natShape.drop (r-k)))
      (by rw [ho']; exact fun w => subply_eq stop a ha hb hr k (by omega) w) (disp i) (a.len (r-(k+1))).toNat 0
    rw [Nat.cast_zero, bump_zero] at h1
    simp only [subplyM, subply, ho, a.len_shift, h0, h1, bind_assoc]
    congr 1; funext x
    cases x with
    | some y => simp
    | none =>
      simp only [pure_bind, Nat.zero_add, Int.toNat_of_nonneg hlen]
      have e := a.adv_shift ha (bump (disp i) (r-(k+1)) (a.len (r-(k+1)))) (r-(k+1)) (-a.len (r-(k+1)))
      rw [advM_ok hsz (hln _) (hok _ (by omega) (by omega)) (by
        rw [e, bump_bump, show a.len (r-(k+1)) + -a.len (r-(k+1)) = 0 by omega]
        exact hok _ (by omega) (by omega)), pure_bind]

theorem carryM_eq (b : List (Option (Int × Int))) (hsz : SizedArrays b) (a : Iter m α) (hl : a.ptrs.length = b.length) (ha : a.WF) (h : Roomy a a.natShape b) (n : Nat) (hn : n ≤ a.rank.toNat)
    (o rest : List Int) (ho : Valid (outerLens a n) o) :
    carryM b (outerAxes a n) (o ++ rest) (a.shift (disp o.reverse)) = pure (carry (outerAxes a n) (o ++ rest) (a.shift (disp o.reverse))) := by
  induction n generalizing o with
  | zero =>
    cases o with
    | nil => simp [outerAxes, carryM, carry]
    | cons i o => simp [outerLens, Valid] at ho
  | succ n ih =>
    rw [outerLens_succ] at ho
    cases o with
    | nil => simp [Valid] at ho
    | cons i o =>
      simp only [Valid] at ho
      rw [outerAxes_succ]
      have hol : o.length = n := by rw [ho.2.2.length]; simp [outerLens]
      have hv := valid_outer (a := a) (n := n) (by omega) ho.2.2
      have hg := natShape_get a (k := n) (by omega)
      have hc : ∀ t : Int, disp (o.reverse ++ [t]) = bump (disp o.reverse) n t := by
        intro t; rw [disp_concat]; simp [hol]
      have hok : ∀ t : Int, 0 ≤ t → t ≤ (a.len n).toNat → (a.shift (bump (disp o.reverse) n t)).ptrsOk b = true := by
        intro t t0 t1
        have h1 := roomy_ok h hg hv (t := t) t0 t1
        rwa [hc] at h1
      have hln : ∀ t : Int, (a.shift (bump (disp o.reverse) n t)).ptrs.length = b.length := by
        intro t
        rw [← hc, length_ptrs_shift, hl]
      simp only [List.cons_append, carryM, carry, List.reverse_cons, hc]
      by_cases hi : i + 1 < a.len n
      · rw [if_pos hi, if_pos hi, advM_ok hsz (hln _) (hok _ (by omega) (by omega)) (by rw [a.adv_shift ha, bump_bump]; exact hok _ (by omega) (by omega)), pure_bind]
      · have e : i + (1 - a.len n) = 0 := by omega
        rw [if_neg hi, if_neg hi, advM_ok hsz (hln _) (hok _ (by omega) (by omega)) (by rw [a.adv_shift ha, bump_bump, e]; exact hok _ (by omega) (by omega)), pure_bind, a.adv_shift ha, bump_bump, e,
          bump_zero, ih (by omega) o ho.2.2, pure_bind]

theorem ravelLoopM_eq (b : List (Option (Int × Int))) (hsz : SizedArrays b) (stop : α → Option β) (a : Iter m α) (hl : a.ptrs.length = b.length) (ha : a.WF) (h : Roomy a a.natShape b) {r n : Nat}
    (hr : a.rank.toNat = r + 1) (hn : n ≤ r) (hrav : Raveled a r n) (rest : List Int) (fuel : Nat) : ∀ o, Valid (outerLens a n) o →
    ravelLoopM b stop (Spec.size (a.natShape.drop n)) (a.step r) (outerAxes a n) fuel (o ++ rest) (a.shift (disp o.reverse)) =
    ravelLoop stop (Spec.size (a.natShape.drop n)) (a.step r) (outerAxes a n) fuel (o ++ rest) (a.shift (disp o.reverse)) := by
  induction fuel with
  | zero => intro o _; rfl
  | succ fuel ih =>
    intro o ho
    simp only [ravelLoopM, ravelLoop, Int.toNat_natCast]
    have h1 := innerP_eq b stop a ha (disp o.reverse) r (Spec.size (a.natShape.drop n)) 0
      (fun t h0 h1 => inner_ok ha h hr hn hrav (valid_outer (by omega) ho) t h0 (by omega))
    have h2 := inner_eq stop a ha (disp o.reverse) r (Spec.size (a.natShape.drop n)) 0
    rw [Nat.cast_zero, bump_zero] at h1 h2
    rw [h1, h2]
    simp only [bind_assoc]
    congr 1; funext x
    cases x with
    | some y => simp
    | none =>
      simp only [pure_bind, a.load_save]
      rw [carryM_eq b hsz a hl ha h n (by omega) o rest ho, pure_bind]
      have hc := carry_eq a ha n o rest (fun _ => 0) ho
      rw [← disp_eq] at hc
      rw [hc]
      cases hx : nextIx (outerLens a n) o with
      | none => simp
      | some o' =>
        simp only [Bool.false_eq_true, if_false]
        rw [← disp_eq]
        exact ih o' (nextIx_valid ho hx)

theorem plyRavelM_eq (b : List (Option (Int × Int))) (hsz : SizedArrays b) (stop : α → Option β) (a : Iter m α) (hl : a.ptrs.length = b.length) (ha : a.WF) (hb : a.Bounded)
    (h : Roomy a a.natShape b) (hf : ∀ r, a.rank.toNat = r + 1 → ∀ k, 1 ≤ k → k ≤ r → Raveled a r k → a.mulFits r (Spec.size (a.natShape.drop k)) = true)
    (hs : ∀ k, (size (a.natShape.drop k) : Int) ≤ dimMax) (z : List Int) (hz : ∀ i ∈ z, i = 0) : plyRavelM b stop z a = plyRavel stop z a := by
  simp only [plyRavelM, plyRavel]
  split
  · cases hr : a.rank.toNat with
    | zero => rfl
    | succ r =>
      simp only []
      rw [resizeZ_zero hz]
      have hd := drop_shape (a := a) (n := r) (by omega)
      have hd' : a.natShape.drop (r+1) = [] := List.drop_eq_nil_of_le (by rw [length_natShape]; omega)
      have hlen := hb r (by omega)
      have hss : a.len r = Spec.size (a.natShape.drop r) := by rw [hd, hd']; simp [Spec.size, Int.toNat_of_nonneg hlen]
      rw [compactM_eq ha hb hr (hf r hr) (fun k _ => hs k) r (by omega) (a.len r) hss (raveled_init a hr)]
      obtain ⟨hcn, hcs, hcr⟩ := compact_spec a ha hb hr r (by omega) (a.len r) hss (raveled_init a hr)
      simp only
      rw [hcs]
      generalize hn : (compact a r r (a.len r)).1 = n at *
      have hax : ((List.range n).reverse.map fun o => (o, a.len o)) = outerAxes a n := rfl
      rw [hax]
      by_cases hany : (outerAxes a n).any (fun x => decide (x.2 ≤ 0)) = true
      · rw [if_pos hany, if_pos hany]
      · rw [if_neg hany, if_neg hany]
        have hpos : ∀ k ∈ outerLens a n, 0 < k := by
          intro k hk
          simp only [outerLens, List.mem_map, List.mem_reverse, List.mem_range] at hk
          obtain ⟨q, hq, rfl⟩ := hk
          by_contra hneg
          apply hany
          simp only [List.any_eq_true, outerAxes, List.mem_map, List.mem_reverse, List.mem_range, decide_eq_true_eq]
          exact ⟨_, ⟨q, hq, rfl⟩, by simp only; omega⟩
        have holen : (outerLens a n).length = n := by simp [outerLens]
        have hv0 : Valid (outerLens a n) (List.replicate n 0) := by
          obtain ⟨l, hl⟩ := head_rowMajorR _ hpos
          rw [holen] at hl
          exact mem_rowMajorR.mp (by rw [hl]; simp)
        have hzz : List.replicate n (0 : Int) ++ List.replicate (r+1-n) 0 = List.replicate (r+1) 0 := by
          rw [List.replicate_append_replicate]; congr 1; omega
        have hd0 : disp (List.replicate n (0 : Int)).reverse = fun _ => 0 := by
          funext k; simp only [disp, List.reverse_replicate, List.getD_eq_getElem?_getD, List.getElem?_replicate]; split <;> rfl
        have := ravelLoopM_eq b hsz stop a hl ha h hr hcn hcr (List.replicate (r+1-n) 0) (ravelFuel (outerAxes a n)) _ hv0
        rw [hd0, Iter.shift_zero, hzz] at this
        exact this
  · rfl

theorem plyFixedM_eq (b : List (Option (Int × Int))) (hsz : SizedArrays b) (stop : α → Option β) (a : Iter m α) (hl : a.ptrs.length = b.length) (ha : a.WF) (hb : a.Bounded)
    (h : Roomy a a.natShape b) : plyFixedM b stop a = plyFixed stop a := by
  simp only [plyFixedM, plyFixed]
  split
  · cases hr : a.rank.toNat with
    | zero => rfl
    | succ r =>
      simp only []
      have hd0 : disp [] = fun _ => 0 := by funext k; simp [disp]
      have := subplyM_eq b hsz stop a hl ha hb h hr r (by omega) [] (by simp [Valid])
      rw [hd0, Iter.shift_zero] at this
      exact this
  · rfl

theorem plyM_ply (b : List (Option (Int × Int))) (hsz : SizedArrays b) (dyn : Bool) (stop : α → Option β) (a : Iter m α) (hl : a.ptrs.length = b.length) (s : List Nat)
    (h : HasShape a (s.map some)) (hr : Roomy a s b)
    (hf : dyn = true → (∀ r, a.rank.toNat = r + 1 → ∀ k, 1 ≤ k → k ≤ r → Raveled a r k → a.mulFits r (Spec.size (s.drop k)) = true) ∧ ∀ k, (size (s.drop k) : Int) ≤ dimMax)
    (z : List Int) (hz : ∀ i ∈ z, i = 0) :
    plyM b dyn stop z a = (do let r ← search (fun j => do let x ← elem a j; pure (stop x)) (rowMajor s); pure (r.map Prod.fst)) := by
  have hr' : Roomy a a.natShape b := by rw [h.natShape]; exact hr
  cases dyn with
  | true =>
    obtain ⟨h1, h2⟩ := hf rfl
    have := plyRavelM_eq b hsz stop a hl h.wf h.bounded hr' (by rw [h.natShape]; exact h1) (by rw [h.natShape]; exact h2) z hz
    simp only [plyM, this, if_true, plyRavel_eq stop a h.wf h.bounded z hz, h.natShape, evalAt_elem, bind_assoc, pure_bind]
  | false =>
    have := plyFixedM_eq b hsz stop a hl h.wf h.bounded hr'
    simp only [plyM, this, Bool.false_eq_true, if_false, plyFixed_eq stop a h.wf h.bounded, h.natShape, evalAt_elem, bind_assoc, pure_bind]

/-- C101. A traversal of an expression whose views are in arrays with room (as in C68), where the number of elements of the arrays and of the expression can be represented, doesn't overflow: it
goes through the elements in row-major order until one stops it, as with integers without limits. What's missing: traversals that make pointers out of the arrays (C68), and empty expressions
(`C101_empty_partial`, `C101_negation`). -/
theorem C101_partial (b : List (Option (Int × Int))) (hsz : SizedArrays b) (dyn : Bool) (stop : α → Option β) (a : Iter m α) (hl : (pointersAt a []).length = b.length) (s : List Nat)
    (h : HasShape a (s.map some)) (hr : Roomy a s b) (h0 : 0 ∉ s) (hs : (size s : Int) ≤ dimMax) (z : List Int) (hz : ∀ i ∈ z, i = 0) :
    plyM b dyn stop z a = (do let r ← search (fun j => do let x ← elem a j; pure (stop x)) (rowMajor s); pure (r.map Prod.fst)) := by
  have hl' : a.ptrs.length = b.length := by rw [← hl, ← length_ptrs_shift a [], ptrs_shift]
  refine plyM_ply b hsz dyn stop a hl' s h hr (fun _ => ⟨?_, ?_⟩) z hz
  · intro r hrk k _ hk hrav
    have := fits_nonempty (a := a) hsz hl' h.wf (by rw [h.natShape]; exact hr) (by rw [h.natShape]; exact h0) hrk k hk hrav
    rwa [h.natShape] at this
  · intro k
    have := (size_take_le h0 k).2
    omega

/-- C101. The same for any number of elements, empty expressions included, and for those whose rank is known only when the program runs (`dyn`) if the number of elements in the last axes, and the
distance between that number of elements on the last axis, can be represented. What's missing: the rest, where it's false (`C101_negation`). -/
theorem C101_empty_partial (b : List (Option (Int × Int))) (hsz : SizedArrays b) (dyn : Bool) (stop : α → Option β) (a : Iter m α) (hl : (pointersAt a []).length = b.length) (s : List Nat)
    (h : HasShape a (s.map some)) (hr : Roomy a s b) (hf : dyn = true → Measured a s) (z : List Int) (hz : ∀ i ∈ z, i = 0) :
    plyM b dyn stop z a = (do let r ← search (fun j => do let x ← elem a j; pure (stop x)) (rowMajor s); pure (r.map Prod.fst)) := by
  have hl' : a.ptrs.length = b.length := by rw [← hl, ← length_ptrs_shift a [], ptrs_shift]
  refine plyM_ply b hsz dyn stop a hl' s h hr (fun hd => ⟨?_, ?_⟩) z hz
  · intro r hrk k h1 hk _
    have hsl : s.length = r + 1 := by rw [← h.natShape, length_natShape, hrk]
    have := (hf hd k (by omega)).2 h1
    refine mulFits_diff a r _ ?_
    have e := a.adv_shift h.wf (fun _ => 0) r (Spec.size (s.drop k))
    rw [Iter.shift_zero] at e
    have e0 : disp [] = fun _ => 0 := by funext k; simp [disp]
    have e1 : disp (List.replicate r 0 ++ [(Spec.size (s.drop k) : Int)]) = bump (fun _ => 0) r (Spec.size (s.drop k)) := by
      rw [disp_concat, List.length_replicate]
      congr 1
      funext k; simp only [disp, List.getD_eq_getElem?_getD, List.getElem?_replicate]; split <;> rfl
    rw [e, ← e1, ptrs_shift]
    have e2 : a.ptrs = pointersAt a [] := by rw [← ptrs_shift, e0, Iter.shift_zero]
    rw [e2]
    intro x hx
    rw [fits_iff]
    rw [show s.length - 1 = r by omega] at this
    exact this x hx
  · intro k
    by_cases hk : k < s.length
    · exact (hf hd k hk).1
    · rw [List.drop_eq_nil_of_le (by omega)]; decide

/-- The sum of two 2x3 arrays, and of two 0x3 arrays. -/
example (dyn : Bool) : plyM [some (0, 6), some (10, 6)] dyn (fun x => if x = 24 then some x else none) [] sumEg = .ok none := by
  have hs : HasShape sumEg ([2, 3].map some) := ⟨[[some 2, some 3], [some 2, some 3]],
    ⟨_, _, rfl, .cons rfl (.cons rfl .nil), _, _, rfl, .cons rfl (.cons rfl .nil), rfl⟩, merge_same _⟩
  rw [C101_partial [some (0, 6), some (10, 6)] (by intro x hx; simp at hx; rcases hx with rfl | rfl <;> exact ⟨_, _, rfl, by decide⟩) dyn _ sumEg rfl [2, 3] hs
    (C68_node [2, 3] _ _ _ [some (0, 6)] [some (10, 6)] (C68_array [2, 3] 0 ⟨[⟨2, 3⟩, ⟨3, 1⟩], 0⟩ rfl _) (C68_array [2, 3] 10 ⟨[⟨2, 3⟩, ⟨3, 1⟩], 10⟩ rfl _) rfl) (by decide) (by decide) [] (by simp)]
  rfl
example (dyn : Bool) : plyM (m := Except Fault) (α := Int) (β := Int) [some (0, 0)] dyn some [] (.cell [⟨0, 3⟩, ⟨3, 1⟩] 0 pure) = .ok none := by
  have hs : HasShape (m := Except Fault) (α := Int) (.cell [⟨0, 3⟩, ⟨3, 1⟩] 0 pure) ([0, 3].map some) := .cons rfl (.cons rfl .nil)
  rw [C101_empty_partial [some (0, 0)] (by intro x hx; simp at hx; subst hx; exact ⟨_, _, rfl, by decide⟩) dyn _ _ rfl [0, 3] hs (C68_array [0, 3] 0 ⟨[⟨0, 3⟩, ⟨3, 1⟩], 0⟩ rfl _) ?_ [] (by simp)]
  · rfl
  · rintro - k hk
    have : k = 0 ∨ k = 1 := by simp at hk; omega
    rcases this with rfl | rfl
    · exact ⟨by decide, by omega⟩
    · refine ⟨by decide, fun _ x hx => ?_⟩
      simp [pointersAt, dot, size] at hx
      subst hx
      decide

/-- C101 as it should be, for an expression without elements: if the number of elements can be represented, there's no overflow. -/
def TraversalFits (dyn : Bool) (v : View) (s : List Nat) (lo n : Int) : Prop :=
  Shaped v (s.map some) → n ≤ dimMax → Roomy (m := Except Fault) (α := Int) (.cell v.dims v.cp pure) s [some (lo, n)] → (size s : Int) ≤ dimMax →
    plyM (m := Except Fault) (α := Int) (β := Unit) [some (lo, n)] dyn never [] (.cell v.dims v.cp pure) ≠ .error .ub

/-- C101 is false of the code for a view without elements but with two long axes, of lengths 0, 2⁴⁰ and 2⁴⁰ and steps 0. The length of the last axes together is computed
before anything else, and it can't be represented. -/
theorem C101_negation : ¬ ∀ v s lo n, TraversalFits true v s lo n := by
  intro h
  refine h ⟨[⟨0, 0⟩, ⟨1099511627776, 0⟩, ⟨1099511627776, 0⟩], 0⟩ [0, 1099511627776, 1099511627776] 0 0 (.cons rfl (.cons rfl (.cons rfl .nil))) (by decide) ?_ (by decide) (by decide +kernel)
  intro k n _ i _ t _ _ x hx
  have : dot [0, 0, 0] (i ++ [t]) = 0 := by
    match i with
    | [] => simp [dot]
    | [a] => simp [dot]
    | [a, b] => simp [dot]
    | a :: b :: c :: i => simp [dot]
  simp [pointersAt, this] at hx
  subst hx
  exact ⟨by decide, by decide⟩

end
end Ra.Props
