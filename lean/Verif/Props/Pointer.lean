import Verif.Model.Pointer
import Verif.Props.ViewOps
import Verif.Props.Reshape
import Verif.Props.Reduce
import Verif.Props.Traversal
/-!
# C68: the pointers of a traversal
-/

namespace Ra.Spec
section
variable {m : Type → Type} {α : Type}

mutual
/-- Addresses of the elements of the views in an expression, at index `j`. Entries that aren't in `j` are 0. -/
def pointersAt : Iter m α → List Int → List Int
  | .scalar _, _ => []
  | .cell dims cp _, j => [cp + dot (dims.map Dim.step) j]
  | .reframe dest a, j => pointersAt a (dest.map fun d => j.getD d 0)
  | .node _ t, j => pointersAts t j
def pointersAts : List (Iter m α) → List Int → List Int
  | [], _ => []
  | a :: t, j => pointersAt a j ++ pointersAts t j
end

/-- `p` is in the array, or one past its end. The array has the addresses from `lo` to `lo + n - 1`, given as `some (lo, n)`. -/
def InArray (p : Int) : Option (Int × Int) → Prop
  | none => True
  | some (lo, n) => lo ≤ p ∧ p ≤ lo + n

/-- Each pointer is in its array. -/
def InArrays (ps : List Int) (b : List (Option (Int × Int))) : Prop := ∀ x ∈ ps.zip b, InArray x.1 x.2

/-- All the pointers are in their arrays for the valid indices of shape `s`, and also when one entry is the length of its axis, as long as the next ones are 0. -/
def Roomy (a : Iter m α) (s : List Nat) (b : List (Option (Int × Int))) : Prop :=
  ∀ (k n : Nat), s[k]? = some n → ∀ i, Valid (s.take k) i → ∀ t : Int, 0 ≤ t → t ≤ n → InArrays (pointersAt a (i ++ [t])) b

end
end Ra.Spec

namespace Ra.Props
open Spec

section
variable {m : Type → Type} {α β : Type}

mutual
theorem ptrs_shift (a : Iter m α) (j : List Int) : (a.shift (disp j)).ptrs = pointersAt a j := by
  cases a with
  | scalar c => rfl
  | cell dims cp rd => simp only [Iter.shift, Iter.ptrs, pointersAt, offset_disp]
  | reframe dest a => simp only [Iter.shift, Iter.ptrs, pointersAt, ← disp_reframe, ptrs_shift a]
  | node op t => simp only [Iter.shift, Iter.ptrs, pointersAt, ptrsList_shift t j]
theorem ptrsList_shift (t : List (Iter m α)) (j : List Int) : ptrsList (shiftList t (disp j)) = pointersAts t j := by
  cases t with
  | nil => rfl
  | cons a t => simp only [shiftList, ptrsList, pointersAts, ptrs_shift a, ptrsList_shift t]
end

theorem ptrsOk_iff (a : Iter m α) (b : List (Option (Int × Int))) : a.ptrsOk b = true ↔ InArrays a.ptrs b := by
  simp only [Iter.ptrsOk, List.all_eq_true, InArrays]
  refine forall_congr' fun x => forall_congr' fun _ => ?_
  rcases x with ⟨p, _ | ⟨lo, n⟩⟩ <;> simp [ptrOk, InArray]

theorem roomy_ok {a : Iter m α} {s : List Nat} {b : List (Option (Int × Int))} (h : Roomy a s b) {k n : Nat} (hk : s[k]? = some n) {i : List Int} (hi : Valid (s.take k) i)
    {t : Int} (h0 : 0 ≤ t) (h1 : t ≤ n) : (a.shift (disp (i ++ [t]))).ptrsOk b = true := by
  rw [ptrsOk_iff, ptrs_shift]
  exact h k n hk i hi t h0 h1

theorem disp_concat (i : List Int) (t : Int) : disp (i ++ [t]) = bump (disp i) i.length t := by
  rw [disp_eq, addAt_append, addAt_cons, addAt_nil, ← disp_eq]
  simp

variable [Monad m] [LawfulMonad m] [MonadFault m]

omit [LawfulMonad m] in
theorem moved_ok {b : List (Option (Int × Int))} {a : Iter m α} (h : a.ptrsOk b = true) : moved b a = pure a := by rw [moved, if_pos h]

theorem innerP_eq (b : List (Option (Int × Int))) (stop : α → Option β) (a : Iter m α) (ha : a.WF) (v : Nat → Int) (z n : Nat) : ∀ i : Nat,
    (∀ t : Nat, i < t → t ≤ i + n → (a.shift (bump v z t)).ptrsOk b = true) →
    innerP b stop (a.step z) n (a.shift (bump v z i)) = inner stop (a.step z) n (a.shift (bump v z i)) := by
  induction n with
  | zero => intro i _; rfl
  | succ n ih =>
    intro i h
    simp only [innerP, inner]
    congr 1; funext x
    cases stop x with
    | some b => rfl
    | none =>
      simp only [a.mov_shift ha, bump_bump]
      have h1 := h (i+1) (by omega) (by omega)
      push_cast at h1
      rw [moved_ok h1, pure_bind]
      have := ih (i+1) (fun t h1 h2 => h t (by omega) (by omega))
      push_cast at this
      exact this

theorem subplyP_eq (b : List (Option (Int × Int))) (stop : α → Option β) (a : Iter m α) (ha : a.WF) (hb : a.Bounded) (h : Roomy a a.natShape b) {r : Nat} (hr : a.rank.toNat = r + 1)
    (k : Nat) : k ≤ r → ∀ i, Valid (a.natShape.take (r-k)) i →
    subplyP b stop (r+1) (a.len r) (a.step r) k (a.shift (disp i)) = subply stop (r+1) (a.len r) (a.step r) k (a.shift (disp i)) := by
  induction k with
  | zero =>
    intro _ i hi
    have hil : i.length = r := by rw [hi.length]; simp [length_natShape]; omega
    simp only [subplyP, subply]
    have := innerP_eq b stop a ha (disp i) r (a.len r).toNat 0 (by
      intro t _ ht
      have h1 := roomy_ok h (natShape_get a (k := r) (by omega)) hi (t := t) (by omega) (by omega)
      rw [disp_concat, hil] at h1
      exact h1)
    rw [Nat.cast_zero, bump_zero] at this
    rw [this]
    congr 1
  | succ k ih =>
    intro hk i hi
    have ho : r + 1 - 1 - (k + 1) = r - (k+1) := by omega
    have ho' : r - (k + 1) + 1 = r - k := by omega
    have hg := natShape_get a (k := r - (k+1)) (by omega)
    have hlen := hb (r - (k+1)) (by omega)
    have hil : i.length = r - (k+1) := by rw [hi.length]; simp [length_natShape]; omega
    have hloop : ∀ (n t : Nat), t + n ≤ (a.len (r-(k+1))).toNat → subplyLoopP b (subplyP b stop (r+1) (a.len r) (a.step r) k) (r-(k+1)) n (a.shift (bump (disp i) (r-(k+1)) t)) =
        subplyLoop (subply stop (r+1) (a.len r) (a.step r) k) (r-(k+1)) n (a.shift (bump (disp i) (r-(k+1)) t)) := by
      intro n
      induction n with
      | zero => intro t _; rfl
      | succ n ihn =>
        intro t ht
        have hv : Valid (a.natShape.take (r-k)) (i ++ [(t : Int)]) := by
          rw [← ho', List.take_add_one, hg]
          exact valid_append hi ⟨by omega, by omega, trivial⟩
        have hc := disp_concat i (t : Int)
        rw [hil] at hc
        simp only [subplyLoopP, subplyLoop]
        rw [← hc, ih (by omega) _ hv, subply_eq stop a ha hb hr k (by omega)]
        simp only [bind_assoc]
        congr 1; funext x
        cases x with
        | some y => simp
        | none =>
          simp only [pure_bind]
          rw [hc, a.adv_shift ha, bump_bump]
          have h1 := roomy_ok h hg hi (t := t + 1) (by omega) (by omega)
          rw [disp_concat, hil] at h1
          rw [moved_ok h1, pure_bind]
          have := ihn (t+1) (by omega)
          push_cast at this
          exact this
    have h0 := hloop (a.len (r-(k+1))).toNat 0 (by omega)
    rw [Nat.cast_zero, bump_zero] at h0
    have h1 := subplyLoop_eq stop a ha (subply stop (r+1) (a.len r) (a.step r) k) (r-(k+1)) (rowMajor (a.natShape.drop (r-k)))
      (by rw [ho']; exact fun w => subply_eq stop a ha hb hr k (by omega) w) (disp i) (a.len (r-(k+1))).toNat 0
    rw [Nat.cast_zero, bump_zero] at h1
    simp only [subplyP, subply, ho, a.len_shift, h0, h1, bind_assoc]
    congr 1; funext x
    cases x with
    | some y => simp
    | none =>
      simp only [pure_bind, a.adv_shift ha, bump_bump, Nat.zero_add, Int.toNat_of_nonneg hlen]
      rw [show a.len (r-(k+1)) + -a.len (r-(k+1)) = 0 by omega]
      have h2 := roomy_ok h hg hi (t := 0) (by omega) (by omega)
      rw [disp_concat, hil] at h2
      rw [moved_ok h2, pure_bind]

theorem plyFixedP_eq (b : List (Option (Int × Int))) (stop : α → Option β) (a : Iter m α) (ha : a.WF) (hb : a.Bounded) (h : Roomy a a.natShape b) :
    plyFixedP b stop a = plyFixed stop a := by
  simp only [plyFixedP, plyFixed]
  split
  · cases hr : a.rank.toNat with
    | zero => rfl
    | succ r =>
      simp only []
      have hd0 : disp [] = fun _ => 0 := by funext k; simp [disp]
      have := subplyP_eq b stop a ha hb h hr r (by omega) [] (by simp [Valid])
      rw [hd0, Iter.shift_zero] at this
      exact this
  · rfl

/-- What the carry does, with its intermediate states. -/
theorem carryP_eq (b : List (Option (Int × Int))) (a : Iter m α) (ha : a.WF) (h : Roomy a a.natShape b) (n : Nat) (hn : n ≤ a.rank.toNat) (o rest : List Int)
    (ho : Valid (outerLens a n) o) :
    carryP b (outerAxes a n) (o ++ rest) (a.shift (disp o.reverse)) = pure (carry (outerAxes a n) (o ++ rest) (a.shift (disp o.reverse))) := by
  induction n generalizing o with
  | zero =>
    cases o with
    | nil => simp [outerAxes, carryP, carry]
    | cons i o => simp [outerLens, Valid] at ho
  | succ n ih =>
    rw [outerLens_succ] at ho
    cases o with
    | nil => simp [Valid] at ho
    | cons i o =>
      simp only [Valid] at ho
      rw [outerAxes_succ]
      have hol : o.length = n := by rw [ho.2.2.length]; simp [outerLens]
      have hv : Valid (a.natShape.take n) o.reverse := by
        have h1 : outerLens a n = (a.natShape.take n).reverse := outerLens_eq a (by omega)
        have h2 := ho.2.2
        rw [h1] at h2
        have h3 := mem_rowMajorR.mpr h2
        rw [rowMajorR_eq, List.reverse_reverse] at h3
        obtain ⟨q, hq, rfl⟩ := List.mem_map.mp h3
        rw [List.reverse_reverse]
        exact mem_rowMajor.mp hq
      have hg := natShape_get a (k := n) (by omega)
      have hc : ∀ t : Int, disp (o.reverse ++ [t]) = bump (disp o.reverse) n t := by
        intro t; rw [disp_concat]; simp [hol]
      simp only [List.cons_append, carryP, carry, List.reverse_cons, hc]
      by_cases hi : i + 1 < a.len n
      · rw [if_pos hi, if_pos hi, a.adv_shift ha, bump_bump]
        have h1 := roomy_ok h hg hv (t := i + 1) (by omega) (by omega)
        rw [hc] at h1
        rw [moved_ok h1, pure_bind]
      · rw [if_neg hi, if_neg hi, a.adv_shift ha, bump_bump]
        have e : i + (1 - a.len n) = 0 := by omega
        have h1 := roomy_ok h hg hv (t := 0) (by omega) (by omega)
        rw [hc] at h1
        rw [e, moved_ok h1, pure_bind, bump_zero, ih (by omega) o ho.2.2, pure_bind]

omit [Monad m] [LawfulMonad m] [MonadFault m] in
theorem valid_outer {a : Iter m α} {n : Nat} (hn : n ≤ a.rank.toNat) {o : List Int} (ho : Valid (outerLens a n) o) : Valid (a.natShape.take n) o.reverse := by
  rw [outerLens_eq a hn] at ho
  have h3 := mem_rowMajorR.mpr ho
  rw [rowMajorR_eq, List.reverse_reverse] at h3
  obtain ⟨q, hq, rfl⟩ := List.mem_map.mp h3
  rw [List.reverse_reverse]
  exact mem_rowMajor.mp hq

theorem nextIx_valid {s : List Nat} {o o' : List Int} (ho : Valid s o) (h : nextIx s o = some o') : Valid s o' := by
  induction s generalizing o o' with
  | nil => cases o <;> simp [nextIx] at h
  | cons n s ih =>
    cases o with
    | nil => simp [Valid] at ho
    | cons i o =>
      simp only [Valid] at ho
      simp only [nextIx] at h
      split at h
      · simp only [Option.some.injEq] at h
        subst h
        exact ⟨by omega, by assumption, ho.2.2⟩
      · cases hx : nextIx s o with
        | none => simp [hx] at h
        | some o'' =>
          simp only [hx, Option.map_some, Option.some.injEq] at h
          subst h
          exact ⟨by omega, by omega, ih ho.2.2 hx⟩

omit [Monad m] [LawfulMonad m] [MonadFault m] in
/-- The pointers of the inner loop. -/
theorem inner_ok {b : List (Option (Int × Int))} {a : Iter m α} (ha : a.WF) (h : Roomy a a.natShape b) {r n : Nat} (hr : a.rank.toNat = r + 1) (hn : n ≤ r)
    (hrav : Raveled a r n) {i : List Int} (hi : Valid (a.natShape.take n) i) (t : Nat) (h0 : 0 < t) (ht : t ≤ Spec.size (a.natShape.drop n)) :
    (a.shift (bump (disp i) r t)).ptrsOk b = true := by
  have hil : i.length = n := by rw [hi.length]; simp [length_natShape]; omega
  -- the position before
  obtain ⟨j, hj, hp⟩ : ∃ j, Valid (a.natShape.drop n) j ∧ position (a.natShape.drop n) j = ((t - 1 : Nat) : Int) := by
    have hm : ((t - 1 : Nat) : Int) ∈ (rowMajor (a.natShape.drop n)).map (position (a.natShape.drop n)) := by
      rw [map_position]
      exact List.mem_map.mpr ⟨t - 1, List.mem_range.mpr (by omega), rfl⟩
    obtain ⟨j, hj, e⟩ := List.mem_map.mp hm
    exact ⟨j, mem_rowMajor.mp hj, e⟩
  have hv : Valid a.natShape (i ++ j) := by
    have := valid_append hi hj
    rwa [List.take_append_drop] at this
  have e1 : a.shift (bump (disp i) r t) = a.shift (bump (disp (i ++ j)) r 1) := by
    have e2 : a.shift (disp (i ++ j)) = a.shift (bump (disp i) r ((t - 1 : Nat) : Int)) := by
      rw [← hp, ← hrav _ _ hj, disp_eq (i ++ j), addAt_append, hil, ← disp_eq]; simp
    rw [shift_bump_congr a ha e2, bump_bump]
    congr 2; omega
  rw [e1]
  have hlen : (i ++ j).length = r + 1 := by rw [hv.length, length_natShape, hr]
  obtain ⟨q, u, hq⟩ : ∃ q u, i ++ j = q ++ [u] := by
    refine ⟨(i ++ j).dropLast, (i ++ j).getLast (by intro e; rw [e] at hlen; simp at hlen), (List.dropLast_append_getLast _).symm⟩
  rw [hq] at hv hlen ⊢
  have hql : q.length = r := by simpa using hlen
  have hg := natShape_get a (k := r) (by omega)
  have hs : a.natShape = a.natShape.take r ++ [(a.len r).toNat] := by
    conv_lhs => rw [← List.take_append_drop r a.natShape]
    rw [drop_shape (by omega), List.drop_eq_nil_of_le (by rw [length_natShape]; omega)]
  rw [hs] at hv
  obtain ⟨v1, v2⟩ : Valid (a.natShape.take r) q ∧ Valid [(a.len r).toNat] [u] := by
    obtain ⟨q', j', e, v1, v2⟩ := valid_split hv
    obtain ⟨rfl, rfl⟩ := List.append_inj' e (by rw [v2.length]; rfl)
    exact ⟨v1, v2⟩
  simp only [Valid] at v2
  have h2 := roomy_ok h hg v1 (t := u + 1) (by omega) (by omega)
  rw [disp_concat, hql] at h2
  rw [disp_concat, hql, bump_bump]
  exact h2

theorem ravelLoopP_eq (b : List (Option (Int × Int))) (stop : α → Option β) (a : Iter m α) (ha : a.WF) (h : Roomy a a.natShape b) {r n : Nat} (hr : a.rank.toNat = r + 1) (hn : n ≤ r)
    (hrav : Raveled a r n) (rest : List Int) (fuel : Nat) : ∀ o, Valid (outerLens a n) o →
    ravelLoopP b stop (Spec.size (a.natShape.drop n)) (a.step r) (outerAxes a n) fuel (o ++ rest) (a.shift (disp o.reverse)) =
    ravelLoop stop (Spec.size (a.natShape.drop n)) (a.step r) (outerAxes a n) fuel (o ++ rest) (a.shift (disp o.reverse)) := by
  induction fuel with
  | zero => intro o _; rfl
  | succ fuel ih =>
    intro o ho
    simp only [ravelLoopP, ravelLoop, Int.toNat_natCast]
    have h1 := innerP_eq b stop a ha (disp o.reverse) r (Spec.size (a.natShape.drop n)) 0
      (fun t h0 h1 => inner_ok ha h hr hn hrav (valid_outer (by omega) ho) t h0 (by omega))
    have h2 := inner_eq stop a ha (disp o.reverse) r (Spec.size (a.natShape.drop n)) 0
    rw [Nat.cast_zero, bump_zero] at h1 h2
    rw [h1, h2]
    simp only [bind_assoc]
    congr 1; funext x
    cases x with
    | some y => simp
    | none =>
      simp only [pure_bind, a.load_save]
      rw [carryP_eq b a ha h n (by omega) o rest ho, pure_bind]
      have hc := carry_eq a ha n o rest (fun _ => 0) ho
      rw [← disp_eq] at hc
      rw [hc]
      cases hx : nextIx (outerLens a n) o with
      | none => simp
      | some o' =>
        simp only [Bool.false_eq_true, if_false]
        rw [← disp_eq]
        exact ih o' (nextIx_valid ho hx)

theorem plyRavelP_eq (b : List (Option (Int × Int))) (stop : α → Option β) (a : Iter m α) (ha : a.WF) (hb : a.Bounded) (h : Roomy a a.natShape b) (z : List Int)
    (hz : ∀ i ∈ z, i = 0) : plyRavelP b stop z a = plyRavel stop z a := by
  simp only [plyRavelP, plyRavel]
  split
  · cases hr : a.rank.toNat with
    | zero => rfl
    | succ r =>
      simp only []
      rw [resizeZ_zero hz]
      have hd := drop_shape (a := a) (n := r) (by omega)
      have hd' : a.natShape.drop (r+1) = [] := List.drop_eq_nil_of_le (by rw [length_natShape]; omega)
      have hlen := hb r (by omega)
      obtain ⟨hcn, hcs, hcr⟩ := compact_spec a ha hb hr r (by omega) (a.len r)
        (by rw [hd, hd']; simp [Spec.size, Int.toNat_of_nonneg hlen]) (raveled_init a hr)
      rw [hcs]
      generalize hn : (compact a r r (a.len r)).1 = n at *
      have hax : ((List.range n).reverse.map fun o => (o, a.len o)) = outerAxes a n := rfl
      rw [hax]
      by_cases hany : (outerAxes a n).any (fun x => decide (x.2 ≤ 0)) = true
      · rw [if_pos hany, if_pos hany]
      · rw [if_neg hany, if_neg hany]
        have hpos : ∀ k ∈ outerLens a n, 0 < k := by
          intro k hk
          simp only [outerLens, List.mem_map, List.mem_reverse, List.mem_range] at hk
          obtain ⟨q, hq, rfl⟩ := hk
          by_contra hneg
          apply hany
          simp only [List.any_eq_true, outerAxes, List.mem_map, List.mem_reverse, List.mem_range, decide_eq_true_eq]
          exact ⟨_, ⟨q, hq, rfl⟩, by simp only; omega⟩
        have holen : (outerLens a n).length = n := by simp [outerLens]
        have hv0 : Valid (outerLens a n) (List.replicate n 0) := by
          obtain ⟨l, hl⟩ := head_rowMajorR _ hpos
          rw [holen] at hl
          exact mem_rowMajorR.mp (by rw [hl]; simp)
        have hzz : List.replicate n (0 : Int) ++ List.replicate (r+1-n) 0 = List.replicate (r+1) 0 := by
          rw [List.replicate_append_replicate]; congr 1; omega
        have hd0 : disp (List.replicate n (0 : Int)).reverse = fun _ => 0 := by
          funext k; simp only [disp, List.reverse_replicate, List.getD_eq_getElem?_getD, List.getElem?_replicate]; split <;> rfl
        have := ravelLoopP_eq b stop a ha h hr hcn hcr (List.replicate (r+1-n) 0) (ravelFuel (outerAxes a n)) _ hv0
        rw [hd0, Iter.shift_zero, hzz] at this
        exact this
  · rfl

/-- C68 when there's room. If the addresses of the views stay in their arrays, or one past the end, for all the valid indices and also when an entry is the length of its axis
(and the next ones are 0), then the traversal doesn't make other pointers, and it's the same as without limits for pointers. What's missing: in other cases the traversal makes pointers outside
of the array, which is undefined behaviour (`C68_reverse_negation`, `C68_column_negation`). -/
theorem C68_partial (b : List (Option (Int × Int))) (dyn : Bool) (stop : α → Option β) (a : Iter m α) (s : List Nat) (h : HasShape a (s.map some)) (hr : Roomy a s b)
    (z : List Int) (hz : ∀ i ∈ z, i = 0) :
    plyP b dyn stop z a = (do let r ← search (fun j => do let x ← elem a j; pure (stop x)) (rowMajor s); pure (r.map Prod.fst)) := by
  have hr' : Roomy a a.natShape b := by rw [h.natShape]; exact hr
  have : plyP b dyn stop z a = ply dyn stop z a := by
    simp only [plyP, ply, plyRavelP_eq b stop a h.wf h.bounded hr' z hz, plyFixedP_eq b stop a h.wf h.bounded hr']
  rw [this]
  cases dyn with
  | true => simp only [ply, if_true, plyRavel_eq stop a h.wf h.bounded z hz, h.natShape, evalAt_elem, bind_assoc, pure_bind]
  | false => simp only [ply, Bool.false_eq_true, if_false, plyFixed_eq stop a h.wf h.bounded, h.natShape, evalAt_elem, bind_assoc, pure_bind]

end

section
variable {m : Type → Type} {α β : Type}

theorem filldimv_room (s : List Nat) : ∀ dv p, filldimv (s.map Nat.cast) = .ok (dv, p) → p = size s ∧
    ∀ (k n : Nat), s[k]? = some n → ∀ i, Valid (s.take k) i → ∀ t : Int, 0 ≤ t → t ≤ n → 0 ≤ dot (dv.map Dim.step) (i ++ [t]) ∧ dot (dv.map Dim.step) (i ++ [t]) ≤ size s := by
  induction s with
  | nil =>
    intro dv p h
    simp only [List.map_nil, filldimv, Except.ok.injEq, Prod.mk.injEq] at h
    exact ⟨h.2.symm, by simp⟩
  | cons n0 s ih =>
    intro dv p h
    obtain ⟨dv', h1, _, _⟩ := filldimv_ok s
    simp only [List.map_cons, filldimv, h1, bind, Except.bind, pure, Except.pure] at h
    rw [if_pos (by omega)] at h
    simp only [Except.ok.injEq, Prod.mk.injEq] at h
    obtain ⟨rfl, rfl⟩ := h
    obtain ⟨_, ih⟩ := ih dv' _ h1
    refine ⟨by simp only [size]; push_cast; ring, ?_⟩
    intro k n hk i hi t h0 h2
    cases k with
    | zero =>
      simp only [List.getElem?_cons_zero, Option.some.injEq] at hk
      subst hk
      match i, hi with
      | [], _ =>
        simp only [List.nil_append, List.map_cons, dot, List.zipWith_cons_cons, List.zipWith_nil_left, List.sum_cons, List.sum_nil, add_zero, size]
        push_cast
        exact ⟨by positivity, Int.mul_le_mul_of_nonneg_right h2 (by positivity)⟩
    | succ k =>
      simp only [List.getElem?_cons_succ] at hk
      match i, hi with
      | i0 :: i, ⟨g1, g2, g3⟩ =>
        obtain ⟨e1, e2⟩ := ih k n hk i g3 t h0 h2
        simp only [List.cons_append, List.map_cons, dot, List.zipWith_cons_cons, List.sum_cons, size] at e1 e2 ⊢
        push_cast
        have h3 : 0 ≤ i0 * (size s : Int) := by positivity
        have h4 : (i0 + 1) * (size s : Int) ≤ n0 * (size s : Int) := Int.mul_le_mul_of_nonneg_right (by omega) (by positivity)
        have h5 : (i0 + 1) * (size s : Int) = i0 * size s + size s := by ring
        constructor <;> omega

/-- C68 for whole arrays in row-major order: there's room. -/
theorem C68_array (s : List Nat) (cp : Int) (v : View) (hv : View.ofShape (s.map Nat.cast) cp = .ok v) (rd : Int → m α) :
    Roomy (.cell v.dims v.cp rd) s [some (cp, size s)] := by
  obtain ⟨dv, h1, _, _⟩ := filldimv_ok s
  simp only [View.ofShape, h1, bind, Except.bind, pure, Except.pure, Except.ok.injEq] at hv
  subst hv
  intro k n hk i hi t h0 h2
  obtain ⟨_, h3⟩ := filldimv_room s _ _ h1
  obtain ⟨e1, e2⟩ := h3 k n hk i hi t h0 h2
  intro x hx
  simp only [pointersAt, List.zip_cons_cons, List.zip_nil_left, List.mem_singleton] at hx
  subst hx
  exact ⟨by simp only; omega, by simp only; omega⟩

mutual
theorem length_pointersAt (a : Iter m α) (j k : List Int) : (pointersAt a j).length = (pointersAt a k).length := by
  cases a with
  | scalar c => rfl
  | cell dims cp rd => rfl
  | reframe dest a => simp only [pointersAt]; exact length_pointersAt a _ _
  | node op t => simp only [pointersAt]; exact length_pointersAts t j k
theorem length_pointersAts (t : List (Iter m α)) (j k : List Int) : (pointersAts t j).length = (pointersAts t k).length := by
  cases t with
  | nil => rfl
  | cons a t => simp only [pointersAts, List.length_append, length_pointersAt a j k, length_pointersAts t j k]
end

/-- C68 for operations on arguments that have room, of the same shape. -/
theorem C68_node (s : List Nat) (op : List (m α) → m α) (a c : Iter m α) (ba bc : List (Option (Int × Int))) (ha : Roomy a s ba) (hc : Roomy c s bc)
    (hl : (pointersAt a []).length = ba.length) : Roomy (.node op [a, c]) s (ba ++ bc) := by
  intro k n hk i hi t h0 h2 x hx
  simp only [pointersAt, pointersAts, List.append_nil] at hx
  rw [List.zip_append (by rw [← hl]; exact length_pointersAt a _ _)] at hx
  rcases List.mem_append.mp hx with hx | hx
  · exact ha k n hk i hi t h0 h2 x hx
  · exact hc k n hk i hi t h0 h2 x hx

/-- The sum of two arrays of 2x3. -/
def sumEg : Iter (Except Fault) Int :=
  .node (mapOp fun xs => pure xs.sum) [.cell [⟨2, 3⟩, ⟨3, 1⟩] 0 pure, .cell [⟨2, 3⟩, ⟨3, 1⟩] 10 fun p => pure (2 * p)]

example : plyP [some (0, 6), some (10, 6)] true (fun x => if x = 24 then some x else none) [] sumEg = .ok none := by
  have hs : HasShape sumEg ([2, 3].map some) := ⟨[[some 2, some 3], [some 2, some 3]],
    ⟨_, _, rfl, .cons rfl (.cons rfl .nil), _, _, rfl, .cons rfl (.cons rfl .nil), rfl⟩, merge_same _⟩
  rw [C68_partial [some (0, 6), some (10, 6)] true _ sumEg [2, 3] hs
    (C68_node [2, 3] _ _ _ [some (0, 6)] [some (10, 6)] (C68_array [2, 3] 0 ⟨[⟨2, 3⟩, ⟨3, 1⟩], 0⟩ rfl _) (C68_array [2, 3] 10 ⟨[⟨2, 3⟩, ⟨3, 1⟩], 10⟩ rfl _) rfl) [] (by simp)]
  rfl

/-- C68 as it should be: a traversal of a view whose elements are in the array doesn't make pointers outside of the array. -/
def PointersStay (dyn : Bool) (v : View) (s : List Nat) (lo n : Int) : Prop :=
  Shaped v (s.map some) → (∀ j, Valid s j → lo ≤ address v j ∧ address v j < lo + n) →
    plyP (m := Except Fault) (α := Int) (β := Unit) [some (lo, n)] dyn never [] (.cell v.dims v.cp pure) ≠ .error .ub

/-- C68 is false of the code for an array that has been reversed. After the last element the pointer is moved to before the beginning of the array. -/
theorem C68_reverse_negation (dyn : Bool) : ¬ ∀ v s lo n, PointersStay dyn v s lo n := by
  intro h
  refine h ⟨[⟨3, -1⟩], 2⟩ [3] 0 3 (.cons rfl .nil) ?_ (by cases dyn <;> rfl)
  intro j hj
  match j, hj with
  | [i], ⟨h1, h2, _⟩ => simp [address, dot]; omega

/-- C68 is false of the code for the second column of a 2x2 array. After the last element the pointer is moved to two past its end. -/
theorem C68_column_negation (dyn : Bool) : ¬ ∀ v s lo n, (∀ d ∈ v.dims, 0 < d.step) → PointersStay dyn v s lo n := by
  intro h
  refine h ⟨[⟨2, 2⟩], 1⟩ [2] 0 4 (by simp) (.cons rfl .nil) ?_ (by cases dyn <;> rfl)
  intro j hj
  match j, hj with
  | [i], ⟨h1, h2, _⟩ => simp [address, dot]; omega

end
end Ra.Props
