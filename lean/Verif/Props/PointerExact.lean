import Verif.Props.Pointer
/-!
# C68: exactly which traversals make pointers outside of the arrays
-/

namespace Ra.Props
open Spec

section
variable {α β : Type}

/-- The pointers that the loops of `ply_fixed` on the axes in `s` make, after the entries `i`. -/
def Room (a : Iter (Except Fault) α) (b : List (Option (Int × Int))) : List Nat → List Int → Prop
  | [], _ => True
  | n :: s, i => ∀ t : Nat, t < n → Room a b s (i ++ [(t : Int)]) ∧ InArrays (pointersAt a (i ++ [(t : Int) + 1])) b

theorem moved_bad {b : List (Option (Int × Int))} {a : Iter (Except Fault) α} (h : ¬ a.ptrsOk b = true) : moved b a = .error .ub := by
  rw [moved, if_neg h]; rfl

theorem innerP_exact (b : List (Option (Int × Int))) (a : Iter (Except Fault) α) (ha : a.WF) (v : Nat → Int) (z n : Nat) : ∀ i : Nat,
    (∀ t : Nat, i ≤ t → t < i + n → ∃ x, (a.shift (bump v z t)).deref = .ok x) →
    ((∀ t : Nat, i < t → t ≤ i + n → (a.shift (bump v z t)).ptrsOk b = true) ∧
      innerP (β := β) b never (a.step z) n (a.shift (bump v z i)) = .ok (none, a.shift (bump v z ((i + n : Nat) : Int)))) ∨
    ((¬ ∀ t : Nat, i < t → t ≤ i + n → (a.shift (bump v z t)).ptrsOk b = true) ∧
      innerP (β := β) b never (a.step z) n (a.shift (bump v z i)) = .error .ub) := by
  induction n with
  | zero => intro i _; exact .inl ⟨fun t h1 h2 => by omega, rfl⟩
  | succ n ih =>
    intro i hok
    obtain ⟨x, hx⟩ := hok i (le_refl _) (by omega)
    have hstep : innerP (β := β) b never (a.step z) (n + 1) (a.shift (bump v z i)) =
        (do let a' ← moved b (a.shift (bump v z ((i + 1 : Nat) : Int))); innerP b never (a.step z) n a') := by
      simp only [innerP, hx, bind, Except.bind, never, a.mov_shift ha, bump_bump]
      push_cast
      rfl
    rw [hstep]
    by_cases h1 : (a.shift (bump v z ((i + 1 : Nat) : Int))).ptrsOk b = true
    · rw [moved_ok h1, pure_bind]
      rcases ih (i + 1) (fun t h h' => hok t (by omega) (by omega)) with ⟨h2, h3⟩ | ⟨h2, h3⟩
      · refine .inl ⟨fun t g1 g2 => ?_, by rw [h3, show i + 1 + n = i + (n + 1) by omega]⟩
        by_cases ht : t = i + 1
        · subst ht; exact h1
        · exact h2 t (by omega) (by omega)
      · exact .inr ⟨fun h => h2 fun t g1 g2 => h t (by omega) (by omega), h3⟩
    · exact .inr ⟨fun h => h1 (h (i + 1) (by omega) (by omega)), by rw [moved_bad h1]; rfl⟩

theorem shift_ok (a : Iter (Except Fault) α) (b : List (Option (Int × Int))) (j : List Int) : (a.shift (disp j)).ptrsOk b = true ↔ InArrays (pointersAt a j) b := by
  rw [ptrsOk_iff, ptrs_shift]

theorem subplyP_exact (b : List (Option (Int × Int))) (a : Iter (Except Fault) α) (ha : a.WF) (hb : a.Bounded) {r : Nat} (hr : a.rank.toNat = r + 1)
    (hok : ∀ j, Valid a.natShape j → ∃ x, elem a j = .ok x) (k : Nat) : k ≤ r → ∀ i, Valid (a.natShape.take (r-k)) i → InArrays (pointersAt a i) b →
    (Room a b (a.natShape.drop (r - k)) i ∧
      subplyP (β := β) b never (r+1) (a.len r) (a.step r) k (a.shift (disp i)) = .ok (none, a.shift (disp i))) ∨
    (¬ Room a b (a.natShape.drop (r - k)) i ∧ subplyP (β := β) b never (r+1) (a.len r) (a.step r) k (a.shift (disp i)) = .error .ub) := by
  have hl : a.natShape.length = r + 1 := by rw [length_natShape, hr]
  induction k with
  | zero =>
    intro _ i hi h0
    have hil : i.length = r := by rw [hi.length]; simp [hl]
    have hg := natShape_get a (k := r) (by omega)
    have hd : a.natShape.drop (r - 0) = [(a.len r).toNat] := by
      rw [Nat.sub_zero, List.drop_eq_getElem_cons (by omega), List.drop_eq_nil_of_le (by omega)]
      rw [List.getElem?_eq_getElem (by omega)] at hg
      simpa using hg
    have hc : ∀ t : Int, bump (disp i) r t = disp (i ++ [t]) := fun t => by rw [disp_concat, hil]
    have hroom : Room a b [(a.len r).toNat] i ↔ ∀ t : Nat, 0 < t → t ≤ 0 + (a.len r).toNat → (a.shift (bump (disp i) r t)).ptrsOk b = true := by
      simp only [Room, true_and]
      constructor
      · intro h t g1 g2
        rw [hc, shift_ok]
        have := h (t - 1) (by omega)
        rwa [show ((t - 1 : Nat) : Int) + 1 = t by omega] at this
      · intro h t ht
        have := h (t + 1) (by omega) (by omega)
        rw [hc, shift_ok] at this
        exact_mod_cast this
    have := innerP_exact (β := β) b a ha (disp i) r (a.len r).toNat 0 (by
      intro t _ ht
      rw [hc, Iter.deref_shift]
      refine hok _ ?_
      have hn : a.natShape = a.natShape.take r ++ [(a.len r).toNat] := by
        conv_lhs => rw [← List.take_append_drop r a.natShape]
        rw [← hd, Nat.sub_zero]
      rw [hn]
      exact valid_append hi ⟨by omega, by omega, trivial⟩)
    rw [Nat.cast_zero, bump_zero] at this
    rw [hd, hroom]
    simp only [subplyP]
    rcases this with ⟨h1, h2⟩ | ⟨h1, h2⟩
    · refine .inl ⟨h1, ?_⟩
      rw [h2]
      simp only [bind, Except.bind, pure, Except.pure, Except.ok.injEq, Prod.mk.injEq, true_and]
      exact a.load_save _ _
    · exact .inr ⟨h1, by rw [h2]; rfl⟩
  | succ k ih =>
    intro hk i hi h0
    have ho : r + 1 - 1 - (k + 1) = r - (k+1) := by omega
    have ho' : r - (k + 1) + 1 = r - k := by omega
    have hg := natShape_get a (k := r - (k+1)) (by omega)
    have hlen := hb (r - (k+1)) (by omega)
    have hil : i.length = r - (k+1) := by rw [hi.length]; simp [hl]; omega
    have hd : a.natShape.drop (r - (k + 1)) = (a.len (r - (k+1))).toNat :: a.natShape.drop (r - k) := by
      rw [List.drop_eq_getElem_cons (by omega), ho']
      rw [List.getElem?_eq_getElem (by omega)] at hg
      simp only [Option.some.injEq] at hg
      rw [hg]
    have hc : ∀ t : Int, bump (disp i) (r - (k+1)) t = disp (i ++ [t]) := fun t => by rw [disp_concat, hil]
    have hloop : ∀ (n t : Nat), t + n ≤ (a.len (r-(k+1))).toNat → InArrays (pointersAt a (i ++ [(t : Int)])) b →
        ((∀ u : Nat, t ≤ u → u < t + n → Room a b (a.natShape.drop (r - k)) (i ++ [(u : Int)]) ∧ InArrays (pointersAt a (i ++ [(u : Int) + 1])) b) ∧
          subplyLoopP (β := β) b (subplyP b never (r+1) (a.len r) (a.step r) k) (r-(k+1)) n (a.shift (disp (i ++ [(t : Int)]))) =
            .ok (none, a.shift (disp (i ++ [((t + n : Nat) : Int)])))) ∨
        ((¬ ∀ u : Nat, t ≤ u → u < t + n → Room a b (a.natShape.drop (r - k)) (i ++ [(u : Int)]) ∧ InArrays (pointersAt a (i ++ [(u : Int) + 1])) b) ∧
          subplyLoopP (β := β) b (subplyP b never (r+1) (a.len r) (a.step r) k) (r-(k+1)) n (a.shift (disp (i ++ [(t : Int)]))) = .error .ub) := by
      intro n
      induction n with
      | zero => intro t _ _; exact .inl ⟨fun u h1 h2 => by omega, rfl⟩
      | succ n ihn =>
        intro t ht hin
        have hv : Valid (a.natShape.take (r-k)) (i ++ [(t : Int)]) := by
          rw [← ho', List.take_add_one, hg]
          exact valid_append hi ⟨by omega, by omega, trivial⟩
        rcases ih (by omega) _ hv hin with ⟨h1, h2⟩ | ⟨h1, h2⟩
        · have hstep : subplyLoopP (β := β) b (subplyP b never (r+1) (a.len r) (a.step r) k) (r-(k+1)) (n + 1) (a.shift (disp (i ++ [(t : Int)]))) =
              (do let a'' ← moved b (a.shift (disp (i ++ [((t + 1 : Nat) : Int)]))); subplyLoopP b (subplyP b never (r+1) (a.len r) (a.step r) k) (r-(k+1)) n a'') := by
            simp only [subplyLoopP, h2, bind, Except.bind]
            rw [← hc, a.adv_shift ha, bump_bump, hc]
            push_cast
            rfl
          rw [hstep]
          by_cases h3 : InArrays (pointersAt a (i ++ [((t + 1 : Nat) : Int)])) b
          · rw [moved_ok ((shift_ok _ _ _).mpr h3), pure_bind]
            rcases ihn (t + 1) (by omega) h3 with ⟨g1, g2⟩ | ⟨g1, g2⟩
            · refine .inl ⟨fun u e1 e2 => ?_, by rw [g2, show t + 1 + n = t + (n + 1) by omega]⟩
              by_cases hu : u = t
              · subst hu; exact ⟨h1, by exact_mod_cast h3⟩
              · exact g1 u (by omega) (by omega)
            · exact .inr ⟨fun h => g1 fun u e1 e2 => h u (by omega) (by omega), g2⟩
          · refine .inr ⟨fun h => h3 ?_, ?_⟩
            · have := (h t (le_refl _) (by omega)).2
              exact_mod_cast this
            · rw [moved_bad (fun h => h3 ((shift_ok _ _ _).mp h))]; rfl
        · refine .inr ⟨fun h => h1 (h t (le_refl _) (by omega)).1, ?_⟩
          simp only [subplyLoopP, h2]
          rfl
    have hz : disp (i ++ [((0 : Nat) : Int)]) = disp i := by rw [← hc, Nat.cast_zero, bump_zero]
    have h00 : InArrays (pointersAt a (i ++ [((0 : Nat) : Int)])) b := by
      rw [← shift_ok, hz, shift_ok]; exact h0
    have hroom : Room a b (a.natShape.drop (r - (k + 1))) i ↔ ∀ u : Nat, 0 ≤ u → u < 0 + (a.len (r-(k+1))).toNat →
        Room a b (a.natShape.drop (r - k)) (i ++ [(u : Int)]) ∧ InArrays (pointersAt a (i ++ [(u : Int) + 1])) b := by
      rw [hd]
      simp [Room]
    rw [hroom]
    have := hloop (a.len (r-(k+1))).toNat 0 (by omega) h00
    rw [hz] at this
    simp only [subplyP, ho, a.len_shift]
    rcases this with ⟨h1, h2⟩ | ⟨h1, h2⟩
    · refine .inl ⟨h1, ?_⟩
      rw [h2]
      simp only [bind, Except.bind]
      rw [← hc, a.adv_shift ha, bump_bump, Nat.zero_add, Int.toNat_of_nonneg hlen, show a.len (r-(k+1)) + -a.len (r-(k+1)) = 0 by omega, bump_zero,
        moved_ok ((shift_ok _ _ _).mpr h0)]
      rfl
    · exact .inr ⟨h1, by rw [h2]; rfl⟩

theorem ptrs_pad (a : Iter (Except Fault) α) (i : List Int) (k : Nat) : pointersAt a (i ++ List.replicate k 0) = pointersAt a i := by
  rw [← ptrs_shift, ← ptrs_shift]
  congr 2
  funext q
  simp only [disp, List.getD_eq_getElem?_getD, List.getElem?_append, List.getElem?_replicate]
  split
  · rfl
  · rename_i h
    rw [List.getElem?_eq_none (by omega)]
    split <;> rfl

theorem room_iff (a : Iter (Except Fault) α) (b : List (Option (Int × Int))) (s : List Nat) (i : List Int) (h0 : InArrays (pointersAt a i) b) :
    Room a b s i ↔ ∀ (k n : Nat), s[k]? = some n → ∀ j, Valid (s.take k) j → ∀ t : Int, 0 ≤ t → t ≤ n → InArrays (pointersAt a (i ++ j ++ [t])) b := by
  induction s generalizing i with
  | nil => simp [Room]
  | cons n s ih =>
    simp only [Room]
    have hz : ∀ j : List Int, pointersAt a (j ++ [0]) = pointersAt a j := fun j => ptrs_pad a j 1
    constructor
    · intro h k m hk j hj t ht0 ht
      have hpt : ∀ u : Nat, u ≤ n → InArrays (pointersAt a (i ++ [(u : Int)])) b := by
        intro u hu
        cases u with
        | zero => rw [Nat.cast_zero, hz]; exact h0
        | succ u => have := (h u (by omega)).2; exact_mod_cast this
      cases k with
      | zero =>
        simp only [List.getElem?_cons_zero, Option.some.injEq] at hk
        subst hk
        cases j with
        | cons x j => simp [Valid] at hj
        | nil =>
          have := hpt t.toNat (by omega)
          rw [Int.toNat_of_nonneg ht0] at this
          simpa using this
      | succ k =>
        cases j with
        | nil => simp [Valid] at hj
        | cons x j =>
          simp only [List.take_succ_cons, Valid] at hj
          simp only [List.getElem?_cons_succ] at hk
          have h1 := h x.toNat (by omega)
          rw [Int.toNat_of_nonneg hj.1] at h1
          have h2 := hpt x.toNat (by omega)
          rw [Int.toNat_of_nonneg hj.1] at h2
          have := (ih (i ++ [x]) h2).mp h1.1 k m hk j hj.2.2 t ht0 ht
          simpa using this
    · intro h t ht
      have h1 : ∀ u : Int, 0 ≤ u → u ≤ n → InArrays (pointersAt a (i ++ [u])) b := by
        intro u hu0 hu
        have := h 0 n rfl [] trivial u hu0 hu
        simpa using this
      refine ⟨(ih _ (h1 t (by omega) (by omega))).mpr ?_, h1 _ (by omega) (by omega)⟩
      intro k m hk j hj u hu0 hu
      have := h (k + 1) m hk (t :: j) ⟨by omega, by omega, hj⟩ u hu0 hu
      simpa using this

/-- `ply_fixed` (the traversal of an expression whose lengths are all static) makes only pointers that are in the arrays or one past the end if and only if there's room as in `C68_partial`,
and otherwise its behaviour is undefined. Here the traversal doesn't stop early, all the elements can be evaluated and the arrays are not empty or at least the first pointers are in them. -/
theorem C68_fixed_exact (b : List (Option (Int × Int))) (a : Iter (Except Fault) α) (s : List Nat) (h : HasShape a (s.map some))
    (hok : ∀ j, Valid s j → ∃ x, elem a j = .ok x) (h0 : InArrays (pointersAt a []) b) (z : List Int) :
    (plyP (β := β) b false never z a = .ok none ↔ Roomy a s b) ∧ (plyP (β := β) b false never z a = .error .ub ↔ ¬ Roomy a s b) := by
  have hn := h.natShape
  have hv := (validate_iff a).mpr h.bounded
  have hd0 : disp [] = fun _ => 0 := by funext k; simp [disp]
  have hroom : Room a b s [] ↔ Roomy a s b := by
    rw [room_iff a b s [] h0]
    simp [Roomy]
  rw [← hroom]
  simp only [plyP, Bool.false_eq_true, if_false, plyFixedP, if_pos hv]
  cases hr : a.rank.toNat with
  | zero =>
    have hs : s = [] := by
      have : a.natShape.length = 0 := by rw [length_natShape, hr]
      rw [hn] at this
      exact List.eq_nil_of_length_eq_zero this
    subst hs
    obtain ⟨x, hx⟩ := hok [] trivial
    have hx' : a.deref = .ok x := by
      rw [← hx, ← Iter.deref_shift, hd0, Iter.shift_zero]
    simp [hx', bind, Except.bind, pure, Except.pure, never, Room]
  | succ r =>
    have := subplyP_exact (β := β) b a h.wf h.bounded hr (by rw [hn]; exact hok) r (le_refl _) [] (by simp [Valid]) h0
    rw [hd0, Iter.shift_zero, Nat.sub_self, List.drop_zero, hn] at this
    simp only []
    rcases this with ⟨h1, h2⟩ | ⟨h1, h2⟩
    · rw [h2]; simp [h1, bind, Except.bind, pure, Except.pure]
    · rw [h2]; simp [h1, bind, Except.bind]

/-- The step of the inner loop of `ply_ravel` after element `q ++ [u]`. -/
theorem inner_step {a : Iter (Except Fault) α} (ha : a.WF) {r n : Nat} (hr : a.rank.toNat = r + 1) (hn : n ≤ r) (hrav : Raveled a r n) {i j q : List Int} {u : Int}
    (hi : Valid (a.natShape.take n) i) (hj : Valid (a.natShape.drop n) j) (e : i ++ j = q ++ [u]) :
    a.shift (bump (disp i) r (position (a.natShape.drop n) j + 1)) = a.shift (disp (q ++ [u + 1])) := by
  have hil : i.length = n := by rw [hi.length]; simp [length_natShape]; omega
  have hv : Valid a.natShape (i ++ j) := by
    have := valid_append hi hj
    rwa [List.take_append_drop] at this
  have hlen : (i ++ j).length = r + 1 := by rw [hv.length, length_natShape, hr]
  have hql : q.length = r := by rw [e] at hlen; simpa using hlen
  have e2 : a.shift (disp (i ++ j)) = a.shift (bump (disp i) r (position (a.natShape.drop n) j)) := by
    rw [← hrav _ _ hj, disp_eq (i ++ j), addAt_append, hil, ← disp_eq]; simp
  have e3 := shift_bump_congr a ha e2 r 1
  have e4 : disp (q ++ [u + 1]) = bump (disp (q ++ [u])) r 1 := by rw [disp_concat, disp_concat, hql, bump_bump]
  rw [bump_bump, e, ← e4] at e3
  exact e3.symm

theorem position_bij {s : List Nat} {t : Nat} (ht : t < Spec.size s) : ∃ j, Valid s j ∧ position s j = t := by
  have hm : ((t : Nat) : Int) ∈ (rowMajor s).map (position s) := by
    rw [map_position]
    exact List.mem_map.mpr ⟨t, List.mem_range.mpr ht, rfl⟩
  obtain ⟨j, hj, e⟩ := List.mem_map.mp hm
  exact ⟨j, mem_rowMajor.mp hj, e⟩

theorem split_last {α : Type} {l : List α} {r : Nat} (h : l.length = r + 1) : ∃ q u, l = q ++ [u] ∧ q.length = r := by
  have hne : l ≠ [] := by intro e; rw [e] at h; simp at h
  refine ⟨l.dropLast, l.getLast hne, (List.dropLast_append_getLast _).symm, by simp [h]⟩

/-- What the inner loops of `ply_ravel` need. -/
theorem inner_iff {b : List (Option (Int × Int))} {a : Iter (Except Fault) α} (ha : a.WF) {r n : Nat} (hr : a.rank.toNat = r + 1) (hn : n ≤ r)
    (hrav : Raveled a r n) (hv : ∀ j, Valid a.natShape j → InArrays (pointersAt a j) b) (hne : 0 ∉ a.natShape) :
    (∀ i, Valid (a.natShape.take n) i → ∀ t : Nat, 0 < t → t ≤ Spec.size (a.natShape.drop n) → (a.shift (bump (disp i) r t)).ptrsOk b = true) ↔
    ∀ q, Valid (a.natShape.take r) q → ∀ t : Int, 0 ≤ t → t ≤ (a.len r).toNat → InArrays (pointersAt a (q ++ [t])) b := by
  have hs : a.natShape = a.natShape.take r ++ [(a.len r).toNat] := by
    conv_lhs => rw [← List.take_append_drop r a.natShape]
    rw [drop_shape (by omega), List.drop_eq_nil_of_le (by rw [length_natShape]; omega)]
  have hnz : (a.len r).toNat ≠ 0 := fun e => hne (by rw [hs, e]; simp)
  constructor
  · intro h q hq t h0 ht
    by_cases hlt : t < (a.len r).toNat
    · refine hv _ ?_
      rw [hs]
      exact valid_append hq ⟨h0, hlt, trivial⟩
    · have hvq : Valid a.natShape (q ++ [t - 1]) := by
        rw [hs]
        exact valid_append hq ⟨by omega, by omega, trivial⟩
      rw [← List.take_append_drop n a.natShape] at hvq
      obtain ⟨i, j, e, v1, v2⟩ := valid_split hvq
      have h1 := inner_step ha hr hn hrav v1 v2 e.symm
      obtain ⟨p0, p1⟩ := position_bounds v2
      have h2 := h i v1 ((position (a.natShape.drop n) j).toNat + 1) (by omega) (by omega)
      push_cast at h2
      rw [Int.toNat_of_nonneg p0, h1, show t - 1 + 1 = t by omega, shift_ok] at h2
      exact h2
  · intro h i hi t h0 ht
    obtain ⟨j, hj, hp⟩ := position_bij (s := a.natShape.drop n) (t := t - 1) (by omega)
    have hvij : Valid a.natShape (i ++ j) := by
      have := valid_append hi hj
      rwa [List.take_append_drop] at this
    obtain ⟨q, u, e, hql⟩ := split_last (r := r) (by rw [hvij.length, length_natShape, hr])
    have h1 := inner_step ha hr hn hrav hi hj e
    rw [hp, show (((t - 1 : Nat) : Int) + 1) = t by omega] at h1
    rw [h1, shift_ok]
    rw [e, hs] at hvij
    obtain ⟨q', j', e', v1, v2⟩ := valid_split hvij
    obtain ⟨rfl, rfl⟩ := List.append_inj' e' (by rw [v2.length]; rfl)
    simp only [Valid] at v2
    exact h q v1 (u + 1) (by omega) (by omega)

theorem prefix_ok {b : List (Option (Int × Int))} {a : Iter (Except Fault) α} (hv : ∀ j, Valid a.natShape j → InArrays (pointersAt a j) b) (hne : 0 ∉ a.natShape)
    {n : Nat} {i : List Int} (hi : Valid (a.natShape.take n) i) : (a.shift (disp i)).ptrsOk b = true := by
  rw [shift_ok, ← ptrs_pad a i (a.natShape.drop n).length]
  refine hv _ ?_
  have h1 : Valid (a.natShape.drop n) (List.replicate (a.natShape.drop n).length 0) := by
    have : ∀ l : List Nat, 0 ∉ l → Valid l (List.replicate l.length 0) := by
      intro l
      induction l with
      | nil => intro _; trivial
      | cons x l ih =>
        intro h
        simp only [List.mem_cons, not_or] at h
        exact ⟨le_refl _, by omega, ih h.2⟩
    exact this _ fun h => hne (List.mem_of_mem_drop h)
  have := valid_append hi h1
  rwa [List.take_append_drop] at this

theorem carryP_ok (b : List (Option (Int × Int))) (a : Iter (Except Fault) α) (ha : a.WF) (hv : ∀ j, Valid a.natShape j → InArrays (pointersAt a j) b) (hne : 0 ∉ a.natShape)
    (n : Nat) (hn : n ≤ a.rank.toNat) (o rest : List Int) (ho : Valid (outerLens a n) o) :
    carryP b (outerAxes a n) (o ++ rest) (a.shift (disp o.reverse)) = pure (carry (outerAxes a n) (o ++ rest) (a.shift (disp o.reverse))) := by
  induction n generalizing o with
  | zero =>
    cases o with
    | nil => simp [outerAxes, carryP, carry]
    | cons i o => simp [outerLens, Valid] at ho
  | succ n ih =>
    rw [outerLens_succ] at ho
    cases o with
    | nil => simp [Valid] at ho
    | cons i o =>
      simp only [Valid] at ho
      rw [outerAxes_succ]
      have hol : o.length = n := by rw [ho.2.2.length]; simp [outerLens]
      have hvo : Valid (a.natShape.take n) o.reverse := valid_outer (by omega) ho.2.2
      have hg := natShape_get a (k := n) (by omega)
      have hc : ∀ t : Int, disp (o.reverse ++ [t]) = bump (disp o.reverse) n t := by
        intro t; rw [disp_concat]; simp [hol]
      have hok : ∀ t : Int, 0 ≤ t → t < (a.len n).toNat → (a.shift (bump (disp o.reverse) n t)).ptrsOk b = true := by
        intro t h0 h1
        rw [← hc]
        refine prefix_ok hv hne (n := n + 1) ?_
        rw [List.take_add_one, hg]
        exact valid_append hvo ⟨h0, h1, trivial⟩
      simp only [List.cons_append, carryP, carry, List.reverse_cons, hc]
      by_cases hi : i + 1 < a.len n
      · rw [if_pos hi, if_pos hi, a.adv_shift ha, bump_bump, moved_ok (hok _ (by omega) (by omega)), pure_bind]
      · rw [if_neg hi, if_neg hi, a.adv_shift ha, bump_bump]
        have e : i + (1 - a.len n) = 0 := by omega
        rw [e, moved_ok (hok 0 (by omega) (by omega)), pure_bind, bump_zero, ih (by omega) o ho.2.2, pure_bind]

theorem ravelLoopP_exact (b : List (Option (Int × Int))) (a : Iter (Except Fault) α) (ha : a.WF) (hv : ∀ j, Valid a.natShape j → InArrays (pointersAt a j) b) (hne : 0 ∉ a.natShape)
    (hok : ∀ j, Valid a.natShape j → ∃ x, elem a j = .ok x) {r n : Nat} (hr : a.rank.toNat = r + 1) (hn : n ≤ r) (hrav : Raveled a r n) (rest : List Int) (l : List (List Int)) :
    ∀ (o : List Int) (fuel : Nat), l.length + 1 ≤ fuel → Chain (nextIx (outerLens a n)) (o :: l) → (∀ o' ∈ o :: l, Valid (outerLens a n) o') →
    ((∀ o' ∈ o :: l, ∀ t : Nat, 0 < t → t ≤ Spec.size (a.natShape.drop n) → (a.shift (bump (disp o'.reverse) r t)).ptrsOk b = true) ∧
      ∃ x, ravelLoopP (β := β) b never (Spec.size (a.natShape.drop n)) (a.step r) (outerAxes a n) fuel (o ++ rest) (a.shift (disp o.reverse)) = .ok (none, x)) ∨
    ((¬ ∀ o' ∈ o :: l, ∀ t : Nat, 0 < t → t ≤ Spec.size (a.natShape.drop n) → (a.shift (bump (disp o'.reverse) r t)).ptrsOk b = true) ∧
      ravelLoopP (β := β) b never (Spec.size (a.natShape.drop n)) (a.step r) (outerAxes a n) fuel (o ++ rest) (a.shift (disp o.reverse)) = .error .ub) := by
  induction l with
  | nil =>
    intro o fuel hf hc hvo
    obtain ⟨fuel, rfl⟩ : ∃ f, fuel = f + 1 := ⟨fuel - 1, by omega⟩
    have h1 := inner o (hvo o (by simp))
    rcases h1 with ⟨h1, h2⟩ | ⟨h1, h2⟩
    · refine .inl ⟨fun o' ho' => ?_, ?_⟩
      · rw [List.mem_singleton] at ho'; subst ho'; exact h1
      · have hcy := carry_eq a ha n o rest (fun _ => 0) (hvo o (by simp))
        rw [← disp_eq, hc.1] at hcy
        refine ⟨(List.replicate n 0 ++ rest, a), ?_⟩
        simp only [ravelLoopP, Int.toNat_natCast, h2, bind, Except.bind, a.load_save, carryP_ok b a ha hv hne n (by omega) o rest (hvo o (by simp)), hcy]
        simp [pure, Except.pure, Iter.shift_zero]
    · refine .inr ⟨fun h => h1 (h o (by simp)), ?_⟩
      simp only [ravelLoopP, Int.toNat_natCast, h2, bind, Except.bind]
  | cons o' l ih =>
    intro o fuel hf hc hvo
    obtain ⟨fuel, rfl⟩ : ∃ f, fuel = f + 1 := ⟨fuel - 1, by omega⟩
    rcases inner o (hvo o (by simp)) with ⟨h1, h2⟩ | ⟨h1, h2⟩
    · have hcy := carry_eq a ha n o rest (fun _ => 0) (hvo o (by simp))
      rw [← disp_eq, hc.1] at hcy
      have hstep : ravelLoopP (β := β) b never (Spec.size (a.natShape.drop n)) (a.step r) (outerAxes a n) (fuel + 1) (o ++ rest) (a.shift (disp o.reverse)) =
          ravelLoopP (β := β) b never (Spec.size (a.natShape.drop n)) (a.step r) (outerAxes a n) fuel (o' ++ rest) (a.shift (disp o'.reverse)) := by
        simp only [ravelLoopP, Int.toNat_natCast, h2, bind, Except.bind, a.load_save, carryP_ok b a ha hv hne n (by omega) o rest (hvo o (by simp)), hcy]
        simp [pure, Except.pure, ← disp_eq]
      rw [hstep]
      rcases ih o' fuel (by simpa using hf) hc.2 (fun x hx => hvo x (List.mem_cons_of_mem _ hx)) with ⟨g1, g2⟩ | ⟨g1, g2⟩
      · refine .inl ⟨fun x hx => ?_, g2⟩
        rcases List.mem_cons.mp hx with rfl | hx
        · exact h1
        · exact g1 x hx
      · exact .inr ⟨fun h => g1 fun x hx => h x (List.mem_cons_of_mem _ hx), g2⟩
    · refine .inr ⟨fun h => h1 (h o (by simp)), ?_⟩
      simp only [ravelLoopP, Int.toNat_natCast, h2, bind, Except.bind]
where
  inner (o : List Int) (ho : Valid (outerLens a n) o) :
      ((∀ t : Nat, 0 < t → t ≤ Spec.size (a.natShape.drop n) → (a.shift (bump (disp o.reverse) r t)).ptrsOk b = true) ∧
        innerP (β := β) b never (a.step r) (Spec.size (a.natShape.drop n)) (a.shift (disp o.reverse)) =
          .ok (none, a.shift (bump (disp o.reverse) r ((Spec.size (a.natShape.drop n) : Nat) : Int)))) ∨
      ((¬ ∀ t : Nat, 0 < t → t ≤ Spec.size (a.natShape.drop n) → (a.shift (bump (disp o.reverse) r t)).ptrsOk b = true) ∧
        innerP (β := β) b never (a.step r) (Spec.size (a.natShape.drop n)) (a.shift (disp o.reverse)) = .error .ub) := by
    have hvo : Valid (a.natShape.take n) o.reverse := valid_outer (by omega) ho
    have hil : o.reverse.length = n := by rw [hvo.length]; simp [length_natShape]; omega
    have := innerP_exact (β := β) b a ha (disp o.reverse) r (Spec.size (a.natShape.drop n)) 0 (by
      intro t _ ht
      obtain ⟨j, hj, hp⟩ := position_bij (s := a.natShape.drop n) (t := t) (by omega)
      have hvij : Valid a.natShape (o.reverse ++ j) := by
        have := valid_append hvo hj
        rwa [List.take_append_drop] at this
      have e2 : a.shift (disp (o.reverse ++ j)) = a.shift (bump (disp o.reverse) r t) := by
        rw [← hp, ← hrav _ _ hj, disp_eq (o.reverse ++ j), addAt_append, hil, ← disp_eq]; simp
      rw [← e2, Iter.deref_shift]
      exact hok _ hvij)
    rw [Nat.cast_zero, bump_zero, Nat.zero_add] at this
    exact this

end

end Ra.Props

namespace Ra.Spec

/-- All the pointers are in their arrays for the valid indices of shape `s`, and also when the last entry is the length of its axis. -/
def RoomyLast {α : Type} (a : Iter (Except Fault) α) (s : List Nat) (b : List (Option (Int × Int))) : Prop :=
  ∀ (s' : List Nat) (n : Nat), s = s' ++ [n] → ∀ i, Valid s' i → ∀ t : Int, 0 ≤ t → t ≤ n → InArrays (pointersAt a (i ++ [t])) b

end Ra.Spec

namespace Ra.Props
open Spec

section
variable {α β : Type}

/-- `ply_ravel` (the traversal of any other expression) needs less: one past the end is only made on the last axis. If the elements are in the arrays, there's at least one of them and all of
them can be evaluated, then the traversal makes only pointers that are in the arrays or one past the end if and only if the last axis has room, and otherwise its behaviour is undefined. -/
theorem C68_ravel_exact (b : List (Option (Int × Int))) (a : Iter (Except Fault) α) (s : List Nat) (h : HasShape a (s.map some)) (hne : 0 ∉ s)
    (hv : ∀ j, Valid s j → InArrays (pointersAt a j) b) (hok : ∀ j, Valid s j → ∃ x, elem a j = .ok x) (z : List Int) (hz : ∀ i ∈ z, i = 0) :
    (plyP (β := β) b true never z a = .ok none ↔ RoomyLast a s b) ∧ (plyP (β := β) b true never z a = .error .ub ↔ ¬ RoomyLast a s b) := by
  have hn := h.natShape
  have ha := h.wf
  have hb := h.bounded
  have hvd := (validate_iff a).mpr h.bounded
  have hd0 : disp [] = fun _ => 0 := by funext k; simp [disp]
  simp only [plyP, if_true, plyRavelP, if_pos hvd]
  cases hr : a.rank.toNat with
  | zero =>
    have hs : s = [] := by
      have : a.natShape.length = 0 := by rw [length_natShape, hr]
      rw [hn] at this
      exact List.eq_nil_of_length_eq_zero this
    subst hs
    obtain ⟨x, hx⟩ := hok [] trivial
    have hx' : a.deref = .ok x := by
      rw [← hx, ← Iter.deref_shift, hd0, Iter.shift_zero]
    simp [hx', bind, Except.bind, pure, Except.pure, never, RoomyLast]
  | succ r =>
    simp only []
    rw [← hn] at hv hok hne
    have hlast : RoomyLast a s b ↔ ∀ q, Valid (a.natShape.take r) q → ∀ t : Int, 0 ≤ t → t ≤ (a.len r).toNat → InArrays (pointersAt a (q ++ [t])) b := by
      have hs : a.natShape = a.natShape.take r ++ [(a.len r).toNat] := by
        conv_lhs => rw [← List.take_append_drop r a.natShape]
        rw [drop_shape (by omega), List.drop_eq_nil_of_le (by rw [length_natShape]; omega)]
      rw [← hn]
      constructor
      · intro g q hq t h0 ht
        exact g _ _ hs q hq t h0 ht
      · intro g s' n e i hi t h0 ht
        rw [hs] at e
        obtain ⟨e1, e2⟩ := List.append_inj' e rfl
        have e3 : (a.len r).toNat = n := by simpa using e2
        rw [← e1] at hi
        exact g i hi t h0 (by omega)
    rw [resizeZ_zero hz]
    have hd := drop_shape (a := a) (n := r) (by omega)
    have hd' : a.natShape.drop (r+1) = [] := List.drop_eq_nil_of_le (by rw [length_natShape]; omega)
    have hlen := hb r (by omega)
    obtain ⟨hcn, hcs, hcr⟩ := compact_spec a ha hb hr r (by omega) (a.len r)
      (by rw [hd, hd']; simp [Spec.size, Int.toNat_of_nonneg hlen]) (raveled_init a hr)
    rw [hcs]
    generalize hcn' : (compact a r r (a.len r)).1 = n at *
    have hax : ((List.range n).reverse.map fun o => (o, a.len o)) = outerAxes a n := rfl
    rw [hax]
    have hpos : ∀ k ∈ outerLens a n, 0 < k := by
      intro k hk
      rw [outerLens_eq a (by omega)] at hk
      have := List.mem_of_mem_take (List.mem_reverse.mp hk)
      have hk0 : k ≠ 0 := by rintro rfl; exact hne this
      omega
    have hany : ¬ (outerAxes a n).any (fun x => decide (x.2 ≤ 0)) = true := by
      intro hany
      simp only [List.any_eq_true, outerAxes, List.mem_map, List.mem_reverse, List.mem_range, decide_eq_true_eq] at hany
      obtain ⟨x, ⟨k, hk, rfl⟩, hx⟩ := hany
      have h1 := natShape_get a (k := k) (by omega)
      have h2 : (a.len k).toNat = 0 := by simp only at hx; omega
      rw [h2] at h1
      exact hne (List.mem_of_getElem? h1)
    rw [if_neg hany]
    obtain ⟨l, hl⟩ := head_rowMajorR _ hpos
    have hchain := chain_rowMajorR _ hpos
    have hllen := length_rowMajorR (outerLens a n)
    have hvalid : ∀ o ∈ rowMajorR (outerLens a n), Valid (outerLens a n) o := fun o ho => mem_rowMajorR.mp ho
    have hall : ∀ i, Valid (a.natShape.take n) i → i.reverse ∈ rowMajorR (outerLens a n) := by
      intro i hi
      rw [outerLens_eq a (by omega), rowMajorR_eq, List.reverse_reverse]
      exact List.mem_map.mpr ⟨i, mem_rowMajor.mpr hi, rfl⟩
    rw [hl] at hchain hllen hvalid hall
    have holen : (outerLens a n).length = n := by simp [outerLens]
    have hfuel : l.length + 1 ≤ ravelFuel (outerAxes a n) := by
      rw [ravelFuel_eq, ← hllen]; simp
    have := ravelLoopP_exact (β := β) b a ha hv hne hok hr hcn hcr (List.replicate (r+1-n) 0) l _ _ hfuel hchain hvalid
    have hzz : List.replicate n (0 : Int) ++ List.replicate (r+1-n) 0 = List.replicate (r+1) 0 := by
      rw [List.replicate_append_replicate]; congr 1; omega
    have hd0' : disp (List.replicate n (0 : Int)).reverse = fun _ => 0 := by
      funext k; simp only [disp, List.reverse_replicate, List.getD_eq_getElem?_getD, List.getElem?_replicate]; split <;> rfl
    have hgood : (∀ o' ∈ List.replicate n (0 : Int) :: l, ∀ t : Nat, 0 < t → t ≤ Spec.size (a.natShape.drop n) → (a.shift (bump (disp o'.reverse) r t)).ptrsOk b = true) ↔ RoomyLast a s b := by
      rw [hlast, ← inner_iff ha hr hcn hcr hv hne]
      constructor
      · intro g i hi t h0 ht
        rw [holen] at hall
        have := g _ (hall i hi) t h0 ht
        rwa [List.reverse_reverse] at this
      · intro g o ho t h0 ht
        rw [holen] at hvalid
        exact g _ (valid_outer (by omega) (hvalid o ho)) t h0 ht
    rw [holen, hd0', Iter.shift_zero, hzz, hgood] at this
    rcases this with ⟨h1, x, h2⟩ | ⟨h1, h2⟩
    · rw [h2]; simp [h1, bind, Except.bind, pure, Except.pure]
    · rw [h2]; simp [h1, bind, Except.bind]

/-- A matrix of 2x2 inside of an array of 2x4: the first two columns. -/
def leftEg : Iter (Except Fault) Int := .cell [⟨2, 4⟩, ⟨2, 1⟩] 0 pure

/-- The last two columns. -/
def rightEg : Iter (Except Fault) Int := .cell [⟨2, 4⟩, ⟨2, 1⟩] 2 pure

theorem shape_eg (cp : Int) : HasShape (.cell [⟨2, 4⟩, ⟨2, 1⟩] cp pure : Iter (Except Fault) Int) ([2, 2].map some) := .cons rfl (.cons rfl .nil)

theorem valid_eg (cp : Int) (h0 : 0 ≤ cp) (h2 : cp ≤ 2) (j : List Int) (hj : Valid [2, 2] j) :
    InArrays (pointersAt (.cell [⟨2, 4⟩, ⟨2, 1⟩] cp pure : Iter (Except Fault) Int) j) [some (0, 8)] := by
  match j, hj with
  | [p, q], ⟨h3, h4, h5, h6, _⟩ =>
    intro x hx
    simp only [pointersAt, List.map, List.zip_cons_cons, List.zip_nil_left, List.mem_singleton] at hx
    subst hx
    simp [InArray, dot]
    omega

-- The last two columns have room for `ply_ravel` but not for `ply_fixed`.
example : plyP (β := Unit) [some (0, 8)] true never [] rightEg = .ok none := by
  refine (C68_ravel_exact [some (0, 8)] rightEg [2, 2] (shape_eg 2) (by simp) (valid_eg 2 (by omega) (by omega)) (fun j _ => ⟨_, rfl⟩) [] (by simp)).1.mpr ?_
  intro s' n e i hi t ht0 ht
  obtain ⟨e1, e2⟩ := List.append_inj' (show [2] ++ [2] = s' ++ [n] from e) rfl
  subst e1
  have e3 : 2 = n := by simpa using e2
  subst e3
  match i, hi with
  | [p], ⟨h3, h4, _⟩ =>
    intro x hx
    simp only [pointersAt, List.map, rightEg, List.cons_append, List.nil_append, List.zip_cons_cons, List.zip_nil_left, List.mem_singleton] at hx
    subst hx
    simp [InArray, dot]
    omega

example : plyP (β := Unit) [some (0, 8)] false never [] rightEg = .error .ub := by
  refine (C68_fixed_exact [some (0, 8)] rightEg [2, 2] (shape_eg 2) (fun j _ => ⟨_, rfl⟩) ?_ []).2.mpr ?_
  · intro x hx
    simp only [pointersAt, List.map, rightEg, List.zip_cons_cons, List.zip_nil_left, List.mem_singleton] at hx
    subst hx
    simp [InArray, dot]
  · intro h
    have := h 0 2 rfl [] trivial 2 (by omega) (by omega) (10, some (0, 8)) (by simp [pointersAt, rightEg, dot])
    simp [InArray] at this

end

section
variable {m : Type → Type} {α β : Type}

/-- An argument of lower rank has the same pointers for all the entries after its own, so it has room in any shape that begins with its own. -/
theorem C68_prefix (dims : List Dim) (cp : Int) (rd : Int → m α) (s t : List Nat) (b : List (Option (Int × Int))) (hl : dims.length = s.length)
    (h : Roomy (.cell dims cp rd) s b) (h0 : InArrays (pointersAt (.cell dims cp rd) []) b) : Roomy (.cell dims cp rd) (s ++ t) b := by
  have hval : ∀ j, Valid s j → InArrays (pointersAt (.cell dims cp rd) j) b := by
    intro j hj
    cases hs : s.length with
    | zero =>
      have : s = [] := List.eq_nil_of_length_eq_zero hs
      subst this
      cases j with
      | nil => exact h0
      | cons x j => simp [Valid] at hj
    | succ r =>
      obtain ⟨q, u, e, hq⟩ := split_last (l := j) (r := r) (by rw [hj.length, hs])
      obtain ⟨s', n, e', hs'⟩ := split_last hs
      subst e e'
      obtain ⟨q', j', e, v1, v2⟩ := valid_split hj
      obtain ⟨rfl, rfl⟩ := List.append_inj' e (by rw [v2.length]; rfl)
      simp only [Valid] at v2
      exact h s'.length n (by simp) q (by simpa using v1) u v2.1 (by omega)
  intro k n hk i hi u h1 h2
  by_cases hlt : k < s.length
  · rw [List.getElem?_append_left hlt] at hk
    rw [List.take_append_of_le_length (by omega)] at hi
    exact h k n hk i hi u h1 h2
  · rw [List.take_append, List.take_of_length_le (by omega)] at hi
    obtain ⟨i1, i2, rfl, v1, v2⟩ := valid_split hi
    have hd : dot (dims.map Dim.step) (i1 ++ i2 ++ [u]) = dot (dims.map Dim.step) i1 := by
      rw [List.append_assoc]
      have : ∀ (x y z : List Int), x.length = y.length → dot x (y ++ z) = dot x y := by
        intro x
        induction x with
        | nil => intro y z _; simp [dot]
        | cons p x ih =>
          intro y z e
          cases y with
          | nil => simp at e
          | cons w y =>
            have := ih y z (by simpa using e)
            simp only [dot] at this
            simp only [List.cons_append, dot, List.zipWith_cons_cons, List.sum_cons, this]
      exact this _ _ _ (by rw [List.length_map, hl, v1.length])
    have := hval i1 v1
    simp only [pointersAt] at this ⊢
    rw [hd]
    exact this

/-- An operation with any number of arguments has room if each of them does. -/
theorem C68_nodes (s : List Nat) (op : List (m α) → m α) (t : List (Iter m α × List (Option (Int × Int)))) (h : ∀ x ∈ t, Roomy x.1 s x.2 ∧ (pointersAt x.1 []).length = x.2.length) :
    Roomy (.node op (t.map Prod.fst)) s (t.flatMap Prod.snd) := by
  intro k n hk i hi u h1 h2
  simp only [pointersAt]
  induction t with
  | nil => intro x hx; simp [pointersAts] at hx
  | cons y t ih =>
    obtain ⟨g1, g2⟩ := h y (by simp)
    intro x hx
    simp only [List.map_cons, pointersAts, List.flatMap_cons] at hx
    rw [List.zip_append (by rw [← g2]; exact length_pointersAt y.1 _ _)] at hx
    rcases List.mem_append.mp hx with hx | hx
    · exact g1 k n hk i hi u h1 h2 x hx
    · exact ih (fun z hz => h z (List.mem_cons_of_mem _ hz)) x hx

end
end Ra.Props
