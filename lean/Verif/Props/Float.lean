import Verif.Model.Float
import Verif.Props.Expr
import Verif.Props.Reduce
import Mathlib.Algebra.Order.Field.Rat
import Mathlib.Algebra.Order.Group.Defs
/-!
# C71: tests with tolerances
-/

namespace Ra.Spec

section
variable {F : Type} [LinearOrder F] [Zero F]

/-- The error that counts for a pair of values, if that of finite values is `err`: infinities must be the same, and NaN must be NaN. -/
def errorOf (err : Fl F) (ref a : Fl F) : Fl F :=
  match ref with
  | .fin _ => err
  | .nan => if a = .nan then .fin 0 else .pinf
  | .pinf => if a = .pinf then .fin 0 else .pinf
  | .ninf => if a = .ninf then .fin 0 else .pinf

/-- A pair of values is close, if the error of finite values is `err`: a number not over `r`, if `ref` is finite; else the same infinity, or both NaN. -/
def Close (err : Fl F) (r : F) (ref a : Fl F) : Prop :=
  match ref with
  | .fin _ => ∃ x, err = .fin x ∧ x ≤ r
  | .nan => a = .nan
  | .pinf => a = .pinf
  | .ninf => a = .ninf

/-- An error isn't negative, but it may be NaN. -/
def Fl.IsError (x : Fl F) : Prop := x = .nan ∨ x = .pinf ∨ ∃ y, x = .fin y ∧ 0 ≤ y

end
end Ra.Spec

namespace Ra.Props
open Spec

section
variable {F : Type} [Field F] [LinearOrder F] [IsStrictOrderedRing F] {n : Type → Type} [Monad n] [LawfulMonad n] [MonadFault n]

omit [IsStrictOrderedRing F] in
theorem fl_lt_irrefl (a : Fl F) : a.lt a = false := by cases a <;> simp [Fl.lt]

omit [IsStrictOrderedRing F] in
theorem fl_le_total {a b : Fl F} (ha : a ≠ .nan) (hb : b ≠ .nan) : a.le b = !b.lt a := by
  cases a <;> cases b <;> simp_all [Fl.le]

omit [IsStrictOrderedRing F] in
theorem fl_le_trans {a b c : Fl F} (h1 : a.le b = true) (h2 : b.le c = true) : a.le c = true := by
  cases a <;> cases b <;> cases c <;> simp_all [Fl.le, Fl.lt]
  exact le_trans h1 h2

omit [IsStrictOrderedRing F] in
theorem fl_le_refl {a : Fl F} (ha : a ≠ .nan) : a.le a = true := by
  cases a <;> simp_all [Fl.le, Fl.lt]

/-- The largest. -/
def flMax (c x : Fl F) : Fl F := if c.lt x then x else c

omit [IsStrictOrderedRing F] in
theorem flMax_spec {c x : Fl F} (hc : c ≠ .nan) (hx : x ≠ .nan) : c.le (flMax c x) = true ∧ x.le (flMax c x) = true ∧ flMax c x ≠ .nan := by
  have ha : c.lt x = true → x.lt c = false := by
    cases c <;> cases x <;> simp_all [Fl.lt]
    exact fun h => le_of_lt h
  unfold flMax
  split
  · next h => exact ⟨by rw [fl_le_total hc hx, ha h]; rfl, fl_le_refl hx, hx⟩
  · next h => exact ⟨fl_le_refl hc, by rw [fl_le_total hx hc]; simpa using h, hc⟩

/-- The smallest. -/
def flMin (c x : Fl F) : Fl F := if x.lt c then x else c

omit [IsStrictOrderedRing F] in
theorem flMin_spec {c x : Fl F} (hc : c ≠ .nan) (hx : x ≠ .nan) : (flMin c x).le c = true ∧ (flMin c x).le x = true ∧ flMin c x ≠ .nan := by
  have ha : x.lt c = true → c.lt x = false := by
    cases c <;> cases x <;> simp_all [Fl.lt]
    exact fun h => le_of_lt h
  unfold flMin
  split
  · next h => exact ⟨by rw [fl_le_total hx hc, ha h]; rfl, fl_le_refl hx, hx⟩
  · next h => exact ⟨fl_le_refl hc, by rw [fl_le_total hc hx]; simpa using h, hc⟩

omit [IsStrictOrderedRing F] in
theorem foldl_flMax (l : List (Fl F)) (hl : .nan ∉ l) (c : Fl F) (hc : c ≠ .nan) :
    (∀ x ∈ l, x.le (l.foldl flMax c) = true) ∧ c.le (l.foldl flMax c) = true ∧ (l.foldl flMax c = c ∨ l.foldl flMax c ∈ l) ∧ l.foldl flMax c ≠ .nan := by
  induction l generalizing c with
  | nil => exact ⟨by simp, fl_le_refl hc, .inl rfl, hc⟩
  | cons y l ih =>
    simp only [List.mem_cons, not_or] at hl
    have hy : y ≠ .nan := fun e => hl.1 e.symm
    obtain ⟨m1, m2, m3⟩ := flMax_spec hc hy
    obtain ⟨i1, i2, i3, i4⟩ := ih hl.2 (flMax c y) m3
    refine ⟨?_, fl_le_trans m1 i2, ?_, i4⟩
    · intro x hx
      rcases List.mem_cons.mp hx with rfl | hx
      · exact fl_le_trans m2 i2
      · exact i1 x hx
    · simp only [List.foldl_cons]
      rcases i3 with i3 | i3
      · rw [i3]
        unfold flMax
        split
        · right; simp
        · left; rfl
      · right; exact List.mem_cons_of_mem _ i3

omit [Field F] [IsStrictOrderedRing F] [MonadFault n] in
/-- The loop of `amax_strict`. -/
theorem search_strict (g : List Int → StateT (Fl F) n (Fl F)) (f : List Int → Fl F) (l : List (List Int)) (hg : ∀ j ∈ l, g j = (do
      let c ← get
      if c.lt (f j) then set (f j)
      pure (f j))) (c : Fl F) :
    ∃ c', (search (fun j => do let x ← g j; pure (if x.isnan then some (Fl.nan : Fl F) else none)) l).run c
      = pure (((l.find? fun j => (f j).isnan).map fun j => (Fl.nan, j)), c') ∧ ((∀ j ∈ l, f j ≠ .nan) → c' = (l.map f).foldl flMax c) := by
  induction l generalizing c with
  | nil => exact ⟨c, by simp [search], by simp⟩
  | cons j l ih =>
    have hj := hg j (by simp)
    by_cases hn : (f j).isnan = true
    · refine ⟨if c.lt (f j) then f j else c, ?_, ?_⟩
      · simp only [search, hj, bind_assoc, StateT.run_bind, StateT.run_get, pure_bind, List.find?_cons, hn]
        cases h : c.lt (f j) <;> simp [hn]
      · intro h
        have := h j (by simp)
        cases hf : f j <;> simp_all [Fl.isnan]
    · obtain ⟨c', h1, h2⟩ := ih (fun j hj => hg j (by simp [hj])) (flMax c (f j))
      refine ⟨c', ?_, ?_⟩
      · simp only [search, hj, bind_assoc, StateT.run_bind, StateT.run_get, pure_bind, List.find?_cons, hn]
        unfold flMax at h1
        cases h : c.lt (f j)
        · rw [h] at h1
          simp [hn] at h1 ⊢
          exact h1
        · rw [h] at h1
          simp [hn] at h1 ⊢
          exact h1
      · intro h
        exact h2 fun j hj => h j (by simp [hj])

/-- `amax_strict(a)` is NaN if some element is, else the largest of the elements (minus infinity, if there aren't any). -/
theorem amaxStrict_eq (dyn : Bool) (z : List Int) (hz : ∀ i ∈ z, i = 0) (a : Iter (StateT (Fl F) n) (Fl F)) (s : List Nat) (f : List Int → Fl F) (h : Holds a s f) :
    ∃ c, amaxStrict dyn z a = pure c ∧ ((∃ j, Valid s j ∧ f j = .nan) → c = .nan) ∧
      ((∀ j, Valid s j → f j ≠ .nan) → (∀ j, Valid s j → (f j).le c = true) ∧ (c = .ninf ∨ ∃ j, Valid s j ∧ c = f j) ∧ c ≠ .nan) := by
  unfold amaxStrict
  have e : ∀ (b : Iter (StateT (Fl F) n) (Fl F)), HasShape b (s.map some) →
      ply dyn (fun x : Fl F => if x.isnan then some (Fl.nan : Fl F) else none) z b
        = (do let r ← search (fun j => do let x ← elem b j; pure (if x.isnan then some (Fl.nan : Fl F) else none)) (rowMajor s); pure (r.map Prod.fst)) := by
    intro b hb
    cases dyn
    · simp only [ply, plyFixed_eq _ b hb.wf hb.bounded, hb.natShape, evalAt_elem, bind_assoc, pure_bind]
      rfl
    · simp only [ply, plyRavel_eq _ b hb.wf hb.bounded z hz, hb.natShape, evalAt_elem, bind_assoc, pure_bind]
      rfl
  rw [e _ (shape_one h.1)]
  obtain ⟨c', h1, h2⟩ := search_strict (n := n) (fun j => elem (.node (mapOp strictStep) [a]) j) f (rowMajor s) (by
      intro j hj
      simp [elem, elems, mapOp, strictStep, h.2 j (mem_rowMajor.mp hj)]) .ninf
  simp only [StateT.run_bind, h1, pure_bind, StateT.run_pure]
  refine ⟨_, rfl, ?_, ?_⟩
  · rintro ⟨j, hj, hn⟩
    have : ((rowMajor s).find? fun j => (f j).isnan).isSome := by
      rw [List.find?_isSome]
      exact ⟨j, mem_rowMajor.mpr hj, by rw [hn]; rfl⟩
    obtain ⟨k, hk⟩ := Option.isSome_iff_exists.mp this
    simp [hk]
  · intro hn
    have hn' : ∀ j ∈ rowMajor s, f j ≠ .nan := fun j hj => hn j (mem_rowMajor.mp hj)
    have : (rowMajor s).find? (fun j => (f j).isnan) = none := by
      rw [List.find?_eq_none]
      intro j hj
      have := hn' j hj
      cases hf : f j <;> simp_all [Fl.isnan]
    simp only [this, Option.map_none, Option.getD_none, h2 hn']
    obtain ⟨k1, _, k3, k4⟩ := foldl_flMax ((rowMajor s).map f) (by
      simp only [List.mem_map, not_exists, not_and]
      exact fun j hj => hn' j hj) .ninf (by simp)
    refine ⟨fun j hj => k1 _ (List.mem_map.mpr ⟨j, mem_rowMajor.mpr hj, rfl⟩), ?_, k4⟩
    rcases k3 with k3 | k3
    · exact .inl k3
    · obtain ⟨j, hj, he⟩ := List.mem_map.mp k3
      exact .inr ⟨j, mem_rowMajor.mp hj, he.symm⟩

omit [IsStrictOrderedRing F] in
theorem isError_ne {x : Fl F} (h : Fl.IsError x) : x ≠ .ninf ∧ x.abs = x := by
  rcases h with rfl | rfl | ⟨y, rfl, hy⟩
  · simp [Fl.abs]
  · simp [Fl.abs]
  · simp only [ne_eq, reduceCtorEq, not_false_eq_true, Fl.abs, true_and]
    rw [if_neg (not_lt.mpr hy)]

theorem isError_abs (x : Fl F) : Fl.IsError x.abs := by
  cases x with
  | nan => exact .inl rfl
  | ninf => exact .inr (.inl rfl)
  | pinf => exact .inr (.inl rfl)
  | fin x =>
    refine .inr (.inr ⟨_, rfl, ?_⟩)
    split
    · next h => exact le_of_lt (neg_pos.mpr h)
    · next h => exact not_lt.mp h

omit [IsStrictOrderedRing F] in
theorem isError_errorOf {e : Fl F} (he : Fl.IsError e) (x y : Fl F) : Fl.IsError (errorOf e x y) := by
  cases x with
  | fin x => exact he
  | _ => simp only [errorOf]; split <;> simp [Fl.IsError]

theorem merge_below {ss : List (List Length)} {s : List Length} (hs : s ∈ ss)
    (h : ∀ x ∈ ss, x.length ≤ s.length ∧ ∀ k n : Nat, x[k]? = some (some n) → s[k]? = some (some n)) : Merge ss s :=
  ⟨fun x hx => (h x hx).1, ⟨s, hs, rfl⟩, fun k n => ⟨fun hk => ⟨s, hs, hk⟩, fun ⟨x, hx, hk⟩ => (h x hx).2 k n hk⟩⟩

/-- The expression in `nanny`. -/
theorem nannyExpr_holds {m : Type → Type} [Monad m] [LawfulMonad m] [MonadFault m] (ref a : Iter m (Fl F)) (err : Fl F → Fl F → Fl F) (sr sa : List Length) (s : List Nat)
    (hr : HasShape ref sr) (ha : HasShape a sa) (hm : Merge [sr, sa] (s.map some)) (f g : List Int → Fl F)
    (hf : ∀ j, Valid s j → elem ref j = pure (f j)) (hg : ∀ j, Valid s j → elem a j = pure (g j)) :
    Holds (nannyExpr ref a (mapTwo err ref a)) s fun j => errorOf (err (f j) (g j)) (f j) (g j) := by
  have br : sr.length ≤ (s.map some).length ∧ ∀ k n : Nat, sr[k]? = some (some n) → (s.map some)[k]? = some (some n) :=
    ⟨hm.1 sr (by simp), fun k n h => (hm.2.2 k n).mpr ⟨sr, by simp, h⟩⟩
  have ba : sa.length ≤ (s.map some).length ∧ ∀ k n : Nat, sa[k]? = some (some n) → (s.map some)[k]? = some (some n) :=
    ⟨hm.1 sa (by simp), fun k n h => (hm.2.2 k n).mpr ⟨sa, by simp, h⟩⟩
  constructor
  · have h1 : HasShape (whereOp (mapOne (fun x => ofBool x.isnan) a) (.scalar (pure (.fin 0))) (.scalar (pure .pinf))) sa :=
      where_shape (shape_one ha) rfl rfl (merge_below (by simp) (by simp))
    have h2 : HasShape (whereOp (mapTwo (fun x y => ofBool (x.eq y)) ref a) (.scalar (pure (.fin 0))) (.scalar (pure .pinf))) (s.map some) :=
      where_shape (shape_two hr ha hm) rfl rfl (merge_below (by simp) (by simp))
    refine where_shape (shape_one hr) (shape_two hr ha hm) (where_shape (s := s.map some) (shape_one hr) h2 h1 (merge_below (by simp) ?_)) (merge_below (by simp) ?_)
    · intro x hx
      simp only [List.mem_cons, List.not_mem_nil, or_false] at hx
      rcases hx with rfl | rfl | rfl
      · exact br
      · exact ⟨le_refl _, fun k n h => h⟩
      · exact ba
    · intro x hx
      simp only [List.mem_cons, List.not_mem_nil, or_false] at hx
      rcases hx with rfl | rfl | rfl
      · exact br
      · exact ⟨le_refl _, fun k n h => h⟩
      · exact ⟨le_refl _, fun k n h => h⟩
  · intro j hj
    have e1 : ∀ (p : Fl F → Fl F) (b : Iter m (Fl F)) (v : Fl F), elem b j = pure v → elem (mapOne p b) j = pure (p v) := by
      intro p b v h
      simp [mapOne, elem, elems, mapOp, h]
    have e2 : ∀ (p : Fl F → Fl F → Fl F), elem (mapTwo p ref a) j = pure (p (f j) (g j)) := by
      intro p
      simp [mapTwo, elem, elems, mapOp, hf j hj, hg j hj]
    simp only [nannyExpr, elem_where, e1 _ _ _ (hf j hj), e1 _ _ _ (hg j hj), e2, pure_bind, Boolean.toBool_ofBool]
    cases hx : f j <;> cases hy : g j <;> simp [Fl.isfinite, Fl.isinf, Fl.isnan, Fl.eq, elem, errorOf]

/-- C71. The error that's given by `test_abs` and `test_rel`, for any error of finite values that isn't negative: NaN if some is NaN, else the largest of them. -/
theorem C71_error (dyn : Bool) (z : List Int) (hz : ∀ i ∈ z, i = 0) (ref a : Iter (StateT (Fl F) n) (Fl F)) (err : Fl F → Fl F → Fl F) (sr sa : List Length) (s : List Nat)
    (hr : HasShape ref sr) (ha : HasShape a sa) (hm : Merge [sr, sa] (s.map some)) (f g : List Int → Fl F)
    (hf : ∀ j, Valid s j → elem ref j = pure (f j)) (hg : ∀ j, Valid s j → elem a j = pure (g j)) (he : ∀ j, Valid s j → Fl.IsError (err (f j) (g j))) (hs : ∃ j, Valid s j) :
    ∃ e, nanny dyn z ref a (mapTwo err ref a) = pure e ∧
      ((∃ j, Valid s j ∧ errorOf (err (f j) (g j)) (f j) (g j) = .nan) → e = .nan) ∧
      ((∀ j, Valid s j → errorOf (err (f j) (g j)) (f j) (g j) ≠ .nan) →
        (∀ j, Valid s j → (errorOf (err (f j) (g j)) (f j) (g j)).le e = true) ∧ ∃ j, Valid s j ∧ e = errorOf (err (f j) (g j)) (f j) (g j)) := by
  obtain ⟨c, h1, h2, h3⟩ := amaxStrict_eq dyn z hz _ s _ (nannyExpr_holds ref a err sr sa s hr ha hm f g hf hg)
  refine ⟨c.abs, by simp [nanny, h1], ?_, ?_⟩
  · intro h
    rw [h2 h]; rfl
  · intro h
    obtain ⟨i1, i2, i3⟩ := h3 h
    have : ∃ j, Valid s j ∧ c = errorOf (err (f j) (g j)) (f j) (g j) := by
      rcases i2 with rfl | i2
      · obtain ⟨j, hj⟩ := hs
        have := i1 j hj
        have hne := (isError_ne (isError_errorOf (he j hj) (f j) (g j))).1
        cases hx : errorOf (err (f j) (g j)) (f j) (g j) <;> simp_all [Fl.le, Fl.lt]
      · exact i2
    obtain ⟨j, hj, hc⟩ := this
    have := (isError_ne (isError_errorOf (he j hj) (f j) (g j))).2
    rw [← hc] at this
    rw [this]
    exact ⟨i1, j, hj, hc⟩

/-- C71 for arguments that aren't empty. `test_rel(ref, a, req)` passes if and only if the shapes match and all the pairs of elements are close: the error isn't over `req`, or they're the same
infinity, or both NaN. A NaN that isn't expected makes it fail. What's missing: empty arguments (`C71_empty`). -/
theorem C71_rel_partial (rel : Fl F → Fl F → Fl F) (dyn : Bool) (z : List Int) (hz : ∀ i ∈ z, i = 0) (ref a : Iter (StateT (Fl F) n) (Fl F)) (sr sa : List Length) (s : List Nat)
    (hr : HasShape ref sr) (ha : HasShape a sa) (hm : Merge [sr, sa] (s.map some)) (f g : List Int → Fl F)
    (hf : ∀ j, Valid s j → elem ref j = pure (f j)) (hg : ∀ j, Valid s j → elem a j = pure (g j)) (he : ∀ j, Valid s j → Fl.IsError (rel (f j) (g j))) (hs : ∃ j, Valid s j)
    (r : F) (h0 : 0 ≤ r) :
    ∃ e c, testRel rel dyn z ref a (.fin r) = pure (e, c) ∧ (c = true ↔ ∀ j, Valid s j → Close (rel (f j) (g j)) r (f j) (g j)) := by
  obtain ⟨e, h1, h2, h3⟩ := C71_error dyn z hz ref a rel sr sa s hr ha hm f g hf hg he hs
  refine ⟨e, e.le (.fin r), by simp [testRel, h1], ?_⟩
  have key : ∀ j, Valid s j → ((errorOf (rel (f j) (g j)) (f j) (g j)).le (.fin r) = true ↔ Close (rel (f j) (g j)) r (f j) (g j)) := by
    intro j hj
    have hE := he j hj
    generalize rel (f j) (g j) = x at hE
    cases f j <;> cases g j <;> simp [errorOf, Close, Fl.le, Fl.lt, h0]
    all_goals
      rcases hE with rfl | rfl | ⟨y, rfl, hy⟩ <;> simp
  by_cases hn : ∃ j, Valid s j ∧ errorOf (rel (f j) (g j)) (f j) (g j) = .nan
  · rw [h2 hn]
    obtain ⟨j, hj, hx⟩ := hn
    have := key j hj
    rw [hx] at this
    constructor
    · intro h; simp [Fl.le] at h
    · intro h
      have := this.mpr (h j hj)
      simp [Fl.le] at this
  · obtain ⟨i1, j, hj, i2⟩ := h3 fun j hj hx => hn ⟨j, hj, hx⟩
    constructor
    · intro h k hk
      exact (key k hk).mp (fl_le_trans (i1 k hk) h)
    · intro h
      rw [i2]
      exact (key j hj).mpr (h j hj)

/-- C71 for arguments that aren't empty. `test_abs(ref, a, req)`, for any difference `sub`, rounded or not. What's missing: empty arguments (`C71_empty`). -/
theorem C71_abs_partial (sub : Fl F → Fl F → Fl F) (dyn : Bool) (z : List Int) (hz : ∀ i ∈ z, i = 0) (ref a : Iter (StateT (Fl F) n) (Fl F)) (sr sa : List Length) (s : List Nat)
    (hr : HasShape ref sr) (ha : HasShape a sa) (hm : Merge [sr, sa] (s.map some)) (f g : List Int → Fl F)
    (hf : ∀ j, Valid s j → elem ref j = pure (f j)) (hg : ∀ j, Valid s j → elem a j = pure (g j)) (hs : ∃ j, Valid s j) (r : F) (h0 : 0 ≤ r) :
    ∃ e c, testAbs sub dyn z ref a (.fin r) = pure (e, c) ∧ (c = true ↔ ∀ j, Valid s j → Close (sub (f j) (g j)).abs r (f j) (g j)) :=
  C71_rel_partial (fun x y => (sub x y).abs) dyn z hz ref a sr sa s hr ha hm f g hf hg (fun _ _ => isError_abs _) hs r h0

/-- C71. If the error that's allowed is NaN then the test fails, whatever the arguments. -/
theorem C71_nan (rel : Fl F → Fl F → Fl F) (dyn : Bool) (z : List Int) (hz : ∀ i ∈ z, i = 0) (ref a : Iter (StateT (Fl F) n) (Fl F)) (sr sa : List Length) (s : List Nat)
    (hr : HasShape ref sr) (ha : HasShape a sa) (hm : Merge [sr, sa] (s.map some)) (f g : List Int → Fl F)
    (hf : ∀ j, Valid s j → elem ref j = pure (f j)) (hg : ∀ j, Valid s j → elem a j = pure (g j)) (he : ∀ j, Valid s j → Fl.IsError (rel (f j) (g j))) (hs : ∃ j, Valid s j) :
    ∃ e, testRel rel dyn z ref a .nan = pure (e, false) := by
  obtain ⟨e, h1, _⟩ := C71_error dyn z hz ref a rel sr sa s hr ha hm f g hf hg he hs
  exact ⟨e, by cases e <;> simp [testRel, h1, Fl.le]⟩

/-- C71 is false of the code for empty arguments: the error is infinite, so the test fails for any `req`. (`test_eq` passes.) -/
theorem C71_empty (rel : Fl F → Fl F → Fl F) (dyn : Bool) (z : List Int) (hz : ∀ i ∈ z, i = 0) (ref a : Iter (StateT (Fl F) n) (Fl F)) (sr sa : List Length) (s : List Nat)
    (hr : HasShape ref sr) (ha : HasShape a sa) (hm : Merge [sr, sa] (s.map some)) (hs : ¬ ∃ j, Valid s j) (r : F) :
    testRel rel dyn z ref a (.fin r) = pure (.pinf, false) ∧ testAbs rel dyn z ref a (.fin r) = pure (.pinf, false) := by
  have : ∀ err, nanny dyn z ref a (mapTwo err ref a) = pure .pinf := by
    intro err
    have hv : ∀ j, Valid s j → False := fun j hj => hs ⟨j, hj⟩
    obtain ⟨c, h1, _, h3⟩ := amaxStrict_eq dyn z hz _ s _ (nannyExpr_holds ref a err sr sa s hr ha hm (fun _ => .nan) (fun _ => .nan) (fun j hj => (hv j hj).elim) (fun j hj => (hv j hj).elim))
    obtain ⟨_, i2, _⟩ := h3 fun j hj => (hv j hj).elim
    rcases i2 with rfl | ⟨j, hj, _⟩
    · simp [nanny, h1, Fl.abs]
    · exact (hv j hj).elim
  simp [testRel, testAbs, this, Fl.le, Fl.lt]

/-- `amax` doesn't see NaN: it's not under any element that isn't NaN. Part of C37 for values that may be NaN. -/
theorem C37_amax_nan (dyn : Bool) (z : List Int) (hz : ∀ i ∈ z, i = 0) (a : Iter (StateT (Fl F) n) (Fl F)) (s : List Nat) (f : List Int → Fl F) (h : Holds a s f) :
    ∃ c, amax .ninf dyn z a = pure c ∧ c ≠ .nan ∧ (∀ j, Valid s j → f j ≠ .nan → (f j).le c = true) ∧ (c = .ninf ∨ ∃ j, Valid s j ∧ f j = c) := by
  have key : ∀ (l : List (List Int)) (c : Fl F), c ≠ .nan → let r := (l.map f).foldl (fun c x => if c < x then x else c) c
      r ≠ .nan ∧ c.le r = true ∧ (∀ j ∈ l, f j ≠ .nan → (f j).le r = true) ∧ (r = c ∨ ∃ j ∈ l, f j = r) := by
    intro l
    induction l with
    | nil => intro c hc; exact ⟨hc, fl_le_refl hc, by simp, .inl rfl⟩
    | cons j l ih =>
      intro c hc
      simp only [List.map_cons, List.foldl_cons]
      by_cases hn : f j = .nan
      · have : ¬ c < f j := by
          intro h
          have h : c.lt (f j) = true := h
          rw [hn] at h
          cases c <;> simp [Fl.lt] at h
        rw [if_neg this]
        obtain ⟨i1, i2, i3, i4⟩ := ih c hc
        refine ⟨i1, i2, ?_, ?_⟩
        · intro k hk hkn
          rcases List.mem_cons.mp hk with rfl | hk
          · exact absurd hn hkn
          · exact i3 k hk hkn
        · rcases i4 with i4 | ⟨k, hk, i4⟩
          · exact .inl i4
          · exact .inr ⟨k, by simp [hk], i4⟩
      · have e : (if c < f j then f j else c) = flMax c (f j) := rfl
        rw [e]
        obtain ⟨m1, m2, m3⟩ := flMax_spec hc hn
        obtain ⟨i1, i2, i3, i4⟩ := ih _ m3
        refine ⟨i1, fl_le_trans m1 i2, ?_, ?_⟩
        · intro k hk hkn
          rcases List.mem_cons.mp hk with rfl | hk
          · exact fl_le_trans m2 i2
          · exact i3 k hk hkn
        · rcases i4 with i4 | ⟨k, hk, i4⟩
          · rw [i4]
            unfold flMax
            split
            · exact .inr ⟨j, by simp, rfl⟩
            · exact .inl rfl
          · exact .inr ⟨k, by simp [hk], i4⟩
  obtain ⟨k1, _, k3, k4⟩ := key (rowMajor s) .ninf (by simp)
  refine ⟨_, by unfold amax; refine forEachRef_one dyn z hz _ .ninf a s f h (fun c x => if c < x then x else c) ?_; intro c x; rfl, k1, fun j hj => k3 j (mem_rowMajor.mpr hj), ?_⟩
  rcases k4 with k4 | ⟨j, hj, k4⟩
  · exact .inl k4
  · exact .inr ⟨j, mem_rowMajor.mp hj, k4⟩

/-- `amin` doesn't see NaN: it's not over any element that isn't NaN. Part of C37 for values that may be NaN. -/
theorem C37_amin_nan (dyn : Bool) (z : List Int) (hz : ∀ i ∈ z, i = 0) (a : Iter (StateT (Fl F) n) (Fl F)) (s : List Nat) (f : List Int → Fl F) (h : Holds a s f) :
    ∃ c, amin .pinf dyn z a = pure c ∧ c ≠ .nan ∧ (∀ j, Valid s j → f j ≠ .nan → c.le (f j) = true) ∧ (c = .pinf ∨ ∃ j, Valid s j ∧ f j = c) := by
  have key : ∀ (l : List (List Int)) (c : Fl F), c ≠ .nan → let r := (l.map f).foldl (fun c x => if x < c then x else c) c
      r ≠ .nan ∧ r.le c = true ∧ (∀ j ∈ l, f j ≠ .nan → r.le (f j) = true) ∧ (r = c ∨ ∃ j ∈ l, f j = r) := by
    intro l
    induction l with
    | nil => intro c hc; exact ⟨hc, fl_le_refl hc, by simp, .inl rfl⟩
    | cons j l ih =>
      intro c hc
      simp only [List.map_cons, List.foldl_cons]
      by_cases hn : f j = .nan
      · have : ¬ f j < c := by
          intro h
          have h : (f j).lt c = true := h
          rw [hn] at h
          cases c <;> simp [Fl.lt] at h
        rw [if_neg this]
        obtain ⟨i1, i2, i3, i4⟩ := ih c hc
        refine ⟨i1, i2, ?_, ?_⟩
        · intro k hk hkn
          rcases List.mem_cons.mp hk with rfl | hk
          · exact absurd hn hkn
          · exact i3 k hk hkn
        · rcases i4 with i4 | ⟨k, hk, i4⟩
          · exact .inl i4
          · exact .inr ⟨k, by simp [hk], i4⟩
      · have e : (if f j < c then f j else c) = flMin c (f j) := rfl
        rw [e]
        obtain ⟨m1, m2, m3⟩ := flMin_spec hc hn
        obtain ⟨i1, i2, i3, i4⟩ := ih _ m3
        refine ⟨i1, fl_le_trans i2 m1, ?_, ?_⟩
        · intro k hk hkn
          rcases List.mem_cons.mp hk with rfl | hk
          · exact fl_le_trans i2 m2
          · exact i3 k hk hkn
        · rcases i4 with i4 | ⟨k, hk, i4⟩
          · rw [i4]
            unfold flMin
            split
            · exact .inr ⟨j, by simp, rfl⟩
            · exact .inl rfl
          · exact .inr ⟨k, by simp [hk], i4⟩
  obtain ⟨k1, _, k3, k4⟩ := key (rowMajor s) .pinf (by simp)
  refine ⟨_, by unfold amin; refine forEachRef_one dyn z hz _ .pinf a s f h (fun c x => if x < c then x else c) ?_; intro c x; rfl, k1, fun j hj => k3 j (mem_rowMajor.mpr hj), ?_⟩
  rcases k4 with k4 | ⟨j, hj, k4⟩
  · exact .inl k4
  · exact .inr ⟨j, mem_rowMajor.mp hj, k4⟩

end

/-- A difference without rounding, for the example. -/
def exSub : Fl ℚ → Fl ℚ → Fl ℚ
  | .fin x, .fin y => .fin (x - y)
  | _, _ => .nan

/-- Values `1, inf, nan` against `1, inf, nan`, and against `1, inf, 0`. -/
def exVals (k : Int) (l : List (Fl ℚ)) : Iter (StateT (Fl ℚ) (Except Fault)) (Fl ℚ) := .cell [⟨3, 1⟩] k fun i => pure (l.getD (i - k).toNat .nan)

example : ∃ e, testAbs exSub true [] (exVals 0 [.fin 1, .pinf, .nan]) (exVals 10 [.fin 1, .pinf, .nan]) (.fin 0) = .ok (e, true) := by
  have h : HasShape (exVals 0 [.fin 1, .pinf, .nan]) [some 3] := .cons rfl .nil
  have h' : HasShape (exVals 10 [.fin 1, .pinf, .nan]) [some 3] := .cons rfl .nil
  obtain ⟨e, c, h1, h2⟩ := C71_abs_partial exSub true [] (by simp) _ _ [some 3] [some 3] [3] h h' (merge_same _)
    (fun j => ([.fin 1, .pinf, .nan] : List (Fl ℚ)).getD (j.headD 0).toNat .nan) (fun j => ([.fin 1, .pinf, .nan] : List (Fl ℚ)).getD (j.headD 0).toNat .nan)
    (by intro j hj; match j, hj with | [i], _ => simp [exVals, elem, dot])
    (by intro j hj; match j, hj with | [i], _ => simp [exVals, elem, dot]) ⟨[0], by simp [Valid]⟩ 0 (le_refl _)
  refine ⟨e, ?_⟩
  have : c = true := by
    rw [h2]
    intro j hj
    match j, hj with
    | [i], ⟨h0, h3, _⟩ =>
      obtain rfl | rfl | rfl : i = 0 ∨ i = 1 ∨ i = 2 := by simp at h3; omega
      · exact ⟨0, by simp [exSub, Fl.abs], le_refl _⟩
      · rfl
      · rfl
  rw [h1, this]
  rfl

/-- The smallest and the largest of `1, nan, -inf`. -/
example : ∃ c c', amin .pinf true [] (exVals 0 [.fin 1, .nan, .ninf]) = .ok c ∧ c.le .ninf = true ∧ amax .ninf true [] (exVals 0 [.fin 1, .nan, .ninf]) = .ok c' ∧ (Fl.fin 1).le c' = true := by
  have h : Holds (exVals 0 [.fin 1, .nan, .ninf]) [3] (fun j => ([.fin 1, .nan, .ninf] : List (Fl ℚ)).getD (j.headD 0).toNat .nan) :=
    ⟨.cons rfl .nil, by intro j hj; match j, hj with | [i], _ => simp [exVals, elem, dot]⟩
  obtain ⟨c, h1, _, h2, _⟩ := C37_amin_nan true [] (by simp) _ [3] _ h
  obtain ⟨c', h3, _, h4, _⟩ := C37_amax_nan true [] (by simp) _ [3] _ h
  exact ⟨c, c', h1, by simpa using h2 [2] (by simp [Valid]) (by simp), h3, by simpa using h4 [0] (by simp [Valid]) (by simp)⟩

end Ra.Props
