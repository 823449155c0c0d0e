import Verif.Props.Chain
/-!
# C21, C22 and C23: exactly when

The theorems in `Props/Reshape.lean` cover the views where the properties hold. Here, for all views, exactly when the checks pass, and exactly when the result is right.
-/

namespace Ra.Props
open Spec (Length DimLen Shaped InRange address dot Valid size position Evenly InnerMoves)

theorem long_of_split {p q : List Dim} {d : Dim} (hq : ∀ x ∈ q, x.len = 1) (hd : d.len ≠ 1) : long (p ++ d :: q) = d :: p.reverse := by
  unfold long
  rw [List.reverse_append, List.reverse_cons, List.append_assoc]
  rw [List.dropWhile_append_of_pos (by intro x hx; simpa using hq x (List.mem_reverse.mp hx))]
  simp [hd]

/-- C23. `c_order(dims, false)` is true if and only if the elements are at equal distances in row-major order, or the last axis with length other than 1 has step 0. -/
theorem C23_strided_exact (dims : List Dim) (s : List Nat) (h : List.Forall₂ DimLen dims (s.map some)) :
    cOrder dims false = true ↔ (∃ c, Evenly (dims.map Dim.step) s c) ∨ ¬ InnerMoves dims := by
  by_cases hm : InnerMoves dims
  · simp only [hm, not_true_eq_false, or_false]
    exact C23_strided_partial dims s h hm
  · simp only [hm, not_false_eq_true, or_true, iff_true]
    simp only [InnerMoves, not_forall] at hm
    obtain ⟨p, d, q, h1, h2, h3, h4⟩ := hm
    rw [not_not] at h4
    rw [cOrder_false]
    intro d' dv hl
    rw [h1, long_of_split h2 h3] at hl
    obtain ⟨rfl, rfl⟩ := List.cons.inj hl
    left
    rw [h4, zero_mul]

/-- If the elements are at equal distances, then the distance is that of `ravel_free` (or there's one element at most). -/
theorem evenly_ravel {dims : List Dim} {s : List Nat} (h : List.Forall₂ DimLen dims (s.map some)) {c : Int} (hE : Evenly (dims.map Dim.step) s c) :
    Evenly (dims.map Dim.step) s (ravelStep dims) := by
  by_cases hs : size s = 0
  · exact evenly_size_zero _ hs _
  · rw [← innerR_iff h hs] at hE ⊢
    obtain ⟨q, h1, h2, h3⟩ := long_split dims
    rw [h3] at hE ⊢
    cases hl : long dims with
    | nil => simp [innerR]
    | cons d dv =>
      have hr : ravelStep dims = d.step := by
        unfold long at hl
        simp [ravelStep, hl]
      rw [hl] at hE
      have : d.step = c := hE.1.resolve_left (long_head hl)
      rw [hr, this]
      exact hE

/-- C22. `ravel_free` succeeds if and only if the elements of the source are at equal distances, or the last axis with length other than 1 has step 0. Else the check fails. -/
theorem C22_succeeds (v : View) (s : List Nat) (hv : Shaped v (s.map some)) :
    ((∃ r, v.ravelFree = .ok r) ↔ (∃ c, Evenly (v.dims.map Dim.step) s c) ∨ ¬ InnerMoves v.dims) ∧
    ((¬ ∃ r, v.ravelFree = .ok r) → v.ravelFree = .error .check) := by
  rw [← C23_strided_exact v.dims s hv]
  simp only [View.ravelFree]
  split <;> simp_all

/-- C22. If `ravel_free` succeeds, then the result has as many elements as the source; and they're those of the source in row-major order if and only if the elements of
the source are at equal distances. -/
theorem C22_exact (v r : View) (s : List Nat) (hv : Shaped v (s.map some)) (h : v.ravelFree = .ok r) :
    Shaped r [some (size s)] ∧ ((∀ j, Valid s j → address r [position s j] = address v j) ↔ ∃ c, Evenly (v.dims.map Dim.step) s c) := by
  simp only [View.ravelFree] at h
  split at h
  case isFalse => exact absurd h (by simp)
  case isTrue =>
    obtain rfl := Except.ok.inj h
    refine ⟨.cons (dimvSize_eq hv) .nil, ?_⟩
    have key : ∀ j, address ⟨[⟨dimvSize v.dims, ravelStep v.dims⟩], v.cp⟩ [position s j] = address v j ↔ dot (v.dims.map Dim.step) j = ravelStep v.dims * position s j := by
      intro j
      simp only [address, List.map_cons, List.map_nil, dot_cons, dot_nil]
      rw [mul_comm]
      constructor <;> intro h <;> linarith
    constructor
    · intro hj
      exact ⟨_, fun j hv => (key j).mp (hj j hv)⟩
    · rintro ⟨c, hc⟩ j hj
      exact (key j).mpr (evenly_ravel hv hc j hj)

/-- Both sides of `C22_exact` may be false. -/
example : (⟨[⟨2, 7⟩, ⟨3, 0⟩], 0⟩ : View).ravelFree = .ok ⟨[⟨6, 0⟩], 0⟩ ∧ Shaped ⟨[⟨2, 7⟩, ⟨3, 0⟩], 0⟩ ([2, 3].map some) ∧ ¬ ∃ c, Evenly [7, 0] [2, 3] c :=
  ⟨C22_negation.1, .cons rfl (.cons rfl .nil), C23_strided_negation.2⟩
/-- Or both true, even if the last axis has step 0. -/
example : (⟨[⟨2, 0⟩, ⟨3, 0⟩], 5⟩ : View).ravelFree = .ok ⟨[⟨6, 0⟩], 5⟩ ∧ Evenly [0, 0] [2, 3] 0 := by
  refine ⟨by decide, ?_⟩
  intro j hj
  match j, hj with
  | [a, b], _ => simp [dot]

theorem reshape_ready (v : View) (s t : List Nat) (hv : Shaped v (s.map some)) (hs : ¬ t <:+ s) (ht : ¬ s <:+ t) :
    ∃ d dv, v.dims.getLast? = some d ∧ List.Forall₂ DimLen dv (t.map some) ∧ (∀ j, Valid t j → dot (dv.map Dim.step) j = position t j) ∧
      v.reshape (t.map Nat.cast) = if cOrder v.dims false = true ∧ size t ≤ size s then .ok ⟨dv.map fun x => ⟨x.len, x.step * d.step⟩, v.cp⟩ else .error .check := by
  rcases reshapeLoop_cases v.dims.reverse ((t.map (Nat.cast : Nat → Int)).reverse) with hnone | ⟨xs, ys, h1, h2⟩ | ⟨n, h⟩
  · obtain ⟨d, hd⟩ : ∃ d, v.dims.getLast? = some d := by
      cases h : v.dims.getLast? with
      | some d => exact ⟨d, rfl⟩
      | none =>
        rw [List.getLast?_eq_none_iff] at h
        rw [h] at hnone
        simp [reshapeLoop] at hnone
    obtain ⟨dv, f1, f2, f3⟩ := filldimv_ok t
    refine ⟨d, dv, hd, f2, f3, ?_⟩
    simp only [View.reshape]
    rw [dimvSize_eq hv, placeholder_none]
    simp only [bind, Except.bind, hnone, one_mul]
    simp only [ge_iff_le, Nat.cast_le]
    split
    · simp only [f1, hd]
      rfl
    · rfl
  · exfalso
    apply hs
    have hl := shaped_nat.mp hv
    have e : (s.map (Nat.cast : Nat → Int)).reverse = xs.map Dim.len ++ ys.map Dim.len := by
      rw [← hl, ← List.map_reverse, h1, List.map_append]
    have e2 : s.map (Nat.cast : Nat → Int) = (ys.map Dim.len).reverse ++ t.map Nat.cast := by
      have := congrArg List.reverse e
      rw [List.reverse_reverse, List.reverse_append, ← h2, List.reverse_reverse] at this
      exact this
    have a2 := congrArg (List.drop ys.length) e2
    rw [List.drop_left' (by simp), ← List.map_drop] at a2
    have a3 : s.drop ys.length = t := (List.map_injective_iff.mpr (fun x y h => by exact_mod_cast h)) a2
    rw [← a3]
    exact List.drop_suffix _ _
  · exfalso
    apply ht
    have htx : t.map (Nat.cast : Nat → Int) = n.reverse ++ s.map Nat.cast := by
      have := congrArg List.reverse h
      rw [← shaped_nat.mp hv]
      simpa using this
    have a2 := congrArg (List.drop n.length) htx
    rw [List.drop_left' (by simp), ← List.map_drop] at a2
    have a3 : t.drop n.length = s := (List.map_injective_iff.mpr (fun x y h => by exact_mod_cast h)) a2
    rw [← a3]
    exact List.drop_suffix _ _

/-- C21. If neither shape is a suffix of the other (see `C21_suffix` and `C21_tile`), then `reshape` succeeds if and only if the result doesn't have more elements than the source
and the elements of the source are at equal distances, or the last axis with length other than 1 has step 0. Else the check fails. -/
theorem C21_succeeds (v : View) (s t : List Nat) (hv : Shaped v (s.map some)) (hs : ¬ t <:+ s) (ht : ¬ s <:+ t) :
    ((∃ r, v.reshape (t.map Nat.cast) = .ok r) ↔ size t ≤ size s ∧ ((∃ c, Evenly (v.dims.map Dim.step) s c) ∨ ¬ InnerMoves v.dims)) ∧
    ((¬ ∃ r, v.reshape (t.map Nat.cast) = .ok r) → v.reshape (t.map Nat.cast) = .error .check) := by
  obtain ⟨d, dv, _, _, _, h⟩ := reshape_ready v s t hv hs ht
  rw [← C23_strided_exact v.dims s hv, h]
  split <;> rename_i hc
  · simp [hc]
  · simp only [reduceCtorEq, exists_false, not_false_eq_true, forall_const, and_true, false_iff]
    exact fun h => hc ⟨h.2, h.1⟩

/-- C21. If neither shape is a suffix of the other and `reshape` succeeds, then the result has the shape that was asked for; and its elements are the first elements of the source in
row-major order if and only if those elements are at distances of the step of the last axis. -/
theorem C21_exact (v r : View) (s t : List Nat) (hv : Shaped v (s.map some)) (hs : ¬ t <:+ s) (ht : ¬ s <:+ t) (h : v.reshape (t.map Nat.cast) = .ok r) :
    Shaped r (t.map some) ∧ ∃ d, v.dims.getLast? = some d ∧
      ((∀ i j, Valid s i → Valid t j → position s i = position t j → address r j = address v i) ↔
        ∀ i, Valid s i → position s i < size t → dot (v.dims.map Dim.step) i = d.step * position s i) := by
  obtain ⟨d, dv, hd, f2, f3, he⟩ := reshape_ready v s t hv hs ht
  rw [he] at h
  split at h
  case isFalse => exact absurd h (by simp)
  case isTrue hc =>
    obtain rfl := Except.ok.inj h
    refine ⟨?_, d, hd, ?_⟩
    · rw [Shaped, shaped_nat]
      rw [shaped_nat] at f2
      simpa [Function.comp_def] using f2
    · have key : ∀ i j, Valid t j → (address ⟨dv.map fun x => ⟨x.len, x.step * d.step⟩, v.cp⟩ j = address v i ↔ dot (v.dims.map Dim.step) i = d.step * position t j) := by
        intro i j hj
        simp only [address, List.map_map, Function.comp_def]
        have := dot_scale (dv.map Dim.step) j d.step
        rw [List.map_map, Function.comp_def] at this
        rw [this, f3 j hj, mul_comm]
        constructor <;> intro h <;> linarith
      constructor
      · intro hj i hi hp
        obtain ⟨j, hj1, hj2⟩ := position_surj t (position s i) (position_bounds hi).1 hp
        rw [← hj2]
        exact (key i j hj1).mp (hj i j hi hj1 hj2.symm)
      · intro hi i j hvi hvj hp
        refine (key i j hvj).mpr ?_
        rw [← hp]
        exact hi i hvi (hp ▸ (position_bounds hvj).2)

/-- The case of `C21_negation`. -/
example : ¬ [2, 2] <:+ [4, 1] ∧ ¬ [4, 1] <:+ [2, 2] ∧ Shaped ⟨[⟨4, 1⟩, ⟨1, 9⟩], 0⟩ (([4, 1] : List Nat).map some) := ⟨by decide, by decide, .cons rfl (.cons rfl .nil)⟩
/-- A case that is right although the elements of the source aren't all at equal distances. -/
example : (⟨[⟨2, 7⟩, ⟨3, 0⟩], 0⟩ : View).reshape ([1, 2].map Nat.cast) = .ok ⟨[⟨1, 0⟩, ⟨2, 0⟩], 0⟩ ∧ ¬ [1, 2] <:+ [2, 3] ∧ ¬ [2, 3] <:+ [1, 2] := by decide

end Ra.Props
