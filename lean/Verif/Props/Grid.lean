import Verif.Props.Assign
/-!
# C14 for iotas of any rank, exactly
-/

namespace Ra.Props
open Spec (Length DimLen Shaped InRange address dot)

/-- The iota as it's written in the code: lengths and steps for each axis. -/
def writeGrid (iz : List (Nat × Int)) (o : Int) : Sub := .iota (iz.map fun p => (.const p.1, .const p.2)) (.const o)

theorem iotaDims_grid (la : Int) (iz : List (Nat × Int)) :
    iotaDims la (iz.map fun p => (LenExpr.const (p.1 : Int), LenExpr.const p.2)) = .ok (iz.map fun p => ⟨(p.1 : Int), p.2⟩) := by
  induction iz with
  | nil => rfl
  | cons p iz ih => simp [iotaDims, val_const, ih, bind, Except.bind, pure, Except.pure]

theorem iotaLoop_grid (la st o pl : Int) (iz : List (Nat × Int)) :
    ((∀ p ∈ iz, p.1 = 0 ∨ ((0 ≤ o ∧ o < la) ∧ 0 ≤ o + (p.1 - 1) * p.2 ∧ o + (p.1 - 1) * p.2 < la)) →
      iotaLoop la st o pl (iz.map fun p => ⟨(p.1 : Int), p.2⟩) = .ok (pl + iz.length * (o * st), iz.map fun p => ⟨(p.1 : Int), p.2 * st⟩)) ∧
    ((¬ ∀ p ∈ iz, p.1 = 0 ∨ ((0 ≤ o ∧ o < la) ∧ 0 ≤ o + (p.1 - 1) * p.2 ∧ o + (p.1 - 1) * p.2 < la)) →
      iotaLoop la st o pl (iz.map fun p => ⟨(p.1 : Int), p.2⟩) = .error .check) := by
  induction iz generalizing pl with
  | nil => simp [iotaLoop]
  | cons p iz ih =>
    obtain ⟨n, s⟩ := p
    simp only [List.map_cons, iotaLoop, List.forall_mem_cons]
    have e : ((n : Int) = 0 ∨ (inside o la ∧ inside (o + ((n : Int) - 1) * s) la)) ↔
        (n = 0 ∨ ((0 ≤ o ∧ o < la) ∧ 0 ≤ o + ((n : Int) - 1) * s ∧ o + ((n : Int) - 1) * s < la)) := by
      simp [inside]
    simp only [e]
    constructor
    · rintro ⟨h1, h2⟩
      rw [if_pos h1, (ih (pl + o * st)).1 h2]
      simp only [bind, Except.bind, pure, Except.pure, List.length_cons, Nat.cast_add, Nat.cast_one, Except.ok.injEq, Prod.mk.injEq, and_true]
      ring
    · intro h
      split
      · next h1 =>
        rw [(ih (pl + o * st)).2 (fun h2 => h ⟨h1, h2⟩)]
        rfl
      · rfl

/-- C14, for an iota of any rank. `a(iota)` passes the checks just when, for each axis of the iota by itself, its first and its last position are in range. Then its element at `j` is at
position `n * o` plus the steps, when it should be at position `o` plus the steps, where `n` is the rank of the iota and `o` its origin (B2). -/
theorem C14_grid (v : View) (d : Dim) (ds : List Dim) (hd : v.dims = d :: ds) (iz : List (Nat × Int)) (o : Int) :
    ((∀ p ∈ iz, p.1 = 0 ∨ ((0 ≤ o ∧ o < d.len) ∧ 0 ≤ o + (p.1 - 1) * p.2 ∧ o + (p.1 - 1) * p.2 < d.len)) →
      ∃ b, v.from [writeGrid iz o] = .ok b ∧ b.dims.map Dim.len = iz.map (fun p => (p.1 : Int)) ++ ds.map Dim.len ∧
        ∀ j r : List Int, j.length = iz.length → address b (j ++ r) = address v ((iz.length * o + dot (iz.map Prod.snd) j) :: r)) ∧
    ((¬ ∀ p ∈ iz, p.1 = 0 ∨ ((0 ≤ o ∧ o < d.len) ∧ 0 ≤ o + (p.1 - 1) * p.2 ∧ o + (p.1 - 1) * p.2 < d.len)) → v.from [writeGrid iz o] = .error .check) := by
  have hn : ¬ ((iz.map fun p => (⟨(p.1 : Int), p.2⟩ : Dim)).length = 1 ∧ (iz.map fun p => (⟨(p.1 : Int), p.2⟩ : Dim)).any (fun d => decide (d.len < 0)) = true) := by
    rintro ⟨_, h⟩
    simp at h
    obtain ⟨a, _, h⟩ := h
    omega
  constructor
  · intro h
    refine ⟨⟨(iz.map fun p => ⟨(p.1 : Int), p.2 * d.step⟩) ++ ds, v.cp + iz.length * (o * d.step)⟩, ?_, by simp [Function.comp_def], fun j r hj => ?_⟩
    · simp only [View.from, hd, writeGrid, fromb, iotaDims_grid, val_const, bind, Except.bind]
      rw [if_neg hn, (iotaLoop_grid d.len d.step o v.cp iz).1 h]
      rfl
    · simp only [address, hd, List.map_append, List.map_map, List.map_cons]
      rw [dot_append _ _ _ _ (by simp [hj]), dot_cons]
      have : ∀ (iz : List (Nat × Int)) (j : List Int), j.length = iz.length → dot (iz.map (Dim.step ∘ fun p => ⟨(p.1 : Int), p.2 * d.step⟩)) j = dot (iz.map Prod.snd) j * d.step := by
        intro iz
        induction iz with
        | nil => intro j _; simp
        | cons p iz ih =>
          intro j hj
          match j, hj with
          | x :: j, hj =>
            simp only [List.map_cons, Function.comp_apply, dot_cons]
            rw [ih j (by simpa using hj)]
            ring
      rw [this iz j hj]
      ring
  · intro h
    simp only [View.from, hd, writeGrid, fromb, iotaDims_grid, val_const, bind, Except.bind]
    rw [if_neg hn, (iotaLoop_grid d.len d.step o v.cp iz).2 h]

/-- C14. The right elements are those at the origin plus the steps. These are the elements selected just when the origin is 0, the rank of the iota is 1, or the axis doesn't move
(if the result has any elements). -/
theorem C14_grid_right (v : View) (d : Dim) (ds : List Dim) (hd : v.dims = d :: ds) (iz : List (Nat × Int)) (hne : ∀ p ∈ iz, p.1 ≠ 0) (o : Int) (b : View)
    (hb : v.from [writeGrid iz o] = .ok b) :
    (∀ j r : List Int, Spec.Valid (iz.map Prod.fst) j → address b (j ++ r) = address v ((o + dot (iz.map Prod.snd) j) :: r)) ↔ o = 0 ∨ iz.length = 1 ∨ d.step = 0 := by
  have key : ∀ j r : List Int, j.length = iz.length → address b (j ++ r) = address v ((iz.length * o + dot (iz.map Prod.snd) j) :: r) := by
    by_cases h : ∀ p ∈ iz, p.1 = 0 ∨ ((0 ≤ o ∧ o < d.len) ∧ 0 ≤ o + (p.1 - 1) * p.2 ∧ o + (p.1 - 1) * p.2 < d.len)
    · obtain ⟨b', h1, _, h2⟩ := (C14_grid v d ds hd iz o).1 h
      rw [hb] at h1
      cases h1
      exact h2
    · rw [(C14_grid v d ds hd iz o).2 h] at hb
      cases hb
  have hlen : ∀ j, Spec.Valid (iz.map Prod.fst) j → j.length = iz.length := fun j hj => by simpa using length_of_valid hj
  constructor
  · intro h
    have hz : Spec.Valid (iz.map Prod.fst) (List.replicate iz.length 0) := by
      clear key hlen h hb
      induction iz with
      | nil => trivial
      | cons p iz ih =>
        refine ⟨le_refl _, ?_, ih fun q hq => hne q (by simp [hq])⟩
        have := hne p (by simp)
        omega
    have h1 := h _ [] hz
    rw [key _ [] (by simp)] at h1
    simp only [address, hd, List.map_cons, dot_cons] at h1
    have h2 : ((iz.length : Int) - 1) * (o * d.step) = 0 := by linarith
    rcases mul_eq_zero.mp h2 with h3 | h3
    · right; left; omega
    · rcases mul_eq_zero.mp h3 with h4 | h4
      · left; exact h4
      · right; right; exact h4
  · intro h j r hj
    rw [key j r (hlen j hj)]
    rcases h with h | h | h
    · simp [h]
    · simp [h]
    · simp only [address, hd, List.map_cons, dot_cons, h, mul_zero]

/-- The least of the sums of steps over the indices of an iota. -/
def lowest (iz : List (Nat × Int)) : Int := (iz.map fun p => min 0 (((p.1 : Int) - 1) * p.2)).sum
/-- The greatest. -/
def highest (iz : List (Nat × Int)) : Int := (iz.map fun p => max 0 (((p.1 : Int) - 1) * p.2)).sum

theorem grid_bounds (iz : List (Nat × Int)) (j : List Int) (hj : Spec.Valid (iz.map Prod.fst) j) :
    lowest iz ≤ dot (iz.map Prod.snd) j ∧ dot (iz.map Prod.snd) j ≤ highest iz := by
  induction iz generalizing j with
  | nil => simp [lowest, highest]
  | cons p iz ih =>
    match j, hj with
    | x :: j, ⟨h1, h2, h3⟩ =>
      have := ih j h3
      simp only [lowest, highest, List.map_cons, List.sum_cons, dot_cons] at this ⊢
      have h4 : x ≤ (p.1 : Int) - 1 := by omega
      rcases le_total 0 p.2 with hs | hs
      · have a1 : 0 ≤ x * p.2 := mul_nonneg h1 hs
        have a2 : x * p.2 ≤ ((p.1 : Int) - 1) * p.2 := mul_le_mul_of_nonneg_right h4 hs
        constructor
        · have := min_le_left 0 (((p.1 : Int) - 1) * p.2); linarith
        · have := le_max_right 0 (((p.1 : Int) - 1) * p.2); linarith
      · have a1 : x * p.2 ≤ 0 := mul_nonpos_of_nonneg_of_nonpos h1 hs
        have a2 : ((p.1 : Int) - 1) * p.2 ≤ x * p.2 := mul_le_mul_of_nonpos_right h4 hs
        constructor
        · have := min_le_right 0 (((p.1 : Int) - 1) * p.2); linarith
        · have := le_max_left 0 (((p.1 : Int) - 1) * p.2); linarith

theorem grid_ends (iz : List (Nat × Int)) (hne : ∀ p ∈ iz, p.1 ≠ 0) :
    (∃ j, Spec.Valid (iz.map Prod.fst) j ∧ dot (iz.map Prod.snd) j = lowest iz) ∧ ∃ j, Spec.Valid (iz.map Prod.fst) j ∧ dot (iz.map Prod.snd) j = highest iz := by
  induction iz with
  | nil => exact ⟨⟨[], trivial, by simp [lowest]⟩, ⟨[], trivial, by simp [highest]⟩⟩
  | cons p iz ih =>
    obtain ⟨⟨j, h1, h2⟩, k, h3, h4⟩ := ih fun q hq => hne q (by simp [hq])
    have hp : p.1 ≠ 0 := hne p (by simp)
    have hp1 : (0 : Int) ≤ (p.1 : Int) - 1 := by omega
    rcases le_total 0 p.2 with hs | hs
    · have a : 0 ≤ ((p.1 : Int) - 1) * p.2 := mul_nonneg hp1 hs
      refine ⟨⟨0 :: j, ⟨le_refl _, by omega, h1⟩, ?_⟩, ((p.1 : Int) - 1) :: k, ⟨hp1, by omega, h3⟩, ?_⟩
      · simp only [lowest, List.map_cons, List.sum_cons, dot_cons] at h2 ⊢
        rw [h2, min_eq_left a, zero_mul]
      · simp only [highest, List.map_cons, List.sum_cons, dot_cons] at h4 ⊢
        rw [h4, max_eq_right a]
    · have a : ((p.1 : Int) - 1) * p.2 ≤ 0 := mul_nonpos_of_nonneg_of_nonpos hp1 hs
      refine ⟨⟨((p.1 : Int) - 1) :: j, ⟨hp1, by omega, h1⟩, ?_⟩, 0 :: k, ⟨le_refl _, by omega, h3⟩, ?_⟩
      · simp only [lowest, List.map_cons, List.sum_cons, dot_cons] at h2 ⊢
        rw [h2, min_eq_right a]
      · simp only [highest, List.map_cons, List.sum_cons, dot_cons] at h4 ⊢
        rw [h4, max_eq_left a, zero_mul]

/-- C14. A slice with an iota of any rank that has passed the checks stays inside of the axis just when `n * o` plus the lowest and the highest sums of the steps are in range (if the axis
moves, and the result has any elements). -/
theorem C14_grid_inside (v : View) (d : Dim) (ds : List Dim) (hd : v.dims = d :: ds) (hs : d.step ≠ 0) (iz : List (Nat × Int)) (hne : ∀ p ∈ iz, p.1 ≠ 0) (o : Int) (b : View)
    (hb : v.from [writeGrid iz o] = .ok b) :
    (∀ j, Spec.Valid (iz.map Prod.fst) j → ∃ i, 0 ≤ i ∧ i < d.len ∧ ∀ r, address b (j ++ r) = address v (i :: r)) ↔
      0 ≤ iz.length * o + lowest iz ∧ iz.length * o + highest iz < d.len := by
  have key : ∀ j r : List Int, j.length = iz.length → address b (j ++ r) = address v ((iz.length * o + dot (iz.map Prod.snd) j) :: r) := by
    by_cases h : ∀ p ∈ iz, p.1 = 0 ∨ ((0 ≤ o ∧ o < d.len) ∧ 0 ≤ o + (p.1 - 1) * p.2 ∧ o + (p.1 - 1) * p.2 < d.len)
    · obtain ⟨b', h1, _, h2⟩ := (C14_grid v d ds hd iz o).1 h
      rw [hb] at h1
      cases h1
      exact h2
    · rw [(C14_grid v d ds hd iz o).2 h] at hb
      cases hb
  have hlen : ∀ j, Spec.Valid (iz.map Prod.fst) j → j.length = iz.length := fun j hj => by simpa using length_of_valid hj
  have at_ : ∀ j i, Spec.Valid (iz.map Prod.fst) j → (∀ r, address b (j ++ r) = address v (i :: r)) → iz.length * o + dot (iz.map Prod.snd) j = i := by
    intro j i hj h
    have h1 := h []
    rw [key j [] (hlen j hj)] at h1
    simp only [address, hd, List.map_cons, dot_cons] at h1
    exact mul_right_cancel₀ hs (by linarith)
  constructor
  · intro h
    obtain ⟨⟨j, h1, h2⟩, k, h3, h4⟩ := grid_ends iz hne
    obtain ⟨i, a1, a2, a3⟩ := h j h1
    obtain ⟨i', b1, b2, b3⟩ := h k h3
    have e1 := at_ j i h1 a3
    have e2 := at_ k i' h3 b3
    rw [h2] at e1
    rw [h4] at e2
    omega
  · rintro ⟨h1, h2⟩ j hj
    obtain ⟨g1, g2⟩ := grid_bounds iz j hj
    exact ⟨_, by omega, by omega, fun r => key j r (hlen j hj)⟩

/-- A slice with an iota of rank 2 that's inside, and one that isn't. -/
example : (⟨[⟨6, 1⟩], 0⟩ : View).from [writeGrid [(2, 2), (2, 1)] 1] = .ok ⟨[⟨2, 2⟩, ⟨2, 1⟩], 2⟩ := by rfl
example : (0 : Int) ≤ 2 * 1 + lowest [(2, 2), (2, 1)] ∧ 2 * 1 + highest [(2, 2), (2, 1)] < 6 := by decide
example : ¬ ((2 : Int) * 1 + highest [(2, 2), (2, 1)] < 4) := by decide

end Ra.Props
