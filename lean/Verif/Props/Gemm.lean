import Verif.Model.Gemm
import Verif.Props.Manual
/-!
# Matrix products as programs: C107
-/

namespace Ra.Spec

section
variable {V : Type}

/-- In memory `μ` there are matrices `a`, `b`, `c` of shapes `[I, K]`, `[K, J]`, `[I, J]` with elements `va`, `vb`, `vc`. The elements of `c` are in different places, and none of
these places has an element of `a` or `b`. -/
structure Matrices (μ : Mem V) (I K J : Nat) (a b c : View) (va vb vc : Int → Int → V) : Prop where
  shapeA : Shaped a [some I, some K]
  shapeB : Shaped b [some K, some J]
  shapeC : Shaped c [some I, some J]
  distinct : Distinct c [I, J]
  apartA : ∀ i k, Valid [I, K] [i, k] → ¬ InView c [I, J] (address a [i, k])
  apartB : ∀ k j, Valid [K, J] [k, j] → ¬ InView c [I, J] (address b [k, j])
  valueA : ∀ i k, Valid [I, K] [i, k] → μ (address a [i, k]) = some (va i k)
  valueB : ∀ k j, Valid [K, J] [k, j] → μ (address b [k, j]) = some (vb k j)
  valueC : ∀ i j, Valid [I, J] [i, j] → μ (address c [i, j]) = some (vc i j)

/-- The memory was `μ` and now is `μ'`. The difference is that the product was added to `c`, one term at a time in the order of `k`. -/
def Multiplied [Add V] [Mul V] (μ μ' : Mem V) (I K J : Nat) (c : View) (va vb vc : Int → Int → V) : Prop :=
  SameOutside (InView c [I, J]) μ μ' ∧
  ∀ i j, Valid [I, J] [i, j] → μ' (address c [i, j]) = some (accum (vc i j) K fun k => va i k * vb k j)

/-- `run a b c` adds the product of `a` and `b` to `c`. -/
def AddsProduct [Add V] [Mul V] (I K J : Nat) (run : View → View → View → Act V Unit) : Prop :=
  ∀ (a b c : View) (μ : Mem V) (va vb vc : Int → Int → V), Matrices μ I K J a b c va vb vc →
    ∃ μ', run a b c μ = (.ok (), μ') ∧ Multiplied μ μ' I K J c va vb vc

end
end Ra.Spec

namespace Ra.Props
open Spec

section
variable {V : Type} [Add V] [Mul V]

/-! Parts of a matrix. -/

omit [Add V] [Mul V] in
theorem accum_split [Add V] (old : V) (h n : Nat) (hn : h ≤ n) (f : Int → V) : accum (accum old h f) (n - h) (fun k => f (k + h)) = accum old n f := by
  obtain ⟨t, rfl⟩ := Nat.exists_eq_add_of_le hn
  simp only [Nat.add_sub_cancel_left, accum, List.range_add, List.foldl_append, List.foldl_map]
  congr 1
  funext x k
  rw [show ((h + k : Nat) : Int) = (k : Int) + h by push_cast; ring]

theorem rowsOf_eq (n n' o : Nat) (s : Int) (d : Dim) (cp : Int) (h : o + n' ≤ n) (h0 : 0 < n') :
    rowsOf ⟨[⟨n, s⟩, d], cp⟩ n' o = .ok ⟨[⟨n', s⟩, d], cp + o * s⟩ := by
  have h1 : ¬ (n' : Int) < 0 := by omega
  have h2 : inside (o : Int) n := by simp [inside]; omega
  have h3 : n' = 0 ∨ 0 ≤ (o : Int) + ((n' : Int) - 1) ∧ (o : Int) + ((n' : Int) - 1) < n := by omega
  simp [rowsOf, View.from, fromb, iotaDims, iotaLoop, val_const, h1, h2, h3, bind, Except.bind, pure, Except.pure]

theorem colsOf_eq (n n' o : Nat) (s : Int) (d : Dim) (cp : Int) (h : o + n' ≤ n) (h0 : 0 < n') :
    colsOf ⟨[d, ⟨n, s⟩], cp⟩ n' o = .ok ⟨[d, ⟨n', s⟩], cp + o * s⟩ := by
  have h1 : ¬ (n' : Int) < 0 := by omega
  have h2 : inside (o : Int) n := by simp [inside]; omega
  have h3 : n' = 0 ∨ 0 ≤ (o : Int) + ((n' : Int) - 1) ∧ (o : Int) + ((n' : Int) - 1) < n := by omega
  simp [colsOf, View.from, fromb, iotaDims, iotaLoop, val_const, h1, h2, h3, bind, Except.bind, pure, Except.pure]

theorem address_two (n m s t cp i j : Int) : address ⟨[⟨n, s⟩, ⟨m, t⟩], cp⟩ [i, j] = cp + (i * s + j * t) := by
  simp [address, dot]

/-- `b` is the part of `a` of shape `[n, m]` from row `o` and column `u` on. -/
def PartOf (b a : View) (n m : Nat) (o u : Int) : Prop := Shaped b [some n, some m] ∧ ∀ i j, address b [i, j] = address a [i + o, j + u]

theorem rows_part {a : View} {n m : Nat} (ha : Shaped a [some n, some m]) (n' o : Nat) (h : o + n' ≤ n) (h0 : 0 < n') :
    ∃ b, rowsOf a n' o = .ok b ∧ PartOf b a n' m o 0 := by
  obtain ⟨s, t, e⟩ := view_two ha
  rw [e]
  refine ⟨_, rowsOf_eq n n' o s _ _ h h0, .cons rfl (.cons rfl .nil), ?_⟩
  intro i j
  rw [address_two, address_two]
  ring

theorem cols_part {a : View} {n m : Nat} (ha : Shaped a [some n, some m]) (m' o : Nat) (h : o + m' ≤ m) (h0 : 0 < m') :
    ∃ b, colsOf a m' o = .ok b ∧ PartOf b a n m' 0 o := by
  obtain ⟨s, t, e⟩ := view_two ha
  rw [e]
  refine ⟨_, colsOf_eq m m' o t _ _ h h0, .cons rfl (.cons rfl .nil), ?_⟩
  intro i j
  rw [address_two, address_two]
  ring

theorem valid2 {n m : Nat} {i j : Int} : Valid [n, m] [i, j] ↔ 0 ≤ i ∧ i < n ∧ 0 ≤ j ∧ j < m := by simp [Valid]

theorem part_whole {a : View} {n m : Nat} (ha : Shaped a [some n, some m]) : PartOf a a n m 0 0 := ⟨ha, fun i j => by simp⟩

theorem part_in {b a : View} {n m n' m' : Nat} {o u : Int} (h : PartOf b a n' m' o u) (ho : 0 ≤ o) (hu : 0 ≤ u) (hn : o + n' ≤ n) (hm : u + m' ≤ m) {p : Int}
    (hp : InView b [n', m'] p) : InView a [n, m] p := by
  obtain ⟨l, hl, rfl⟩ := hp
  obtain ⟨i, j, rfl, h1, h2, h3, h4⟩ := valid_two.mp hl
  exact ⟨[i + o, j + u], valid2.mpr ⟨by omega, by omega, by omega, by omega⟩, h.2 i j⟩

omit [Add V] [Mul V] in
theorem lift_bind {α β : Type} {x : Except Fault α} {a : α} (h : x = .ok a) (f : α → Act V β) (μ : Mem V) : (Act.lift x >>= f) μ = f a μ := by rw [h]; rfl

omit [Add V] [Mul V] in
/-- The matrices that a product by blocks uses. -/
theorem matrices_part {μ μ1 : Mem V} {I K J I' K' J' : Nat} {a b c a' b' c' : View} {va vb vc vc' : Int → Int → V} {x y w : Nat} (h : Matrices μ I K J a b c va vb vc)
    (ha : PartOf a' a I' K' x y) (hb : PartOf b' b K' J' y w) (hc : PartOf c' c I' J' x w) (hx : x + I' ≤ I) (hy : y + K' ≤ K) (hw : w + J' ≤ J)
    (hμ : SameOutside (InView c [I, J]) μ μ1) (hvc : ∀ i j, Valid [I', J'] [i, j] → μ1 (address c' [i, j]) = some (vc' i j)) :
    Matrices μ1 I' K' J' a' b' c' (fun i k => va (i + x) (k + y)) (fun k j => vb (k + y) (j + w)) vc' := by
  refine ⟨ha.1, hb.1, hc.1, ?_, ?_, ?_, ?_, ?_, hvc⟩
  · intro l l' hl hl' e
    obtain ⟨i, j, rfl, h1, h2, h3, h4⟩ := valid_two.mp hl
    obtain ⟨i', j', rfl, h1', h2', h3', h4'⟩ := valid_two.mp hl'
    rw [hc.2, hc.2] at e
    have := h.distinct _ _ (valid2.mpr ⟨by omega, by omega, by omega, by omega⟩) (valid2.mpr ⟨by omega, by omega, by omega, by omega⟩) e
    simp only [List.cons.injEq, and_true] at this
    simp only [List.cons.injEq, and_true]
    omega
  · intro i k hv hp
    rw [valid2] at hv
    rw [ha.2] at hp
    exact h.apartA _ _ (valid2.mpr ⟨by omega, by omega, by omega, by omega⟩) (part_in hc (by omega) (by omega) (by omega) (by omega) hp)
  · intro k j hv hp
    rw [valid2] at hv
    rw [hb.2] at hp
    exact h.apartB _ _ (valid2.mpr ⟨by omega, by omega, by omega, by omega⟩) (part_in hc (by omega) (by omega) (by omega) (by omega) hp)
  · intro i k hv
    rw [valid2] at hv
    have hv' : Valid [I, K] [i + x, k + y] := valid2.mpr ⟨by omega, by omega, by omega, by omega⟩
    rw [ha.2, hμ _ (h.apartA _ _ hv'), h.valueA _ _ hv']
  · intro k j hv
    rw [valid2] at hv
    have hv' : Valid [K, J] [k + y, j + w] := valid2.mpr ⟨by omega, by omega, by omega, by omega⟩
    rw [hb.2, hμ _ (h.apartB _ _ hv'), h.valueB _ _ hv']

omit [Add V] [Mul V] in
theorem matrices_values {μ : Mem V} {I K J : Nat} {a b c : View} {va vb vc : Int → Int → V} (h : Matrices μ I K J a b c va vb vc) :
    Values (InView c [I, J]) μ a.refs [I, K] (fun i => va (i.getD 0 0) (i.getD 1 0)) ∧ Values (InView c [I, J]) μ b.refs [K, J] (fun i => vb (i.getD 0 0) (i.getD 1 0)) := by
  refine ⟨values_refs (s := [I, K]) h.shapeA ?_, values_refs (s := [K, J]) h.shapeB ?_⟩
  all_goals
    intro l hl
    obtain ⟨i, j, rfl, h1, h2, h3, h4⟩ := valid_two.mp hl
  · exact ⟨h.apartA _ _ hl, h.valueA _ _ hl⟩
  · exact ⟨h.apartB _ _ hl, h.valueB _ _ hl⟩

/-- C107. `gemm(a, b, c)` adds the product to `c`, from C29. -/
theorem C107_gemm (dyn : Bool) (z : List Int) (hz : ∀ i ∈ z, i = 0) (I K J : Nat) : AddsProduct (V := V) I K J fun a b c => gemmSlice dyn z a.refs b c := by
  intro a b c μ va vb vc h
  obtain ⟨hva, hvb⟩ := matrices_values h
  obtain ⟨μ', h1, h2, h3⟩ := C29_gemm_slice dyn z hz I K J a.refs b c μ _ _ (fun i => vc (i.getD 0 0) (i.getD 1 0)) h.shapeC h.distinct
    (by
      intro l hl
      obtain ⟨i, j, rfl, _⟩ := valid_two.mp hl
      exact h.valueC _ _ hl) hva hvb
  exact ⟨μ', h1, h2, h3⟩

omit [Add V] [Mul V] in
theorem outside_trans {X Y Z : Int → Prop} {μ μ1 μ2 : Mem V} (h1 : SameOutside X μ μ1) (h2 : SameOutside Y μ1 μ2) (hX : ∀ p, X p → Z p) (hY : ∀ p, Y p → Z p) :
    SameOutside Z μ μ2 := fun p hp => by rw [h2 p fun h => hp (hY p h), h1 p fun h => hp (hX p h)]

/-- A product by halves, in rows of `a` and `c`. -/
theorem halves_rows {run : View → View → View → Act V Unit} {I K J h : Nat} (hI : h ≤ I) (h1 : AddsProduct h K J run) (h2 : AddsProduct (I - h) K J run) {a b c a0 c0 a1 c1 : View}
    (pa0 : PartOf a0 a h K 0 0) (pa1 : PartOf a1 a (I - h) K h 0) (pc0 : PartOf c0 c h J 0 0) (pc1 : PartOf c1 c (I - h) J h 0)
    {μ : Mem V} {va vb vc : Int → Int → V} (hm : Matrices μ I K J a b c va vb vc) :
    ∃ μ1 μ2, run a0 b c0 μ = (.ok (), μ1) ∧ run a1 b c1 μ1 = (.ok (), μ2) ∧ Multiplied μ μ2 I K J c va vb vc := by
  have m0 := matrices_part (vc' := vc) (x := 0) (y := 0) (w := 0) hm pa0 (part_whole hm.shapeB) pc0 (by omega) (by omega) (by omega) (fun _ _ => rfl) (by
    intro i j hv
    rw [valid2] at hv
    rw [pc0.2, hm.valueC _ _ (valid2.mpr ⟨by omega, by omega, by omega, by omega⟩)]
    simp)
  obtain ⟨μ1, r1, s1, v1⟩ := h1 _ _ _ _ _ _ _ m0
  have i0 : ∀ p, InView c0 [h, J] p → InView c [I, J] p := fun p hp => part_in pc0 (by omega) (by omega) (by omega) (by omega) hp
  have i1 : ∀ p, InView c1 [I - h, J] p → InView c [I, J] p := fun p hp => part_in pc1 (by omega) (by omega) (by omega) (by omega) hp
  have hs1 : SameOutside (InView c [I, J]) μ μ1 := outside_trans s1 (Y := fun _ => False) (fun _ _ => rfl) i0 (by simp)
  have hx : ∀ i j i' j', Valid [h, J] [i, j] → Valid [I - h, J] [i', j'] → address c0 [i, j] ≠ address c1 [i', j'] := by
    intro i j i' j' hv hv' e
    rw [valid2] at hv hv'
    rw [pc0.2, pc1.2] at e
    have := hm.distinct _ _ (valid2.mpr ⟨by omega, by omega, by omega, by omega⟩) (valid2.mpr ⟨by omega, by omega, by omega, by omega⟩) e
    simp only [List.cons.injEq, and_true] at this
    omega
  have m1 := matrices_part (vc' := fun i j => vc (i + h) j) (x := h) (y := 0) (w := 0) hm pa1 (part_whole hm.shapeB) pc1 (by omega) (by omega) (by omega) hs1 (by
    intro i j hv
    rw [s1 _ (by
      rintro ⟨l, hl, e⟩
      obtain ⟨i', j', rfl, _⟩ := valid_two.mp hl
      exact hx _ _ _ _ hl hv e.symm), pc1.2]
    rw [valid2] at hv
    rw [hm.valueC _ _ (valid2.mpr ⟨by omega, by omega, by omega, by omega⟩)]
    simp)
  obtain ⟨μ2, r2, s2, v2⟩ := h2 _ _ _ _ _ _ _ m1
  refine ⟨μ1, μ2, r1, r2, outside_trans s1 s2 i0 i1, ?_⟩
  intro i j hv
  rw [valid2] at hv
  by_cases hi : i < h
  · have hv0 : Valid [h, J] [i, j] := valid2.mpr ⟨by omega, by omega, by omega, by omega⟩
    have e := pc0.2 i j
    simp only [add_zero] at e
    rw [← e, s2 _ (by
      rintro ⟨l, hl, e⟩
      obtain ⟨i', j', rfl, _⟩ := valid_two.mp hl
      exact hx _ _ _ _ hv0 hl e), v1 _ _ hv0]
    simp
  · have hv1 : Valid [I - h, J] [i - h, j] := valid2.mpr ⟨by omega, by omega, by omega, by omega⟩
    have e := pc1.2 (i - h) j
    simp only [add_zero, sub_add_cancel] at e
    rw [← e, v2 _ _ hv1]
    simp

/-- A product by halves, in columns of `b` and `c`. -/
theorem halves_cols {run : View → View → View → Act V Unit} {I K J h : Nat} (hJ : h ≤ J) (h1 : AddsProduct I K h run) (h2 : AddsProduct I K (J - h) run) {a b c b0 c0 b1 c1 : View}
    (pb0 : PartOf b0 b K h 0 0) (pb1 : PartOf b1 b K (J - h) 0 h) (pc0 : PartOf c0 c I h 0 0) (pc1 : PartOf c1 c I (J - h) 0 h)
    {μ : Mem V} {va vb vc : Int → Int → V} (hm : Matrices μ I K J a b c va vb vc) :
    ∃ μ1 μ2, run a b0 c0 μ = (.ok (), μ1) ∧ run a b1 c1 μ1 = (.ok (), μ2) ∧ Multiplied μ μ2 I K J c va vb vc := by
  have m0 := matrices_part (vc' := vc) (x := 0) (y := 0) (w := 0) hm (part_whole hm.shapeA) pb0 pc0 (by omega) (by omega) (by omega) (fun _ _ => rfl) (by
    intro i j hv
    rw [valid2] at hv
    rw [pc0.2, hm.valueC _ _ (valid2.mpr ⟨by omega, by omega, by omega, by omega⟩)]
    simp)
  obtain ⟨μ1, r1, s1, v1⟩ := h1 _ _ _ _ _ _ _ m0
  have i0 : ∀ p, InView c0 [I, h] p → InView c [I, J] p := fun p hp => part_in pc0 (by omega) (by omega) (by omega) (by omega) hp
  have i1 : ∀ p, InView c1 [I, J - h] p → InView c [I, J] p := fun p hp => part_in pc1 (by omega) (by omega) (by omega) (by omega) hp
  have hs1 : SameOutside (InView c [I, J]) μ μ1 := outside_trans s1 (Y := fun _ => False) (fun _ _ => rfl) i0 (by simp)
  have hx : ∀ i j i' j', Valid [I, h] [i, j] → Valid [I, J - h] [i', j'] → address c0 [i, j] ≠ address c1 [i', j'] := by
    intro i j i' j' hv hv' e
    rw [valid2] at hv hv'
    rw [pc0.2, pc1.2] at e
    have := hm.distinct _ _ (valid2.mpr ⟨by omega, by omega, by omega, by omega⟩) (valid2.mpr ⟨by omega, by omega, by omega, by omega⟩) e
    simp only [List.cons.injEq, and_true] at this
    omega
  have m1 := matrices_part (vc' := fun i j => vc i (j + h)) (x := 0) (y := 0) (w := h) hm (part_whole hm.shapeA) pb1 pc1 (by omega) (by omega) (by omega) hs1 (by
    intro i j hv
    rw [s1 _ (by
      rintro ⟨l, hl, e⟩
      obtain ⟨i', j', rfl, _⟩ := valid_two.mp hl
      exact hx _ _ _ _ hl hv e.symm), pc1.2]
    rw [valid2] at hv
    rw [hm.valueC _ _ (valid2.mpr ⟨by omega, by omega, by omega, by omega⟩)]
    simp)
  obtain ⟨μ2, r2, s2, v2⟩ := h2 _ _ _ _ _ _ _ m1
  refine ⟨μ1, μ2, r1, r2, outside_trans s1 s2 i0 i1, ?_⟩
  intro i j hv
  rw [valid2] at hv
  by_cases hj : j < h
  · have hv0 : Valid [I, h] [i, j] := valid2.mpr ⟨by omega, by omega, by omega, by omega⟩
    have e := pc0.2 i j
    simp only [add_zero] at e
    rw [← e, s2 _ (by
      rintro ⟨l, hl, e⟩
      obtain ⟨i', j', rfl, _⟩ := valid_two.mp hl
      exact hx _ _ _ _ hv0 hl e), v1 _ _ hv0]
    simp
  · have hv1 : Valid [I, J - h] [i, j - h] := valid2.mpr ⟨by omega, by omega, by omega, by omega⟩
    have e := pc1.2 i (j - h)
    simp only [add_zero, sub_add_cancel] at e
    rw [← e, v2 _ _ hv1]
    simp

/-- A product by halves of the sum. -/
theorem halves_sum {run : View → View → View → Act V Unit} {I K J h : Nat} (hK : h ≤ K) (h1 : AddsProduct I h J run) (h2 : AddsProduct I (K - h) J run) {a b c a0 b0 a1 b1 : View}
    (pa0 : PartOf a0 a I h 0 0) (pa1 : PartOf a1 a I (K - h) 0 h) (pb0 : PartOf b0 b h J 0 0) (pb1 : PartOf b1 b (K - h) J h 0)
    {μ : Mem V} {va vb vc : Int → Int → V} (hm : Matrices μ I K J a b c va vb vc) :
    ∃ μ1 μ2, run a0 b0 c μ = (.ok (), μ1) ∧ run a1 b1 c μ1 = (.ok (), μ2) ∧ Multiplied μ μ2 I K J c va vb vc := by
  have m0 := matrices_part (vc' := vc) (x := 0) (y := 0) (w := 0) hm pa0 pb0 (part_whole hm.shapeC) (by omega) (by omega) (by omega) (fun _ _ => rfl) hm.valueC
  obtain ⟨μ1, r1, s1, v1⟩ := h1 _ _ _ _ _ _ _ m0
  have m1 := matrices_part (x := 0) (y := h) (w := 0) hm pa1 pb1 (part_whole hm.shapeC) (by omega) (by omega) (by omega) s1 v1
  obtain ⟨μ2, r2, s2, v2⟩ := h2 _ _ _ _ _ _ _ m1
  refine ⟨μ1, μ2, r1, r2, outside_trans s1 s2 (fun _ h => h) (fun _ h => h), ?_⟩
  intro i j hv
  rw [v2 i j hv]
  simp only [Nat.cast_zero, add_zero]
  rw [accum_split _ h K hK (fun k => va i k * vb k j)]

/-- C107. `gemm_block(a, b, c)` ends, with a depth that is less than the sum of the lengths, passes all the checks, and adds the product to `c` with the same operations in the same
order as `gemm(a, b, c)`. -/
theorem C107_block (dyn : Bool) (z : List Int) (hz : ∀ i ∈ z, i = 0) (I K J depth : Nat) (hd : I + K + J < depth) : AddsProduct (V := V) I K J (gemmBlock dyn z depth) := by
  induction depth generalizing I K J with
  | zero => omega
  | succ depth ih =>
    intro a b c μ va vb vc h
    have e0 : lenOf a.dims 0 = I := by obtain ⟨s, t, e⟩ := view_two h.shapeA; rw [e]; rfl
    have e1 : lenOf a.dims 1 = K := by obtain ⟨s, t, e⟩ := view_two h.shapeA; rw [e]; rfl
    have e2 : lenOf b.dims 1 = J := by obtain ⟨s, t, e⟩ := view_two h.shapeB; rw [e]; rfl
    have half : ∀ n : Nat, ((n : Int).tdiv 2) = ((n / 2 : Nat) : Int) := fun n => rfl
    have rest : ∀ n : Nat, ((n : Int) - ((n / 2 : Nat) : Int)) = ((n - n / 2 : Nat) : Int) := fun n => by omega
    simp only [gemmBlock, e0, e1, e2]
    by_cases c1 : max (I : Int) (max (K : Int) (J : Int)) ≤ 64
    · rw [if_pos c1]
      exact C107_gemm dyn z hz I K J a b c μ va vb vc h
    rw [if_neg c1]
    by_cases c2 : max (K : Int) (J : Int) ≤ I
    · rw [if_pos c2]
      obtain ⟨a0, f1, pa0⟩ := rows_part h.shapeA (I / 2) 0 (by omega) (by omega)
      obtain ⟨a1, f2, pa1⟩ := rows_part h.shapeA (I - I / 2) (I / 2) (by omega) (by omega)
      obtain ⟨c0, f3, pc0⟩ := rows_part h.shapeC (I / 2) 0 (by omega) (by omega)
      obtain ⟨c1, f4, pc1⟩ := rows_part h.shapeC (I - I / 2) (I / 2) (by omega) (by omega)
      obtain ⟨μ1, μ2, r1, r2, r3⟩ := halves_rows (by omega) (ih (I / 2) K J (by omega)) (ih (I - I / 2) K J (by omega)) pa0 pa1 pc0 pc1 h
      refine ⟨μ2, ?_, r3⟩
      simp only [half, rest]
      simp only [Nat.cast_zero] at f1 f3
      rw [lift_bind f1, lift_bind f3, act_bind_ok r1,
        lift_bind f2, lift_bind f4, r2]
    rw [if_neg c2]
    by_cases c3 : max (I : Int) (K : Int) ≤ J
    · rw [if_pos c3]
      obtain ⟨b0, f1, pb0⟩ := cols_part h.shapeB (J / 2) 0 (by omega) (by omega)
      obtain ⟨b1, f2, pb1⟩ := cols_part h.shapeB (J - J / 2) (J / 2) (by omega) (by omega)
      obtain ⟨c0, f3, pc0⟩ := cols_part h.shapeC (J / 2) 0 (by omega) (by omega)
      obtain ⟨c1, f4, pc1⟩ := cols_part h.shapeC (J - J / 2) (J / 2) (by omega) (by omega)
      obtain ⟨μ1, μ2, r1, r2, r3⟩ := halves_cols (by omega) (ih I K (J / 2) (by omega)) (ih I K (J - J / 2) (by omega)) pb0 pb1 pc0 pc1 h
      refine ⟨μ2, ?_, r3⟩
      simp only [half, rest]
      simp only [Nat.cast_zero] at f1 f3
      rw [lift_bind f1, lift_bind f3, act_bind_ok r1,
        lift_bind f2, lift_bind f4, r2]
    rw [if_neg c3]
    obtain ⟨a0, f1, pa0⟩ := cols_part h.shapeA (K / 2) 0 (by omega) (by omega)
    obtain ⟨a1, f2, pa1⟩ := cols_part h.shapeA (K - K / 2) (K / 2) (by omega) (by omega)
    obtain ⟨b0, f3, pb0⟩ := rows_part h.shapeB (K / 2) 0 (by omega) (by omega)
    obtain ⟨b1, f4, pb1⟩ := rows_part h.shapeB (K - K / 2) (K / 2) (by omega) (by omega)
    obtain ⟨μ1, μ2, r1, r2, r3⟩ := halves_sum (by omega) (ih I (K / 2) J (by omega)) (ih I (K - K / 2) J (by omega)) pa0 pa1 pb0 pb1 h
    refine ⟨μ2, ?_, r3⟩
    simp only [half, rest]
    simp only [Nat.cast_zero] at f1 f3
    rw [lift_bind f1, lift_bind f3, act_bind_ok r1,
      lift_bind f2, lift_bind f4, r2]

end
end Ra.Props
