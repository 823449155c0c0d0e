import Verif.Model.AxisSum
import Verif.Props.GemmDot
import Verif.Props.Fill
/-!
# Sums along an axis: C110
-/

namespace Ra.Spec

section
variable {V : Type}

/-- In memory `μ` there's a matrix `a` of shape `[I, J]` and a vector `c` of length `n`, with elements `va` and `vc`. The elements of `c` are in different places, and none of these places has an element of
`a`. -/
structure MatrixVector (μ : Mem V) (I J n : Nat) (a c : View) (va : Int → Int → V) (vc : Int → V) : Prop where
  shapeA : Shaped a [some I, some J]
  shapeC : Shaped c [some n]
  distinct : Distinct c [n]
  apart : ∀ i j, Valid [I, J] [i, j] → ¬ InView c [n] (address a [i, j])
  valueA : ∀ i j, Valid [I, J] [i, j] → μ (address a [i, j]) = some (va i j)
  valueC : ∀ i, Valid [n] [i] → μ (address c [i]) = some (vc i)

/-- The memory was `μ` and now is `μ'`. The difference is that the elements of `c` are `new`. -/
def VectorIs (μ μ' : Mem V) (n : Nat) (c : View) (new : Int → V) : Prop :=
  SameOutside (InView c [n]) μ μ' ∧ ∀ i, Valid [n] [i] → μ' (address c [i]) = some (new i)

/-- `run c a` adds the elements of each row of `a` to an element of `c`, one at a time from the first column to the last. -/
def AddsRows [Add V] (I J : Nat) (run : View → View → Act V Unit) : Prop :=
  ∀ (c a : View) (μ : Mem V) (va : Int → Int → V) (vc : Int → V), MatrixVector μ I J I a c va vc →
    ∃ μ', run c a μ = (.ok (), μ') ∧ VectorIs μ μ' I c fun i => accum (vc i) J fun j => va i j

/-- `run c a` adds the elements of each column of `a` to an element of `c`, one at a time from the first row to the last. -/
def AddsCols [Add V] (I J : Nat) (run : View → View → Act V Unit) : Prop :=
  ∀ (c a : View) (μ : Mem V) (va : Int → Int → V) (vc : Int → V), MatrixVector μ I J J a c va vc →
    ∃ μ', run c a μ = (.ok (), μ') ∧ VectorIs μ μ' J c fun j => accum (vc j) I fun i => va i j

end
end Ra.Spec

namespace Ra.Props
open Spec

section
variable {V : Type} [Add V]

/-- `c += x` for an element at this address and the value of `rd`. -/
def addTo (rd : Act V V) (pc : Int) : Act V Unit := do
  let u ← rd
  let v ← Act.read pc
  Act.write pc (v + u)

theorem addTo_run {μ : Mem V} {rd : Act V V} {pc : Int} {u v : V} (hr : rd μ = (.ok u, μ)) (hc : μ pc = some v) : addTo rd pc μ = (.ok (), μ.upd pc (v + u)) := by
  rw [addTo, act_bind_ok hr, act_bind_ok (a := v) (μ' := μ) (by simp [Act.read, hc])]
  simp [Act.write, hc]

omit [Add V] in
theorem vector_upd {μ : Mem V} {n : Nat} {c : View} {vc : Int → V} (hd : Distinct c [n]) (hv : ∀ i, Valid [n] [i] → μ (address c [i]) = some (vc i)) (k : Int) (hk : Valid [n] [k]) (x : V) :
    SameOutside (InView c [n]) μ (μ.upd (address c [k]) x) ∧
    ∀ i, Valid [n] [i] → (μ.upd (address c [k]) x) (address c [i]) = some (if k = i then x else vc i) := by
  constructor
  · intro p hp
    simp only [Mem.upd]
    rw [if_neg]
    rintro rfl
    exact hp ⟨_, hk, rfl⟩
  · intro i hi
    simp only [Mem.upd]
    by_cases e : k = i
    · subst e
      simp
    · rw [if_neg, if_neg e, hv i hi]
      intro e'
      have := hd _ _ hi hk e'
      simp only [List.cons.injEq, and_true] at this
      exact e this.symm

/-- Terms added to the elements of a vector in any order. `l` lists the terms, and term `t` goes to element `fd t`. -/
theorem run_adds {ι : Type} (fd : ι → Int) (rd : ι → Act V V) (val : ι → V) (n : Nat) (c : View) (hd : Distinct c [n]) (μ₀ : Mem V) (l : List ι) (hl : ∀ t ∈ l, Valid [n] [fd t])
    (hr : ∀ t ∈ l, ∀ μ', SameOutside (InView c [n]) μ₀ μ' → rd t μ' = (.ok (val t), μ')) (μ : Mem V) (hμ : SameOutside (InView c [n]) μ₀ μ) (vc : Int → V)
    (hv : ∀ i, Valid [n] [i] → μ (address c [i]) = some (vc i)) :
    ∃ μ', forAll (fun t => addTo (rd t) (address c [fd t])) l μ = (.ok (), μ') ∧ VectorIs μ μ' n c fun i => ((l.filter fun t => fd t = i).map val).foldl (· + ·) (vc i) := by
  induction l generalizing μ vc with
  | nil => exact ⟨μ, rfl, fun _ _ => rfl, fun i hi => hv i hi⟩
  | cons t l ih =>
    have ht := hl t (by simp)
    have run := addTo_run (hr t (by simp) μ hμ) (hv _ ht)
    obtain ⟨u1, u2⟩ := vector_upd hd hv (fd t) ht (vc (fd t) + val t)
    obtain ⟨μ', h1, h2, h3⟩ := ih (fun t' h => hl t' (by simp [h])) (fun t' h => hr t' (by simp [h])) _ (outside_trans hμ u1 (fun _ h => h) (fun _ h => h)) _ u2
    refine ⟨μ', ?_, outside_trans u1 h2 (fun _ h => h) (fun _ h => h), ?_⟩
    · rw [forAll, act_bind_ok run, h1]
    · intro i hi
      rw [h3 i hi]
      by_cases e : fd t = i
      · subst e
        simp
      · simp [e]

/-! The orders of the loops. -/

/-- The positions in a matrix, by rows. -/
def byRows (I J : Nat) : List (Int × Int) := (List.range I).flatMap fun (i : Nat) => (List.range J).map fun (j : Nat) => ((i : Int), (j : Int))

/-- The positions in a matrix, by columns. -/
def byCols (I J : Nat) : List (Int × Int) := (List.range J).flatMap fun (j : Nat) => (List.range I).map fun (i : Nat) => ((i : Int), (j : Int))

omit [Add V] in
theorem mem_byRows {I J : Nat} {t : Int × Int} (h : t ∈ byRows I J) : Valid [I, J] [t.1, t.2] := by
  simp only [byRows, List.mem_flatMap, List.mem_map, List.mem_range] at h
  obtain ⟨i, hi, j, hj, rfl⟩ := h
  exact valid2.mpr ⟨by simp, by simpa using hi, by simp, by simpa using hj⟩

omit [Add V] in
theorem mem_byCols {I J : Nat} {t : Int × Int} (h : t ∈ byCols I J) : Valid [I, J] [t.1, t.2] := by
  simp only [byCols, List.mem_flatMap, List.mem_map, List.mem_range] at h
  obtain ⟨j, hj, i, hi, rfl⟩ := h
  exact valid2.mpr ⟨by simp, by simpa using hi, by simp, by simpa using hj⟩

omit [Add V] in
/-- The terms of the outer loop are contiguous. -/
theorem filter_outer {α : Type} (n m : Nat) (f : Nat → Nat → α) (g : α → Int) (hg : ∀ x y, g (f x y) = x) (i : Int) (hi : 0 ≤ i ∧ i < n) :
    (((List.range n).flatMap fun x => (List.range m).map fun y => f x y).filter fun t => g t = i) = (List.range m).map fun y => f i.toNat y := by
  rw [List.filter_flatMap]
  have e : ∀ x : Nat, ((List.range m).map fun y => f x y).filter (fun t => decide (g t = i)) = if (x : Int) = i then (List.range m).map fun y => f x y else [] := by
    intro x
    rw [List.filter_map]
    by_cases e : (x : Int) = i <;> simp [hg, e, Function.comp_def]
  simp only [e]
  exact flatMap_one n i hi _

omit [Add V] in
/-- Those of the inner loop aren't. -/
theorem filter_inner {α : Type} (n m : Nat) (f : Nat → Nat → α) (g : α → Int) (hg : ∀ x y, g (f x y) = y) (j : Int) (hj : 0 ≤ j ∧ j < m) :
    (((List.range n).flatMap fun x => (List.range m).map fun y => f x y).filter fun t => g t = j) = (List.range n).map fun x => f x j.toNat := by
  rw [List.filter_flatMap]
  have e : ∀ x : Nat, ((List.range m).map fun y => f x y).filter (fun t => decide (g t = j)) = [f x j.toNat] := by
    intro x
    rw [List.filter_map]
    have : ((List.range m).filter ((fun t => decide (g t = j)) ∘ fun y => f x y)) = (List.range m).flatMap fun (y : Nat) => if (y : Int) = j then [y] else [] := by
      induction List.range m with
      | nil => rfl
      | cons y l ih =>
        simp only [List.filter_cons, List.flatMap_cons, Function.comp_apply, hg] at ih ⊢
        by_cases e : (y : Int) = j <;> simp [e, ih]
    rw [this, flatMap_one m j hj]
    rfl
  simp only [e]
  induction List.range n with
  | nil => rfl
  | cons x l ih => simp [ih]

omit [Add V] in
theorem mem_by {I J : Nat} {l : List (Int × Int)} (hl : l = byRows I J ∨ l = byCols I J) : ∀ t ∈ l, Valid [I, J] [t.1, t.2] := by
  rcases hl with rfl | rfl
  · exact fun t ht => mem_byRows ht
  · exact fun t ht => mem_byCols ht

/-- A term for each position of a matrix, by rows or by columns, added to the element of the vector for the row. -/
theorem adds_first (l : List (Int × Int)) (I J : Nat) (hl : l = byRows I J ∨ l = byCols I J) (rd : Int × Int → Act V V) (val : Int → Int → V) (c : View) (hd : Distinct c [I]) (μ : Mem V)
    (hr : ∀ i j, Valid [I, J] [i, j] → ∀ μ', SameOutside (InView c [I]) μ μ' → rd (i, j) μ' = (.ok (val i j), μ')) (vc : Int → V)
    (hv : ∀ i, Valid [I] [i] → μ (address c [i]) = some (vc i)) :
    ∃ μ', forAll (fun t => addTo (rd t) (address c [t.1])) l μ = (.ok (), μ') ∧ VectorIs μ μ' I c fun i => accum (vc i) J fun j => val i j := by
  have hm := mem_by hl
  obtain ⟨μ', h1, h2, h3⟩ := run_adds (·.1) rd (fun t => val t.1 t.2) I c hd μ l
    (fun t ht => valid_one.mpr ⟨_, rfl, (valid2.mp (hm t ht)).1, (valid2.mp (hm t ht)).2.1⟩) (fun t ht μ' hμ => hr t.1 t.2 (hm t ht) μ' hμ) μ (fun _ _ => rfl) vc hv
  refine ⟨μ', h1, h2, ?_⟩
  intro i hi
  rw [h3 i hi]
  obtain ⟨_, e, i1, i2⟩ := valid_one.mp hi
  simp only [List.cons.injEq, and_true] at e
  subst e
  beta_reduce
  rcases hl with rfl | rfl
  · rw [byRows, filter_outer I J (fun x y => ((x : Int), (y : Int))) (·.1) (fun _ _ => rfl) i ⟨i1, i2⟩, Int.toNat_of_nonneg i1, List.map_map, List.foldl_map]
    rfl
  · rw [byCols, filter_inner J I (fun x y => ((y : Int), (x : Int))) (·.1) (fun _ _ => rfl) i ⟨i1, i2⟩, Int.toNat_of_nonneg i1, List.map_map, List.foldl_map]
    rfl

/-- The same with the element of the vector for the column. -/
theorem adds_second (l : List (Int × Int)) (I J : Nat) (hl : l = byRows I J ∨ l = byCols I J) (rd : Int × Int → Act V V) (val : Int → Int → V) (c : View) (hd : Distinct c [J]) (μ : Mem V)
    (hr : ∀ i j, Valid [I, J] [i, j] → ∀ μ', SameOutside (InView c [J]) μ μ' → rd (i, j) μ' = (.ok (val i j), μ')) (vc : Int → V)
    (hv : ∀ j, Valid [J] [j] → μ (address c [j]) = some (vc j)) :
    ∃ μ', forAll (fun t => addTo (rd t) (address c [t.2])) l μ = (.ok (), μ') ∧ VectorIs μ μ' J c fun j => accum (vc j) I fun i => val i j := by
  have hm := mem_by hl
  obtain ⟨μ', h1, h2, h3⟩ := run_adds (·.2) rd (fun t => val t.1 t.2) J c hd μ l
    (fun t ht => valid_one.mpr ⟨_, rfl, (valid2.mp (hm t ht)).2.2⟩) (fun t ht μ' hμ => hr t.1 t.2 (hm t ht) μ' hμ) μ (fun _ _ => rfl) vc hv
  refine ⟨μ', h1, h2, ?_⟩
  intro j hj
  rw [h3 j hj]
  obtain ⟨_, e, j1, j2⟩ := valid_one.mp hj
  simp only [List.cons.injEq, and_true] at e
  subst e
  beta_reduce
  rcases hl with rfl | rfl
  · rw [byRows, filter_inner I J (fun x y => ((x : Int), (y : Int))) (·.2) (fun _ _ => rfl) j ⟨j1, j2⟩, Int.toNat_of_nonneg j1, List.map_map, List.foldl_map]
    rfl
  · rw [byCols, filter_outer J I (fun x y => ((y : Int), (x : Int))) (·.2) (fun _ _ => rfl) j ⟨j1, j2⟩, Int.toNat_of_nonneg j1, List.map_map, List.foldl_map]
    rfl

/-- The matrix by rows or by columns, added to the vector by rows. -/
theorem adds_rows (l : List (Int × Int)) (I J : Nat) (hl : l = byRows I J ∨ l = byCols I J) {c a : View} {μ : Mem V} {va : Int → Int → V} {vc : Int → V} (h : MatrixVector μ I J I a c va vc) :
    ∃ μ', forAll (fun t => addTo (Act.read (address a [t.1, t.2])) (address c [t.1])) l μ = (.ok (), μ') ∧ VectorIs μ μ' I c fun i => accum (vc i) J fun j => va i j :=
  adds_first l I J hl (fun t => Act.read (address a [t.1, t.2])) va c h.distinct μ (fun i j hv μ' hμ => by simp [Act.read, hμ _ (h.apart _ _ hv), h.valueA _ _ hv]) vc h.valueC

/-- The matrix by rows or by columns, added to the vector by columns. -/
theorem adds_cols (l : List (Int × Int)) (I J : Nat) (hl : l = byRows I J ∨ l = byCols I J) {c a : View} {μ : Mem V} {va : Int → Int → V} {vc : Int → V} (h : MatrixVector μ I J J a c va vc) :
    ∃ μ', forAll (fun t => addTo (Act.read (address a [t.1, t.2])) (address c [t.2])) l μ = (.ok (), μ') ∧ VectorIs μ μ' J c fun j => accum (vc j) I fun i => va i j :=
  adds_second l I J hl (fun t => Act.read (address a [t.1, t.2])) va c h.distinct μ (fun i j hv μ' hμ => by simp [Act.read, hμ _ (h.apart _ _ hv), h.valueA _ _ hv]) vc h.valueC

theorem upd_elem (p q : Int) : (do let _ ← mapOp (updOp (· + ·)) [pure (.ref p), pure (.ref q)]; pure () : Act V Unit) = addTo (Act.read q) p := by
  simp only [mapM_two, pure_bind, updOp, Lv.get, bind_assoc, addTo]
  congr 1; funext u
  congr 1; funext w
  exact bind_pure_unit

/-- `x += y` where `x` and `y` have the same length. -/
theorem update_same (dyn : Bool) (z : List Int) (hz : ∀ i ∈ z, i = 0) (n : Nat) (x y : View) (hx : Shaped x [some n]) (hy : Shaped y [some n]) :
    update (V := V) (· + ·) dyn z x.refs y.refs = forAll (fun (k : Nat) => addTo (Act.read (address y [(k : Int)])) (address x [(k : Int)])) (List.range n) := by
  unfold update
  rw [run_forAll dyn z hz _ _ _ [some n] [some n] [n] (refs_shape hx) (refs_shape hy) (merge_same _), forAll_eq, rowMajor_one, forAll_mapped]
  apply forAll_congr
  intro k _
  simp only [elem_refs, upd_elem]

/-! ## C110 -/

/-- C110. The loops on pointers, if the arrays are in row-major order without gaps. -/
theorem C110_raw (I J : Nat) (c a : View) (ha : Compact a I J) (μ : Mem V) (va : Int → Int → V) (vc : Int → V) :
    (c.dims = [⟨I, 1⟩] → MatrixVector μ I J I a c va vc → ∃ μ', rowSumsRaw c a μ = (.ok (), μ') ∧ VectorIs μ μ' I c fun i => accum (vc i) J fun j => va i j) ∧
    (c.dims = [⟨J, 1⟩] → MatrixVector μ I J J a c va vc → ∃ μ', colSumsRaw c a μ = (.ok (), μ') ∧ VectorIs μ μ' J c fun j => accum (vc j) I fun i => va i j) := by
  have e0 : lenOf a.dims 0 = I := by rw [ha]; rfl
  have e1 : lenOf a.dims 1 = J := by rw [ha]; rfl
  have hc : ∀ n : Nat, c.dims = [⟨n, 1⟩] → ∀ i, address c [i] = c.cp + i := by
    intro n e i
    obtain ⟨d, p⟩ := c
    simp only at e
    subst e
    simp [address, dot]
  constructor
  · intro hd h
    obtain ⟨μ', h1, h2⟩ := adds_rows _ I J (.inl rfl) h
    refine ⟨μ', ?_, h2⟩
    simp only [byRows, forAll_flatMap, forAll_mapped, compact_address ha, hc _ hd] at h1
    simp only [rowSumsRaw, e0, e1, forLoop_eq]
    exact h1
  · intro hd h
    obtain ⟨μ', h1, h2⟩ := adds_cols _ I J (.inl rfl) h
    refine ⟨μ', ?_, h2⟩
    simp only [byRows, forAll_flatMap, forAll_mapped, compact_address ha, hc _ hd] at h1
    simp only [colSumsRaw, e0, e1, forLoop_eq]
    exact h1

/-- C110. A loop on the columns. -/
theorem C110_sideways (dyn : Bool) (z : List Int) (hz : ∀ i ∈ z, i = 0) (I J : Nat) : AddsRows (V := V) I J (rowSumsSideways dyn z) := by
  intro c a μ va vc h
  have e1 : lenOf a.dims 1 = J := by obtain ⟨s, t, e⟩ := view_two h.shapeA; rw [e]; rfl
  obtain ⟨μ', h1, h2⟩ := adds_rows _ I J (.inr rfl) h
  refine ⟨μ', ?_, h2⟩
  rw [← h1]
  simp only [byCols, forAll_flatMap, forAll_mapped, rowSumsSideways, e1, forLoop_eq]
  refine congrFun (forAll_congr ?_) _
  intro j hj
  obtain ⟨x, x1, x2, x3⟩ := take_col h.shapeA j (List.mem_range.mp hj)
  funext μ0
  rw [lift_bind x1, update_same dyn z hz I c x h.shapeC x2]
  simp only [x3]

theorem rowMajor_two (I J : Nat) : rowMajor [I, J] = (byRows I J).map fun t => [t.1, t.2] := by
  simp only [rowMajor, byRows, List.map_flatMap, List.map_map, Function.comp_def, List.map_cons, List.map_nil]
  congr 1; funext i
  induction List.range J with
  | nil => rfl
  | cons j l ih => simp [ih]

/-- C110. With prefix matching. -/
theorem C110_match (dyn : Bool) (z : List Int) (hz : ∀ i ∈ z, i = 0) (I J : Nat) : AddsRows (V := V) I J (rowSumsMatch dyn z) := by
  intro c a μ va vc h
  obtain ⟨μ', h1, h2⟩ := adds_rows _ I J (.inl rfl) h
  refine ⟨μ', ?_, h2⟩
  rw [← h1]
  unfold rowSumsMatch update
  rw [run_forAll dyn z hz _ _ _ [some I] [some I, some J] [I, J] (refs_shape h.shapeC) (refs_shape h.shapeA) (merge_short1 I [some J]), forAll_eq, rowMajor_two, forAll_mapped]
  refine congrFun (forAll_congr ?_) _
  intro t ht
  have hv := valid2.mp (mem_byRows ht)
  have hcc : elem (c.refs : Iter (Act V) (Lv V)) [t.1, t.2] = elem c.refs [t.1] := by
    rw [show [t.1, t.2] = [t.1] ++ [t.2] from rfl]
    exact elem_append (s := [I]) (refs_shape h.shapeC) (valid_one.mpr ⟨_, rfl, hv.1, hv.2.1⟩) [t.2]
  rw [hcc]
  simp only [elem_refs, upd_elem]

/-- A verb with `c += a` goes through the elements in the order of the result. -/
theorem addVerb_run (dyn : Bool) (z : List Int) (hz : ∀ i ∈ z, i = 0) (e : Iter (Act V) (Lv V)) (I J : Nat) (h : HasShape e [some I, some J]) (pc pa : Int × Int → Int)
    (he : ∀ t ∈ byRows I J, elem e [t.1, t.2] = mapOp (updOp (· + ·)) [pure (.ref (pc t)), pure (.ref (pa t))]) :
    (do let _ ← ply (β := Unit) dyn never z e; pure ()) = forAll (fun t => addTo (Act.read (pa t)) (pc t)) (byRows I J) := by
  rw [ply_never dyn e [I, J] h z hz]
  simp only [bind_assoc, pure_bind]
  show (forAll _ _ >>= fun _ => pure ()) = _
  rw [bind_pure_unit, forAll_eq, rowMajor_two, forAll_mapped]
  apply forAll_congr
  intro t ht
  rw [he t ht, upd_elem]

/-- C110. With `wrank<0, 0>`, which is the same as prefix matching. -/
theorem C110_verb (dyn : Bool) (z : List Int) (hz : ∀ i ∈ z, i = 0) (I J : Nat) : AddsRows (V := V) I J (rowSumsVerb dyn z) := by
  intro c a μ va vc h
  obtain ⟨μ', h1, h2⟩ := adds_rows _ I J (.inl rfl) h
  refine ⟨μ', ?_, h2⟩
  have hvs : VerbShape [[0, 0]] [[some I], [some I, some J]] [some I, some J] := by
    refine ⟨.cons (by simp) (.cons (by simp) .nil), [some I, some J], [], rfl, ?_, ?_⟩
    · refine ⟨by simp, by simp, ?_⟩
      intro k n
      rcases k with _ | _ | k <;> simp
    · refine ⟨by simp, by simp, ?_⟩
      intro k n
      rcases k with _ | k <;> simp
  obtain ⟨e, v1, v2, v3⟩ := C17_conjunction (m := Act V) (updOp (· + ·)) [[0, 0]] [c.refs, a.refs] [[some I], [some I, some J]]
    ⟨_, _, rfl, refs_shape h.shapeC, _, _, rfl, refs_shape h.shapeA, rfl⟩ [some I, some J] hvs
  simp only [rowSumsVerb, v1]
  rw [addVerb_run dyn z hz e I J v2 (fun t => address c [t.1]) (fun t => address a [t.1, t.2]), h1]
  intro t ht
  rw [v3 _ (by simp)]
  simp [verb, elem_refs]

/-- C110. With `wrank<1, 1>`, once or around `wrank<0, 0>`. -/
theorem C110_verbs (dyn : Bool) (z : List Int) (hz : ∀ i ∈ z, i = 0) (I J : Nat) :
    AddsCols (V := V) I J (colSumsVerb [[1, 1]] dyn z) ∧ AddsCols (V := V) I J (colSumsVerb [[1, 1], [0, 0]] dyn z) := by
  have key : ∀ cranks : List (List Nat), (cranks = [[1, 1]] ∨ cranks = [[1, 1], [0, 0]]) → AddsCols (V := V) I J (colSumsVerb cranks dyn z) := by
    intro cranks hk c a μ va vc h
    obtain ⟨μ', h1, h2⟩ := adds_cols _ I J (.inl rfl) h
    refine ⟨μ', ?_, h2⟩
    have hvs : VerbShape cranks [[some J], [some I, some J]] [some I, some J] := by
      have hm : Merge [[], [some I]] [some I] := by
        refine ⟨by simp, by simp, ?_⟩
        intro k n
        rcases k with _ | k <;> simp
      have hm' : Merge [[some J], [some J]] [some J] := merge_same _
      rcases hk with rfl | rfl
      · exact ⟨.cons (by simp) (.cons (by simp) .nil), [some I], [some J], rfl, hm, hm'⟩
      · refine ⟨.cons (by simp) (.cons (by simp) .nil), [some I], [some J], rfl, hm, ?_⟩
        refine ⟨.cons (by simp) (.cons (by simp) .nil), [some J], [], rfl, hm', ?_⟩
        refine ⟨by simp, by simp, ?_⟩
        intro k n
        rcases k with _ | k <;> simp
    obtain ⟨e, v1, v2, v3⟩ := C17_conjunction (m := Act V) (updOp (· + ·)) cranks [c.refs, a.refs] [[some J], [some I, some J]]
      ⟨_, _, rfl, refs_shape h.shapeC, _, _, rfl, refs_shape h.shapeA, rfl⟩ [some I, some J] hvs
    simp only [colSumsVerb, v1]
    rw [addVerb_run dyn z hz e I J v2 (fun t => address c [t.2]) (fun t => address a [t.1, t.2]), h1]
    intro t ht
    rw [v3 _ (by simp)]
    rcases hk with rfl | rfl <;> simp [verb, elem_refs]
  exact ⟨key _ (.inl rfl), key _ (.inr rfl)⟩

/-- The cells of rank 1 of a matrix. -/
theorem cells_rows {a : View} {I J : Nat} (h : Shaped a [some I, some J]) :
    ∃ i : Iter (Act V) (Lv V), a.cells 1 = .ok i ∧ HasShape i [some I] ∧
      ∀ k, ∃ x : View, elem i [k] = pure (.view x) ∧ Shaped x [some J] ∧ ∀ j, address x [j] = address a [k, j] := by
  obtain ⟨s, t, e⟩ := view_two h
  refine ⟨.cell [⟨I, s⟩] a.cp fun p => pure (.view ⟨[⟨J, t⟩], p⟩), ?_, .cons rfl .nil, ?_⟩
  · rw [e]; rfl
  · intro k
    refine ⟨⟨[⟨J, t⟩], a.cp + dot [s] [k]⟩, rfl, .cons rfl .nil, ?_⟩
    intro j
    rw [e]
    simp [address, dot]
    ring

omit [Add V] in
theorem merge_empty {I : Nat} : Merge [[], [some I]] ([I].map some) := by
  refine ⟨by simp, by simp, ?_⟩
  intro k n
  rcases k with _ | k <;> simp

/-- The traversals of a matrix by rows. -/
theorem rows_loop (I J : Nat) {c a : View} {μ : Mem V} {va : Int → Int → V} {vc : Int → V} (h : MatrixVector μ I J J a c va vc) (body : List Int → Act V (Lv V))
    (hb : ∀ i : Nat, i < I → (do let _ ← body [(i : Int)]; pure ()) =
      forAll (fun (k : Nat) => addTo (Act.read (address a [(i : Int), (k : Int)])) (address c [(k : Int)])) (List.range J)) :
    ∃ μ', forAll body (rowMajor [I]) μ = (.ok (), μ') ∧ VectorIs μ μ' J c fun j => accum (vc j) I fun i => va i j := by
  obtain ⟨μ', h1, h2⟩ := adds_cols _ I J (.inl rfl) h
  refine ⟨μ', ?_, h2⟩
  rw [← h1, forAll_eq, rowMajor_one, forAll_mapped]
  simp only [byRows, forAll_flatMap, forAll_mapped]
  refine congrFun (forAll_congr ?_) _
  intro i hi
  exact hb i (List.mem_range.mp hi)

/-- C110. With a loop on rows. -/
theorem C110_rows (dyn : Bool) (z : List Int) (hz : ∀ i ∈ z, i = 0) (dyn' : Bool) (z' : List Int) (hz' : ∀ i ∈ z', i = 0) (I J : Nat) :
    AddsCols (V := V) I J (colSumsRows dyn z dyn' z') := by
  intro c a μ va vc h
  obtain ⟨i, i1, i2, i3⟩ := cells_rows (V := V) h.shapeA
  simp only [colSumsRows]
  rw [lift_bind i1]
  have hs : HasShape (.node (mapOp (addRow dyn' z' c)) [i] : Iter (Act V) (Lv V)) [some I] := ⟨[[some I]], ⟨_, _, rfl, i2, rfl⟩, merge_one _⟩
  rw [ply_never dyn _ [I] hs z hz]
  simp only [bind_assoc, pure_bind]
  rw [show (forAll _ _ >>= fun _ => pure () : Act V Unit) = _ from bind_pure_unit]
  refine rows_loop I J h _ ?_
  intro k _
  obtain ⟨x, x1, x2, x3⟩ := i3 k
  simp only [elem, elems, mapOp, x1, List.mapM_cons, List.mapM_nil, id, pure_bind, addRow, bind_assoc]
  rw [bind_pure_unit, update_same dyn' z' hz' J c x h.shapeC x2]
  simp only [x3]

/-- C110. With `scalar(c)`, that is `c` as a whole for each row. -/
theorem C110_scalar (dyn : Bool) (z : List Int) (hz : ∀ i ∈ z, i = 0) (dyn' : Bool) (z' : List Int) (hz' : ∀ i ∈ z', i = 0) (I J : Nat) :
    AddsCols (V := V) I J (colSumsScalar dyn z dyn' z') := by
  intro c a μ va vc h
  obtain ⟨i, i1, i2, i3⟩ := cells_rows (V := V) h.shapeA
  simp only [colSumsScalar]
  rw [lift_bind i1, run_forAll dyn z hz _ (.scalar (pure (.view c))) i [] [some I] [I] rfl i2 merge_empty]
  refine rows_loop I J h _ ?_
  intro k _
  obtain ⟨x, x1, x2, x3⟩ := i3 k
  simp only [elem, mapM_two, x1, pure_bind, cellUpd, bind_assoc]
  rw [bind_pure_unit, update_same dyn' z' hz' J c x h.shapeC x2]
  simp only [x3]

/-- C110. With cells of both, from C95. -/
theorem C110_iter (dyn : Bool) (z : List Int) (hz : ∀ i ∈ z, i = 0) (dyn' : Bool) (z' : List Int) (hz' : ∀ i ∈ z', i = 0) (I J : Nat) :
    AddsCols (V := V) I J (colSumsIter dyn z dyn' z') := by
  intro c a μ va vc h
  obtain ⟨μ', h1, h2, h3⟩ := C95_rows (· + ·) dyn z hz I J c a h.shapeC h.shapeA h.distinct μ vc va (fun j h1 h2 => h.valueC j (valid_one.mpr ⟨_, rfl, h1, h2⟩))
    (fun i j hv => ⟨h.valueA i j hv, h.apart i j hv⟩)
  refine ⟨μ', ?_, h2, ?_⟩
  · rw [colSumsIter, C95_rows_cells (· + ·) dyn z hz dyn' z' hz' dyn z hz I J c a h.shapeC h.shapeA, h1]
  · intro j hj
    obtain ⟨_, e, j1, j2⟩ := valid_one.mp hj
    simp only [List.cons.injEq, and_true] at e
    subst e
    exact h3 j j1 j2

/-- C110. With the transpose, from C95. -/
theorem C110_transpose (dyn : Bool) (z : List Int) (hz : ∀ i ∈ z, i = 0) (I J : Nat) : AddsCols (V := V) I J (colSumsTransp dyn z) := by
  intro c a μ va vc h
  have ho : ∀ j : Int, 0 ≤ j → j < J → μ (address c [j]) = some (vc j) := fun j h1 h2 => h.valueC j (valid_one.mpr ⟨_, rfl, h1, h2⟩)
  have hva : ∀ i j, Valid [I, J] [i, j] → μ (address a [i, j]) = some (va i j) ∧ ¬ InView c [J] (address a [i, j]) := fun i j hv => ⟨h.valueA i j hv, h.apart i j hv⟩
  obtain ⟨μ', h1, h2, h3⟩ := C95_rows (· + ·) dyn z hz I J c a h.shapeC h.shapeA h.distinct μ vc va ho hva
  refine ⟨μ', ?_, h2, ?_⟩
  · rw [colSumsTransp, C95_rows_transpose (· + ·) dyn z hz dyn z hz I J c a h.shapeC h.shapeA h.distinct μ vc va ho hva, h1]
  · intro j hj
    obtain ⟨_, e, j1, j2⟩ := valid_one.mp hj
    simp only [List.cons.injEq, and_true] at e
    subst e
    exact h3 j j1 j2

end
end Ra.Props

namespace Ra.Props
open Spec

section
variable {V : Type}

/-- An element of a vector. -/
theorem take_one {c : View} {n : Nat} (hc : Shaped c [some n]) (i : Nat) (hi : i < n) : ∃ x, c.from [.scalar (.const i)] = .ok x ∧ x.cp = address c [(i : Int)] := by
  obtain ⟨d, cp⟩ := c
  cases hc with
  | cons h t =>
    cases t
    rename_i d
    obtain ⟨len, s⟩ := d
    have h : len = n := h
    subst h
    have h1 : inside (i : Int) n := by simp [inside]; omega
    refine ⟨⟨[], cp + i * s⟩, ?_, ?_⟩
    · simp [View.from, fromb, val_const, h1, bind, Except.bind, pure, Except.pure]
    · simp [address, dot]

/-- Values set to the elements of a vector. -/
theorem run_sets (rd : Nat → Act V V) (val : Int → V) (n : Nat) (c : View) (hd : Distinct c [n]) (μ₀ : Mem V)
    (hr : ∀ k : Nat, k < n → ∀ μ', SameOutside (InView c [n]) μ₀ μ' → rd k μ' = (.ok (val k), μ')) (l : List Nat) (hl : ∀ t ∈ l, t < n) (μ : Mem V) (hμ : SameOutside (InView c [n]) μ₀ μ)
    (vc : Int → V) (hv : ∀ i, Valid [n] [i] → μ (address c [i]) = some (vc i)) :
    ∃ μ', forAll (fun (t : Nat) => (do let v ← rd t; Act.write (address c [(t : Int)]) v : Act V Unit)) l μ = (.ok (), μ') ∧
      VectorIs μ μ' n c fun i => if i.toNat ∈ l then val i else vc i := by
  induction l generalizing μ vc with
  | nil => exact ⟨μ, rfl, fun _ _ => rfl, fun i hi => by simpa using hv i hi⟩
  | cons t l ih =>
    have ht := hl t (by simp)
    have hk : Valid [n] [(t : Int)] := valid_one.mpr ⟨_, rfl, by omega, by omega⟩
    obtain ⟨u1, u2⟩ := vector_upd hd hv t hk (val t)
    obtain ⟨μ', h1, h2, h3⟩ := ih (fun t' h => hl t' (by simp [h])) _ (outside_trans hμ u1 (fun _ h => h) (fun _ h => h)) _ u2
    refine ⟨μ', ?_, outside_trans u1 h2 (fun _ h => h) (fun _ h => h), ?_⟩
    · rw [forAll, act_bind_ok (a := ()) (μ' := μ.upd (address c [(t : Int)]) (val t)), h1]
      rw [act_bind_ok (hr t ht μ hμ)]
      simp [Act.write, hv _ hk]
    · intro i hi
      rw [h3 i hi]
      obtain ⟨_, e, i1, i2⟩ := valid_one.mp hi
      simp only [List.cons.injEq, and_true] at e
      subst e
      beta_reduce
      by_cases e : (t : Int) = i
      · subst e
        simp
      · have : i.toNat ≠ t := by omega
        simp [e, this]

variable [Inhabited V]

section
variable [Zero V] [Add V]

/-- `sum` of a view. -/
theorem sumViews_run (dyn : Bool) (z : List Int) (hz : ∀ i ∈ z, i = 0) (x : View) (n : Nat) (hx : Shaped x [some n]) (μ : Mem V) (f : Int → V)
    (hf : ∀ j, Valid [n] [j] → μ (address x [j]) = some (f j)) : sumOf dyn z x.reads μ = (.ok (accum 0 n f), μ) := by
  have := forEachRef_mem μ dyn z hz (fun c xs => match xs with
    | [x] => pure (c + x)
    | _ => fault .abort) (0 : V) [x.reads] [n] [[some n]] ⟨_, _, rfl, hx, rfl⟩ (merge_one _) (fun j => [f (j.getD 0 0)]) (by
      intro j hj c
      obtain ⟨j, rfl, h1, h2⟩ := valid_one.mp hj
      simp only [elems, List.mapM_cons, List.mapM_nil, id]
      have e1 : (elem (x.reads : Iter (StateT V (Act V)) V) [j]).run c μ = (.ok (f j, c), μ) := by
        show (StateT.lift (Act.read (address x [j])) : StateT V (Act V) V).run c μ = _
        rw [StateT.run_lift, act_bind_ok (a := f j) (μ' := μ) (by simp [Act.read, hf j hj])]
        rfl
      rw [StateT.run_bind, act_bind_ok e1]
      rfl) (fun c j => c + f (j.getD 0 0)) (fun _ _ _ => rfl)
  rw [rowMajor_one, List.foldl_map] at this
  exact this

/-- One sum added to each element of a vector. -/
theorem run_sums (rd : Nat → Act V V) (val : Int → V) (n : Nat) (c : View) (hd : Distinct c [n]) (μ : Mem V)
    (hr : ∀ k : Nat, k < n → ∀ μ', SameOutside (InView c [n]) μ μ' → rd k μ' = (.ok (val k), μ')) (vc : Int → V) (hv : ∀ i, Valid [n] [i] → μ (address c [i]) = some (vc i)) :
    ∃ μ', forAll (fun (t : Nat) => addTo (rd t) (address c [(t : Int)])) (List.range n) μ = (.ok (), μ') ∧ VectorIs μ μ' n c fun i => vc i + val i := by
  obtain ⟨μ', h1, h2, h3⟩ := run_adds (fun (t : Nat) => (t : Int)) rd (fun t => val t) n c hd μ (List.range n)
    (fun t ht => valid_one.mpr ⟨_, rfl, by omega, by have := List.mem_range.mp ht; omega⟩) (fun t ht => hr t (List.mem_range.mp ht)) μ (fun _ _ => rfl) vc hv
  refine ⟨μ', h1, h2, ?_⟩
  intro i hi
  rw [h3 i hi]
  obtain ⟨_, e, i1, i2⟩ := valid_one.mp hi
  simp only [List.cons.injEq, and_true] at e
  subst e
  beta_reduce
  have : (List.range n).filter (fun (t : Nat) => decide ((t : Int) = i)) = [i.toNat] := by
    have e := flatMap_one n i ⟨i1, i2⟩ (fun x => [x])
    rw [← e]
    induction List.range n with
    | nil => rfl
    | cons y l ih =>
      simp only [List.filter_cons, List.flatMap_cons] at ih ⊢
      by_cases e : (y : Int) = i <;> simp [e, ih]
  rw [this]
  simp [Int.toNat_of_nonneg i1]

/-- With `sum` of each row. Each sum is on its own and then it's added, so the result is the same as in the other ways only if `+` has laws. -/
theorem accum_run (dyn : Bool) (z : List Int) (hz : ∀ i ∈ z, i = 0) (dyn' : Bool) (z' : List Int) (hz' : ∀ i ∈ z', i = 0) (I J : Nat) (c a : View) (μ : Mem V) (va : Int → Int → V) (vc : Int → V)
    (h : MatrixVector μ I J I a c va vc) :
    ∃ μ', rowSumsAccum dyn z dyn' z' c a μ = (.ok (), μ') ∧ VectorIs μ μ' I c fun i => vc i + accum 0 J fun j => va i j := by
  obtain ⟨i, i1, i2, i3⟩ := cells_rows (V := V) h.shapeA
  obtain ⟨x, hx⟩ := Classical.axiomOfChoice i3
  obtain ⟨μ', h1, h2⟩ := run_sums (fun k => sumOf dyn' z' (x k).reads) (fun i => accum 0 J fun j => va i j) I c h.distinct μ (by
    intro k hk μ' hμ
    refine sumViews_run dyn' z' hz' (x k) J (hx k).2.1 μ' _ ?_
    intro j hj
    obtain ⟨_, e, j1, j2⟩ := valid_one.mp hj
    simp only [List.cons.injEq, and_true] at e
    subst e
    have hv : Valid [I, J] [(k : Int), j] := valid2.mpr ⟨by omega, by omega, j1, j2⟩
    rw [(hx k).2.2, hμ _ (h.apart _ _ hv), h.valueA _ _ hv]) vc h.valueC
  refine ⟨μ', ?_, h2⟩
  simp only [rowSumsAccum]
  rw [lift_bind i1, run_forAll dyn z hz _ _ _ [some I] [some I] [I] (refs_shape h.shapeC) i2 (merge_same _), forAll_eq, rowMajor_one, forAll_mapped, ← h1]
  refine congrFun (forAll_congr ?_) _
  intro k _
  simp only [elem_refs, mapM_two, (hx k).1, pure_bind, addSum, bind_assoc, addTo]
  congr 1; funext u
  congr 1; funext w
  exact bind_pure_unit

/-- With `sum` of each column. -/
theorem sideways_run (dyn : Bool) (z : List Int) (hz : ∀ i ∈ z, i = 0) (I J : Nat) (c a : View) (μ : Mem V) (va : Int → Int → V) (vc : Int → V) (h : MatrixVector μ I J J a c va vc) :
    ∃ μ', colSumsSideways dyn z c a μ = (.ok (), μ') ∧ VectorIs μ μ' J c fun j => vc j + accum 0 I fun i => va i j := by
  have e1 : lenOf a.dims 1 = J := by obtain ⟨s, t, e⟩ := view_two h.shapeA; rw [e]; rfl
  obtain ⟨μ', h1, h2⟩ := run_sums (fun k => do
      let x ← Act.lift (a.from [.dots (some 1), .scalar (.const k)])
      sumOf dyn z x.reads) (fun j => accum 0 I fun i => va i j) J c h.distinct μ (by
    intro k hk μ' hμ
    obtain ⟨x, x1, x2, x3⟩ := take_col h.shapeA k hk
    rw [lift_bind x1]
    refine sumViews_run dyn z hz x I x2 μ' _ ?_
    intro i hi
    obtain ⟨_, e, i1, i2⟩ := valid_one.mp hi
    simp only [List.cons.injEq, and_true] at e
    subst e
    have hv : Valid [I, J] [i, (k : Int)] := valid2.mpr ⟨i1, i2, by omega, by omega⟩
    rw [x3, hμ _ (h.apart _ _ hv), h.valueA _ _ hv]) vc h.valueC
  refine ⟨μ', ?_, h2⟩
  rw [← h1]
  simp only [colSumsSideways, e1, forLoop_eq]
  refine congrFun (forAll_congr ?_) _
  intro k hk
  obtain ⟨p, p1, p2⟩ := take_one h.shapeC k (List.mem_range.mp hk)
  simp only [addTo, bind_assoc]
  congr 1; funext x
  congr 1; funext v
  funext μ0
  rw [lift_bind p1, p2]

end

omit [Inhabited V] in
theorem accum_from [AddMonoid V] (x : V) (n : Nat) (f : Int → V) : x + accum 0 n f = accum x n f := by
  simp only [accum]
  induction n with
  | zero => simp
  | succ n ih => rw [List.range_succ, List.foldl_append, List.foldl_append, ← ih]; simp [add_assoc]

/-- C110. With `sum` of each row, if `+` is associative and has 0. -/
theorem C110_accum [AddMonoid V] (dyn : Bool) (z : List Int) (hz : ∀ i ∈ z, i = 0) (dyn' : Bool) (z' : List Int) (hz' : ∀ i ∈ z', i = 0) (I J : Nat) :
    AddsRows (V := V) I J (rowSumsAccum dyn z dyn' z') := by
  intro c a μ va vc h
  obtain ⟨μ', h1, h2⟩ := accum_run dyn z hz dyn' z' hz' I J c a μ va vc h
  simp only [accum_from] at h2
  exact ⟨μ', h1, h2⟩

/-- C110. With `sum` of each column, if `+` is associative and has 0. -/
theorem C110_sums [AddMonoid V] (dyn : Bool) (z : List Int) (hz : ∀ i ∈ z, i = 0) (I J : Nat) : AddsCols (V := V) I J (colSumsSideways dyn z) := by
  intro c a μ va vc h
  obtain ⟨μ', h1, h2⟩ := sideways_run dyn z hz I J c a μ va vc h
  simp only [accum_from] at h2
  exact ⟨μ', h1, h2⟩

end

/-! ## Some cases -/

/-- A matrix of shape `[2, 3]` at 0..5 and room for a vector at 6..8, with `p*p` at `p`. -/
def sumMem : Mem Int := fun p => if 0 ≤ p ∧ p < 9 then some (p*p) else none

/-- The vector has the length of a column. -/
theorem sum_rows_case : MatrixVector sumMem 2 3 2 ⟨[⟨2, 3⟩, ⟨3, 1⟩], 0⟩ ⟨[⟨2, 1⟩], 6⟩ (fun i j => (3*i+j)*(3*i+j)) fun i => (6+i)*(6+i) := by
  refine ⟨.cons rfl (.cons rfl .nil), .cons rfl .nil, ?_, ?_, ?_, ?_⟩
  · intro j k hj hk e
    obtain ⟨j, rfl, _⟩ := valid_one.mp hj
    obtain ⟨k, rfl, _⟩ := valid_one.mp hk
    simp only [address, List.map_cons, List.map_nil, dot, List.zipWith_cons_cons, List.zipWith_nil_left, List.sum_cons, List.sum_nil] at e
    simp only [List.cons.injEq, and_true]
    omega
  · rintro i j hv ⟨k, hk, e⟩
    have := valid2.mp hv
    obtain ⟨k, rfl, _⟩ := valid_one.mp hk
    simp only [address, List.map_cons, List.map_nil, dot, List.zipWith_cons_cons, List.zipWith_nil_left, List.sum_cons, List.sum_nil] at e
    omega
  · intro i j hv
    have := valid2.mp hv
    simp only [sumMem, address, List.map_cons, List.map_nil, dot, List.zipWith_cons_cons, List.zipWith_nil_left, List.sum_cons, List.sum_nil]
    rw [if_pos (by omega)]
    congr 1; ring
  · intro i hi
    obtain ⟨_, e, _⟩ := valid_one.mp hi
    simp only [List.cons.injEq, and_true] at e
    subst e
    simp only [sumMem, address, List.map_cons, List.map_nil, dot, List.zipWith_cons_cons, List.zipWith_nil_left, List.sum_cons, List.sum_nil]
    rw [if_pos (by omega)]
    congr 1; ring

/-- The vector has the length of a row. -/
theorem sum_cols_case : MatrixVector sumMem 2 3 3 ⟨[⟨2, 3⟩, ⟨3, 1⟩], 0⟩ ⟨[⟨3, 1⟩], 6⟩ (fun i j => (3*i+j)*(3*i+j)) fun i => (6+i)*(6+i) := by
  refine ⟨.cons rfl (.cons rfl .nil), .cons rfl .nil, ?_, ?_, ?_, ?_⟩
  · intro j k hj hk e
    obtain ⟨j, rfl, _⟩ := valid_one.mp hj
    obtain ⟨k, rfl, _⟩ := valid_one.mp hk
    simp only [address, List.map_cons, List.map_nil, dot, List.zipWith_cons_cons, List.zipWith_nil_left, List.sum_cons, List.sum_nil] at e
    simp only [List.cons.injEq, and_true]
    omega
  · rintro i j hv ⟨k, hk, e⟩
    have := valid2.mp hv
    obtain ⟨k, rfl, _⟩ := valid_one.mp hk
    simp only [address, List.map_cons, List.map_nil, dot, List.zipWith_cons_cons, List.zipWith_nil_left, List.sum_cons, List.sum_nil] at e
    omega
  · intro i j hv
    have := valid2.mp hv
    simp only [sumMem, address, List.map_cons, List.map_nil, dot, List.zipWith_cons_cons, List.zipWith_nil_left, List.sum_cons, List.sum_nil]
    rw [if_pos (by omega)]
    congr 1; ring
  · intro i hi
    obtain ⟨_, e, _⟩ := valid_one.mp hi
    simp only [List.cons.injEq, and_true] at e
    subst e
    simp only [sumMem, address, List.map_cons, List.map_nil, dot, List.zipWith_cons_cons, List.zipWith_nil_left, List.sum_cons, List.sum_nil]
    rw [if_pos (by omega)]
    congr 1; ring

/- 36 + (0 + 1 + 4) and 49 + (9 + 16 + 25). -/
example : ∃ μ', rowSumsMatch true [0] ⟨[⟨2, 1⟩], 6⟩ ⟨[⟨2, 3⟩, ⟨3, 1⟩], 0⟩ sumMem = (.ok (), μ') ∧ μ' 6 = some 41 ∧ μ' 7 = some 99 := by
  obtain ⟨μ', h1, h2, h3⟩ := C110_match true [0] (by simp) 2 3 _ _ _ _ _ sum_rows_case
  exact ⟨μ', h1, h3 0 (valid_one.mpr ⟨_, rfl, by omega, by omega⟩), h3 1 (valid_one.mpr ⟨_, rfl, by omega, by omega⟩)⟩

/- 36 + (0 + 9), 49 + (1 + 16) and 64 + (4 + 25). -/
example : ∃ μ', colSumsTransp true [0] ⟨[⟨3, 1⟩], 6⟩ ⟨[⟨2, 3⟩, ⟨3, 1⟩], 0⟩ sumMem = (.ok (), μ') ∧ μ' 6 = some 45 ∧ μ' 7 = some 66 ∧ μ' 8 = some 93 := by
  obtain ⟨μ', h1, h2, h3⟩ := C110_transpose true [0] (by simp) 2 3 _ _ _ _ _ sum_cols_case
  exact ⟨μ', h1, h3 0 (valid_one.mpr ⟨_, rfl, by omega, by omega⟩), h3 1 (valid_one.mpr ⟨_, rfl, by omega, by omega⟩), h3 2 (valid_one.mpr ⟨_, rfl, by omega, by omega⟩)⟩

example : Compact ⟨[⟨2, 3⟩, ⟨3, 1⟩], 0⟩ 2 3 := rfl

/-- Numbers that stay between -9 and 9. This `+` isn't associative. -/
@[ext] structure Clamped where
  val : Int
deriving DecidableEq

instance : Add Clamped := ⟨fun x y => ⟨max (-9) (min 9 (x.val + y.val))⟩⟩
instance : Zero Clamped := ⟨⟨0⟩⟩
instance : Inhabited Clamped := ⟨⟨0⟩⟩

/-- C110. If `+` isn't associative, then the sum of each row first isn't the same as the other ways, even with a single row. With a row `5 -5` and 9 in the vector, one gives 4 and the other 9. -/
theorem C110_order : ∃ (μ : Mem Clamped) (a c : View) (v w : Clamped), v ≠ w ∧ (rowSumsMatch true [0] c a μ).2 c.cp = some v ∧ (rowSumsAccum true [0] true [0] c a μ).2 c.cp = some w ∧
    (rowSumsMatch true [0] c a μ).1.isOk = true ∧ (rowSumsAccum true [0] true [0] c a μ).1.isOk = true :=
  ⟨fun p => if p = 0 then some ⟨5⟩ else if p = 1 then some ⟨-5⟩ else if p = 2 then some ⟨9⟩ else none, ⟨[⟨1, 2⟩, ⟨2, 1⟩], 0⟩, ⟨[⟨1, 1⟩], 2⟩, ⟨4⟩, ⟨9⟩, by decide +kernel⟩

end Ra.Props
