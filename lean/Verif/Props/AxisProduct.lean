import Verif.Props.AxisSum
/-!
# Products of a matrix and a vector: C110
-/

namespace Ra.Spec

/-- In memory `μ` there's also a vector `b` of length `m` with elements `vb`, away from `c`. -/
structure MatrixVectors {V : Type} (μ : Mem V) (I J n m : Nat) (a b c : View) (va : Int → Int → V) (vb vc : Int → V) : Prop extends MatrixVector μ I J n a c va vc where
  shapeB : Shaped b [some m]
  apartB : ∀ i, Valid [m] [i] → ¬ InView c [n] (address b [i])
  valueB : ∀ i, Valid [m] [i] → μ (address b [i]) = some (vb i)

/-- In memory `μ` there's a matrix `a` of shape `[I, J]` and a vector `b` of length `m`, with elements `va` and `vb`. -/
structure Factors {V : Type} (μ : Mem V) (I J m : Nat) (a b : View) (va : Int → Int → V) (vb : Int → V) : Prop where
  shapeA : Shaped a [some I, some J]
  shapeB : Shaped b [some m]
  valueA : ∀ i j, Valid [I, J] [i, j] → μ (address a [i, j]) = some (va i j)
  valueB : ∀ i, Valid [m] [i] → μ (address b [i]) = some (vb i)

end Ra.Spec

namespace Ra.Props
open Spec

section
variable {V : Type}

theorem valid_idx {n : Nat} {i : Int} : Valid [n] [i] ↔ 0 ≤ i ∧ i < n := by
  rw [valid_one]
  constructor
  · rintro ⟨_, e, h1, h2⟩
    simp only [List.cons.injEq, and_true] at e
    subst e
    exact ⟨h1, h2⟩
  · exact fun h => ⟨_, rfl, h.1, h.2⟩

/-- A product of elements at these addresses. -/
def mulAt [Mul V] (p q : Int) : Act V V := do
  let x ← Act.read p
  let y ← Act.read q
  pure (x * y)

theorem mulAt_run [Mul V] {μ : Mem V} {p q : Int} {x y : V} (hp : μ p = some x) (hq : μ q = some y) : mulAt p q μ = (.ok (x * y), μ) := by
  rw [mulAt, act_bind_ok (a := x) (μ' := μ) (by simp [Act.read, hp]), act_bind_ok (a := y) (μ' := μ) (by simp [Act.read, hq])]
  rfl

variable [Add V] [Mul V]

/-- `c += x*y` or `c += y*x` where `y` is an element. -/
theorem update_scaled (dyn : Bool) (z : List Int) (hz : ∀ i ∈ z, i = 0) (n : Nat) (c x : View) (q : Int) (hc : Shaped c [some n]) (hx : Shaped x [some n]) :
    update (V := V) (· + ·) dyn z c.refs (binaryOp (· * ·) x.refs (.scalar (pure (.ref q)))) =
      forAll (fun (k : Nat) => addTo (mulAt (address x [(k : Int)]) q) (address c [(k : Int)])) (List.range n) ∧
    update (V := V) (· + ·) dyn z c.refs (binaryOp (· * ·) (.scalar (pure (.ref q))) x.refs) =
      forAll (fun (k : Nat) => addTo (mulAt q (address x [(k : Int)])) (address c [(k : Int)])) (List.range n) := by
  have m1 : Merge [[some n], []] [some n] := by
    refine ⟨by simp, by simp, ?_⟩
    intro k n
    rcases k with _ | k <;> simp
  have m2 : Merge [[], [some n]] [some n] := by
    refine ⟨by simp, by simp, ?_⟩
    intro k n
    rcases k with _ | k <;> simp
  have hs : HasShape (.scalar (pure (.ref q)) : Iter (Act V) (Lv V)) [] := rfl
  unfold update
  constructor
  · rw [run_forAll dyn z hz _ _ _ [some n] [some n] [n] (refs_shape hc) (binary_shape _ (refs_shape hx) hs m1) (merge_same _), forAll_eq, rowMajor_one, forAll_mapped]
    apply forAll_congr
    intro k _
    simp only [binaryOp, elem, elems, elem_refs, mapM_two, valOp, pure_bind, updOp, List.mapM_cons, List.mapM_nil, Lv.get, bind_assoc, addTo, mulAt]
    congr 1; funext u
    congr 1; funext w
    congr 1; funext v
    exact bind_pure_unit
  · rw [run_forAll dyn z hz _ _ _ [some n] [some n] [n] (refs_shape hc) (binary_shape _ hs (refs_shape hx) m2) (merge_same _), forAll_eq, rowMajor_one, forAll_mapped]
    apply forAll_congr
    intro k _
    simp only [binaryOp, elem, elems, elem_refs, mapM_two, valOp, pure_bind, updOp, List.mapM_cons, List.mapM_nil, Lv.get, bind_assoc, addTo, mulAt]
    congr 1; funext u
    congr 1; funext w
    congr 1; funext v
    exact bind_pure_unit

theorem gemvJ_loop (dyn : Bool) (z : List Int) (hz : ∀ i ∈ z, i = 0) (I J : Nat) (a b c : View) (μ : Mem V) (va : Int → Int → V) (vb vc : Int → V) (h : MatrixVectors μ I J I J a b c va vb vc) :
    ∃ μ', gemvLoopJ dyn z a b c μ = (.ok (), μ') ∧ VectorIs μ μ' I c fun i => accum (vc i) J fun j => va i j * vb j := by
  have e1 : lenOf a.dims 1 = J := by obtain ⟨s, t, e⟩ := view_two h.shapeA; rw [e]; rfl
  obtain ⟨μ', h1, h2⟩ := adds_first _ I J (.inr rfl) (fun t => mulAt (address a [t.1, t.2]) (address b [t.2])) (fun i j => va i j * vb j) c h.distinct μ (by
    intro i j hv μ' hμ
    have hj : Valid [J] [j] := valid_idx.mpr (valid2.mp hv).2.2
    exact mulAt_run (by rw [hμ _ (h.apart _ _ hv), h.valueA _ _ hv]) (by rw [hμ _ (h.apartB _ hj), h.valueB _ hj])) vc h.valueC
  refine ⟨μ', ?_, h2⟩
  rw [← h1]
  simp only [byCols, forAll_flatMap, forAll_mapped, gemvLoopJ, e1, forLoop_eq]
  refine congrFun (forAll_congr ?_) _
  intro j hj
  obtain ⟨x, x1, x2, x3⟩ := take_col h.shapeA j (List.mem_range.mp hj)
  obtain ⟨q, q1, q2⟩ := take_one h.shapeB j (List.mem_range.mp hj)
  funext μ0
  rw [lift_bind x1, lift_bind q1, (update_scaled dyn z hz I c x q.cp h.shapeC x2).1]
  simp only [x3, q2]

theorem gevmI_loop (dyn : Bool) (z : List Int) (hz : ∀ i ∈ z, i = 0) (I J : Nat) (b a c : View) (μ : Mem V) (va : Int → Int → V) (vb vc : Int → V) (h : MatrixVectors μ I J J I a b c va vb vc) :
    ∃ μ', gevmLoopI dyn z b a c μ = (.ok (), μ') ∧ VectorIs μ μ' J c fun j => accum (vc j) I fun i => vb i * va i j := by
  have e0 : lenOf a.dims 0 = I := by obtain ⟨s, t, e⟩ := view_two h.shapeA; rw [e]; rfl
  obtain ⟨μ', h1, h2⟩ := adds_second _ I J (.inl rfl) (fun t => mulAt (address b [t.1]) (address a [t.1, t.2])) (fun i j => vb i * va i j) c h.distinct μ (by
    intro i j hv μ' hμ
    have hi : Valid [I] [i] := valid_idx.mpr ⟨(valid2.mp hv).1, (valid2.mp hv).2.1⟩
    exact mulAt_run (by rw [hμ _ (h.apartB _ hi), h.valueB _ hi]) (by rw [hμ _ (h.apart _ _ hv), h.valueA _ _ hv])) vc h.valueC
  refine ⟨μ', ?_, h2⟩
  rw [← h1]
  simp only [byRows, forAll_flatMap, forAll_mapped, gevmLoopI, e0, forLoop_eq]
  refine congrFun (forAll_congr ?_) _
  intro i hi
  obtain ⟨x, x1, x2, x3⟩ := take_row h.shapeA i (List.mem_range.mp hi)
  obtain ⟨q, q1, q2⟩ := take_one h.shapeB i (List.mem_range.mp hi)
  funext μ0
  rw [lift_bind q1, lift_bind x1, (update_scaled dyn z hz J c x q.cp h.shapeC x2).2]
  simp only [x3, q2]

theorem gemv0_loop (I J : Nat) (a b c : View) (μ : Mem V) (va : Int → Int → V) (vb vc : Int → V) (h : MatrixVectors μ I J I J a b c va vb vc) :
    ∃ μ', gemvLoop0 a b c μ = (.ok (), μ') ∧ VectorIs μ μ' I c fun i => accum (vc i) J fun j => va i j * vb j := by
  obtain ⟨s, t, e⟩ := view_two h.shapeA
  have e0 : lenOf a.dims 0 = I := by rw [e]; rfl
  have e1 : lenOf a.dims 1 = J := by rw [e]; rfl
  have s0 : stepOf a.dims 0 = s := by rw [e]; rfl
  have s1 : stepOf a.dims 1 = t := by rw [e]; rfl
  obtain ⟨μ', h1, h2⟩ := adds_first _ I J (.inl rfl) (fun t => mulAt (address a [t.1, t.2]) (address b [t.2])) (fun i j => va i j * vb j) c h.distinct μ (by
    intro i j hv μ' hμ
    have hj : Valid [J] [j] := valid_idx.mpr (valid2.mp hv).2.2
    exact mulAt_run (by rw [hμ _ (h.apart _ _ hv), h.valueA _ _ hv]) (by rw [hμ _ (h.apartB _ hj), h.valueB _ hj])) vc h.valueC
  refine ⟨μ', ?_, h2⟩
  rw [← h1]
  simp only [byRows, forAll_flatMap, forAll_mapped, gemvLoop0, e0, e1, s0, s1, forLoop_eq]
  refine congrFun (forAll_congr ?_) _
  intro i hi
  apply forAll_congr
  intro j hj
  obtain ⟨p, p1, p2⟩ := take_one h.shapeC i (List.mem_range.mp hi)
  obtain ⟨q, q1, q2⟩ := take_one h.shapeB j (List.mem_range.mp hj)
  have ea : a.cp + ((j : Int) * t + s * (i : Int)) = address a [(i : Int), (j : Int)] := by
    rw [show address a [(i : Int), (j : Int)] = address ⟨[⟨I, s⟩, ⟨J, t⟩], a.cp⟩ [(i : Int), (j : Int)] by rw [← e], address_two]
    ring
  rw [ea]
  simp only [addTo, mulAt, bind_assoc, pure_bind]
  congr 1; funext x
  funext μ0
  rw [lift_bind q1, q2]
  refine congrFun (congrArg _ ?_) μ0
  funext y μ1
  rw [lift_bind p1, p2]

variable [Inhabited V] [Zero V]

theorem gemvI_loop (dyn : Bool) (z : List Int) (hz : ∀ i ∈ z, i = 0) (I J : Nat) (a b c : View) (μ : Mem V) (va : Int → Int → V) (vb vc : Int → V) (h : MatrixVectors μ I J I J a b c va vb vc) :
    ∃ μ', gemvLoopI dyn z a b c μ = (.ok (), μ') ∧ VectorIs μ μ' I c fun i => accum 0 J fun j => va i j * vb j := by
  have e0 : lenOf a.dims 0 = I := by obtain ⟨s, t, e⟩ := view_two h.shapeA; rw [e]; rfl
  obtain ⟨μ', h1, h2, h3⟩ := run_sets (fun i => do
      let x ← Act.lift (a.from [.scalar (.const i)])
      dotViews dyn z x b) (fun i => accum 0 J fun j => va i j * vb j) I c h.distinct μ (by
    intro k hk μ' hμ
    obtain ⟨x, x1, x2, x3⟩ := take_row h.shapeA k hk
    rw [lift_bind x1, dotViews_run dyn z hz x b [J] x2 h.shapeB μ' (fun j => va k (j.getD 0 0)) (fun j => vb (j.getD 0 0))]
    · rw [rowMajor_one, List.foldl_map]
      rfl
    · intro j hj
      obtain ⟨j, rfl, j1, j2⟩ := valid_one.mp hj
      have hv : Valid [I, J] [(k : Int), j] := valid2.mpr ⟨by omega, by omega, j1, j2⟩
      rw [x3, hμ _ (h.apart _ _ hv), h.valueA _ _ hv]
      rfl
    · intro j hj
      obtain ⟨j, rfl, j1, j2⟩ := valid_one.mp hj
      rw [hμ _ (h.apartB _ hj), h.valueB _ hj]
      rfl) (List.range I) (fun t ht => List.mem_range.mp ht) μ (fun _ _ => rfl) vc h.valueC
  refine ⟨μ', ?_, h2, ?_⟩
  · rw [← h1]
    simp only [gemvLoopI, e0, forLoop_eq]
    refine congrFun (forAll_congr ?_) _
    intro i hi
    obtain ⟨p, p1, p2⟩ := take_one h.shapeC i (List.mem_range.mp hi)
    simp only [bind_assoc]
    congr 1; funext x
    congr 1; funext v
    funext μ0
    rw [lift_bind p1, p2]
  · intro i hi
    rw [h3 i hi]
    have := valid_idx.mp hi
    beta_reduce
    rw [if_pos (List.mem_range.mpr (by omega))]

theorem gevmJ_loop (dyn : Bool) (z : List Int) (hz : ∀ i ∈ z, i = 0) (I J : Nat) (b a c : View) (μ : Mem V) (va : Int → Int → V) (vb vc : Int → V) (h : MatrixVectors μ I J J I a b c va vb vc) :
    ∃ μ', gevmLoopJ dyn z b a c μ = (.ok (), μ') ∧ VectorIs μ μ' J c fun j => accum 0 I fun i => vb i * va i j := by
  have e1 : lenOf a.dims 1 = J := by obtain ⟨s, t, e⟩ := view_two h.shapeA; rw [e]; rfl
  obtain ⟨μ', h1, h2, h3⟩ := run_sets (fun j => do
      let x ← Act.lift (a.from [.dots (some 1), .scalar (.const j)])
      dotViews dyn z b x) (fun j => accum 0 I fun i => vb i * va i j) J c h.distinct μ (by
    intro k hk μ' hμ
    obtain ⟨x, x1, x2, x3⟩ := take_col h.shapeA k hk
    rw [lift_bind x1, dotViews_run dyn z hz b x [I] h.shapeB x2 μ' (fun i => vb (i.getD 0 0)) (fun i => va (i.getD 0 0) k)]
    · rw [rowMajor_one, List.foldl_map]
      rfl
    · intro i hi
      obtain ⟨i, rfl, i1, i2⟩ := valid_one.mp hi
      rw [hμ _ (h.apartB _ hi), h.valueB _ hi]
      rfl
    · intro i hi
      obtain ⟨i, rfl, i1, i2⟩ := valid_one.mp hi
      have hv : Valid [I, J] [i, (k : Int)] := valid2.mpr ⟨i1, i2, by omega, by omega⟩
      rw [x3, hμ _ (h.apart _ _ hv), h.valueA _ _ hv]
      rfl) (List.range J) (fun t ht => List.mem_range.mp ht) μ (fun _ _ => rfl) vc h.valueC
  refine ⟨μ', ?_, h2, ?_⟩
  · rw [← h1]
    simp only [gevmLoopJ, e1, forLoop_eq]
    refine congrFun (forAll_congr ?_) _
    intro i hi
    obtain ⟨p, p1, p2⟩ := take_one h.shapeC i (List.mem_range.mp hi)
    simp only [bind_assoc]
    congr 1; funext x
    congr 1; funext v
    funext μ0
    rw [lift_bind p1, p2]
  · intro i hi
    rw [h3 i hi]
    have := valid_idx.mp hi
    beta_reduce
    rw [if_pos (List.mem_range.mpr (by omega))]

/-! ## The new arrays -/

omit [Inhabited V] [Zero V] [Add V] [Mul V] in
/-- A new array is away from the factors. -/
theorem factors_new {μ μ1 : Mem V} {I J n m : Nat} {a b : View} {va : Int → Int → V} {vb : Int → V} (h : Factors μ I J m a b va vb) {c : Arr} (hc : Container c μ1 [n])
    (hs : SameOutside (fun p => μ p = none) μ μ1) (hf : ∀ p, Owns c p → μ p = none) (vc : Int → V) (hv : ∀ i, Valid [n] [i] → μ1 (address c.view [i]) = some (vc i)) :
    MatrixVectors μ1 I J n m a b c.view va vb vc := by
  have away : ∀ {p : Int} {x : V}, μ p = some x → ¬ InView c.view [n] p ∧ μ1 p = some x := by
    intro p x hp
    constructor
    · rintro ⟨j, hj, rfl⟩
      rw [hf _ (container_owns hc hj)] at hp
      cases hp
    · rw [hs p (by simp [hp]), hp]
  exact ⟨⟨h.shapeA, shaped_nat.mpr hc.lens, container_distinct hc, fun i j hv => (away (h.valueA i j hv)).1, fun i j hv => (away (h.valueA i j hv)).2, hv⟩, h.shapeB,
    fun i hv => (away (h.valueB i hv)).1, fun i hv => (away (h.valueB i hv)).2⟩

omit [Mul V] [Add V] [Zero V] in
/-- A loop that sets the elements of a new array. -/
theorem new_set (o : Int) (fill : Nat → V) {μ : Mem V} {I J n m : Nat} {a b : View} {va : Int → Int → V} {vb : Int → V} (h : Factors μ I J m a b va vb) (hf : Free μ o n) (body : Arr → Act V Unit)
    (new : Int → V) (hb : ∀ (c : Arr) (μ1 : Mem V) (vc : Int → V), MatrixVectors μ1 I J n m a b c.view va vb vc → ∃ μ', body c μ1 = (.ok (), μ') ∧ VectorIs μ1 μ' n c.view new) :
    ∃ c μ', Arr.andDo (Arr.create (some 1) (some o) fill [(n : Int)] μ) body = (.ok c, μ') ∧ c.rk = some 1 ∧ New c μ μ' [n] fun i => some (new (i.getD 0 0)) := by
  refine andDo_ok (t := [n]) (by simp) (by simpa [size] using hf) (fun _ _ => rfl) ?_
  intro c μ1 hc hs hfr
  obtain ⟨μ', h1, h2, h3⟩ := hb c μ1 (fun i => (μ1 (address c.view [i])).getD default) (factors_new h hc hs hfr _ (by
    intro i hi
    obtain ⟨x, hx⟩ := Option.isSome_iff_exists.mp (container_mem hc hi)
    simp [hx]))
  refine ⟨μ', h1, ?_, h2⟩
  intro j hj
  obtain ⟨j, rfl, _⟩ := valid_one.mp hj
  exact h3 j hj

omit [Mul V] [Add V] [Inhabited V] in
/-- A loop that adds to the elements of a new array of zeros. -/
theorem new_add (o : Int) (fill : Nat → V) (dyn : Bool) (z : List Int) (hz : ∀ i ∈ z, i = 0) {μ : Mem V} {I J n m : Nat} {a b : View} {va : Int → Int → V} {vb : Int → V}
    (h : Factors μ I J m a b va vb) (hf : Free μ o n) (body : Arr → Act V Unit) (new : Int → V)
    (hb : ∀ (c : Arr) (μ1 : Mem V), MatrixVectors μ1 I J n m a b c.view va vb (fun _ => 0) → ∃ μ', body c μ1 = (.ok (), μ') ∧ VectorIs μ1 μ' n c.view new) :
    ∃ c μ', Arr.andDo (Arr.ofExpr (some 1) (some o) fill dyn z [(n : Int)] (.scalar (pure (.val 0))) μ) body = (.ok c, μ') ∧ c.rk = some 1 ∧
      New c μ μ' [n] fun i => some (new (i.getD 0 0)) := by
  obtain ⟨c, μ1, g1, g2, g3⟩ := zeros_new (some 1) o fill dyn z hz [n] (by simp) 0 μ (by simpa [size] using hf)
  obtain ⟨μ', h1, h2, h3⟩ := hb c μ1 (factors_new h g3.cont (by
    intro p hp
    exact g3.same p fun ho => hp (g3.fresh p ho)) g3.fresh _ fun i hi => g3.elem [i] hi)
  refine ⟨c, μ', ?_, g2, new_again g3 (fun _ _ => rfl) ?_ h2⟩
  · have : Arr.ofExpr (some 1) (some o) fill dyn z [(n : Int)] (.scalar (pure (.val 0))) μ = (.ok c, μ1) := g1
    rw [this]
    simp only [Arr.andDo, h1]
  · intro j hj
    obtain ⟨j, rfl, _⟩ := valid_one.mp hj
    exact h3 j hj

/-- C110. The ways to write the product of a matrix and a vector. All of them make a new array with the same elements, which are those of `gemv(a, b)` (`C29_gemv_new`). -/
theorem C110_gemv (o : Int) (fill : Nat → V) (dyn dyn' : Bool) (z z' : List Int) (hz : ∀ i ∈ z, i = 0) (hz' : ∀ i ∈ z', i = 0) (I J : Nat) (a b : View) (μ : Mem V) (va : Int → Int → V)
    (vb : Int → V) (h : Factors μ I J J a b va vb) (hf : Free μ o I) :
    ∀ way ∈ [gemv0 (some o) fill dyn z a b, gemvI (some o) fill dyn z a b, gemvJ (some o) fill dyn dyn' z z' a b, gemvNewB (some o) fill dyn dyn' z z' a.refs b],
      ∃ c μ', way μ = (.ok c, μ') ∧ c.rk = some 1 ∧ New c μ μ' [I] fun i => some (accum 0 J fun j => va (i.getD 0 0) j * vb j) := by
  have e0 : lenOf a.dims 0 = I := by obtain ⟨s, t, e⟩ := view_two h.shapeA; rw [e]; rfl
  intro way hw
  simp only [List.mem_cons, List.not_mem_nil, or_false] at hw
  rcases hw with rfl | rfl | rfl | rfl
  · simp only [gemv0, e0]
    exact new_add o fill dyn z hz h hf _ (fun i => accum 0 J fun j => va i j * vb j) fun c μ1 hm => gemv0_loop I J a b c.view μ1 va vb _ hm
  · simp only [gemvI, e0]
    exact new_set o fill h hf _ (fun i => accum 0 J fun j => va i j * vb j) fun c μ1 vc hm => gemvI_loop dyn z hz I J a b c.view μ1 va vb vc hm
  · simp only [gemvJ, e0]
    exact new_add o fill dyn' z' hz' h hf _ (fun i => accum 0 J fun j => va i j * vb j) fun c μ1 hm => gemvJ_loop dyn z hz I J a b c.view μ1 va vb _ hm
  · exact C29_gemv_new o fill dyn dyn' z z' hz hz' I J a.refs b μ (fun i => va (i.getD 0 0) (i.getD 1 0)) (fun i => vb (i.getD 0 0))
      ⟨refs_shape h.shapeA, by
        intro j hj
        obtain ⟨i, j, rfl, _⟩ := valid_two.mp hj
        refine ⟨.ref (address a [i, j]), fun μ' hs => ⟨rfl, ?_⟩⟩
        have := h.valueA i j hj
        simp [Lv.get, Act.read, hs (address a [i, j]) (by simp [this]), this]⟩
      ⟨refs_shape h.shapeB, by
        intro j hj
        obtain ⟨j, rfl, _⟩ := valid_one.mp hj
        refine ⟨.ref (address b [j]), fun μ' hs => ⟨rfl, ?_⟩⟩
        have := h.valueB j hj
        simp [Lv.get, Act.read, hs (address b [j]) (by simp [this]), this]⟩ hf

/-- C110. The ways to write the product of a vector and a matrix, and `gevm(b, a)`. -/
theorem C110_gevm (o : Int) (fill : Nat → V) (dyn dyn' : Bool) (z z' : List Int) (hz : ∀ i ∈ z, i = 0) (hz' : ∀ i ∈ z', i = 0) (I J : Nat) (b a : View) (μ : Mem V) (va : Int → Int → V)
    (vb : Int → V) (h : Factors μ I J I a b va vb) (hf : Free μ o J) :
    ∀ way ∈ [gevmJ (some o) fill dyn z b a, gevmI (some o) fill dyn dyn' z z' b a, gevmNew (some o) fill dyn dyn' z z' b.refs a.refs],
      ∃ c μ', way μ = (.ok c, μ') ∧ c.rk = some 1 ∧ New c μ μ' [J] fun j => some (accum 0 I fun i => vb i * va i (j.getD 0 0)) := by
  have e1 : lenOf a.dims 1 = J := by obtain ⟨s, t, e⟩ := view_two h.shapeA; rw [e]; rfl
  intro way hw
  simp only [List.mem_cons, List.not_mem_nil, or_false] at hw
  rcases hw with rfl | rfl | rfl
  · simp only [gevmJ, e1]
    exact new_set o fill h hf _ (fun j => accum 0 I fun i => vb i * va i j) fun c μ1 vc hm => gevmJ_loop dyn z hz I J b a c.view μ1 va vb vc hm
  · simp only [gevmI, e1]
    exact new_add o fill dyn' z' hz' h hf _ (fun j => accum 0 I fun i => vb i * va i j) fun c μ1 hm => gevmI_loop dyn z hz I J b a c.view μ1 va vb _ hm
  · exact C29_gevm_new o fill dyn dyn' z z' hz hz' I J b.refs a.refs μ (fun i => vb (i.getD 0 0)) (fun i => va (i.getD 0 0) (i.getD 1 0))
      ⟨refs_shape h.shapeB, by
        intro j hj
        obtain ⟨j, rfl, _⟩ := valid_one.mp hj
        refine ⟨.ref (address b [j]), fun μ' hs => ⟨rfl, ?_⟩⟩
        have := h.valueB j hj
        simp [Lv.get, Act.read, hs (address b [j]) (by simp [this]), this]⟩
      ⟨refs_shape h.shapeA, by
        intro j hj
        obtain ⟨i, j, rfl, _⟩ := valid_two.mp hj
        refine ⟨.ref (address a [i, j]), fun μ' hs => ⟨rfl, ?_⟩⟩
        have := h.valueA i j hj
        simp [Lv.get, Act.read, hs (address a [i, j]) (by simp [this]), this]⟩ hf

end

/-! ## Some cases -/

/-- The matrix of shape `[2, 3]` at 0..5 and the vector at 6..8 of `sumMem`. -/
theorem factors_case : Factors sumMem 2 3 3 ⟨[⟨2, 3⟩, ⟨3, 1⟩], 0⟩ ⟨[⟨3, 1⟩], 6⟩ (fun i j => (3*i+j)*(3*i+j)) fun i => (6+i)*(6+i) :=
  ⟨sum_cols_case.shapeA, sum_cols_case.shapeC, sum_cols_case.valueA, sum_cols_case.valueC⟩

/-- The same with a vector of 2 elements. -/
theorem factors_case' : Factors sumMem 2 3 2 ⟨[⟨2, 3⟩, ⟨3, 1⟩], 0⟩ ⟨[⟨2, 1⟩], 6⟩ (fun i j => (3*i+j)*(3*i+j)) fun i => (6+i)*(6+i) :=
  ⟨sum_rows_case.shapeA, sum_rows_case.shapeC, sum_rows_case.valueA, sum_rows_case.valueC⟩

theorem factors_free (n : Nat) : Free sumMem 9 n := by
  intro k hk
  simp only [sumMem]
  rw [if_neg (by omega)]

/- 0*36 + 1*49 + 4*64 and 9*36 + 16*49 + 25*64. -/
example : ∃ c μ', gemvJ (some 9) (fun _ => 7) true true [0] [0] ⟨[⟨2, 3⟩, ⟨3, 1⟩], 0⟩ ⟨[⟨3, 1⟩], 6⟩ sumMem = (.ok c, μ') ∧ μ' (address c.view [0]) = some 305 ∧ μ' (address c.view [1]) = some 2708 := by
  obtain ⟨c, μ', h1, _, h2⟩ := C110_gemv 9 (fun _ => 7) true true [0] [0] (by simp) (by simp) 2 3 _ _ _ _ _ factors_case (factors_free _) _ (.tail _ (.tail _ (.head _)))
  exact ⟨c, μ', h1, h2.elem [0] (valid_one.mpr ⟨_, rfl, by omega, by omega⟩), h2.elem [1] (valid_one.mpr ⟨_, rfl, by omega, by omega⟩)⟩

/- 36*0 + 49*9, 36*1 + 49*16 and 36*4 + 49*25. -/
example : ∃ c μ', gevmI (some 9) (fun _ => 7) true true [0] [0] ⟨[⟨2, 1⟩], 6⟩ ⟨[⟨2, 3⟩, ⟨3, 1⟩], 0⟩ sumMem = (.ok c, μ') ∧
    μ' (address c.view [0]) = some 441 ∧ μ' (address c.view [1]) = some 820 ∧ μ' (address c.view [2]) = some 1369 := by
  obtain ⟨c, μ', h1, _, h2⟩ := C110_gevm 9 (fun _ => 7) true true [0] [0] (by simp) (by simp) 2 3 _ _ _ _ _ factors_case' (factors_free _) _ (.tail _ (.head _))
  exact ⟨c, μ', h1, h2.elem [0] (valid_one.mpr ⟨_, rfl, by omega, by omega⟩), h2.elem [1] (valid_one.mpr ⟨_, rfl, by omega, by omega⟩), h2.elem [2] (valid_one.mpr ⟨_, rfl, by omega, by omega⟩)⟩

end Ra.Props
