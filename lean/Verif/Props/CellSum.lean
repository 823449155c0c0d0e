import Verif.Model.CellSum
import Verif.Props.AxisSum
import Verif.Props.AssignLast
import Verif.Props.WindowSum
import Verif.Props.ViewOps
/-!
# C123: the sums of the cells of an array
-/

namespace Ra.Spec

section
variable {V : Type}

/-- In memory `μ` there's an array `b` of shape `t` and an array `a` of shape `s`. The elements of `a` are `va`. The elements of `b` are in different places, and none of these places has an element of `a`. -/
structure SumInto (μ : Mem V) (t s : List Nat) (b a : View) (va : List Int → V) : Prop where
  shapeB : Shaped b (t.map some)
  shapeA : Shaped a (s.map some)
  distinct : Distinct b t
  memB : ∀ i, Valid t i → (μ (address b i)).isSome
  valueA : ∀ j, Valid s j → μ (address a j) = some (va j)
  apart : ∀ j, Valid s j → ¬ InView b t (address a j)

/-- `μ'` is `μ` but for the elements of `b`, which are `f`. -/
def Stored (μ μ' : Mem V) (t : List Nat) (b : View) (f : List Int → V) : Prop := SameOutside (InView b t) μ μ' ∧ ∀ i, Valid t i → μ' (address b i) = some (f i)

/-- The sum of `f` over the indices of the shape `r`, from 0 and in row-major order. -/
def cellSum [Zero V] [Add V] (r : List Nat) (f : List Int → V) : V := ((rowMajor r).map f).foldl (· + ·) 0

/-- The last index of the shape `r`. -/
def lastIndex (r : List Nat) : List Int := r.map fun n : Nat => (n : Int) - 1

end
end Ra.Spec

namespace Ra.Props
open Spec

section
variable {V : Type}

theorem merge_shorter (u v : List Nat) : Merge [(u ++ v).map some, u.map some] ((u ++ v).map some) := by
  refine ⟨by simp, ⟨_, List.mem_cons_self, rfl⟩, fun k n => ⟨fun h => ⟨_, List.mem_cons_self, h⟩, ?_⟩⟩
  rintro ⟨x, hx, h⟩
  simp only [List.mem_cons, List.not_mem_nil, or_false] at hx
  rcases hx with rfl | rfl
  · exact h
  · rw [List.map_append, List.getElem?_append_left (List.getElem?_eq_some_iff.1 h).1]
    exact h

theorem stored_unique {μ μ1 μ2 : Mem V} {t : List Nat} {b : View} {f : List Int → V} (h1 : Stored μ μ1 t b f) (h2 : Stored μ μ2 t b f) : μ1 = μ2 := by
  funext p
  by_cases hp : InView b t p
  · obtain ⟨i, hi, rfl⟩ := hp
    rw [h1.2 i hi, h2.2 i hi]
  · rw [h1.1 p hp, h2.1 p hp]

/-- The cells of an array, with any cell rank or frame rank. -/
theorem cells_rank (a : View) (u w : List Nat) (ha : Shaped a ((u ++ w).map some)) (cr : Int) (hc : frameRank (u ++ w).length cr = u.length) :
    ∃ e : Iter (Act V) (Lv V), a.cells cr = .ok e ∧ HasShape e (u.map some) ∧ ∀ i, i.length = u.length → ∃ x, elem e i = pure (.view x) ∧ Shaped x (w.map some) ∧ ∀ j, address x j = address a (i ++ j) := by
  have hl := ha.length_eq
  simp only [List.length_map, List.length_append] at hl hc
  have hcell : a.cell cr = .ok (a.dims.take u.length, a.dims.drop u.length) := by
    simp only [frameRank] at hc
    have e : rankCell a.dims.length cr = (a.dims.length : Int) - u.length := by
      simp only [rankCell]
      split at hc
      · rw [if_neg (by omega)]; omega
      · rw [if_pos (by omega)]; omega
    simp only [View.cell, e]
    rw [if_neg (by omega), if_pos (by omega)]
    simp
  refine ⟨.cell (a.dims.take u.length) a.cp fun p => pure (.view ⟨a.dims.drop u.length, p⟩), by simp only [View.cells, hcell]; rfl, ?_, fun i hi => ⟨_, rfl, ?_, fun j => ?_⟩⟩
  · have := List.forall₂_take u.length ha
    rwa [← List.map_take, List.take_left' rfl] at this
  · have := List.forall₂_drop u.length ha
    rwa [← List.map_drop, List.drop_left' rfl] at this
  · simp only [address]
    conv_rhs => rw [← List.take_append_drop u.length a.dims, List.map_append]
    rw [dot_append _ _ _ _ (by simp; omega)]
    ring

variable [Inhabited V] [Zero V] [Add V]

/-- `sum` of a view. -/
theorem sumReads_run (dyn : Bool) (z : List Int) (hz : ∀ i ∈ z, i = 0) (x : View) (r : List Nat) (hx : Shaped x (r.map some)) (μ : Mem V) (f : List Int → V)
    (hf : ∀ j, Valid r j → μ (address x j) = some (f j)) : sumOf dyn z x.reads μ = (.ok (cellSum r f), μ) := by
  have := forEachRef_mem μ dyn z hz (fun c xs => match xs with
    | [x] => pure (c + x)
    | _ => fault .abort) (0 : V) [x.reads] r [r.map some] ⟨_, _, rfl, hx, rfl⟩ (merge_one _) (fun j => [f j]) (by
      intro j hj c
      simp only [elems, List.mapM_cons, List.mapM_nil, id]
      have e1 : (elem (x.reads : Iter (StateT V (Act V)) V) j).run c μ = (.ok (f j, c), μ) := by
        show (StateT.lift (Act.read (address x j)) : StateT V (Act V) V).run c μ = _
        rw [StateT.run_lift, act_bind_ok (a := f j) (μ' := μ) (by simp [Act.read, hf j hj])]
        rfl
      rw [StateT.run_bind, act_bind_ok e1]
      rfl) (fun c j => c + f j) (fun _ _ _ => rfl)
  rw [cellSum, List.foldl_map]
  exact this

/-- `sum` of an element. -/
theorem sumScalar_run (dyn : Bool) (z : List Int) (hz : ∀ i ∈ z, i = 0) (q : Int) (μ : Mem V) (y : V) (hy : μ q = some y) : sumOf dyn z (.scalar (StateT.lift (Act.read q))) μ = (.ok (0 + y), μ) := by
  have := forEachRef_mem μ dyn z hz (fun c xs => match xs with
    | [x] => pure (c + x)
    | _ => fault .abort) (0 : V) [.scalar (StateT.lift (Act.read q))] [] [[]] ⟨_, _, rfl, rfl, rfl⟩ (merge_one _) (fun _ => [y]) (by
      intro j hj c
      simp only [elems, elem, List.mapM_cons, List.mapM_nil, id]
      have e1 : (StateT.lift (Act.read q) : StateT V (Act V) V).run c μ = (.ok (y, c), μ) := by
        rw [StateT.run_lift, act_bind_ok (a := y) (μ' := μ) (by simp [Act.read, hy])]
        rfl
      rw [StateT.run_bind, act_bind_ok e1]
      rfl) (fun c _ => c + y) (fun _ _ _ => rfl)
  exact this

/-- What `setSum` stores. -/
def sumVal (dyn : Bool) (z : List Int) : List (Lv V) → Act V (Lv V)
  | [.view a] => do
    let v ← sumOf dyn z a.reads
    pure (.val v)
  | [.ref q] => do
    let v ← sumOf dyn z (.scalar (StateT.lift (Act.read q)))
    pure (.val v)
  | _ => fault .abort

/-- `for_each` with `b = sum(a)` is an assignment to `b`. -/
theorem each_assign (dyn : Bool) (z : List Int) (hz : ∀ i ∈ z, i = 0) (dyn' : Bool) (z' : List Int) (b : View) (t s : List Nat) (hb : Shaped b (t.map some)) (e : Iter (Act V) (Lv V)) (sx : List Length)
    (he : HasShape e sx) (hm : Merge [t.map some, sx] (s.map some)) (hp : ∀ j, Valid s j → (∃ w, elem e j = pure (.view w)) ∨ ∃ q, elem e j = pure (.ref q)) :
    (do let _ ← ply (β := Unit) dyn never z (.node (mapOp (setSum dyn' z')) [b.refs, e]); pure () : Act V Unit) = assign dyn z b.refs (.node (mapOp (sumVal dyn' z')) [e]) := by
  have hx : HasShape (.node (mapOp (sumVal dyn' z')) [e]) sx := ⟨_, ⟨_, _, rfl, he, rfl⟩, merge_one _⟩
  rw [run_forAll dyn z hz _ b.refs e _ sx s (refs_shape hb) he hm]
  refine Eq.trans ?_ (run_forAll dyn z hz _ b.refs _ _ sx s (refs_shape hb) hx hm).symm
  refine forAll_congr fun j hj => ?_
  rcases hp j (mem_rowMajor.1 hj) with ⟨w, h⟩ | ⟨q, h⟩ <;>
    simp only [elem, elems, h, elem_refs, mapOp, List.mapM_cons, List.mapM_nil, id_eq, pure_bind, setSum, sumVal, setOp, bind_assoc, Lv.get]

theorem each_run (dyn : Bool) (z : List Int) (hz : ∀ i ∈ z, i = 0) (dyn' : Bool) (z' : List Int) (b : View) (t v : List Nat) (h0 : 0 ∉ v) (hb : Shaped b (t.map some)) (hd : Distinct b t) (μ : Mem V)
    (hmem : ∀ i, Valid t i → (μ (address b i)).isSome) (e : Iter (Act V) (Lv V)) (sx : List Length) (he : HasShape e sx) (hm : Merge [t.map some, sx] ((t ++ v).map some)) (val : List Int → V)
    (hp : ∀ j, Valid (t ++ v) j → ∃ r, elem e j = pure r ∧ ((∃ w, r = .view w) ∨ ∃ q, r = .ref q) ∧ ∀ μ', SameOutside (InView b t) μ μ' → sumVal dyn' z' [r] μ' = (.ok (.val (val j)), μ')) :
    ∃ μ', (do let _ ← ply (β := Unit) dyn never z (.node (mapOp (setSum dyn' z')) [b.refs, e]); pure () : Act V Unit) μ = (.ok (), μ') ∧ Stored μ μ' t b fun i => val (i ++ lastIndex v) := by
  rw [each_assign dyn z hz dyn' z' b t (t ++ v) hb e sx he hm (by
    intro j hj
    obtain ⟨r, h1, h2, _⟩ := hp j hj
    rcases h2 with ⟨w, rfl⟩ | ⟨q, rfl⟩
    · exact .inl ⟨w, h1⟩
    · exact .inr ⟨q, h1⟩)]
  obtain ⟨μ', h1, h2, h3⟩ := C28_last dyn z hz b.refs t v h0 (address b) μ (places_refs hb hd μ) (.node (mapOp (sumVal dyn' z')) [e]) sx ⟨_, ⟨_, _, rfl, he, rfl⟩, merge_one _⟩ hm hmem val (by
    intro j hj μ' hμ
    obtain ⟨r, h1, _, h3⟩ := hp j hj
    simp only [Reads, elem, elems, h1, mapOp, List.mapM_cons, List.mapM_nil, id_eq, pure_bind]
    rw [act_bind_ok (h3 μ' hμ)]
    rfl)
  refine ⟨μ', h1, h2, fun i hi => ?_⟩
  rw [h3 i hi]
  have e : (v.map fun n => (n : Int) - 1) = lastIndex v := by
    show List.map (fun n : Int => n - 1) (List.flatMap (fun n : Nat => [(n : Int)]) v) = List.map (fun n : Nat => (n : Int) - 1) v
    clear h3 hm hp h0
    induction v with
    | nil => rfl
    | cons n v ih => rw [List.flatMap_cons, List.map_append, ih]; rfl
  rw [e]

omit [Inhabited V] in
/-- C123. `B = 0; B += A` stores the sums of the cells of `A`. -/
theorem C123_update (dyn dyn' : Bool) (z z' : List Int) (hz : ∀ i ∈ z, i = 0) (hz' : ∀ i ∈ z', i = 0) (t r : List Nat) (b a : View) (μ : Mem V) (va : List Int → V) (h : SumInto μ t (t ++ r) b a va) :
    ∃ μ', zeroAdd dyn z dyn' z' b a μ = (.ok (), μ') ∧ Stored μ μ' t b fun i => cellSum r fun k => va (i ++ k) := by
  obtain ⟨μ1, h1, h2, h3⟩ := C28_last dyn z hz b.refs t [] (by simp) (address b) μ (places_refs h.shapeB h.distinct μ) (.scalar (pure (.val 0))) [] rfl (by rw [List.append_nil]; exact merge_nil _) h.memB (fun _ => 0) (fun _ _ _ _ => rfl)
  obtain ⟨μ2, h4, h5, h6⟩ := C28_prefix (· + ·) dyn' z' hz' b.refs t r (address b) μ1 (places_refs h.shapeB h.distinct μ1) a.refs _ (refs_shape h.shapeA) (merge_longer t r) (fun _ => 0) h3 va (by
    intro j hj μ' hμ
    refine reads_refs ?_
    rw [hμ _ (h.apart j hj), h2 _ (h.apart j hj), h.valueA j hj])
  refine ⟨μ2, ?_, ?_, h6⟩
  · rw [zeroAdd, act_bind_ok h1, h4]
  · intro p hp
    rw [h5 p hp, h2 p hp]

/-- C123. `for_each` with the cells of `A`, if the frame of `A` is the shape of `B` or the first axes of it. -/
theorem C123_cells (dyn dyn' : Bool) (z z' : List Int) (hz : ∀ i ∈ z, i = 0) (hz' : ∀ i ∈ z', i = 0) (u v w : List Nat) (b a : View) (μ : Mem V) (va : List Int → V) (h : SumInto μ (u ++ v) (u ++ w) b a va)
    (cr : Int) (hc : frameRank (u ++ w).length cr = u.length) :
    ∃ μ', eachCellSum dyn z dyn' z' cr b a μ = (.ok (), μ') ∧ Stored μ μ' (u ++ v) b fun i => cellSum w fun k => va (i.take u.length ++ k) := by
  obtain ⟨e, e1, e2, e3⟩ := cells_rank (V := V) a u w h.shapeA cr hc
  have key := each_run dyn z hz dyn' z' b (u ++ v) [] (by simp) h.shapeB h.distinct μ h.memB e _ e2 (by rw [List.append_nil]; exact merge_shorter u v) (fun j => cellSum w fun k => va (j.take u.length ++ k)) (by
    intro j hj
    rw [List.append_nil] at hj
    obtain ⟨i, k, rfl, hi, _⟩ := valid_split hj
    have hil := length_of_valid hi
    obtain ⟨x, x1, x2, x3⟩ := e3 i hil
    have ht : (i ++ k).take u.length = i := by rw [← hil]; simp
    refine ⟨.view x, ?_, .inl ⟨x, rfl⟩, ?_⟩
    · rw [← elem_take e _ e2, List.length_map, ht]
      exact x1
    · intro μ' hμ
      rw [sumVal, act_bind_ok (sumReads_run dyn' z' hz' x w x2 μ' (fun k => va (i ++ k)) (by
        intro l hl
        have hv : Valid (u ++ w) (i ++ l) := valid_append hi hl
        rw [x3, hμ _ (h.apart _ hv), h.valueA _ hv])), ht]
      rfl)
  obtain ⟨μ', h1, h2⟩ := key
  refine ⟨μ', ?_, h2.1, fun i hi => ?_⟩
  · rw [eachCellSum, lift_bind e1]
    exact h1
  · have := h2.2 i hi
    simpa only [lastIndex, List.map_nil, List.append_nil] using this

/-- C123. With the frame of `A` given as the rank of the cells or as the rank of `B`, `for_each` does the same as `B = 0; B += A`. -/
theorem C123_same (dyn dyn' dyn1 dyn1' dyn2 dyn2' : Bool) (z z' z1 z1' z2 z2' : List Int) (hz : ∀ i ∈ z, i = 0) (hz' : ∀ i ∈ z', i = 0) (hz1 : ∀ i ∈ z1, i = 0) (hz1' : ∀ i ∈ z1', i = 0) (hz2 : ∀ i ∈ z2, i = 0)
    (hz2' : ∀ i ∈ z2', i = 0) (t r : List Nat) (b a : View) (μ : Mem V) (va : List Int → V) (h : SumInto μ t (t ++ r) b a va) :
    eachCellSum dyn1 z1 dyn1' z1' r.length b a μ = zeroAdd dyn z dyn' z' b a μ ∧ (t ≠ [] → eachCellSum dyn2 z2 dyn2' z2' (-(t.length : Int)) b a μ = zeroAdd dyn z dyn' z' b a μ) := by
  obtain ⟨μ', h1, h2⟩ := C123_update dyn dyn' z z' hz hz' t r b a μ va h
  have h' : SumInto μ (t ++ []) (t ++ r) b a va := by rw [List.append_nil]; exact h
  have key : ∀ μ1 : Mem V, Stored μ μ1 (t ++ []) b (fun i => cellSum r fun k => va (i.take t.length ++ k)) → μ1 = μ' := by
    intro μ1 k
    rw [List.append_nil] at k
    refine stored_unique (f := fun i => cellSum r fun k => va (i ++ k)) ⟨k.1, fun i hi => ?_⟩ h2
    rw [k.2 i hi]
    beta_reduce
    rw [List.take_of_length_le (by rw [length_of_valid hi])]
  rw [h1]
  refine ⟨?_, fun ht => ?_⟩
  · obtain ⟨μ1, k1, k2⟩ := C123_cells dyn1 dyn1' z1 z1' hz1 hz1' t [] r b a μ va h' r.length (by simp only [frameRank, List.length_append]; rw [if_neg (by omega)]; omega)
    rw [k1, key _ k2]
  · have := List.length_pos_iff.2 ht
    obtain ⟨μ1, k1, k2⟩ := C123_cells dyn2 dyn2' z2 z2' hz2 hz2' t [] r b a μ va h' (-(t.length : Int)) (by simp only [frameRank, List.length_append]; rw [if_pos (by omega)]; omega)
    rw [k1, key _ k2]

/-- C123. `for_each` with `A` itself does one element at a time, so it leaves the last element of each cell and not the sum. -/
theorem C123_elements (dyn dyn' : Bool) (z z' : List Int) (hz : ∀ i ∈ z, i = 0) (hz' : ∀ i ∈ z', i = 0) (t r : List Nat) (h0 : 0 ∉ r) (b a : View) (μ : Mem V) (va : List Int → V) (h : SumInto μ t (t ++ r) b a va) :
    ∃ μ', eachSum dyn z dyn' z' b a μ = (.ok (), μ') ∧ Stored μ μ' t b fun i => 0 + va (i ++ lastIndex r) :=
  each_run dyn z hz dyn' z' b t r h0 h.shapeB h.distinct μ h.memB a.refs _ (refs_shape h.shapeA) (merge_longer t r) (fun j => 0 + va j) (by
    intro j hj
    refine ⟨.ref (address a j), elem_refs _ _, .inr ⟨_, rfl⟩, fun μ' hμ => ?_⟩
    rw [sumVal, act_bind_ok (sumScalar_run dyn' z' hz' (address a j) μ' (va j) (by rw [hμ _ (h.apart j hj), h.valueA j hj]))]
    rfl)

/-- C123. If the cells have no elements then `for_each` with `A` itself doesn't store anything. The other ways store 0. -/
theorem C123_none (dyn dyn' : Bool) (z z' : List Int) (hz : ∀ i ∈ z, i = 0) (t r : List Nat) (h0 : 0 ∈ r) (b a : View) (μ : Mem V) (hb : Shaped b (t.map some)) (ha : Shaped a ((t ++ r).map some)) :
    eachSum dyn z dyn' z' b a μ = (.ok (), μ) ∧ ∀ f : List Int → V, cellSum r f = 0 := by
  have hn : ∀ s : List Nat, 0 ∈ s → rowMajor s = [] := by
    intro s hs
    rw [List.eq_nil_iff_forall_not_mem]
    intro j hj
    have hv := mem_rowMajor.1 hj
    clear hj
    induction s generalizing j with
    | nil => simp at hs
    | cons n s ih =>
      match j, hv with
      | a :: j, ⟨h1, h2, h3⟩ =>
        rcases List.mem_cons.1 hs with rfl | hs
        · omega
        · exact ih hs _ h3
  refine ⟨?_, fun f => by rw [cellSum, hn r h0]; rfl⟩
  rw [eachSum, run_forAll dyn z hz _ b.refs a.refs _ _ (t ++ r) (refs_shape hb) (refs_shape ha) (merge_longer t r), hn _ (by simp [h0])]
  rfl

end
/-! ## Cases -/

/-- Numbers at 0 to 29. -/
def egThirty : Mem Int := fun p => if 0 ≤ p ∧ p < 30 then some p else none

/-- The `A` and `B` on examples/read-me.cc:98-99, of shapes `{2, 3, 4}` and `{2, 3}`, with `B` transposed. -/
theorem egThirty_into : SumInto egThirty [2, 3] ([2, 3] ++ [4]) ⟨[⟨2, 1⟩, ⟨3, 2⟩], 24⟩ ⟨[⟨2, 12⟩, ⟨3, 4⟩, ⟨4, 1⟩], 0⟩ (address ⟨[⟨2, 12⟩, ⟨3, 4⟩, ⟨4, 1⟩], 0⟩) := by
  have hb : ∀ i, Valid [2, 3] i → ∃ x y : Int, i = [x, y] ∧ 0 ≤ x ∧ x < 2 ∧ 0 ≤ y ∧ y < 3 ∧ address ⟨[⟨2, 1⟩, ⟨3, 2⟩], 24⟩ i = 24 + x + 2 * y := by
    intro i hi
    obtain ⟨x, y, rfl, h1, h2, h3, h4⟩ := valid_two.mp hi
    refine ⟨x, y, rfl, h1, h2, h3, h4, ?_⟩
    simp only [address, dot, List.map_cons, List.map_nil, List.zipWith_cons_cons, List.zipWith_nil_right, List.sum_cons, List.sum_nil]
    omega
  have ha : ∀ j, Valid ([2, 3] ++ [4]) j → 0 ≤ address ⟨[⟨2, 12⟩, ⟨3, 4⟩, ⟨4, 1⟩], 0⟩ j ∧ address ⟨[⟨2, 12⟩, ⟨3, 4⟩, ⟨4, 1⟩], 0⟩ j < 24 := by
    intro j hj
    obtain ⟨i, k, rfl, hi, hk⟩ := valid_split hj
    obtain ⟨x, y, rfl, h1, h2, h3, h4⟩ := valid_two.mp hi
    obtain ⟨k, rfl, h5, h6⟩ := valid_one.mp hk
    simp only [address, dot, List.cons_append, List.nil_append, List.map_cons, List.map_nil, List.zipWith_cons_cons, List.zipWith_nil_right, List.sum_cons, List.sum_nil]
    omega
  refine ⟨.cons rfl (.cons rfl .nil), .cons rfl (.cons rfl (.cons rfl .nil)), ?_, ?_, ?_, ?_⟩
  · intro i j hi hj h
    obtain ⟨x, y, rfl, h1, h2, h3, h4, e⟩ := hb i hi
    obtain ⟨x', y', rfl, h1', h2', h3', h4', e'⟩ := hb j hj
    rw [e, e'] at h
    rw [show x = x' by omega, show y = y' by omega]
  · intro i hi
    obtain ⟨x, y, rfl, h1, h2, h3, h4, e⟩ := hb i hi
    rw [e, egThirty, if_pos (by omega)]
    rfl
  · intro j hj
    rw [egThirty, if_pos (by have := ha j hj; omega)]
  · rintro j hj ⟨i, hi, h⟩
    obtain ⟨x, y, rfl, h1, h2, h3, h4, e⟩ := hb i hi
    have := ha j hj
    omega

/-- The sums on examples/read-me.cc:103 and 105-106 are the same, and `B(1, 2)` is `20+21+22+23`. -/
example : eachCellSum false [] true [0] 1 ⟨[⟨2, 1⟩, ⟨3, 2⟩], 24⟩ ⟨[⟨2, 12⟩, ⟨3, 4⟩, ⟨4, 1⟩], 0⟩ egThirty = zeroAdd true [0] false [] ⟨[⟨2, 1⟩, ⟨3, 2⟩], 24⟩ ⟨[⟨2, 12⟩, ⟨3, 4⟩, ⟨4, 1⟩], 0⟩ egThirty ∧
    eachCellSum true [] false [0] (-2) ⟨[⟨2, 1⟩, ⟨3, 2⟩], 24⟩ ⟨[⟨2, 12⟩, ⟨3, 4⟩, ⟨4, 1⟩], 0⟩ egThirty = zeroAdd true [0] false [] ⟨[⟨2, 1⟩, ⟨3, 2⟩], 24⟩ ⟨[⟨2, 12⟩, ⟨3, 4⟩, ⟨4, 1⟩], 0⟩ egThirty ∧
    (zeroAdd true [0] false [] ⟨[⟨2, 1⟩, ⟨3, 2⟩], 24⟩ ⟨[⟨2, 12⟩, ⟨3, 4⟩, ⟨4, 1⟩], 0⟩ egThirty).2 29 = some 86 := by
  obtain ⟨h1, h2⟩ := C123_same true false false true true false [0] [] [] [0] [] [0] (by simp) (by simp) (by simp) (by simp) (by simp) (by simp) [2, 3] [4] _ _ egThirty _ egThirty_into
  obtain ⟨μ', k1, k2⟩ := C123_update true false [0] [] (by simp) (by simp) [2, 3] [4] _ _ egThirty _ egThirty_into
  refine ⟨h1, h2 (by simp), ?_⟩
  rw [k1]
  exact k2.2 [1, 2] (mem_rowMajor.1 (by decide +kernel))

/-- C123. The way on examples/read-me.cc:104 isn't equivalent to the others: `B(1, 2)` is 23 and not 86. -/
theorem C123_not : ∃ (μ : Mem Int) (b a : View) (va : List Int → Int), SumInto μ [2, 3] ([2, 3] ++ [4]) b a va ∧ ∀ (dyn dyn' dyn1 dyn1' : Bool),
    eachSum dyn [] dyn' [] b a μ ≠ zeroAdd dyn1 [] dyn1' [] b a μ := by
  refine ⟨_, _, _, _, egThirty_into, ?_⟩
  intro dyn dyn' dyn1 dyn1' h
  obtain ⟨μ1, h1, h2⟩ := C123_update dyn1 dyn1' [] [] (by simp) (by simp) [2, 3] [4] _ _ egThirty _ egThirty_into
  obtain ⟨μ2, k1, k2⟩ := C123_elements dyn dyn' [] [] (by simp) (by simp) [2, 3] [4] (by simp) _ _ egThirty _ egThirty_into
  rw [h1, k1] at h
  have e : μ2 = μ1 := (Prod.mk.inj h).2
  have hv : Valid [2, 3] [1, 2] := mem_rowMajor.1 (by decide +kernel)
  have := (k2.2 [1, 2] hv).symm.trans (e ▸ h2.2 [1, 2] hv)
  exact absurd (Option.some.inj this) (by decide +kernel)

/-- With `iter<2>(A)`, as on examples/read-me.cc:110, all of `B(1, ...)` is the sum of `A(1, ...)`. -/
example : ∃ μ', eachCellSum false [] true [0] 2 ⟨[⟨2, 1⟩, ⟨3, 2⟩], 24⟩ ⟨[⟨2, 12⟩, ⟨3, 4⟩, ⟨4, 1⟩], 0⟩ egThirty = (.ok (), μ') ∧ μ' 25 = some 210 ∧ μ' 29 = some 210 := by
  obtain ⟨μ', h1, h2⟩ := C123_cells false true [] [0] (by simp) (by simp) [2] [3] [3, 4] _ _ egThirty _ egThirty_into 2 rfl
  exact ⟨μ', h1, h2.2 [1, 0] (mem_rowMajor.1 (by decide +kernel)), h2.2 [1, 2] (mem_rowMajor.1 (by decide +kernel))⟩

/-- With no elements to add. -/
example : eachSum true [] false [] ⟨[⟨2, 1⟩], 24⟩ ⟨[⟨2, 12⟩, ⟨0, 4⟩], 0⟩ egThirty = (.ok (), egThirty) := (C123_none true false [] [] (by simp) [2] [0] (by simp) ⟨[⟨2, 1⟩], 24⟩ ⟨[⟨2, 12⟩, ⟨0, 4⟩], 0⟩ egThirty (.cons rfl .nil) (.cons rfl (.cons rfl .nil))).1

end Ra.Props
