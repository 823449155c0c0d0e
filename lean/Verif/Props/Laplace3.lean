import Verif.Model.Laplace3
import Verif.Props.Cghs
import Verif.Props.Select
import Verif.Props.Matrix
import Mathlib.Algebra.BigOperators.Ring.Finset
/-!
# Products with the matrices of examples/laplace3d.cc, C116

The spec is in the first section.
-/

namespace Ra.Spec

section
variable {F : Type} [Field F]

/-- The product with a matrix that is given by elements. Each element adds, at each of its vertices, the row of the element matrix by the values of the vertices of that element. Then the boundary is set to zero. -/
def assembled (M : Nat → Nat → F) (h : F) (nE : Nat) (E : Nat → Nat → Int) (boundary : Int → Prop) [DecidablePred boundary] (u : List Int → F) (i : List Int) : F :=
  if boundary (i.headD 0) then 0
  else (∑ e ∈ Finset.range nE, ∑ a ∈ Finset.range 8, if E e a = i.headD 0 then ∑ b ∈ Finset.range 8, M a b * u [E e b] else 0) * h

end

section
variable {F : Type}

/-- The arguments of the products. The vertices are indices of arrays of length `N`, different in each element, and so are the boundaries. -/
structure Mesh (A : Matrix0bnd F) (N : Nat) : Prop where
  shapeM : Shaped A.M [some 8, some 8]
  vertices : ∀ e < A.nE, ∀ a : Nat, a < 8 → 0 ≤ (A.E e).v a ∧ (A.E e).v a < N
  apart : ∀ e < A.nE, ∀ a b : Nat, a < 8 → b < 8 → (A.E e).v a = (A.E e).v b → a = b
  bounds : ∀ q < A.nB, 0 ≤ A.B q ∧ A.B q < N

/-- The temporaries of the elements don't overlap in an element, and aren't in the matrix. -/
structure Registers (A : Matrix0bnd F) : Prop where
  shape1 : ∀ e < A.nE, Shaped (A.E e).reg1 [some 8]
  shape2 : ∀ e < A.nE, Shaped (A.E e).reg2 [some 8]
  distinct1 : ∀ e < A.nE, Distinct (A.E e).reg1 [8]
  distinct2 : ∀ e < A.nE, Distinct (A.E e).reg2 [8]
  parted : ∀ e < A.nE, Parted [8] (A.E e).reg1 (A.E e).reg2
  off1 : ∀ e < A.nE, Off (InView A.M [8, 8]) [8] (A.E e).reg1
  off2 : ∀ e < A.nE, Off (InView A.M [8, 8]) [8] (A.E e).reg2

/-- `p` is the address of a temporary. -/
def InRegister (A : Matrix0bnd F) (p : Int) : Prop := ∃ e < A.nE, InView (A.E e).reg1 [8] p ∨ InView (A.E e).reg2 [8] p

/-- The element matrix is `M`. -/
def MatrixIs (A : Matrix0bnd F) (M : Nat → Nat → F) (μ : Mem F) : Prop := ∀ a b : Nat, a < 8 → b < 8 → μ (address A.M [(a : Int), (b : Int)]) = some (M a b)

/-- The temporaries are allocated. -/
def RegistersIn (A : Matrix0bnd F) (μ : Mem F) : Prop := ∀ p, InRegister A p → (μ p).isSome

end
end Ra.Spec

namespace Ra.Props
open Spec

section
variable {F : Type}

theorem elemIndex_shape (n : IndexLike F) (E : Element) : HasShape (E.index n) [some 8] := .cons rfl .nil

theorem index_reads (n : IndexLike F) (E : Element) (μ : Mem F) (j : Int) : Reads μ (elem (E.index n) [j]) (n.ofIdx (E.v j)) := by
  show (do let r ← (pure (Lv.val (n.ofIdx (E.v (0 + dot [1] [j])))) : Act F (Lv F)); r.get) μ = _
  simp [dot, Lv.get]
  rfl

theorem index_selects (n : IndexLike F) (E : Element) (μ : Mem F) (j : Int) : Selects n μ [.array (E.index n) [some 8]] [j] [E.v j] :=
  .cons ⟨_, index_reads n E μ j, n.toIdx_ofIdx _⟩ .nil

/-- `w(E.v)`. -/
theorem select_elem (n : IndexLike F) (w : View) (N : Nat) (hw : Shaped w [some N]) (E : Element) (hE : ∀ a : Nat, a < 8 → 0 ≤ E.v a ∧ E.v a < N) :
    ∃ e, w.select n [.array] [E.index n] = .ok (some e) ∧ HasShape e [some 8] ∧ ∀ a : Nat, a < 8 → ∀ μ, Refers μ (elem e [(a : Int)]) (address w [E.v a]) := by
  obtain ⟨e, h1, h2, h3⟩ := C111_select n w [N] (by simpa using hw) [.array (E.index n) [some 8]] (by simp) ⟨_, _, List.mem_singleton.mpr rfl⟩
    (by rintro I s0 h; simp at h; obtain ⟨rfl, rfl⟩ := h; exact elemIndex_shape n E) (by simp [axes, ArrSub.kept]) (by simp [ArrSub.kept, Accepts])
  refine ⟨e, h1, h2, ?_⟩
  intro a ha μ
  refine (h3 [(a : Int)] rfl ?_ μ _ (index_selects n E μ a)).1 ?_
  · exact inRange_of_valid (s := [8]) (valid_one.mpr ⟨_, rfl, by omega, by omega⟩)
  · exact inRange_of_valid (s := [N]) (valid_one.mpr ⟨_, rfl, hE a ha⟩)

/-- It is a list of places. -/
theorem select_places (n : IndexLike F) (w : View) (N : Nat) (hw : Shaped w [some N]) (hd : Distinct w [N]) (E : Element) (hE : ∀ a : Nat, a < 8 → 0 ≤ E.v a ∧ E.v a < N)
    (hi : ∀ a b : Nat, a < 8 → b < 8 → E.v a = E.v b → a = b) (μ : Mem F) :
    ∃ e, w.select n [.array] [E.index n] = .ok (some e) ∧ Places μ e [8] (fun j => address w [E.v (j.headD 0)]) := by
  obtain ⟨e, h1, h2, h3⟩ := select_elem n w N hw E hE
  refine ⟨e, h1, h2, ?_, ?_⟩
  · intro j k hj hk he
    obtain ⟨a, rfl, ha⟩ := valid_one.mp hj
    obtain ⟨b, rfl, hb⟩ := valid_one.mp hk
    lift a to Nat using ha.1
    lift b to Nat using hb.1
    have ea := hE a (by omega)
    have eb := hE b (by omega)
    have := hd _ _ (valid_one.mpr ⟨_, rfl, ea⟩) (valid_one.mpr ⟨_, rfl, eb⟩) he
    rw [hi a b (by omega) (by omega) (by simpa using this)]
  · intro j hj μ' _
    obtain ⟨a, rfl, ha⟩ := valid_one.mp hj
    lift a to Nat using ha.1
    exact h3 a (by omega) μ'

/-- `v(E.v)` is a list of values. -/
theorem select_list (n : IndexLike F) (v : View) (N : Nat) (hv : Shaped v [some N]) (E : Element) (hE : ∀ a : Nat, a < 8 → 0 ≤ E.v a ∧ E.v a < N) (μ : Mem F) (f : List Int → F) (hf : HasValues μ [N] v f)
    (X : Int → Prop) (hX : Off X [N] v) :
    ∃ e, v.select n [.array] [E.index n] = .ok (some e) ∧ Values X μ e [8] (fun j => f [E.v (j.headD 0)]) := by
  obtain ⟨e, h1, h2, h3⟩ := select_elem n v N hv E hE
  refine ⟨e, h1, h2, ?_⟩
  intro j hj
  obtain ⟨a, rfl, ha⟩ := valid_one.mp hj
  lift a to Nat using ha.1
  have ea : Valid [N] [E.v a] := valid_one.mpr ⟨_, rfl, hE a (by omega)⟩
  refine ⟨.ref (address v [E.v a]), fun μ' hμ => ⟨h3 a (by omega) μ', ?_⟩⟩
  simp [Lv.get, Act.read, hμ _ (hX _ ea), hf _ ea]

variable [Field F]

/-- What an element adds. -/
def elemAdds (M : Nat → Nat → F) (E : Element) (f : List Int → F) (p : Int) : F := ∑ a ∈ Finset.range 8, if E.v a = p then ∑ b ∈ Finset.range 8, M a b * f [E.v b] else 0

theorem elemAdds_at (M : Nat → Nat → F) (E : Element) (f : List Int → F) (hi : ∀ a b : Nat, a < 8 → b < 8 → E.v a = E.v b → a = b) (a : Nat) (ha : a < 8) :
    elemAdds M E f (E.v a) = ∑ b ∈ Finset.range 8, M a b * f [E.v b] := by
  rw [elemAdds, Finset.sum_eq_single a]
  · rw [if_pos rfl]
  · intro b hb hne
    rw [if_neg fun e => hne (hi b a (Finset.mem_range.mp hb) ha e)]
  · intro h
    exact absurd (Finset.mem_range.mpr ha) h

theorem elemAdds_off (M : Nat → Nat → F) (E : Element) (f : List Int → F) (p : Int) (h : ∀ a : Nat, a < 8 → E.v a ≠ p) : elemAdds M E f p = 0 := by
  refine Finset.sum_eq_zero fun a ha => if_neg (h a (Finset.mem_range.mp ha))

/-- If the places of an element have been added to, the array is as it should. -/
theorem adds_values (M : Nat → Nat → F) (E : Element) (f W : List Int → F) (w : View) (N : Nat) (hd : Distinct w [N]) (hE : ∀ a : Nat, a < 8 → 0 ≤ E.v a ∧ E.v a < N)
    (hi : ∀ a b : Nat, a < 8 → b < 8 → E.v a = E.v b → a = b) (μ μ' : Mem F) (hW : HasValues μ [N] w W) (T : Int → Prop) (hT : Off T [N] w)
    (hs : SameOutside (fun p => (∃ a : Nat, a < 8 ∧ p = address w [E.v a]) ∨ T p) μ μ')
    (hv : ∀ a : Nat, a < 8 → μ' (address w [E.v a]) = some (W [E.v a] + ∑ b ∈ Finset.range 8, M a b * f [E.v b])) :
    HasValues μ' [N] w fun i => W i + elemAdds M E f (i.headD 0) := by
  intro i hvi
  obtain ⟨p, rfl, hp⟩ := valid_one.mp hvi
  by_cases h : ∃ a : Nat, a < 8 ∧ E.v a = p
  · obtain ⟨a, ha, rfl⟩ := h
    rw [hv a ha]
    simp only [List.headD_cons]
    rw [elemAdds_at M E f hi a ha]
  · rw [hs, hW _ hvi]
    · simp only [List.headD_cons]
      rw [elemAdds_off M E f p (fun a ha e => h ⟨a, ha, e⟩), add_zero]
    · rintro (⟨a, ha, e⟩ | e)
      · have := hd _ _ hvi (valid_one.mpr ⟨_, rfl, hE a ha⟩) e
        exact h ⟨a, ha, by simpa using this.symm⟩
      · exact hT _ hvi e

/-- The matrix as an argument of `gemv`. -/
theorem matrix_list (A : Matrix0bnd F) (hM : Shaped A.M [some 8, some 8]) (M : Nat → Nat → F) (μ : Mem F) (h : MatrixIs A M μ) (X : Int → Prop) (hX : Off X [8, 8] A.M) :
    Values X μ A.M.refs [8, 8] (fun i => M (i.getD 0 0).toNat (i.getD 1 0).toNat) := by
  refine values_refs (by simpa using hM) ?_
  intro j hj
  refine ⟨hX j hj, ?_⟩
  obtain ⟨a, b, rfl, h1⟩ := valid_two.mp hj
  lift a to Nat using h1.1
  lift b to Nat using h1.2.2.1
  simpa using h a b (by omega) (by omega)

theorem accum_eight (x : F) (f : Int → F) : accum x 8 f = x + ∑ b ∈ Finset.range 8, f b := accum_sum x 8 f

/-- An element in `mult0`. -/
theorem elem_run0 (n : IndexLike F) (dyn : Bool) (z : List Int) (hz : ∀ i ∈ z, i = 0) (A : Matrix0bnd F) (N : Nat) (hA : Mesh A N) (M : Nat → Nat → F) (e : Nat) (he : e < A.nE) (v w : View) (hv : Shaped v [some N])
    (hw : Shaped w [some N]) (hd : Distinct w [N]) (hp : Parted [N] v w) (hTw : Off (InView A.M [8, 8]) [N] w) (μ : Mem F) (f W : List Int → F) (hI : MatrixIs A M μ) (hf : HasValues μ [N] v f) (hW : HasValues μ [N] w W) :
    ∃ μ', elemOp0 n dyn z A.M v w [A.E e] μ = (.ok (A.E e), μ') ∧ SameOutside (fun p => InView w [N] p) μ μ' ∧ MatrixIs A M μ' ∧
      HasValues μ' [N] w fun i => W i + elemAdds M (A.E e) f (i.headD 0) := by
  have hE := fun (a : Nat) (ha : a < 8) => hA.vertices e he a ha
  have hi := fun (a b : Nat) (ha : a < 8) (hb : b < 8) => hA.apart e he a b ha hb
  have vE : ∀ a : Nat, a < 8 → Valid [N] [(A.E e).v a] := fun a ha => valid_one.mpr ⟨_, rfl, hE a ha⟩
  obtain ⟨y, y1, y2⟩ := select_places n w N hw hd (A.E e) hE hi μ
  have hX : ∀ p, (∃ i, Valid [8] i ∧ p = address w [(A.E e).v (i.headD 0)]) ↔ ∃ a : Nat, a < 8 ∧ p = address w [(A.E e).v a] := by
    intro p
    constructor
    · rintro ⟨i, h, rfl⟩
      obtain ⟨a, rfl, ha⟩ := valid_one.mp h
      lift a to Nat using ha.1
      exact ⟨a, by omega, rfl⟩
    · rintro ⟨a, ha, rfl⟩
      exact ⟨[(a : Int)], valid_one.mpr ⟨_, rfl, by omega, by omega⟩, rfl⟩
  obtain ⟨x, x1, x2⟩ := select_list n v N hv (A.E e) hE μ f hf (fun p => ∃ i, Valid [8] i ∧ p = address w [(A.E e).v (i.headD 0)]) (by
    intro i hvi h
    obtain ⟨a, ha, q⟩ := (hX _).mp h
    exact hp _ _ hvi (vE a ha) q)
  have hM := matrix_list A hA.shapeM M μ hI (fun p => ∃ i, Valid [8] i ∧ p = address w [(A.E e).v (i.headD 0)]) (by
    intro i hvi h
    obtain ⟨a, ha, q⟩ := (hX _).mp h
    exact hTw _ (vE a ha) ⟨i, hvi, q.symm⟩)
  obtain ⟨μ', h1, h2, h3⟩ := C29_gemv_iter dyn z hz dyn z hz 8 8 A.M x y _ μ _ _ (fun i => W [(A.E e).v (i.headD 0)]) y2
    (fun i hvi => by
      obtain ⟨a, rfl, ha⟩ := valid_one.mp hvi
      lift a to Nat using ha.1
      exact hW _ (vE a (by omega))) hM x2
  have hs : SameOutside (fun p => (∃ a : Nat, a < 8 ∧ p = address w [(A.E e).v a])) μ μ' := fun p hq => h2 p fun h => hq ((hX p).mp h)
  refine ⟨μ', ?_, ?_, ?_, ?_⟩
  · simp only [elemOp0]
    rw [lift_bind x1, lift_bind y1]
    exact act_bind_ok h1
  · intro p hq
    refine hs p ?_
    rintro ⟨a, ha, rfl⟩
    exact hq ⟨_, vE a ha, rfl⟩
  · intro a b ha hb
    rw [hs, hI a b ha hb]
    rintro ⟨c, hc, q⟩
    exact hTw _ (vE c hc) ⟨_, valid_two.mpr ⟨_, _, rfl, by omega, by omega, by omega, by omega⟩, q.symm⟩
  · refine adds_values M (A.E e) f W w N hd hE hi μ μ' hW (fun _ => False) (fun _ _ h => h) (fun p hq => hs p fun h => hq (.inl h)) ?_
    intro a ha
    have := h3 a (valid_one.mpr ⟨_, rfl, by omega, by omega⟩)
    simp only [List.headD_cons] at this
    rw [this, accum_eight]
    simp

theorem values_reads {X : Int → Prop} {μ μ' : Mem F} {x : Iter (Act F) (Lv F)} {s : List Nat} {f : List Int → F} (h : Values X μ x s f) (hs : SameOutside X μ μ') {j : List Int} (hj : Valid s j) : Reads μ' (elem x j) (f j) := by
  obtain ⟨r, hr⟩ := h.2 j hj
  obtain ⟨h1, h2⟩ := hr μ' hs
  rw [Reads, act_bind_ok h1, h2]

/-- An element in `mult1`. -/
theorem elem_run1 (n : IndexLike F) (dyn : Bool) (z : List Int) (hz : ∀ i ∈ z, i = 0) (A : Matrix0bnd F) (N : Nat) (hA : Mesh A N) (hR : Registers A) (M : Nat → Nat → F) (e : Nat) (he : e < A.nE) (v w : View) (hv : Shaped v [some N])
    (hw : Shaped w [some N]) (hd : Distinct w [N]) (hp : Parted [N] v w) (hTv : Off (fun p => InView A.M [8, 8] p ∨ InRegister A p) [N] v) (hTw : Off (fun p => InView A.M [8, 8] p ∨ InRegister A p) [N] w)
    (μ : Mem F) (f W : List Int → F) (hI : MatrixIs A M μ) (hI' : RegistersIn A μ) (hf : HasValues μ [N] v f) (hW : HasValues μ [N] w W) :
    ∃ μ', elemOp1 n dyn z A.M v w [A.E e] μ = (.ok (A.E e), μ') ∧ SameOutside (fun p => InView w [N] p ∨ InRegister A p) μ μ' ∧ MatrixIs A M μ' ∧ RegistersIn A μ' ∧
      HasValues μ' [N] w fun i => W i + elemAdds M (A.E e) f (i.headD 0) := by
  have hE := fun (a : Nat) (ha : a < 8) => hA.vertices e he a ha
  have hi := fun (a b : Nat) (ha : a < 8) (hb : b < 8) => hA.apart e he a b ha hb
  have vE : ∀ a : Nat, a < 8 → Valid [N] [(A.E e).v a] := fun a ha => valid_one.mpr ⟨_, rfl, hE a ha⟩
  have r1 : ∀ p, InView (A.E e).reg1 [8] p → InRegister A p := fun p h => ⟨e, he, .inl h⟩
  have r2 : ∀ p, InView (A.E e).reg2 [8] p → InRegister A p := fun p h => ⟨e, he, .inr h⟩
  have inM : ∀ a b : Nat, a < 8 → b < 8 → InView A.M [8, 8] (address A.M [(a : Int), (b : Int)]) := fun a b ha hb => ⟨_, valid_two.mpr ⟨_, _, rfl, by omega, by omega, by omega, by omega⟩, rfl⟩
  have mkeep : ∀ (r : View) (m m' : Mem F), Off (InView A.M [8, 8]) [8] r → SameOutside (InView r [8]) m m' → MatrixIs A M m → MatrixIs A M m' := by
    intro r m m' ho hs hm a b ha hb
    rw [hs, hm a b ha hb]
    rintro ⟨i, hvi, q⟩
    exact ho i hvi (q ▸ inM a b ha hb)
  have wkeep : ∀ (r u : View) (g : List Int → F) (m m' : Mem F), (∀ p, InView r [8] p → InRegister A p) → Off (fun p => InView A.M [8, 8] p ∨ InRegister A p) [N] u → SameOutside (InView r [8]) m m' → HasValues m [N] u g → HasValues m' [N] u g := by
    intro r u g m m' hr ho hs hm i hvi
    rw [hs, hm i hvi]
    exact fun h => ho i hvi (.inr (hr _ h))
  -- reg1 = v(E.v)
  obtain ⟨x, x1, x2⟩ := select_list n v N hv (A.E e) hE μ f hf (InView (A.E e).reg1 [8]) (fun i hvi h => hTv i hvi (.inr (r1 _ h)))
  obtain ⟨m1, a1, a2, a3⟩ := C27_view dyn z hz (A.E e).reg1 [8] (hR.shape1 e he) (hR.distinct1 e he) x _ x2.1 (merge_same _) μ (fun i hvi => hI' _ (r1 _ ⟨i, hvi, rfl⟩)) (fun j => f [(A.E e).v (j.headD 0)])
    (fun j hj μ' ho => values_reads x2 (fun p hq => ho p fun h => hq h.1) hj)
  have alive1 : RegistersIn A m1 := by
    intro p hq
    by_cases h : InView (A.E e).reg1 [8] p
    · obtain ⟨i, hvi, rfl⟩ := h
      rw [a2 i hvi]; rfl
    · rw [a3 p h]; exact hI' p hq
  -- reg2 = 0
  obtain ⟨m2, b1, b2, b3⟩ := assign_zero dyn z hz (A.E e).reg2 [8] (hR.shape2 e he) (hR.distinct2 e he) m1 (fun i hvi => alive1 _ (r2 _ ⟨i, hvi, rfl⟩)) (0 : F)
  have reg1 : HasValues m2 [8] (A.E e).reg1 (fun j => f [(A.E e).v (j.headD 0)]) := values_kept a2 (hR.parted e he) b2
  have alive2 : RegistersIn A m2 := by
    intro p hq
    by_cases h : InView (A.E e).reg2 [8] p
    · obtain ⟨i, hvi, rfl⟩ := h
      rw [b3 i hvi]; rfl
    · rw [b2 p h]; exact alive1 p hq
  have M2 : MatrixIs A M m2 := mkeep _ _ _ (hR.off2 e he) b2 (mkeep _ _ _ (hR.off1 e he) a3 hI)
  -- gemv(M, reg1, reg2)
  obtain ⟨m3, c1, c2, c3⟩ := C29_gemv_iter dyn z hz dyn z hz 8 8 A.M (A.E e).reg1.refs (A.E e).reg2.refs _ m2 _ _ (fun _ => 0) (places_refs (hR.shape2 e he) (hR.distinct2 e he) m2) b3
    (matrix_list A hA.shapeM M m2 M2 (InView (A.E e).reg2 [8]) (fun i hvi ⟨j, hj, q⟩ => hR.off2 e he j hj ⟨i, hvi, q.symm⟩))
    (values_refs (hR.shape1 e he) fun j hj => ⟨fun ⟨k, hk, q⟩ => hR.parted e he j k hj hk q, reg1 j hj⟩)
  have reg2 : HasValues m3 [8] (A.E e).reg2 (fun j => ∑ b ∈ Finset.range 8, M (j.headD 0).toNat b * f [(A.E e).v b]) := by
    intro j hj
    obtain ⟨a, rfl, ha⟩ := valid_one.mp hj
    rw [c3 a hj, accum_eight]
    simp
  have c2 : SameOutside (InView (A.E e).reg2 [8]) m2 m3 := c2
  have alive3 : RegistersIn A m3 := by
    intro p hq
    by_cases h : InView (A.E e).reg2 [8] p
    · obtain ⟨i, hvi, rfl⟩ := h
      rw [reg2 i hvi]; rfl
    · rw [c2 p h]; exact alive2 p hq
  have M3 : MatrixIs A M m3 := mkeep _ _ _ (hR.off2 e he) c2 M2
  have W3 : HasValues m3 [N] w W := wkeep _ _ _ _ _ r2 hTw c2 (wkeep _ _ _ _ _ r2 hTw b2 (wkeep _ _ _ _ _ r1 hTw a3 hW))
  -- w(E.v) += reg2
  obtain ⟨y, y1, y2⟩ := select_places n w N hw hd (A.E e) hE hi m3
  have hX : ∀ p, (∃ i, Valid [8] i ∧ p = address w [(A.E e).v (i.headD 0)]) ↔ ∃ a : Nat, a < 8 ∧ p = address w [(A.E e).v a] := by
    intro p
    constructor
    · rintro ⟨i, h, rfl⟩
      obtain ⟨a, rfl, ha⟩ := valid_one.mp h
      lift a to Nat using ha.1
      exact ⟨a, by omega, rfl⟩
    · rintro ⟨a, ha, rfl⟩
      exact ⟨[(a : Int)], valid_one.mpr ⟨_, rfl, by omega, by omega⟩, rfl⟩
  obtain ⟨m4, d1, d2, d3⟩ := C28_prefix (· + ·) dyn z hz y [8] [] _ m3 y2 (A.E e).reg2.refs ([8].map some) (refs_shape (hR.shape2 e he)) (merge_same _) (fun i => W [(A.E e).v (i.headD 0)])
    (fun i hvi => by
      obtain ⟨a, rfl, ha⟩ := valid_one.mp hvi
      lift a to Nat using ha.1
      exact W3 _ (vE a (by omega))) (fun j => ∑ b ∈ Finset.range 8, M (j.headD 0).toNat b * f [(A.E e).v b])
    (fun j hj μ' ho => by
      have hj : Valid [8] j := hj
      refine reads_refs ?_
      rw [ho _ ?_, reg2 j hj]
      intro h
      obtain ⟨a, ha, q⟩ := (hX _).mp h
      exact hTw _ (vE a ha) (.inr (q ▸ r2 _ ⟨j, hj, rfl⟩)))
  have hs : SameOutside (fun p => (∃ a : Nat, a < 8 ∧ p = address w [(A.E e).v a])) m3 m4 := fun p hq => d2 p fun h => hq ((hX p).mp h)
  have inW : ∀ p, (∃ a : Nat, a < 8 ∧ p = address w [(A.E e).v a]) → InView w [N] p := fun p ⟨a, ha, q⟩ => ⟨_, vE a ha, q⟩
  refine ⟨m4, ?_, ?_, ?_, ?_, ?_⟩
  · simp only [elemOp1]
    rw [lift_bind x1]
    simp only []
    rw [act_bind_ok a1, act_bind_ok b1, act_bind_ok c1]
    have : w.selectUpdate n (· + ·) dyn z [.array] [(A.E e).index n] (A.E e).reg2.refs m3 = (.ok (), m4) := by
      rw [View.selectUpdate, lift_bind y1]
      exact d1
    rw [act_bind_ok this]
    rfl
  · intro p hq
    rw [hs p fun h => hq (.inl (inW p h)), c2 p fun h => hq (.inr (r2 p h)), b2 p fun h => hq (.inr (r2 p h)), a3 p fun h => hq (.inr (r1 p h))]
  · intro a b ha hb
    rw [hs, M3 a b ha hb]
    rintro ⟨c, hc, q⟩
    exact hTw _ (vE c hc) (.inl (q ▸ inM a b ha hb))
  · intro p hq
    rw [hs p]
    · exact alive3 p hq
    · rintro ⟨c, hc, rfl⟩
      exact hTw _ (vE c hc) (.inr hq)
  · refine adds_values M (A.E e) f W w N hd hE hi m3 m4 W3 (fun _ => False) (fun _ _ h => h) (fun p hq => hs p fun h => hq (.inl h)) ?_
    intro a ha
    have := d3 [(a : Int)] (valid_one.mpr ⟨_, rfl, by omega, by omega⟩)
    simpa [rowMajor] using this

/-- The loop over the elements. -/
theorem elements_run (op : View → View → List Element → Act F Element) (T : Int → Prop) (I : Mem F → Prop) (dyn : Bool) (z : List Int) (hz : ∀ i ∈ z, i = 0) (A : Matrix0bnd F) (N : Nat) (M : Nat → Nat → F) (v w : View)
    (hp : Parted [N] v w) (hTv : Off T [N] v)
    (hop : ∀ e < A.nE, ∀ μ f W, I μ → HasValues μ [N] v f → HasValues μ [N] w W →
      ∃ μ', op v w [A.E e] μ = (.ok (A.E e), μ') ∧ SameOutside (fun p => InView w [N] p ∨ T p) μ μ' ∧ I μ' ∧ HasValues μ' [N] w fun i => W i + elemAdds M (A.E e) f (i.headD 0))
    (μ : Mem F) (f W : List Int → F) (hI : I μ) (hf : HasValues μ [N] v f) (hW : HasValues μ [N] w W) :
    ∃ μ', ply (β := Unit) dyn never z (.node (mapOp (op v w)) [A.elements]) μ = (.ok none, μ') ∧ SameOutside (fun p => InView w [N] p ∨ T p) μ μ' ∧ I μ' ∧
      HasValues μ' [N] w fun i => W i + ∑ e ∈ Finset.range A.nE, elemAdds M (A.E e) f (i.headD 0) := by
  have hE : HasShape A.elements ([A.nE].map some) := .cons rfl .nil
  have hs : HasShape (.node (mapOp (op v w)) [A.elements]) ([A.nE].map some) := shape_one hE
  have he : ∀ e : Nat, elem (.node (mapOp (op v w)) [A.elements]) [(e : Int)] = op v w [A.E e] := by
    intro e
    simp [elem, elems, mapOp, Matrix0bnd.elements, dot]
  have key : ∀ k, k ≤ A.nE → ∃ μ', forAll (m := Act F) (fun (e : Nat) => op v w [A.E e]) (List.range k) μ = (.ok (), μ') ∧ SameOutside (fun p => InView w [N] p ∨ T p) μ μ' ∧ I μ' ∧
      HasValues μ' [N] w fun i => W i + ∑ e ∈ Finset.range k, elemAdds M (A.E e) f (i.headD 0) := by
    intro k
    induction k with
    | zero => exact fun _ => ⟨μ, rfl, fun _ _ => rfl, hI, by simpa using hW⟩
    | succ k ih =>
      intro hk
      obtain ⟨m, h1, h2, h3, h4⟩ := ih (by omega)
      have hv : HasValues m [N] v f := by
        intro i hi
        rw [h2, hf i hi]
        rintro (⟨j, hj, q⟩ | h)
        · exact hp i j hi hj q
        · exact hTv i hi h
      obtain ⟨m', g1, g2, g3, g4⟩ := hop k (by omega) m f _ h3 hv h4
      refine ⟨m', ?_, outside_trans h2 g2 (fun _ h => h) (fun _ h => h), g3, ?_⟩
      · rw [List.range_succ, forAll_append, act_bind_ok h1]
        simp only [forAll]
        rw [act_bind_ok g1]
        rfl
      · intro i hi
        rw [g4 i hi]
        beta_reduce
        rw [Finset.sum_range_succ, add_assoc]
  obtain ⟨m, h1, h2, h3, h4⟩ := key A.nE le_rfl
  refine ⟨m, ?_, h2, h3, h4⟩
  rw [ply_never dyn _ [A.nE] hs z hz, rowMajor_one, forAll_map]
  simp only [he]
  rw [act_bind_ok h1]
  rfl

omit [Field F] in
theorem bound_shape (n : IndexLike F) (A : Matrix0bnd F) : HasShape (A.bound n) [some A.nB] := .cons rfl .nil

omit [Field F] in
theorem bound_reads (n : IndexLike F) (A : Matrix0bnd F) (μ : Mem F) (j : Int) : Reads μ (elem (A.bound n) [j]) (n.ofIdx (A.B j)) := by
  show (do let r ← (pure (Lv.val (n.ofIdx (A.B (0 + dot [1] [j])))) : Act F (Lv F)); r.get) μ = _
  simp [dot, Lv.get]
  rfl

/-- `w(A.B) = 0`. -/
theorem bound_run (n : IndexLike F) (dyn : Bool) (z : List Int) (hz : ∀ i ∈ z, i = 0) (A : Matrix0bnd F) (N : Nat) (hB : ∀ q : Nat, q < A.nB → 0 ≤ A.B q ∧ A.B q < N) (w : View) (hw : Shaped w [some N]) (hd : Distinct w [N])
    (μ : Mem F) (W : List Int → F) (hW : HasValues μ [N] w W) (bd : Int → Prop) [DecidablePred bd] (hbd : ∀ p : Int, 0 ≤ p → p < N → (bd p ↔ ∃ q : Nat, q < A.nB ∧ A.B q = p)) :
    ∃ μ', w.selectAssign n dyn z [.array] [A.bound n] (.scalar (pure (.val 0))) μ = (.ok (), μ') ∧ SameOutside (InView w [N]) μ μ' ∧ HasValues μ' [N] w fun i => if bd (i.headD 0) then 0 else W i := by
  have vB : ∀ q : Nat, q < A.nB → Valid [N] [A.B q] := fun q hq => valid_one.mpr ⟨_, rfl, hB q hq⟩
  obtain ⟨m, h1, h2⟩ := C111_assign dyn z hz n w [N] (by simpa using hw) [.array (A.bound n) [some A.nB]] (by simp) ⟨_, _, List.mem_singleton.mpr rfl⟩
    (by rintro I s0 h; simp at h; obtain ⟨rfl, rfl⟩ := h; exact bound_shape n A) (by simp [axes, ArrSub.kept]) (by simp [ArrSub.kept, Accepts])
    (.scalar (pure (.val 0))) [] rfl [A.nB] (merge_nil _) μ (fun k hk => by rw [hW k hk]; rfl) (fun j => [A.B (j.headD 0)]) (fun _ => 0)
    (fun j hj μ' _ => by
      obtain ⟨q, rfl, hq⟩ := valid_one.mp hj
      exact ⟨[A.B q], .cons ⟨_, bound_reads n A μ' q, n.toIdx_ofIdx _⟩ .nil, rfl⟩)
    (fun j _ μ' _ => reads_scalar μ' 0 j) (rowMajor [A.nB]) [] (by simp)
    (fun j hj => by
      obtain ⟨q, rfl, hq⟩ := valid_one.mp (mem_rowMajor.mp hj)
      lift q to Nat using hq.1
      exact vB q (by omega))
    (by simp)
  have hlast : ∀ p, ((rowMajor [A.nB]).filter fun j => address w [A.B (j.headD 0)] = p).getLast? = none ↔ ∀ q : Nat, q < A.nB → address w [A.B q] ≠ p := by
    intro p
    rw [List.getLast?_eq_none_iff, List.filter_eq_nil_iff]
    constructor
    · intro h q hq
      simpa using h [(q : Int)] (mem_rowMajor.mpr (valid_one.mpr ⟨_, rfl, by omega, by omega⟩))
    · intro h j hj
      obtain ⟨q, rfl, hq⟩ := valid_one.mp (mem_rowMajor.mp hj)
      lift q to Nat using hq.1
      simpa using h q (by omega)
  refine ⟨m, h1, ?_, ?_⟩
  · intro p hp
    rw [h2 p, (hlast p).mpr]
    intro q hq e
    exact hp ⟨_, vB q hq, e.symm⟩
  · intro i hi
    obtain ⟨p, rfl, hp⟩ := valid_one.mp hi
    rw [h2]
    change _ = some (if bd p then 0 else W [p])
    by_cases hb : bd p
    · rw [if_pos hb]
      obtain ⟨q, hq, rfl⟩ := (hbd p hp.1 hp.2).mp hb
      have := mt (hlast (address w [A.B q])).mp (by simpa using ⟨q, hq, rfl⟩)
      obtain ⟨j, hj⟩ := Option.ne_none_iff_exists'.mp this
      rw [hj]
    · rw [if_neg hb]
      have := (hlast (address w [p])).mpr (by
        intro q hq e
        have := hd _ _ (vB q hq) hi e
        exact hb ((hbd p hp.1 hp.2).mpr ⟨q, hq, by simpa using this⟩))
      rw [this]
      exact hW _ hi

/-- Both products. -/
theorem mult_run (op : View → View → List Element → Act F Element) (T : Int → Prop) (I : Mem F → Prop) (hown : ∀ μ μ', (∀ a, T a → μ' a = μ a) → I μ → I μ') (n : IndexLike F) (dyn : Bool) (z : List Int) (hz : ∀ i ∈ z, i = 0)
    (A : Matrix0bnd F) (N : Nat) (hA : Mesh A N) (M : Nat → Nat → F) (bd : Int → Prop) [DecidablePred bd] (hbd : ∀ p : Int, 0 ≤ p → p < N → (bd p ↔ ∃ q : Nat, q < A.nB ∧ A.B q = p)) (v w : View)
    (hw : Shaped w [some N]) (hd : Distinct w [N]) (hp : Parted [N] v w) (hTv : Off T [N] v) (hTw : Off T [N] w)
    (hop : ∀ e < A.nE, ∀ μ f W, I μ → HasValues μ [N] v f → HasValues μ [N] w W →
      ∃ μ', op v w [A.E e] μ = (.ok (A.E e), μ') ∧ SameOutside (fun p => InView w [N] p ∨ T p) μ μ' ∧ I μ' ∧ HasValues μ' [N] w fun i => W i + elemAdds M (A.E e) f (i.headD 0))
    (μ : Mem F) (f W : List Int → F) (hI : I μ) (hf : HasValues μ [N] v f) (hW : HasValues μ [N] w W) :
    ∃ μ', multElems op n dyn z A v w μ = (.ok (), μ') ∧ SameOutside (fun p => InView w [N] p ∨ T p) μ μ' ∧ I μ' ∧ HasValues μ' [N] w (assembled M A.h A.nE (fun e a => (A.E e).v a) bd f) := by
  have keepI : ∀ m m' : Mem F, SameOutside (InView w [N]) m m' → I m → I m' := fun m m' hs => hown m m' fun a ha => hs a fun ⟨i, hi, q⟩ => hTw i hi (q ▸ ha)
  obtain ⟨m1, a1, a2, a3⟩ := assign_zero dyn z hz w [N] (by simpa using hw) hd μ (fun i hi => by rw [hW i hi]; rfl) (0 : F)
  obtain ⟨m2, b1, b2, b3, b4⟩ := elements_run op T I dyn z hz A N M v w hp hTv hop m1 f (fun _ => 0) (keepI _ _ a2 hI) (values_kept hf hp a2) a3
  obtain ⟨m3, c1, c2, c3⟩ := bound_run n dyn z hz A N hA.bounds w hw hd m2 _ b4 bd hbd
  obtain ⟨m4, d1, d2, d3⟩ := update_view (· * ·) dyn z hz w [N] (by simpa using hw) hd (.scalar (pure (.val A.h))) [] rfl (merge_nil _) m3 _ (fun _ => A.h) c3 (fun j _ μ' _ => reads_scalar μ' A.h j)
  refine ⟨m4, ?_, ?_, keepI _ _ d2 (keepI _ _ c2 b3), ?_⟩
  · rw [multElems, act_bind_ok a1, act_bind_ok b1, act_bind_ok c1]
    exact d1
  · intro p hq
    rw [d2 p fun h => hq (.inl h), c2 p fun h => hq (.inl h), b2 p hq, a2 p fun h => hq (.inl h)]
  · intro i hi
    rw [d3 i hi]
    simp only [assembled, elemAdds]
    split_ifs
    · rw [zero_mul]
    · rw [zero_add]

/-- C116. `mult0` is the product with the matrix of the elements. The memory of the element matrix isn't changed. -/
theorem C116_mult0 (n : IndexLike F) (dyn : Bool) (z : List Int) (hz : ∀ i ∈ z, i = 0) (dyn' : Bool) (z' : List Int) (hz' : ∀ i ∈ z', i = 0) (A : Matrix0bnd F) (N : Nat) (hA : Mesh A N) (M : Nat → Nat → F)
    (bd : Int → Prop) [DecidablePred bd] (hbd : ∀ p : Int, 0 ≤ p → p < N → (bd p ↔ ∃ q : Nat, q < A.nB ∧ A.B q = p)) :
    Multiplies (MatrixIs A M) (InView A.M [8, 8]) (mult0 n dyn z dyn' z' A) [N] (fun i => bd (i.headD 0)) (assembled M A.h A.nE (fun e a => (A.E e).v a) bd) := by
  have own : ∀ μ μ' : Mem F, (∀ a, InView A.M [8, 8] a → μ' a = μ a) → MatrixIs A M μ → MatrixIs A M μ' := by
    intro μ μ' h hM a b ha hb
    rw [h _ ⟨_, valid_two.mpr ⟨_, _, rfl, by omega, by omega, by omega, by omega⟩, rfl⟩, hM a b ha hb]
  refine ⟨fun u i _ hb => if_pos hb, own, ?_⟩
  intro v w μ f h hI hv hw hd hp hTv hTw hf hW _
  refine mult_run (elemOp0 n dyn' z' A.M) (InView A.M [8, 8]) (MatrixIs A M) own n dyn z hz A N hA M bd hbd v w (by simpa using hw) hd hp hTv hTw ?_ μ f h hI hf hW
  intro e he μ f W hI hf hW
  obtain ⟨m, h1, h2, h3, h4⟩ := elem_run0 n dyn' z' hz' A N hA M e he v w (by simpa using hv) (by simpa using hw) hd hp hTw μ f W hI hf hW
  exact ⟨m, h1, fun p hq => h2 p fun h => hq (.inl h), h3, h4⟩

/-- C116. And so is `mult1`, that uses the temporaries of the elements. -/
theorem C116_mult1 (n : IndexLike F) (dyn : Bool) (z : List Int) (hz : ∀ i ∈ z, i = 0) (dyn' : Bool) (z' : List Int) (hz' : ∀ i ∈ z', i = 0) (A : Matrix0bnd F) (N : Nat) (hA : Mesh A N) (hR : Registers A) (M : Nat → Nat → F)
    (bd : Int → Prop) [DecidablePred bd] (hbd : ∀ p : Int, 0 ≤ p → p < N → (bd p ↔ ∃ q : Nat, q < A.nB ∧ A.B q = p)) :
    Multiplies (fun μ => MatrixIs A M μ ∧ RegistersIn A μ) (fun p => InView A.M [8, 8] p ∨ InRegister A p) (mult1 n dyn z dyn' z' A) [N] (fun i => bd (i.headD 0)) (assembled M A.h A.nE (fun e a => (A.E e).v a) bd) := by
  have own : ∀ μ μ' : Mem F, (∀ a, InView A.M [8, 8] a ∨ InRegister A a → μ' a = μ a) → (MatrixIs A M μ ∧ RegistersIn A μ) → (MatrixIs A M μ' ∧ RegistersIn A μ') := by
    rintro μ μ' h ⟨hM, hR⟩
    refine ⟨fun a b ha hb => ?_, fun p hq => ?_⟩
    · rw [h _ (.inl ⟨_, valid_two.mpr ⟨_, _, rfl, by omega, by omega, by omega, by omega⟩, rfl⟩), hM a b ha hb]
    · rw [h p (.inr hq)]
      exact hR p hq
  refine ⟨fun u i _ hb => if_pos hb, own, ?_⟩
  intro v w μ f h hI hv hw hd hp hTv hTw hf hW _
  refine mult_run (elemOp1 n dyn' z' A.M) _ _ own n dyn z hz A N hA M bd hbd v w (by simpa using hw) hd hp hTv hTw ?_ μ f h hI hf hW
  intro e he μ f W hI hf hW
  obtain ⟨m, h1, h2, h3, h3', h4⟩ := elem_run1 n dyn' z' hz' A N hA hR M e he v w (by simpa using hv) (by simpa using hw) hd hp hTv hTw μ f W hI.1 hI.2 hf hW
  exact ⟨m, h1, fun p hq => h2 p fun h => hq (h.imp id .inr), ⟨h3, h3'⟩, h4⟩

/-- The element matrix as it's set. -/
theorem C116_matrix (dyn : Bool) (z : List Int) (hz : ∀ i ∈ z, i = 0) (M : View) (hM : Shaped M [some 8, some 8]) (hd : Distinct M [8, 8]) (table : List (List F)) (μ : Mem F) (hm : ∀ i, Valid [8, 8] i → (μ (address M i)).isSome) :
    ∃ μ', setMatrix dyn z M table μ = (.ok (), μ') ∧ SameOutside (InView M [8, 8]) μ μ' ∧
      ∀ a b : Nat, a < 8 → b < 8 → μ' (address M [(a : Int), (b : Int)]) = some ((table.getD a []).getD b 0) := by
  obtain ⟨μ', h1, h2, h3⟩ := C27_view dyn z hz M [8, 8] (by simpa using hM) hd (.cell [⟨8, 8⟩, ⟨8, 1⟩] 0 fun p => pure (.val ((table.getD (p / 8).toNat []).getD (p % 8).toNat 0))) [some 8, some 8] (.cons rfl (.cons rfl .nil))
    (merge_same _) μ hm (fun j => (table.getD (j.getD 0 0).toNat []).getD (j.getD 1 0).toNat 0) (by
      intro j hj μ' _
      obtain ⟨a, b, rfl, h1, h2, h3, h4⟩ := valid_two.mp hj
      have e1 : (0 + dot [8, 1] [a, b]) / 8 = a := by simp [dot]; omega
      have e2 : (0 + dot [8, 1] [a, b]) % 8 = b := by simp [dot]; omega
      show (do let r ← (pure (Lv.val ((table.getD ((0 + dot [8, 1] [a, b]) / 8).toNat []).getD ((0 + dot [8, 1] [a, b]) % 8).toNat 0)) : Act F (Lv F)); r.get) μ' = _
      rw [e1, e2]
      rfl)
  refine ⟨μ', h1, h3, fun a b ha hb => ?_⟩
  have := h2 [(a : Int), (b : Int)] (valid_two.mpr ⟨_, _, rfl, by omega, by omega, by omega, by omega⟩)
  simpa using this

end
end Ra.Props
