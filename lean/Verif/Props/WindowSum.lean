import Verif.Model.StencilRun
import Verif.Props.GemmDot
import Verif.Props.Fill
import Verif.Props.ViewOps
/-!
# Sums over windows, C108

The spec is in the first section. The windows of `a` go `lo` below and `hi` above on each axis, and each is multiplied with a mask of the same shape and summed.
-/

namespace Ra.Spec

section
variable {V : Type}

/-- Number of windows on each axis. -/
def places (s lo hi : List Nat) : List Nat := List.zipWith (· - ·) s (List.zipWith (· + ·) lo hi)

/-- Lengths of a window. -/
def extent (lo hi : List Nat) : List Nat := List.zipWith (fun l h => l + h + 1) lo hi

/-- `a` has shape `s` and values `va`, `mask` has the shape of a window and values `vm`, and `d` has an element for each window. No two elements of `d` are the same, and `d` doesn't overlap the others. -/
structure Windows (μ : Mem V) (s lo hi : List Nat) (a mask d : View) (va vm : List Int → V) : Prop where
  lower : lo.length = s.length
  upper : hi.length = s.length
  fits : ∀ k (hk : k < s.length), lo[k] + hi[k] ≤ s[k]
  shapeA : Shaped a (s.map some)
  shapeM : Shaped mask ((extent lo hi).map some)
  shapeD : Shaped d ((places s lo hi).map some)
  distinct : Distinct d (places s lo hi)
  apartA : ∀ i, Valid s i → ¬ InView d (places s lo hi) (address a i)
  apartM : ∀ i, Valid (extent lo hi) i → ¬ InView d (places s lo hi) (address mask i)
  valueA : ∀ i, Valid s i → μ (address a i) = some (va i)
  valueM : ∀ i, Valid (extent lo hi) i → μ (address mask i) = some (vm i)
  hereD : ∀ i, Valid (places s lo hi) i → (μ (address d i)).isSome

/-- The sum over the window at `i`, in row-major order. -/
def windowSum [Zero V] [Add V] [Mul V] (r : List Nat) (va vm : List Int → V) (i : List Int) : V :=
  ((rowMajor r).map fun j => va (List.zipWith (· + ·) i j) * vm j).foldl (· + ·) 0

/-- The memory was `μ` and now is `μ'`. The difference is that `d` has the sums over the windows. -/
def Summed [Zero V] [Add V] [Mul V] (μ μ' : Mem V) (s lo hi : List Nat) (d : View) (va vm : List Int → V) : Prop :=
  SameOutside (InView d (places s lo hi)) μ μ' ∧ ∀ i, Valid (places s lo hi) i → μ' (address d i) = some (windowSum (extent lo hi) va vm i)

end
end Ra.Spec

namespace Ra.Props
open Spec

section
variable {V : Type}

theorem merge_longer (t w : List Nat) : Merge [t.map some, (t ++ w).map some] ((t ++ w).map some) := by
  refine ⟨by simp, ⟨_, List.mem_cons_of_mem _ List.mem_cons_self, rfl⟩, ?_⟩
  intro k n
  constructor
  · intro h
    exact ⟨_, List.mem_cons_of_mem _ List.mem_cons_self, h⟩
  · rintro ⟨x, hx, h⟩
    rcases List.mem_cons.mp hx with rfl | hx
    · rw [List.map_append, List.getElem?_append_left (List.getElem?_eq_some_iff.mp h).1, h]
    · rw [List.mem_singleton.mp hx] at h
      exact h

/-- What `C24` gives for these windows. -/
theorem windows_view {μ : Mem V} {s lo hi : List Nat} {a mask d : View} {va vm : List Int → V} (h : Windows μ s lo hi a mask d va vm) :
    ∃ st, a.stencil (lo.map Nat.cast) (hi.map Nat.cast) = .ok st ∧ Shaped st ((places s lo hi ++ extent lo hi).map some) ∧
      ∀ i j, Valid (places s lo hi) i → Valid (extent lo hi) j → ∀ μ', SameOutside (InView d (places s lo hi)) μ μ' → μ' (address st (i ++ j)) = some (va (List.zipWith (· + ·) i j)) := by
  obtain ⟨st, h1, h2, h3⟩ := C24_stencil a s h.shapeA lo hi h.lower h.upper h.fits
  refine ⟨st, h1, ?_, ?_⟩
  · rw [List.map_append]
    exact h2
  · intro i j hi hj μ' hμ'
    obtain ⟨e, hv⟩ := h3 i j hi hj
    rw [e, hμ' _ (h.apartA _ hv), h.valueA _ hv]

theorem windows_rank {μ : Mem V} {s lo hi : List Nat} {a mask d : View} {va vm : List Int → V} (h : Windows μ s lo hi a mask d va vm) :
    mask.dims.length = (extent lo hi).length ∧ (places s lo hi).length = (extent lo hi).length := by
  have := h.shapeM.length_eq
  have := h.lower
  have := h.upper
  simp [extent, places] at *
  omega

/-- Set the destination to zero. -/
theorem assign_zero (dyn : Bool) (z : List Int) (hz : ∀ i ∈ z, i = 0) (d : View) (t : List Nat) (hd : Shaped d (t.map some)) (hdd : Distinct d t) (μ : Mem V)
    (hm : ∀ i, Valid t i → (μ (address d i)).isSome) (x : V) :
    ∃ μ', assign dyn z d.refs (.scalar (pure (.val x))) μ = (.ok (), μ') ∧ SameOutside (InView d t) μ μ' ∧ ∀ i, Valid t i → μ' (address d i) = some x := by
  obtain ⟨μ', h1, h2, h3⟩ := C27_view dyn z hz d t hd hdd (.scalar (pure (.val x))) [] rfl (merge_nil _) μ hm (fun _ => x) (fun j hj μ' _ => reads_scalar μ' x j)
  exact ⟨μ', h1, h3, h2⟩

variable [Zero V] [Add V] [Mul V]

/-- The product with the mask at each window, and the product at the end of the sum. -/
theorem prods_view {μ : Mem V} {s lo hi : List Nat} {a mask d : View} {va vm : List Int → V} (h : Windows μ s lo hi a mask d va vm) (st : View)
    (hst : Shaped st ((places s lo hi ++ extent lo hi).map some)) :
    ∃ e : Iter (Act V) (Lv V), mapVerb mulOp [[mask.dims.length, mask.dims.length]] [st.refs, mask.refs] = some e ∧ HasShape e ((places s lo hi ++ extent lo hi).map some) ∧
      ∀ i j, Valid (places s lo hi) i → Valid (extent lo hi) j → elem e (i ++ j) = mulOp [.ref (address st (i ++ j)), .ref (address mask j)] := by
  obtain ⟨hr, ht⟩ := windows_rank h
  obtain ⟨e, h1, h2, h3⟩ := C17_conjunction (m := Act V) mulOp [[mask.dims.length, mask.dims.length]] [st.refs, mask.refs] [(places s lo hi ++ extent lo hi).map some, (extent lo hi).map some]
    ⟨_, _, rfl, refs_shape hst, _, _, rfl, refs_shape h.shapeM, rfl⟩ ((places s lo hi ++ extent lo hi).map some)
    (by
      refine ⟨.cons (by simp [hr]) (.cons (by simp [hr]) .nil), (places s lo hi).map some, (extent lo hi).map some, by simp, ?_, ?_⟩
      · have e1 : ((places s lo hi ++ extent lo hi).map some).take (((places s lo hi ++ extent lo hi).map some).length - mask.dims.length) = (places s lo hi).map some := by
          simp [hr]
        have e2 : ((extent lo hi).map some).take (((extent lo hi).map some).length - mask.dims.length) = [] := by simp [hr]
        simp only [List.zipWith_cons_cons, List.zipWith_nil_left, e1, e2]
        exact merge_nil _
      · have e1 : ((places s lo hi ++ extent lo hi).map some).drop (((places s lo hi ++ extent lo hi).map some).length - mask.dims.length) = (extent lo hi).map some := by
          simp [hr]
        have e2 : ((extent lo hi).map some).drop (((extent lo hi).map some).length - mask.dims.length) = (extent lo hi).map some := by simp [hr]
        simp only [List.zipWith_cons_cons, List.zipWith_nil_left, e1, e2]
        exact merge_same _)
  refine ⟨e, h1, h2, ?_⟩
  intro i j vi vj
  have li := length_of_valid vi
  have lj := length_of_valid vj
  rw [h3 _ (by simp [li, lj])]
  simp only [verb, List.zipWith_cons_cons, List.zipWith_nil_left, List.map_cons, List.map_nil, elem_refs, List.foldl, List.length_map, List.length_append, hr, Nat.add_sub_cancel, Nat.sub_self]
  rw [mapM_two]
  simp only [pure_bind]
  rw [← li, ← lj]
  simp

/-- C108. `windowProds` (as `f_sumprod`): the product of the stencil and the mask, added to the destination. -/
theorem C108_prods (dyn : Bool) (z : List Int) (hz : ∀ i ∈ z, i = 0) (s lo hi : List Nat) (a mask d : View) (μ : Mem V) (va vm : List Int → V) (h : Windows μ s lo hi a mask d va vm) :
    ∃ st, a.stencil (lo.map Nat.cast) (hi.map Nat.cast) = .ok st ∧ ∃ μ', windowProds dyn z st mask d μ = (.ok (), μ') ∧ Summed μ μ' s lo hi d va vm := by
  obtain ⟨st, h1, hst, hval⟩ := windows_view h
  refine ⟨st, h1, ?_⟩
  obtain ⟨μ1, a1, a2, a3⟩ := assign_zero dyn z hz d _ h.shapeD h.distinct μ h.hereD (0 : V)
  obtain ⟨e, e1, e2, e3⟩ := prods_view h st hst
  obtain ⟨μ2, u1, u2, u3⟩ := C28_prefix (· + ·) dyn z hz d.refs (places s lo hi) (extent lo hi) (address d) μ1 (places_refs h.shapeD h.distinct μ1) e _ e2 (merge_longer _ _)
    (fun _ => 0) a3 (fun j => va (List.zipWith (· + ·) (j.take (places s lo hi).length) (j.drop (places s lo hi).length)) * vm (j.drop (places s lo hi).length))
    (by
      intro j hj μ' hμ'
      obtain ⟨i, k, rfl, vi, vk⟩ := valid_split hj
      have hs : SameOutside (InView d (places s lo hi)) μ μ' := fun p hp => (hμ' p hp).trans (a2 p hp)
      have r1 := hval i k vi vk μ' hs
      have r2 : μ' (address mask k) = some (vm k) := by rw [hs _ (h.apartM _ vk), h.valueM _ vk]
      rw [e3 i k vi vk]
      rw [← length_of_valid vi, List.take_left, List.drop_left]
      simp [Reads, mulOp, Lv.get, Act.read, bind, Act.andThen, pure, r1, r2])
  refine ⟨μ2, ?_, ?_, ?_⟩
  · rw [windowProds, act_bind_ok a1, e1]
    exact u1
  · intro p hp
    rw [u2 p hp, a2 p hp]
  · intro i vi
    rw [u3 i vi, windowSum]
    congr 2
    refine List.map_congr_left fun k hk => ?_
    rw [← length_of_valid vi, List.take_left, List.drop_left]

/-- C108. `windowVerb` (as `f_sumprod2`): a verb that adds the product. -/
theorem C108_verb (dyn : Bool) (z : List Int) (hz : ∀ i ∈ z, i = 0) (s lo hi : List Nat) (a mask d : View) (μ : Mem V) (va vm : List Int → V) (h : Windows μ s lo hi a mask d va vm) :
    ∃ st, a.stencil (lo.map Nat.cast) (hi.map Nat.cast) = .ok st ∧ ∃ μ', windowVerb dyn z st mask d μ = (.ok (), μ') ∧ Summed μ μ' s lo hi d va vm := by
  obtain ⟨st, h1, μ', h2, h3⟩ := C108_prods dyn z hz s lo hi a mask d μ va vm h
  refine ⟨st, h1, μ', ?_, h3⟩
  rw [← h2]
  obtain ⟨st', h1', hst, -⟩ := windows_view h
  obtain rfl : st' = st := Except.ok.inj (h1'.symm.trans h1)
  obtain ⟨hr, ht⟩ := windows_rank h
  obtain ⟨e, e1, e2, e3⟩ := prods_view h st' hst
  obtain ⟨g, g1, g2, g3⟩ := C17_conjunction (m := Act V) addMulOp [[0, mask.dims.length, mask.dims.length]] [d.refs, st'.refs, mask.refs]
    [(places s lo hi).map some, (places s lo hi ++ extent lo hi).map some, (extent lo hi).map some]
    ⟨_, _, rfl, refs_shape h.shapeD, _, _, rfl, refs_shape hst, _, _, rfl, refs_shape h.shapeM, rfl⟩ ((places s lo hi ++ extent lo hi).map some)
    (by
      refine ⟨.cons (by simp) (.cons (by simp [hr]) (.cons (by simp [hr]) .nil)), (places s lo hi).map some, (extent lo hi).map some, by simp, ?_, ?_⟩
      · have e0 : ((places s lo hi).map some).take (((places s lo hi).map some).length - 0) = (places s lo hi).map some := by simp
        have e1 : ((places s lo hi ++ extent lo hi).map some).take (((places s lo hi ++ extent lo hi).map some).length - mask.dims.length) = (places s lo hi).map some := by
          simp [hr]
        have e2 : ((extent lo hi).map some).take (((extent lo hi).map some).length - mask.dims.length) = [] := by simp [hr]
        simp only [List.zipWith_cons_cons, List.zipWith_nil_left, e0, e1, e2]
        refine ⟨by simp, ⟨_, List.mem_cons_self, rfl⟩, by simp⟩
      · have e0 : ((places s lo hi).map some).drop (((places s lo hi).map some).length - 0) = [] := by simp
        have e1 : ((places s lo hi ++ extent lo hi).map some).drop (((places s lo hi ++ extent lo hi).map some).length - mask.dims.length) = (extent lo hi).map some := by
          simp [hr]
        have e2 : ((extent lo hi).map some).drop (((extent lo hi).map some).length - mask.dims.length) = (extent lo hi).map some := by simp [hr]
        simp only [List.zipWith_cons_cons, List.zipWith_nil_left, e0, e1, e2]
        refine ⟨by simp, ⟨_, List.mem_cons_of_mem _ List.mem_cons_self, rfl⟩, by simp⟩)
  simp only [windowVerb, windowProds, e1, g1, update]
  rw [run_forAll dyn z hz _ _ _ _ _ _ (refs_shape h.shapeD) e2 (merge_longer _ _), ply_never false _ _ g2 z hz]
  simp only [bind_assoc, pure_bind]
  refine congrFun (congrArg _ (funext fun _ => ?_)) μ
  have hb : ∀ x : Act V Unit, (do x; pure ()) = x := fun x => bind_pure_unit
  rw [hb, forAll_eq (fun j => mapOp (updOp (· + ·)) _), forAll_eq (elem g)]
  refine forAll_congr ?_
  intro j hj
  obtain ⟨i, k, rfl, vi, vk⟩ := valid_split (mem_rowMajor.mp hj)
  have li := length_of_valid vi
  have lk := length_of_valid vk
  rw [g3 _ (by simp [li, lk]), e3 i k vi vk, elem_append (refs_shape h.shapeD) vi]
  simp only [verb, List.zipWith_cons_cons, List.zipWith_nil_left, List.map_cons, List.map_nil, elem_refs, List.foldl, List.length_map, List.length_append, hr, Nat.add_sub_cancel, Nat.sub_self,
    Nat.sub_zero]
  rw [mapM_two, mapM_three]
  simp only [pure_bind]
  rw [← li, ← lk]
  simp [addMulOp, mulOp, updOp, Lv.get]

omit [Zero V] [Add V] [Mul V] in
/-- The cells of a view as views. -/
theorem cells_view (st : View) (t w : List Nat) (hst : Shaped st ((t ++ w).map some)) :
    ∃ i : Iter (Act V) (Lv V), st.cells w.length = .ok i ∧ HasShape i (t.map some) ∧
      ∀ j, j.length = t.length → ∃ c, elem i j = pure (.view c) ∧ Shaped c (w.map some) ∧ ∀ k, address c k = address st (j ++ k) := by
  have hl := hst.length_eq
  simp only [List.length_map, List.length_append] at hl
  have e : st.cell (w.length : Int) = .ok (st.dims.take t.length, st.dims.drop t.length) := by
    have e1 : rankCell (st.dims.length : Int) (w.length : Int) = w.length := by simp [rankCell]
    have e2 : ((st.dims.length : Int) - (w.length : Int)) = (t.length : Nat) := by omega
    simp only [View.cell, e1, e2]
    simp
  refine ⟨.cell (st.dims.take t.length) st.cp fun p => pure (.view ⟨st.dims.drop t.length, p⟩), ?_, ?_, ?_⟩
  · simp [View.cells, e, bind, Except.bind, pure, Except.pure]
  · show List.Forall₂ DimLen (st.dims.take t.length) (t.map some)
    have := List.forall₂_take t.length hst
    rwa [List.map_append, List.take_left' (by simp)] at this
  · intro j hj
    refine ⟨⟨st.dims.drop t.length, st.cp + dot ((st.dims.take t.length).map Dim.step) j⟩, rfl, ?_, ?_⟩
    · show List.Forall₂ DimLen (st.dims.drop t.length) (w.map some)
      have := List.forall₂_drop t.length hst
      rwa [List.map_append, List.drop_left' (by simp)] at this
    · intro k
      simp only [address]
      conv_rhs => rw [← List.take_append_drop t.length st.dims, List.map_append]
      rw [dot_append _ _ _ _ (by simp; omega)]
      omega

variable [Inhabited V]

/-- C108. `windowSums` (as `f_stencil_arrayop`): a sum in an operation on windows. -/
theorem C108_sums (dyn : Bool) (z : List Int) (hz : ∀ i ∈ z, i = 0) (dyn' : Bool) (z' : List Int) (hz' : ∀ i ∈ z', i = 0) (s lo hi : List Nat) (a mask d : View) (μ : Mem V) (va vm : List Int → V)
    (h : Windows μ s lo hi a mask d va vm) :
    ∃ st, a.stencil (lo.map Nat.cast) (hi.map Nat.cast) = .ok st ∧ ∃ μ', windowSums dyn z dyn' z' st mask d μ = (.ok (), μ') ∧ Summed μ μ' s lo hi d va vm := by
  obtain ⟨st, h1, hst, hval⟩ := windows_view h
  refine ⟨st, h1, ?_⟩
  obtain ⟨hr, ht⟩ := windows_rank h
  obtain ⟨x, x1, x2, x3⟩ := cells_view (V := V) st _ _ hst
  obtain ⟨μ', a1, a2, a3⟩ := C27_view dyn z hz d (places s lo hi) h.shapeD h.distinct (.node (mapOp (windowOp dyn' z' mask)) [x]) _ ⟨_, ⟨_, _, rfl, x2, rfl⟩, merge_one _⟩ (merge_same _) μ h.hereD
    (windowSum (extent lo hi) va vm)
    (by
      intro i vi μ' hμ'
      obtain ⟨c, c1, c2, c3⟩ := x3 i (length_of_valid vi)
      have hs : SameOutside (InView d (places s lo hi)) μ μ' := fun p hp => hμ' p fun q => hp q.1
      have run : sumOf dyn' z' (.node (mapOp timesVal) [c.reads, mask.reads]) μ' = (.ok (windowSum (extent lo hi) va vm i), μ') := by
        rw [windowSum, List.foldl_map]
        refine forEachRef_mem μ' dyn' z' hz' _ 0 [.node (mapOp timesVal) [c.reads, mask.reads]] (extent lo hi) [(extent lo hi).map some] ⟨_, _, rfl, ⟨_, ⟨_, _, rfl, c2, _, _, rfl, h.shapeM, rfl⟩, merge_same _⟩, rfl⟩ (merge_one _)
          (fun j => [va (List.zipWith (· + ·) i j) * vm j]) ?_ _ (fun _ _ _ => rfl)
        intro j vj g
        have r1 := hval i j vi vj μ' hs
        have r2 : μ' (address mask j) = some (vm j) := by rw [hs _ (h.apartM _ vj), h.valueM _ vj]
        have e1 : ∀ (v : View) (w : V), μ' (address v j) = some w → (elem (v.reads : Iter (StateT V (Act V)) V) j).run g μ' = (.ok (w, g), μ') := by
          intro v w h
          show (StateT.lift (Act.read (address v j)) : StateT V (Act V) V).run g μ' = _
          rw [StateT.run_lift, act_bind_ok (a := w) (μ' := μ') (by simp [Act.read, h])]
          rfl
        simp only [elems, elem, mapM_two, List.mapM_cons, List.mapM_nil, id]
        rw [StateT.run_bind, act_bind_ok (a := (va (List.zipWith (· + ·) i j) * vm j, g)) (μ' := μ')]
        · rfl
        · rw [StateT.run_bind, act_bind_ok (e1 c _ (by rw [c3]; exact r1)), StateT.run_bind, act_bind_ok (e1 mask _ r2)]
          rfl
      show Reads μ' (mapOp (windowOp dyn' z' mask) [elem x i]) _
      rw [c1]
      simp only [mapOp, List.mapM_cons, List.mapM_nil, id, pure_bind, windowOp, Reads]
      rw [bind_assoc, act_bind_ok run]
      rfl)
  refine ⟨μ', ?_, a3, a2⟩
  rw [windowSums, hr, x1]
  exact a1

end

/-- Four elements at 0, a mask of two at 4, and place for three sums at 6. -/
def exWindows : Mem Int := fun p => if 0 ≤ p ∧ p < 9 then some ([1, 2, 4, 8, 10, 1, 0, 0, 0].getD p.toNat 0) else none

theorem exWindows_ok : Windows exWindows [4] [1] [0] ⟨[⟨4, 1⟩], 0⟩ ⟨[⟨2, 1⟩], 4⟩ ⟨[⟨3, 1⟩], 6⟩ (fun i => [1, 2, 4, 8].getD (i.headD 0).toNat 0) (fun i => [10, 1].getD (i.headD 0).toNat 0) where
  lower := rfl
  upper := rfl
  fits := by
    intro k hk
    obtain rfl : k = 0 := by simpa using hk
    simp
  shapeA := .cons rfl .nil
  shapeM := .cons rfl .nil
  shapeD := .cons rfl .nil
  distinct := by
    intro i j hi hj e
    obtain ⟨a, rfl, _, _⟩ := valid_one.mp hi
    obtain ⟨b, rfl, _, _⟩ := valid_one.mp hj
    simp [address, dot] at e
    simp [e]
  apartA := by
    rintro i hi ⟨j, hj, e⟩
    obtain ⟨a, rfl, _, _⟩ := valid_one.mp hi
    obtain ⟨b, rfl, _, _⟩ := valid_one.mp hj
    simp [address, dot] at e
    omega
  apartM := by
    rintro i hi ⟨j, hj, e⟩
    obtain ⟨a, rfl, _, h2⟩ := valid_one.mp hi
    obtain ⟨b, rfl, _, _⟩ := valid_one.mp hj
    simp [address, dot] at e h2
    omega
  valueA := by
    have key : ∀ i ∈ rowMajor [4], exWindows (address ⟨[⟨4, 1⟩], 0⟩ i) = some ([1, 2, 4, 8].getD (i.headD 0).toNat 0) := by decide +kernel
    exact fun i hi => key i (mem_rowMajor.mpr hi)
  valueM := by
    have key : ∀ i ∈ rowMajor (extent [1] [0]), exWindows (address ⟨[⟨2, 1⟩], 4⟩ i) = some ([10, 1].getD (i.headD 0).toNat 0) := by decide +kernel
    exact fun i hi => key i (mem_rowMajor.mpr hi)
  hereD := by
    have key : ∀ i ∈ rowMajor (places [4] [1] [0]), (exWindows (address ⟨[⟨3, 1⟩], 6⟩ i)).isSome := by decide +kernel
    exact fun i hi => key i (mem_rowMajor.mpr hi)

/-- The sums are 12, 24 and 48. -/
example : ∃ st, View.stencil ⟨[⟨4, 1⟩], 0⟩ [1] [0] = .ok st ∧ ∃ μ', windowSums true [] false [0] st ⟨[⟨2, 1⟩], 4⟩ ⟨[⟨3, 1⟩], 6⟩ exWindows = (.ok (), μ') ∧ μ' 6 = some 12 ∧ μ' 7 = some 24 ∧ μ' 8 = some 48 := by
  obtain ⟨st, h1, μ', h2, _, h3⟩ := C108_sums true [] (by simp) false [0] (by simp) _ _ _ _ _ _ _ _ _ exWindows_ok
  exact ⟨st, h1, μ', h2, h3 [0] (by simp [places, Valid]), h3 [1] (by simp [places, Valid]), h3 [2] (by simp [places, Valid])⟩

example : ∃ st, View.stencil ⟨[⟨4, 1⟩], 0⟩ [1] [0] = .ok st ∧ ∃ μ', windowProds true [] st ⟨[⟨2, 1⟩], 4⟩ ⟨[⟨3, 1⟩], 6⟩ exWindows = (.ok (), μ') ∧ μ' 8 = some 48 := by
  obtain ⟨st, h1, μ', h2, _, h3⟩ := C108_prods true [] (by simp) _ _ _ _ _ _ _ _ _ exWindows_ok
  exact ⟨st, h1, μ', h2, h3 [2] (by simp [places, Valid])⟩

example : ∃ st, View.stencil ⟨[⟨4, 1⟩], 0⟩ [1] [0] = .ok st ∧ ∃ μ', windowVerb true [] st ⟨[⟨2, 1⟩], 4⟩ ⟨[⟨3, 1⟩], 6⟩ exWindows = (.ok (), μ') ∧ μ' 8 = some 48 := by
  obtain ⟨st, h1, μ', h2, _, h3⟩ := C108_verb true [] (by simp) _ _ _ _ _ _ _ _ _ exWindows_ok
  exact ⟨st, h1, μ', h2, h3 [2] (by simp [places, Valid])⟩

end Ra.Props
