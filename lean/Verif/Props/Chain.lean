import Verif.Model.Chain
import Verif.Spec.Memory
import Verif.Props.Slice
import Verif.Props.ViewOps
import Verif.Props.Transpose
import Verif.Props.Reshape
import Verif.Props.Assign
/-!
# C72: views of views
-/

namespace Ra.Spec

/-- The cases where the operation is right. What's left out: more subscripts than axes, or iotas of rank 2 or more (B19, B2); negative axes (which fail); diagonals of
bounded and unbounded axes (B6); and for `reshape`, negative lengths, unbounded axes, a last axis of length 1 or step 0 (B3, B5), or an empty source for a result that isn't
empty (B29); and for `ravel_free`, step 0 (B5). -/
def Covered : ViewOp → View → Prop
  | .slice is, v => ∃ js : List Subscript, is = js.map Props.write ∧ axes js ≤ v.dims.length
  | .reverse _, _ => True
  | .transpose ax, v => (∀ a ∈ ax, 0 ≤ a) ∧ ∀ p ∈ ax.zip v.dims, ∀ q ∈ ax.zip v.dims, p.1 = q.1 → (p.2.len = UNB ↔ q.2.len = UNB)
  | .stencil _ _, _ => True
  | .reshape t, v => (∀ n ∈ t, 0 ≤ n) ∧ (∀ d ∈ v.dims, d.len ≠ UNB) ∧ (∀ d, v.dims.getLast? = some d → d.len ≠ 1 ∧ d.step ≠ 0) ∧ (0 ∈ t ∨ ∀ d ∈ v.dims, d.len ≠ 0)
  | .ravel, v => (∀ d ∈ v.dims, d.len ≠ UNB) ∧ InnerMoves v.dims

/-- Each operation is in one of those cases for the view that it gets. -/
def AllCovered : List ViewOp → View → Prop
  | [], _ => True
  | op :: ops, v => Covered op v ∧ ∀ w, op.run v = .ok w → AllCovered ops w

/-- Each element of `w` is an element of `v`. -/
def Inside (v : View) (s : List Length) (w : View) (t : List Length) : Prop := ∀ j, InRange t j → ∃ i, InRange s i ∧ address w j = address v i

/-- The operation doesn't repeat elements: no new axes, ranges that move, permutations of the axes; and not a stencil. -/
def NoRepeat : ViewOp → View → Prop
  | .slice is, _ => ∀ i ∈ is, (∀ k, i ≠ .insert k) ∧ ∀ n o s, i = .iota [(.const n, .const s)] (.const o) → n ≤ 1 ∨ s ≠ 0
  | .reverse _, _ => True
  | .transpose ax, v => ax.Perm ((List.range v.dims.length).map Nat.cast)
  | .stencil _ _, _ => False
  | .reshape t, v => t.prod ≤ (v.dims.map Dim.len).prod
  | .ravel, _ => True

/-- None of the operations does. -/
def AllNoRepeat : List ViewOp → View → Prop
  | [], _ => True
  | op :: ops, v => NoRepeat op v ∧ ∀ w, op.run v = .ok w → AllNoRepeat ops w

end Ra.Spec

namespace Ra.Props
open Spec

theorem address_cut (v : View) (j : List Int) : address v j = address v (j.take v.dims.length) := by
  simp only [address, dot]
  congr 2
  have : (v.dims.map Dim.step).length = v.dims.length := by simp
  generalize v.dims.map Dim.step = st at *
  rw [← this]
  clear this
  induction st generalizing j with
  | nil => simp
  | cons x st ih => cases j <;> simp [← ih]

theorem inRange_valid {s : List Nat} {j : List Int} (h : InRange (s.map some) j) : Valid s (j.take s.length) := by
  refine valid_of_inRange ?_ ⟨?_, ?_⟩
  · have := h.1; simp at this ⊢; omega
  · have := h.1; simp at this ⊢; omega
  · intro k n hk
    have hk' : k < s.length := by
      rcases List.getElem?_eq_some_iff.mp hk with ⟨h, _⟩; simpa using h
    have := h.2 k n hk
    simpa [List.getD_eq_getElem?_getD, List.getElem?_take, hk'] using this

theorem shaped_finite {v : View} {s : List Length} (hv : Shaped v s) (h : ∀ d ∈ v.dims, d.len ≠ UNB) : ∃ s' : List Nat, s = s'.map some := by
  unfold Shaped at hv
  revert h
  generalize v.dims = ds at hv
  induction hv with
  | nil => exact fun _ => ⟨[], rfl⟩
  | @cons d o ds s hd _ ih =>
    intro h
    obtain ⟨s', rfl⟩ := ih fun d hd => h d (by simp [hd])
    cases o with
    | none => exact absurd hd (h d (by simp))
    | some n => exact ⟨n :: s', rfl⟩

theorem inRange_of_valid {s : List Nat} {j : List Int} (h : Valid s j) : InRange (s.map some) j := by
  refine ⟨by simp [h.length], ?_⟩
  induction s generalizing j with
  | nil => simp
  | cons n s ih =>
    match j, h with
    | i :: j, ⟨h1, h2, h3⟩ =>
      intro k m hk
      cases k with
      | zero => simp at hk; subst hk; exact ⟨h1, h2⟩
      | succ k => exact ih h3 k m (by simpa using hk)

/-- It's enough to look at indices that aren't too long. -/
theorem inside_of_valid {v w : View} {s t : List Nat} (hw : Shaped w (t.map some)) (h : ∀ j, Valid t j → ∃ i, Valid s i ∧ address w j = address v i) :
    Inside v (s.map some) w (t.map some) := by
  intro j hj
  obtain ⟨i, h1, h2⟩ := h _ (inRange_valid hj)
  refine ⟨i, inRange_of_valid h1, ?_⟩
  have hl : w.dims.length = t.length := by simpa using hw.length_eq
  rw [address_cut, hl, h2]

theorem inside_trans {u v w : View} {r s t : List Length} (h1 : Inside u r v s) (h2 : Inside v s w t) : Inside u r w t := by
  intro j hj
  obtain ⟨i, hi, e⟩ := h2 j hj
  obtain ⟨k, hk, e'⟩ := h1 i hi
  exact ⟨k, hk, by rw [e, e']⟩

theorem step_slice (v w : View) (s : List Length) (hv : Shaped v s) (js : List Subscript) (hax : axes js ≤ v.dims.length) (h : v.from (js.map write) = .ok w) :
    ∃ t, Shaped w t ∧ Inside v s w t := by
  have hl := hv.length_eq
  by_cases ha : Accepts v.dims js
  · obtain ⟨b, hb, h1, h2⟩ := C13_slice v s hv js (by omega) ha
    rw [h] at hb
    cases hb
    exact ⟨_, h1, fun j hj => ⟨_, (h2 j hj).2, (h2 j hj).1⟩⟩
  · rw [C11_reject v s hv js (by omega) ha] at h
    cases h

theorem step_reverse (v w : View) (s : List Length) (hv : Shaped v s) (k : Int) (h : v.reverse k = .ok w) : ∃ t, Shaped w t ∧ Inside v s w t := by
  have hl := hv.length_eq
  by_cases hk : k < 0 ∨ v.dims.length ≤ k
  · rw [C19_axis_negation v k hk] at h; cases h
  · obtain ⟨k, rfl⟩ : ∃ n : Nat, k = n := ⟨k.toNat, by omega⟩
    have hks : k < s.length := by omega
    cases hs : s[k] with
    | none => rw [C19_unbounded v s hv k (by simp [hks, hs])] at h; cases h
    | some n =>
      obtain ⟨r, h1, h2, h3, _⟩ := C19_reverse v s hv k n (by simp [hks, hs])
      rw [h] at h1
      cases h1
      refine ⟨s, h2, fun j hj => ⟨_, ⟨by simpa using hj.1, ?_⟩, h3 j hj⟩⟩
      intro i m hm
      by_cases hik : i = k
      · subst hik
        have : m = n := by simpa [hks, hs] using hm.symm
        subst this
        have h4 := hj.2 i m hm
        have h5 : i < j.length := by have := hj.1; omega
        simp [List.getD_eq_getElem?_getD, h5] at h4 ⊢
        omega
      · have := hj.2 i m hm
        simpa [List.getD_eq_getElem?_getD, List.getElem?_set_ne (Ne.symm hik)] using this

theorem toNats (l : List Int) (h : ∀ x ∈ l, 0 ≤ x) : ∃ a : List Nat, l = a.map Nat.cast := by
  induction l with
  | nil => exact ⟨[], rfl⟩
  | cons x l ih =>
    obtain ⟨a, rfl⟩ := ih fun y hy => h y (by simp [hy])
    have := h x (by simp)
    exact ⟨x.toNat :: a, by simp; omega⟩

theorem step_transpose (v w : View) (s : List Length) (hv : Shaped v s) (ax : List Int) (hc : Covered (.transpose ax) v) (h : v.transpose ax = .ok w) :
    ∃ t, Shaped w t ∧ Inside v s w t := by
  have hl := hv.length_eq
  obtain ⟨h0, hm⟩ := hc
  obtain ⟨ax, rfl⟩ : ∃ a : List Nat, ax = a.map Nat.cast := by
    exact toNats ax h0
  by_cases hax : ax.length = v.dims.length
  · have hn : NoMix ax s := by
      intro a
      by_cases hu : ∃ l ∈ sources ax s a, l = none
      · left
        obtain ⟨l, hl1, rfl⟩ := hu
        intro l' hl2
        simp only [sources, List.mem_map, List.mem_filter, beq_iff_eq] at hl1 hl2
        obtain ⟨⟨p, q⟩, ⟨hp, rfl⟩, hq⟩ := hl1
        obtain ⟨⟨p', q'⟩, ⟨hp', hpp⟩, rfl⟩ := hl2
        dsimp only at hq hpp ⊢
        subst hq hpp
        obtain ⟨i, hi, e⟩ := List.mem_iff_getElem.mp hp
        obtain ⟨i', hi', e'⟩ := List.mem_iff_getElem.mp hp'
        simp only [List.length_zip] at hi hi'
        simp only [List.getElem_zip, Prod.mk.injEq] at e e'
        have k1 : (((ax.map Nat.cast).zip v.dims) : List (Int × Dim))[i]'(by simp; omega) ∈ (ax.map Nat.cast).zip v.dims := List.getElem_mem _
        have k2 : (((ax.map Nat.cast).zip v.dims) : List (Int × Dim))[i']'(by simp; omega) ∈ (ax.map Nat.cast).zip v.dims := List.getElem_mem _
        have hm' := hm _ k1 _ k2 (by simp [e.1, e'.1])
        have d1 : DimLen v.dims[i] s[i] := hv.get (by omega) (by omega)
        have d2 : DimLen v.dims[i'] s[i'] := hv.get (by omega) (by omega)
        simp only [List.getElem_zip] at hm'
        rw [e.2] at d1
        have : v.dims[i'].len = UNB := hm'.mp d1
        rw [e'.2] at d2
        cases q' with
        | none => rfl
        | some n =>
          have : v.dims[i'].len = (n : Int) := d2
          have := UNB_val
          omega
      · right
        intro l hl hnone
        exact hu ⟨l, hl, hnone⟩
    obtain ⟨r, t, h1, h2, _, h4⟩ := C20_shape_partial v s hv ax (by omega) hn
    rw [h] at h1
    cases h1
    exact ⟨t, h2, fun j hj => ⟨_, (h4 j hj).2, (h4 j hj).1⟩⟩
  · rw [C20_reject v ax hax] at h
    cases h

theorem step_stencil (v w : View) (s : List Length) (hv : Shaped v s) (lo hi : List Int) (h : v.stencil lo hi = .ok w) : ∃ t, Shaped w t ∧ Inside v s w t := by
  have hl := hv.length_eq
  have hr := mt (C24_reject v lo hi) (by rw [h]; simp)
  push Not at hr
  obtain ⟨h1, h2, h3, h4, h5⟩ := hr
  obtain ⟨lo, rfl⟩ := toNats lo h1
  obtain ⟨hi, rfl⟩ := toNats hi h2
  simp only [List.length_map] at h3 h4
  obtain ⟨s, rfl⟩ := shaped_finite hv (by
    intro d hd
    obtain ⟨k, hk, rfl⟩ := List.mem_iff_getElem.mp hd
    have := h5 k (by simp; omega) (by simp; omega) hk
    simp at this
    have := UNB_val
    omega)
  simp only [List.length_map] at hl
  obtain ⟨r, e, i1, i2⟩ := C24_stencil v s hv lo hi (by omega) (by omega) (by
    intro k hk
    have := h5 k (by simp; omega) (by simp; omega) (by omega)
    simp at this
    have hd : DimLen v.dims[k] ((s.map some)[k]'(by simpa using hk)) := hv.get (by omega) (by simpa using hk)
    simp only [List.getElem_map] at hd
    have hd : v.dims[k].len = (s[k] : Int) := hd
    omega)
  rw [h] at e
  cases e
  rw [← List.map_append] at i1
  refine ⟨_, i1, inside_of_valid i1 fun j hj => ?_⟩
  obtain ⟨i, j, rfl, hi, hj⟩ := valid_split hj
  exact ⟨_, (i2 i j hi hj).2, (i2 i j hi hj).1⟩

theorem position_surj (s : List Nat) (k : Int) (h0 : 0 ≤ k) (h : k < size s) : ∃ j, Valid s j ∧ position s j = k := by
  have := map_position s
  have hk : k ∈ (rowMajor s).map (position s) := by
    rw [this]
    simp only [List.mem_map, List.mem_range]
    exact ⟨k.toNat, by omega, by omega⟩
  obtain ⟨j, hj, e⟩ := List.mem_map.mp hk
  exact ⟨j, mem_rowMajor.mp hj, e⟩

theorem step_ravel (v w : View) (s : List Length) (hv : Shaped v s) (hc : Covered .ravel v) (h : v.ravelFree = .ok w) : ∃ t, Shaped w t ∧ Inside v s w t := by
  obtain ⟨s, rfl⟩ := shaped_finite hv hc.1
  rcases C22_partial v s hv hc.2 with ⟨h1, _⟩ | ⟨r, h1, h2, h3⟩
  · rw [h] at h1; cases h1
  · rw [h] at h1
    cases h1
    refine ⟨[some (size s)], h2, inside_of_valid (t := [size s]) h2 fun j hj => ?_⟩
    match j, hj with
    | [k], ⟨h0, hk, _⟩ =>
      obtain ⟨i, hi, rfl⟩ := position_surj s k h0 hk
      exact ⟨i, hi, h3 i hi⟩

theorem size_zero {s : List Nat} : size s = 0 ↔ 0 ∈ s := by
  induction s with
  | nil => simp [size]
  | cons n s ih => simp [size, ih, eq_comm]

theorem innerMoves_last {dims : List Dim} (hlast : ∀ d, dims.getLast? = some d → d.len ≠ 1 ∧ d.step ≠ 0) : InnerMoves dims := by
  intro p d q e hq hd
  rcases List.eq_nil_or_concat q with rfl | ⟨q, x, rfl⟩
  · exact (hlast d (by rw [e]; simp)).2
  · exact absurd (hq x (by simp)) (hlast x (by rw [e, List.concat_eq_append, ← List.cons_append, ← List.append_assoc, List.getLast?_concat])).1

/-- The last axis gives the step between elements that are next to each other. -/
theorem evenly_last {v : View} {s : List Nat} (hlen : v.dims.map Dim.len = s.map Nat.cast) (hlast : ∀ d, v.dims.getLast? = some d → d.len ≠ 1 ∧ d.step ≠ 0) {c : Int}
    (hcE : Evenly (v.dims.map Dim.step) s c) : ∀ d, v.dims.getLast? = some d → Evenly (v.dims.map Dim.step) s d.step := by
  intro d hd
  by_cases hz : size s = 0
  · intro j hj
    have := mem_rowMajor.mpr hj
    have hl := length_rowMajor s
    rw [hz] at hl
    rw [List.length_eq_zero_iff.mp hl] at this
    cases this
  · have : d.step = c := by
      obtain ⟨ds, hds⟩ := List.getLast?_eq_some_iff.mp hd
      rw [hds] at hlen
      rcases List.eq_nil_or_concat s with rfl | ⟨s, n, rfl⟩
      · simp at hlen
      · simp only [List.concat_eq_append, List.map_append, List.map_cons, List.map_nil] at hlen
        obtain ⟨hl1, hl2⟩ := List.append_inj' hlen rfl
        simp only [List.cons.injEq, and_true] at hl2
        have hd1 := (hlast d hd).1
        have hn : 2 ≤ n := by
          have : n ≠ 0 := by
            rintro rfl
            apply hz
            rw [size_zero]
            simp
          omega
        have hs : size s ≠ 0 := by
          intro h0
          exact hz (size_zero.mpr (by simp [size_zero.mp h0]))
        have := hcE (List.replicate s.length 0 ++ [1]) (by
          rw [List.concat_eq_append]
          exact valid_append (valid_zeros hs) ⟨by omega, by omega, trivial⟩)
        rw [hds, List.map_append, dot_append _ _ _ _ (by have := congrArg List.length hl1; simp at this; simp [this])] at this
        rw [List.concat_eq_append, position_append (by simp)] at this
        rw [dot_zeros_right, position_zeros] at this
        simp [dot, position, size] at this
        exact this
    rw [this]
    exact hcE

theorem step_reshape (v w : View) (s : List Length) (hv : Shaped v s) (t : List Int) (hc : Covered (.reshape t) v) (h : v.reshape t = .ok w) :
    ∃ s' t' : List Nat, s = s'.map some ∧ t = t'.map Nat.cast ∧ Shaped w (t'.map some) ∧ Inside v s w (t'.map some) ∧ (Distinct v s' → size t' ≤ size s' → Distinct w t') := by
  obtain ⟨h0, hu, hlast, hemp⟩ := hc
  obtain ⟨t, rfl⟩ := toNats t h0
  obtain ⟨s, rfl⟩ := shaped_finite hv hu
  have hlen := shaped_nat.mp hv
  refine ⟨s, t, rfl, rfl, ?_⟩
  have hemp : size t = 0 ∨ size s ≠ 0 := by
    rcases hemp with h | h
    · left
      rw [size_zero]
      simpa using h
    · right
      rw [Ne, size_zero]
      intro h'
      have : (0 : Int) ∈ v.dims.map Dim.len := by rw [hlen]; simpa using h'
      obtain ⟨d, hd, e⟩ := List.mem_map.mp this
      exact h d hd e
  by_cases h1 : t <:+ s
  · obtain ⟨p, rfl⟩ := h1
    obtain ⟨r, e, i1, i2⟩ := C21_suffix v p t hv
    rw [h] at e
    cases e
    have hz : ∀ j, Valid t j → Valid (p ++ t) (List.replicate p.length 0 ++ j) := by
      intro j hj
      refine valid_append (valid_zeros ?_) hj

      rcases hemp with h | h
      · have := mem_rowMajor.mpr hj
        have hl := length_rowMajor t
        rw [h] at hl
        rw [List.length_eq_zero_iff.mp hl] at this
        cases this
      · intro hp
        rw [size_append', hp] at h
        simp at h
    refine ⟨i1, inside_of_valid i1 fun j hj => ⟨_, hz j hj, i2 j⟩, fun hd _ i j hi hj e => ?_⟩
    rw [i2, i2] at e
    exact List.append_cancel_left (hd _ _ (hz i hi) (hz j hj) e)
  by_cases h2 : s <:+ t
  · obtain ⟨p, rfl⟩ := h2
    obtain ⟨r, e, i1, i2⟩ := C21_tile v s p hv
    rw [h] at e
    cases e
    refine ⟨i1, inside_of_valid i1 fun j hj => ?_, fun hd hsz i j hi hj e => ?_⟩
    · obtain ⟨i, j, rfl, hi, hj⟩ := valid_split hj
      exact ⟨j, hj, i2 i j hi.length⟩
    · obtain ⟨i, i', rfl, hi, hi'⟩ := valid_split hi
      obtain ⟨j, j', rfl, hj, hj'⟩ := valid_split hj
      rw [i2 i i' hi.length, i2 j j' hj.length] at e
      rw [hd _ _ hi' hj' e]
      congr 1
      have b1 := position_bounds hi
      have b2 := position_bounds hj
      have b3 := position_bounds hi'
      rw [size_append'] at hsz
      have : size p ≤ 1 := by
        by_contra hp
        have : 2 * size s ≤ size p * size s := Nat.mul_le_mul_right _ (by omega)
        omega
      exact position_inj hi hj (by omega)
  · have hr := mt (C21_reject v s t hv h1 h2) (by rw [h]; simp)
    push Not at hr
    obtain ⟨hsz, hr⟩ := hr
    obtain ⟨c, hcE⟩ := hr (innerMoves_last hlast)
    obtain ⟨r, e, i1, i2⟩ := C21_partial v s t hv (evenly_last hlen hlast hcE) (by omega)
    rw [h] at e
    cases e
    refine ⟨i1, inside_of_valid i1 fun j hj => ?_, fun hd _ i j hi hj e => ?_⟩
    · have hb := position_bounds hj
      obtain ⟨i, hi, e⟩ := position_surj s (position t j) (by omega) (by omega)
      exact ⟨i, hi, i2 i j hi hj e⟩
    · have hb := position_bounds hi
      have hb' := position_bounds hj
      obtain ⟨i', vi, ei⟩ := position_surj s (position t i) (by omega) (by omega)
      obtain ⟨j', vj, ej⟩ := position_surj s (position t j) (by omega) (by omega)
      rw [i2 i' i vi hi ei, i2 j' j vj hj ej] at e
      have := hd _ _ vi vj e
      subst this
      exact position_inj hi hj (by omega)

/-- C72. However views of views are made, if the checks pass, all the elements are elements of the first view.
What's missing are the cases that aren't in `Covered`, where it's false (`C72_negation`). -/
theorem C72_partial (v : View) (s : List Length) (hv : Shaped v s) (ops : List ViewOp) (w : View) (h : runOps ops v = .ok w) (hc : AllCovered ops v) :
    ∃ t, Shaped w t ∧ Inside v s w t := by
  induction ops generalizing v s with
  | nil =>
    cases h
    exact ⟨s, hv, fun j hj => ⟨j, hj, rfl⟩⟩
  | cons op ops ih =>
    simp only [runOps, List.foldlM_cons, bind, Except.bind] at h
    split at h
    · cases h
    · next u hu =>
      have : ∃ t, Shaped u t ∧ Inside v s u t := by
        cases op with
        | slice is =>
          obtain ⟨js, rfl, hax⟩ := hc.1
          exact step_slice v u s hv js hax hu
        | reverse k => exact step_reverse v u s hv k hu
        | transpose ax => exact step_transpose v u s hv ax hc.1 hu
        | stencil lo hi => exact step_stencil v u s hv lo hi hu
        | reshape t =>
          obtain ⟨_, t', _, _, h1, h2, _⟩ := step_reshape v u s hv t hc.1 hu
          exact ⟨_, h1, h2⟩
        | ravel => exact step_ravel v u s hv hc.1 hu
      obtain ⟨t, ht, hi⟩ := this
      obtain ⟨r, hr, hi'⟩ := ih u t ht h (hc.2 u hu)
      exact ⟨r, hr, inside_trans hi hi'⟩

/-- C72 for arrays: the views of views of an array with `size s` elements at `cp` only have elements of the array. -/
theorem C72_array_partial (s : List Nat) (cp : Int) (v : View) (hv : View.ofShape (s.map Nat.cast) cp = .ok v) (ops : List ViewOp) (w : View) (h : runOps ops v = .ok w)
    (hc : AllCovered ops v) : ∃ t, Shaped w t ∧ ∀ j, InRange t j → cp ≤ address w j ∧ address w j < cp + size s := by
  obtain ⟨v', h1, h2, h3⟩ := C58_dims s cp
  rw [hv] at h1
  cases h1
  obtain ⟨t, ht, hi⟩ := C72_partial v _ h2 ops w h hc
  refine ⟨t, ht, fun j hj => ?_⟩
  obtain ⟨i, hi1, hi2⟩ := hi j hj
  have hl : v.dims.length = s.length := by simpa using h2.length_eq
  have hv := inRange_valid hi1
  have := position_bounds hv
  rw [hi2, address_cut, hl, h3 _ hv]
  omega

/-- C72 is false of the code. For `a` of shape (3, 9), `reshape(transpose(a(iota(1), iota(4)), {1, 0}), {2, 2})` passes all the checks and its last element is at 27, past the end of the
array (B3). -/
theorem C72_negation : ∃ v w, View.ofShape [3, 9] 0 = .ok v ∧
    runOps [.slice [.iota [(.const 1, .const 1)] (.const 0), .iota [(.const 4, .const 1)] (.const 0)], .transpose [1, 0], .reshape [2, 2]] v = .ok w ∧
    Shaped w [some 2, some 2] ∧ address w [1, 1] = 27 := by
  refine ⟨⟨[⟨3, 9⟩, ⟨9, 1⟩], 0⟩, ⟨[⟨2, 18⟩, ⟨2, 9⟩], 0⟩, rfl, ?_, .cons rfl (.cons rfl .nil), rfl⟩
  decide

/-- B29. C72 is false for `reshape` of an empty array: for `a` of shape (0, 3), `reshape(a, {3})` has 3 elements. -/
theorem C72_empty_negation : ∃ v w, View.ofShape [0, 3] 0 = .ok v ∧ v.reshape [3] = .ok w ∧ Shaped w [some 3] := by
  exact ⟨⟨[⟨0, 3⟩, ⟨3, 1⟩], 0⟩, ⟨[⟨3, 1⟩], 0⟩, rfl, rfl, .cons rfl .nil⟩

/-- `reverse(transpose(a(all, iota(2, 1)), {1, 0}), 0)` for `a` of shape (3, 4). -/
example : ∃ w, runOps [.slice [.dots (some 1), .iota [(.const 2, .const 1)] (.const 1)], .transpose [1, 0], .reverse 0] ⟨[⟨3, 4⟩, ⟨4, 1⟩], 0⟩ = .ok w ∧
    AllCovered [.slice [.dots (some 1), .iota [(.const 2, .const 1)] (.const 1)], .transpose [1, 0], .reverse 0] ⟨[⟨3, 4⟩, ⟨4, 1⟩], 0⟩ := by
  refine ⟨⟨[⟨2, -1⟩, ⟨3, 4⟩], 2⟩, by decide, ⟨[.keep 1, .range 2 1 1], rfl, by decide⟩, fun w hw => ?_⟩
  obtain rfl : w = ⟨[⟨3, 4⟩, ⟨2, 1⟩], 1⟩ := by
    have : ViewOp.run (.slice [.dots (some 1), .iota [(.const 2, .const 1)] (.const 1)]) ⟨[⟨3, 4⟩, ⟨4, 1⟩], 0⟩ = .ok ⟨[⟨3, 4⟩, ⟨2, 1⟩], 1⟩ := by decide
    rw [this] at hw
    cases hw
    rfl
  exact ⟨⟨by decide, by decide⟩, fun w hw => ⟨trivial, fun _ _ => trivial⟩⟩

theorem sliceIndex_length (is : List Subscript) (s : List Length) (j : List Int) (hax : axes is ≤ s.length) (hj : j.length = (sliceShape s is).length) :
    (sliceIndex is j).length = s.length := by
  induction is generalizing s j with
  | nil => simpa [sliceIndex, sliceShape] using hj
  | cons i is ih =>
    cases i with
    | «at» x =>
      simp only [axes] at hax
      have := ih (s.drop 1) j (by simp; omega) (by simpa [sliceShape] using hj)
      simp [sliceIndex, this]; omega
    | range n o st =>
      simp only [axes] at hax
      have := ih (s.drop 1) (j.drop 1) (by simp; omega) (by simp [sliceShape] at hj ⊢; omega)
      simp only [sliceIndex, List.length_cons, this, List.length_drop]; omega
    | keep k =>
      simp only [axes] at hax
      simp only [sliceShape, List.length_append, List.length_take] at hj
      have := ih (s.drop k) (j.drop k) (by simp; omega) (by simp; omega)
      simp [sliceIndex, this]; omega
    | new k =>
      simp only [axes] at hax
      simp only [sliceShape, List.length_append, List.length_replicate] at hj
      have := ih s (j.drop k) (by omega) (by simp; omega)
      simp [sliceIndex, this]

theorem sliceShape_finite (is : List Subscript) (s : List Nat) (hn : ∀ k, .new k ∉ is) : ∃ t : List Nat, sliceShape (s.map some) is = t.map some := by
  induction is generalizing s with
  | nil => exact ⟨s, rfl⟩
  | cons i is ih =>
    have hn' : ∀ k, .new k ∉ is := fun k hk => hn k (by simp [hk])
    cases i with
    | «at» x =>
      obtain ⟨t, ht⟩ := ih (s.drop 1) hn'
      exact ⟨t, by rw [sliceShape, ← List.map_drop, ht]⟩
    | range n o st =>
      obtain ⟨t, ht⟩ := ih (s.drop 1) hn'
      exact ⟨n :: t, by rw [sliceShape, ← List.map_drop, ht]; rfl⟩
    | keep k =>
      obtain ⟨t, ht⟩ := ih (s.drop k) hn'
      exact ⟨s.take k ++ t, by rw [sliceShape, ← List.map_drop, ht, List.map_append, List.map_take]⟩
    | new k => exact absurd (by simp) (hn k)

theorem sliceIndex_inj (is : List Subscript) (s t : List Nat) (ht : sliceShape (s.map some) is = t.map some) (hax : axes is ≤ s.length)
    (hr : ∀ n o st, .range n o st ∈ is → n ≤ 1 ∨ st ≠ 0) (hn : ∀ k, .new k ∉ is) (i j : List Int) (hi : Valid t i) (hj : Valid t j) (h : sliceIndex is i = sliceIndex is j) :
    i = j := by
  induction is generalizing s t i j with
  | nil => exact h
  | cons x is ih =>
    have hn' : ∀ k, .new k ∉ is := fun k hk => hn k (by simp [hk])
    have hr' : ∀ n o st, .range n o st ∈ is → n ≤ 1 ∨ st ≠ 0 := fun n o st hk => hr n o st (by simp [hk])
    cases x with
    | «at» x =>
      simp only [axes] at hax
      rw [sliceShape, ← List.map_drop] at ht
      exact ih (s.drop 1) t ht (by simp; omega) hr' hn' i j hi hj (List.cons.inj h).2
    | range n o st =>
      simp only [axes] at hax
      rw [sliceShape, ← List.map_drop] at ht
      cases t with
      | nil => simp at ht
      | cons m t =>
        simp only [List.map_cons, List.cons.injEq, Option.some.injEq] at ht
        obtain ⟨rfl, ht⟩ := ht
        match i, j, hi, hj with
        | a :: i, b :: j, ⟨a1, a2, hi⟩, ⟨b1, b2, hj⟩ =>
          simp only [sliceIndex, List.headD_cons, List.drop_succ_cons, List.drop_zero, List.cons.injEq] at h
          have hij := ih (s.drop 1) t ht (by simp; omega) hr' hn' i j hi hj h.2
          rw [hij]
          congr 1
          rcases hr n o st (by simp) with h1 | h1
          · omega
          · have := h.1
            exact mul_left_cancel₀ h1 (by omega)
    | keep k =>
      simp only [axes] at hax
      rw [sliceShape, ← List.map_drop, ← List.map_take] at ht
      obtain ⟨t', ht'⟩ := sliceShape_finite is (s.drop k) hn'
      rw [ht', ← List.map_append] at ht
      have : s.take k ++ t' = t := List.map_injective_iff.mpr (Option.some_injective _) ht
      subst this
      obtain ⟨i1, i2, rfl, hi1, hi2⟩ := valid_split hi
      obtain ⟨j1, j2, rfl, hj1, hj2⟩ := valid_split hj
      have l1 := hi1.length
      have l2 := hj1.length
      have hk : (s.take k).length = k := by simp; omega
      simp only [sliceIndex] at h
      rw [List.take_left' (by omega), List.drop_left' (by omega), List.take_left' (by omega), List.drop_left' (by omega)] at h
      obtain ⟨e1, e2⟩ := List.append_inj h (by omega)
      rw [e1, ih (s.drop k) t' ht' (by simp; omega) hr' hn' i2 j2 hi2 hj2 e2]
    | new k => exact absurd (by simp) (hn k)

theorem distinct_slice (v w : View) (s : List Nat) (hv : Shaped v (s.map some)) (hd : Distinct v s) (is : List Sub) (hc : Covered (.slice is) v) (hn : NoRepeat (.slice is) v)
    (h : v.from is = .ok w) : ∃ t : List Nat, Shaped w (t.map some) ∧ Inside v (s.map some) w (t.map some) ∧ Distinct w t := by
  obtain ⟨js, rfl, hax⟩ := hc
  have hl := hv.length_eq
  simp only [List.length_map] at hl
  have hnew : ∀ k, .new k ∉ js := fun k hk => (hn _ (List.mem_map_of_mem hk)).1 k rfl
  have hr : ∀ n o st, .range n o st ∈ js → n ≤ 1 ∨ st ≠ 0 := by
    intro n o st hk
    rcases (hn _ (List.mem_map_of_mem hk)).2 n o st rfl with h | h
    · left; omega
    · right; exact h
  by_cases ha : Accepts v.dims js
  · obtain ⟨b, hb, h1, h2⟩ := C13_slice v _ hv js (by simp; omega) ha
    rw [h] at hb
    cases hb
    obtain ⟨t, ht⟩ := sliceShape_finite js s hnew
    rw [ht] at h1 h2
    refine ⟨t, h1, fun j hj => ⟨_, (h2 j hj).2, (h2 j hj).1⟩, fun i j hi hj e => ?_⟩
    have ei := h2 i (inRange_of_valid hi)
    have ej := h2 j (inRange_of_valid hj)
    have li := sliceIndex_length js (s.map some) i (by simp; omega) (by rw [ht, List.length_map, hi.length])
    have lj := sliceIndex_length js (s.map some) j (by simp; omega) (by rw [ht, List.length_map, hj.length])
    have := hd _ _ (valid_of_inRange (by simpa using li) ei.2) (valid_of_inRange (by simpa using lj) ej.2) (by rw [← ei.1, ← ej.1, e])
    exact sliceIndex_inj js s t ht (by omega) hr hnew i j hi hj this
  · rw [C11_reject v _ hv js (by simp; omega) ha] at h
    cases h

theorem set_inj {i j : List Int} {k : Nat} {x y : Int} (hk : k < i.length) (h : i.set k x = j.set k y) : x = y ∧ ∀ n, n ≠ k → i[n]? = j[n]? := by
  have hl : i.length = j.length := by have := congrArg List.length h; simpa using this
  constructor
  · have := congrArg (·[k]?) h
    simpa [hk, hl ▸ hk] using this
  · intro n hn
    have := congrArg (·[n]?) h
    simpa [List.getElem?_set_ne (Ne.symm hn)] using this

theorem distinct_reverse (v w : View) (s : List Nat) (hv : Shaped v (s.map some)) (hd : Distinct v s) (k : Int) (h : v.reverse k = .ok w) :
    ∃ t : List Nat, Shaped w (t.map some) ∧ Inside v (s.map some) w (t.map some) ∧ Distinct w t := by
  have hl := hv.length_eq
  simp only [List.length_map] at hl
  by_cases hk : k < 0 ∨ v.dims.length ≤ k
  · rw [C19_axis_negation v k hk] at h; cases h
  · obtain ⟨k, rfl⟩ : ∃ n : Nat, k = n := ⟨k.toNat, by omega⟩
    have hks : k < s.length := by omega
    obtain ⟨r, h1, h2, h3, _⟩ := C19_reverse v _ hv k s[k] (by simp [hks])
    rw [h] at h1
    cases h1
    have hin : ∀ j, Valid s j → Valid s (j.set k (s[k] - 1 - j.getD k 0)) := by
      intro j hj
      refine valid_of_inRange (by simp [hj.length]) ⟨by simp [hj.length], ?_⟩
      intro i m hm
      have hr := inRange_of_valid hj
      have h4 := hr.2 i m hm
      by_cases hik : i = k
      · subst hik
        have : m = s[i] := by simpa [hks] using hm.symm
        subst this
        have h5 : i < j.length := by rw [hj.length]; exact hks
        simp [List.getD_eq_getElem?_getD, h5] at h4 ⊢
        omega
      · simpa [List.getD_eq_getElem?_getD, List.getElem?_set_ne (Ne.symm hik)] using h4
    refine ⟨s, h2, inside_of_valid h2 fun j hj => ⟨_, hin j hj, h3 j (inRange_of_valid hj)⟩, fun i j hi hj e => ?_⟩
    rw [h3 i (inRange_of_valid hi), h3 j (inRange_of_valid hj)] at e
    have hik : k < i.length := by rw [hi.length]; exact hks
    have hjk : k < j.length := by rw [hj.length]; exact hks
    obtain ⟨e1, e2⟩ := set_inj hik (hd _ _ (hin i hi) (hin j hj) e)
    refine List.ext_getElem? fun n => ?_
    by_cases hn : n = k
    · subst hn
      simp [List.getD_eq_getElem?_getD, hik, hjk] at e1 ⊢
      exact e1
    · exact e2 n hn

theorem distinct_transpose (v w : View) (s : List Nat) (hv : Shaped v (s.map some)) (hd : Distinct v s) (ax : List Int) (hc : Covered (.transpose ax) v)
    (hn : NoRepeat (.transpose ax) v) (h : v.transpose ax = .ok w) : ∃ t : List Nat, Shaped w (t.map some) ∧ Inside v (s.map some) w (t.map some) ∧ Distinct w t := by
  have hl := hv.length_eq
  simp only [List.length_map] at hl
  obtain ⟨ax, rfl⟩ := toNats ax hc.1
  have hp : ∀ a, a ∈ ax ↔ a < v.dims.length := by
    intro a
    have := hn.mem_iff (a := (a : Int))
    simpa using this
  have hlen : ax.length = v.dims.length := by simpa using hn.length_eq
  have hsrc : ∀ a l, l ∈ sources ax (s.map some) a → l ≠ none := by
    intro a l hl
    simp only [sources, List.mem_map, List.mem_filter] at hl
    obtain ⟨⟨p, q⟩, ⟨hpq, _⟩, rfl⟩ := hl
    obtain ⟨n, _, e⟩ := List.mem_map.mp (List.of_mem_zip hpq).2
    simp [← e]
  obtain ⟨r, t, h1, h2, h3, h4⟩ := C20_shape_partial v (s.map some) hv ax (by simp; omega) (fun a => .inr (hsrc a))
  obtain ⟨r', h5, h6, _⟩ := C20_elements v ax hlen
  rw [h] at h1 h5
  cases h1
  cases h5
  have hr : w.dims.length = v.dims.length := by
    obtain ⟨k1, k2⟩ := h6
    apply le_antisymm
    · rcases k2 with k2 | k2
      · omega
      · have := (hp _).mp k2; omega
    · by_cases h0 : v.dims.length = 0
      · omega
      · have := k1 (v.dims.length - 1) ((hp _).mpr (by omega))
        omega
  have htl := h2.length_eq
  obtain ⟨t, rfl⟩ := shaped_finite h2 (by
    intro d hdm e
    obtain ⟨k, hk, rfl⟩ := List.mem_iff_getElem.mp hdm
    have hdk : DimLen w.dims[k] t[k] := h2.get hk (by omega)
    have hdg := h3 k (by omega)
    have hkn : t[k] = none := by
      cases ht : t[k] with
      | none => rfl
      | some n =>
        rw [ht] at hdk
        have : w.dims[k].len = (n : Int) := hdk
        have := UNB_val
        omega
    rw [hkn] at hdg
    have hka : k ∈ ax := (hp k).mpr (by omega)
    obtain ⟨i, hi, e⟩ := List.mem_iff_getElem.mp hka
    have : (s.map some)[i]'(by simp; omega) ∈ sources ax (s.map some) k := by
      simp only [sources, List.mem_map, List.mem_filter, beq_iff_eq]
      refine ⟨(ax[i], (s.map some)[i]'(by simp; omega)), ⟨?_, e⟩, rfl⟩
      have : (ax.zip (s.map some))[i]'(by simp; omega) ∈ ax.zip (s.map some) := List.getElem_mem _
      simpa using this
    exact hsrc k _ this (hdg _ this))
  simp only [List.length_map] at htl
  refine ⟨t, h2, fun j hj => ⟨_, (h4 j hj).2, (h4 j hj).1⟩, fun i j hi hj e => ?_⟩
  obtain ⟨ei, vi⟩ := h4 i (inRange_of_valid hi)
  obtain ⟨ej, vj⟩ := h4 j (inRange_of_valid hj)
  rw [ei, ej] at e
  have := hd _ _ (valid_of_inRange (by simp [pullback]; omega) vi) (valid_of_inRange (by simp [pullback]; omega) vj) e
  have hli := hi.length
  have hlj := hj.length
  refine List.ext_getElem (by omega) fun k hk1 hk2 => ?_
  have hka : k ∈ ax := (hp k).mpr (by omega)
  have := List.map_inj_left.mp this k hka
  simpa [List.getD_eq_getElem?_getD, hk1, hk2] using this

theorem distinct_ravel (v w : View) (s : List Nat) (hv : Shaped v (s.map some)) (hd : Distinct v s) (hc : Covered .ravel v) (h : v.ravelFree = .ok w) :
    ∃ t : List Nat, Shaped w (t.map some) ∧ Inside v (s.map some) w (t.map some) ∧ Distinct w t := by
  rcases C22_partial v s hv hc.2 with ⟨h1, _⟩ | ⟨r, h1, h2, h3⟩
  · rw [h] at h1; cases h1
  · rw [h] at h1
    cases h1
    refine ⟨[size s], h2, inside_of_valid (t := [size s]) h2 fun j hj => ?_, fun i j hi hj e => ?_⟩
    · match j, hj with
      | [k], ⟨h0, hk, _⟩ =>
        obtain ⟨i, hi, rfl⟩ := position_surj s k h0 hk
        exact ⟨i, hi, h3 i hi⟩
    · match i, j, hi, hj with
      | [a], [b], ⟨a0, ak, _⟩, ⟨b0, bk, _⟩ =>
        obtain ⟨i, hi, rfl⟩ := position_surj s a a0 ak
        obtain ⟨j, hj, rfl⟩ := position_surj s b b0 bk
        rw [h3 i hi, h3 j hj] at e
        rw [hd i j hi hj e]

theorem prod_size (s : List Nat) : (s.map (Nat.cast : Nat → Int)).prod = size s := by
  induction s with
  | nil => rfl
  | cons n s ih => simp [size, ih]

/-- C73. Views of views of a view without repeated elements don't have repeated elements, unless some operation is meant to repeat them.
What's missing are the cases that aren't in `Covered`, where it's false (`C73_negation`). -/
theorem C73_partial (v : View) (s : List Nat) (hv : Shaped v (s.map some)) (hd : Distinct v s) (ops : List ViewOp) (w : View) (h : runOps ops v = .ok w) (hc : AllCovered ops v)
    (hn : AllNoRepeat ops v) : ∃ t : List Nat, Shaped w (t.map some) ∧ Inside v (s.map some) w (t.map some) ∧ Distinct w t := by
  induction ops generalizing v s with
  | nil =>
    cases h
    exact ⟨s, hv, fun j hj => ⟨j, hj, rfl⟩, hd⟩
  | cons op ops ih =>
    simp only [runOps, List.foldlM_cons, bind, Except.bind] at h
    split at h
    · cases h
    · next u hu =>
      have : ∃ t : List Nat, Shaped u (t.map some) ∧ Inside v (s.map some) u (t.map some) ∧ Distinct u t := by
        cases op with
        | slice is => exact distinct_slice v u s hv hd is hc.1 hn.1 hu
        | reverse k => exact distinct_reverse v u s hv hd k hu
        | transpose ax => exact distinct_transpose v u s hv hd ax hc.1 hn.1 hu
        | stencil lo hi => exact hn.1.elim
        | reshape t =>
          obtain ⟨s', t', e1, rfl, h1, h2, h3⟩ := step_reshape v u _ hv t hc.1 hu
          have : s = s' := List.map_injective_iff.mpr (Option.some_injective _) e1
          subst this
          refine ⟨t', h1, h2, h3 hd ?_⟩
          have hle := hn.1
          simp only [NoRepeat, prod_size, shaped_nat.mp hv] at hle
          exact_mod_cast hle
        | ravel => exact distinct_ravel v u s hv hd hc.1 hu
      obtain ⟨t, ht, hi, hdt⟩ := this
      obtain ⟨r, hr, hi', hdr⟩ := ih u t ht hdt h (hc.2 u hu) (hn.2 u hu)
      exact ⟨r, hr, inside_trans hi hi', hdr⟩

/-- C73 for arrays. -/
theorem C73_array_partial (s : List Nat) (cp : Int) (v : View) (hv : View.ofShape (s.map Nat.cast) cp = .ok v) (ops : List ViewOp) (w : View) (h : runOps ops v = .ok w)
    (hc : AllCovered ops v) (hn : AllNoRepeat ops v) : ∃ t : List Nat, Shaped w (t.map some) ∧ Distinct w t := by
  obtain ⟨v', h1, h2, h3⟩ := C58_dims s cp
  rw [hv] at h1
  cases h1
  obtain ⟨t, ht, _, hd⟩ := C73_partial v s h2 (fun i j hi hj e => by
    rw [h3 i hi, h3 j hj] at e
    exact position_inj hi hj (by omega)) ops w h hc hn
  exact ⟨t, ht, hd⟩

/-- C73. Then `dst = x` does what it says when `dst` is a view of a view ... of an array, and `x` doesn't depend on the elements of `dst`. -/
theorem C73_assign_partial {V : Type} (s : List Nat) (cp : Int) (v : View) (hv : View.ofShape (s.map Nat.cast) cp = .ok v) (ops : List ViewOp) (w : View)
    (h : runOps ops v = .ok w) (hc : AllCovered ops v) (hn : AllNoRepeat ops v) (μ : Mem V) (hμ : ∀ p, cp ≤ p → p < cp + size s → (μ p).isSome) :
    ∃ t : List Nat, Shaped w (t.map some) ∧ ∀ (dyn : Bool) (z : List Int), (∀ i ∈ z, i = 0) → ∀ (x : Iter (Act V) (Lv V)) (f : List Int → V), Values (InView w t) μ x t f →
      ∃ μ', assign dyn z w.refs x μ = (.ok (), μ') ∧ (∀ j, Valid t j → μ' (address w j) = some (f j)) ∧ SameOutside (InView w t) μ μ' := by
  obtain ⟨t, ht, hd⟩ := C73_array_partial s cp v hv ops w h hc hn
  obtain ⟨t', ht', hi⟩ := C72_array_partial s cp v hv ops w h hc
  have e : t' = t.map some := by
    unfold Shaped at ht ht'
    clear hi hd
    generalize w.dims = ds at ht ht'
    induction ht' generalizing t with
    | nil => cases t <;> simp_all
    | @cons d o ds s hd _ ih =>
      cases t with
      | nil => cases ht
      | cons n t =>
        cases ht with
        | cons hd' ht =>
          rw [ih t ht]
          cases o with
          | none =>
            have h1 : d.len = UNB := hd
            have h2 : d.len = (n : Int) := hd'
            have := UNB_val
            omega
          | some m =>
            have h1 : d.len = (m : Int) := hd
            have h2 : d.len = (n : Int) := hd'
            obtain rfl : m = n := by omega
            rfl
  subst e
  refine ⟨t, ht, fun dyn z hz x f hx => ?_⟩
  refine C27_view dyn z hz w t ht hd x (t.map some) hx.1 (merge_same _) μ (fun j hj => ?_) f fun j hj μ' hμ' => ?_
  · obtain ⟨h1, h2⟩ := hi j (inRange_of_valid hj)
    exact hμ _ h1 h2
  · obtain ⟨r, hr⟩ := hx.2 j hj
    obtain ⟨e1, e2⟩ := hr μ' fun p hp => hμ' p fun h => hp h.1
    simp only [Reads, act_bind, e1, e2]

/-- The view of the last example doesn't repeat elements. -/
example : AllNoRepeat [.slice [.dots (some 1), .iota [(.const 2, .const 1)] (.const 1)], .transpose [1, 0], .reverse 0] ⟨[⟨3, 4⟩, ⟨4, 1⟩], 0⟩ := by
  refine ⟨?_, fun w hw => ?_⟩
  · intro i hi
    simp at hi
    rcases hi with rfl | rfl
    · simp
    · simp
  · obtain rfl : w = ⟨[⟨3, 4⟩, ⟨2, 1⟩], 1⟩ := by
      have : ViewOp.run (.slice [.dots (some 1), .iota [(.const 2, .const 1)] (.const 1)]) ⟨[⟨3, 4⟩, ⟨4, 1⟩], 0⟩ = .ok ⟨[⟨3, 4⟩, ⟨2, 1⟩], 1⟩ := by decide
      rw [this] at hw
      cases hw
      rfl
    exact ⟨by simp only [NoRepeat]; decide, fun w hw => ⟨trivial, fun _ _ => trivial⟩⟩

/-- B30. C21 fails for negative lengths: for `a` of shape (3), `reshape(a, {-2, 3})` passes the checks and has an axis of length -2. -/
theorem C21_negative_negation : ∃ v w, Shaped v [some 3] ∧ v.reshape [-2, 3] = .ok w ∧ w.dims = [⟨-2, 0⟩, ⟨3, 1⟩] :=
  ⟨⟨[⟨3, 1⟩], 0⟩, ⟨[⟨-2, 0⟩, ⟨3, 1⟩], 0⟩, .cons rfl .nil, rfl, rfl⟩

/-- B3 also makes elements appear twice: `reshape` of a slice of shape (4, 1) with step 0 on the last axis. -/
theorem C73_negation : ∃ v w, Shaped v [some 4, some 1] ∧ Distinct v [4, 1] ∧ v.reshape [2, 2] = .ok w ∧ Shaped w [some 2, some 2] ∧ ¬ Distinct w [2, 2] := by
  refine ⟨⟨[⟨4, 1⟩, ⟨1, 0⟩], 0⟩, ⟨[⟨2, 0⟩, ⟨2, 0⟩], 0⟩, .cons rfl (.cons rfl .nil), ?_, by decide, .cons rfl (.cons rfl .nil), ?_⟩
  · intro i j hi hj e
    match i, j, hi, hj with
    | [a, b], [c, d], ⟨_, _, h1, h2, _⟩, ⟨_, _, h3, h4, _⟩ =>
      simp [address, dot] at e h2 h4 ⊢
      omega
  · intro h
    have := h [0, 0] [1, 1] (by simp [Valid]) (by simp [Valid]) (by simp [address, dot])
    simp at this

end Ra.Props
