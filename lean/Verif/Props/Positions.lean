import Verif.Props.Select
import Verif.Props.Fill
import Verif.Props.Matrix
import Verif.Props.Subscripts
import Verif.Props.FullExp
/-!
# C127: lists of positions that make a range
-/

namespace Ra.Spec

section
variable {V : Type}

/-- The subscript `a` is `b`, or it's a list of the positions in the range `b`, in the memories where `P`. -/
inductive SameRange (n : IndexLike V) (P : Mem V → Prop) : ArrSub (Act V) (Lv V) → Subscript → Prop
  | sub (i : Subscript) : SameRange n P (.sub i) i
  | list (I : Iter (Act V) (Lv V)) (k : Nat) (o s : Int) (hI : HasShape I [some k]) (h : ∀ j : Int, 0 ≤ j → j < k → ∃ x, n.toIdx x = o + s * j ∧ ∀ μ, P μ → Reads μ (elem I [j]) x) : SameRange n P (.array I [some k]) (.range k o s)

end
end Ra.Spec

namespace Ra.Props
open Spec

section
variable {V : Type} {n : IndexLike V} {P : Mem V → Prop}

theorem same_sliceShape {is : List (ArrSub (Act V) (Lv V))} {js : List Subscript} (h : List.Forall₂ (SameRange n P) is js) (s : List Length) : outerShape s is = sliceShape s js := by
  induction h generalizing s with
  | nil => rfl
  | @cons a b is js h _ ih =>
    cases h with
    | sub => cases b <;> simp only [outerShape, sliceShape, ih]
    | list I k o st hI h => simp only [outerShape, sliceShape, ih, List.singleton_append]

theorem same_axes {is : List (ArrSub (Act V) (Lv V))} {js : List Subscript} (h : List.Forall₂ (SameRange n P) is js) : axes (is.map ArrSub.kept) = axes js := by
  induction h with
  | nil => rfl
  | @cons a b is js h _ ih =>
    cases h with
    | sub => cases b <;> simp only [List.map_cons, ArrSub.kept, axes, ih]
    | list I k o st hI h => simp only [List.map_cons, ArrSub.kept, axes, ih]

theorem same_accepts {is : List (ArrSub (Act V) (Lv V))} {js : List Subscript} (h : List.Forall₂ (SameRange n P) is js) (ds : List Dim) (ha : Accepts ds js) : Accepts ds (is.map ArrSub.kept) := by
  induction h generalizing ds with
  | nil => exact ha
  | @cons a b is js h _ ih =>
    cases h with
    | sub =>
      simp only [List.map_cons, ArrSub.kept]
      cases b with
      | «at» i => cases ds with
        | nil => simp [Accepts] at ha
        | cons d ds => simp only [Accepts] at ha ⊢; exact ⟨ha.1, ih _ ha.2⟩
      | range k o st => cases ds with
        | nil => simp [Accepts] at ha
        | cons d ds => simp only [Accepts] at ha ⊢; exact ⟨ha.1, ih _ ha.2⟩
      | keep k => cases ds with
        | nil => simp only [Accepts] at ha ⊢; exact ih _ ha
        | cons d ds => simp only [Accepts] at ha ⊢; exact ih _ ha
      | new k => cases ds with
        | nil => simp only [Accepts] at ha ⊢; exact ih _ ha
        | cons d ds => simp only [Accepts] at ha ⊢; exact ih _ ha
    | list I k o st hI h =>
      simp only [List.map_cons, ArrSub.kept]
      cases ds with
      | nil => simp [Accepts] at ha
      | cons d ds => simp only [Accepts, List.drop_succ_cons, List.drop_zero] at ha ⊢; exact ih _ ha.2

theorem same_index {is : List (ArrSub (Act V) (Lv V))} {js : List Subscript} (h : List.Forall₂ (SameRange n P) is js) (s : List Length) (hax : axes js ≤ s.length) (j : List Int) (hj : InRange (sliceShape s js) j) :
    ∃ k, (∀ μ, P μ → Selects n μ is j k) ∧ outerIndex is j k = sliceIndex js j := by
  induction h generalizing s j with
  | nil => exact ⟨[], fun _ _ => .nil, rfl⟩
  | @cons a b is js h _ ih =>
    cases h with
    | sub =>
      cases b with
      | «at» i =>
        obtain ⟨k, h1, h2⟩ := ih (s.drop 1) (by simp [axes] at hax ⊢; omega) j hj
        exact ⟨k, h1, by simp only [outerIndex, sliceIndex, h2]⟩
      | range m o st =>
        obtain ⟨h1, h2⟩ := inRange_append (s := [some m]) hj
        obtain ⟨k, h3, h4⟩ := ih (s.drop 1) (by simp [axes] at hax ⊢; omega) _ h2
        exact ⟨k, h3, congrArg ((o + st * j.headD 0) :: ·) h4⟩
      | keep m =>
        obtain ⟨h1, h2⟩ := inRange_append hj
        rw [List.length_take, min_eq_left (by simp [axes] at hax; omega)] at h2
        obtain ⟨k, h3, h4⟩ := ih (s.drop m) (by simp [axes] at hax ⊢; omega) _ h2
        exact ⟨k, h3, by simp only [outerIndex, sliceIndex, h4]⟩
      | new m =>
        obtain ⟨h1, h2⟩ := inRange_append hj
        rw [List.length_replicate] at h2
        obtain ⟨k, h3, h4⟩ := ih s (by simpa [axes] using hax) _ h2
        exact ⟨k, h3, by simp only [outerIndex, sliceIndex, h4]⟩
    | list I m o st hI h =>
      cases j with
      | nil => have := hj.1; simp [sliceShape] at this
      | cons j0 j =>
        obtain ⟨h1, h2⟩ := InRange_cons.1 hj
        obtain ⟨k, h3, h4⟩ := ih (s.drop 1) (by simp [axes] at hax ⊢; omega) j h2
        obtain ⟨x, x1, x2⟩ := h j0 (h1 m rfl).1 (h1 m rfl).2
        refine ⟨n.toIdx x :: k, fun μ hμ => .cons ⟨x, x2 μ hμ, rfl⟩ (h3 μ hμ), ?_⟩
        simp only [outerIndex, sliceIndex, List.headD_cons, List.tail_cons, List.length_singleton, List.drop_succ_cons, List.drop_zero, h4, x1]

/-- C127. An array with subscripts where some are lists of positions that make ranges has the same shape and the same elements as with those ranges. -/
theorem C127_same (v : View) (t : List Nat) (hv : Shaped v (t.map some)) (is : List (ArrSub (Act V) (Lv V))) (js : List Subscript) (h : List.Forall₂ (SameRange n P) is js) (hnew : ∀ k, .sub (.new k) ∉ is)
    (harr : ∃ I s0, .array I s0 ∈ is) (hax : axes js ≤ t.length) (ha : Accepts v.dims js) :
    ∃ e b, v.select n (is.map msub) (arrs is) = .ok (some e) ∧ v.from (js.map write) = .ok b ∧ HasShape e (sliceShape (t.map some) js) ∧ Shaped b (sliceShape (t.map some) js) ∧
      ∀ j, j.length = (sliceShape (t.map some) js).length → InRange (sliceShape (t.map some) js) j →
        (∀ μ, P μ → elem e j μ = elem b.refs j μ) ∧ address b j = address v (sliceIndex js j) ∧ Valid t (sliceIndex js j) := by
  obtain ⟨b, b1, b2, b3⟩ := C13_slice v _ hv js (by simpa using hax) ha
  have hax' : axes (is.map ArrSub.kept) ≤ t.length := by rw [same_axes h]; exact hax
  obtain ⟨e, e1, e2, e3⟩ := C111_select n v t hv is hnew harr (by
    intro I s0 hI
    clear b1 b2 b3 ha hax hax' hnew harr hv
    induction h with
    | nil => cases hI
    | cons h _ ih =>
      rcases List.mem_cons.1 hI with hI | hI
      · cases h with
        | sub i => cases hI
        | list I' k o st hI' h => cases hI; exact hI'
      · exact ih hI) hax' (same_accepts h _ ha)
  have hlen := fun j k => length_outerIndex is (t.map some) (by simpa using hax') j k
  rw [same_sliceShape h] at e2 e3 hlen
  refine ⟨e, b, e1, b1, e2, b2, fun j hl hj => ?_⟩
  obtain ⟨k, k1, k2⟩ := same_index h _ (by simpa using hax) j hj
  refine ⟨fun μ hμ => ?_, (b3 j hj).1, valid_of_range (by rw [← k2, hlen j k hl, List.length_map]) (b3 j hj).2⟩
  have := (e3 j hl hj μ k (k1 μ hμ)).1 (by rw [k2]; exact (b3 j hj).2)
  rw [k2] at this
  rw [elem_refs, (b3 j hj).1]
  exact this

/-- Two loops do the same if their steps do, as long as `P`. -/
theorem forAll_while {ι β γ : Type} {F : ι → Act V β} {G : ι → Act V γ} {l : List ι} (h : ∀ i ∈ l, ∀ μ, P μ → (F i >>= fun _ => pure ()) μ = (G i >>= fun _ => pure ()) μ ∧ P (G i μ).2) (μ : Mem V) (hμ : P μ) :
    forAll F l μ = forAll G l μ := by
  induction l generalizing μ with
  | nil => rfl
  | cons a l ih =>
    obtain ⟨h1, h2⟩ := h a (by simp) μ hμ
    simp only [forAll]
    rw [act_bind, act_bind] at h1 ⊢
    generalize F a μ = y at h1
    generalize G a μ = z at h1 h2
    rcases y with ⟨_ | _, _⟩ <;> rcases z with ⟨_ | _, _⟩ <;> injection h1 with h3 h4 <;> cases h3 <;> cases h4
    · rfl
    · exact ih (fun i hi => h i (by simp [hi])) _ h2

theorem set_keeps {p : Int} {x : Act V (Lv V)} {μ : Mem V} (hμ : P μ) (hx : ∀ μ, P μ → P (x μ).2) (hp : ∀ μ y, P μ → P (μ.upd p y)) : P (mapOp setOp [pure (.ref p), x] μ).2 := by
  rw [mapM_two, pure_bind, act_bind]
  have := hx μ hμ
  generalize x μ = r at this ⊢
  rcases r with ⟨_ | y, μ1⟩
  · exact this
  · show P (setOp [.ref p, y] μ1).2
    rw [setOp, act_bind]
    have h1 := get_same y μ1
    generalize y.get μ1 = r at h1 ⊢
    rcases r with ⟨_ | y, μ2⟩
    · cases h1; exact this
    · cases h1
      show P ((Act.write p y >>= _) _).2
      rw [act_bind, Act.write]
      cases μ2 p with
      | none => exact this
      | some _ => exact hp _ _ this

theorem upd_keeps {g : V → V → V} {p : Int} {x : Act V (Lv V)} {μ : Mem V} (hμ : P μ) (hx : ∀ μ, P μ → P (x μ).2) (hp : ∀ μ y, P μ → P (μ.upd p y)) : P (mapOp (updOp g) [pure (.ref p), x] μ).2 := by
  rw [mapM_two, pure_bind, act_bind]
  have := hx μ hμ
  generalize x μ = r at this ⊢
  rcases r with ⟨_ | y, μ1⟩
  · exact this
  · show P (updOp g [.ref p, y] μ1).2
    rw [updOp, act_bind]
    have h1 := get_same y μ1
    generalize y.get μ1 = r at h1 ⊢
    rcases r with ⟨_ | y, μ2⟩
    · cases h1; exact this
    · cases h1
      show P ((Act.read p >>= _) _).2
      rw [act_bind, Act.read]
      cases hq : μ2 p with
      | none => exact this
      | some w =>
        show P ((Act.write p (g w y) >>= _) _).2
        rw [act_bind, Act.write, hq]
        exact hp _ _ this

/-- C127. So it makes no difference to an assignment or an update which of the two is on the left, if the positions aren't themselves changed. -/
theorem C127_assign (dyn : Bool) (z : List Int) (hz : ∀ i ∈ z, i = 0) (v : View) (t : List Nat) (hv : Shaped v (t.map some)) (is : List (ArrSub (Act V) (Lv V))) (js : List Subscript)
    (h : List.Forall₂ (SameRange n P) is js) (hnew : ∀ k, .sub (.new k) ∉ is) (harr : ∃ I s0, .array I s0 ∈ is) (hax : axes js ≤ t.length) (ha : Accepts v.dims js)
    (hP : ∀ μ k y, P μ → Valid t k → P (μ.upd (address v k) y)) :
    ∃ b, v.from (js.map write) = .ok b ∧
      ∀ (x : Iter (Act V) (Lv V)) (sx : List Length) (s : List Nat), HasShape x sx → Merge [sliceShape (t.map some) js, sx] (s.map some) → (∀ j, Valid s j → ∀ μ, P μ → P (elem x j μ).2) → ∀ μ, P μ →
        v.selectAssign n dyn z (is.map msub) (arrs is) x μ = assign dyn z b.refs x μ ∧ ∀ g, v.selectUpdate n g dyn z (is.map msub) (arrs is) x μ = update g dyn z b.refs x μ := by
  obtain ⟨e, b, e1, b1, e2, b2, hel⟩ := C127_same v t hv is js h hnew harr hax ha
  refine ⟨b, b1, fun x sx s hx hm hxP μ hμ => ?_⟩
  have helem : ∀ j ∈ rowMajor s, (∀ μ, P μ → elem e j μ = (pure (.ref (address b j)) : Act V (Lv V)) μ) ∧ ∀ μ y, P μ → P (μ.upd (address b j) y) := by
    intro j hj
    have hr := inRange_of_merge hm (t := sliceShape (t.map some) js) (by simp) (mem_rowMajor.1 hj)
    rw [← elem_refs, ← elem_take e _ e2, ← elem_take b.refs _ (refs_shape b2)]
    have hl : (j.take (sliceShape (t.map some) js).length).length = (sliceShape (t.map some) js).length := by rw [List.length_take, min_eq_left hr.1]
    obtain ⟨h1, h2, h3⟩ := hel _ hl ⟨by omega, fun k m hk => by
      have hk' : k < (sliceShape (t.map some) js).length := (List.getElem?_eq_some_iff.1 hk).1
      have := hr.2 k m hk
      rw [List.getD_eq_getElem?_getD] at this ⊢
      rwa [List.getElem?_take_of_lt hk']⟩
    refine ⟨h1, fun μ y hμ => ?_⟩
    have : address b j = address b (j.take (sliceShape (t.map some) js).length) := address_take b2 j
    rw [this, h2]
    exact hP μ _ y hμ h3
  refine ⟨?_, fun g => ?_⟩
  · rw [View.selectAssign, lift_bind e1]
    show assign dyn z e x μ = _
    rw [assign, assign, run_forAll dyn z hz _ e x _ sx s e2 hx hm, run_forAll dyn z hz _ b.refs x _ sx s (refs_shape b2) hx hm]
    refine forAll_while (P := P) (fun j hj μ hμ => ?_) μ hμ
    obtain ⟨h1, h2⟩ := helem j hj
    rw [elem_refs]
    refine ⟨?_, set_keeps hμ (hxP j (mem_rowMajor.1 hj)) h2⟩
    rw [mapM_two, mapM_two, act_bind, act_bind, act_bind, act_bind, h1 μ hμ]
  · rw [View.selectUpdate, lift_bind e1]
    show update g dyn z e x μ = _
    rw [update, update, run_forAll dyn z hz _ e x _ sx s e2 hx hm, run_forAll dyn z hz _ b.refs x _ sx s (refs_shape b2) hx hm]
    refine forAll_while (P := P) (fun j hj μ hμ => ?_) μ hμ
    obtain ⟨h1, h2⟩ := helem j hj
    rw [elem_refs]
    refine ⟨?_, upd_keeps hμ (hxP j (mem_rowMajor.1 hj)) h2⟩
    rw [mapM_two, mapM_two, act_bind, act_bind, act_bind, act_bind, h1 μ hμ]

/-- C127. Nor on the right. -/
theorem C127_read (dyn : Bool) (z : List Int) (hz : ∀ i ∈ z, i = 0) (v : View) (t : List Nat) (hv : Shaped v (t.map some)) (is : List (ArrSub (Act V) (Lv V))) (js : List Subscript)
    (h : List.Forall₂ (SameRange n P) is js) (hnew : ∀ k, .sub (.new k) ∉ is) (harr : ∃ I s0, .array I s0 ∈ is) (hax : axes js ≤ t.length) (ha : Accepts v.dims js) :
    ∃ b, v.from (js.map write) = .ok b ∧
      ∀ (c : View) (sc : List Length) (s : List Nat), Shaped c sc → Merge [sc, sliceShape (t.map some) js] (s.map some) → (∀ μ j y, P μ → Valid s j → P (μ.upd (address c j) y)) → ∀ μ, P μ →
        c.assignSelect n dyn z v (is.map msub) (arrs is) μ = assign dyn z c.refs b.refs μ := by
  obtain ⟨e, b, e1, b1, e2, b2, hel⟩ := C127_same v t hv is js h hnew harr hax ha
  refine ⟨b, b1, fun c sc s hc hm hP μ hμ => ?_⟩
  rw [View.assignSelect, lift_bind e1]
  show assign dyn z c.refs e μ = _
  rw [assign, assign, run_forAll dyn z hz _ c.refs e _ _ s (refs_shape hc) e2 hm, run_forAll dyn z hz _ c.refs b.refs _ _ s (refs_shape hc) (refs_shape b2) hm]
  refine forAll_while (P := P) (fun j hj μ hμ => ?_) μ hμ
  have hr := inRange_of_merge hm (t := sliceShape (t.map some) js) (by simp) (mem_rowMajor.1 hj)
  have hl : (j.take (sliceShape (t.map some) js).length).length = (sliceShape (t.map some) js).length := by rw [List.length_take, min_eq_left hr.1]
  obtain ⟨h1, h2, h3⟩ := hel _ hl ⟨by omega, fun k m hk => by
    have hk' : k < (sliceShape (t.map some) js).length := (List.getElem?_eq_some_iff.1 hk).1
    have := hr.2 k m hk
    rw [List.getD_eq_getElem?_getD] at this ⊢
    rwa [List.getElem?_take_of_lt hk']⟩
  rw [elem_take e _ e2, elem_take b.refs _ (refs_shape b2)] at h1
  rw [elem_refs, elem_refs] at *
  refine ⟨?_, set_keeps hμ (fun μ hμ => hμ) fun μ y hμ => hP μ j y hμ (mem_rowMajor.1 hj)⟩
  rw [mapM_two, mapM_two, pure_bind, pure_bind, act_bind, act_bind, act_bind, act_bind, h1 μ hμ]

/-- C127. But if the range isn't all in the array, it's rejected before anything is done, while the list of positions is only rejected at the first position that isn't in the array (`q`). So the elements at the positions before have
been assigned already. -/
theorem C127_early (dyn : Bool) (z : List Int) (hz : ∀ i ∈ z, i = 0) (v : View) (m : Nat) (hv : Shaped v [some m]) (μ : Mem V) (hmem : ∀ k, Valid [m] k → (μ (address v k)).isSome)
    (I : Iter (Act V) (Lv V)) (k : Nat) (o s : Int) (hI : SameRange n (SameOutside (InView v [m]) μ) (.array I [some k]) (.range k o s)) (q : Nat) (hq : q < k)
    (h1 : ∀ j : Nat, j < q → 0 ≤ o + s * j ∧ o + s * j < m) (h2 : ¬ (0 ≤ o + s * q ∧ o + s * q < m)) (y : V) :
    v.from [write (.range k o s)] = .error .check ∧
      ∃ μ', v.selectAssign n dyn z [.array] [I] (.scalar (pure (.val y))) μ = (.error .check, μ') ∧
        (∀ j : Nat, j < q → μ' (address v [o + s * j]) = some y) ∧ ∀ p, (∀ j : Nat, j < q → p ≠ address v [o + s * j]) → μ' p = μ p := by
  have hd : ∃ d, v.dims = [d] ∧ d.len = m := by
    have := hv
    unfold Shaped at this
    cases hds : v.dims with
    | nil => rw [hds] at this; cases this
    | cons d ds =>
      rw [hds] at this
      cases this with
      | cons h h' => cases h'; exact ⟨d, rfl, by simpa [DimLen] using h⟩
  obtain ⟨d, d1, d2⟩ := hd
  refine ⟨C11_reject v _ hv [.range k o s] (by simp [axes]) (by
    rw [d1]
    simp only [Accepts, d2, and_true]
    exact fun h => h2 (h q hq)), ?_⟩
  cases hI with
  | list _ _ _ _ hI hr =>
    obtain ⟨μ', r1, r2⟩ := C111_assign dyn z hz n v [m] hv [.array I [some k]] (by simp) ⟨I, _, List.mem_singleton.2 rfl⟩ (by
        intro I' s0 h
        cases List.mem_singleton.1 h
        exact hI) (by simp [axes, ArrSub.kept]) (by rw [d1]; simp [ArrSub.kept, Accepts]) (.scalar (pure (.val y))) [] rfl [k] (by
          simpa [outerShape] using merge_nil [some k]) μ hmem (fun j => [o + s * j.getD 0 0]) (fun _ => y)
      (by
        intro j hj μ' ho
        obtain ⟨j, rfl, j1, j2⟩ := valid_one.1 hj
        obtain ⟨x, x1, x2⟩ := hr j j1 j2
        exact ⟨[n.toIdx x], .cons ⟨x, x2 μ' ho, rfl⟩ .nil, congrArg (· :: []) x1.symm⟩)
      (fun j _ μ' _ => reads_scalar μ' y j) (rowMajor [q]) ((List.range' q (k - q)).map fun j : Nat => [(j : Int)])
      (by
        rw [rowMajor_one, rowMajor_one, ← List.map_append, List.range_eq_range', List.range_eq_range']
        have := List.range'_append_1 (s := 0) (m := q) (n := k - q)
        rw [Nat.zero_add, Nat.add_sub_cancel' hq.le] at this
        rw [this])
      (by
        intro j hj
        obtain ⟨j, rfl, j1, j2⟩ := valid_one.1 (mem_rowMajor.1 hj)
        have := h1 j.toNat (by omega)
        rw [Int.toNat_of_nonneg j1] at this
        exact valid_one.2 ⟨_, rfl, this⟩)
      (by
        intro j hj
        obtain ⟨r, hr⟩ : ∃ r, k - q = r + 1 := ⟨k - q - 1, by omega⟩
        rw [hr, List.range'_succ] at hj
        simp at hj
        subst hj
        intro h
        obtain ⟨_, e, h⟩ := valid_one.1 h
        cases e
        exact h2 h)
    have hlast : ∀ p, μ' p = if ∃ j : Nat, j < q ∧ address v [o + s * j] = p then some y else μ p := by
      intro p
      rw [r2 p]
      cases hg : ((rowMajor [q]).filter fun j => address v [o + s * j.getD 0 0] = p).getLast? with
      | none =>
        rw [List.getLast?_eq_none_iff, List.filter_eq_nil_iff] at hg
        rw [if_neg]
        rintro ⟨j, j1, j2⟩
        have := hg [(j : Int)] (mem_rowMajor.2 (valid_one.2 ⟨_, rfl, by omega, by omega⟩))
        simp [j2] at this
      | some j =>
        have := List.mem_of_getLast? hg
        rw [List.mem_filter] at this
        obtain ⟨j, rfl, j1, j2⟩ := valid_one.1 (mem_rowMajor.1 this.1)
        rw [if_pos ⟨j.toNat, by omega, by rw [Int.toNat_of_nonneg j1]; simpa using this.2⟩]
    refine ⟨μ', ?_, fun j hj => ?_, fun p hp => ?_⟩
    · rw [if_neg (by simp; omega)] at r1
      exact r1
    · rw [hlast, if_pos ⟨j, hj, rfl⟩]
    · rw [hlast, if_neg]
      rintro ⟨j, j1, rfl⟩
      exact hp j j1 rfl

end

/-! ## The statements on some arrays -/

/-- A matrix of 6 rows and 2 columns at 0 with all 99, the positions 4 5 at 20, and an array of 2 rows and 2 columns at 30. -/
def posMem : Mem Int := fun p => if 0 ≤ p ∧ p < 12 then some 99 else if 20 ≤ p ∧ p < 22 then some (p - 16) else if 30 ≤ p ∧ p < 34 then some 0 else none

def posMat : View := ⟨[⟨6, 2⟩, ⟨2, 1⟩], 0⟩
def posList : View := ⟨[⟨2, 1⟩], 20⟩
def posDest : View := ⟨[⟨2, 2⟩, ⟨2, 1⟩], 30⟩

/-- The positions are still there. -/
def PosKept (μ : Mem Int) : Prop := μ 20 = some 4 ∧ μ 21 = some 5

theorem pos_same : List.Forall₂ (SameRange inferInstance PosKept) [.array posList.refs [some 2]] [.range 2 4 1] := by
  refine .cons (.list _ _ _ _ (refs_shape (shaped_nat (s := [2]).mpr rfl)) fun j j1 j2 => ⟨4 + j, by show 4 + j = 4 + 1 * j; omega, fun μ hμ => reads_refs ?_⟩) .nil
  have : j = 0 ∨ j = 1 := by omega
  rcases this with rfl | rfl
  · simpa [posList, address, dot] using hμ.1
  · simpa [posList, address, dot] using hμ.2

theorem pos_upd {μ : Mem Int} {p y : Int} (hμ : PosKept μ) (h : p ≠ 20 ∧ p ≠ 21) : PosKept (μ.upd p y) := by
  simp only [PosKept, Mem.upd] at hμ ⊢
  rw [if_neg (by omega), if_neg (by omega)]
  exact hμ

/- `A(len + std::array { -2, -1 }) = 0` and `A(iota(2, len-2)) = 0`, as in examples/slicing.cc. -/
example : ∃ b, posMat.from [write (.range 2 4 1)] = .ok b ∧
    posMat.selectAssign inferInstance true [0, 0] [.array] [posList.refs] (.scalar (pure (.val 0))) posMem = assign true [0, 0] b.refs (.scalar (pure (.val 0))) posMem ∧
    posMat.selectUpdate inferInstance (· + ·) true [0, 0] [.array] [posList.refs] (.scalar (pure (.val 1))) posMem = update (· + ·) true [0, 0] b.refs (.scalar (pure (.val 1))) posMem := by
  obtain ⟨b, h1, h2⟩ := C127_assign true [0, 0] (by simp) posMat [6, 2] (shaped_nat (s := [6, 2]).mpr rfl) _ _ pos_same (by simp) ⟨_, _, List.mem_singleton.2 rfl⟩ (by simp [axes])
    (by simp only [posMat, Accepts, and_true]; intro k hk; omega) (by
      intro μ k y hμ hk
      obtain ⟨a, c, rfl, a1, a2, c1, c2⟩ := valid_two.1 hk
      refine pos_upd hμ ?_
      simp [posMat, address, dot]
      omega)
  refine ⟨b, h1, (h2 (.scalar (pure (.val 0))) [] [2, 2] rfl (by simpa [sliceShape] using merge_nil [some 2, some 2]) (fun j _ μ hμ => hμ) posMem ⟨rfl, rfl⟩).1,
    (h2 (.scalar (pure (.val 1))) [] [2, 2] rfl (by simpa [sliceShape] using merge_nil [some 2, some 2]) (fun j _ μ hμ => hμ) posMem ⟨rfl, rfl⟩).2 _⟩

/- `B = A(len + std::array { -2, -1 })` and `B = A(iota(2, len-2))`. -/
example : ∃ b, posMat.from [write (.range 2 4 1)] = .ok b ∧ posDest.assignSelect inferInstance true [0, 0] posMat [.array] [posList.refs] posMem = assign true [0, 0] posDest.refs b.refs posMem := by
  obtain ⟨b, h1, h2⟩ := C127_read true [0, 0] (by simp) posMat [6, 2] (shaped_nat (s := [6, 2]).mpr rfl) _ _ pos_same (by simp) ⟨_, _, List.mem_singleton.2 rfl⟩ (by simp [axes])
    (by simp only [posMat, Accepts, and_true]; intro k hk; omega)
  refine ⟨b, h1, h2 posDest [some 2, some 2] [2, 2] (shaped_nat (s := [2, 2]).mpr rfl) (by simpa [sliceShape] using merge_same [some 2, some 2]) (by
    intro μ k y hμ hk
    obtain ⟨a, c, rfl, a1, a2, c1, c2⟩ := valid_two.1 hk
    refine pos_upd hμ ?_
    simp [posDest, address, dot]
    omega) posMem ⟨rfl, rfl⟩⟩

/- The list 4 5 on an array of 5 elements at 0. With `iota(2, 4)` nothing is assigned, but with the list `a(4)` is. -/
example : (⟨[⟨5, 1⟩], 0⟩ : View).from [write (.range 2 4 1)] = .error .check ∧
    ∃ μ', (⟨[⟨5, 1⟩], 0⟩ : View).selectAssign inferInstance true [0] [.array] [posList.refs] (.scalar (pure (.val 0))) posMem = (.error .check, μ') ∧ μ' 4 = some 0 ∧ μ' 5 = some 99 := by
  have hin : ∀ p : Int, 5 ≤ p → ¬ InView (⟨[⟨5, 1⟩], 0⟩ : View) [5] p := by
    rintro p hp ⟨j, hj, rfl⟩
    obtain ⟨j, rfl, h1, h2⟩ := valid_one.1 hj
    simp [address, dot] at hp
    omega
  obtain ⟨h1, μ', h2, h3, h4⟩ := C127_early (n := inferInstance) true [0] (by simp) (⟨[⟨5, 1⟩], 0⟩ : View) 5 (shaped_nat (s := [5]).mpr rfl) posMem (by
      intro k hk
      obtain ⟨k, rfl, k1, k2⟩ := valid_one.1 hk
      simp [address, dot, posMem, k1, show k < 12 by omega]) posList.refs 2 4 1 (by
        refine .list _ _ _ _ (refs_shape (shaped_nat (s := [2]).mpr rfl)) fun j j1 j2 => ⟨4 + j, by show 4 + j = 4 + 1 * j; omega, fun μ hμ => reads_refs ?_⟩
        have : j = 0 ∨ j = 1 := by omega
        rcases this with rfl | rfl <;> exact hμ _ (hin _ (by decide))) 1 (by omega) (by intro j hj; omega) (by omega) (0 : Int)
  exact ⟨h1, μ', h2, h3 0 (by omega), h4 5 (by
    intro j hj
    have : j = 0 := by omega
    subst this
    decide)⟩

end Ra.Props
