import Verif.Model.AtView
import Verif.Props.AtArray
import Verif.Props.Roll
/-!
# Lists of cells: C114
-/

namespace Ra.Spec

section
variable {V : Type}

/-- `e` gives a number, or a view of shape `r`, whose elements are `f` as long as the memory is the same as `μ` outside of `X`. For a number all these elements are the same. -/
def GivesCell (X : Int → Prop) (μ : Mem V) (e : Act V (Lv V)) (r : List Nat) (f : List Int → V) : Prop :=
  ∀ μ', SameOutside X μ μ' → ∃ y, e μ' = (.ok y, μ') ∧
    ((∃ w, y = .view w ∧ Shaped w (r.map some) ∧ ∀ μ'', SameOutside X μ μ'' → ElemsAre μ'' w r f) ∨
     ((∀ w, y ≠ .view w) ∧ ∀ μ'', SameOutside X μ μ'' → ∀ k, Valid r k → y.get μ'' = (.ok (f k), μ'')))

end
end Ra.Spec

namespace Ra.Props
open Spec

section
variable {V : Type}

/-- The assignment of a number, or of a view, to a view. -/
theorem cellPut_run (g : Option (V → V → V)) (dyn : Bool) (z : List Int) (hz : ∀ i ∈ z, i = 0) (c : View) (r : List Nat) (hc : Shaped c (r.map some)) (hd : Distinct c r) (X : Int → Prop)
    (hX : ∀ p, InView c r p → X p) (μ μ1 : Mem V) (ho : SameOutside X μ μ1) (old f : List Int → V) (hold : ElemsAre μ1 c r old) (d e : Act V (Lv V)) (hde : d μ1 = (.ok (.view c), μ1)) (he : GivesCell X μ e r f) :
    ∃ μ', mapOp (cellPut g dyn z) [d, e] μ1 = (.ok (.view c), μ') ∧ SameOutside (InView c r) μ1 μ' ∧ ElemsAre μ' c r fun k => putVal g (old k) (f k) := by
  have hout : ∀ μ', SameOutside (InView c r) μ1 μ' → SameOutside X μ μ' := fun μ' h => outside_trans ho h (fun _ h => h) hX
  obtain ⟨y, hy, h⟩ := he μ1 ho
  rw [mapM_two, act_bind_ok hde, act_bind_ok hy]
  rcases h with ⟨w, rfl, hw, hval⟩ | ⟨hy', hval⟩
  · obtain ⟨μ', h1, h2, h3⟩ := put_view g dyn z hz c r hc hd w.refs _ (refs_shape hw) (merge_same _) μ1 old f hold (fun k hk μ' ho' => reads_refs (hval μ' (hout μ' ho') k hk))
    refine ⟨μ', ?_, h2, h3⟩
    simp only [cellPut]
    rw [act_bind_ok h1]
    rfl
  · obtain ⟨μ', h1, h2, h3⟩ := put_view g dyn z hz c r hc hd (.scalar (pure y)) [] rfl (merge_nil _) μ1 old f hold (fun k hk μ' ho' => by
      show (pure y >>= Lv.get : Act V V) μ' = _
      rw [pure_bind]
      exact hval μ' (hout μ' ho') k hk)
    refine ⟨μ', ?_, h2, h3⟩
    cases y with
    | view w => exact absurd rfl (hy' w)
    | val _ => simp only [cellPut]; rw [act_bind_ok h1]; rfl
    | ref _ => simp only [cellPut]; rw [act_bind_ok h1]; rfl

variable [MultiIndex V]

theorem atViewArray_elem (a : View) (i : Iter (Act V) (Lv V)) (j : List Int) (μ : Mem V) (x : V) (h : Reads μ (elem i j) x) :
    elem (atViewArray a i) j μ = (Act.lift (a.atView (index x)) >>= fun w => pure (.view w) : Act V (Lv V)) μ := by
  obtain ⟨r, h1, h2⟩ := reads_elim h
  simp only [atViewArray, elem, elems, mapOp, List.mapM_cons, List.mapM_nil, id, bind_assoc, pure_bind]
  rw [act_bind_ok h1]
  simp only [atViewOp]
  rw [act_bind_ok h2]

theorem atViewArray_shape (a : View) {i : Iter (Act V) (Lv V)} {s : List Length} (h : HasShape i s) : HasShape (atViewArray a i) s :=
  ⟨[s], ⟨_, _, rfl, h, rfl⟩, by simp, ⟨s, by simp, rfl⟩, by simp⟩

omit [MultiIndex V] in
theorem valid_begin {t : List Nat} {i : List Int} (h : Valid (t.take i.length) i) : i.length ≤ t.length ∧ InRange ((t.map some).take i.length) i := by
  refine ⟨?_, ?_⟩
  · have := h.length
    simp at this
    omega
  · rw [← List.map_take]
    exact inRange_of_valid h

omit [MultiIndex V] in
theorem not_valid_begin {t : List Nat} {i : List Int} (hl : i.length ≤ t.length) (h : ¬ Valid (t.take i.length) i) : ¬ InRange ((t.map some).take i.length) i := by
  rw [← List.map_take]
  exact fun hr => h (valid_of_inRange (by simp; omega) hr)

theorem cell_elem (v : View) (t : List Nat) (hv : Shaped v (t.map some)) (i : Iter (Act V) (Lv V)) (j : List Int) (μ : Mem V) (x : V) (hx : Reads μ (elem i j) x) (hl : (index x).length ≤ t.length) :
    (Valid (t.take (index x).length) (index x) → ∃ w, elem (atViewArray v i) j μ = (.ok (.view w), μ) ∧ Shaped w ((t.drop (index x).length).map some) ∧ ∀ k, address w k = address v (index x ++ k)) ∧
    (¬ Valid (t.take (index x).length) (index x) → elem (atViewArray v i) j μ = (.error .check, μ)) := by
  refine ⟨fun h => ?_, fun h => ?_⟩
  · obtain ⟨w, h1, h2, h3⟩ := C26_at_view v _ hv (index x) (by simpa using hl) (valid_begin h).2
    refine ⟨w, ?_, by rw [List.map_drop]; exact h2, h3⟩
    rw [atViewArray_elem v i j μ x hx, h1]
    rfl
  · rw [atViewArray_elem v i j μ x hx, C26_at_view_reject v _ hv (index x) (by simpa using hl) (not_valid_begin hl h)]
    rfl

/-- C114. `at_view(v, i)`, where `v` has shape `t`, has the shape of `i`. Its element at `j` is the view of the elements of `v` whose indices begin with `i(j)`, if it's in range. If it isn't, the check fails. -/
theorem C114_cells (v : View) (t : List Nat) (hv : Shaped v (t.map some)) (i : Iter (Act V) (Lv V)) (s : List Length) (hi : HasShape i s) :
    HasShape (atViewArray v i) s ∧
    ∀ j μ x, Reads μ (elem i j) x → (index x).length ≤ t.length →
      (Valid (t.take (index x).length) (index x) → ∃ w, elem (atViewArray v i) j μ = (.ok (.view w), μ) ∧ Shaped w ((t.drop (index x).length).map some) ∧ ∀ k, address w k = address v (index x ++ k)) ∧
      (¬ Valid (t.take (index x).length) (index x) → elem (atViewArray v i) j μ = (.error .check, μ)) :=
  ⟨atViewArray_shape v hi, fun j μ x hx hl => cell_elem v t hv i j μ x hx hl⟩

/-- The assignments of a traversal, up to the first one that fails. -/
theorem cells_run (g : Option (V → V → V)) (dyn : Bool) (z : List Int) (hz : ∀ i ∈ z, i = 0) (v : View) (t : List Nat) (hv : Shaped v (t.map some)) (hd : Distinct v t) (i x : Iter (Act V) (Lv V)) (s : List Nat) (μ : Mem V)
    (I : List Int → V) (f : List Int → List Int → V) (hI : ∀ j, Valid s j → ∀ μ', SameOutside (InView v t) μ μ' → Reads μ' (elem i j) (I j)) (hlen : ∀ j, Valid s j → (index (I j)).length ≤ t.length)
    (hf : ∀ j, Valid s j → Valid (t.take (index (I j)).length) (index (I j)) → GivesCell (InView v t) μ (elem x j) (t.drop (index (I j)).length) (f j))
    (l1 l2 : List (List Int)) (hl : ∀ j ∈ l1 ++ l2, Valid s j) (h1 : ∀ j ∈ l1, Valid (t.take (index (I j)).length) (index (I j))) (h2 : ∀ j ∈ l2.head?, ¬ Valid (t.take (index (I j)).length) (index (I j)))
    (μ1 : Mem V) (ho : SameOutside (InView v t) μ μ1) (old : List Int → V) (hold : ElemsAre μ1 v t old) :
    ∃ μ', forAll (fun j => mapOp (cellPut g dyn z) [elem (atViewArray v i) j, elem x j]) (l1 ++ l2) μ1 = (if l2 = [] then .ok () else .error .check, μ') ∧ SameOutside (InView v t) μ1 μ' ∧
      ElemsAre μ' v t fun k => (l1.filter fun j => (index (I j)).isPrefixOf k).foldl (fun y j => putVal g y (f j (k.drop (index (I j)).length))) (old k) := by
  induction l1 generalizing μ1 old with
  | nil =>
    refine ⟨μ1, ?_, fun _ _ => rfl, hold⟩
    cases l2 with
    | nil => rfl
    | cons j l2 =>
      have hj := hl j (by simp)
      have hrej := (cell_elem v t hv i j μ1 (I j) (hI j hj μ1 ho) (hlen j hj)).2 (h2 j (by simp))
      simp only [List.nil_append, forAll]
      rw [act_bind, mapM_two, act_bind, hrej]
      simp
  | cons j l1 ih =>
    have hj := hl j (by simp)
    have hgood := h1 j (by simp)
    have hle := hlen j hj
    set n := (index (I j)).length with hn
    obtain ⟨w, w1, w2, w3⟩ := (cell_elem v t hv i j μ1 (I j) (hI j hj μ1 ho) hle).1 hgood
    have hval : ∀ k, Valid (t.drop n) k → Valid t (index (I j) ++ k) := fun k hk => by
      have := valid_append hgood hk
      rwa [List.take_append_drop] at this
    have hsub : ∀ p, InView w (t.drop n) p → InView v t p := by
      rintro p ⟨k, hk, rfl⟩
      exact ⟨_, hval k hk, w3 k⟩
    obtain ⟨μ2, r1, r2, r3⟩ := cellPut_run g dyn z hz w (t.drop n) w2 (by
        intro a b ha hb h
        rw [w3, w3] at h
        simpa using hd _ _ (hval a ha) (hval b hb) h) (InView v t) hsub μ μ1 ho (fun k => old (index (I j) ++ k)) (f j) (fun k hk => by rw [w3]; exact hold _ (hval k hk)) _ _ w1 (hf j hj hgood)
    have r2' : SameOutside (InView v t) μ1 μ2 := fun p hp => r2 p fun h => hp (hsub p h)
    have hnew : ElemsAre μ2 v t fun k => if (index (I j)).isPrefixOf k then putVal g (old k) (f j (k.drop n)) else old k := by
      intro k hk
      beta_reduce
      split
      · next h =>
        obtain ⟨k', rfl⟩ := List.isPrefixOf_iff_prefix.mp h
        have hk' : Valid (t.drop n) k' := by
          rw [← List.take_append_drop n t] at hk
          obtain ⟨a, b, e, ha, hb⟩ := valid_split hk
          have : a = index (I j) := by
            have := congrArg (List.take n) e
            rw [List.take_append_of_le_length (by omega), List.take_of_length_le (by omega), List.take_append_of_le_length (by have := ha.length; simp at this; omega), List.take_of_length_le (by have := ha.length; simp at this; omega)] at this
            exact this.symm
          subst this
          rw [List.append_cancel_left e]
          exact hb
        have := r3 k' hk'
        rw [w3] at this
        rw [this]
        simp [hn]
      · next h =>
        rw [r2 _ ?_, hold k hk]
        rintro ⟨k', hk', e⟩
        rw [w3] at e
        have := hd _ _ hk (hval k' hk') e
        exact h (List.isPrefixOf_iff_prefix.mpr ⟨k', this.symm⟩)
    obtain ⟨μ3, s1, s2, s3⟩ := ih (fun k hk => hl k (by simp only [List.cons_append, List.mem_cons]; exact .inr hk)) (fun k hk => h1 k (by simp [hk])) μ2 (outside_trans ho r2' (fun _ h => h) (fun _ h => h)) _ hnew
    refine ⟨μ3, ?_, outside_trans r2' s2 (fun _ h => h) (fun _ h => h), ?_⟩
    · simp only [List.cons_append, forAll]
      rw [act_bind_ok r1]
      exact s1
    · intro k hk
      rw [s3 k hk]
      beta_reduce
      rw [List.filter_cons]
      split
      · rfl
      · rfl

/-- C114. `at_view(v, i) = x`, or `at_view(v, i) OP x`, where `v` is a view of shape `t` without repeated elements, and neither `i` nor `x` depend on the elements of `v`. Each element of `x` is a number, or an array with the shape of the cell. The
cells that come before the first index that's out of range (all of them if there isn't any; these are `l1`) are assigned in row-major order: an element of `v` is changed by each index that its own index begins with. Nothing else changes. If
there's an index out of range then the check fails. -/
theorem C114_put (g : Option (V → V → V)) (dyn : Bool) (z : List Int) (hz : ∀ i ∈ z, i = 0) (dyn' : Bool) (z' : List Int) (hz' : ∀ i ∈ z', i = 0) (v : View) (t : List Nat) (hv : Shaped v (t.map some)) (hd : Distinct v t)
    (i x : Iter (Act V) (Lv V)) (si sx : List Length) (s : List Nat) (hi : HasShape i si) (hx : HasShape x sx) (hm : Merge [si, sx] (s.map some)) (μ : Mem V) (old : List Int → V) (hold : ElemsAre μ v t old)
    (I : List Int → V) (f : List Int → List Int → V) (hI : ∀ j, Valid s j → ∀ μ', SameOutside (InView v t) μ μ' → Reads μ' (elem i j) (I j)) (hlen : ∀ j, Valid s j → (index (I j)).length ≤ t.length)
    (hf : ∀ j, Valid s j → Valid (t.take (index (I j)).length) (index (I j)) → GivesCell (InView v t) μ (elem x j) (t.drop (index (I j)).length) (f j))
    (l1 l2 : List (List Int)) (hl : rowMajor s = l1 ++ l2) (h1 : ∀ j ∈ l1, Valid (t.take (index (I j)).length) (index (I j))) (h2 : ∀ j ∈ l2.head?, ¬ Valid (t.take (index (I j)).length) (index (I j))) :
    ∃ μ', atViewPut g dyn z dyn' z' v i x μ = (if l2 = [] then .ok () else .error .check, μ') ∧ SameOutside (InView v t) μ μ' ∧
      ∀ k, Valid t k → μ' (address v k) = some ((l1.filter fun j => (index (I j)).isPrefixOf k).foldl (fun y j => putVal g y (f j (k.drop (index (I j)).length))) (old k)) := by
  unfold atViewPut
  rw [run_forAll dyn z hz _ _ x si sx s (atViewArray_shape _ hi) hx hm, hl]
  exact cells_run g dyn' z' hz' v t hv hd i x s μ I f hI hlen hf l1 l2 (fun j hj => Spec.mem_rowMajor.mp (hl ▸ hj)) h1 h2 μ (fun _ _ => rfl) old hold

/-- C114. If the cells are different, which is when no index is the beginning of another, and they are all in range, then after `at_view(v, i) = x` each cell is the element of `x`. -/
theorem C114_distinct (dyn : Bool) (z : List Int) (hz : ∀ i ∈ z, i = 0) (dyn' : Bool) (z' : List Int) (hz' : ∀ i ∈ z', i = 0) (v : View) (t : List Nat) (hv : Shaped v (t.map some)) (hd : Distinct v t)
    (i x : Iter (Act V) (Lv V)) (si sx : List Length) (s : List Nat) (hi : HasShape i si) (hx : HasShape x sx) (hm : Merge [si, sx] (s.map some)) (μ : Mem V) (old : List Int → V) (hold : ElemsAre μ v t old)
    (I : List Int → V) (f : List Int → List Int → V) (hI : ∀ j, Valid s j → ∀ μ', SameOutside (InView v t) μ μ' → Reads μ' (elem i j) (I j))
    (hin : ∀ j, Valid s j → Valid (t.take (index (I j)).length) (index (I j))) (hf : ∀ j, Valid s j → GivesCell (InView v t) μ (elem x j) (t.drop (index (I j)).length) (f j))
    (hne : ∀ j j', Valid s j → Valid s j' → index (I j) <+: index (I j') → j = j') :
    ∃ μ', atViewPut none dyn z dyn' z' v i x μ = (.ok (), μ') ∧ SameOutside (InView v t) μ μ' ∧
      (∀ j k, Valid s j → Valid (t.drop (index (I j)).length) k → μ' (address v (index (I j) ++ k)) = some (f j k)) ∧
      ∀ k, Valid t k → (∀ j, Valid s j → ¬ index (I j) <+: k) → μ' (address v k) = some (old k) := by
  obtain ⟨μ', e1, e2, e3⟩ := C114_put none dyn z hz dyn' z' hz' v t hv hd i x si sx s hi hx hm μ old hold I f hI (fun j hj => (valid_begin (hin j hj)).1) (fun j hj _ => hf j hj) (rowMajor s) [] (by simp)
    (fun j hj => hin j (Spec.mem_rowMajor.mp hj)) (by simp)
  refine ⟨μ', by simpa using e1, e2, ?_, ?_⟩
  · intro j k hj hk
    have hv' : Valid t (index (I j) ++ k) := by
      have := valid_append (hin j hj) hk
      rwa [List.take_append_drop] at this
    rw [e3 _ hv']
    have : (rowMajor s).filter (fun j' => (index (I j')).isPrefixOf (index (I j) ++ k)) = [j] := by
      have key : ∀ j' ∈ rowMajor s, (index (I j')).isPrefixOf (index (I j) ++ k) = decide (j' = j) := by
        intro j' hj'
        have hj' := Spec.mem_rowMajor.mp hj'
        rw [Bool.eq_iff_iff, List.isPrefixOf_iff_prefix, decide_eq_true_iff]
        constructor
        · intro h
          rcases List.prefix_or_prefix_of_prefix h (List.prefix_append (index (I j)) k) with h | h
          · exact hne j' j hj' hj h
          · exact (hne j j' hj hj' h).symm
        · rintro rfl
          exact List.prefix_append _ _
      rw [List.filter_congr key]
      have := (nodup_rowMajor s).filter fun j' => decide (j' = j)
      have hmem : ∀ a, a ∈ (rowMajor s).filter (fun j' => decide (j' = j)) ↔ a = j := fun a => by
        simp only [List.mem_filter, decide_eq_true_iff]
        exact ⟨fun h => h.2, fun h => ⟨h ▸ Spec.mem_rowMajor.mpr hj, h⟩⟩
      exact List.perm_singleton.mp ((List.perm_ext_iff_of_nodup this (List.nodup_singleton j)).mpr fun a => by rw [hmem]; simp)
    rw [this]
    simp [putVal]
  · intro k hk hno
    rw [e3 k hk]
    rw [List.filter_eq_nil_iff.mpr fun j hj => by
      rw [List.isPrefixOf_iff_prefix]
      exact hno j (Spec.mem_rowMajor.mp hj)]
    rfl

end

/-- A 3x2 array at 0, two indices at 10 and a 2x2 array at 20. -/
def egCells : Mem NumOrIndex := fun p =>
  if 0 ≤ p ∧ p < 6 then some (.num (100 + p)) else if p = 10 then some (.idx [2]) else if p = 11 then some (.idx [0]) else if 20 ≤ p ∧ p < 24 then some (.num p) else none

/-- The hypotheses of `C114_distinct`, and so of `C114_put`, for `at_view(a, i) = iter<1>(b)`: the last row of `a` becomes the first of `b` and the first row becomes the second of `b`. The other one doesn't change. -/
example (dyn dyn' : Bool) : ∃ μ', atViewPut none dyn [] dyn' [] ⟨[⟨3, 2⟩, ⟨2, 1⟩], 0⟩ (View.refs ⟨[⟨2, 1⟩], 10⟩) (.cell [⟨2, 2⟩] 20 fun p => pure (.view ⟨[⟨2, 1⟩], p⟩)) egCells = (.ok (), μ') ∧
    μ' 4 = some (.num 20) ∧ μ' 5 = some (.num 21) ∧ μ' 0 = some (.num 22) ∧ μ' 1 = some (.num 23) ∧ μ' 2 = some (.num 102) ∧ μ' 11 = some (.idx [0]) := by
  have hin : ∀ p, InView ⟨[⟨3, 2⟩, ⟨2, 1⟩], 0⟩ [3, 2] p → 0 ≤ p ∧ p < 6 := by
    rintro p ⟨k, hk, rfl⟩
    have : ∀ k ∈ rowMajor [3, 2], 0 ≤ address ⟨[⟨3, 2⟩, ⟨2, 1⟩], 0⟩ k ∧ address ⟨[⟨3, 2⟩, ⟨2, 1⟩], 0⟩ k < 6 := by decide +kernel
    exact this k (Spec.mem_rowMajor.2 hk)
  have hj : ∀ j, Valid [2] j → j = [0] ∨ j = [1] := fun j h => by
    have : ∀ j ∈ rowMajor [2], j = [0] ∨ j = [1] := by decide +kernel
    exact this j (Spec.mem_rowMajor.2 h)
  have hv0 : Valid [2] [0] := Spec.mem_rowMajor.1 (by decide +kernel)
  have hv1 : Valid [2] [1] := Spec.mem_rowMajor.1 (by decide +kernel)
  obtain ⟨μ', h1, h2, h3, h4⟩ := C114_distinct dyn [] (by simp) dyn' [] (by simp) ⟨[⟨3, 2⟩, ⟨2, 1⟩], 0⟩ [3, 2] (.cons rfl (.cons rfl .nil)) (by
      intro a b ha hb h
      have : ∀ a ∈ rowMajor [3, 2], ∀ b ∈ rowMajor [3, 2], address ⟨[⟨3, 2⟩, ⟨2, 1⟩], 0⟩ a = address ⟨[⟨3, 2⟩, ⟨2, 1⟩], 0⟩ b → a = b := by decide +kernel
      exact this a (Spec.mem_rowMajor.2 ha) b (Spec.mem_rowMajor.2 hb) h)
    (View.refs ⟨[⟨2, 1⟩], 10⟩) (.cell [⟨2, 2⟩] 20 fun p => pure (.view ⟨[⟨2, 1⟩], p⟩)) [some 2] [some 2] [2] (.cons rfl .nil) (.cons rfl .nil) (merge_same _) egCells
    (fun k => .num (100 + address ⟨[⟨3, 2⟩, ⟨2, 1⟩], 0⟩ k)) (by
      intro k hk
      have : ∀ k ∈ rowMajor [3, 2], egCells (address ⟨[⟨3, 2⟩, ⟨2, 1⟩], 0⟩ k) = some (.num (100 + address ⟨[⟨3, 2⟩, ⟨2, 1⟩], 0⟩ k)) := by decide +kernel
      exact this k (Spec.mem_rowMajor.2 hk))
    (fun j => if j = [0] then .idx [2] else .idx [0]) (fun j k => .num (20 + dot [2, 1] (j ++ k))) (by
      intro j h μ' ho
      refine reads_refs ?_
      rcases hj j h with rfl | rfl
      · rw [ho _ fun h => absurd (hin _ h) (by decide +kernel)]; decide +kernel
      · rw [ho _ fun h => absurd (hin _ h) (by decide +kernel)]; decide +kernel)
    (by
      intro j h
      rcases hj j h with rfl | rfl <;> exact Spec.mem_rowMajor.1 (by decide +kernel))
    (by
      intro j h μ' _
      have key : ∀ μ'', SameOutside (InView ⟨[⟨3, 2⟩, ⟨2, 1⟩], 0⟩ [3, 2]) egCells μ'' → ∀ p, 20 ≤ p → p < 24 → μ'' p = some (.num p) := fun μ'' ho p hp hp' => by
        rw [ho p fun h => absurd (hin p h) (by omega)]
        have h1 : ¬ (0 ≤ p ∧ p < 6) := by omega
        have h2 : p ≠ 10 := by omega
        have h3 : p ≠ 11 := by omega
        simp [egCells, h1, h2, h3, hp, hp']
      rcases hj j h with rfl | rfl
      · refine ⟨.view ⟨[⟨2, 1⟩], 20⟩, rfl, .inl ⟨_, rfl, .cons rfl .nil, fun μ'' ho k hk => ?_⟩⟩
        rcases hj k hk with rfl | rfl
        · exact key μ'' ho 20 (by decide) (by decide)
        · exact key μ'' ho 21 (by decide) (by decide)
      · refine ⟨.view ⟨[⟨2, 1⟩], 22⟩, rfl, .inl ⟨_, rfl, .cons rfl .nil, fun μ'' ho k hk => ?_⟩⟩
        rcases hj k hk with rfl | rfl
        · exact key μ'' ho 22 (by decide) (by decide)
        · exact key μ'' ho 23 (by decide) (by decide))
    (by
      intro j j' h h'
      rcases hj j h with rfl | rfl <;> rcases hj j' h' with rfl | rfl <;> decide +kernel)
  refine ⟨μ', h1, h3 [0] [0] hv0 hv0, h3 [0] [1] hv0 hv1, h3 [1] [0] hv1 hv0, h3 [1] [1] hv1 hv1, ?_, ?_⟩
  · refine h4 [1, 0] (Spec.mem_rowMajor.1 (by decide +kernel)) fun j h => ?_
    rcases hj j h with rfl | rfl <;> decide +kernel
  · rw [h2 11 fun h => absurd (hin _ h) (by decide)]
    decide +kernel

/-- test/at.cc:64, with numbers; then with an index out of range after the first one, and with a repeated index and an update. -/
example : ((atViewPut none true [] true [] ⟨[⟨3, 2⟩, ⟨2, 1⟩], 0⟩ (View.refs ⟨[⟨2, 1⟩], 10⟩) (.cell [⟨2, 1⟩] 0 fun p => pure (.val (.num (10 * p + 10)))) egCells).2 5 = some (.num 10)) ∧
    ((atViewPut none true [] true [] ⟨[⟨2, 2⟩, ⟨2, 1⟩], 0⟩ (View.refs ⟨[⟨2, -1⟩], 11⟩) (.cell [⟨2, 1⟩] 0 fun p => pure (.val (.num (10 * p + 10)))) egCells).1 = .error .check) ∧
    ((atViewPut none true [] true [] ⟨[⟨2, 2⟩, ⟨2, 1⟩], 0⟩ (View.refs ⟨[⟨2, -1⟩], 11⟩) (.cell [⟨2, 1⟩] 0 fun p => pure (.val (.num (10 * p + 10)))) egCells).2 1 = some (.num 10)) ∧
    ((atViewPut (some NumOrIndex.add) true [] true [] ⟨[⟨3, 2⟩, ⟨2, 1⟩], 0⟩ (View.refs ⟨[⟨2, 0⟩], 10⟩) (.cell [⟨2, 1⟩] 0 fun p => pure (.val (.num (10 * p + 10)))) egCells).2 4 = some (.num 134)) := by
  decide +kernel

end Ra.Props
