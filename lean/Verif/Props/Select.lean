import Verif.Model.Select
import Verif.Props.Manual
import Verif.Props.Crash
import Verif.Props.ViewProgram
import Verif.Props.GemmDot
/-!
# Array subscripts as places to assign to: C111
-/

namespace Ra.Spec

/-- In memory `μ`, the subscript arrays in `is` have the values `k` for the element `j` of the result, one for each array. -/
def Selects {V : Type} (n : IndexLike V) (μ : Mem V) (is : List (ArrSub (Act V) (Lv V))) (j k : List Int) : Prop :=
  List.Forall₂ (fun a k => ∃ x, Reads μ a x ∧ n.toIdx x = k) (positions is j) k

end Ra.Spec

namespace Ra.Props
open Spec

section
variable {V : Type}

/-! ## The elements -/

/-- With the arrays read first. -/
def wrapSub : ArrSub (Act V) (Lv V) → ArrSub (Act V) (Lv V)
  | .sub i => .sub i
  | .array I s => .array (.node (mapOp readOp) [I]) s

theorem wrap_msub (is : List (ArrSub (Act V) (Lv V))) : (is.map wrapSub).map msub = is.map msub := by
  rw [List.map_map]
  refine List.map_congr_left fun i _ => ?_
  cases i <;> rfl

theorem wrap_kept (is : List (ArrSub (Act V) (Lv V))) : (is.map wrapSub).map ArrSub.kept = is.map ArrSub.kept := by
  rw [List.map_map]
  refine List.map_congr_left fun i _ => ?_
  cases i <;> rfl

theorem wrap_arrs (is : List (ArrSub (Act V) (Lv V))) : arrs (is.map wrapSub) = (arrs is).map fun i => .node (mapOp readOp) [i] := by
  induction is with
  | nil => rfl
  | cons i is ih => cases i <;> simp [arrs, wrapSub, ih]

theorem wrap_shape (is : List (ArrSub (Act V) (Lv V))) (s : List Length) : outerShape s (is.map wrapSub) = outerShape s is := by
  induction is generalizing s with
  | nil => rfl
  | cons i is ih =>
    cases i with
    | array I s0 => simp [outerShape, wrapSub, ih]
    | sub i => cases i <;> simp [outerShape, wrapSub, ih]

theorem wrap_index (is : List (ArrSub (Act V) (Lv V))) (j k : List Int) : outerIndex (is.map wrapSub) j k = outerIndex is j k := by
  induction is generalizing j k with
  | nil => rfl
  | cons i is ih =>
    cases i with
    | array I s0 => simp [outerIndex, wrapSub, ih]
    | sub i => cases i <;> simp [outerIndex, wrapSub, ih]

theorem wrap_positions (is : List (ArrSub (Act V) (Lv V))) (j : List Int) : positions (is.map wrapSub) j = (positions is j).map fun a => mapOp readOp [a] := by
  induction is generalizing j with
  | nil => rfl
  | cons i is ih =>
    cases i with
    | array I s0 => simp [positions, wrapSub, ih, elem, elems]
    | sub i => cases i <;> simp [positions, wrapSub, ih, ArrSub.takes]

theorem readOp_run {μ : Mem V} {a : Act V (Lv V)} {x : V} (h : Reads μ a x) : mapOp readOp [a] μ = (.ok (.val x), μ) := by
  obtain ⟨r, h1, h2⟩ := reads_elim h
  simp only [mapOp, List.mapM_cons, List.mapM_nil, id, bind_assoc, pure_bind]
  rw [act_bind_ok h1]
  simp only [readOp]
  rw [act_bind_ok h2]
  rfl

theorem selects_run (n : IndexLike V) {μ : Mem V} {l : List (Act V (Lv V))} {k : List Int} (h : List.Forall₂ (fun a k => ∃ x, Reads μ a x ∧ n.toIdx x = k) l k) :
    ∃ vs, (l.map fun a => mapOp readOp [a]).mapM id μ = (.ok vs, μ) ∧ vs.map (lvIndex n).toIdx = k := by
  induction h with
  | nil => exact ⟨[], rfl, rfl⟩
  | @cons a i l k h _ ih =>
    obtain ⟨x, h1, h2⟩ := h
    obtain ⟨vs, i1, i2⟩ := ih
    refine ⟨.val x :: vs, ?_, by rw [List.map_cons, i2]; exact congrArg (· :: k) h2⟩
    rw [List.map_cons, List.mapM_cons, id, act_bind_ok (readOp_run h1), act_bind_ok i1]
    rfl

/-- C111. The elements of `a(i, j, ...)` are references to the elements of `a` at the outer product of the subscripts. If a subscript is out of range, there's an error. -/
theorem C111_select (n : IndexLike V) (v : View) (t : List Nat) (hv : Shaped v (t.map some)) (is : List (ArrSub (Act V) (Lv V))) (hnew : ∀ k, .sub (.new k) ∉ is)
    (harr : ∃ I s0, .array I s0 ∈ is) (hI : ∀ I s0, .array I s0 ∈ is → HasShape I s0) (hax : axes (is.map ArrSub.kept) ≤ t.length) (ha : Accepts v.dims (is.map ArrSub.kept)) :
    ∃ e, v.select n (is.map msub) (arrs is) = .ok (some e) ∧ HasShape e (outerShape (t.map some) is) ∧
      ∀ j, j.length = (outerShape (t.map some) is).length → InRange (outerShape (t.map some) is) j → ∀ μ k, Selects n μ is j k →
        (InRange (t.map some) (outerIndex is j k) → Refers μ (elem e j) (address v (outerIndex is j k))) ∧
        (¬ InRange (t.map some) (outerIndex is j k) → elem e j μ = (.error .check, μ)) := by
  letI := lvIndex n
  obtain ⟨e, h1, h2, h3⟩ := C15_outer v t hv (fun p => (pure (.ref p) : Act V (Lv V))) (is.map wrapSub)
    (by
      intro k hk
      obtain ⟨i, hi, e⟩ := List.mem_map.mp hk
      cases i with
      | array I s0 => cases e
      | sub i => cases e; exact hnew k hi)
    (by
      obtain ⟨I, s0, h⟩ := harr
      exact ⟨_, s0, List.mem_map.mpr ⟨_, h, rfl⟩⟩)
    (by
      intro I s0 h
      obtain ⟨i, hi, e⟩ := List.mem_map.mp h
      cases i with
      | sub i => cases e
      | array I' s' =>
        cases e
        exact ⟨[s0], ⟨_, _, rfl, hI _ _ hi, rfl⟩, merge_one _⟩)
    (by rw [wrap_kept]; exact hax) (by rw [wrap_kept]; exact ha)
  rw [wrap_msub, wrap_arrs] at h1
  rw [wrap_shape] at h2 h3
  refine ⟨e, h1, h2, ?_⟩
  intro j hj hr μ k hk
  obtain ⟨vs, k1, k2⟩ := selects_run n hk
  have he := congrFun (h3 j hj hr) μ
  rw [wrap_positions, act_bind_ok k1] at he
  simp only [wrap_index] at he
  rw [show vs.map toIdx = k from k2] at he
  constructor
  · intro h
    rw [if_pos (by rw [wrap_index]; exact h)] at he
    exact he
  · intro h
    rw [if_neg (by rw [wrap_index]; exact h)] at he
    exact he

/-! ## Assignment -/

/-- The assignments of a traversal, up to the first one that fails. -/
theorem writes_run (op : List (Lv V) → Act V (Lv V)) (g : V → V → V)
    (hop : ∀ {μ : Mem V} {d x : Act V (Lv V)} {p : Int} {v y : V}, Refers μ d p → Reads μ x v → μ p = some y → mapOp op [d, x] μ = (.ok (.ref p), μ.upd p (g y v)))
    (hfail : ∀ {μ : Mem V} {d x : Act V (Lv V)}, d μ = (.error .check, μ) → mapOp op [d, x] μ = (.error .check, μ))
    (d x : Iter (Act V) (Lv V)) (s : List Nat) (μ : Mem V) (W : Int → Prop) (A : List Int → Int) (f : List Int → V) (good : List Int → Bool)
    (hd : ∀ j, Valid s j → ∀ μ', SameOutside W μ μ' → (good j = true → Refers μ' (elem d j) (A j)) ∧ (¬ good j = true → elem d j μ' = (.error .check, μ')))
    (hW : ∀ j, Valid s j → good j = true → W (A j)) (hmem : ∀ j, Valid s j → good j = true → (μ (A j)).isSome)
    (hf : ∀ j, Valid s j → ∀ μ', SameOutside W μ μ' → Reads μ' (elem x j) (f j))
    (l : List (List Int)) (hl : ∀ j ∈ l, Valid s j) (μ1 : Mem V) (hs : ∀ p, (μ1 p).isSome = (μ p).isSome) (ho : SameOutside W μ μ1) :
    ∃ μ', forAll (fun j => mapOp op [elem d j, elem x j]) l μ1 = (if l.all good then .ok () else .error .check, μ') ∧
      ∀ p, μ' p = (μ1 p).map fun y => (((l.takeWhile good).filter fun j => A j = p).map f).foldl g y := by
  induction l generalizing μ1 with
  | nil => exact ⟨μ1, rfl, fun p => by simp⟩
  | cons j l ih =>
    have hj := hl j (by simp)
    by_cases hgj : good j = true
    · obtain ⟨y, hy⟩ : ∃ y, μ1 (A j) = some y := Option.isSome_iff_exists.mp (by rw [hs]; exact hmem j hj hgj)
      have hrun := hop ((hd j hj μ1 ho).1 hgj) (hf j hj μ1 ho) hy
      obtain ⟨μ', h1, h2⟩ := ih (fun k hk => hl k (by simp [hk])) (μ1.upd (A j) (g y (f j)))
        (by
          intro p
          simp only [Mem.upd]
          split
          · next h => subst h; simp [← hs, hy]
          · exact hs p)
        (by
          intro p hp
          have hpj : p ≠ A j := fun h => hp (h ▸ hW j hj hgj)
          simp only [Mem.upd, if_neg hpj]
          exact ho p hp)
      refine ⟨μ', ?_, ?_⟩
      · simp only [forAll]
        rw [act_bind_ok hrun, h1]
        simp [hgj]
      · intro p
        rw [h2 p, List.takeWhile_cons, if_pos hgj]
        by_cases h : A j = p
        · subst h
          simp [Mem.upd, hy]
        · have : p ≠ A j := fun e => h e.symm
          simp [Mem.upd, this, h]
    · refine ⟨μ1, ?_, ?_⟩
      · simp only [forAll]
        rw [act_bind, hfail ((hd j hj μ1 ho).2 hgj)]
        simp [hgj]
      · intro p
        rw [List.takeWhile_cons, if_neg hgj]
        simp

theorem takeWhile_cut {l l1 l2 : List (List Int)} (good : List Int → Bool) (hl : l = l1 ++ l2) (h1 : ∀ j ∈ l1, good j = true) (h2 : ∀ j ∈ l2.head?, ¬ good j = true) :
    l.takeWhile good = l1 ∧ (l.all good = true ↔ l2 = []) := by
  subst hl
  induction l1 with
  | nil =>
    cases l2 with
    | nil => simp
    | cons j l2 =>
      have := h2 j (by simp)
      simp [this]
  | cons j l1 ih =>
    have hj := h1 j (by simp)
    obtain ⟨i1, i2⟩ := ih fun k hk => h1 k (by simp [hk])
    rw [List.cons_append, List.takeWhile_cons, if_pos hj, i1, List.all_cons, hj, Bool.true_and]
    exact ⟨rfl, i2⟩

theorem foldl_keep (f : List Int → V) (l : List (List Int)) (y : V) : (l.map f).foldl (fun _ y => y) y = match l.getLast? with
    | some j => f j
    | none => y := by
  induction l generalizing y with
  | nil => rfl
  | cons j l ih =>
    simp only [List.map_cons, List.foldl_cons, ih]
    cases l with
    | nil => rfl
    | cons k l => simp [List.getLast?_cons]

/-- An index of the right length that is in range. -/
theorem valid_of_range {t : List Nat} {i : List Int} (hl : i.length = t.length) (h : InRange (t.map some) i) : Valid t i := valid_of_inRange (by simpa using hl) h

theorem length_outerIndex (is : List (ArrSub (Act V) (Lv V))) (t : List Length) (hax : axes (is.map ArrSub.kept) ≤ t.length) (j k : List Int) (hj : j.length = (outerShape t is).length) :
    (outerIndex is j k).length = t.length := by
  induction is generalizing t j k with
  | nil => simpa [outerIndex, outerShape] using hj
  | cons i is ih =>
    cases i with
    | array I s0 =>
      simp only [List.map_cons, ArrSub.kept, axes, outerShape, List.length_append] at hax hj
      simp only [outerIndex, List.length_cons]
      rw [ih (t.drop 1) (by simp; omega) _ _ (by rw [List.length_drop]; omega)]
      simp; omega
    | sub i =>
      cases i with
      | «at» x =>
        simp only [List.map_cons, ArrSub.kept, axes, outerShape] at hax hj
        simp only [outerIndex, List.length_cons]
        rw [ih (t.drop 1) (by simp; omega) _ _ hj]
        simp; omega
      | range m o st =>
        simp only [List.map_cons, ArrSub.kept, axes, outerShape, List.length_cons] at hax hj
        simp only [outerIndex, List.length_cons]
        rw [ih (t.drop 1) (by simp; omega) _ _ (by rw [List.length_drop]; omega)]
        simp; omega
      | keep q =>
        simp only [List.map_cons, ArrSub.kept, axes, outerShape, List.length_append, List.length_take] at hax hj
        simp only [outerIndex, List.length_append, List.length_take]
        rw [ih (t.drop q) (by simp; omega) _ _ (by rw [List.length_drop]; omega)]
        simp; omega
      | new q =>
        simp only [List.map_cons, ArrSub.kept, axes, outerShape, List.length_append, List.length_replicate] at hax hj
        simp only [outerIndex]
        rw [ih t (by omega) _ _ (by rw [List.length_drop]; omega)]

/-- The traversal for `a(i, j, ...) = x` or `a(i, j, ...) OP= x`. -/
theorem select_run (op : List (Lv V) → Act V (Lv V)) (g : V → V → V)
    (hop : ∀ {μ : Mem V} {d x : Act V (Lv V)} {p : Int} {v y : V}, Refers μ d p → Reads μ x v → μ p = some y → mapOp op [d, x] μ = (.ok (.ref p), μ.upd p (g y v)))
    (hfail : ∀ {μ : Mem V} {d x : Act V (Lv V)}, d μ = (.error .check, μ) → mapOp op [d, x] μ = (.error .check, μ))
    (dyn : Bool) (z : List Int) (hz : ∀ i ∈ z, i = 0) (n : IndexLike V) (v : View) (t : List Nat) (hv : Shaped v (t.map some)) (is : List (ArrSub (Act V) (Lv V))) (hnew : ∀ k, .sub (.new k) ∉ is)
    (harr : ∃ I s0, .array I s0 ∈ is) (hI : ∀ I s0, .array I s0 ∈ is → HasShape I s0) (hax : axes (is.map ArrSub.kept) ≤ t.length) (ha : Accepts v.dims (is.map ArrSub.kept))
    (x : Iter (Act V) (Lv V)) (sx : List Length) (hx : HasShape x sx) (s : List Nat) (hm : Merge [outerShape (t.map some) is, sx] (s.map some)) (μ : Mem V)
    (hmem : ∀ k, Valid t k → (μ (address v k)).isSome) (place : List Int → List Int) (f : List Int → V)
    (hK : ∀ j, Valid s j → ∀ μ', SameOutside (InView v t) μ μ' → ∃ k, Selects n μ' is (j.take (outerShape (t.map some) is).length) k ∧
      place j = outerIndex is (j.take (outerShape (t.map some) is).length) k)
    (hf : ∀ j, Valid s j → ∀ μ', SameOutside (InView v t) μ μ' → Reads μ' (elem x j) (f j))
    (l1 l2 : List (List Int)) (hl : rowMajor s = l1 ++ l2) (h1 : ∀ j ∈ l1, Valid t (place j)) (h2 : ∀ j ∈ l2.head?, ¬ Valid t (place j)) :
    ∃ e μ', v.select n (is.map msub) (arrs is) = .ok (some e) ∧
      (do let _ ← ply (β := Unit) dyn never z (.node (mapOp op) [e, x]) : Act V Unit) μ = (if l2 = [] then .ok () else .error .check, μ') ∧
      ∀ p, μ' p = (μ p).map fun y => ((l1.filter fun j => address v (place j) = p).map f).foldl g y := by
  classical
  obtain ⟨e, e1, e2, e3⟩ := C111_select n v t hv is hnew harr hI hax ha
  have hlen : ∀ j, Valid s j → (j.take (outerShape (t.map some) is).length).length = (outerShape (t.map some) is).length := by
    intro j hj
    have := hm.1 (outerShape (t.map some) is) (by simp)
    have := hj.length
    simp at *
    omega
  have hr : ∀ j, Valid s j → InRange (outerShape (t.map some) is) (j.take (outerShape (t.map some) is).length) := by
    intro j hj
    have := inRange_of_merge hm (t := outerShape (t.map some) is) (by simp) hj
    refine ⟨by rw [hlen j hj], ?_⟩
    intro k n hk
    have hk' : k < (outerShape (t.map some) is).length := (List.getElem?_eq_some_iff.mp hk).1
    have := this.2 k n hk
    simpa [List.getD_eq_getElem?_getD, List.getElem?_take, hk'] using this
  have hp : ∀ j, Valid s j → (place j).length = t.length := by
    intro j hj
    obtain ⟨k, _, h⟩ := hK j hj μ (fun _ _ => rfl)
    rw [h, length_outerIndex is (t.map some) (by simpa using hax) _ _ (hlen j hj)]
    simp
  have hiff : ∀ j, Valid s j → (Valid t (place j) ↔ InRange (t.map some) (place j)) := fun j hj => ⟨inRange_of_valid, valid_of_range (hp j hj)⟩
  obtain ⟨μ', r1, r2⟩ := writes_run op g hop hfail e x s μ (InView v t) (fun j => address v (place j)) f (fun j => decide (Valid t (place j)))
    (by
      intro j hj μ' ho
      obtain ⟨k, k1, k2⟩ := hK j hj μ' ho
      have := e3 _ (hlen j hj) (hr j hj) μ' k k1
      rw [← elem_take e _ e2 j]
      rw [← k2] at this
      constructor
      · intro h
        exact this.1 ((hiff j hj).mp (of_decide_eq_true h))
      · intro h
        exact this.2 fun h' => h (decide_eq_true ((hiff j hj).mpr h')))
    (fun j hj h => ⟨place j, of_decide_eq_true h, rfl⟩) (fun j hj h => hmem _ (of_decide_eq_true h)) hf (rowMajor s) (fun j hj => mem_rowMajor.mp hj) μ (fun _ => rfl) (fun _ _ => rfl)
  obtain ⟨t1, t2⟩ := takeWhile_cut (fun j => decide (Valid t (place j))) hl (by simpa using h1) (by simpa using h2)
  refine ⟨e, μ', e1, ?_, ?_⟩
  · have := run_forAll (β := Unit) dyn z hz (mapOp op) e x _ sx s e2 hx hm
    rw [this, r1]
    by_cases h : l2 = []
    · rw [if_pos h, if_pos (t2.2 h)]
    · rw [if_neg h, if_neg fun h' => h (t2.1 h')]
  · intro p
    rw [r2 p, t1]

/-- C111. `a(i, j, ...) = x` with array subscripts. The place of the element `j` of the result is the index of `a` that is found with the subscripts. The elements that come before the first place that isn't in `a` (all of them
if there isn't any; these are `l1`) are assigned in row-major order, so if places are repeated the last one counts. Nothing else changes. If there is a place that isn't in `a`, the check fails. -/
theorem C111_assign (dyn : Bool) (z : List Int) (hz : ∀ i ∈ z, i = 0) (n : IndexLike V) (v : View) (t : List Nat) (hv : Shaped v (t.map some)) (is : List (ArrSub (Act V) (Lv V)))
    (hnew : ∀ k, .sub (.new k) ∉ is) (harr : ∃ I s0, .array I s0 ∈ is) (hI : ∀ I s0, .array I s0 ∈ is → HasShape I s0) (hax : axes (is.map ArrSub.kept) ≤ t.length)
    (ha : Accepts v.dims (is.map ArrSub.kept)) (x : Iter (Act V) (Lv V)) (sx : List Length) (hx : HasShape x sx) (s : List Nat) (hm : Merge [outerShape (t.map some) is, sx] (s.map some)) (μ : Mem V)
    (hmem : ∀ k, Valid t k → (μ (address v k)).isSome) (place : List Int → List Int) (f : List Int → V)
    (hK : ∀ j, Valid s j → ∀ μ', SameOutside (InView v t) μ μ' → ∃ k, Selects n μ' is (j.take (outerShape (t.map some) is).length) k ∧
      place j = outerIndex is (j.take (outerShape (t.map some) is).length) k)
    (hf : ∀ j, Valid s j → ∀ μ', SameOutside (InView v t) μ μ' → Reads μ' (elem x j) (f j))
    (l1 l2 : List (List Int)) (hl : rowMajor s = l1 ++ l2) (h1 : ∀ j ∈ l1, Valid t (place j)) (h2 : ∀ j ∈ l2.head?, ¬ Valid t (place j)) :
    ∃ μ', v.selectAssign n dyn z (is.map msub) (arrs is) x μ = (if l2 = [] then .ok () else .error .check, μ') ∧
      ∀ p, μ' p = match (l1.filter fun j => address v (place j) = p).getLast? with
        | some j => some (f j)
        | none => μ p := by
  obtain ⟨e, μ', e1, e2, e3⟩ := select_run setOp (fun _ y => y) (fun hd hx hp => set_run hd hx (by simp [hp])) (fun {μ d x} hd => by rw [mapM_two, act_bind, hd])
    dyn z hz n v t hv is hnew harr hI hax ha x sx hx s hm μ hmem place f hK hf l1 l2 hl h1 h2
  refine ⟨μ', ?_, ?_⟩
  · unfold View.selectAssign
    rw [lift_bind e1]
    exact e2
  · intro p
    rw [e3 p]
    simp only [foldl_keep]
    cases hg : (l1.filter fun j => address v (place j) = p).getLast? with
    | none => simp
    | some j =>
      have hj := List.mem_of_getLast? hg
      rw [List.mem_filter] at hj
      obtain ⟨y, hy⟩ := Option.isSome_iff_exists.mp (hmem _ (h1 j hj.1))
      rw [of_decide_eq_true hj.2] at hy
      simp [hy]

/-- C111. `a(i, j, ...) OP= x` with array subscripts, in the same way. If places are repeated, all the updates are done, in row-major order. -/
theorem C111_update (g : V → V → V) (dyn : Bool) (z : List Int) (hz : ∀ i ∈ z, i = 0) (n : IndexLike V) (v : View) (t : List Nat) (hv : Shaped v (t.map some)) (is : List (ArrSub (Act V) (Lv V)))
    (hnew : ∀ k, .sub (.new k) ∉ is) (harr : ∃ I s0, .array I s0 ∈ is) (hI : ∀ I s0, .array I s0 ∈ is → HasShape I s0) (hax : axes (is.map ArrSub.kept) ≤ t.length)
    (ha : Accepts v.dims (is.map ArrSub.kept)) (x : Iter (Act V) (Lv V)) (sx : List Length) (hx : HasShape x sx) (s : List Nat) (hm : Merge [outerShape (t.map some) is, sx] (s.map some)) (μ : Mem V)
    (hmem : ∀ k, Valid t k → (μ (address v k)).isSome) (place : List Int → List Int) (f : List Int → V)
    (hK : ∀ j, Valid s j → ∀ μ', SameOutside (InView v t) μ μ' → ∃ k, Selects n μ' is (j.take (outerShape (t.map some) is).length) k ∧
      place j = outerIndex is (j.take (outerShape (t.map some) is).length) k)
    (hf : ∀ j, Valid s j → ∀ μ', SameOutside (InView v t) μ μ' → Reads μ' (elem x j) (f j))
    (l1 l2 : List (List Int)) (hl : rowMajor s = l1 ++ l2) (h1 : ∀ j ∈ l1, Valid t (place j)) (h2 : ∀ j ∈ l2.head?, ¬ Valid t (place j)) :
    ∃ μ', v.selectUpdate n g dyn z (is.map msub) (arrs is) x μ = (if l2 = [] then .ok () else .error .check, μ') ∧
      ∀ p, μ' p = (μ p).map fun y => ((l1.filter fun j => address v (place j) = p).map f).foldl g y := by
  obtain ⟨e, μ', e1, e2, e3⟩ := select_run (updOp g) g (fun hd hx hp => upd_run g hd hx hp) (fun {μ d x} hd => by rw [mapM_two, act_bind, hd])
    dyn z hz n v t hv is hnew harr hI hax ha x sx hx s hm μ hmem place f hK hf l1 l2 hl h1 h2
  refine ⟨μ', ?_, e3⟩
  unfold View.selectUpdate
  rw [lift_bind e1]
  exact e2

end
end Ra.Props
