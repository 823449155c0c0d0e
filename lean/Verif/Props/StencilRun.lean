import Verif.Props.WindowSum
import Mathlib.Algebra.BigOperators.Group.List.Basic
import Mathlib.Tactic.Ring
/-!
# Programs with stencils, C108

The spec is in the first section.
-/

namespace Ra.Spec

section
variable {V : Type}

/-- `i` is an index that isn't on the border of the shape `s`. -/
def Inner (s : List Nat) (i : List Int) : Prop := List.Forall₂ (fun (n : Nat) (x : Int) => 1 ≤ x ∧ x + 1 < n) s i

/-- `a` and `w` have shape `s`, with at least two elements on each axis, and don't overlap. `a` has the values `va`, and the elements of `w` are different. -/
structure Grids (μ : Mem V) (s : List Nat) (a w : View) (va : List Int → V) : Prop where
  long : ∀ n ∈ s, 2 ≤ n
  shapeA : Shaped a (s.map some)
  shapeW : Shaped w (s.map some)
  distinct : Distinct w s
  apart : ∀ i j, Valid s i → Valid s j → address a i ≠ address w j
  value : ∀ i, Valid s i → μ (address a i) = some (va i)
  here : ∀ i, Valid s i → (μ (address w i)).isSome

variable [CommRing V]

/-- The sum of the second differences on each axis, which approximates the Laplacian. -/
def secondDiffs (va : List Int → V) (i : List Int) : V :=
  ((List.range i.length).map fun k => va (i.modify k (· + 1)) - 2 * va i + va (i.modify k (· - 1))).sum

/-- The memory was `μ` and now is `μ'`. The difference is that `w` has the second differences, except on the border. -/
def Diffused (μ μ' : Mem V) (s : List Nat) (w : View) (va : List Int → V) : Prop :=
  SameOutside (fun p => ∃ i, Inner s i ∧ p = address w i) μ μ' ∧ ∀ i, Inner s i → μ' (address w i) = some (secondDiffs va i)

instance (s : List Nat) (i : List Int) : Decidable (Inner s i) := by unfold Inner; infer_instance

/-- The values after `n` steps from `va` and `vw`: in each step the first goes to the second, except on the border, and then they are swapped. -/
def diffuse (s : List Nat) : Nat → (List Int → V) → (List Int → V) → (List Int → V) × (List Int → V)
  | 0, va, vw => (va, vw)
  | n + 1, va, vw => diffuse s n (fun i => if Inner s i then secondDiffs va i else vw i) va

/-- `mask` has the mask of the second differences, three on each axis: -2 for each axis in the middle, 1 next to it and else 0. It doesn't overlap `w`. -/
structure Star (μ : Mem V) (s : List Nat) (mask w : View) : Prop where
  shape : Shaped mask ((s.map fun _ => 3).map some)
  apart : ∀ i j, Valid (s.map fun _ => 3) i → Valid s j → address mask i ≠ address w j
  value : ∀ i, Valid (s.map fun _ => 3) i → μ (address mask i) =
    some (if (i.filter (· ≠ 1)).length = 0 then -2 * (s.length : V) else if (i.filter (· ≠ 1)).length = 1 then 1 else 0)

end

/-- The arrays after `n` swaps. -/
def exchanged : Nat → View → View → View × View
  | 0, a, w => (a, w)
  | n + 1, a, w => exchanged n w a

/-- The traversals begin at the first element. -/
def Started : StencilWay → Prop
  | .raw => True
  | .slices _ z => ∀ i ∈ z, i = 0
  | .explicit _ z => ∀ i ∈ z, i = 0
  | .arrayop _ z _ z' => (∀ i ∈ z, i = 0) ∧ ∀ i ∈ z', i = 0
  | .sumprod _ z => ∀ i ∈ z, i = 0
  | .sumprod2 _ z => ∀ i ∈ z, i = 0

end Ra.Spec

namespace Ra.Props
open Spec

/-! Indices. -/

theorem modify_add (j o : List Int) (k : Nat) (c : Int) : List.zipWith (· + ·) j (o.modify k (· + c)) = (List.zipWith (· + ·) j o).modify k (· + c) := by
  induction j generalizing o k with
  | nil => simp
  | cons x j ih =>
    rcases o with _ | ⟨y, o⟩
    · simp
    · rcases k with _ | k
      · simp [add_assoc]
      · simp [ih]

theorem nextTo_add (j o : List Int) (h : j.length = o.length) : nextTo (List.zipWith (· + ·) j o) = (nextTo o).map (List.zipWith (· + ·) j) := by
  have := fun k => modify_add j o k (-1)
  simp only [← sub_eq_add_neg] at this
  simp [nextTo, h, Function.comp_def, modify_add, this]

theorem add_ones {s : List Nat} {j : List Int} (h : j.length = s.length) : List.zipWith (· + ·) j (s.map fun _ => 1) = j.map (· + 1) := by
  induction j generalizing s with
  | nil => simp
  | cons x j ih =>
    rcases s with _ | ⟨n, s⟩
    · simp at h
    · simp at h
      simp only [List.map_cons, List.zipWith_cons_cons, ih h]

theorem valid_modify {s : List Nat} {i : List Int} (h : Valid s i) (k : Nat) (c : Int) (hc : ∀ (n : Nat) (x : Int), n ∈ s → x ∈ i → 0 ≤ x + c ∧ x + c < n) : Valid s (i.modify k (· + c)) := by
  induction s generalizing i k with
  | nil => rcases i with _ | ⟨x, i⟩ <;> simp_all [Valid]
  | cons n s ih =>
    rcases i with _ | ⟨x, i⟩
    · simp [Valid] at h
    · obtain ⟨h1, h2, h3⟩ := h
      rcases k with _ | k
      · have := hc n x (by simp) (by simp)
        exact ⟨this.1, this.2, h3⟩
      · exact ⟨h1, h2, ih h3 k fun m y hm hy => hc m y (by simp [hm]) (by simp [hy])⟩

theorem valid_ones (s : List Nat) : Valid (s.map fun _ => 3) (s.map fun _ => (1 : Int)) := by
  induction s with
  | nil => trivial
  | cons n s ih => exact ⟨by simp, by simp, ih⟩

theorem valid_next {s : List Nat} {o : List Int} (ho : o ∈ nextTo (s.map fun _ => 1)) : Valid (s.map fun _ => 3) o := by
  simp only [nextTo, List.mem_append, List.mem_map] at ho
  rcases ho with ⟨k, _, rfl⟩ | ⟨k, _, rfl⟩
  · refine valid_modify (valid_ones s) k 1 ?_
    intro n x hn hx
    simp at hn hx
    omega
  · have := valid_modify (valid_ones s) k (-1) ?_
    · simpa [← sub_eq_add_neg] using this
    · intro n x hn hx
      simp at hn hx
      omega

/-- An index of the windows and one in the window. -/
theorem valid_sum {s : List Nat} {j o : List Int} (hj : Valid (s.map (· - 2)) j) (ho : Valid (s.map fun _ => 3) o) : Valid s (List.zipWith (· + ·) j o) := by
  induction s generalizing j o with
  | nil => rcases j with _ | ⟨x, j⟩ <;> rcases o with _ | ⟨y, o⟩ <;> simp_all [Valid]
  | cons n s ih =>
    rcases j with _ | ⟨x, j⟩ <;> rcases o with _ | ⟨y, o⟩ <;> simp only [List.map_cons, Valid] at hj ho
    refine ⟨?_, ?_, ih hj.2.2 ho.2.2⟩ <;> (beta_reduce; omega)

theorem inner_shift {s : List Nat} {i : List Int} : Inner s i ↔ ∃ j, Valid (s.map (· - 2)) j ∧ i = j.map (· + 1) := by
  constructor
  · intro h
    refine ⟨i.map (· - 1), ?_, by simp [Function.comp_def]⟩
    induction h with
    | nil => trivial
    | cons h _ ih => refine ⟨?_, ?_, ih⟩ <;> (beta_reduce; omega)
  · rintro ⟨j, hj, rfl⟩
    induction s generalizing j with
    | nil => rcases j with _ | ⟨x, j⟩ <;> simp_all [Valid, Inner]
    | cons n s ih =>
      rcases j with _ | ⟨x, j⟩
      · simp [Valid] at hj
      · simp only [List.map_cons, Valid] at hj
        exact .cons (by beta_reduce; omega) (ih j hj.2.2)

theorem inner_valid {s : List Nat} {i : List Int} (h : Inner s i) : Valid s i := by
  induction h with
  | nil => trivial
  | cons h _ ih => exact ⟨by omega, by omega, ih⟩

/-! Slices. -/

theorem dot_sum (st j o : List Int) (h : j.length = o.length) : dot st (List.zipWith (· + ·) j o) = dot st o + dot st j := by
  induction st generalizing j o with
  | nil => simp
  | cons x st ih =>
    rcases j with _ | ⟨y, j⟩ <;> rcases o with _ | ⟨u, o⟩ <;> simp at h
    · simp [dot]
    · simp only [List.zipWith_cons_cons, dot_cons, ih j o h]
      ring

theorem fromb_inside (dims : List Dim) (s : List Nat) (h : List.Forall₂ DimLen dims (s.map some)) (hl : ∀ n ∈ s, 2 ≤ n) (o : List Int) (ho : Valid (s.map fun _ => 3) o) (pl : Int) (bk : Nat) :
    fromb pl bk dims (List.zipWith (fun (n o : Int) => .iota [(.const (n - 2), .const 1)] (.const o)) (s.map Nat.cast) o) =
      .ok (pl + dot (dims.map Dim.step) o, dims.map fun d => ⟨d.len - 2, d.step⟩, []) := by
  induction s generalizing dims o pl bk with
  | nil =>
    rcases o with _ | ⟨x, o⟩
    · cases h
      simp [fromb]
    · simp [Valid] at ho
  | cons n s ih =>
    rcases o with _ | ⟨x, o⟩
    · simp [Valid] at ho
    · obtain ⟨h1, h2, h3⟩ := ho
      beta_reduce at h2
      rcases dims with _ | ⟨d, dims⟩
      · cases h
      · obtain ⟨hd, hds⟩ := List.forall₂_cons.mp h
        have hd : d.len = n := hd
        have hn := hl n (by simp)
        have hlt : ¬ ((n : Int) - 2 < 0) := by omega
        have hck : (n : Int) - 2 = 0 ∨ (inside x d.len ∧ inside (x + ((n : Int) - 2 - 1) * 1) d.len) := by
          by_cases e : (n : Int) - 2 = 0
          · exact .inl e
          · right
            simp [inside]
            omega
        have hrec := ih dims hds (fun m hm => hl m (by simp [hm])) o h3 (pl + x * d.step) (bk + 1)
        simp only [List.map_cons, List.zipWith_cons_cons, fromb, iotaDims, val_const, bind, Except.bind, pure, Except.pure, List.length_cons, List.length_nil, List.any_cons, List.any_nil, hlt, iotaLoop]
        simp only [decide_false, Bool.or_false, Bool.false_eq_true, and_false, if_false, if_pos hck]
        rw [hrec]
        simp [dot_cons, add_assoc, hd]

/-- The slices of the benchmarks. -/
theorem slice_inside {v : View} {s : List Nat} (hv : Shaped v (s.map some)) (hl : ∀ n ∈ s, 2 ≤ n) (o : List Int) (ho : Valid (s.map fun _ => 3) o) :
    ∃ d, sliceFrom (s.map Nat.cast) o v = .ok d ∧ Shaped d ((s.map (· - 2)).map some) ∧ ∀ j, j.length = s.length → address d j = address v (List.zipWith (· + ·) j o) := by
  refine ⟨⟨v.dims.map fun d => ⟨d.len - 2, d.step⟩, v.cp + dot (v.dims.map Dim.step) o⟩, ?_, ?_, ?_⟩
  · rw [sliceFrom, View.from, fromb_inside v.dims s hv hl o ho]
    rfl
  · rw [Shaped]
    rw [Shaped] at hv
    generalize v.dims = dims at hv
    clear ho
    induction s generalizing dims with
    | nil => cases hv; exact .nil
    | cons n s ih =>
      rcases dims with _ | ⟨d, dims⟩
      · cases hv
      · obtain ⟨h1, h2⟩ := List.forall₂_cons.mp hv
        have h1 : d.len = n := h1
        have := hl n (by simp)
        refine .cons ?_ (ih (fun m hm => hl m (by simp [hm])) dims h2)
        show d.len - 2 = ((n - 2 : Nat) : Int)
        omega
  · intro j hj
    have : j.length = o.length := by rw [hj, length_of_valid ho]; simp
    simp only [address]
    rw [dot_sum _ _ _ this]
    simp only [List.map_map, Function.comp_def]
    ring

/-! Values around an index. -/

section
variable {V : Type} [IntCast V] [Add V] [Mul V]

/-- The value of the expression in the benchmarks. -/
def aroundVal (va : List Int → V) (i : List Int) : V := ((nextTo i).map va).foldl (· + ·) (centre i.length * va i)

theorem mapM_run {at_ : List Int → Act V V} {μ : Mem V} {f : List Int → V} (l : List (List Int)) (h : ∀ i ∈ l, at_ i μ = (.ok (f i), μ)) : l.mapM at_ μ = (.ok (l.map f), μ) := by
  induction l with
  | nil => rfl
  | cons i l ih =>
    rw [List.mapM_cons, act_bind_ok (h i (by simp)), act_bind_ok (ih fun k hk => h k (by simp [hk]))]
    rfl

theorem aroundAt_run {at_ : List Int → Act V V} {μ : Mem V} {f : List Int → V} (i : List Int) (h0 : at_ i μ = (.ok (f i), μ)) (h : ∀ k ∈ nextTo i, at_ k μ = (.ok (f k), μ)) :
    aroundAt at_ i μ = (.ok (aroundVal f i), μ) := by
  rw [aroundAt, act_bind_ok h0, act_bind_ok (mapM_run _ h)]
  rfl

theorem aroundAt_congr {at_ at' : List Int → Act V V} (i i' : List Int) (hl : i.length = i'.length) (h0 : at_ i = at' i') (h : (nextTo i).map at_ = (nextTo i').map at') :
    aroundAt at_ i = aroundAt at' i' := by
  have e : ∀ (l : List (List Int)) (g : List Int → Act V V), l.mapM g = (l.map g).mapM id := by
    intro l g
    induction l with
    | nil => rfl
    | cons x l ih => simp only [List.mapM_cons, List.map_cons, ih, id]
  simp only [aroundAt]
  rw [h0, e, e, h, hl]

theorem aroundVal_add (va : List Int → V) (j o : List Int) (h : j.length = o.length) :
    aroundVal va (List.zipWith (· + ·) j o) = aroundVal (fun k => va (List.zipWith (· + ·) j k)) o := by
  simp only [aroundVal, nextTo_add j o h]
  simp [h, Function.comp_def]

/-- The facts about one step that don't depend on the way. `d` is the inside of `w`. -/
theorem grids_slice {μ : Mem V} {s : List Nat} {a w : View} {va : List Int → V} (h : Grids μ s a w va) :
    ∃ d, sliceFrom (s.map Nat.cast) (s.map fun _ => 1) w = .ok d ∧ Shaped d ((s.map (· - 2)).map some) ∧ Distinct d (s.map (· - 2)) ∧
      (∀ j, Valid (s.map (· - 2)) j → address d j = address w (j.map (· + 1)) ∧ Inner s (j.map (· + 1))) ∧ ∀ p, InView d (s.map (· - 2)) p ↔ ∃ i, Inner s i ∧ p = address w i := by
  obtain ⟨d, h1, h2, h3⟩ := slice_inside h.shapeW h.long (s.map fun _ => 1) (valid_ones s)
  have h4 : ∀ j, Valid (s.map (· - 2)) j → address d j = address w (j.map (· + 1)) ∧ Inner s (j.map (· + 1)) := by
    intro j hj
    have hl : j.length = s.length := by rw [length_of_valid hj]; simp
    exact ⟨by rw [h3 j hl, add_ones hl], inner_shift.mpr ⟨j, hj, rfl⟩⟩
  refine ⟨d, h1, h2, ?_, h4, ?_⟩
  · intro j k hj hk e
    rw [(h4 j hj).1, (h4 k hk).1] at e
    have := h.distinct _ _ (inner_valid (h4 j hj).2) (inner_valid (h4 k hk).2) e
    exact List.map_injective_iff.mpr (fun x y hxy => by simpa using hxy) this
  · intro p
    constructor
    · rintro ⟨j, hj, rfl⟩
      exact ⟨_, (h4 j hj).2, (h4 j hj).1⟩
    · rintro ⟨i, hi, rfl⟩
      obtain ⟨j, hj, rfl⟩ := inner_shift.mp hi
      exact ⟨j, hj, (h4 j hj).1.symm⟩

/-- From the windows to the inside. -/
theorem grids_done {μ μ' : Mem V} {s : List Nat} {w d : View} {f : List Int → V}
    (hd : ∀ j, Valid (s.map (· - 2)) j → address d j = address w (j.map (· + 1)) ∧ Inner s (j.map (· + 1))) (hi : ∀ p, InView d (s.map (· - 2)) p ↔ ∃ i, Inner s i ∧ p = address w i)
    (h1 : SameOutside (InView d (s.map (· - 2))) μ μ') (h2 : ∀ j, Valid (s.map (· - 2)) j → μ' (address d j) = some (f (j.map (· + 1)))) :
    SameOutside (fun p => ∃ i, Inner s i ∧ p = address w i) μ μ' ∧ ∀ i, Inner s i → μ' (address w i) = some (f i) := by
  refine ⟨fun p hp => h1 p fun h => hp ((hi p).mp h), ?_⟩
  intro i hi
  obtain ⟨j, hj, rfl⟩ := inner_shift.mp hi
  rw [← (hd j hj).1, h2 j hj]

/-- The inside as `Windows`. -/
theorem grids_places (s : List Nat) : places s (s.map fun _ => 1) (s.map fun _ => 1) = s.map (· - 2) ∧ extent (s.map fun _ => 1) (s.map fun _ => 1) = s.map fun _ => 3 := by
  induction s with
  | nil => exact ⟨rfl, rfl⟩
  | cons n s ih =>
    simp only [places, extent, List.map_cons, List.zipWith_cons_cons] at ih ⊢
    exact ⟨by rw [ih.1], by rw [ih.2]⟩

theorem grids_apart {μ : Mem V} {s : List Nat} {a w : View} {va : List Int → V} (h : Grids μ s a w va) {i : List Int} (hi : Valid s i) : ¬ ∃ k, Inner s k ∧ address a i = address w k := by
  rintro ⟨k, hk, e⟩
  exact h.apart i k hi (inner_valid hk) e

theorem slices_shape (r : Nat) (c : View) (xs : List View) (t : List Length) (hc : Shaped c t) (hxs : ∀ v ∈ xs, Shaped v t) : HasShape (aroundSlices r c xs : Iter (Act V) (Lv V)) t := by
  have key : ∀ (xs : List View) (e : Iter (Act V) (Lv V)), (∀ v ∈ xs, Shaped v t) → HasShape e t → HasShape (xs.foldl (fun e x => binaryOp (· + ·) e x.refs) e) t := by
    intro xs
    induction xs with
    | nil => intro e _ h1; exact h1
    | cons v xs ih =>
      intro e hs h1
      exact ih (binaryOp (· + ·) e v.refs) (fun u hu => hs u (by simp [hu])) (binary_shape _ h1 (refs_shape (hs v (by simp))) (merge_same t))
  refine key xs _ hxs ?_
  refine binary_shape _ (rfl : HasShape (.scalar _) []) (refs_shape hc) ?_
  exact ⟨by simp, ⟨t, by simp, rfl⟩, by simp⟩

/-- What the right side of `f_slices` reads. -/
theorem slices_reads {ι : Type} {μ : Mem V} (r : Nat) (c : View) (xs : List ι) (g : ι → View) (j : List Int) (x : V) (f : ι → V) (h0 : μ (address c j) = some x)
    (h : ∀ v ∈ xs, μ (address (g v) j) = some (f v)) : Reads μ (elem (aroundSlices r c (xs.map g)) j) ((xs.map f).foldl (· + ·) (centre r * x)) := by
  have key : ∀ (xs : List ι) (e : Iter (Act V) (Lv V)) (y : V), (∀ v ∈ xs, μ (address (g v) j) = some (f v)) → Reads μ (elem e j) y →
      Reads μ (elem ((xs.map g).foldl (fun e x => binaryOp (· + ·) e x.refs) e) j) ((xs.map f).foldl (· + ·) y) := by
    intro xs
    induction xs with
    | nil => intro e y _ h2; exact h2
    | cons v xs ih =>
      intro e y hv h2
      exact ih (binaryOp (· + ·) e (g v).refs) (y + f v) (fun u hu => hv u (by simp [hu])) (reads_binary _ h2 (reads_refs (hv v (by simp))))
  exact key xs _ _ h (reads_binary _ (reads_scalar μ _ j) (reads_refs h0))

/-- The result of a step, before any algebra. -/
def Around (μ μ' : Mem V) (s : List Nat) (w : View) (va : List Int → V) : Prop :=
  SameOutside (fun p => ∃ i, Inner s i ∧ p = address w i) μ μ' ∧ ∀ i, Inner s i → μ' (address w i) = some (aroundVal va i)

theorem mapM_slices (ns : List Int) (a : View) (f : List Int → View) (l : List (List Int)) (h : ∀ o ∈ l, sliceFrom ns o a = .ok (f o)) :
    l.mapM (fun o => sliceFrom ns o a) = .ok (l.map f) := by
  induction l with
  | nil => rfl
  | cons o l ih =>
    rw [List.mapM_cons, h o (by simp), ih fun k hk => h k (by simp [hk])]
    rfl

theorem slices_step (dyn : Bool) (z : List Int) (hz : ∀ i ∈ z, i = 0) (s : List Nat) (a w : View) (μ : Mem V) (va : List Int → V) (h : Grids μ s a w va) :
    ∃ μ', stencilSlices dyn z (s.map Nat.cast) a w μ = (.ok (), μ') ∧ Around μ μ' s w va := by
  obtain ⟨d, d1, d2, d3, d4, d5⟩ := grids_slice h
  have hsl : ∀ o, ∃ x, Valid (s.map fun _ => 3) o → sliceFrom (s.map Nat.cast) o a = .ok x ∧ Shaped x ((s.map (· - 2)).map some) ∧
      ∀ j, j.length = s.length → address x j = address a (List.zipWith (· + ·) j o) := by
    intro o
    by_cases ho : Valid (s.map fun _ => 3) o
    · obtain ⟨x, hx⟩ := slice_inside h.shapeA h.long o ho
      exact ⟨x, fun _ => hx⟩
    · exact ⟨a, fun h => absurd h ho⟩
  choose g hg using hsl
  obtain ⟨c1, c2, c3⟩ := hg _ (valid_ones s)
  have hfold : ∀ j, Valid (s.map (· - 2)) j → aroundVal va (j.map (· + 1)) = (((nextTo (s.map fun _ => 1)).map fun o => va (List.zipWith (· + ·) j o)).foldl (· + ·)
      (centre s.length * va (List.zipWith (· + ·) j (s.map fun _ => 1)))) := by
    intro j hj
    have hl : j.length = s.length := by rw [length_of_valid hj]; simp
    rw [← add_ones hl, aroundVal_add _ _ _ (by simp [hl])]
    simp [aroundVal]
  obtain ⟨μ', a1, a2, a3⟩ := C27_view dyn z hz d (s.map (· - 2)) d2 d3 (aroundSlices s.length (g (s.map fun _ => 1)) ((nextTo (s.map fun _ => 1)).map g)) ((s.map (· - 2)).map some)
    (slices_shape _ _ _ _ c2 (by
      intro v hv
      obtain ⟨o, ho, rfl⟩ := List.mem_map.mp hv
      exact (hg o (valid_next ho)).2.1)) (merge_same _) μ
    (by
      intro j hj
      rw [(d4 j hj).1]
      exact h.here _ (inner_valid (d4 j hj).2)) (fun j => aroundVal va (j.map (· + 1)))
    (by
      intro j hj μ' hμ'
      have hl : j.length = s.length := by rw [length_of_valid hj]; simp
      have hval : ∀ o, Valid (s.map fun _ => 3) o → μ' (address (g o) j) = some (va (List.zipWith (· + ·) j o)) := by
        intro o ho
        have hv := valid_sum hj ho
        rw [(hg o ho).2.2 j hl, hμ' _ (fun hp => grids_apart h hv ((d5 _).mp hp.1)), h.value _ hv]
      rw [hfold j hj]
      exact slices_reads s.length _ _ g j _ _ (hval _ (valid_ones s)) fun o ho => hval o (valid_next ho))
  refine ⟨μ', ?_, grids_done d4 d5 a3 a2⟩
  have e1 : (s.map (Nat.cast : Nat → Int)).map (fun _ => (1 : Int)) = s.map fun _ => 1 := by rw [List.map_map]; rfl
  simp only [stencilSlices, e1]
  rw [lift_bind d1, lift_bind c1, lift_bind (mapM_slices _ a g _ fun o ho => (hg o (valid_next ho)).1)]
  rw [List.length_map]
  exact a1

theorem explicit_step (dyn : Bool) (z : List Int) (hz : ∀ i ∈ z, i = 0) (s : List Nat) (a w : View) (μ : Mem V) (va : List Int → V) (h : Grids μ s a w va) :
    (∃ μ', stencilExplicit dyn z (s.map Nat.cast) a w μ = (.ok (), μ') ∧ Around μ μ' s w va) ∧ stencilRaw (V := V) (s.map Nat.cast) a w = stencilExplicit dyn z (s.map Nat.cast) a w := by
  obtain ⟨d, d1, d2, d3, d4, d5⟩ := grids_slice h
  obtain ⟨p1, p2⟩ := grids_places s
  obtain ⟨st, s1, s2, s3⟩ := C24_stencil a s h.shapeA (s.map fun _ => 1) (s.map fun _ => 1) (by simp) (by simp) (by
    intro k hk
    have := h.long _ (List.getElem_mem hk)
    simp
    omega)
  have s2' : Shaped st ((s.map (· - 2) ++ s.map fun _ => 3).map some) := by
    rw [List.map_append, ← p1, ← p2]
    exact s2
  have s3' : ∀ i j, Valid (s.map (· - 2)) i → Valid (s.map fun _ => 3) j → address st (i ++ j) = address a (List.zipWith (· + ·) i j) := by
    intro i j hi hj
    rw [← p1] at hi
    rw [← p2] at hj
    exact (s3 i j hi hj).1
  obtain ⟨x, x1, x2, x3⟩ := cells_view (V := V) st _ _ s2'
  have ones : s.map (fun _ => (1 : Int)) = List.replicate s.length 1 := by simp
  have hel : ∀ j, Valid (s.map (· - 2)) j → elem (.node (mapOp (aroundOp s.length)) [x]) j = (do
      let v ← aroundAt (fun k => Act.read (address a k)) (j.map (· + 1))
      pure (.val v) : Act V (Lv V)) := by
    intro j hj
    have hl : j.length = s.length := by rw [length_of_valid hj]; simp
    obtain ⟨c, c1, c2, c3⟩ := x3 j (length_of_valid hj)
    show mapOp (aroundOp s.length) [elem x j] = _
    rw [c1]
    simp only [mapOp, List.mapM_cons, List.mapM_nil, id, pure_bind, aroundOp]
    have hat : ∀ o, Valid (s.map fun _ => 3) o → c.elemAt (Act.read (V := V)) o = Act.read (address a (List.zipWith (· + ·) j o)) := by
      intro o ho
      rw [(elemAt_eq c _ c2 _ o (length_of_valid ho)).1 (inRange_of_valid ho), c3, s3' j o hj ho]
    congr 1
    rw [← ones]
    refine aroundAt_congr _ _ (by simp [hl]) ?_ ?_
    · rw [hat _ (valid_ones s), add_ones hl]
    · rw [← add_ones hl, nextTo_add _ _ (by simp [hl]), List.map_map]
      exact List.map_congr_left fun o ho => hat o (valid_next ho)
  have e1 : (s.map (Nat.cast : Nat → Int)).map (fun _ => (1 : Int)) = s.map fun _ => 1 := by rw [List.map_map]; rfl
  have e2 : (s.map fun _ => 1).map (Nat.cast : Nat → Int) = s.map fun _ => 1 := by
    rw [List.map_map]
    exact List.map_congr_left fun _ _ => Nat.cast_one
  have hrun : stencilExplicit dyn z (s.map Nat.cast) a w = assign dyn z d.refs (.node (mapOp (aroundOp s.length)) [x]) := by
    have w1 : windowsOf (s.map Nat.cast) a = .ok st := by rw [windowsOf, e1, ← e2]; exact s1
    have x1' : st.cells (V := V) (s.length : Int) = .ok x := by rw [List.length_map] at x1; exact x1
    funext μ
    simp only [stencilExplicit, e1, List.length_map]
    rw [lift_bind w1, lift_bind d1, lift_bind x1']
  have hs : HasShape (.node (mapOp (aroundOp s.length)) [x] : Iter (Act V) (Lv V)) ((s.map (· - 2)).map some) := ⟨_, ⟨_, _, rfl, x2, rfl⟩, merge_one _⟩
  constructor
  · obtain ⟨μ', a1, a2, a3⟩ := C27_view dyn z hz d (s.map (· - 2)) d2 d3 (.node (mapOp (aroundOp s.length)) [x]) ((s.map (· - 2)).map some) hs (merge_same _) μ
      (by
        intro j hj
        rw [(d4 j hj).1]
        exact h.here _ (inner_valid (d4 j hj).2)) (fun j => aroundVal va (j.map (· + 1)))
      (by
        intro j hj μ' hμ'
        have hl : j.length = s.length := by rw [length_of_valid hj]; simp
        rw [hel j hj]
        have hat : ∀ o, Valid (s.map fun _ => 3) o → Act.read (address a (List.zipWith (· + ·) j o)) μ' = (.ok (va (List.zipWith (· + ·) j o)), μ') := by
          intro o ho
          have hv := valid_sum hj ho
          have : μ' (address a (List.zipWith (· + ·) j o)) = some (va (List.zipWith (· + ·) j o)) := by
            rw [hμ' _ (fun hp => grids_apart h hv ((d5 _).mp hp.1)), h.value _ hv]
          simp [Act.read, this]
        have run : aroundAt (fun k => Act.read (address a k)) (j.map (· + 1)) μ' = (.ok (aroundVal va (j.map (· + 1))), μ') := by
          refine aroundAt_run _ ?_ ?_
          · rw [← add_ones hl]
            exact hat _ (valid_ones s)
          · rw [← add_ones hl, nextTo_add _ _ (by simp [hl])]
            intro k hk
            obtain ⟨o, ho, rfl⟩ := List.mem_map.mp hk
            exact hat o (valid_next ho)
        simp only [Reads]
        rw [bind_assoc, act_bind_ok run]
        rfl)
    exact ⟨μ', by rw [hrun]; exact a1, grids_done d4 d5 a3 a2⟩
  · rw [hrun, assign, run_forAll dyn z hz _ _ _ _ _ _ (refs_shape d2) hs (merge_same _)]
    have loops : ∀ (s : List Nat) (f : List Int → Act V Unit), loopsInside (s.map Nat.cast) f = forAll (fun j => f (j.map (· + 1))) (rowMajor (s.map (· - 2))) := by
      intro s
      induction s with
      | nil => intro f; simp [loopsInside, rowMajor, forAll]
      | cons n s ih =>
        intro f
        have en : ((n : Int) - 2) = ((n - 2 : Nat) : Int) ∨ (n : Int) - 2 < 0 ∧ n - 2 = 0 := by omega
        have hloop : forLoop ((n : Int) - 2) (fun i => loopsInside (s.map Nat.cast) fun j => f ((i + 1) :: j)) =
            forLoop ((n - 2 : Nat) : Int) (fun i => loopsInside (V := V) (s.map Nat.cast) fun j => f ((i + 1) :: j)) := by
          rcases en with en | ⟨en, en'⟩
          · rw [en]
          · simp only [forLoop, en']
            have : ((n : Int) - 2).toNat = 0 := by omega
            rw [this]
            rfl
        simp only [List.map_cons, loopsInside]
        rw [hloop, forLoop_eq]
        simp only [ih, rowMajor, forAll_flatMap, forAll_mapped, List.map_cons]
    rw [stencilRaw, loops, forAll_eq (fun j => mapOp setOp _)]
    refine forAll_congr ?_
    intro j hj
    have hj := mem_rowMajor.mp hj
    have hl : j.length = s.length := by rw [length_of_valid hj]; simp
    rw [hel j hj, elem_refs]
    have hw := inner_valid (d4 j hj).2
    rw [aroundAt_congr (at' := fun k => Act.read (address a k)) (j.map (· + 1)) (j.map (· + 1)) rfl]
    · rw [mapM_two]
      simp only [pure_bind, bind_assoc, setOp, Lv.get]
      congr 1
      funext v
      rw [(elemAt_eq w s h.shapeW _ _ (length_of_valid hw)).1 (inRange_of_valid hw), (d4 j hj).1]
      exact bind_pure_unit.symm
    · have hv := valid_sum hj (valid_ones s)
      rw [add_ones hl] at hv
      exact (elemAt_eq a s h.shapeA _ _ (length_of_valid hv)).1 (inRange_of_valid hv)
    · rw [← add_ones hl, nextTo_add _ _ (by simp [hl]), List.map_map, List.map_map]
      refine List.map_congr_left fun o ho => ?_
      have hv := valid_sum hj (valid_next ho)
      exact (elemAt_eq a s h.shapeA _ _ (length_of_valid hv)).1 (inRange_of_valid hv)

end

/-! Sums. -/

section
variable {V : Type} [CommRing V]

theorem foldl_sum (l : List V) (x : V) : l.foldl (· + ·) x = x + l.sum := by
  induction l generalizing x with
  | nil => simp
  | cons y l ih => simp [ih, add_assoc]

theorem sum_diffs (l : List Nat) (f g : Nat → V) (c : V) : (l.map fun k => f k - 2 * c + g k).sum = -2 * (l.length : V) * c + ((l.map f).sum + (l.map g).sum) := by
  induction l with
  | nil => simp
  | cons k l ih =>
    simp only [List.map_cons, List.sum_cons, ih, List.length_cons, Nat.cast_add, Nat.cast_one]
    ring

theorem aroundVal_eq (va : List Int → V) (i : List Int) : aroundVal va i = secondDiffs va i := by
  rw [aroundVal, foldl_sum, secondDiffs, sum_diffs]
  simp [nextTo, centre, Function.comp_def]

theorem sum_three (t : List Nat) (f : List Int → V) : ((rowMajor (3 :: t)).map f).sum =
    ((rowMajor t).map fun o => f (0 :: o)).sum + ((rowMajor t).map fun o => f (1 :: o)).sum + ((rowMajor t).map fun o => f (2 :: o)).sum := by
  simp [rowMajor, List.range_succ, Function.comp_def, add_assoc]

/-- The number of entries that aren't 1. -/
def offCentre (o : List Int) : Nat := (o.filter (· ≠ 1)).length

theorem offCentre_cons (x : Int) (o : List Int) : offCentre (x :: o) = if x = 1 then offCentre o else offCentre o + 1 := by
  by_cases h : x = 1 <;> simp [offCentre, h]

theorem sum_centre (s : List Nat) (f : List Int → V) (c : V) : ((rowMajor (s.map fun _ => 3)).map fun o => f o * (if offCentre o = 0 then c else 0)).sum = f (s.map fun _ => 1) * c := by
  induction s generalizing f with
  | nil => simp [rowMajor, offCentre]
  | cons n s ih =>
    have := ih fun o => f (1 :: o)
    simp only [List.map_cons, sum_three, offCentre_cons]
    simp only [show ((0 : Int) = 1) = False by simp, show ((2 : Int) = 1) = False by simp, if_false, Nat.add_eq_zero_iff, one_ne_zero, and_false, mul_zero, if_true]
    rw [this]
    simp

theorem sum_star (s : List Nat) (f : List Int → V) (c : V) :
    ((rowMajor (s.map fun _ => 3)).map fun o => f o * (if offCentre o = 0 then c else if offCentre o = 1 then 1 else 0)).sum =
      f (s.map fun _ => 1) * c + ((nextTo (s.map fun _ => 1)).map f).sum := by
  induction s generalizing f with
  | nil => simp [rowMajor, offCentre, nextTo]
  | cons n s ih =>
    have h1 := ih fun o => f (1 :: o)
    have h0 := sum_centre s (fun o => f (0 :: o)) 1
    have h2 := sum_centre s (fun o => f (2 :: o)) 1
    simp only [List.map_cons, sum_three, offCentre_cons]
    simp only [show ((0 : Int) = 1) = False by simp, show ((2 : Int) = 1) = False by simp, if_false, Nat.add_eq_zero_iff, one_ne_zero, and_false, if_true, Nat.add_eq_right]
    rw [h0, h1, h2]
    simp only [nextTo, List.length_cons, List.length_map, List.range_succ_eq_map, List.map_cons, List.map_map, List.map_append, List.sum_append, List.sum_cons, List.modify_zero_cons, Function.comp_def,
      Nat.succ_eq_add_one, List.modify_succ_cons]
    norm_num
    ring

theorem windowSum_star (s : List Nat) (va vm : List Int → V) (j : List Int) (hj : Valid (s.map (· - 2)) j)
    (hm : ∀ i, Valid (s.map fun _ => 3) i → vm i = if (i.filter (· ≠ 1)).length = 0 then -2 * (s.length : V) else if (i.filter (· ≠ 1)).length = 1 then 1 else 0) :
    windowSum (s.map fun _ => 3) va vm j = secondDiffs va (j.map (· + 1)) := by
  have hl : j.length = s.length := by rw [length_of_valid hj]; simp
  rw [windowSum, foldl_sum, zero_add, List.map_congr_left (g := fun o => va (List.zipWith (· + ·) j o) *
    (if offCentre o = 0 then -2 * (s.length : V) else if offCentre o = 1 then 1 else 0)), sum_star s (fun o => va (List.zipWith (· + ·) j o))]
  · rw [← aroundVal_eq, ← add_ones hl, aroundVal_add _ _ _ (by simp [hl]), aroundVal, foldl_sum]
    simp [centre]
    ring
  · intro o ho
    rw [hm o (mem_rowMajor.mp ho)]
    rfl

/-! ## C108 -/

theorem mask_step (sums : View → View → View → Act V Unit) (s : List Nat) (a w mask : View) (μ : Mem V) (va : List Int → V) (h : Grids μ s a w va) (hm : Star μ s mask w)
    (hs : ∀ (lo hi : List Nat) (d : View) (vm : List Int → V), Windows μ s lo hi a mask d va vm →
      ∃ st, a.stencil (lo.map Nat.cast) (hi.map Nat.cast) = .ok st ∧ ∃ μ', sums st mask d μ = (.ok (), μ') ∧ Summed μ μ' s lo hi d va vm) :
    ∃ μ', stencilMask sums mask (s.map Nat.cast) a w μ = (.ok (), μ') ∧ Diffused μ μ' s w va := by
  obtain ⟨d, d1, d2, d3, d4, d5⟩ := grids_slice h
  obtain ⟨p1, p2⟩ := grids_places s
  obtain ⟨st, s1, μ', s2, s3, s4⟩ := hs (s.map fun _ => 1) (s.map fun _ => 1) d
    (fun i => if (i.filter (· ≠ 1)).length = 0 then -2 * (s.length : V) else if (i.filter (· ≠ 1)).length = 1 then 1 else 0)
    { lower := by simp
      upper := by simp
      fits := by
        intro k hk
        have := h.long _ (List.getElem_mem hk)
        simp
        omega
      shapeA := h.shapeA
      shapeM := by rw [p2]; exact hm.shape
      shapeD := by rw [p1]; exact d2
      distinct := by rw [p1]; exact d3
      apartA := by
        intro i hi hp
        rw [p1] at hp
        exact grids_apart h hi ((d5 _).mp hp)
      apartM := by
        intro i hi hp
        rw [p1] at hp
        rw [p2] at hi
        obtain ⟨k, hk, e⟩ := (d5 _).mp hp
        exact hm.apart i k hi (inner_valid hk) e
      valueA := h.value
      valueM := by
        intro i hi
        rw [p2] at hi
        exact hm.value i hi
      hereD := by
        intro j hj
        rw [p1] at hj
        rw [(d4 j hj).1]
        exact h.here _ (inner_valid (d4 j hj).2) }
  rw [p1] at s3 s4
  rw [p2] at s4
  refine ⟨μ', ?_, grids_done d4 d5 s3 fun j hj => ?_⟩
  · have e1 : (s.map (Nat.cast : Nat → Int)).map (fun _ => (1 : Int)) = s.map fun _ => 1 := by rw [List.map_map]; rfl
    have e2 : (s.map fun _ => 1).map (Nat.cast : Nat → Int) = s.map fun _ => 1 := by
      rw [List.map_map]
      exact List.map_congr_left fun _ _ => Nat.cast_one
    have w1 : windowsOf (s.map Nat.cast) a = .ok st := by rw [windowsOf, e1, ← e2]; exact s1
    simp only [stencilMask, e1]
    rw [lift_bind w1, lift_bind d1]
    exact s2
  · rw [s4 j hj, windowSum_star s va _ j hj fun _ _ => rfl]

variable [Inhabited V]

/-- C108. A step in any of the ways leaves the second differences of `a` in `w`, except on the border, and no other memory changes. -/
theorem C108_step (way : StencilWay) (hw : Started way) (s : List Nat) (a w mask : View) (μ : Mem V) (va : List Int → V) (h : Grids μ s a w va) (hm : Star μ s mask w) :
    ∃ μ', way.run mask (s.map Nat.cast) a w μ = (.ok (), μ') ∧ Diffused μ μ' s w va := by
  have key : ∀ μ', Around μ μ' s w va → Diffused μ μ' s w va := fun μ' h => ⟨h.1, fun i hi => by rw [h.2 i hi, aroundVal_eq]⟩
  cases way with
  | raw =>
    obtain ⟨⟨μ', h1, h2⟩, h3⟩ := explicit_step true [] (by simp) s a w μ va h
    exact ⟨μ', by rw [StencilWay.run, h3]; exact h1, key μ' h2⟩
  | slices dyn z =>
    obtain ⟨μ', h1, h2⟩ := slices_step dyn z hw s a w μ va h
    exact ⟨μ', h1, key μ' h2⟩
  | explicit dyn z =>
    obtain ⟨⟨μ', h1, h2⟩, h3⟩ := explicit_step dyn z hw s a w μ va h
    exact ⟨μ', h1, key μ' h2⟩
  | arrayop dyn z dyn' z' => exact mask_step _ s a w mask μ va h hm fun lo hi d vm => C108_sums dyn z hw.1 dyn' z' hw.2 s lo hi a mask d μ va vm
  | sumprod dyn z => exact mask_step _ s a w mask μ va h hm fun lo hi d vm => C108_prods dyn z hw s lo hi a mask d μ va vm
  | sumprod2 dyn z => exact mask_step _ s a w mask μ va h hm fun lo hi d vm => C108_verb dyn z hw s lo hi a mask d μ va vm

/-- C108. Any number of steps in any of the ways, with the arrays swapped after each step. -/
theorem C108_steps (way : StencilWay) (hw : Started way) (s : List Nat) (n : Nat) (a w mask : View) (μ : Mem V) (va vw : List Int → V) (ha : Grids μ s a w va) (hb : Grids μ s w a vw)
    (ma : Star μ s mask a) (mw : Star μ s mask w) :
    ∃ μ', swapSteps (way.run mask (s.map Nat.cast)) n a w μ = (.ok (), μ') ∧ SameOutside (fun p => ∃ i, Valid s i ∧ (p = address a i ∨ p = address w i)) μ μ' ∧
      ∀ i, Valid s i → μ' (address (exchanged n a w).1 i) = some ((diffuse s n va vw).1 i) ∧ μ' (address (exchanged n a w).2 i) = some ((diffuse s n va vw).2 i) := by
  induction n generalizing a w μ va vw with
  | zero => exact ⟨μ, rfl, fun p _ => rfl, fun i hi => ⟨ha.value i hi, hb.value i hi⟩⟩
  | succ n ih =>
    obtain ⟨μ₁, h1, h2, h3⟩ := C108_step way hw s a w mask μ va ha mw
    have hA : ∀ i, Valid s i → μ₁ (address a i) = μ (address a i) := by
      intro i hi
      exact h2 _ fun ⟨k, hk, e⟩ => ha.apart i k hi (inner_valid hk) e
    have hM : ∀ i, Valid (s.map fun _ => 3) i → μ₁ (address mask i) = μ (address mask i) := by
      intro i hi
      exact h2 _ fun ⟨k, hk, e⟩ => mw.apart i k hi (inner_valid hk) e
    have hW : ∀ i, Valid s i → μ₁ (address w i) = some (if Inner s i then secondDiffs va i else vw i) := by
      intro i hi
      by_cases e : Inner s i
      · rw [if_pos e, h3 i e]
      · rw [if_neg e, ← hb.value i hi]
        refine h2 _ fun ⟨k, hk, e'⟩ => e ?_
        rw [ha.distinct i k hi (inner_valid hk) e']
        exact hk
    obtain ⟨μ', g1, g2, g3⟩ := ih w a μ₁ (fun i => if Inner s i then secondDiffs va i else vw i) va
      { hb with
        value := hW
        here := fun i hi => by rw [hA i hi]; exact hb.here i hi }
      { ha with
        value := fun i hi => by rw [hA i hi]; exact ha.value i hi
        here := fun i hi => by rw [hW i hi]; rfl }
      { mw with value := fun i hi => by rw [hM i hi]; exact mw.value i hi }
      { ma with value := fun i hi => by rw [hM i hi]; exact ma.value i hi }
    refine ⟨μ', by rw [swapSteps, act_bind_ok h1]; exact g1, ?_, ?_⟩
    · intro p hp
      rw [g2 p fun ⟨i, hi, e⟩ => hp ⟨i, hi, e.symm⟩, h2 p fun ⟨i, hi, e⟩ => hp ⟨i, inner_valid hi, .inr e⟩]
    · exact g3

/-- C108. After any number of steps, the memory is the same with any two of the ways. -/
theorem C108_same (way way' : StencilWay) (hw : Started way) (hw' : Started way') (s : List Nat) (n : Nat) (a w mask : View) (μ : Mem V) (va vw : List Int → V) (ha : Grids μ s a w va)
    (hb : Grids μ s w a vw) (ma : Star μ s mask a) (mw : Star μ s mask w) :
    swapSteps (way.run mask (s.map Nat.cast)) n a w μ = swapSteps (way'.run mask (s.map Nat.cast)) n a w μ := by
  obtain ⟨μ₁, h1, h2, h3⟩ := C108_steps way hw s n a w mask μ va vw ha hb ma mw
  obtain ⟨μ₂, g1, g2, g3⟩ := C108_steps way' hw' s n a w mask μ va vw ha hb ma mw
  rw [h1, g1]
  congr 1
  funext p
  by_cases hp : ∃ i, Valid s i ∧ (p = address a i ∨ p = address w i)
  · obtain ⟨i, hi, e⟩ := hp
    have hs : (p = address (exchanged n a w).1 i) ∨ p = address (exchanged n a w).2 i := by
      clear h1 h2 h3 g1 g2 g3
      induction n generalizing a w va vw with
      | zero => exact e
      | succ n ih => exact ih w a vw va hb ha mw ma e.symm
    rcases hs with rfl | rfl
    · rw [(h3 i hi).1, (g3 i hi).1]
    · rw [(h3 i hi).2, (g3 i hi).2]
  · rw [h2 p hp, g2 p hp]

/-! ### The checks -/

/-- C108. On an axis with fewer than two elements, the program with slices fails a check, while the loop does nothing. -/
theorem C108_short (dyn : Bool) (z : List Int) (n : Nat) (hn : n < 2) (a w : View) (ha : Shaped a [some n]) (hw : Shaped w [some n]) (μ : Mem V) :
    stencilSlices dyn z [(n : Int)] a w μ = (.error .check, μ) ∧ stencilRaw [(n : Int)] a w μ = (.ok (), μ) := by
  constructor
  · have : sliceFrom [(n : Int)] [1] w = .error .check := by
      obtain ⟨dims, cp⟩ := w
      obtain ⟨d, rfl, hd⟩ : ∃ d : Dim, dims = [d] ∧ d.len = n := by
        rcases dims with _ | ⟨d, _ | ⟨d', dims⟩⟩
        · cases hw
        · exact ⟨d, rfl, (List.forall₂_cons.mp hw).1⟩
        · obtain ⟨_, h⟩ := List.forall₂_cons.mp hw
          cases h
      have hlt : (n : Int) - 2 < 0 := by omega
      simp [sliceFrom, View.from, fromb, iotaDims, val_const, bind, Except.bind, pure, Except.pure, hlt]
    simp only [stencilSlices, List.map_cons, List.map_nil, this]
    rfl
  · have : ((n : Int) - 2).toNat = 0 := by omega
    simp [stencilRaw, loopsInside, forLoop, this]
    rfl

end

/-! A case: two arrays of two axes, with the mask after them. -/

/-- Two arrays of shape {3, 4} and a mask of shape {3, 3}. The elements of the first are squares. -/
def exGrids : Mem Int := fun p =>
  if 0 ≤ p ∧ p < 12 then some (p * p) else if 12 ≤ p ∧ p < 24 then some 0 else if 24 ≤ p ∧ p < 33 then some ([0, 1, 0, 1, -4, 1, 0, 1, 0].getD (p - 24).toNat 0) else none

theorem exGrids_one (μ : Mem Int) (p q : Int) (va : List Int → Int) (hpq : p + 12 ≤ q ∨ q + 12 ≤ p) (h1 : ∀ i, Valid [3, 4] i → μ (address ⟨[⟨3, 4⟩, ⟨4, 1⟩], p⟩ i) = some (va i))
    (h2 : ∀ i, Valid [3, 4] i → (μ (address ⟨[⟨3, 4⟩, ⟨4, 1⟩], q⟩ i)).isSome) : Grids μ [3, 4] ⟨[⟨3, 4⟩, ⟨4, 1⟩], p⟩ ⟨[⟨3, 4⟩, ⟨4, 1⟩], q⟩ va where
  long := by simp
  shapeA := .cons rfl (.cons rfl .nil)
  shapeW := .cons rfl (.cons rfl .nil)
  distinct := by
    intro i j hi hj e
    obtain ⟨a, b, rfl, _, _, _, _⟩ := valid_two.mp hi
    obtain ⟨c, d, rfl, _, _, _, _⟩ := valid_two.mp hj
    simp [address, dot] at e
    simp
    omega
  apart := by
    intro i j hi hj
    obtain ⟨a, b, rfl, _, _, _, _⟩ := valid_two.mp hi
    obtain ⟨c, d, rfl, _, _, _, _⟩ := valid_two.mp hj
    simp [address, dot]
    omega
  value := h1
  here := h2

theorem exGrids_a : Grids exGrids [3, 4] ⟨[⟨3, 4⟩, ⟨4, 1⟩], 0⟩ ⟨[⟨3, 4⟩, ⟨4, 1⟩], 12⟩ (fun i => address ⟨[⟨3, 4⟩, ⟨4, 1⟩], 0⟩ i * address ⟨[⟨3, 4⟩, ⟨4, 1⟩], 0⟩ i) := by
  refine exGrids_one _ _ _ _ (by omega) ?_ ?_ <;>
  · intro i hi
    obtain ⟨a, b, rfl, _, _, _, _⟩ := valid_two.mp hi
    simp only [address, dot, exGrids, List.map_cons, List.map_nil, List.zipWith_cons_cons, List.zipWith_nil_left, List.sum_cons, List.sum_nil]
    split_ifs <;> first | omega | rfl

theorem exGrids_w : Grids exGrids [3, 4] ⟨[⟨3, 4⟩, ⟨4, 1⟩], 12⟩ ⟨[⟨3, 4⟩, ⟨4, 1⟩], 0⟩ (fun _ => 0) := by
  refine exGrids_one _ _ _ _ (by omega) ?_ ?_ <;>
  · intro i hi
    obtain ⟨a, b, rfl, _, _, _, _⟩ := valid_two.mp hi
    simp only [address, dot, exGrids, List.map_cons, List.map_nil, List.zipWith_cons_cons, List.zipWith_nil_left, List.sum_cons, List.sum_nil]
    split_ifs <;> first | omega | rfl

theorem exGrids_star (p : Int) (hp : p + 12 ≤ 24) : Star exGrids [3, 4] ⟨[⟨3, 3⟩, ⟨3, 1⟩], 24⟩ ⟨[⟨3, 4⟩, ⟨4, 1⟩], p⟩ where
  shape := .cons rfl (.cons rfl .nil)
  apart := by
    intro i j hi hj
    obtain ⟨a, b, rfl, _, _, _, _⟩ := valid_two.mp hi
    obtain ⟨c, d, rfl, _, _, _, _⟩ := valid_two.mp hj
    simp [address, dot]
    omega
  value := by
    have key : ∀ i ∈ rowMajor ([3, 4].map fun _ => 3), exGrids (address ⟨[⟨3, 3⟩, ⟨3, 1⟩], 24⟩ i) =
        some (if (i.filter (· ≠ 1)).length = 0 then -2 * (([3, 4] : List Nat).length : Int) else if (i.filter (· ≠ 1)).length = 1 then 1 else 0) := by decide +kernel
    exact fun i hi => key i (mem_rowMajor.mpr hi)

/-- With the squares of 0, ..., 11 by rows, the second differences on the two inner elements are 32 + 2. -/
example : ∃ μ', (StencilWay.sumprod2 true []).run ⟨[⟨3, 3⟩, ⟨3, 1⟩], 24⟩ [3, 4] ⟨[⟨3, 4⟩, ⟨4, 1⟩], 0⟩ ⟨[⟨3, 4⟩, ⟨4, 1⟩], 12⟩ exGrids = (.ok (), μ') ∧ μ' 17 = some 34 ∧ μ' 18 = some 34 ∧ μ' 16 = some 0 := by
  obtain ⟨μ', h1, h2, h3⟩ := C108_step (.sumprod2 true []) (by simp [Started]) [3, 4] _ _ _ exGrids _ exGrids_a (exGrids_star 12 (by omega))
  refine ⟨μ', h1, h3 [1, 1] (.cons (by simp) (.cons (by simp) .nil)), h3 [1, 2] (.cons (by simp) (.cons (by simp) .nil)), h2 16 ?_⟩
  rintro ⟨i, hi, e⟩
  obtain ⟨a, b, rfl, _, _, _, _⟩ := valid_two.mp (inner_valid hi)
  simp [Inner] at hi
  simp [address, dot] at e
  omega

/-- Two ways on the same case. -/
example (n : Nat) : swapSteps (StencilWay.run ⟨[⟨3, 3⟩, ⟨3, 1⟩], 24⟩ [3, 4] .raw) n ⟨[⟨3, 4⟩, ⟨4, 1⟩], 0⟩ ⟨[⟨3, 4⟩, ⟨4, 1⟩], 12⟩ exGrids =
    swapSteps (StencilWay.run ⟨[⟨3, 3⟩, ⟨3, 1⟩], 24⟩ [3, 4] (.arrayop true [0] false [0, 0])) n ⟨[⟨3, 4⟩, ⟨4, 1⟩], 0⟩ ⟨[⟨3, 4⟩, ⟨4, 1⟩], 12⟩ exGrids :=
  C108_same .raw (.arrayop true [0] false [0, 0]) trivial (by simp [Started]) [3, 4] n _ _ _ exGrids _ _ exGrids_a exGrids_w (exGrids_star 0 (by omega)) (exGrids_star 12 (by omega))

/-- `C108_short` on an array with one element. -/
example : stencilSlices true [] [1] ⟨[⟨1, 1⟩], 0⟩ ⟨[⟨1, 1⟩], 12⟩ exGrids = (.error .check, exGrids) ∧ stencilRaw [1] ⟨[⟨1, 1⟩], 0⟩ ⟨[⟨1, 1⟩], 12⟩ exGrids = (.ok (), exGrids) :=
  C108_short true [] 1 (by omega) ⟨[⟨1, 1⟩], 0⟩ ⟨[⟨1, 1⟩], 12⟩ (.cons rfl .nil) (.cons rfl .nil) exGrids

end Ra.Props
