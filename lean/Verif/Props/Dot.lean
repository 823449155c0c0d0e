import Verif.Model.Dot
import Verif.Props.AxisSum
import Verif.Props.Array
import Verif.Props.Manual
/-!
# C117: the ways to add up an operation on two arrays agree
-/

namespace Ra.Props

open Spec

section
variable {V : Type} [Zero V] [Add V]

/-! ## Specification -/

/-- The operation on each pair of elements, added up in row-major order, from 0. -/
def total (g : V → V → V) (s : List Nat) (fa fb : List Int → V) : V := (rowMajor s).foldl (fun c j => c + g (fa j) (fb j)) 0

omit [Zero V] [Add V] in
/-- `a`, `b` are views of shape `s` with elements `fa`, `fb` in memory `μ`, and `y` is a variable that isn't in either of them. -/
structure Operands (μ : Mem V) (y : Int) (s : List Nat) (a b : View) (fa fb : List Int → V) : Prop where
  shapeA : Shaped a (s.map some)
  shapeB : Shaped b (s.map some)
  valueA : ∀ j, Valid s j → μ (address a j) = some (fa j)
  valueB : ∀ j, Valid s j → μ (address b j) = some (fb j)
  apartA : ∀ j, Valid s j → address a j ≠ y
  apartB : ∀ j, Valid s j → address b j ≠ y
  y : (μ y).isSome

/-- The program gives the total of `g`, and changes nothing but its variable `y`. -/
def GivesTotal (g : V → V → V) (y : Int) (s : List Nat) (F : View → View → Act V V) : Prop :=
  ∀ (a b : View) (μ : Mem V) (fa fb : List Int → V), Operands μ y s a b fa fb → ∃ μ', F a b μ = (.ok (total g s fa fb), μ') ∧ SameOutside (· = y) μ μ'

/-! ## Accumulation in a variable -/

omit [Zero V] in
theorem plusAt_run {μ : Mem V} {y : Int} {w x : V} (h : μ y = some w) : plusAt y x μ = (.ok (), μ.upd y (w + x)) := by
  simp only [plusAt]
  rw [act_bind_ok (a := w) (μ' := μ) (by simp [Act.read, h])]
  simp [Act.write, h]

omit [Zero V] [Add V] in
theorem updVar_same (μ : Mem V) (y : Int) (w : V) : μ.upd y w y = some w := by simp [Mem.upd]

omit [Zero V] [Add V] in
theorem upd_outside (μ : Mem V) (y : Int) (w : V) : SameOutside (· = y) μ (μ.upd y w) := by
  intro p hp; simp only [Mem.upd]; rw [if_neg hp]

omit [Zero V] in
/-- Steps that add a term each. -/
theorem plus_run {ι β : Type} (F : ι → Act V β) (t : ι → V) (y : Int) (l : List ι) (μ0 μ : Mem V) (w : V) (h0 : SameOutside (· = y) μ0 μ) (hw : μ y = some w)
    (h : ∀ i ∈ l, ∀ μ', SameOutside (· = y) μ0 μ' → ∀ u, μ' y = some u → ∃ r, F i μ' = (.ok r, μ'.upd y (u + t i))) :
    ∃ μ', forAll F l μ = (.ok (), μ') ∧ SameOutside (· = y) μ0 μ' ∧ μ' y = some (l.foldl (fun c i => c + t i) w) := by
  induction l generalizing μ w with
  | nil => exact ⟨μ, rfl, h0, hw⟩
  | cons i l ih =>
    obtain ⟨r, hr⟩ := h i (by simp) μ h0 w hw
    obtain ⟨μ', h1, h2, h3⟩ := ih (μ.upd y (w + t i)) (w + t i) (outside_trans h0 (upd_outside _ _ _) (fun _ h => h) (fun _ h => h)) (updVar_same _ _ _)
      (fun k hk => h k (by simp [hk]))
    refine ⟨μ', ?_, h2, h3⟩
    rw [forAll, act_bind_ok hr, h1]

/-- From zero. -/
theorem fromZero_run {ι β : Type} (F : ι → Act V β) (t : ι → V) (y : Int) (l : List ι) (μ : Mem V) (hy : (μ y).isSome) (body : Act V Unit) (hb : body = forAll F l)
    (h : ∀ i ∈ l, ∀ μ', SameOutside (· = y) μ μ' → ∀ u, μ' y = some u → ∃ r, F i μ' = (.ok r, μ'.upd y (u + t i))) :
    ∃ μ', fromZero y body μ = (.ok (l.foldl (fun c i => c + t i) 0), μ') ∧ SameOutside (· = y) μ μ' := by
  obtain ⟨w, hw⟩ := Option.isSome_iff_exists.mp hy
  obtain ⟨μ', h1, h2, h3⟩ := plus_run F t y l μ (μ.upd y 0) 0 (upd_outside _ _ _) (updVar_same _ _ _) h
  refine ⟨μ', ?_, h2⟩
  simp only [fromZero]
  rw [act_bind_ok (a := ()) (μ' := μ.upd y 0) (by simp [Act.write, hw]), hb, act_bind_ok h1]
  simp [Act.read, h3]

omit [Zero V] in
theorem plusPair_run (g : V → V → V) (y : Int) {μ : Mem V} {a b : Act V (Lv V)} {u v w : V} (ha : Reads μ a u) (hb : Reads μ b v) (hw : μ y = some w) :
    mapOp (plusPairOp g y) [a, b] μ = (.ok (.ref y), μ.upd y (w + g u v)) := by
  obtain ⟨r, h1, h2⟩ := reads_elim ha
  obtain ⟨t, h3, h4⟩ := reads_elim hb
  rw [mapM_two, act_bind_ok h1, act_bind_ok h3]
  simp only [plusPairOp]
  rw [act_bind_ok h2, act_bind_ok h4, act_bind_ok (plusAt_run hw)]
  rfl

omit [Zero V] in
theorem plusOne_run (y : Int) {μ : Mem V} {a : Act V (Lv V)} {u w : V} (ha : Reads μ a u) (hw : μ y = some w) :
    mapOp (plusOneOp y) [a] μ = (.ok (.ref y), μ.upd y (w + u)) := by
  obtain ⟨r, h1, h2⟩ := reads_elim ha
  simp only [mapOp, List.mapM_cons, List.mapM_nil, id_eq, pure_bind, bind_assoc]
  rw [act_bind_ok h1]
  simp only [plusOneOp]
  rw [act_bind_ok h2, act_bind_ok (plusAt_run hw)]
  rfl

omit [Zero V] [Add V] in
theorem pairVal_reads (g : V → V → V) {μ : Mem V} {a b : Act V (Lv V)} {u v : V} (ha : Reads μ a u) (hb : Reads μ b v) : Reads μ (mapOp (pairValOp g) [a, b]) (g u v) := by
  obtain ⟨r, h1, h2⟩ := reads_elim ha
  obtain ⟨t, h3, h4⟩ := reads_elim hb
  simp only [Reads, mapM_two, bind_assoc]
  rw [act_bind_ok h1, act_bind_ok h3]
  simp only [pairValOp, bind_assoc]
  rw [act_bind_ok h2, act_bind_ok h4]
  rfl

omit [Zero V] [Add V] in
theorem Operands.readA {μ μ' : Mem V} {y : Int} {s : List Nat} {a b : View} {fa fb : List Int → V} (h : Operands μ y s a b fa fb) (hμ : SameOutside (· = y) μ μ') {j : List Int} (hj : Valid s j) :
    μ' (address a j) = some (fa j) := by rw [hμ _ (h.apartA j hj), h.valueA j hj]

omit [Zero V] [Add V] in
theorem Operands.readB {μ μ' : Mem V} {y : Int} {s : List Nat} {a b : View} {fa fb : List Int → V} (h : Operands μ y s a b fa fb) (hμ : SameOutside (· = y) μ μ') {j : List Int} (hj : Valid s j) :
    μ' (address b j) = some (fb j) := by rw [hμ _ (h.apartB j hj), h.valueB j hj]

omit [Zero V] [Add V] in
theorem ply_forAll (dyn : Bool) (z : List Int) (hz : ∀ i ∈ z, i = 0) (e : Iter (Act V) (Lv V)) (s : List Nat) (he : HasShape e (s.map some)) :
    (do let _ ← ply (β := Unit) dyn never z e; pure () : Act V Unit) = forAll (elem e) (rowMajor s) := by
  rw [ply_never dyn _ s he z hz]
  simp only [bind_assoc, pure_bind]
  exact bind_pure_unit

/-! ## C117 -/

/-- C117. One map that adds up, with either of the traversals. -/
theorem C117_map (g : V → V → V) (dyn : Bool) (z : List Int) (hz : ∀ i ∈ z, i = 0) (y : Int) (s : List Nat) : GivesTotal g y s (dotMap g dyn z y) := by
  intro a b μ fa fb h
  refine fromZero_run _ (fun j => g (fa j) (fb j)) y (rowMajor s) μ h.y _ (ply_forAll dyn z hz _ s (shape_two (refs_shape h.shapeA) (refs_shape h.shapeB) (merge_same _))) ?_
  intro j hj μ' hμ u hu
  rw [mem_rowMajor] at hj
  exact ⟨_, plusPair_run g y (reads_refs (h.readA hμ hj)) (reads_refs (h.readB hμ hj)) hu⟩

/-- C117. A map that adds up the elements of another. -/
theorem C117_maps (g : V → V → V) (dyn : Bool) (z : List Int) (hz : ∀ i ∈ z, i = 0) (y : Int) (s : List Nat) : GivesTotal g y s (dotMaps g dyn z y) := by
  intro a b μ fa fb h
  have h1 : HasShape (Iter.node (mapOp (pairValOp g)) [a.refs, b.refs]) (s.map some) := shape_two (refs_shape h.shapeA) (refs_shape h.shapeB) (merge_same _)
  refine fromZero_run _ (fun j => g (fa j) (fb j)) y (rowMajor s) μ h.y _ (ply_forAll dyn z hz _ s ⟨[s.map some], ⟨_, _, rfl, h1, rfl⟩, merge_one _⟩) ?_
  intro j hj μ' hμ u hu
  rw [mem_rowMajor] at hj
  exact ⟨_, plusOne_run y (pairVal_reads g (reads_refs (h.readA hμ hj)) (reads_refs (h.readB hμ hj))) hu⟩

omit [Zero V] [Add V] in
theorem verb_pair (f : List (Lv V) → Act V (Lv V)) (a b : Iter (Act V) (Lv V)) (s : List Nat) (ha : HasShape a (s.map some)) (hb : HasShape b (s.map some)) :
    ∃ e, mapVerb f [[0, 0]] [a, b] = some e ∧ HasShape e (s.map some) ∧ ∀ j, Valid s j → elem e j = mapOp f [elem a j, elem b j] := by
  obtain ⟨e, v1, v2, v3⟩ := C17_conjunction (m := Act V) f [[0, 0]] [a, b] [s.map some, s.map some] ⟨_, _, rfl, ha, _, _, rfl, hb, rfl⟩ (s.map some)
    ⟨.cons (by simp) (.cons (by simp) .nil), s.map some, [], by simp, by simpa [List.take_of_length_le] using merge_same (s.map some), by simpa [VerbShape, List.drop_of_length_le] using merge_same []⟩
  refine ⟨e, v1, v2, fun j hj => ?_⟩
  have hl : j.length = s.length := length_of_valid hj
  rw [v3 j (by simp [hl])]
  have : j.take s.length = j := List.take_of_length_le (by omega)
  simp [verb, this]

omit [Zero V] [Add V] in
theorem verb_single (f : List (Lv V) → Act V (Lv V)) (a : Iter (Act V) (Lv V)) (s : List Nat) (ha : HasShape a (s.map some)) :
    ∃ e, mapVerb f [[0]] [a] = some e ∧ HasShape e (s.map some) ∧ ∀ j, Valid s j → elem e j = mapOp f [elem a j] := by
  obtain ⟨e, v1, v2, v3⟩ := C17_conjunction (m := Act V) f [[0]] [a] [s.map some] ⟨_, _, rfl, ha, rfl⟩ (s.map some)
    ⟨.cons (by simp) .nil, s.map some, [], by simp, by simpa [List.take_of_length_le] using merge_one (s.map some), by simpa [VerbShape, List.drop_of_length_le] using merge_one []⟩
  refine ⟨e, v1, v2, fun j hj => ?_⟩
  have hl : j.length = s.length := length_of_valid hj
  rw [v3 j (by simp [hl])]
  have : j.take s.length = j := List.take_of_length_le (by omega)
  simp [verb, this]

/-- C117. With `wrank<0, 0>`. -/
theorem C117_verb (g : V → V → V) (dyn : Bool) (z : List Int) (hz : ∀ i ∈ z, i = 0) (y : Int) (s : List Nat) : GivesTotal g y s (dotVerb g dyn z y) := by
  intro a b μ fa fb h
  obtain ⟨e, v1, v2, v3⟩ := verb_pair (plusPairOp g y) a.refs b.refs s (refs_shape h.shapeA) (refs_shape h.shapeB)
  simp only [dotVerb, v1]
  refine fromZero_run _ (fun j => g (fa j) (fb j)) y (rowMajor s) μ h.y _ (ply_forAll dyn z hz _ s v2) ?_
  intro j hj μ' hμ u hu
  rw [mem_rowMajor] at hj
  rw [v3 j hj]
  exact ⟨_, plusPair_run g y (reads_refs (h.readA hμ hj)) (reads_refs (h.readB hμ hj)) hu⟩

/-- C117. With `wrank<0>` of `wrank<0, 0>`. -/
theorem C117_verbs (g : V → V → V) (dyn : Bool) (z : List Int) (hz : ∀ i ∈ z, i = 0) (y : Int) (s : List Nat) : GivesTotal g y s (dotVerbs g dyn z y) := by
  intro a b μ fa fb h
  obtain ⟨e, v1, v2, v3⟩ := verb_pair (pairValOp g) a.refs b.refs s (refs_shape h.shapeA) (refs_shape h.shapeB)
  obtain ⟨e', w1, w2, w3⟩ := verb_single (plusOneOp y) e s v2
  simp only [dotVerbs, v1, Option.bind_some, w1]
  refine fromZero_run _ (fun j => g (fa j) (fb j)) y (rowMajor s) μ h.y _ (ply_forAll dyn z hz _ s w2) ?_
  intro j hj μ' hμ u hu
  rw [mem_rowMajor] at hj
  rw [w3 j hj, v3 j hj]
  exact ⟨_, plusOne_run y (pairVal_reads g (reads_refs (h.readA hμ hj)) (reads_refs (h.readB hμ hj))) hu⟩

omit [Zero V] [Add V] in
theorem loops_eq (s : List Nat) (body : List Int → Act V Unit) : loops (s.map Nat.cast) body = forAll body (rowMajor s) := by
  induction s generalizing body with
  | nil =>
    simp only [List.map_nil, loops, rowMajor, forAll]
    exact bind_pure_unit.symm
  | cons n s ih =>
    simp only [List.map_cons, loops, ih, forLoop_eq, rowMajor]
    induction List.range n with
    | nil => rfl
    | cons i l ih' =>
      rw [forAll, ih', List.flatMap_cons, forAll_append, forAll_map]

omit [Zero V] [Add V] in
/-- `a(i, j, ...)` with all the subscripts. -/
theorem subscripts_ok {a : View} {s : List Nat} (ha : Shaped a (s.map some)) {j : List Int} (hj : Valid s j) :
    ∃ p, a.from (j.map fun i => .scalar (.const i)) = .ok p ∧ p.cp = address a j := by
  have hl : j.length = s.length := length_of_valid hj
  have hd := ha.length_eq
  simp only [List.length_map] at hd
  have hr : InRange ((s.map some).take j.length) j := by
    rw [List.take_of_length_le (by simp [hl])]
    exact inRange_of_valid hj
  obtain ⟨w, h1, h2, h3⟩ := C26_at_view a (s.map some) ha j (by simp [hl]) hr
  rw [C95_at_view a j (by omega) (by
    intro d hd' hu
    have hn := shaped_nat.mp ha
    have : d.len ∈ s.map (Nat.cast : Nat → Int) := by rw [← hn]; exact List.mem_map_of_mem hd'
    obtain ⟨n, _, e⟩ := List.mem_map.mp this
    simp only [UNB] at hu
    omega)] at h1
  refine ⟨w, h1, ?_⟩
  have h3' := h3 []
  rw [List.drop_of_length_le (by simp [hl])] at h2
  cases w with
  | mk d cp =>
    cases h2
    simpa [address, dot] using h3'

/-- C117. Loops with subscripts. -/
theorem C117_loops (g : V → V → V) (y : Int) (s : List Nat) : GivesTotal g y s (dotLoops g y) := by
  intro a b μ fa fb h
  refine fromZero_run _ (fun j => g (fa j) (fb j)) y (rowMajor s) μ h.y _ (by rw [shaped_nat.mp h.shapeA, loops_eq]) ?_
  intro j hj μ' hμ u hu
  rw [mem_rowMajor] at hj
  obtain ⟨p, p1, p2⟩ := subscripts_ok h.shapeA hj
  obtain ⟨q, q1, q2⟩ := subscripts_ok h.shapeB hj
  refine ⟨(), ?_⟩
  rw [lift_bind p1, lift_bind q1, p2, q2, act_bind_ok (a := fa j) (μ' := μ') (by simp [Act.read, h.readA hμ hj]),
    act_bind_ok (a := fb j) (μ' := μ') (by simp [Act.read, h.readB hμ hj])]
  exact plusAt_run hu

/-- C117. A loop on pointers, if both arrays are in row-major order. -/
theorem C117_raw (g : V → V → V) (y : Int) (s : List Nat) (a b : View) (ha : RowMajorSteps a.dims) (hb : RowMajorSteps b.dims) (μ : Mem V) (fa fb : List Int → V)
    (h : Operands μ y s a b fa fb) : ∃ μ', dotRaw g y (size s) a b μ = (.ok (total g s fa fb), μ') ∧ SameOutside (· = y) μ μ' := by
  refine fromZero_run (fun j => (do
    let u ← Act.read (address a j)
    let v ← Act.read (address b j)
    plusAt y (g u v) : Act V Unit)) (fun j => g (fa j) (fb j)) y (rowMajor s) μ h.y _ ?_ ?_
  · have e : (List.range (size s)).map (fun (k : Nat) => (k : Int)) = (rowMajor s).map (position s) := (map_position s).symm
    rw [forLoop_eq, ← forAll_map (fun (k : Nat) => (k : Int)) (fun i => (do
      let u ← Act.read (a.cp + i)
      let v ← Act.read (b.cp + i)
      plusAt y (g u v) : Act V Unit)), e, forAll_map]
    apply forAll_congr
    intro j hj
    rw [mem_rowMajor] at hj
    have e1 := container_address (shaped_nat.mp h.shapeA) ha hj
    have e2 := container_address (shaped_nat.mp h.shapeB) hb hj
    simp only [address, e1, e2]
  · intro j hj μ' hμ u hu
    rw [mem_rowMajor] at hj
    refine ⟨(), ?_⟩
    beta_reduce
    rw [act_bind_ok (a := fa j) (μ' := μ') (by simp [Act.read, h.readA hμ hj]), act_bind_ok (a := fb j) (μ' := μ') (by simp [Act.read, h.readB hμ hj])]
    exact plusAt_run hu

/-- C117. `sum` of the expression. There's no variable, so the memory doesn't change. -/
theorem C117_sum [Inhabited V] (g : V → V → V) (dyn : Bool) (z : List Int) (hz : ∀ i ∈ z, i = 0) (y : Int) (s : List Nat) (a b : View) (μ : Mem V) (fa fb : List Int → V)
    (h : Operands μ y s a b fa fb) : dotSum g dyn z a b μ = (.ok (total g s fa fb), μ) := by
  refine forEachRef_mem μ dyn z hz _ (0 : V) [pairExpr g a b] s [s.map some]
    ⟨_, _, rfl, ⟨[s.map some, s.map some], ⟨_, _, rfl, h.shapeA, _, _, rfl, h.shapeB, rfl⟩, merge_same _⟩, rfl⟩ (merge_one _) (fun j => [g (fa j) (fb j)]) ?_
    (fun c j => c + g (fa j) (fb j)) (fun _ _ _ => rfl)
  intro j hj c
  have e1 : (elem (a.reads : Iter (StateT V (Act V)) V) j).run c μ = (.ok (fa j, c), μ) := by
    show (StateT.lift (Act.read (address a j)) : StateT V (Act V) V).run c μ = _
    rw [StateT.run_lift, act_bind_ok (a := fa j) (μ' := μ) (by simp [Act.read, h.valueA j hj])]
    rfl
  have e2 : (elem (b.reads : Iter (StateT V (Act V)) V) j).run c μ = (.ok (fb j, c), μ) := by
    show (StateT.lift (Act.read (address b j)) : StateT V (Act V) V).run c μ = _
    rw [StateT.run_lift, act_bind_ok (a := fb j) (μ' := μ) (by simp [Act.read, h.valueB j hj])]
    rfl
  simp only [elems, List.mapM_cons, List.mapM_nil, id, pairExpr, elem, mapM_two, bind_assoc, pure_bind]
  rw [StateT.run_bind, act_bind_ok e1]
  simp only
  rw [StateT.run_bind, act_bind_ok e2]
  rfl

end

/-- C117. If `+` is associative and 0 is neutral, the total is the sum of the list of the terms. -/
theorem C117_total {V : Type} [AddMonoid V] (g : V → V → V) (s : List Nat) (fa fb : List Int → V) : total g s fa fb = ((rowMajor s).map fun j => g (fa j) (fb j)).sum := by
  have key : ∀ (l : List (List Int)) (c : V), l.foldl (fun c j => c + g (fa j) (fb j)) c = c + (l.map fun j => g (fa j) (fb j)).sum := by
    intro l
    induction l with
    | nil => simp
    | cons j l ih => intro c; simp [ih, add_assoc]
  rw [total, key, zero_add]

/-! Two matrices of 2 x 3, one of them by columns, and a variable. -/

def exDotMem : Mem Int := fun p => if 0 ≤ p ∧ p < 13 then some (p * p - 5) else none
def exDotA : View := ⟨[⟨2, 1⟩, ⟨3, 2⟩], 0⟩
def exDotB : View := ⟨[⟨2, 3⟩, ⟨3, 1⟩], 6⟩

theorem exDot : Operands exDotMem 12 [2, 3] exDotA exDotB (fun j => address exDotA j * address exDotA j - 5) (fun j => address exDotB j * address exDotB j - 5) := by
  refine ⟨shaped_nat.mpr rfl, shaped_nat.mpr rfl, ?_, ?_, ?_, ?_, rfl⟩
  all_goals
    intro j hj
    obtain ⟨i, k, rfl, h1, h2, h3, h4⟩ := valid_two.mp hj
    simp only [address, dot, exDotA, exDotB, exDotMem, List.map_cons, List.map_nil, List.zipWith_cons_cons, List.zipWith_nil_right, List.sum_cons, List.sum_nil]
  · rw [if_pos (by omega)]
  · rw [if_pos (by omega)]
  · omega
  · omega

example : ∃ μ', dotMap (· * ·) true [0, 0] 12 exDotA exDotB exDotMem = (.ok 2846, μ') ∧ SameOutside (· = 12) exDotMem μ' := C117_map _ true [0, 0] (by simp) 12 [2, 3] _ _ _ _ _ exDot
example : ∃ μ', dotVerbs (fun x y => (x - y) * (x - y)) false [] 12 exDotA exDotB exDotMem = (.ok 29522, μ') ∧ SameOutside (· = 12) exDotMem μ' :=
  C117_verbs _ false [] (by simp) 12 [2, 3] _ _ _ _ _ exDot
example : ∃ μ', dotLoops (· * ·) 12 exDotA exDotB exDotMem = (.ok 2846, μ') ∧ SameOutside (· = 12) exDotMem μ' := C117_loops _ 12 [2, 3] _ _ _ _ _ exDot
example : dotSum (· * ·) false [] exDotA exDotB exDotMem = (.ok 2846, exDotMem) := C117_sum _ false [] (by simp) 12 [2, 3] _ _ _ _ _ exDot

/-- Both by rows. -/
theorem exDot' : Operands exDotMem 12 [2, 3] ⟨[⟨2, 3⟩, ⟨3, 1⟩], 0⟩ exDotB (fun j => address ⟨[⟨2, 3⟩, ⟨3, 1⟩], 0⟩ j * address ⟨[⟨2, 3⟩, ⟨3, 1⟩], 0⟩ j - 5) (fun j => address exDotB j * address exDotB j - 5) := by
  refine ⟨shaped_nat.mpr rfl, shaped_nat.mpr rfl, ?_, ?_, ?_, ?_, rfl⟩
  all_goals
    intro j hj
    obtain ⟨i, k, rfl, h1, h2, h3, h4⟩ := valid_two.mp hj
    simp only [address, dot, exDotB, exDotMem, List.map_cons, List.map_nil, List.zipWith_cons_cons, List.zipWith_nil_right, List.sum_cons, List.sum_nil]
  · rw [if_pos (by omega)]
  · rw [if_pos (by omega)]
  · omega
  · omega

example : ∃ μ', dotRaw (· * ·) 12 6 ⟨[⟨2, 3⟩, ⟨3, 1⟩], 0⟩ exDotB exDotMem = (.ok 3279, μ') ∧ SameOutside (· = 12) exDotMem μ' :=
  C117_raw _ 12 [2, 3] _ _ (by simp [RowMajorSteps]) (by simp [RowMajorSteps, exDotB]) _ _ _ exDot'

end Ra.Props
