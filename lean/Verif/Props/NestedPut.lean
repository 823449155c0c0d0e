import Verif.Model.NestedPut
import Verif.Props.ArraySum
/-!
# C126: assignment to arrays of arrays
-/

namespace Ra.Spec

section
variable {V : Type}

/-- In memory `μ`, `b` is an array of shape `t` of arrays of shape `u`. The array at `i` is `x i`, and its element at `k` is `old i k`. All these elements are in different places. -/
structure ArrayOfArrays (μ : Mem V) (t u : List Nat) (el : Int → Option View) (b : View) (x : List Int → View) (old : List Int → List Int → V) : Prop where
  shape : Shaped b (t.map some)
  array : ∀ i, Valid t i → el (address b i) = some (x i)
  shapes : ∀ i, Valid t i → Shaped (x i) (u.map some)
  value : ∀ i k, Valid t i → Valid u k → μ (address (x i) k) = some (old i k)
  distinct : ∀ i k i' k', Valid t i → Valid u k → Valid t i' → Valid u k' → address (x i) k = address (x i') k' → i = i' ∧ k = k'

/-- `p` is the place of an element of some of the arrays `x`. -/
def InNested (t u : List Nat) (x : List Int → View) (p : Int) : Prop := ∃ i k, Valid t i ∧ Valid u k ∧ p = address (x i) k

/-- `μ'` is `μ` but for the elements of the arrays, which are `f`. -/
def StoredAll (μ μ' : Mem V) (t u : List Nat) (x : List Int → View) (f : List Int → List Int → V) : Prop :=
  SameOutside (InNested t u x) μ μ' ∧ ∀ i k, Valid t i → Valid u k → μ' (address (x i) k) = some (f i k)

/-- What's left of the old value `v` when `w` is assigned, or combined with it. -/
def result (g : Option (V → V → V)) (v w : V) : V :=
  match g with
  | none => w
  | some g => g v w

end
end Ra.Spec

namespace Ra.Props
open Spec

section
variable {V : Type}

theorem put_run (g : Option (V → V → V)) (dyn : Bool) (z : List Int) (hz : ∀ i ∈ z, i = 0) (x : View) (u : List Nat) (hx : Shaped x (u.map some)) (hd : Distinct x u) (μ : Mem V) (old : List Int → V)
    (hold : ∀ k, Valid u k → μ (address x k) = some (old k)) (e : Iter (Act V) (Lv V)) (se : List Length) (he : HasShape e se) (hm : Merge [u.map some, se] (u.map some)) (val : List Int → V)
    (hv : ∀ k, Valid u k → ∀ μ', SameOutside (InView x u) μ μ' → Reads μ' (elem e k) (val k)) :
    ∃ μ', put g dyn z x.refs e μ = (.ok (), μ') ∧ Stored μ μ' u x fun k => result g (old k) (val k) := by
  cases g with
  | none =>
    obtain ⟨μ', h1, h2, h3⟩ := C28_last dyn z hz x.refs u [] (by simp) (address x) μ (places_refs hx hd μ) e se he (by rw [List.append_nil]; exact hm) (fun k hk => by rw [hold k hk]; rfl) val
      (fun k hk => hv k (by rwa [List.append_nil] at hk))
    refine ⟨μ', h1, h2, fun k hk => ?_⟩
    rw [h3 k hk]
    simp [result]
  | some g =>
    obtain ⟨μ', h1, h2, h3⟩ := C28_prefix g dyn z hz x.refs u [] (address x) μ (places_refs hx hd μ) e se he (by rw [List.append_nil]; exact hm) old hold val
      (fun k hk => hv k (by rwa [List.append_nil] at hk))
    refine ⟨μ', h1, h2, fun k hk => ?_⟩
    rw [h3 k hk]
    simp [result, rowMajor]

theorem elem_nested (el : Int → Option View) (b : View) (j : List Int) (x : View) (h : el (address b j) = some x) : elem (nestedRefs el b : Iter (Act V) (Lv V)) j = pure (.view x) := by
  show (match el (address b j) with | some x => pure (Lv.view x) | none => fault .ub : Act V (Lv V)) = _
  rw [h]

/-- The assignment to an array of arrays, for any expression. -/
theorem putNested_run (g : Option (V → V → V)) (dyn dyn' : Bool) (z z' : List Int) (hz : ∀ i ∈ z, i = 0) (hz' : ∀ i ∈ z', i = 0) (t r u : List Nat) (el : Int → Option View) (b : View) (x : List Int → View) (old : List Int → List Int → V)
    (μ : Mem V) (h : ArrayOfArrays μ t u el b x old) (e : Iter (Act V) (Lv V)) (se : List Length) (he : HasShape e se) (hm : Merge [t.map some, se] ((t ++ r).map some)) (val : List Int → List Int → V)
    (hv : ∀ j, Valid (t ++ r) j → ∃ y sy, elem e j = pure y ∧ HasShape (asArg y) sy ∧ Merge [u.map some, sy] (u.map some) ∧
      ∀ k, Valid u k → ∀ μ', SameOutside (InNested t u x) μ μ' → Reads μ' (elem (asArg y) k) (val j k)) :
    ∃ μ', putNested g dyn dyn' z z' el b e μ = (.ok (), μ') ∧ StoredAll μ μ' t u x fun i k => ((rowMajor r).map fun s => val (i ++ s) k).foldl (result g) (old i k) := by
  have htake : ∀ j, Valid (t ++ r) j → ∃ i k, j = i ++ k ∧ j.take t.length = i ∧ Valid t i := by
    intro j hj
    obtain ⟨a, b, rfl, ha, _⟩ := valid_split hj
    refine ⟨a, b, rfl, ?_, ha⟩
    rw [← length_of_valid ha]; simp
  have hb : HasShape (nestedRefs el b : Iter (Act V) (Lv V)) (t.map some) := h.shape
  rw [putNested, run_forAll dyn z hz _ _ e _ _ _ hb he hm]
  have key : ∀ (l : List (List Int)), (∀ j ∈ l, Valid (t ++ r) j) → ∀ (μ1 : Mem V) (w : List Int → List Int → V), StoredAll μ μ1 t u x w →
      ∃ μ', forAll (fun j => mapOp (putInto g dyn' z') [elem (nestedRefs el b) j, elem e j]) l μ1 = (.ok (), μ') ∧
        StoredAll μ μ' t u x fun i k => ((l.filter fun j => j.take t.length = i).map fun j => val j k).foldl (result g) (w i k) := by
    intro l
    induction l with
    | nil => intro _ μ1 w h1; exact ⟨μ1, rfl, h1⟩
    | cons j l ih =>
      intro hl μ1 w h1
      have hj := hl j List.mem_cons_self
      obtain ⟨i0, s, hjs, e0, hi0⟩ := htake j hj
      obtain ⟨y, sy, y1, y2, y3, y4⟩ := hv j hj
      have hx : elem (nestedRefs el b : Iter (Act V) (Lv V)) j = pure (.view (x i0)) := by
        rw [← elem_take _ _ hb, List.length_map, e0]
        exact elem_nested el b i0 _ (h.array i0 hi0)
      obtain ⟨μ2, k1, k2, k3⟩ := put_run g dyn' z' hz' (x i0) u (h.shapes i0 hi0) (fun k k' hk hk' e => (h.distinct _ _ _ _ hi0 hk hi0 hk' e).2) μ1 (w i0) (fun k hk => h1.2 i0 k hi0 hk) (asArg y) sy y2 y3 (val j) (by
        intro k hk μ' hμ
        refine y4 k hk μ' fun p hp => ?_
        rw [hμ p (fun ⟨k', hk', e'⟩ => hp ⟨i0, k', hi0, hk', e'⟩), h1.1 p hp])
      obtain ⟨μ3, m1, m2⟩ := ih (fun j hj => hl j (List.mem_cons_of_mem _ hj)) μ2 (fun i k => if i = i0 then result g (w i k) (val j k) else w i k) ⟨fun p hp => by
        rw [k2 p (fun ⟨k', hk', e'⟩ => hp ⟨i0, k', hi0, hk', e'⟩), h1.1 p hp], fun i k hi hk => by
        beta_reduce
        split
        · next hh => subst hh; exact k3 k hk
        · next hh =>
          rw [k2 _ (fun ⟨k', hk', e'⟩ => hh (h.distinct _ _ _ _ hi hk hi0 hk' e').1), h1.2 i k hi hk]⟩
      refine ⟨μ3, ?_, m2.1, fun i k hi hk => ?_⟩
      · have e1 : mapOp (putInto g dyn' z') [elem (nestedRefs el b) j, elem e j] μ1 = (.ok (.view (x i0)), μ2) := by
          simp only [hx, y1, mapOp, List.mapM_cons, List.mapM_nil, id_eq, pure_bind, putInto]
          rw [act_bind_ok k1]
          rfl
        rw [forAll, act_bind_ok e1, m1]
      · rw [m2.2 i k hi hk]
        beta_reduce
        by_cases hh : i = i0
        · subst hh
          rw [List.filter_cons_of_pos (by simpa using e0)]
          simp
        · rw [List.filter_cons_of_neg (by simp only [decide_eq_true_eq, e0]; exact fun h => hh h.symm)]
          simp [hh]
  obtain ⟨μ', h1, h2, h3⟩ := key (rowMajor (t ++ r)) (fun j hj => mem_rowMajor.1 hj) μ old ⟨fun _ _ => rfl, h.value⟩
  refine ⟨μ', h1, h2, fun i k hi hk => ?_⟩
  rw [h3 i k hi hk]
  beta_reduce
  have hfm := filter_middle (p := t) (r := r) (q := []) (i := i) (j := []) hi trivial
  simp only [List.append_nil] at hfm
  rw [show (fun s => val (i ++ s) k) = (fun j => val j k) ∘ fun s => i ++ s from rfl, ← List.map_map, ← hfm]
  congr 3
  refine List.filter_congr fun j hj => ?_
  have hlj := length_of_valid (mem_rowMajor.mp hj)
  rw [List.length_append] at hlj
  simp only [decide_eq_decide]
  rw [List.drop_eq_nil_of_le (by simp only [List.length_nil] at *; omega)]
  simp

theorem lastIndex_rowMajor (r : List Nat) (h : 0 ∉ r) : (rowMajor r).getLast? = some (lastIndex r) := by
  have e : (r.map fun n => (n : Int) - 1) = lastIndex r := by
    show List.map (fun n : Int => n - 1) (List.flatMap (fun n : Nat => [(n : Int)]) r) = List.map (fun n : Nat => (n : Int) - 1) r
    clear h
    induction r with
    | nil => rfl
    | cons n v ih => rw [List.flatMap_cons, List.map_append, ih]; rfl
  rw [last_rowMajor r h, e]

/-- C126. `b = a` or `b OP a` with an array `a` whose elements aren't arrays: each of them goes to all the elements of an array in `b`. -/
theorem C126_flat (g : Option (V → V → V)) (dyn dyn' : Bool) (z z' : List Int) (hz : ∀ i ∈ z, i = 0) (hz' : ∀ i ∈ z', i = 0) (t r u : List Nat) (el : Int → Option View) (b : View) (x : List Int → View) (old : List Int → List Int → V)
    (μ : Mem V) (h : ArrayOfArrays μ t u el b x old) (a : View) (ha : Shaped a ((t ++ r).map some)) (va : List Int → V) (hv : ∀ j, Valid (t ++ r) j → μ (address a j) = some (va j) ∧ ¬ InNested t u x (address a j)) :
    ∃ μ', putNested g dyn dyn' z z' el b a.refs μ = (.ok (), μ') ∧ StoredAll μ μ' t u x fun i k => ((rowMajor r).map fun s => va (i ++ s)).foldl (result g) (old i k) := by
  refine putNested_run g dyn dyn' z z' hz hz' t r u el b x old μ h a.refs _ (refs_shape ha) (merge_longer t r) (fun j _ => va j) ?_
  intro j hj
  refine ⟨.ref (address a j), [], by rw [elem_refs], rfl, merge_nil _, fun k hk μ' hμ => ?_⟩
  show Reads μ' (pure (.ref (address a j))) (va j)
  have := reads_refs (μ := μ') (v := a) (j := j) (x := va j) (by rw [hμ _ (hv j hj).2, (hv j hj).1])
  rwa [elem_refs] at this

/-- C126. So after `b = a` each array in `b` is full of the last of the elements of `a` with its index, and not of those elements in order. -/
theorem C126_last (dyn dyn' : Bool) (z z' : List Int) (hz : ∀ i ∈ z, i = 0) (hz' : ∀ i ∈ z', i = 0) (t r u : List Nat) (h0 : 0 ∉ r) (el : Int → Option View) (b : View) (x : List Int → View) (old : List Int → List Int → V)
    (μ : Mem V) (h : ArrayOfArrays μ t u el b x old) (a : View) (ha : Shaped a ((t ++ r).map some)) (va : List Int → V) (hv : ∀ j, Valid (t ++ r) j → μ (address a j) = some (va j) ∧ ¬ InNested t u x (address a j)) :
    ∃ μ', putNested none dyn dyn' z z' el b a.refs μ = (.ok (), μ') ∧ StoredAll μ μ' t u x fun i _ => va (i ++ lastIndex r) := by
  obtain ⟨μ', h1, h2, h3⟩ := C126_flat none dyn dyn' z z' hz hz' t r u el b x old μ h a ha va hv
  refine ⟨μ', h1, h2, fun i k hi hk => ?_⟩
  rw [h3 i k hi hk]
  beta_reduce
  have : (result none : V → V → V) = fun _ v => v := rfl
  rw [this, foldl_last, List.getLast?_map, lastIndex_rowMajor r h0]
  rfl

/-- C126. With an array of arrays on the right side, the arrays are assigned one by one. -/
theorem C126_nested (g : Option (V → V → V)) (dyn dyn' : Bool) (z z' : List Int) (hz : ∀ i ∈ z, i = 0) (hz' : ∀ i ∈ z', i = 0) (t r u : List Nat) (el : Int → Option View) (b : View) (x : List Int → View) (old : List Int → List Int → V)
    (μ : Mem V) (h : ArrayOfArrays μ t u el b x old) (el' : Int → Option View) (a : View) (ha : Shaped a ((t ++ r).map some)) (y : List Int → View) (va : List Int → List Int → V)
    (hv : ∀ j, Valid (t ++ r) j → el' (address a j) = some (y j) ∧ Shaped (y j) (u.map some) ∧ ∀ k, Valid u k → μ (address (y j) k) = some (va j k) ∧ ¬ InNested t u x (address (y j) k)) :
    ∃ μ', putNested g dyn dyn' z z' el b (nestedRefs el' a) μ = (.ok (), μ') ∧ StoredAll μ μ' t u x fun i k => ((rowMajor r).map fun s => va (i ++ s) k).foldl (result g) (old i k) := by
  refine putNested_run g dyn dyn' z z' hz hz' t r u el b x old μ h (nestedRefs el' a) _ (show HasShape (nestedRefs el' a : Iter (Act V) (Lv V)) ((t ++ r).map some) from ha) (merge_longer t r) va ?_
  intro j hj
  obtain ⟨h1, h2, h3⟩ := hv j hj
  refine ⟨.view (y j), _, elem_nested el' a j _ h1, refs_shape h2, merge_same _, fun k hk μ' hμ => ?_⟩
  exact reads_refs (by rw [hμ _ (h3 k hk).2, (h3 k hk).1])

/-- C126. To get the elements of `a` in order, assign to a view `w` of all the elements of the arrays in `b`, such as that of `collapse`. -/
theorem C126_view (dyn : Bool) (z : List Int) (hz : ∀ i ∈ z, i = 0) (t u : List Nat) (el : Int → Option View) (b : View) (x : List Int → View) (old : List Int → List Int → V)
    (μ : Mem V) (h : ArrayOfArrays μ t u el b x old) (w : View) (hw : Shaped w ((t ++ u).map some)) (hx : ∀ i k, Valid t i → Valid u k → address w (i ++ k) = address (x i) k)
    (a : View) (ha : Shaped a ((t ++ u).map some)) (va : List Int → V) (hv : ∀ j, Valid (t ++ u) j → μ (address a j) = some (va j) ∧ ¬ InNested t u x (address a j)) :
    ∃ μ', assign dyn z w.refs a.refs μ = (.ok (), μ') ∧ StoredAll μ μ' t u x fun i k => va (i ++ k) := by
  have hin : ∀ p, InView w (t ++ u) p → InNested t u x p := by
    rintro p ⟨j, hj, rfl⟩
    obtain ⟨i, k, rfl, hi, hk⟩ := valid_split hj
    exact ⟨i, k, hi, hk, hx i k hi hk⟩
  obtain ⟨μ', h1, h2⟩ := put_run none dyn z hz w (t ++ u) hw (by
    intro j j' hj hj' e
    obtain ⟨i, k, rfl, hi, hk⟩ := valid_split hj
    obtain ⟨i', k', rfl, hi', hk'⟩ := valid_split hj'
    rw [hx i k hi hk, hx i' k' hi' hk'] at e
    obtain ⟨rfl, rfl⟩ := h.distinct _ _ _ _ hi hk hi' hk' e
    rfl) μ (fun j => old (j.take t.length) (j.drop t.length)) (by
    intro j hj
    obtain ⟨i, k, rfl, hi, hk⟩ := valid_split hj
    rw [hx i k hi hk, h.value i k hi hk, ← length_of_valid hi]
    simp) a.refs _ (refs_shape ha) (merge_same _) va (by
    intro j hj μ' hμ
    exact reads_refs (by rw [hμ _ (fun hp => (hv j hj).2 (hin _ hp)), (hv j hj).1]))
  refine ⟨μ', h1, fun p hp => h2.1 p fun hp' => hp (hin p hp'), fun i k hi hk => ?_⟩
  rw [← hx i k hi hk]
  exact h2.2 (i ++ k) (valid_append hi hk)

end

/-! ## Examples -/

/-- `a` at 0 to 5 and the elements of `b` at 60 to 65, on examples/pitfall.cc:19-21. -/
def egPitMem : Mem Int := fun p => if 0 ≤ p ∧ p < 6 then some (p + 1) else if 60 ≤ p ∧ p < 66 then some 0 else none

/-- The arrays in `b`, which are at 50, 51, 52. -/
def egPitArrays (p : Int) : Option View := if 50 ≤ p ∧ p < 53 then some ⟨[⟨2, 1⟩], 60 + 2 * (p - 50)⟩ else none

/-- The array at `i`. -/
def egPitArray (i : List Int) : View := ⟨[⟨2, 1⟩], 60 + 2 * i.getD 0 0⟩

theorem egPit_arrays : ArrayOfArrays egPitMem [3] [2] egPitArrays ⟨[⟨3, 1⟩], 50⟩ egPitArray fun _ _ => 0 := by
  refine ⟨.cons rfl .nil, ?_, fun i _ => .cons rfl .nil, ?_, ?_⟩
  · intro i hi
    obtain ⟨x, rfl, h1, h2⟩ := valid_one.mp hi
    simp [address, dot, egPitArrays, egPitArray]
    omega
  · intro i k hi hk
    obtain ⟨x, rfl, h1, h2⟩ := valid_one.mp hi
    obtain ⟨y, rfl, h3, h4⟩ := valid_one.mp hk
    simp only [address, dot, egPitMem, egPitArray, List.getD_cons_zero, List.map_cons, List.map_nil, List.zipWith_cons_cons, List.zipWith_nil_right, List.sum_cons, List.sum_nil]
    rw [if_neg (by omega), if_pos (by omega)]
  · intro i k i' k' hi hk hi' hk' e
    obtain ⟨x, rfl, h1, h2⟩ := valid_one.mp hi
    obtain ⟨y, rfl, h3, h4⟩ := valid_one.mp hk
    obtain ⟨x', rfl, h1', h2'⟩ := valid_one.mp hi'
    obtain ⟨y', rfl, h3', h4'⟩ := valid_one.mp hk'
    simp only [address, dot, egPitArray, List.getD_cons_zero, List.map_cons, List.map_nil, List.zipWith_cons_cons, List.zipWith_nil_right, List.sum_cons, List.sum_nil] at e
    rw [show x = x' by omega, show y = y' by omega]
    exact ⟨rfl, rfl⟩

theorem egPit_flat : ∀ j, Valid ([3] ++ [2]) j → egPitMem (address ⟨[⟨3, 2⟩, ⟨2, 1⟩], 0⟩ j) = some (1 + 2 * j.getD 0 0 + j.getD 1 0) ∧ ¬ InNested [3] [2] egPitArray (address ⟨[⟨3, 2⟩, ⟨2, 1⟩], 0⟩ j) := by
  intro j hj
  obtain ⟨x, y, rfl, h1, h2, h3, h4⟩ := valid_two.mp hj
  simp only [address, dot, List.map_cons, List.map_nil, List.zipWith_cons_cons, List.zipWith_nil_right, List.sum_cons, List.sum_nil]
  constructor
  · rw [egPitMem, if_pos (by omega)]
    simp
    omega
  · rintro ⟨i, k, hi, hk, e⟩
    obtain ⟨x', rfl, h1', h2'⟩ := valid_one.mp hi
    obtain ⟨y', rfl, h3', h4'⟩ := valid_one.mp hk
    simp only [address, dot, egPitArray, List.getD_cons_zero, List.map_cons, List.map_nil, List.zipWith_cons_cons, List.zipWith_nil_right, List.sum_cons, List.sum_nil] at e
    omega

/-- examples/pitfall.cc:19-23: the result is 2 2 4 4 6 6. -/
example : ∃ μ', putNested none false true [] [0] egPitArrays ⟨[⟨3, 1⟩], 50⟩ (View.refs ⟨[⟨3, 2⟩, ⟨2, 1⟩], 0⟩) egPitMem = (.ok (), μ') ∧ μ' 60 = some 2 ∧ μ' 61 = some 2 ∧ μ' 62 = some 4 ∧ μ' 63 = some 4 ∧ μ' 64 = some 6 ∧ μ' 65 = some 6 := by
  obtain ⟨μ', h1, _, h3⟩ := C126_last false true [] [0] (by simp) (by simp) [3] [2] [2] (by simp) _ _ _ _ egPitMem egPit_arrays ⟨[⟨3, 2⟩, ⟨2, 1⟩], 0⟩ (.cons rfl (.cons rfl .nil)) _ egPit_flat
  have v : ∀ (n : Nat) (i : Int), 0 ≤ i → i < n → Valid [n] [i] := fun n i h1 h2 => valid_one.mpr ⟨i, rfl, h1, h2⟩
  exact ⟨μ', h1, h3 [0] [0] (v 3 0 (by omega) (by omega)) (v 2 0 (by omega) (by omega)), h3 [0] [1] (v 3 0 (by omega) (by omega)) (v 2 1 (by omega) (by omega)), h3 [1] [0] (v 3 1 (by omega) (by omega)) (v 2 0 (by omega) (by omega)),
    h3 [1] [1] (v 3 1 (by omega) (by omega)) (v 2 1 (by omega) (by omega)), h3 [2] [0] (v 3 2 (by omega) (by omega)) (v 2 0 (by omega) (by omega)), h3 [2] [1] (v 3 2 (by omega) (by omega)) (v 2 1 (by omega) (by omega))⟩

/-- `b += a` adds both elements of a row to each element of an array in `b`. -/
example : ∃ μ', putNested (some (· + ·)) false true [] [0] egPitArrays ⟨[⟨3, 1⟩], 50⟩ (View.refs ⟨[⟨3, 2⟩, ⟨2, 1⟩], 0⟩) egPitMem = (.ok (), μ') ∧ μ' 65 = some 11 := by
  obtain ⟨μ', h1, _, h3⟩ := C126_flat (some (· + ·)) false true [] [0] (by simp) (by simp) [3] [2] [2] _ _ _ _ egPitMem egPit_arrays ⟨[⟨3, 2⟩, ⟨2, 1⟩], 0⟩ (.cons rfl (.cons rfl .nil)) _ egPit_flat
  exact ⟨μ', h1, h3 [2] [1] (mem_rowMajor.1 (by decide +kernel)) (mem_rowMajor.1 (by decide +kernel))⟩

/-- With the view of all the elements, the result is 1 2 3 4 5 6. -/
example : ∃ μ', assign false [] (View.refs ⟨[⟨3, 2⟩, ⟨2, 1⟩], 60⟩) (View.refs ⟨[⟨3, 2⟩, ⟨2, 1⟩], 0⟩) egPitMem = (.ok (), μ') ∧ μ' 62 = some 3 ∧ μ' 65 = some 6 := by
  obtain ⟨μ', h1, _, h3⟩ := C126_view false [] (by simp) [3] [2] _ _ _ _ egPitMem egPit_arrays ⟨[⟨3, 2⟩, ⟨2, 1⟩], 60⟩ (.cons rfl (.cons rfl .nil)) (by
    intro i k hi hk
    obtain ⟨x, rfl, h1, h2⟩ := valid_one.mp hi
    obtain ⟨y, rfl, h3, h4⟩ := valid_one.mp hk
    simp [address, dot, egPitArray]
    ring) ⟨[⟨3, 2⟩, ⟨2, 1⟩], 0⟩ (.cons rfl (.cons rfl .nil)) _ egPit_flat
  exact ⟨μ', h1, h3 [1] [0] (mem_rowMajor.1 (by decide +kernel)) (mem_rowMajor.1 (by decide +kernel)), h3 [2] [1] (mem_rowMajor.1 (by decide +kernel)) (mem_rowMajor.1 (by decide +kernel))⟩

/-- Other arrays of shape (2), at 0, 2, 4, as the elements of an array at 70, 71, 72. -/
def egPitOther (p : Int) : Option View := if 70 ≤ p ∧ p < 73 then some ⟨[⟨2, 1⟩], 2 * (p - 70)⟩ else none

/-- From an array of arrays, the result is 1 2 3 4 5 6 as well. -/
example : ∃ μ', putNested none false true [] [0] egPitArrays ⟨[⟨3, 1⟩], 50⟩ (nestedRefs egPitOther ⟨[⟨3, 1⟩], 70⟩) egPitMem = (.ok (), μ') ∧ μ' 62 = some 3 ∧ μ' 65 = some 6 := by
  obtain ⟨μ', h1, _, h3⟩ := C126_nested none false true [] [0] (by simp) (by simp) [3] [] [2] _ _ _ _ egPitMem egPit_arrays egPitOther ⟨[⟨3, 1⟩], 70⟩ (.cons rfl .nil) (fun j => ⟨[⟨2, 1⟩], 2 * j.getD 0 0⟩) (fun j k => 1 + 2 * j.getD 0 0 + k.getD 0 0) (by
    intro j hj
    obtain ⟨x, rfl, h1, h2⟩ := valid_one.mp hj
    refine ⟨by simp [address, dot, egPitOther]; omega, .cons rfl .nil, fun k hk => ?_⟩
    obtain ⟨y, rfl, h3, h4⟩ := valid_one.mp hk
    have := egPit_flat [x, y] (valid_two.mpr ⟨x, y, rfl, h1, h2, h3, h4⟩)
    have e : address ⟨[⟨3, 2⟩, ⟨2, 1⟩], 0⟩ [x, y] = address ⟨[⟨2, 1⟩], 2 * [x].getD 0 0⟩ [y] := by
      simp [address, dot]
      ring
    rw [e] at this
    exact this)
  exact ⟨μ', h1, h3 [1] [0] (mem_rowMajor.1 (by decide +kernel)) (mem_rowMajor.1 (by decide +kernel)), h3 [2] [1] (mem_rowMajor.1 (by decide +kernel)) (mem_rowMajor.1 (by decide +kernel))⟩

end Ra.Props
