import Verif.Props.Assign
import Verif.Props.Crash
import Verif.Model.AtArray
/-!
# Lists of positions: C90
-/

namespace Ra.Props
open Spec (HasShape HasShapes Merge Length rowMajor forAll elem elems Valid InRange Reads Refers SameOutside Shaped address InView)

variable {V : Type} [MultiIndex V]

theorem atArray_elem (a i : Iter (Act V) (Lv V)) (j : List Int) (μ : Mem V) (x : V) (h : Reads μ (elem i j) x) : elem (atArray a i) j μ = a.at (index x) μ := by
  obtain ⟨r, h1, h2⟩ := reads_elim h
  simp only [atArray, elem, elems, mapOp, List.mapM_cons, List.mapM_nil, id, bind_assoc, pure_bind]
  rw [act_bind_ok h1]
  simp only [atOp]
  rw [act_bind_ok h2]

theorem atArray_shape (a : Iter (Act V) (Lv V)) {i : Iter (Act V) (Lv V)} {s : List Length} (h : HasShape i s) : HasShape (atArray a i) s :=
  ⟨[s], ⟨_, _, rfl, h, rfl⟩, by simp, ⟨s, by simp, rfl⟩, by simp⟩

/-- C90. `at(a, i)` has the shape of `i`, and its element at `j` is that of `a` at the index `i(j)`, if it's in range. If `a` is a view and the index isn't in range then the check fails. -/
theorem C90_gather (a i : Iter (Act V) (Lv V)) (sa s : List Length) (ha : HasShape a sa) (hi : HasShape i s) :
    HasShape (atArray a i) s ∧
    ∀ j μ x, Reads μ (elem i j) x →
      (InRange sa (index x) → elem (atArray a i) j μ = elem a (index x) μ) ∧
      ∀ v : View, a = v.refs → ¬ InRange sa (index x) → elem (atArray a i) j μ = (.error .check, μ) := by
  refine ⟨atArray_shape a hi, ?_⟩
  intro j μ x hx
  rw [atArray_elem a i j μ x hx]
  constructor
  · intro hr
    rw [C01_at a sa ha _ hr]
  · rintro v rfl hr
    exact congrFun (C59_reject v.dims v.cp _ sa ha _ hr) μ

/-- The assignments of a traversal, up to the first one that fails. -/
theorem scatter_run (op : List (Lv V) → Act V (Lv V)) (g : V → V → V)
    (hop : ∀ {μ : Mem V} {d x : Act V (Lv V)} {p : Int} {v y : V}, Refers μ d p → Reads μ x v → μ p = some y → mapOp op [d, x] μ = (.ok (.ref p), μ.upd p (g y v)))
    (hfail : ∀ {μ : Mem V} {d x : Act V (Lv V)}, d μ = (.error .check, μ) → mapOp op [d, x] μ = (.error .check, μ))
    (v : View) (t : List Nat) (hv : Shaped v (t.map some)) (i x : Iter (Act V) (Lv V)) (s : List Nat) (μ : Mem V) (hmem : ∀ k, Valid t k → (μ (address v k)).isSome)
    (I f : List Int → V) (hI : ∀ j, Valid s j → ∀ μ', SameOutside (InView v t) μ μ' → Reads μ' (elem i j) (I j))
    (hf : ∀ j, Valid s j → ∀ μ', SameOutside (InView v t) μ μ' → Reads μ' (elem x j) (f j))
    (good : List Int → Bool) (hg : ∀ j, good j = true ↔ InRange (t.map some) (index (I j)))
    (l : List (List Int)) (hl : ∀ j ∈ l, Valid s j) (μ1 : Mem V) (hs : ∀ p, (μ1 p).isSome = (μ p).isSome) (ho : SameOutside (InView v t) μ μ1) :
    ∃ μ', forAll (fun j => mapOp op [elem (atArray v.refs i) j, elem x j]) l μ1 = (if l.all good then .ok () else .error .check, μ') ∧
      ∀ p, μ' p = (μ1 p).map fun y => (((l.takeWhile good).filter fun j => address v (index (I j)) = p).map f).foldl g y := by
  have hin : ∀ j, good j = true → InView v t (address v (index (I j))) := by
    intro j hj
    have hr := (hg j).1 hj
    refine ⟨(index (I j)).take t.length, ?_, ?_⟩
    · have hl : t.length ≤ (index (I j)).length := by simpa using hr.1
      refine valid_of_inRange (by simp [hl]) ⟨by simp [hl], ?_⟩
      intro k n hk
      have hk' : k < t.length := by
        have := (List.getElem?_eq_some_iff.mp hk).1
        simpa using this
      have := hr.2 k n hk
      simpa [List.getD_eq_getElem?_getD, List.getElem?_take, hk'] using this
    · have := address_take hv (index (I j))
      simpa using this
  induction l generalizing μ1 with
  | nil => exact ⟨μ1, rfl, fun p => by simp⟩
  | cons j l ih =>
    have hj := hl j (by simp)
    have hd := atArray_elem v.refs i j μ1 (I j) (hI j hj μ1 ho)
    by_cases hgj : good j = true
    · have hr := (hg j).1 hgj
      rw [C01_at _ _ (refs_shape hv) _ hr] at hd
      have hd' : Refers μ1 (elem (atArray v.refs i) j) (address v (index (I j))) := hd
      obtain ⟨k, hk, hkp⟩ := hin j hgj
      obtain ⟨y, hy⟩ : ∃ y, μ1 (address v (index (I j))) = some y := Option.isSome_iff_exists.mp (by rw [hs, hkp]; exact hmem k hk)
      have hrun := hop hd' (hf j hj μ1 ho) hy
      obtain ⟨μ', h1, h2⟩ := ih (fun k hk => hl k (by simp [hk])) (μ1.upd (address v (index (I j))) (g y (f j)))
        (by
          intro p
          simp only [Mem.upd]
          split
          · next h => subst h; simp [← hs, hy]
          · exact hs p)
        (by
          intro p hp
          have hpj : p ≠ address v (index (I j)) := fun h => hp (h ▸ hin j hgj)
          simp only [Mem.upd, if_neg hpj]
          exact ho p hp)
      refine ⟨μ', ?_, ?_⟩
      · simp only [forAll]
        rw [act_bind_ok hrun, h1]
        simp [hgj]
      · intro p
        rw [h2 p, List.takeWhile_cons, if_pos hgj]
        by_cases h : address v (index (I j)) = p
        · subst h
          simp [Mem.upd, hy]
        · have : p ≠ address v (index (I j)) := fun e => h e.symm
          simp [Mem.upd, this, h]
    · have hr : ¬ InRange (t.map some) (index (I j)) := fun h => hgj ((hg j).2 h)
      have hrej : elem (atArray v.refs i) j μ1 = (.error .check, μ1) := by
        rw [hd]
        exact congrFun (C59_reject v.dims v.cp _ _ (refs_shape hv) _ hr) μ1
      refine ⟨μ1, ?_, ?_⟩
      · simp only [forAll]
        rw [act_bind, hfail hrej]
        simp [hgj]
      · intro p
        rw [List.takeWhile_cons, if_neg hgj]
        simp

theorem takeWhile_split {l l1 l2 : List (List Int)} (good : List Int → Bool) (hl : l = l1 ++ l2) (h1 : ∀ j ∈ l1, good j = true) (h2 : ∀ j ∈ l2.head?, ¬ good j = true) :
    l.takeWhile good = l1 ∧ (l.all good = true ↔ l2 = []) := by
  subst hl
  induction l1 with
  | nil =>
    cases l2 with
    | nil => simp
    | cons j l2 =>
      have := h2 j (by simp)
      simp [this]
  | cons j l1 ih =>
    have hj := h1 j (by simp)
    obtain ⟨i1, i2⟩ := ih fun k hk => h1 k (by simp [hk])
    rw [List.cons_append, List.takeWhile_cons, if_pos hj, i1, List.all_cons, hj, Bool.true_and]
    exact ⟨rfl, i2⟩

/-- C90. `at(v, i) = x`, where `v` is a view of shape `t`, and neither `i` nor `x` depend on the elements of `v`. The positions that come before the first index that's out of range (all of them
if there isn't any; these are `l1`) are assigned in row-major order, so if there are repeated indices then the last one counts. Nothing else changes. If there's an index out of range then
the check fails. -/
theorem C90_scatter (dyn : Bool) (z : List Int) (hz : ∀ i ∈ z, i = 0) (v : View) (t : List Nat) (hv : Shaped v (t.map some)) (i x : Iter (Act V) (Lv V)) (si sx : List Length) (s : List Nat)
    (hi : HasShape i si) (hx : HasShape x sx) (hm : Merge [si, sx] (s.map some)) (μ : Mem V) (hmem : ∀ k, Valid t k → (μ (address v k)).isSome) (I f : List Int → V)
    (hI : ∀ j, Valid s j → ∀ μ', SameOutside (InView v t) μ μ' → Reads μ' (elem i j) (I j))
    (hf : ∀ j, Valid s j → ∀ μ', SameOutside (InView v t) μ μ' → Reads μ' (elem x j) (f j))
    (l1 l2 : List (List Int)) (hl : rowMajor s = l1 ++ l2) (h1 : ∀ j ∈ l1, InRange (t.map some) (index (I j))) (h2 : ∀ j ∈ l2.head?, ¬ InRange (t.map some) (index (I j))) :
    ∃ μ', assign dyn z (atArray v.refs i) x μ = (if l2 = [] then .ok () else .error .check, μ') ∧
      ∀ p, μ' p = match (l1.filter fun j => address v (index (I j)) = p).getLast? with
        | some j => some (f j)
        | none => μ p := by
  classical
  unfold assign
  rw [run_forAll dyn z hz _ _ x si sx s (atArray_shape _ hi) hx hm]
  obtain ⟨μ', e1, e2⟩ := scatter_run setOp (fun _ y => y) (fun hd hx hp => set_run hd hx (by simp [hp]))
    (fun {μ d x} hd => by rw [mapM_two, act_bind, hd]) v t hv i x s μ hmem I f hI hf
    (fun j => decide (InRange (t.map some) (index (I j)))) (fun j => by simp) (rowMajor s) (fun j hj => Spec.mem_rowMajor.mp hj) μ (fun _ => rfl) (fun _ _ => rfl)
  obtain ⟨t1, t2⟩ := takeWhile_split (fun j => decide (InRange (t.map some) (index (I j)))) hl (by simpa using h1) (by simpa using h2)
  refine ⟨μ', ?_, ?_⟩
  · rw [e1]
    by_cases h : l2 = []
    · rw [if_pos h, if_pos (t2.2 h)]
    · rw [if_neg h, if_neg fun h' => h (t2.1 h')]
  · intro p
    rw [e2 p, t1]
    have hin : ∀ j ∈ l1, (μ (address v (index (I j)))).isSome := by
      intro j hj
      have hr := h1 j hj
      have ha := address_take hv (index (I j))
      rw [ha]
      apply hmem
      have hl : t.length ≤ (index (I j)).length := by simpa using hr.1
      rw [List.length_map]
      refine valid_of_inRange (by simp [hl]) ⟨by simp [hl], ?_⟩
      intro k n hk
      have hk' : k < t.length := by
        have := (List.getElem?_eq_some_iff.mp hk).1
        simpa using this
      have := hr.2 k n hk
      simpa [List.getD_eq_getElem?_getD, List.getElem?_take, hk'] using this
    have hlast : ∀ (l : List (List Int)) (y : V), (l.map f).foldl (fun _ y => y) y = match l.getLast? with
        | some j => f j
        | none => y := by
      intro l
      induction l with
      | nil => intro y; rfl
      | cons j l ih =>
        intro y
        simp only [List.map_cons, List.foldl_cons, ih]
        cases l with
        | nil => rfl
        | cons k l => simp [List.getLast?_cons]
    cases hg : (l1.filter fun j => address v (index (I j)) = p).getLast? with
    | none =>
      have := hlast (l1.filter fun j => address v (index (I j)) = p)
      simp only [hg] at this
      simp only [this]
      simp
    | some j =>
      have := hlast (l1.filter fun j => address v (index (I j)) = p)
      simp only [hg] at this
      simp only [this]
      have hjm := List.mem_of_getLast? hg
      rw [List.mem_filter] at hjm
      obtain ⟨y, hy⟩ := Option.isSome_iff_exists.mp (hin j hjm.1)
      rw [of_decide_eq_true hjm.2] at hy
      rw [hy]
      rfl

/-- C90. `at(v, i) OP= x`, in the same way. With repeated indices all the updates are done, in row-major order. -/
theorem C90_update (g : V → V → V) (dyn : Bool) (z : List Int) (hz : ∀ i ∈ z, i = 0) (v : View) (t : List Nat) (hv : Shaped v (t.map some)) (i x : Iter (Act V) (Lv V)) (si sx : List Length)
    (s : List Nat) (hi : HasShape i si) (hx : HasShape x sx) (hm : Merge [si, sx] (s.map some)) (μ : Mem V) (hmem : ∀ k, Valid t k → (μ (address v k)).isSome) (I f : List Int → V)
    (hI : ∀ j, Valid s j → ∀ μ', SameOutside (InView v t) μ μ' → Reads μ' (elem i j) (I j))
    (hf : ∀ j, Valid s j → ∀ μ', SameOutside (InView v t) μ μ' → Reads μ' (elem x j) (f j))
    (l1 l2 : List (List Int)) (hl : rowMajor s = l1 ++ l2) (h1 : ∀ j ∈ l1, InRange (t.map some) (index (I j))) (h2 : ∀ j ∈ l2.head?, ¬ InRange (t.map some) (index (I j))) :
    ∃ μ', update g dyn z (atArray v.refs i) x μ = (if l2 = [] then .ok () else .error .check, μ') ∧
      ∀ p, μ' p = (μ p).map fun y => ((l1.filter fun j => address v (index (I j)) = p).map f).foldl g y := by
  classical
  unfold update
  rw [run_forAll dyn z hz _ _ x si sx s (atArray_shape _ hi) hx hm]
  obtain ⟨μ', e1, e2⟩ := scatter_run (updOp g) g (fun hd hx hp => upd_run g hd hx hp)
    (fun {μ d x} hd => by rw [mapM_two, act_bind, hd]) v t hv i x s μ hmem I f hI hf
    (fun j => decide (InRange (t.map some) (index (I j)))) (fun j => by simp) (rowMajor s) (fun j hj => Spec.mem_rowMajor.mp hj) μ (fun _ => rfl) (fun _ _ => rfl)
  obtain ⟨t1, t2⟩ := takeWhile_split (fun j => decide (InRange (t.map some) (index (I j)))) hl (by simpa using h1) (by simpa using h2)
  refine ⟨μ', ?_, ?_⟩
  · rw [e1]
    by_cases h : l2 = []
    · rw [if_pos h, if_pos (t2.2 h)]
    · rw [if_neg h, if_neg fun h' => h (t2.1 h')]
  · intro p
    rw [e2 p, t1]

/-- Numbers, and indices. -/
inductive NumOrIndex where
  | num (n : Int)
  | idx (i : List Int)
  deriving DecidableEq

instance : MultiIndex NumOrIndex := ⟨fun x => match x with | .num _ => [] | .idx i => i⟩

def NumOrIndex.add : NumOrIndex → NumOrIndex → NumOrIndex
  | .num a, .num b => .num (a + b)
  | a, _ => a

/-- The example in the manual: a 3x2 array at 0 and a 2x2 array of indices at 10, where one of the indices is repeated. -/
def egAt : Mem NumOrIndex := fun p =>
  if 0 ≤ p ∧ p < 6 then some (.num (100 + p)) else
  if p = 10 then some (.idx [0, 1]) else if p = 11 then some (.idx [2, 0]) else if p = 12 then some (.idx [1, 0]) else if p = 13 then some (.idx [2, 0]) else none

/-- The hypotheses of `C90_scatter` and `C90_update` for the view of the array and the view of the indices. -/
example : Shaped ⟨[⟨3, 2⟩, ⟨2, 1⟩], 0⟩ ([3, 2].map some) ∧ (∀ k, Valid [3, 2] k → (egAt (address ⟨[⟨3, 2⟩, ⟨2, 1⟩], 0⟩ k)).isSome) ∧
    ∀ j, Valid [2, 2] j → ∃ x, ∀ μ', SameOutside (InView ⟨[⟨3, 2⟩, ⟨2, 1⟩], 0⟩ [3, 2]) egAt μ' → Reads μ' (elem (View.refs ⟨[⟨2, 2⟩, ⟨2, 1⟩], 10⟩) j) x := by
  refine ⟨.cons rfl (.cons rfl .nil), ?_, ?_⟩
  · intro k hk
    have : ∀ k ∈ rowMajor [3, 2], (egAt (address ⟨[⟨3, 2⟩, ⟨2, 1⟩], 0⟩ k)).isSome := by decide +kernel
    exact this k (Spec.mem_rowMajor.2 hk)
  · intro j hj
    have hm := Spec.mem_rowMajor.2 hj
    have hjj : ∃ x, egAt (address ⟨[⟨2, 2⟩, ⟨2, 1⟩], 10⟩ j) = some x ∧ 10 ≤ address ⟨[⟨2, 2⟩, ⟨2, 1⟩], 10⟩ j := by
      have : ∀ j ∈ rowMajor [2, 2], (egAt (address ⟨[⟨2, 2⟩, ⟨2, 1⟩], 10⟩ j)).isSome ∧ 10 ≤ address ⟨[⟨2, 2⟩, ⟨2, 1⟩], 10⟩ j := by decide +kernel
      obtain ⟨h1, h2⟩ := this j hm
      obtain ⟨x, hx⟩ := Option.isSome_iff_exists.mp h1
      exact ⟨x, hx, h2⟩
    obtain ⟨x, hx, hge⟩ := hjj
    refine ⟨x, fun μ' h => reads_refs ?_⟩
    rw [h _ ?_, hx]
    rintro ⟨k, hk, hp⟩
    have : ∀ k ∈ rowMajor [3, 2], address ⟨[⟨3, 2⟩, ⟨2, 1⟩], 0⟩ k < 10 := by decide +kernel
    have := this k (Spec.mem_rowMajor.2 hk)
    omega

/-- With repeated indices the last value stays, and updates accumulate. -/
example : ((assign true [] (atArray (View.refs ⟨[⟨3, 2⟩, ⟨2, 1⟩], 0⟩) (View.refs ⟨[⟨2, 2⟩, ⟨2, 1⟩], 10⟩)) (.cell [⟨2, 2⟩, ⟨2, 1⟩] 0 fun p => pure (.val (.num p))) egAt).2 4 = some (.num 3)) ∧
    ((update NumOrIndex.add true [] (atArray (View.refs ⟨[⟨3, 2⟩, ⟨2, 1⟩], 0⟩) (View.refs ⟨[⟨2, 2⟩, ⟨2, 1⟩], 10⟩)) (.cell [⟨2, 2⟩, ⟨2, 1⟩] 0 fun p => pure (.val (.num p))) egAt).2 4 =
      some (.num 108)) := by
  decide +kernel

end Ra.Props
