import Verif.Props.Select
import Verif.Props.AxisSum
/-!
# Places that are all different, counts, and the ways to select elements: C111
-/

namespace Ra.Spec

/-- In memory `μ` there are a vector `a` of length `m` with elements `va`, and a vector `i` of length `k` whose elements are `vi` and are indices in `a`. There's room for `k` elements in `b`, away from both. -/
structure Picks {V : Type} (n : IndexLike V) (μ : Mem V) (m k : Nat) (b a i : View) (va vi : Int → V) : Prop where
  shapeA : Shaped a [some m]
  shapeB : Shaped b [some k]
  shapeI : Shaped i [some k]
  distinct : Distinct b [k]
  room : ∀ j, Valid [k] [j] → (μ (address b [j])).isSome
  apartA : ∀ j, Valid [m] [j] → ¬ InView b [k] (address a [j])
  apartI : ∀ j, Valid [k] [j] → ¬ InView b [k] (address i [j])
  valueA : ∀ j, Valid [m] [j] → μ (address a [j]) = some (va j)
  valueI : ∀ j, Valid [k] [j] → μ (address i [j]) = some (vi j)
  index : ∀ j, Valid [k] [j] → Valid [m] [n.toIdx (vi j)]

/-- In memory `μ` there are a square matrix `a` of size `m` with elements `va`, and a vector `i` of length `k` whose elements are `vi` and are indices in `a`. There's room for `k` by `k` elements in `b`, away from both. -/
structure PicksSquare {V : Type} (n : IndexLike V) (μ : Mem V) (m k : Nat) (b a i : View) (va : Int → Int → V) (vi : Int → V) : Prop where
  shapeA : Shaped a [some m, some m]
  shapeB : Shaped b [some k, some k]
  shapeI : Shaped i [some k]
  distinct : Distinct b [k, k]
  room : ∀ x y, Valid [k, k] [x, y] → (μ (address b [x, y])).isSome
  apartA : ∀ x y, Valid [m, m] [x, y] → ¬ InView b [k, k] (address a [x, y])
  apartI : ∀ j, Valid [k] [j] → ¬ InView b [k, k] (address i [j])
  valueA : ∀ x y, Valid [m, m] [x, y] → μ (address a [x, y]) = some (va x y)
  valueI : ∀ j, Valid [k] [j] → μ (address i [j]) = some (vi j)
  index : ∀ j, Valid [k] [j] → Valid [m] [n.toIdx (vi j)]

end Ra.Spec

namespace Ra.Props
open Spec

section
variable {V : Type}

/-- C111. If the places are in `a` and are all different, then after `a(i, j, ...) = x` the elements of `a(i, j, ...)` are those of `x`. -/
theorem C111_distinct (dyn : Bool) (z : List Int) (hz : ∀ i ∈ z, i = 0) (n : IndexLike V) (v : View) (t : List Nat) (hv : Shaped v (t.map some)) (hd : Distinct v t)
    (is : List (ArrSub (Act V) (Lv V))) (hnew : ∀ k, .sub (.new k) ∉ is) (harr : ∃ I s0, .array I s0 ∈ is) (hI : ∀ I s0, .array I s0 ∈ is → HasShape I s0) (hax : axes (is.map ArrSub.kept) ≤ t.length)
    (ha : Accepts v.dims (is.map ArrSub.kept)) (x : Iter (Act V) (Lv V)) (sx : List Length) (hx : HasShape x sx) (s : List Nat) (hs : outerShape (t.map some) is = s.map some)
    (hm : Merge [s.map some, sx] (s.map some)) (μ : Mem V) (hmem : ∀ k, Valid t k → (μ (address v k)).isSome) (K : List Int → List Int) (f : List Int → V)
    (hK : ∀ j, Valid s j → ∀ μ', SameOutside (InView v t) μ μ' → Selects n μ' is j (K j))
    (hf : ∀ j, Valid s j → ∀ μ', SameOutside (InView v t) μ μ' → Reads μ' (elem x j) (f j))
    (hp : ∀ j, Valid s j → Valid t (outerIndex is j (K j))) (hne : ∀ i j, Valid s i → Valid s j → outerIndex is i (K i) = outerIndex is j (K j) → i = j) :
    ∃ e μ', v.select n (is.map msub) (arrs is) = .ok (some e) ∧ v.selectAssign n dyn z (is.map msub) (arrs is) x μ = (.ok (), μ') ∧
      (∀ j, Valid s j → Reads μ' (elem e j) (f j)) ∧ SameOutside (fun p => ∃ j, Valid s j ∧ p = address v (outerIndex is j (K j))) μ μ' := by
  have htake : ∀ j, Valid s j → j.take (outerShape (t.map some) is).length = j := by
    intro j hj
    rw [List.take_of_length_le]
    rw [hs, List.length_map, hj.length]
  obtain ⟨μ', h1, h2⟩ := C111_assign dyn z hz n v t hv is hnew harr hI hax ha x sx hx s (by rw [hs]; exact hm) μ hmem (fun j => outerIndex is j (K j)) f
    (fun j hj μ' ho => ⟨K j, by rw [htake j hj]; exact hK j hj μ' ho, by rw [htake j hj]⟩) hf (rowMajor s) [] (by simp) (fun j hj => hp j (mem_rowMajor.mp hj)) (by simp)
  obtain ⟨e, e1, e2, e3⟩ := C111_select n v t hv is hnew harr hI hax ha
  have hlast : ∀ j, Valid s j → μ' (address v (outerIndex is j (K j))) = some (f j) := by
    intro j hj
    rw [h2]
    have hmem' : j ∈ (rowMajor s).filter fun i => address v (outerIndex is i (K i)) = address v (outerIndex is j (K j)) := by
      simp [mem_rowMajor, hj]
    cases hg : ((rowMajor s).filter fun i => address v (outerIndex is i (K i)) = address v (outerIndex is j (K j))).getLast? with
    | none =>
      rw [List.getLast?_eq_none_iff] at hg
      rw [hg] at hmem'
      cases hmem'
    | some i =>
      have hi := List.mem_of_getLast? hg
      rw [List.mem_filter] at hi
      have hvi := mem_rowMajor.mp hi.1
      rw [hne i j hvi hj (hd _ _ (hp i hvi) (hp j hj) (of_decide_eq_true hi.2))]
  have hsame : SameOutside (fun p => ∃ j, Valid s j ∧ p = address v (outerIndex is j (K j))) μ μ' := by
    intro p hp'
    rw [h2]
    cases hg : ((rowMajor s).filter fun i => address v (outerIndex is i (K i)) = p).getLast? with
    | none => rfl
    | some i =>
      have hi := List.mem_of_getLast? hg
      rw [List.mem_filter] at hi
      exact absurd ⟨i, mem_rowMajor.mp hi.1, (of_decide_eq_true hi.2).symm⟩ hp'
  refine ⟨e, μ', e1, by simpa using h1, ?_, hsame⟩
  intro j hj
  have ho : SameOutside (InView v t) μ μ' := by
    intro p hp'
    refine hsame p ?_
    rintro ⟨j, hj, rfl⟩
    exact hp' ⟨_, hp j hj, rfl⟩
  have hr := (e3 j (by rw [hs, List.length_map, hj.length]) (by rw [hs]; exact inRange_of_valid hj) μ' (K j) (hK j hj μ' ho)).1 (inRange_of_valid (hp j hj))
  unfold Reads
  rw [act_bind_ok hr]
  simp [Lv.get, Act.read, hlast j hj]

/-- C111. `b = a(i, j, ...)` with array subscripts: each element of `b` is that of `a` at its place. -/
theorem C111_gather (dyn : Bool) (z : List Int) (hz : ∀ i ∈ z, i = 0) (n : IndexLike V) (v : View) (t : List Nat) (hv : Shaped v (t.map some)) (is : List (ArrSub (Act V) (Lv V)))
    (hnew : ∀ k, .sub (.new k) ∉ is) (harr : ∃ I s0, .array I s0 ∈ is) (hI : ∀ I s0, .array I s0 ∈ is → HasShape I s0) (hax : axes (is.map ArrSub.kept) ≤ t.length)
    (ha : Accepts v.dims (is.map ArrSub.kept)) (b : View) (s : List Nat) (hb : Shaped b (s.map some)) (hd : Distinct b s) (hs : outerShape (t.map some) is = s.map some)
    (μ : Mem V) (hmem : ∀ j, Valid s j → (μ (address b j)).isSome) (va : List Int → V) (hva : ∀ k, Valid t k → μ (address v k) = some (va k) ∧ ¬ InView b s (address v k)) (K : List Int → List Int)
    (hK : ∀ j, Valid s j → ∀ μ', SameOutside (InView b s) μ μ' → Selects n μ' is j (K j)) (hp : ∀ j, Valid s j → Valid t (outerIndex is j (K j))) :
    ∃ μ', b.assignSelect n dyn z v (is.map msub) (arrs is) μ = (.ok (), μ') ∧ (∀ j, Valid s j → μ' (address b j) = some (va (outerIndex is j (K j)))) ∧ SameOutside (InView b s) μ μ' := by
  obtain ⟨e, e1, e2, e3⟩ := C111_select n v t hv is hnew harr hI hax ha
  obtain ⟨μ', h1, h2⟩ := C27_view dyn z hz b s hb hd e _ e2 (by rw [hs]; exact merge_same _) μ hmem (fun j => va (outerIndex is j (K j))) (by
    intro j hj μ' ho
    have ho' : SameOutside (InView b s) μ μ' := fun p hp => ho p fun h => hp h.1
    have hr := (e3 j (by rw [hs, List.length_map, hj.length]) (by rw [hs]; exact inRange_of_valid hj) μ' (K j) (hK j hj μ' ho')).1 (inRange_of_valid (hp j hj))
    unfold Reads
    rw [act_bind_ok hr]
    obtain ⟨w1, w2⟩ := hva _ (hp j hj)
    simp [Lv.get, Act.read, ho' _ w2, w1])
  refine ⟨μ', ?_, h2⟩
  unfold View.assignSelect
  rw [lift_bind e1]
  exact h1

end

/-- C111. `a(i, j, ...) += 1` adds to each element of `a` how many times its place is found with the subscripts. -/
theorem C111_count (dyn : Bool) (z : List Int) (hz : ∀ i ∈ z, i = 0) (v : View) (t : List Nat) (hv : Shaped v (t.map some)) (hd : Distinct v t)
    (is : List (ArrSub (Act Int) (Lv Int))) (hnew : ∀ k, .sub (.new k) ∉ is) (harr : ∃ I s0, .array I s0 ∈ is) (hI : ∀ I s0, .array I s0 ∈ is → HasShape I s0) (hax : axes (is.map ArrSub.kept) ≤ t.length)
    (ha : Accepts v.dims (is.map ArrSub.kept)) (s : List Nat) (hs : outerShape (t.map some) is = s.map some)
    (μ : Mem Int) (va : List Int → Int) (hva : ∀ k, Valid t k → μ (address v k) = some (va k)) (K : List Int → List Int)
    (hK : ∀ j, Valid s j → ∀ μ', SameOutside (InView v t) μ μ' → Selects inferInstance μ' is j (K j)) (hp : ∀ j, Valid s j → Valid t (outerIndex is j (K j))) :
    ∃ μ', v.selectUpdate inferInstance (· + ·) dyn z (is.map msub) (arrs is) (.scalar (pure (.val 1))) μ = (.ok (), μ') ∧
      (∀ k, Valid t k → μ' (address v k) = some (va k + (rowMajor s).countP fun j => outerIndex is j (K j) = k)) ∧ SameOutside (InView v t) μ μ' := by
  have htake : ∀ j, Valid s j → j.take (outerShape (t.map some) is).length = j := by
    intro j hj
    rw [List.take_of_length_le]
    rw [hs, List.length_map, hj.length]
  have hfold : ∀ (l : List (List Int)) (y : Int), (l.map fun _ => (1 : Int)).foldl (· + ·) y = y + l.length := by
    intro l
    induction l with
    | nil => simp
    | cons j l ih => intro y; simp only [List.map_cons, List.foldl_cons, ih, List.length_cons]; push_cast; ring
  obtain ⟨μ', h1, h2⟩ := C111_update (· + ·) dyn z hz inferInstance v t hv is hnew harr hI hax ha (.scalar (pure (.val 1))) [] rfl s (by rw [hs]; exact merge_nil _) μ (fun k hk => by simp [hva k hk])
    (fun j => outerIndex is j (K j)) (fun _ => 1) (fun j hj μ' ho => ⟨K j, by rw [htake j hj]; exact hK j hj μ' ho, by rw [htake j hj]⟩) (fun _ _ _ _ => rfl) (rowMajor s) [] (by simp)
    (fun j hj => hp j (mem_rowMajor.mp hj)) (by simp)
  refine ⟨μ', by simpa using h1, ?_, ?_⟩
  · intro k hk
    rw [h2, hva k hk, Option.map_some, hfold, List.countP_eq_length_filter]
    congr 4
    refine List.filter_congr fun j hj => ?_
    simp only [decide_eq_decide]
    exact ⟨fun e => hd _ _ (hp j (mem_rowMajor.mp hj)) hk e, fun e => by rw [e]⟩
  · intro p hp'
    rw [h2]
    have : ((rowMajor s).filter fun j => address v (outerIndex is j (K j)) = p) = [] := by
      rw [List.filter_eq_nil_iff]
      intro j hj h
      exact hp' ⟨_, hp j (mem_rowMajor.mp hj), (of_decide_eq_true h).symm⟩
    rw [this]
    simp

/-! ## With one subscript -/

section
variable {V : Type}

theorem one_selects (n : IndexLike V) {μ μ' : Mem V} {m k : Nat} {b a i : View} {va vi : Int → V} (h : Picks n μ m k b a i va vi) (ho : SameOutside (InView b [k]) μ μ') {j : Int} (hj : Valid [k] [j]) :
    μ' (address i [j]) = some (vi j) ∧ μ' (address a [n.toIdx (vi j)]) = some (va (n.toIdx (vi j))) := by
  refine ⟨?_, ?_⟩
  · rw [ho _ (h.apartI j hj), h.valueI j hj]
  · rw [ho _ (h.apartA _ (h.index j hj)), h.valueA _ (h.index j hj)]

theorem picks_vals {n : IndexLike V} {μ : Mem V} {m k : Nat} {b a i : View} {va vi : Int → V} (h : Picks n μ m k b a i va vi) :
    ∃ vb : Int → V, ∀ j, Valid [k] [j] → μ (address b [j]) = some (vb j) := by
  classical
  refine ⟨fun j => if hj : Valid [k] [j] then (μ (address b [j])).get (h.room j hj) else vi 0, ?_⟩
  intro j hj
  simp [hj]

/-- The loops. -/
theorem picks_loop {n : IndexLike V} {μ : Mem V} {m k : Nat} {b a i : View} {va vi : Int → V} (h : Picks n μ m k b a i va vi) (rd : Nat → Act V V)
    (hr : ∀ j : Nat, j < k → ∀ μ', SameOutside (InView b [k]) μ μ' → rd j μ' = (.ok (va (n.toIdx (vi j))), μ')) :
    ∃ μ', forAll (fun (j : Nat) => (do let v ← rd j; Act.write (address b [(j : Int)]) v : Act V Unit)) (List.range k) μ = (.ok (), μ') ∧ VectorIs μ μ' k b fun j => va (n.toIdx (vi j)) := by
  obtain ⟨vb, hb⟩ := picks_vals h
  obtain ⟨μ', h1, h2, h3⟩ := run_sets rd (fun j => va (n.toIdx (vi j))) k b h.distinct μ hr (List.range k) (fun t ht => List.mem_range.mp ht) μ (fun _ _ => rfl) vb hb
  refine ⟨μ', h1, h2, ?_⟩
  intro j hj
  rw [h3 j hj]
  obtain ⟨_, e, j1, j2⟩ := valid_one.mp hj
  simp only [List.cons.injEq, and_true] at e
  subst e
  beta_reduce
  rw [if_pos (List.mem_range.mpr (by omega))]

theorem pick_one {c : View} {n : Nat} (hc : Shaped c [some n]) {i : Int} (hi : Valid [n] [i]) : ∃ x, c.from [.scalar (.const i)] = .ok x ∧ x.cp = address c [i] := by
  obtain ⟨_, e, i1, i2⟩ := valid_one.mp hi
  simp only [List.cons.injEq, and_true] at e
  subst e
  obtain ⟨x, h1, h2⟩ := take_one hc i.toNat (by omega)
  rw [Int.toNat_of_nonneg i1] at h1 h2
  exact ⟨x, h1, h2⟩

/-- C111. The ways to select elements of a vector in bench/bench-from.cc give the same: `b = a(i)`, `for_each` and a loop, and, if the elements are contiguous, pointers. -/
theorem C111_ways (dyn : Bool) (z : List Int) (hz : ∀ i ∈ z, i = 0) (n : IndexLike V) (μ : Mem V) (m k : Nat) (b a i : View) (va vi : Int → V) (h : Picks n μ m k b a i va vi) :
    ∀ way, (way = b.assignSelect n dyn z a [.array] [i.refs] ∨ way = selectEach n dyn z b a i ∨ way = selectLoop n b a i ∨
        (way = selectRaw n b a i ∧ a.dims = [⟨m, 1⟩] ∧ b.dims = [⟨k, 1⟩] ∧ i.dims = [⟨k, 1⟩])) →
      ∃ μ', way μ = (.ok (), μ') ∧ VectorIs μ μ' k b fun j => va (n.toIdx (vi j)) := by
  have e0 : lenOf i.dims 0 = k := by obtain ⟨s, e⟩ := view_one h.shapeI; rw [e]; rfl
  have hval : ∀ j : Nat, j < k → Valid [k] [(j : Int)] := fun j hj => valid_one.mpr ⟨_, rfl, by omega, by omega⟩
  rintro way (rfl | rfl | rfl | ⟨rfl, ca, cb, ci⟩)
  · obtain ⟨vb, hb⟩ := picks_vals h
    obtain ⟨μ', h1, h2, h3⟩ := C111_gather dyn z hz n a [m] h.shapeA [.array i.refs [some k]] (by simp) ⟨i.refs, [some k], by simp⟩ (by
        intro I s0 hI
        obtain ⟨rfl, rfl⟩ := by simpa using hI
        exact refs_shape h.shapeI) (by simp [axes, ArrSub.kept]) (by simp [ArrSub.kept, Accepts]) b [k] h.shapeB h.distinct (by simp [outerShape]) μ
      (by
        intro j hj
        obtain ⟨j, rfl, _⟩ := valid_one.mp hj
        exact h.room j hj)
      (fun j => va (j.getD 0 0))
      (by
        intro j hj
        obtain ⟨j, rfl, _⟩ := valid_one.mp hj
        exact ⟨h.valueA j hj, h.apartA j hj⟩)
      (fun j => [n.toIdx (vi (j.getD 0 0))])
      (by
        intro j hj μ' ho
        obtain ⟨j, rfl, _⟩ := valid_one.mp hj
        refine .cons ⟨vi j, ?_, rfl⟩ .nil
        exact reads_refs (one_selects n h ho hj).1)
      (by
        intro j hj
        obtain ⟨j, rfl, _⟩ := valid_one.mp hj
        exact h.index j hj)
    exact ⟨μ', h1, h3, fun j hj => h2 [j] hj⟩
  · obtain ⟨μ', h1, h2⟩ := picks_loop h (fun j => do
        let x ← Act.read (address i [(j : Int)])
        let c ← Act.lift (a.from [.scalar (.const (n.toIdx x))])
        Act.read c.cp) (by
      intro j hj μ' ho
      obtain ⟨v1, v2⟩ := one_selects n h ho (hval j hj)
      obtain ⟨c, c1, c2⟩ := pick_one h.shapeA (h.index _ (hval j hj))
      rw [act_bind_ok (a := vi j) (μ' := μ') (by simp [Act.read, v1]), lift_bind c1, c2]
      simp [Act.read, v2])
    refine ⟨μ', ?_, h2⟩
    rw [← h1]
    unfold selectEach
    rw [run_forAll dyn z hz _ _ _ [some k] [some k] [k] (refs_shape h.shapeB) (refs_shape h.shapeI) (merge_same _), rowMajor_one, forAll_mapped, forAll_eq]
    refine congrFun (forAll_congr ?_) _
    intro j _
    simp only [elem_refs, mapM_two, pure_bind, selectOp, Lv.get, bind_assoc]
    congr 1; funext x
    congr 1; funext c
    congr 1; funext y
    exact bind_pure_unit
  · obtain ⟨μ', h1, h2⟩ := picks_loop h (fun j => do
        let q ← Act.lift (i.from [.scalar (.const j)])
        let x ← Act.read q.cp
        let c ← Act.lift (a.from [.scalar (.const (n.toIdx x))])
        Act.read c.cp) (by
      intro j hj μ' ho
      obtain ⟨v1, v2⟩ := one_selects n h ho (hval j hj)
      obtain ⟨q, q1, q2⟩ := pick_one h.shapeI (hval j hj)
      obtain ⟨c, c1, c2⟩ := pick_one h.shapeA (h.index _ (hval j hj))
      rw [lift_bind q1, q2, act_bind_ok (a := vi j) (μ' := μ') (by simp [Act.read, v1]), lift_bind c1, c2]
      simp [Act.read, v2])
    refine ⟨μ', ?_, h2⟩
    rw [← h1]
    simp only [selectLoop, e0, forLoop_eq]
    refine congrFun (forAll_congr ?_) _
    intro j hj
    obtain ⟨p, p1, p2⟩ := pick_one h.shapeB (hval j (List.mem_range.mp hj))
    simp only [bind_assoc]
    congr 1; funext q
    congr 1; funext x
    congr 1; funext c
    congr 1; funext y
    funext μ0
    rw [lift_bind p1, p2]
  · have hc : ∀ (c : View) (q : Nat), c.dims = [⟨q, 1⟩] → ∀ j, address c [j] = c.cp + j := by
      intro c q e j
      obtain ⟨d, p⟩ := c
      simp only at e
      subst e
      simp [address, dot]
    obtain ⟨μ', h1, h2⟩ := picks_loop h (fun j => do
        let x ← Act.read (i.cp + j)
        Act.read (a.cp + n.toIdx x)) (by
      intro j hj μ' ho
      obtain ⟨v1, v2⟩ := one_selects n h ho (hval j hj)
      rw [hc i k ci] at v1
      rw [hc a m ca] at v2
      rw [act_bind_ok (a := vi j) (μ' := μ') (by simp [Act.read, v1])]
      simp [Act.read, v2])
    refine ⟨μ', ?_, h2⟩
    rw [← h1]
    simp only [selectRaw, e0, forLoop_eq]
    refine congrFun (forAll_congr ?_) _
    intro j _
    simp only [bind_assoc, hc b k cb]

theorem sets_all (rd : List Int → Act V V) (val : List Int → V) (c : View) (s : List Nat) (hd : Distinct c s) (μ₀ : Mem V) (hroom : ∀ j, Valid s j → (μ₀ (address c j)).isSome)
    (hr : ∀ j, Valid s j → ∀ μ', SameOutside (InView c s) μ₀ μ' → rd j μ' = (.ok (val j), μ')) (l : List (List Int)) (hl : ∀ j ∈ l, Valid s j) (μ : Mem V) (hμ : SameOutside (InView c s) μ₀ μ)
    (hs : ∀ p, (μ p).isSome = (μ₀ p).isSome) :
    ∃ μ', forAll (fun j => (do let v ← rd j; Act.write (address c j) v : Act V Unit)) l μ = (.ok (), μ') ∧ SameOutside (InView c s) μ₀ μ' ∧
      ∀ j, Valid s j → μ' (address c j) = if j ∈ l then some (val j) else μ (address c j) := by
  induction l generalizing μ with
  | nil => exact ⟨μ, rfl, hμ, by simp⟩
  | cons i l ih =>
    have hi := hl i (by simp)
    have hsi : (μ (address c i)).isSome := by rw [hs]; exact hroom i hi
    obtain ⟨μ', h1, h2, h3⟩ := ih (fun j hj => hl j (List.mem_cons_of_mem _ hj)) (μ.upd (address c i) (val i)) (by
        intro p hp
        rw [Mem.upd, if_neg (by rintro rfl; exact hp ⟨_, hi, rfl⟩), hμ p hp])
      (by
        intro p
        rw [← hs p]
        by_cases hp : p = address c i
        · subst hp; simp [Mem.upd, hsi]
        · simp [Mem.upd, hp])
    refine ⟨μ', ?_, h2, ?_⟩
    · simp only [forAll, bind_assoc]
      rw [act_bind_ok (hr i hi μ hμ)]
      obtain ⟨w, hw⟩ := Option.isSome_iff_exists.mp hsi
      rw [act_bind_ok (a := ()) (μ' := μ.upd (address c i) (val i)) (by simp [Act.write, hw])]
      exact h1
    · intro j hj
      rw [h3 j hj]
      by_cases hji : j = i
      · subst hji
        by_cases hjl : j ∈ l <;> simp [hjl, Mem.upd]
      · have hne : address c j ≠ address c i := fun e => hji (hd _ _ hj hi e)
        by_cases hjl : j ∈ l <;> simp [hjl, hji, Mem.upd, hne]

/-- C111. With the same subscript on both axes of a matrix, `b = a(i, i)` and the loops on pointers in bench/bench-from.cc, if the elements are contiguous, give the same. -/
theorem C111_square (dyn : Bool) (z : List Int) (hz : ∀ i ∈ z, i = 0) (n : IndexLike V) (μ : Mem V) (m k : Nat) (b a i : View) (va : Int → Int → V) (vi : Int → V) (h : PicksSquare n μ m k b a i va vi) :
    ∀ way, (way = b.assignSelect n dyn z a [.array, .array] [i.refs, i.refs] ∨ (way = selectRaw2 n b a i ∧ Compact a m m ∧ Compact b k k ∧ i.dims = [⟨k, 1⟩])) →
      ∃ μ', way μ = (.ok (), μ') ∧ SameOutside (InView b [k, k]) μ μ' ∧ ∀ x y, Valid [k, k] [x, y] → μ' (address b [x, y]) = some (va (n.toIdx (vi x)) (n.toIdx (vi y))) := by
  have e0 : lenOf i.dims 0 = k := by obtain ⟨s, e⟩ := view_one h.shapeI; rw [e]; rfl
  have hab : ∀ x y, Valid [k, k] [x, y] → Valid [k] [x] ∧ Valid [k] [y] := by
    intro x y hv
    simp only [Valid] at hv ⊢
    exact ⟨⟨hv.1, hv.2.1, trivial⟩, hv.2.2.1, hv.2.2.2.1, trivial⟩
  have hidx : ∀ x y, Valid [k, k] [x, y] → Valid [m, m] [n.toIdx (vi x), n.toIdx (vi y)] := by
    intro x y hv
    obtain ⟨v1, v2⟩ := hab x y hv
    have w1 := h.index x v1
    have w2 := h.index y v2
    simp only [Valid] at w1 w2 ⊢
    exact ⟨w1.1, w1.2.1, w2⟩
  have hsel : ∀ x y, Valid [k, k] [x, y] → ∀ μ', SameOutside (InView b [k, k]) μ μ' → μ' (address i [x]) = some (vi x) ∧ μ' (address i [y]) = some (vi y) ∧
      μ' (address a [n.toIdx (vi x), n.toIdx (vi y)]) = some (va (n.toIdx (vi x)) (n.toIdx (vi y))) := by
    intro x y hv μ' ho
    obtain ⟨v1, v2⟩ := hab x y hv
    refine ⟨?_, ?_, ?_⟩
    · rw [ho _ (h.apartI x v1), h.valueI x v1]
    · rw [ho _ (h.apartI y v2), h.valueI y v2]
    · rw [ho _ (h.apartA _ _ (hidx x y hv)), h.valueA _ _ (hidx x y hv)]
  rintro way (rfl | ⟨rfl, ca, cb, ci⟩)
  · obtain ⟨μ', h1, h2, h3⟩ := C111_gather dyn z hz n a [m, m] h.shapeA [.array i.refs [some k], .array i.refs [some k]] (by simp) ⟨i.refs, [some k], by simp⟩ (by
        intro I s0 hI
        obtain ⟨rfl, rfl⟩ := by simpa using hI
        exact refs_shape h.shapeI) (by simp [axes, ArrSub.kept]) (by simp [ArrSub.kept, Accepts]) b [k, k] h.shapeB h.distinct (by simp [outerShape]) μ
      (by
        intro j hj
        obtain ⟨x, y, rfl, _⟩ := valid_two.mp hj
        exact h.room x y hj)
      (fun j => va (j.getD 0 0) (j.getD 1 0))
      (by
        intro j hj
        obtain ⟨x, y, rfl, _⟩ := valid_two.mp hj
        exact ⟨h.valueA x y hj, h.apartA x y hj⟩)
      (fun j => [n.toIdx (vi (j.getD 0 0)), n.toIdx (vi (j.getD 1 0))])
      (by
        intro j hj μ' ho
        obtain ⟨x, y, rfl, _⟩ := valid_two.mp hj
        obtain ⟨s1, s2, _⟩ := hsel x y hj μ' ho
        refine .cons ⟨vi x, ?_, rfl⟩ (.cons ⟨vi y, ?_, rfl⟩ .nil)
        · exact reads_refs s1
        · exact reads_refs s2)
      (by
        intro j hj
        obtain ⟨x, y, rfl, _⟩ := valid_two.mp hj
        exact hidx x y hj)
    exact ⟨μ', h1, h3, fun x y hj => h2 [x, y] hj⟩
  · have hc : ∀ j, address i [j] = i.cp + j := by
      intro j
      obtain ⟨d, p⟩ := i
      simp only at ci
      subst ci
      simp [address, dot]
    have ea : lenOf a.dims 0 = m := by rw [show a.dims = _ from ca]; rfl
    obtain ⟨μ', h1, h2, h3⟩ := sets_all (fun j => do
        let x ← Act.read (i.cp + j.getD 0 0)
        let y ← Act.read (i.cp + j.getD 1 0)
        Act.read (a.cp + (n.toIdx x * lenOf a.dims 0 + n.toIdx y))) (fun j => va (n.toIdx (vi (j.getD 0 0))) (n.toIdx (vi (j.getD 1 0)))) b [k, k] h.distinct μ
      (by
        intro j hj
        obtain ⟨x, y, rfl, _⟩ := valid_two.mp hj
        exact h.room x y hj)
      (by
        intro j hj μ' ho
        obtain ⟨x, y, rfl, _⟩ := valid_two.mp hj
        obtain ⟨s1, s2, s3⟩ := hsel x y hj μ' ho
        rw [hc] at s1 s2
        rw [compact_address ca] at s3
        simp only [List.getD_cons_zero, List.getD_cons_succ]
        rw [act_bind_ok (a := vi x) (μ' := μ') (by simp [Act.read, s1]), act_bind_ok (a := vi y) (μ' := μ') (by simp [Act.read, s2]), ea]
        simp [Act.read, s3])
      (rowMajor [k, k]) (fun j hj => mem_rowMajor.mp hj) μ (fun _ _ => rfl) (fun _ => rfl)
    refine ⟨μ', ?_, h2, fun x y hj => by rw [h3 _ hj, if_pos (mem_rowMajor.mpr hj)]; rfl⟩
    rw [← h1, rowMajor_two, forAll_mapped, byRows, forAll_flatMap]
    simp only [selectRaw2, e0, forLoop_eq, forAll_mapped, List.getD_cons_zero, List.getD_cons_succ, bind_assoc, compact_address cb]

end

/-! ## The statements on some arrays -/

/-- `a` is 0 10 20 30 40 at 0, `i` is 1 3 1 at 10, 3 0 4 at 20 and 1 7 2 at 30, and `x` is 5 6 7 at 40. -/
def selMem : Mem Int := fun p =>
  if 0 ≤ p ∧ p < 5 then some (10 * p) else if p = 10 then some 1 else if p = 11 then some 3 else if p = 12 then some 1 else
  if p = 20 then some 3 else if p = 21 then some 0 else if p = 22 then some 4 else if p = 30 then some 1 else if p = 31 then some 7 else if p = 32 then some 2 else
  if 40 ≤ p ∧ p < 43 then some (p - 35) else none

def selArr : View := ⟨[⟨5, 1⟩], 0⟩
def selVec (p : Int) : View := ⟨[⟨3, 1⟩], p⟩

theorem selArr_address (j : Int) : address selArr [j] = j := by simp [selArr, address, dot]

theorem selVec_address (p j : Int) : address (selVec p) [j] = p + j := by simp [selVec, address, dot]

theorem selArr_in {p : Int} (h : 5 ≤ p) : ¬ InView selArr [5] p := by
  rintro ⟨j, hj, e⟩
  obtain ⟨j, rfl, h1, h2⟩ := valid_one.mp hj
  rw [selArr_address] at e
  omega

theorem selArr_shape : Shaped selArr [some 5] := shaped_nat (s := [5]).mpr rfl

theorem selVec_shape (p : Int) : Shaped (selVec p) [some 3] := shaped_nat (s := [3]).mpr rfl

theorem selArr_distinct : Distinct selArr [5] := by
  intro i j hi hj e
  obtain ⟨i, rfl, _⟩ := valid_one.mp hi
  obtain ⟨j, rfl, _⟩ := valid_one.mp hj
  rw [selArr_address, selArr_address] at e
  rw [e]

/-- The subscript at `p`. -/
def selSub (p : Int) : List (ArrSub (Act Int) (Lv Int)) := [.array (selVec p).refs [some 3]]

theorem sel_selects {p : Int} (hp : 5 ≤ p) {x0 x1 x2 : Int} (h0 : selMem p = some x0) (h1 : selMem (p + 1) = some x1) (h2 : selMem (p + 2) = some x2) (j : List Int) (hj : Valid [3] j)
    (μ' : Mem Int) (ho : SameOutside (InView selArr [5]) selMem μ') : Selects inferInstance μ' (selSub p) j [if j = [0] then x0 else if j = [1] then x1 else x2] := by
  obtain ⟨j, rfl, j1, j2⟩ := valid_one.mp hj
  refine .cons ⟨if [j] = [0] then x0 else if [j] = [1] then x1 else x2, reads_refs (j := [j]) ?_, rfl⟩ .nil
  rw [ho _ (by rw [selVec_address]; exact selArr_in (by omega)), selVec_address]
  have : j = 0 ∨ j = 1 ∨ j = 2 := by omega
  rcases this with rfl | rfl | rfl
  · simpa using h0
  · simpa using h1
  · simpa using h2

theorem sel_array {p : Int} : ∀ I s0, ArrSub.array I s0 ∈ selSub p → HasShape I s0 := by
  intro I s0 hI
  obtain ⟨rfl, rfl⟩ := by simpa [selSub] using hI
  exact refs_shape (selVec_shape p)

theorem selVec_reads (j : List Int) (hj : Valid [3] j) (μ' : Mem Int) (ho : SameOutside (InView selArr [5]) selMem μ') : Reads μ' (elem (selVec 40).refs j) (j.getD 0 0 + 5) := by
  obtain ⟨j, rfl, j1, j2⟩ := valid_one.mp hj
  refine reads_refs ?_
  rw [ho _ (by rw [selVec_address]; exact selArr_in (by omega)), selVec_address]
  have : j = 0 ∨ j = 1 ∨ j = 2 := by omega
  rcases this with rfl | rfl | rfl <;> rfl

theorem selArr_values (k : List Int) (hk : Valid [5] k) : selMem (address selArr k) = some (10 * k.getD 0 0) := by
  obtain ⟨k, rfl, h1, h2⟩ := valid_one.mp hk
  rw [selArr_address]
  simp [selMem, h1, show k < 5 by omega]

/- `a(i) += 1` where `i` is 1 3 1: 2 and 1 are added to 10 and 30. -/
example : ∃ μ', selArr.selectUpdate inferInstance (· + ·) true [0] [.array] [(selVec 10).refs] (.scalar (pure (.val 1))) selMem = (.ok (), μ') ∧ μ' 0 = some 0 ∧ μ' 1 = some 12 ∧ μ' 3 = some 31 := by
  obtain ⟨μ', h1, h2, h3⟩ := C111_count true [0] (by simp) selArr [5] selArr_shape selArr_distinct (selSub 10) (by simp [selSub]) ⟨(selVec 10).refs, [some 3], by simp [selSub]⟩ sel_array
    (by simp [selSub, axes, ArrSub.kept]) (by simp [selSub, ArrSub.kept, Accepts]) [3] rfl selMem _ selArr_values _
    (sel_selects (p := 10) (x0 := 1) (x1 := 3) (x2 := 1) (by decide) rfl rfl rfl) (by
      intro j hj
      obtain ⟨j, rfl, j1, j2⟩ := valid_one.mp hj
      have : j = 0 ∨ j = 1 ∨ j = 2 := by omega
      rcases this with rfl | rfl | rfl <;> simp [Valid, selSub, outerIndex])
  have w : ∀ k : Int, 0 ≤ k → k < 5 → _ := fun k a b => h2 [k] (valid_one.mpr ⟨k, rfl, a, by omega⟩)
  refine ⟨μ', h1, ?_, ?_, ?_⟩
  · have := w 0 (by decide) (by decide)
    rw [selArr_address] at this
    rw [this]; decide
  · have := w 1 (by decide) (by decide)
    rw [selArr_address] at this
    rw [this]; decide
  · have := w 3 (by decide) (by decide)
    rw [selArr_address] at this
    rw [this]; decide

/- `a(i) = x` where `i` is 3 0 4, all different, and `x` is 5 6 7. -/
example : ∃ e μ', selArr.select inferInstance [.array] [(selVec 20).refs] = .ok (some e) ∧ selArr.selectAssign inferInstance true [0] [.array] [(selVec 20).refs] (selVec 40).refs selMem = (.ok (), μ') ∧
    Reads μ' (elem e [0]) 5 ∧ Reads μ' (elem e [1]) 6 ∧ Reads μ' (elem e [2]) 7 ∧ μ' 1 = some 10 := by
  obtain ⟨e, μ', h1, h2, h3, h4⟩ := C111_distinct true [0] (by simp) inferInstance selArr [5] selArr_shape selArr_distinct (selSub 20) (by simp [selSub]) ⟨(selVec 20).refs, [some 3], by simp [selSub]⟩ sel_array
    (by simp [selSub, axes, ArrSub.kept]) (by simp [selSub, ArrSub.kept, Accepts]) (selVec 40).refs [some 3] (refs_shape (selVec_shape 40)) [3] rfl (merge_same _) selMem (fun k hk => by simp [selArr_values k hk]) _ _
    (sel_selects (p := 20) (x0 := 3) (x1 := 0) (x2 := 4) (by decide) rfl rfl rfl) selVec_reads (by
      intro j hj
      obtain ⟨j, rfl, j1, j2⟩ := valid_one.mp hj
      have : j = 0 ∨ j = 1 ∨ j = 2 := by omega
      rcases this with rfl | rfl | rfl <;> simp [Valid, selSub, outerIndex]) (by
      intro i j hi hj
      obtain ⟨i, rfl, i1, i2⟩ := valid_one.mp hi
      obtain ⟨j, rfl, j1, j2⟩ := valid_one.mp hj
      have hi : i = 0 ∨ i = 1 ∨ i = 2 := by omega
      have hj : j = 0 ∨ j = 1 ∨ j = 2 := by omega
      rcases hi with rfl | rfl | rfl <;> rcases hj with rfl | rfl | rfl <;> simp [selSub, outerIndex])
  refine ⟨e, μ', h1, h2, h3 [0] (by simp [Valid]), h3 [1] (by simp [Valid]), h3 [2] (by simp [Valid]), ?_⟩
  rw [h4 1 ?_]
  · rfl
  · rintro ⟨j, hj, e⟩
    obtain ⟨j, rfl, j1, j2⟩ := valid_one.mp hj
    have : j = 0 ∨ j = 1 ∨ j = 2 := by omega
    rcases this with rfl | rfl | rfl <;> exact absurd e (by decide)

/- `a(i) = x` where `i` is 1 7 2. The first element is assigned, and the check fails on the second. -/
example : ∃ μ', selArr.selectAssign inferInstance true [0] [.array] [(selVec 30).refs] (selVec 40).refs selMem = (.error .check, μ') ∧ μ' 1 = some 5 ∧ μ' 2 = some 20 := by
  obtain ⟨μ', h1, h2⟩ := C111_assign true [0] (by simp) inferInstance selArr [5] selArr_shape (selSub 30) (by simp [selSub]) ⟨(selVec 30).refs, [some 3], by simp [selSub]⟩ sel_array
    (by simp [selSub, axes, ArrSub.kept]) (by simp [selSub, ArrSub.kept, Accepts]) (selVec 40).refs [some 3] (refs_shape (selVec_shape 40)) [3] (merge_same _) selMem (fun k hk => by simp [selArr_values k hk])
    (fun j => [if j = [0] then 1 else if j = [1] then 7 else 2]) _
    (by
      intro j hj μ' ho
      refine ⟨_, sel_selects (p := 30) (x0 := 1) (x1 := 7) (x2 := 2) (by decide) rfl rfl rfl _ ?_ μ' ho, ?_⟩
      · obtain ⟨j, rfl, j1, j2⟩ := valid_one.mp hj
        exact hj
      · obtain ⟨j, rfl, j1, j2⟩ := valid_one.mp hj
        rfl) selVec_reads [[0]] [[1], [2]] rfl (by simp [Valid]) (by simp [Valid])
  exact ⟨μ', h1, by rw [h2]; decide, by rw [h2]; decide⟩

theorem sel_picks : Picks inferInstance selMem 5 3 (selVec 40) selArr (selVec 10) (fun j => 10 * j) (fun j => if j = 1 then 3 else 1) where
  shapeA := selArr_shape
  shapeB := selVec_shape 40
  shapeI := selVec_shape 10
  distinct := by
    intro i j hi hj e
    obtain ⟨i, rfl, _⟩ := valid_one.mp hi
    obtain ⟨j, rfl, _⟩ := valid_one.mp hj
    rw [selVec_address, selVec_address] at e
    rw [show i = j by omega]
  room := by
    intro j hj
    obtain ⟨_, e, j1, j2⟩ := valid_one.mp hj
    simp only [List.cons.injEq, and_true] at e
    subst e
    rw [selVec_address]
    have : j = 0 ∨ j = 1 ∨ j = 2 := by omega
    rcases this with rfl | rfl | rfl <;> rfl
  apartA := by
    rintro j hj ⟨i, hi, e⟩
    obtain ⟨i, rfl, i1, i2⟩ := valid_one.mp hi
    obtain ⟨_, e', j1, j2⟩ := valid_one.mp hj
    simp only [List.cons.injEq, and_true] at e'
    rw [selVec_address, selArr_address] at e
    omega
  apartI := by
    rintro j hj ⟨i, hi, e⟩
    obtain ⟨i, rfl, i1, i2⟩ := valid_one.mp hi
    obtain ⟨_, e', j1, j2⟩ := valid_one.mp hj
    simp only [List.cons.injEq, and_true] at e'
    rw [selVec_address, selVec_address] at e
    omega
  valueA := fun j hj => selArr_values [j] hj
  valueI := by
    intro j hj
    obtain ⟨_, e, j1, j2⟩ := valid_one.mp hj
    simp only [List.cons.injEq, and_true] at e
    subst e
    rw [selVec_address]
    have : j = 0 ∨ j = 1 ∨ j = 2 := by omega
    rcases this with rfl | rfl | rfl <;> rfl
  index := by
    intro j hj
    obtain ⟨_, e, j1, j2⟩ := valid_one.mp hj
    simp only [List.cons.injEq, and_true] at e
    subst e
    have : j = 0 ∨ j = 1 ∨ j = 2 := by omega
    rcases this with rfl | rfl | rfl <;> simp [Valid, IndexLike.toIdx]

/- 10 30 10, in each way. -/
example : ∀ way, (way = (selVec 40).assignSelect inferInstance true [0] selArr [.array] [(selVec 10).refs] ∨ way = selectEach inferInstance true [0] (selVec 40) selArr (selVec 10) ∨
      way = selectLoop inferInstance (selVec 40) selArr (selVec 10) ∨ way = selectRaw inferInstance (selVec 40) selArr (selVec 10)) →
    ∃ μ', way selMem = (.ok (), μ') ∧ μ' 40 = some 10 ∧ μ' 41 = some 30 ∧ μ' 42 = some 10 := by
  intro way hway
  obtain ⟨μ', h1, h2, h3⟩ := C111_ways true [0] (by simp) inferInstance selMem 5 3 _ _ _ _ _ sel_picks way
    (hway.imp_right (Or.imp_right (Or.imp_right fun h => ⟨h, rfl, rfl, rfl⟩)))
  exact ⟨μ', h1, h3 0 (by simp [Valid]), h3 1 (by simp [Valid]), h3 2 (by simp [Valid])⟩

/-- `a` is 0 1 10 11 by rows at 0, `i` is 1 1 0 at 10, and `b` is at 40. -/
def squareMem : Mem Int := fun p =>
  if p = 0 then some 0 else if p = 1 then some 1 else if p = 2 then some 10 else if p = 3 then some 11 else if p = 10 then some 1 else if p = 11 then some 1 else if p = 12 then some 0 else
  if 40 ≤ p ∧ p < 49 then some 0 else none

theorem square_case : PicksSquare inferInstance squareMem 2 3 ⟨[⟨3, 3⟩, ⟨3, 1⟩], 40⟩ ⟨[⟨2, 2⟩, ⟨2, 1⟩], 0⟩ (selVec 10) (fun x y => 10 * x + y) (fun j => if j = 2 then 0 else 1) where
  shapeA := shaped_nat (s := [2, 2]).mpr rfl
  shapeB := shaped_nat (s := [3, 3]).mpr rfl
  shapeI := selVec_shape 10
  distinct := by
    intro i j hi hj e
    obtain ⟨x, y, rfl, _⟩ := valid_two.mp hi
    obtain ⟨u, w, rfl, _⟩ := valid_two.mp hj
    rw [address_two, address_two] at e
    obtain rfl : x = u := by omega
    obtain rfl : y = w := by omega
    rfl
  room := by
    intro x y hj
    obtain ⟨_, _, e, x1, x2, y1, y2⟩ := valid_two.mp hj
    simp only [List.cons.injEq, and_true] at e
    obtain ⟨rfl, rfl⟩ := e
    rw [address_two]
    have h : 40 ≤ 40 + (x * 3 + y * 1) ∧ 40 + (x * 3 + y * 1) < 49 := by omega
    simp only [squareMem, if_pos h]
    repeat' split
    all_goals rfl
  apartA := by
    rintro x y hj ⟨i, hi, e⟩
    obtain ⟨u, w, rfl, i1⟩ := valid_two.mp hi
    obtain ⟨_, _, e', x1, x2, y1, y2⟩ := valid_two.mp hj
    simp only [List.cons.injEq, and_true] at e'
    rw [address_two, address_two] at e
    omega
  apartI := by
    rintro j hj ⟨i, hi, e⟩
    obtain ⟨u, w, rfl, i1⟩ := valid_two.mp hi
    obtain ⟨_, e', j1, j2⟩ := valid_one.mp hj
    simp only [List.cons.injEq, and_true] at e'
    rw [selVec_address, address_two] at e
    omega
  valueA := by
    intro x y hj
    obtain ⟨_, _, e, x1, x2, y1, y2⟩ := valid_two.mp hj
    simp only [List.cons.injEq, and_true] at e
    obtain ⟨rfl, rfl⟩ := e
    have hx : x = 0 ∨ x = 1 := by omega
    have hy : y = 0 ∨ y = 1 := by omega
    rcases hx with rfl | rfl <;> rcases hy with rfl | rfl <;> rfl
  valueI := by
    intro j hj
    obtain ⟨_, e, j1, j2⟩ := valid_one.mp hj
    simp only [List.cons.injEq, and_true] at e
    subst e
    rw [selVec_address]
    have : j = 0 ∨ j = 1 ∨ j = 2 := by omega
    rcases this with rfl | rfl | rfl <;> rfl
  index := by
    intro j hj
    obtain ⟨_, e, j1, j2⟩ := valid_one.mp hj
    simp only [List.cons.injEq, and_true] at e
    subst e
    have : j = 0 ∨ j = 1 ∨ j = 2 := by omega
    rcases this with rfl | rfl | rfl <;> simp [Valid, IndexLike.toIdx]

example : ∃ μ', selectRaw2 inferInstance ⟨[⟨3, 3⟩, ⟨3, 1⟩], 40⟩ ⟨[⟨2, 2⟩, ⟨2, 1⟩], 0⟩ (selVec 10) squareMem = (.ok (), μ') ∧ μ' 40 = some 11 ∧ μ' 42 = some 10 ∧ μ' 46 = some 1 ∧ μ' 48 = some 0 := by
  obtain ⟨μ', h1, h2, h3⟩ := C111_square true [0] (by simp) inferInstance squareMem 2 3 _ _ _ _ _ square_case _ (.inr ⟨rfl, rfl, rfl, rfl⟩)
  exact ⟨μ', h1, h3 0 0 (by simp [Valid]), h3 0 2 (by simp [Valid]), h3 2 0 (by simp [Valid]), h3 2 2 (by simp [Valid])⟩

end Ra.Props
