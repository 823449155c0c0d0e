import Verif.Model.Matrix
import Verif.Props.Assign
import Mathlib.Algebra.BigOperators.Group.Finset.Basic
import Mathlib.Algebra.Ring.Defs
/-!
# Matrix products: C29
-/

namespace Ra.Spec

/-- `old + f 0 + f 1 + ... + f (n-1)`, in this order. -/
def accum {V : Type} [Add V] (old : V) (n : Nat) (f : Int → V) : V := (List.range n).foldl (fun c (k : Nat) => c + f k) old

end Ra.Spec

namespace Ra.Props
open Spec

section
variable {V : Type} [Add V] [Mul V]

omit [Mul V] in
theorem accum_succ (old : V) (n : Nat) (f : Int → V) : accum old (n + 1) f = accum old n f + f n := by
  simp [accum, List.range_succ]

theorem rowMajor_one (n : Nat) : rowMajor [n] = (List.range n).map fun (k : Nat) => [(k : Int)] := by
  simp [rowMajor, List.flatMap_def]
  induction n with
  | zero => rfl
  | succ n ih => simp [List.range_succ, ih]

omit [Mul V] in
theorem foldl_accum (n : Nat) (val : List Int → V) (g : List Int → List Int) (old : V) :
    (((rowMajor [n]).map fun k => val (g k)).foldl (· + ·) old) = accum old n fun k => val (g [k]) := by
  rw [rowMajor_one, List.map_map, List.foldl_map]
  simp only [accum, Function.comp_def]

/-- Rank 2 index. -/
theorem valid_two {n m : Nat} {i : List Int} : Valid [n, m] i ↔ ∃ a b, i = [a, b] ∧ 0 ≤ a ∧ a < n ∧ 0 ≤ b ∧ b < m := by
  constructor
  · intro h
    match i, h with
    | [a, b], ⟨h1, h2, h3, h4, _⟩ => exact ⟨a, b, rfl, h1, h2, h3, h4⟩
  · rintro ⟨a, b, rfl, h1, h2, h3, h4⟩
    exact ⟨h1, h2, h3, h4, trivial⟩

theorem valid_one {n : Nat} {i : List Int} : Valid [n] i ↔ ∃ a, i = [a] ∧ 0 ≤ a ∧ a < n := by
  constructor
  · intro h
    match i, h with
    | [a], ⟨h1, h2, _⟩ => exact ⟨a, rfl, h1, h2⟩
  · rintro ⟨a, rfl, h1, h2⟩
    exact ⟨h1, h2, trivial⟩

theorem valid_three {n m l : Nat} {i : List Int} (h : Valid [n, m, l] i) : ∃ a b c, i = [a, b, c] ∧ 0 ≤ a ∧ a < n ∧ 0 ≤ b ∧ b < m ∧ 0 ≤ c ∧ c < l := by
  match i, h with
  | [a, b, c], ⟨h1, h2, h3, h4, h5, h6, _⟩ => exact ⟨a, b, c, rfl, h1, h2, h3, h4, h5, h6⟩

theorem view_two {v : View} {n m : Nat} (h : Shaped v [some n, some m]) : ∃ s t, v = ⟨[⟨n, s⟩, ⟨m, t⟩], v.cp⟩ := by
  obtain ⟨dims, cp⟩ := v
  match dims, h with
  | [d, e], .cons h1 (.cons h2 .nil) =>
    obtain ⟨l1, s1⟩ := d
    obtain ⟨l2, s2⟩ := e
    simp only [DimLen] at h1 h2
    subst h1 h2
    exact ⟨s1, s2, rfl⟩

theorem view_one {v : View} {n : Nat} (h : Shaped v [some n]) : ∃ s, v = ⟨[⟨n, s⟩], v.cp⟩ := by
  obtain ⟨dims, cp⟩ := v
  match dims, h with
  | [d], .cons h1 .nil =>
    obtain ⟨l1, s1⟩ := d
    simp only [DimLen] at h1
    subst h1
    exact ⟨s1, rfl⟩

omit [Add V] [Mul V] in
theorem Values_reads {X : Int → Prop} {μ : Mem V} {a : Iter (Act V) (Lv V)} {s : List Nat} {f : List Int → V} (h : Values X μ a s f) {j : List Int}
    (hj : Valid s j) {μ' : Mem V} (hμ : SameOutside X μ μ') : Reads μ' (elem a j) (f j) := by
  obtain ⟨r, hr⟩ := h.2 j hj
  obtain ⟨h1, h2⟩ := hr μ' hμ
  rw [Reads, act_bind_ok h1, h2]

theorem merge_ikj (I K J : Nat) : Merge [[some I, some K], [none, some K, some J]] [some I, some K, some J] := by
  refine ⟨by simp, by simp, ?_⟩
  intro k n
  rcases k with _ | _ | _ | k <;> simp

theorem merge_insert (I K J : Nat) : Merge [[some I, none, some J], [some I, some K, some J]] [some I, some K, some J] := by
  refine ⟨by simp, by simp, ?_⟩
  intro k n
  rcases k with _ | _ | _ | k <;> simp

theorem merge_ijk (I K J : Nat) : Merge [[some I, none, some K], [none, some J, some K]] [some I, some J, some K] := by
  refine ⟨by simp, by simp, ?_⟩
  intro k n
  rcases k with _ | _ | _ | k <;> simp

theorem merge_short (I J : Nat) (t : List Length) : Merge [[some I, some J], some I :: some J :: t] (some I :: some J :: t) := by
  refine ⟨by simp, by simp, ?_⟩
  intro k n
  rcases k with _ | _ | k <;> simp

theorem merge_short1 (I : Nat) (t : List Length) : Merge [[some I], some I :: t] (some I :: t) := by
  refine ⟨by simp, by simp, ?_⟩
  intro k n
  rcases k with _ | k <;> simp

theorem merge_second (I K : Nat) : Merge [[some I, some K], [none, some K]] [some I, some K] := by
  refine ⟨by simp, by simp, ?_⟩
  intro k n
  rcases k with _ | _ | k <;> simp

theorem merge_second' (I K : Nat) : Merge [[none, some K], [some I, some K]] [some I, some K] := by
  refine ⟨by simp, by simp, ?_⟩
  intro k n
  rcases k with _ | _ | k <;> simp

theorem merge_first (I K : Nat) : Merge [[some I, some K], [some I]] [some I, some K] := by
  refine ⟨by simp, by simp, ?_⟩
  intro k n
  rcases k with _ | _ | k <;> simp

/-! Slices and transposes of vectors and matrices. -/

theorem from_insert (v : View) : v.from [.insert 1] = .ok ⟨⟨UNB, 0⟩ :: v.dims, v.cp⟩ := rfl

omit [Add V] [Mul V] in
theorem elem_insert (v : View) (x : Int) (j : List Int) : elem (View.refs ⟨⟨UNB, 0⟩ :: v.dims, v.cp⟩ : Iter (Act V) (Lv V)) (x :: j) = elem v.refs j := by
  simp [elem_refs, address, dot]

theorem shape_insert {v : View} {s : List Length} (h : Shaped v s) : Shaped ⟨⟨UNB, 0⟩ :: v.dims, v.cp⟩ (none :: s) := .cons rfl h

/-- C29. `gemm(a, b, c)` when `c` is a slice, with any layout of `b` and `c` and any expression `a` that doesn't depend on `c`. -/
theorem C29_gemm_slice (dyn : Bool) (z : List Int) (hz : ∀ i ∈ z, i = 0) (I K J : Nat) (a : Iter (Act V) (Lv V)) (b c : View) (μ : Mem V)
    (va vb old : List Int → V) (hc : Shaped c [some I, some J]) (hcd : Distinct c [I, J]) (hold : ∀ i, Valid [I, J] i → μ (address c i) = some (old i))
    (ha : Values (InView c [I, J]) μ a [I, K] va) (hb : Values (InView c [I, J]) μ b.refs [K, J] vb) :
    ∃ μ', gemmSlice dyn z a b c μ = (.ok (), μ') ∧ SameOutside (InView c [I, J]) μ μ' ∧
      ∀ i j, Valid [I, J] [i, j] → μ' (address c [i, j]) = some (accum (old [i, j]) K fun k => va [i, k] * vb [k, j]) := by
  have hfrom : ∃ d, c.from [.dots (some 1), .insert 1] = .ok d := by
    obtain ⟨s, t, e⟩ := view_two hc
    rw [e]
    exact ⟨_, rfl⟩
  obtain ⟨d, hd⟩ := hfrom
  obtain ⟨μ', h1, h2, h3⟩ := C28_insert (· + ·) dyn z hz c [I] [K] [J] hc hcd d hd
    (binaryOp (· * ·) a (View.refs ⟨⟨UNB, 0⟩ :: b.dims, b.cp⟩)) [some I, some K, some J]
    (binary_shape _ ha.1 (refs_shape (shape_insert hb.1)) (merge_ikj I K J)) (merge_insert I K J) μ old hold
    (fun j => va (j.take 2) * vb (j.drop 1))
    (by
      intro j hj μ' hμ
      obtain ⟨i, k, j, rfl, h1, h2, h3, h4, h5, h6⟩ := valid_three hj
      refine reads_binary _ ?_ ?_
      · have hv : Valid [I, K] [i, k] := ⟨h1, h2, h3, h4, trivial⟩
        rw [show [i, k, j] = [i, k] ++ [j] from rfl, elem_append ha.1 hv]
        exact Values_reads ha hv hμ
      · rw [elem_insert]
        exact Values_reads hb (j := [k, j]) ⟨h3, h4, h5, h6, trivial⟩ hμ)
  refine ⟨μ', ?_, h2, ?_⟩
  · simp only [gemmSlice, hd, from_insert]
    exact h1
  · intro i j hij
    obtain ⟨_, _, e, h4, h5, h6, h7⟩ := valid_two.mp hij
    simp only [List.cons.injEq, and_true] at e
    obtain ⟨rfl, rfl⟩ := e
    have := h3 [i] [j] ⟨h4, h5, trivial⟩ ⟨h6, h7, trivial⟩
    rw [foldl_accum K (fun l => va (l.take 2) * vb (l.drop 1)) (fun k => [i] ++ k ++ [j])] at this
    exact this

theorem transpose_two1 {v : View} {n m : Nat} {s t : Int} (h : v = ⟨[⟨n, s⟩, ⟨m, t⟩], v.cp⟩) :
    v.transpose [2, 1] = .ok ⟨[⟨UNB, 0⟩, ⟨m, t⟩, ⟨n, s⟩], v.cp⟩ := by
  rw [h]
  have hU := UNB_val
  simp [View.transpose, trank, transposeLoop, bind, Except.bind, pure, Except.pure, hU, List.replicate]

/-- C29. `gemm(a, b, c)` when `c` isn't a slice. -/
theorem C29_gemm_iter (dyn : Bool) (z : List Int) (hz : ∀ i ∈ z, i = 0) (I K J : Nat) (a b : View) (c : Iter (Act V) (Lv V)) (A : List Int → Int) (μ : Mem V)
    (va vb old : List Int → V) (hc : Places μ c [I, J] A) (hold : ∀ i, Valid [I, J] i → μ (A i) = some (old i))
    (ha : Values (fun p => ∃ i, Valid [I, J] i ∧ p = A i) μ a.refs [I, K] va) (hb : Values (fun p => ∃ i, Valid [I, J] i ∧ p = A i) μ b.refs [K, J] vb) :
    ∃ μ', gemmIter dyn z a b c μ = (.ok (), μ') ∧ SameOutside (fun p => ∃ i, Valid [I, J] i ∧ p = A i) μ μ' ∧
      ∀ i j, Valid [I, J] [i, j] → μ' (A [i, j]) = some (accum (old [i, j]) K fun k => va [i, k] * vb [k, j]) := by
  obtain ⟨s1, t1, e1⟩ := view_two ha.1
  obtain ⟨s2, t2, e2⟩ := view_two hb.1
  have hfa : a.from [.dots (some 1), .insert 1] = .ok ⟨[⟨I, s1⟩, ⟨UNB, 0⟩, ⟨K, t1⟩], a.cp⟩ := by rw [e1]; rfl
  have hfb := transpose_two1 e2
  obtain ⟨μ', h1, h2, h3⟩ := C28_prefix (· + ·) dyn z hz c [I, J] [K] A μ hc
    (binaryOp (· * ·) (View.refs ⟨[⟨I, s1⟩, ⟨UNB, 0⟩, ⟨K, t1⟩], a.cp⟩) (View.refs ⟨[⟨UNB, 0⟩, ⟨J, t2⟩, ⟨K, s2⟩], b.cp⟩)) [some I, some J, some K]
    (binary_shape _ (refs_shape (s := [some I, none, some K]) (.cons rfl (.cons rfl (.cons rfl .nil))))
      (refs_shape (s := [none, some J, some K]) (.cons rfl (.cons rfl (.cons rfl .nil)))) (merge_ijk I K J))
    (merge_short I J _) old hold (fun j => va [j.getD 0 0, j.getD 2 0] * vb [j.getD 2 0, j.getD 1 0])
    (by
      intro j hj μ' hμ
      obtain ⟨i, j, k, rfl, h1, h2, h3, h4, h5, h6⟩ := valid_three hj
      refine reads_binary _ ?_ ?_
      · have := Values_reads ha (j := [i, k]) ⟨h1, h2, h5, h6, trivial⟩ hμ
        rw [e1] at this
        simpa [elem_refs, address, dot] using this
      · have := Values_reads hb (j := [k, j]) ⟨h5, h6, h3, h4, trivial⟩ hμ
        rw [e2] at this
        simp only [elem_refs, address, dot] at this ⊢
        simp only [List.map_cons, List.map_nil, List.zipWith_cons_cons, List.zipWith_nil_left, List.sum_cons, List.sum_nil] at this ⊢
        rw [show b.cp + (i * 0 + (j * t2 + (k * s2 + 0))) = b.cp + (k * s2 + (j * t2 + 0)) by ring]
        exact this)
  refine ⟨μ', ?_, h2, ?_⟩
  · simp only [gemmIter, hfa, hfb]
    exact h1
  · intro i j hij
    have := h3 [i, j] hij
    rw [foldl_accum K (fun l => va [l.getD 0 0, l.getD 2 0] * vb [l.getD 2 0, l.getD 1 0]) (fun k => [i, j] ++ k)] at this
    exact this

/-- C29. `gemv(a, b, c)` when `b` is a slice. -/
theorem C29_gemv_b (dyn : Bool) (z : List Int) (hz : ∀ i ∈ z, i = 0) (I K : Nat) (a : Iter (Act V) (Lv V)) (b : View) (c : Iter (Act V) (Lv V)) (A : List Int → Int)
    (μ : Mem V) (va vb old : List Int → V) (hc : Places μ c [I] A) (hold : ∀ i, Valid [I] i → μ (A i) = some (old i))
    (ha : Values (fun p => ∃ i, Valid [I] i ∧ p = A i) μ a [I, K] va) (hb : Values (fun p => ∃ i, Valid [I] i ∧ p = A i) μ b.refs [K] vb) :
    ∃ μ', gemvSliceB dyn z a b c μ = (.ok (), μ') ∧ SameOutside (fun p => ∃ i, Valid [I] i ∧ p = A i) μ μ' ∧
      ∀ i, Valid [I] [i] → μ' (A [i]) = some (accum (old [i]) K fun k => va [i, k] * vb [k]) := by
  obtain ⟨μ', h1, h2, h3⟩ := C28_prefix (· + ·) dyn z hz c [I] [K] A μ hc
    (binaryOp (· * ·) a (View.refs ⟨⟨UNB, 0⟩ :: b.dims, b.cp⟩)) [some I, some K]
    (binary_shape _ ha.1 (refs_shape (shape_insert hb.1)) (merge_second I K)) (merge_short1 I _) old hold
    (fun j => va j * vb (j.drop 1))
    (by
      intro j hj μ' hμ
      obtain ⟨i, k, rfl, h1, h2, h3, h4⟩ := valid_two.mp hj
      refine reads_binary _ (Values_reads ha hj hμ) ?_
      rw [elem_insert]
      exact Values_reads hb (j := [k]) ⟨h3, h4, trivial⟩ hμ)
  refine ⟨μ', ?_, h2, ?_⟩
  · simp only [gemvSliceB, from_insert]
    exact h1
  · intro i hi
    have := h3 [i] hi
    rw [foldl_accum K (fun l => va l * vb (l.drop 1)) (fun k => [i] ++ k)] at this
    exact this

theorem transpose_two {v : View} {n m : Nat} {s t : Int} (h : v = ⟨[⟨n, s⟩, ⟨m, t⟩], v.cp⟩) : v.transpose [1, 0] = .ok ⟨[⟨m, t⟩, ⟨n, s⟩], v.cp⟩ := by
  rw [h]
  have hU := UNB_val
  simp [View.transpose, trank, transposeLoop, bind, Except.bind, pure, Except.pure, hU, List.replicate]

omit [Add V] [Mul V] in
theorem elem_swap {v : View} {n m : Nat} {s t : Int} (h : v = ⟨[⟨n, s⟩, ⟨m, t⟩], v.cp⟩) (i j : Int) :
    elem (View.refs ⟨[⟨m, t⟩, ⟨n, s⟩], v.cp⟩ : Iter (Act V) (Lv V)) [j, i] = elem v.refs [i, j] := by
  rw [h]
  simp only [elem_refs, address, dot, List.map_cons, List.map_nil, List.zipWith_cons_cons, List.zipWith_nil_left, List.sum_cons, List.sum_nil]
  rw [show v.cp + (j * t + (i * s + 0)) = v.cp + (i * s + (j * t + 0)) by ring]

theorem insert_zero {c : View} {n : Nat} (hc : Shaped c [some n]) : ∃ d, c.from [.dots (some 0), .insert 1] = .ok d ∧ c.from [.insert 1] = .ok d := by
  obtain ⟨s, e⟩ := view_one hc
  rw [e]
  exact ⟨_, rfl, rfl⟩

/-- C29. `gemv(a, b, c)` when `c` is a slice and `b` isn't. -/
theorem C29_gemv_c (dyn : Bool) (z : List Int) (hz : ∀ i ∈ z, i = 0) (I K : Nat) (a : View) (b : Iter (Act V) (Lv V)) (c : View) (μ : Mem V)
    (va vb old : List Int → V) (hc : Shaped c [some I]) (hcd : Distinct c [I]) (hold : ∀ i, Valid [I] i → μ (address c i) = some (old i))
    (ha : Values (InView c [I]) μ a.refs [I, K] va) (hb : Values (InView c [I]) μ b [K] vb) :
    ∃ μ', gemvSliceC dyn z a b c μ = (.ok (), μ') ∧ SameOutside (InView c [I]) μ μ' ∧
      ∀ i, Valid [I] [i] → μ' (address c [i]) = some (accum (old [i]) K fun k => va [i, k] * vb [k]) := by
  obtain ⟨d, hd, hd'⟩ := insert_zero hc
  obtain ⟨s1, t1, e1⟩ := view_two ha.1
  obtain ⟨μ', h1, h2, h3⟩ := C28_insert (· + ·) dyn z hz c [] [K] [I] hc hcd d hd
    (binaryOp (· * ·) (View.refs ⟨[⟨K, t1⟩, ⟨I, s1⟩], a.cp⟩) b) [some K, some I]
    (binary_shape _ (refs_shape (s := [some K, some I]) (.cons rfl (.cons rfl .nil))) hb.1 (merge_first K I)) (merge_second' K I) μ old hold
    (fun j => va [j.getD 1 0, j.getD 0 0] * vb [j.getD 0 0])
    (by
      intro j hj μ' hμ
      obtain ⟨k, i, rfl, h1, h2, h3, h4⟩ := valid_two.mp hj
      refine reads_binary _ ?_ ?_
      · rw [elem_swap e1]
        exact Values_reads ha (j := [i, k]) ⟨h3, h4, h1, h2, trivial⟩ hμ
      · have hv : Valid [K] [k] := ⟨h1, h2, trivial⟩
        rw [show [k, i] = [k] ++ [i] from rfl, elem_append hb.1 hv]
        exact Values_reads hb hv hμ)
  refine ⟨μ', ?_, h2, ?_⟩
  · simp only [gemvSliceC, hd', transpose_two e1]
    exact h1
  · intro i hi
    have := h3 [] [i] trivial hi
    rw [foldl_accum K (fun l => va [l.getD 1 0, l.getD 0 0] * vb [l.getD 0 0]) (fun k => [] ++ k ++ [i])] at this
    exact this

omit [Mul V] in
/-- A loop that adds `val k` to each element of `c`. -/
theorem loop_add {Q : List Int → Prop} {X : Int → Prop} {s : List Nat} {A : List Int → Int} {μ : Mem V} {β : Type} (body : List Int → Act V β) (val : List Int → List Int → V)
    (h : ∀ k, ∀ μ1, SameOutside X μ μ1 → ∀ cur : List Int → V, (∀ i, Valid s i → μ1 (A i) = some (cur i)) →
      Q k → ∃ r μ2, body k μ1 = (.ok r, μ2) ∧ SameOutside X μ1 μ2 ∧ ∀ i, Valid s i → μ2 (A i) = some (cur i + val i k))
    (l : List (List Int)) (hl : ∀ k ∈ l, Q k) (μ1 : Mem V) (hμ : SameOutside X μ μ1) (cur : List Int → V) (hcur : ∀ i, Valid s i → μ1 (A i) = some (cur i)) :
    ∃ μ2, forAll body l μ1 = (.ok (), μ2) ∧ SameOutside X μ1 μ2 ∧ ∀ i, Valid s i → μ2 (A i) = some ((l.map (val i)).foldl (· + ·) (cur i)) := by
  induction l generalizing μ1 cur with
  | nil => exact ⟨μ1, rfl, fun _ _ => rfl, fun i hi => by simpa using hcur i hi⟩
  | cons k l ih =>
    obtain ⟨r, μ2, h1, h2, h3⟩ := h k μ1 hμ cur hcur (hl k List.mem_cons_self)
    obtain ⟨μ3, h4, h5, h6⟩ := ih (fun k hk => hl k (List.mem_cons_of_mem _ hk)) μ2 (fun p hp => (h2 p hp).trans (hμ p hp)) _ h3
    refine ⟨μ3, ?_, fun p hp => (h5 p hp).trans (h2 p hp), fun i hi => by simpa using h6 i hi⟩
    rw [forAll, act_bind_ok h1]
    exact h4

omit [Add V] [Mul V] in
theorem Places_same {μ μ1 : Mem V} {c : Iter (Act V) (Lv V)} {s : List Nat} {A : List Int → Int} (hc : Places μ c s A)
    (h : SameOutside (fun p => ∃ i, Valid s i ∧ p = A i) μ μ1) : Places μ1 c s A :=
  ⟨hc.1, hc.2.1, fun j hj μ' hμ => hc.2.2 j hj μ' fun p hp => (hμ p hp).trans (h p hp)⟩

omit [Add V] [Mul V] in
theorem cell_shape (n : Nat) (s cp : Int) (rd : Int → Act V (Lv V)) : HasShape (.cell [⟨n, s⟩] cp rd) [some n] := List.Forall₂.cons rfl .nil

theorem merge_scalar (I : Nat) : Merge [[some I], []] [some I] := by
  refine ⟨by simp, by simp, ?_⟩
  intro k n
  rcases k with _ | k <;> simp

theorem merge_scalar' (I : Nat) : Merge [[], [some I]] [some I] := by
  refine ⟨by simp, by simp, ?_⟩
  intro k n
  rcases k with _ | k <;> simp

/-- C29. `gemv(a, b, c)` when neither `b` nor `c` is a slice. -/
theorem C29_gemv_iter (dyn : Bool) (z : List Int) (hz : ∀ i ∈ z, i = 0) (dyn' : Bool) (z' : List Int) (hz' : ∀ i ∈ z', i = 0) (I K : Nat) (a : View)
    (b c : Iter (Act V) (Lv V)) (A : List Int → Int) (μ : Mem V) (va vb old : List Int → V) (hc : Places μ c [I] A) (hold : ∀ i, Valid [I] i → μ (A i) = some (old i))
    (ha : Values (fun p => ∃ i, Valid [I] i ∧ p = A i) μ a.refs [I, K] va) (hb : Values (fun p => ∃ i, Valid [I] i ∧ p = A i) μ b [K] vb) :
    ∃ μ', gemvIter dyn z dyn' z' a b c μ = (.ok (), μ') ∧ SameOutside (fun p => ∃ i, Valid [I] i ∧ p = A i) μ μ' ∧
      ∀ i, Valid [I] [i] → μ' (A [i]) = some (accum (old [i]) K fun k => va [i, k] * vb [k]) := by
  obtain ⟨s1, t1, e1⟩ := view_two ha.1
  obtain ⟨μ', h1, h2, h3⟩ := loop_add (X := fun p => ∃ i, Valid [I] i ∧ p = A i) (s := [I]) (A := A) (μ := μ) (Q := fun k => Valid [K] k)
    (fun j => mapOp (rowOp dyn' z' c) [elem (.cell [⟨K, t1⟩] a.cp fun p => pure (.view ⟨[⟨I, s1⟩], p⟩)) j, elem b j])
    (fun i k => va (i ++ k) * vb k)
    (by
      intro k μ1 hμ1 cur hcur hk
      obtain ⟨r, hr⟩ := hb.2 k hk
      obtain ⟨hr1, hr2⟩ := hr μ1 hμ1
      obtain ⟨k, rfl, hk1, hk2⟩ := valid_one.mp hk
      obtain ⟨μ2, g1, g2, g3⟩ := C28_prefix (· + ·) dyn' z' hz' c [I] [] A μ1 (Places_same hc hμ1)
        (binaryOp (· * ·) (View.refs ⟨[⟨I, s1⟩], a.cp + k * t1⟩) (.scalar (pure r))) [some I]
        (binary_shape _ (refs_shape (s := [some I]) (.cons rfl .nil)) rfl (merge_scalar I)) (merge_short1 I _) cur hcur
        (fun j => va (j ++ [k]) * vb [k])
        (by
          intro j hj μ' hμ'
          obtain ⟨i, rfl, h1, h2⟩ := valid_one.mp hj
          have hμ2 : SameOutside (fun p => ∃ i, Valid [I] i ∧ p = A i) μ μ' := fun p hp => (hμ' p hp).trans (hμ1 p hp)
          refine reads_binary _ ?_ ?_
          · have := Values_reads ha (j := [i, k]) ⟨h1, h2, hk1, hk2, trivial⟩ hμ2
            rw [e1] at this
            simp only [elem_refs, address, dot, List.map_cons, List.map_nil, List.zipWith_cons_cons, List.zipWith_nil_left, List.sum_cons, List.sum_nil] at this ⊢
            rw [show a.cp + k * t1 + (i * s1 + 0) = a.cp + (i * s1 + (k * t1 + 0)) by ring]
            exact this
          · exact (hr μ' hμ2).2)
      refine ⟨.view ⟨[⟨I, s1⟩], a.cp + k * t1⟩, μ2, ?_, g2, fun i hi => by simpa [rowMajor] using g3 i hi⟩
      rw [mapM_two]
      have : elem (m := Act V) (α := Lv V) (.cell [⟨K, t1⟩] a.cp fun p => pure (.view ⟨[⟨I, s1⟩], p⟩)) [k] = pure (.view ⟨[⟨I, s1⟩], a.cp + k * t1⟩) := by
        simp [elem, dot]
      rw [this, pure_bind, act_bind_ok hr1, rowOp, act_bind_ok g1]
      rfl)
    (rowMajor [K]) (fun k hk => mem_rowMajor.mp hk) μ (fun _ _ => rfl) old hold
  refine ⟨μ', ?_, h2, ?_⟩
  · rw [← run_forAll (β := Unit) dyn z hz (mapOp (rowOp dyn' z' c)) _ b [some K] [some K] [K] (cell_shape K t1 _ _) hb.1 (merge_short1 K [])] at h1
    simp only [gemvIter, transpose_two e1]
    exact h1
  · intro i hi
    have := h3 [i] hi
    rw [foldl_accum K (fun k => va ([i] ++ k) * vb k) (fun k => k)] at this
    exact this

/-- C29. `gevm(a, b, c)` when `c` is a slice. -/
theorem C29_gevm_c (dyn : Bool) (z : List Int) (hz : ∀ i ∈ z, i = 0) (K J : Nat) (a b : Iter (Act V) (Lv V)) (c : View) (μ : Mem V)
    (va vb old : List Int → V) (hc : Shaped c [some J]) (hcd : Distinct c [J]) (hold : ∀ i, Valid [J] i → μ (address c i) = some (old i))
    (ha : Values (InView c [J]) μ a [K] va) (hb : Values (InView c [J]) μ b [K, J] vb) :
    ∃ μ', gevmSliceC dyn z a b c μ = (.ok (), μ') ∧ SameOutside (InView c [J]) μ μ' ∧
      ∀ j, Valid [J] [j] → μ' (address c [j]) = some (accum (old [j]) K fun k => va [k] * vb [k, j]) := by
  obtain ⟨d, hd, hd'⟩ := insert_zero hc
  obtain ⟨μ', h1, h2, h3⟩ := C28_insert (· + ·) dyn z hz c [] [K] [J] hc hcd d hd
    (binaryOp (· * ·) a b) [some K, some J] (binary_shape _ ha.1 hb.1 (merge_short1 K _)) (merge_second' K J) μ old hold
    (fun j => va (j.take 1) * vb j)
    (by
      intro j hj μ' hμ
      obtain ⟨k, i, rfl, h1, h2, h3, h4⟩ := valid_two.mp hj
      refine reads_binary _ ?_ (Values_reads hb hj hμ)
      have hv : Valid [K] [k] := ⟨h1, h2, trivial⟩
      rw [show [k, i] = [k] ++ [i] from rfl, elem_append ha.1 hv]
      exact Values_reads ha hv hμ)
  refine ⟨μ', ?_, h2, ?_⟩
  · simp only [gevmSliceC, hd']
    exact h1
  · intro i hi
    have := h3 [] [i] trivial hi
    rw [foldl_accum K (fun l => va (l.take 1) * vb l) (fun k => [] ++ k ++ [i])] at this
    exact this

/-- C29. `gevm(a, b, c)` when `a` is a slice and `c` isn't. -/
theorem C29_gevm_a (dyn : Bool) (z : List Int) (hz : ∀ i ∈ z, i = 0) (K J : Nat) (a b : View) (c : Iter (Act V) (Lv V)) (A : List Int → Int)
    (μ : Mem V) (va vb old : List Int → V) (hc : Places μ c [J] A) (hold : ∀ i, Valid [J] i → μ (A i) = some (old i))
    (ha : Values (fun p => ∃ i, Valid [J] i ∧ p = A i) μ a.refs [K] va) (hb : Values (fun p => ∃ i, Valid [J] i ∧ p = A i) μ b.refs [K, J] vb) :
    ∃ μ', gevmSliceA dyn z a b c μ = (.ok (), μ') ∧ SameOutside (fun p => ∃ i, Valid [J] i ∧ p = A i) μ μ' ∧
      ∀ j, Valid [J] [j] → μ' (A [j]) = some (accum (old [j]) K fun k => va [k] * vb [k, j]) := by
  obtain ⟨s1, t1, e1⟩ := view_two hb.1
  obtain ⟨μ', h1, h2, h3⟩ := C28_prefix (· + ·) dyn z hz c [J] [K] A μ hc
    (binaryOp (· * ·) (View.refs ⟨⟨UNB, 0⟩ :: a.dims, a.cp⟩) (View.refs ⟨[⟨J, t1⟩, ⟨K, s1⟩], b.cp⟩)) [some J, some K]
    (binary_shape _ (refs_shape (shape_insert ha.1)) (refs_shape (s := [some J, some K]) (.cons rfl (.cons rfl .nil))) (merge_second' J K)) (merge_short1 J _) old hold
    (fun j => va (j.drop 1) * vb [j.getD 1 0, j.getD 0 0])
    (by
      intro j hj μ' hμ
      obtain ⟨j, k, rfl, h1, h2, h3, h4⟩ := valid_two.mp hj
      refine reads_binary _ ?_ ?_
      · rw [elem_insert]
        exact Values_reads ha (j := [k]) ⟨h3, h4, trivial⟩ hμ
      · rw [elem_swap e1]
        exact Values_reads hb (j := [k, j]) ⟨h3, h4, h1, h2, trivial⟩ hμ)
  refine ⟨μ', ?_, h2, ?_⟩
  · simp only [gevmSliceA, from_insert, transpose_two e1]
    exact h1
  · intro i hi
    have := h3 [i] hi
    rw [foldl_accum K (fun l => va (l.drop 1) * vb [l.getD 1 0, l.getD 0 0]) (fun k => [i] ++ k)] at this
    exact this

/-- C29. `gevm(a, b, c)` when neither `a` nor `c` is a slice. -/
theorem C29_gevm_iter (dyn : Bool) (z : List Int) (hz : ∀ i ∈ z, i = 0) (dyn' : Bool) (z' : List Int) (hz' : ∀ i ∈ z', i = 0) (K J : Nat) (a : Iter (Act V) (Lv V))
    (b : View) (c : Iter (Act V) (Lv V)) (A : List Int → Int) (μ : Mem V) (va vb old : List Int → V) (hc : Places μ c [J] A)
    (hold : ∀ i, Valid [J] i → μ (A i) = some (old i)) (ha : Values (fun p => ∃ i, Valid [J] i ∧ p = A i) μ a [K] va)
    (hb : Values (fun p => ∃ i, Valid [J] i ∧ p = A i) μ b.refs [K, J] vb) :
    ∃ μ', gevmIter dyn z dyn' z' a b c μ = (.ok (), μ') ∧ SameOutside (fun p => ∃ i, Valid [J] i ∧ p = A i) μ μ' ∧
      ∀ j, Valid [J] [j] → μ' (A [j]) = some (accum (old [j]) K fun k => va [k] * vb [k, j]) := by
  obtain ⟨s1, t1, e1⟩ := view_two hb.1
  obtain ⟨μ', h1, h2, h3⟩ := loop_add (X := fun p => ∃ i, Valid [J] i ∧ p = A i) (s := [J]) (A := A) (μ := μ) (Q := fun k => Valid [K] k)
    (fun j => mapOp (rowOp dyn' z' c) [elem a j, elem (.cell [⟨K, s1⟩] b.cp fun p => pure (.view ⟨[⟨J, t1⟩], p⟩)) j])
    (fun j k => va k * vb (k ++ j))
    (by
      intro k μ1 hμ1 cur hcur hk
      obtain ⟨r, hr⟩ := ha.2 k hk
      obtain ⟨hr1, hr2⟩ := hr μ1 hμ1
      obtain ⟨k, rfl, hk1, hk2⟩ := valid_one.mp hk
      obtain ⟨μ2, g1, g2, g3⟩ := C28_prefix (· + ·) dyn' z' hz' c [J] [] A μ1 (Places_same hc hμ1)
        (binaryOp (· * ·) (.scalar (pure r)) (View.refs ⟨[⟨J, t1⟩], b.cp + k * s1⟩)) [some J]
        (binary_shape _ rfl (refs_shape (s := [some J]) (.cons rfl .nil)) (merge_scalar' J)) (merge_short1 J _) cur hcur
        (fun j => va [k] * vb (k :: j))
        (by
          intro j hj μ' hμ'
          obtain ⟨i, rfl, h1, h2⟩ := valid_one.mp hj
          have hμ2 : SameOutside (fun p => ∃ i, Valid [J] i ∧ p = A i) μ μ' := fun p hp => (hμ' p hp).trans (hμ1 p hp)
          refine reads_binary _ ?_ ?_
          · exact (hr μ' hμ2).2
          · have := Values_reads hb (j := [k, i]) ⟨hk1, hk2, h1, h2, trivial⟩ hμ2
            rw [e1] at this
            simp only [elem_refs, address, dot, List.map_cons, List.map_nil, List.zipWith_cons_cons, List.zipWith_nil_left, List.sum_cons, List.sum_nil] at this ⊢
            rw [show b.cp + k * s1 + (i * t1 + 0) = b.cp + (k * s1 + (i * t1 + 0)) by ring]
            exact this)
      refine ⟨.view ⟨[⟨J, t1⟩], b.cp + k * s1⟩, μ2, ?_, g2, fun i hi => by simpa [rowMajor] using g3 i hi⟩
      rw [mapM_two]
      have : elem (m := Act V) (α := Lv V) (.cell [⟨K, s1⟩] b.cp fun p => pure (.view ⟨[⟨J, t1⟩], p⟩)) [k] = pure (.view ⟨[⟨J, t1⟩], b.cp + k * s1⟩) := by
        simp [elem, dot]
      rw [this, act_bind_ok hr1, pure_bind]
      cases r with
      | view w => simp [Lv.get, fault, MonadFault.fault] at hr2
      | val w => rw [rowOp, act_bind_ok g1]; rfl; simp
      | ref w => rw [rowOp, act_bind_ok g1]; rfl; simp)
    (rowMajor [K]) (fun k hk => mem_rowMajor.mp hk) μ (fun _ _ => rfl) old hold
  refine ⟨μ', ?_, h2, ?_⟩
  · rw [← run_forAll (β := Unit) dyn z hz (mapOp (rowOp dyn' z' c)) a _ [some K] [some K] [K] ha.1 (cell_shape K s1 _ _) (merge_short1 K [])] at h1
    have hcell : View.cells (V := V) b 1 = .ok (.cell [⟨K, s1⟩] b.cp fun p => pure (.view ⟨[⟨J, t1⟩], p⟩)) := by rw [e1]; rfl
    simp only [gevmIter, hcell]
    exact h1
  · intro j hj
    have := h3 [j] hj
    rw [foldl_accum K (fun k => va k * vb (k ++ [j])) (fun k => k)] at this
    exact this

/-! Lengths that don't match. -/

theorem merge_axis {ss : List (List Length)} {s : List Length} (h : Merge ss s) {x : List Length} (hx : x ∈ ss) {k n : Nat} (hn : x[k]? = some (some n)) :
    s[k]? = some (some n) := (h.2.2 k n).mpr ⟨x, hx, hn⟩

omit [Add V] [Mul V] in
/-- Two different lengths on the same axis of the arguments, or of the destination. -/
theorem reject_binary {dst a b : Iter (Act V) (Lv V)} {sd sa sb : List Length} (hd : HasShape dst sd) (ha : HasShape a sa) (hb : HasShape b sb) (f g : V → V → V)
    (dyn : Bool) (z : List Int) (μ : Mem V) (h : ∃ (k n n' : Nat) (x y : List Length), n ≠ n' ∧ x ∈ [sd, sa, sb] ∧ y ∈ [sd, sa, sb] ∧ x[k]? = some (some n) ∧ y[k]? = some (some n')) :
    update f dyn z dst (binaryOp g a b) μ = (.error .check, μ) := by
  refine (C27_reject_tree dyn z dst (binaryOp g a b) hd.wf ⟨by simp, ha.wf, hb.wf, trivial⟩ ?_ μ f).2
  rintro ⟨sd', sx, s, h1, ⟨_, ⟨sa', _, rfl, h2, sb', _, rfl, h3, rfl⟩, h4⟩, h5⟩
  rw [hasShape_unique h1 hd] at h5
  rw [hasShape_unique h2 ha, hasShape_unique h3 hb] at h4
  obtain ⟨k, n, n', x, y, hne, hx, hy, hn, hn'⟩ := h
  have key : ∀ (x : List Length) (n : Nat), x ∈ [sd, sa, sb] → x[k]? = some (some n) → (s.map some)[k]? = some (some n) := by
    intro x n hx hn
    simp only [List.mem_cons, List.not_mem_nil, or_false] at hx
    rcases hx with rfl | rfl | rfl
    · exact merge_axis h5 (by simp) hn
    · exact merge_axis h5 (x := sx) (by simp) (merge_axis h4 (by simp) hn)
    · exact merge_axis h5 (x := sx) (by simp) (merge_axis h4 (by simp) hn)
  have e1 := key x n hx hn
  have e2 := key y n' hy hn'
  rw [e1] at e2
  simp only [Option.some.injEq] at e2
  exact hne e2

omit [Add V] [Mul V] in
theorem reject_loop {a b : Iter (Act V) (Lv V)} {n n' : Nat} (ha : HasShape a [some n]) (hb : HasShape b [some n']) (hne : n ≠ n') (op : List (Act V (Lv V)) → Act V (Lv V))
    (dyn : Bool) (z : List Int) (μ : Mem V) : (do let _ ← ply (β := Unit) dyn never z (.node op [a, b]); pure () : Act V Unit) μ = (.error .check, μ) := by
  have h : HasShapes [a, b] [[some n], [some n']] := ⟨_, _, rfl, ha, _, _, rfl, hb, rfl⟩
  obtain ⟨h1, h2, _⟩ := C03_rejects (β := Unit) never op _ _ h (by simp) (by
    rintro ⟨s, hs⟩
    have e1 := merge_axis hs (x := [some n]) (by simp) (k := 0) rfl
    have e2 := merge_axis hs (x := [some n']) (by simp) (k := 0) rfl
    rw [e1] at e2
    simp only [Option.some.injEq] at e2
    exact hne e2) z
  unfold ply
  rw [h1, h2]
  cases dyn <;> rfl

/-- C29. If the lengths don't match in `gemm(a, b, c)`, then the check fails and the memory is as it was. -/
theorem C29_gemm_slice_reject (dyn : Bool) (z : List Int) (I K K' J I' J' : Nat) (a : Iter (Act V) (Lv V)) (b c : View) (μ : Mem V)
    (ha : HasShape a [some I, some K]) (hb : Shaped b [some K', some J]) (hc : Shaped c [some I', some J']) (h : K ≠ K' ∨ I ≠ I' ∨ J ≠ J') :
    gemmSlice dyn z a b c μ = (.error .check, μ) := by
  have hfrom : ∃ d, c.from [.dots (some 1), .insert 1] = .ok d ∧ Shaped d [some I', none, some J'] := by
    obtain ⟨s, t, e⟩ := view_two hc
    rw [e]
    exact ⟨_, rfl, .cons rfl (.cons rfl (.cons rfl .nil))⟩
  obtain ⟨d, hd, hd'⟩ := hfrom
  simp only [gemmSlice, hd, from_insert]
  refine reject_binary (refs_shape hd') ha (refs_shape (shape_insert hb)) _ _ dyn z μ ?_
  rcases h with h | h | h
  · exact ⟨1, K, K', _, _, h, List.mem_cons_of_mem _ List.mem_cons_self, List.mem_cons_of_mem _ (List.mem_cons_of_mem _ List.mem_cons_self), rfl, rfl⟩
  · exact ⟨0, I, I', _, _, h, List.mem_cons_of_mem _ List.mem_cons_self, List.mem_cons_self, rfl, rfl⟩
  · exact ⟨2, J, J', _, _, h, List.mem_cons_of_mem _ (List.mem_cons_of_mem _ List.mem_cons_self), List.mem_cons_self, rfl, rfl⟩

theorem C29_gemm_iter_reject (dyn : Bool) (z : List Int) (I K K' J I' J' : Nat) (a b : View) (c : Iter (Act V) (Lv V)) (μ : Mem V)
    (ha : Shaped a [some I, some K]) (hb : Shaped b [some K', some J]) (hc : HasShape c [some I', some J']) (h : K ≠ K' ∨ I ≠ I' ∨ J ≠ J') :
    gemmIter dyn z a b c μ = (.error .check, μ) := by
  obtain ⟨s1, t1, e1⟩ := view_two ha
  obtain ⟨s2, t2, e2⟩ := view_two hb
  have hfa : a.from [.dots (some 1), .insert 1] = .ok ⟨[⟨I, s1⟩, ⟨UNB, 0⟩, ⟨K, t1⟩], a.cp⟩ := by rw [e1]; rfl
  simp only [gemmIter, hfa, transpose_two1 e2]
  refine reject_binary hc (refs_shape (v := ⟨[⟨I, s1⟩, ⟨UNB, 0⟩, ⟨K, t1⟩], a.cp⟩) (s := [some I, none, some K]) (.cons rfl (.cons rfl (.cons rfl .nil))))
    (refs_shape (v := ⟨[⟨UNB, 0⟩, ⟨J, t2⟩, ⟨K', s2⟩], b.cp⟩) (s := [none, some J, some K']) (.cons rfl (.cons rfl (.cons rfl .nil)))) _ _ dyn z μ ?_
  rcases h with h | h | h
  · exact ⟨2, K, K', _, _, h, List.mem_cons_of_mem _ List.mem_cons_self, List.mem_cons_of_mem _ (List.mem_cons_of_mem _ List.mem_cons_self), rfl, rfl⟩
  · exact ⟨0, I, I', _, _, h, List.mem_cons_of_mem _ List.mem_cons_self, List.mem_cons_self, rfl, rfl⟩
  · exact ⟨1, J, J', _, _, h, List.mem_cons_of_mem _ (List.mem_cons_of_mem _ List.mem_cons_self), List.mem_cons_self, rfl, rfl⟩

/-- C29. The same for `gemv(a, b, c)`. -/
theorem C29_gemv_b_reject (dyn : Bool) (z : List Int) (I K K' I' : Nat) (a : Iter (Act V) (Lv V)) (b : View) (c : Iter (Act V) (Lv V)) (μ : Mem V)
    (ha : HasShape a [some I, some K]) (hb : Shaped b [some K']) (hc : HasShape c [some I']) (h : K ≠ K' ∨ I ≠ I') :
    gemvSliceB dyn z a b c μ = (.error .check, μ) := by
  simp only [gemvSliceB, from_insert]
  refine reject_binary hc ha (refs_shape (shape_insert hb)) _ _ dyn z μ ?_
  rcases h with h | h
  · exact ⟨1, K, K', _, _, h, List.mem_cons_of_mem _ List.mem_cons_self, List.mem_cons_of_mem _ (List.mem_cons_of_mem _ List.mem_cons_self), rfl, rfl⟩
  · exact ⟨0, I, I', _, _, h, List.mem_cons_of_mem _ List.mem_cons_self, List.mem_cons_self, rfl, rfl⟩

theorem C29_gemv_c_reject (dyn : Bool) (z : List Int) (I K K' I' : Nat) (a : View) (b : Iter (Act V) (Lv V)) (c : View) (μ : Mem V)
    (ha : Shaped a [some I, some K]) (hb : HasShape b [some K']) (hc : Shaped c [some I']) (h : K ≠ K' ∨ I ≠ I') :
    gemvSliceC dyn z a b c μ = (.error .check, μ) := by
  obtain ⟨s1, t1, e1⟩ := view_two ha
  simp only [gemvSliceC, from_insert, transpose_two e1]
  refine reject_binary (refs_shape (shape_insert hc)) (refs_shape (v := ⟨[⟨K, t1⟩, ⟨I, s1⟩], a.cp⟩) (s := [some K, some I]) (.cons rfl (.cons rfl .nil))) hb _ _ dyn z μ ?_
  rcases h with h | h
  · exact ⟨0, K, K', _, _, h, List.mem_cons_of_mem _ List.mem_cons_self, List.mem_cons_of_mem _ (List.mem_cons_of_mem _ List.mem_cons_self), rfl, rfl⟩
  · exact ⟨1, I, I', _, _, h, List.mem_cons_of_mem _ List.mem_cons_self, List.mem_cons_self, rfl, rfl⟩

/-- C29. In this case the length of `c` is checked only if there are columns in `a`. -/
theorem C29_gemv_iter_reject (dyn : Bool) (z : List Int) (dyn' : Bool) (z' : List Int) (I K K' : Nat) (a : View) (b c : Iter (Act V) (Lv V)) (μ : Mem V)
    (ha : Shaped a [some I, some K]) (hb : HasShape b [some K']) (h : K ≠ K') :
    gemvIter dyn z dyn' z' a b c μ = (.error .check, μ) := by
  obtain ⟨s1, t1, e1⟩ := view_two ha
  simp only [gemvIter, transpose_two e1]
  exact reject_loop (cell_shape K t1 _ _) hb h _ dyn z μ

/-- C29. The same for `gevm(a, b, c)`. -/
theorem C29_gevm_c_reject (dyn : Bool) (z : List Int) (K K' J J' : Nat) (a b : Iter (Act V) (Lv V)) (c : View) (μ : Mem V)
    (ha : HasShape a [some K]) (hb : HasShape b [some K', some J]) (hc : Shaped c [some J']) (h : K ≠ K' ∨ J ≠ J') :
    gevmSliceC dyn z a b c μ = (.error .check, μ) := by
  simp only [gevmSliceC, from_insert]
  refine reject_binary (refs_shape (shape_insert hc)) ha hb _ _ dyn z μ ?_
  rcases h with h | h
  · exact ⟨0, K, K', _, _, h, List.mem_cons_of_mem _ List.mem_cons_self, List.mem_cons_of_mem _ (List.mem_cons_of_mem _ List.mem_cons_self), rfl, rfl⟩
  · exact ⟨1, J, J', _, _, h, List.mem_cons_of_mem _ (List.mem_cons_of_mem _ List.mem_cons_self), List.mem_cons_self, rfl, rfl⟩

theorem C29_gevm_a_reject (dyn : Bool) (z : List Int) (K K' J J' : Nat) (a b : View) (c : Iter (Act V) (Lv V)) (μ : Mem V)
    (ha : Shaped a [some K]) (hb : Shaped b [some K', some J]) (hc : HasShape c [some J']) (h : K ≠ K' ∨ J ≠ J') :
    gevmSliceA dyn z a b c μ = (.error .check, μ) := by
  obtain ⟨s1, t1, e1⟩ := view_two hb
  simp only [gevmSliceA, from_insert, transpose_two e1]
  refine reject_binary hc (refs_shape (shape_insert ha)) (refs_shape (v := ⟨[⟨J, t1⟩, ⟨K', s1⟩], b.cp⟩) (s := [some J, some K']) (.cons rfl (.cons rfl .nil))) _ _ dyn z μ ?_
  rcases h with h | h
  · exact ⟨1, K, K', _, _, h, List.mem_cons_of_mem _ List.mem_cons_self, List.mem_cons_of_mem _ (List.mem_cons_of_mem _ List.mem_cons_self), rfl, rfl⟩
  · exact ⟨0, J, J', _, _, h, List.mem_cons_of_mem _ (List.mem_cons_of_mem _ List.mem_cons_self), List.mem_cons_self, rfl, rfl⟩

/-- C29. In this case the length of `c` is checked only if there are rows in `b`. -/
theorem C29_gevm_iter_reject (dyn : Bool) (z : List Int) (dyn' : Bool) (z' : List Int) (K K' J : Nat) (a : Iter (Act V) (Lv V)) (b : View) (c : Iter (Act V) (Lv V)) (μ : Mem V)
    (ha : HasShape a [some K]) (hb : Shaped b [some K', some J]) (h : K ≠ K') :
    gevmIter dyn z dyn' z' a b c μ = (.error .check, μ) := by
  obtain ⟨s1, t1, e1⟩ := view_two hb
  have hcell : View.cells (V := V) b 1 = .ok (.cell [⟨K', s1⟩] b.cp fun p => pure (.view ⟨[⟨J, t1⟩], p⟩)) := by rw [e1]; rfl
  simp only [gevmIter, hcell]
  exact reject_loop ha (cell_shape K' s1 _ _) h _ dyn z μ

end

/-- In a semiring, the value is the sum. -/
theorem accum_sum {V : Type} [Semiring V] (old : V) (n : Nat) (f : Int → V) : accum old n f = old + ∑ k ∈ Finset.range n, f k := by
  induction n with
  | zero => simp [accum]
  | succ n ih => rw [accum_succ, ih, Finset.sum_range_succ, add_assoc]

theorem values_refs {V : Type} {X : Int → Prop} {μ : Mem V} {v : View} {s : List Nat} {f : List Int → V} (hv : Shaped v (s.map some))
    (h : ∀ j, Valid s j → ¬ X (address v j) ∧ μ (address v j) = some (f j)) : Values X μ v.refs s f := by
  refine ⟨refs_shape hv, fun j hj => ⟨.ref (address v j), fun μ' hμ => ⟨rfl, ?_⟩⟩⟩
  obtain ⟨h1, h2⟩ := h j hj
  simp [Lv.get, Act.read, hμ _ h1, h2]

/-! The hypotheses hold for these matrices, all in memory that has `p` at `p`: `a` is 2 x 3 by rows at 0, `b` is 3 x 2 by columns at 6, and `c` is 2 x 2 by rows at 12. -/
def exMem : Mem Int := fun p => if 0 ≤ p ∧ p < 16 then some p else none
def exA : View := ⟨[⟨2, 3⟩, ⟨3, 1⟩], 0⟩
def exB : View := ⟨[⟨3, 1⟩, ⟨2, 3⟩], 6⟩
def exC : View := ⟨[⟨2, 2⟩, ⟨2, 1⟩], 12⟩

theorem exC_distinct : Distinct exC [2, 2] := by
  intro j k hj hk h
  obtain ⟨a, b, rfl, _, _, _, _⟩ := valid_two.mp hj
  obtain ⟨c, d, rfl, _, _, _, _⟩ := valid_two.mp hk
  simp [address, dot, exC] at h
  simp
  omega

theorem exC_old (i : List Int) (hi : Valid [2, 2] i) : exMem (address exC i) = some (address exC i) := by
  obtain ⟨a, b, rfl, _, _, _, _⟩ := valid_two.mp hi
  simp [exMem, address, dot, exC]
  omega

theorem exA_values : Values (InView exC [2, 2]) exMem exA.refs [2, 3] (address exA) := by
  refine values_refs (.cons rfl (.cons rfl .nil)) ?_
  intro j hj
  obtain ⟨a, b, rfl, _, _, _, _⟩ := valid_two.mp hj
  refine ⟨?_, by simp [exMem, address, dot, exA]; omega⟩
  rintro ⟨k, hk, h⟩
  obtain ⟨c, d, rfl, _, _, _, _⟩ := valid_two.mp hk
  simp [address, dot, exA, exC] at h
  omega

theorem exB_values : Values (InView exC [2, 2]) exMem exB.refs [3, 2] (address exB) := by
  refine values_refs (.cons rfl (.cons rfl .nil)) ?_
  intro j hj
  obtain ⟨a, b, rfl, _, _, _, _⟩ := valid_two.mp hj
  refine ⟨?_, by simp [exMem, address, dot, exB]; omega⟩
  rintro ⟨k, hk, h⟩
  obtain ⟨c, d, rfl, _, _, _, _⟩ := valid_two.mp hk
  simp [address, dot, exB, exC] at h
  omega

example : ∃ μ', gemmSlice true [] exA.refs exB exC exMem = (.ok (), μ') ∧ μ' 15 = some (15 + (3 * 9 + 4 * 10 + 5 * 11)) := by
  obtain ⟨μ', h1, _, h3⟩ := C29_gemm_slice true [] (by simp) 2 3 2 exA.refs exB exC exMem _ _ _ (.cons rfl (.cons rfl .nil)) exC_distinct exC_old exA_values exB_values
  exact ⟨μ', h1, h3 1 1 (by simp [Valid])⟩

example : ∃ μ', gemmIter false [] exA exB exC.refs exMem = (.ok (), μ') ∧ μ' 14 = some (14 + (3 * 6 + 4 * 7 + 5 * 8)) := by
  obtain ⟨μ', h1, _, h3⟩ := C29_gemm_iter false [] (by simp) 2 3 2 exA exB exC.refs _ exMem _ _ _
    (places_refs (v := exC) (s := [2, 2]) (.cons rfl (.cons rfl .nil)) exC_distinct _) exC_old exA_values exB_values
  exact ⟨μ', h1, h3 1 0 (by simp [Valid])⟩

/-! Vectors: `c` has two elements at 12, with step 2, and `b` has three elements at 6. -/
def exV : View := ⟨[⟨2, 2⟩], 12⟩
def exW : View := ⟨[⟨3, 1⟩], 6⟩

theorem exV_distinct : Distinct exV [2] := by
  intro j k hj hk h
  obtain ⟨a, rfl, _, _⟩ := valid_one.mp hj
  obtain ⟨c, rfl, _, _⟩ := valid_one.mp hk
  simp [address, dot, exV] at h
  simp
  omega

theorem exV_old (i : List Int) (hi : Valid [2] i) : exMem (address exV i) = some (address exV i) := by
  obtain ⟨a, rfl, _, _⟩ := valid_one.mp hi
  simp [exMem, address, dot, exV]
  omega

theorem exM_values (v : View) (n m : Nat) (h : (v, n, m) = (exA, 2, 3) ∨ (v, n, m) = (exB, 3, 2)) : Values (InView exV [2]) exMem v.refs [n, m] (address v) := by
  simp only [Prod.mk.injEq] at h
  rcases h with ⟨rfl, rfl, rfl⟩ | ⟨rfl, rfl, rfl⟩
  all_goals
    refine values_refs (.cons rfl (.cons rfl .nil)) ?_
    intro j hj
    obtain ⟨a, b, rfl, _, _, _, _⟩ := valid_two.mp hj
    refine ⟨?_, by simp [exMem, address, dot, exA, exB]; omega⟩
    rintro ⟨k, hk, h⟩
    obtain ⟨c, rfl, _, _⟩ := valid_one.mp hk
    simp [address, dot, exA, exB, exV] at h
    omega

theorem exW_values : Values (InView exV [2]) exMem exW.refs [3] (address exW) := by
  refine values_refs (.cons rfl .nil) ?_
  intro j hj
  obtain ⟨a, rfl, _, _⟩ := valid_one.mp hj
  refine ⟨?_, by simp [exMem, address, dot, exW]; omega⟩
  rintro ⟨k, hk, h⟩
  obtain ⟨c, rfl, _, _⟩ := valid_one.mp hk
  simp [address, dot, exW, exV] at h
  omega

example : ∃ μ', gemvSliceB true [] exA.refs exW exV.refs exMem = (.ok (), μ') ∧ μ' 14 = some (14 + (3 * 6 + 4 * 7 + 5 * 8)) := by
  obtain ⟨μ', h1, _, h3⟩ := C29_gemv_b true [] (by simp) 2 3 exA.refs exW exV.refs _ exMem _ _ _ (places_refs (v := exV) (s := [2]) (.cons rfl .nil) exV_distinct _) exV_old
    (exM_values exA 2 3 (by simp)) exW_values
  exact ⟨μ', h1, h3 1 (by simp [Valid])⟩

example : ∃ μ', gemvSliceC true [] exA exW.refs exV exMem = (.ok (), μ') ∧ μ' 14 = some (14 + (3 * 6 + 4 * 7 + 5 * 8)) := by
  obtain ⟨μ', h1, _, h3⟩ := C29_gemv_c true [] (by simp) 2 3 exA exW.refs exV exMem _ _ _ (.cons rfl .nil) exV_distinct exV_old
    (exM_values exA 2 3 (by simp)) exW_values
  exact ⟨μ', h1, h3 1 (by simp [Valid])⟩

example : ∃ μ', gemvIter true [] false [] exA exW.refs exV.refs exMem = (.ok (), μ') ∧ μ' 14 = some (14 + (3 * 6 + 4 * 7 + 5 * 8)) := by
  obtain ⟨μ', h1, _, h3⟩ := C29_gemv_iter true [] (by simp) false [] (by simp) 2 3 exA exW.refs exV.refs _ exMem _ _ _ (places_refs (v := exV) (s := [2]) (.cons rfl .nil) exV_distinct _) exV_old
    (exM_values exA 2 3 (by simp)) exW_values
  exact ⟨μ', h1, h3 1 (by simp [Valid])⟩

example : ∃ μ', gevmSliceC true [] exW.refs exB.refs exV exMem = (.ok (), μ') ∧ μ' 14 = some (14 + (6 * 9 + 7 * 10 + 8 * 11)) := by
  obtain ⟨μ', h1, _, h3⟩ := C29_gevm_c true [] (by simp) 3 2 exW.refs exB.refs exV exMem _ _ _ (.cons rfl .nil) exV_distinct exV_old
    exW_values (exM_values exB 3 2 (by simp))
  exact ⟨μ', h1, h3 1 (by simp [Valid])⟩

example : ∃ μ', gevmSliceA true [] exW exB exV.refs exMem = (.ok (), μ') ∧ μ' 14 = some (14 + (6 * 9 + 7 * 10 + 8 * 11)) := by
  obtain ⟨μ', h1, _, h3⟩ := C29_gevm_a true [] (by simp) 3 2 exW exB exV.refs _ exMem _ _ _ (places_refs (v := exV) (s := [2]) (.cons rfl .nil) exV_distinct _) exV_old
    exW_values (exM_values exB 3 2 (by simp))
  exact ⟨μ', h1, h3 1 (by simp [Valid])⟩

example : ∃ μ', gevmIter true [] false [] exW.refs exB exV.refs exMem = (.ok (), μ') ∧ μ' 14 = some (14 + (6 * 9 + 7 * 10 + 8 * 11)) := by
  obtain ⟨μ', h1, _, h3⟩ := C29_gevm_iter true [] (by simp) false [] (by simp) 3 2 exW.refs exB exV.refs _ exMem _ _ _ (places_refs (v := exV) (s := [2]) (.cons rfl .nil) exV_distinct _) exV_old
    exW_values (exM_values exB 3 2 (by simp))
  exact ⟨μ', h1, h3 1 (by simp [Valid])⟩

/-- Here the inner lengths are 3 and 2. -/
example : gemmSlice true [] exA.refs exA exC exMem = (.error .check, exMem) :=
  C29_gemm_slice_reject true [] 2 3 2 3 2 2 exA.refs exA exC exMem (.cons rfl (.cons rfl .nil)) (.cons rfl (.cons rfl .nil)) (.cons rfl (.cons rfl .nil)) (by decide)

end Ra.Props
