import Verif.Props.GemmLoops
/-!
# Matrix products with `dot`, and mismatched lengths: C107
-/

namespace Ra.Spec

/-- The memory was `μ` and now is `μ'`. The difference is that `c` has the product. -/
def HasProduct {V : Type} [Zero V] [Add V] [Mul V] (μ μ' : Mem V) (I K J : Nat) (c : View) (va vb : Int → Int → V) : Prop :=
  SameOutside (InView c [I, J]) μ μ' ∧
  ∀ i j, Valid [I, J] [i, j] → μ' (address c [i, j]) = some (accum 0 K fun k => va i k * vb k j)

end Ra.Spec

namespace Ra.Props
open Spec

section
variable {V : Type} [Inhabited V]

/-- Reductions of elements that are read from memory. -/
theorem forEachRef_mem {γ : Type} (μ : Mem V) (dyn : Bool) (z : List Int) (hz : ∀ i ∈ z, i = 0) (op : γ → List V → Act V γ) (c : γ) (t : List (Iter (StateT γ (Act V)) V))
    (s : List Nat) (ss : List (List Length)) (hss : HasShapes t ss) (hm : Merge ss (s.map some)) (vals : List Int → List V)
    (hv : ∀ j, Valid s j → ∀ c, ((elems t j).mapM id).run c μ = (.ok (vals j, c), μ)) (f : γ → List Int → γ) (hf : ∀ c j, Valid s j → op c (vals j) = pure (f c j)) :
    forEachRef dyn z op c t μ = (.ok ((rowMajor s).foldl f c), μ) := by
  have hsh : ∀ op : List (StateT γ (Act V) V) → StateT γ (Act V) V, HasShape (Iter.node op t) (s.map some) := fun op => ⟨ss, hss, hm⟩
  unfold forEachRef
  rw [ply_never dyn _ s (hsh _) z hz]
  have step : ∀ (l : List (List Int)) (c : γ), (∀ j ∈ l, Valid s j) →
      (forAll (elem (Iter.node (mapOp fun xs => (do
        let c ← get
        let c' ← (op c xs : Act V γ)
        set c'
        pure default : StateT γ (Act V) V)) t)) l).run c μ = (.ok ((), l.foldl f c), μ) := by
    intro l
    induction l with
    | nil => intro c _; rfl
    | cons j l ih =>
      intro c hl
      have hj := hl j (by simp)
      rw [forAll, StateT.run_bind]
      have e1 : (elem (Iter.node (mapOp fun xs => (do
        let c ← get
        let c' ← (op c xs : Act V γ)
        set c'
        pure default : StateT γ (Act V) V)) t) j).run c μ = (.ok (default, f c j), μ) := by
        simp only [elem, mapOp]
        rw [StateT.run_bind, act_bind_ok (hv j hj c)]
        simp [hf c j hj]
        rfl
      rw [act_bind_ok e1]
      exact ih _ fun k hk => hl k (by simp [hk])
  rw [StateT.run_bind, act_bind]
  have := act_bind_ok (f := fun p => (pure none : StateT γ (Act V) (Option Unit)).run p.2) (step (rowMajor s) c fun j hj => mem_rowMajor.mp hj)
  rw [this]
  rfl

variable [Zero V] [Add V] [Mul V]

/-- `dot` of two views of the same shape. -/
theorem dotViews_run (dyn : Bool) (z : List Int) (hz : ∀ i ∈ z, i = 0) (x y : View) (s : List Nat) (hx : Shaped x (s.map some)) (hy : Shaped y (s.map some)) (μ : Mem V) (f g : List Int → V)
    (hf : ∀ j, Valid s j → μ (address x j) = some (f j)) (hg : ∀ j, Valid s j → μ (address y j) = some (g j)) :
    dotViews dyn z x y μ = (.ok ((rowMajor s).foldl (fun c j => c + f j * g j) 0), μ) := by
  refine forEachRef_mem μ dyn z hz _ 0 [x.reads, y.reads] s [s.map some, s.map some] ⟨_, _, rfl, hx, _, _, rfl, hy, rfl⟩ (merge_same _) (fun j => [f j, g j]) ?_ _ (fun _ _ _ => rfl)
  intro j hj c
  simp only [elems, List.mapM_cons, List.mapM_nil, id]
  have e1 : ∀ (v : View) (w : V), μ (address v j) = some w → (elem (v.reads : Iter (StateT V (Act V)) V) j).run c μ = (.ok (w, c), μ) := by
    intro v w h
    show (StateT.lift (Act.read (address v j)) : StateT V (Act V) V).run c μ = _
    rw [StateT.run_lift, act_bind_ok (a := w) (μ' := μ) (by simp [Act.read, h])]
    rfl
  rw [StateT.run_bind, act_bind_ok (e1 x _ (hf j hj)), StateT.run_bind, StateT.run_bind, act_bind_ok (a := ([g j], c)) (μ' := μ)]
  · rfl
  · rw [act_bind_ok (e1 y _ (hg j hj))]
    rfl

theorem take_elem {a : View} {n m : Nat} (ha : Shaped a [some n, some m]) (i j : Nat) (hi : i < n) (hj : j < m) :
    ∃ x, a.from [.scalar (.const i), .scalar (.const j)] = .ok x ∧ x.cp = address a [i, j] := by
  obtain ⟨s, t, e⟩ := view_two ha
  rw [e]
  have h1 : inside (i : Int) n := by simp [inside]; omega
  have h2 : inside (j : Int) m := by simp [inside]; omega
  refine ⟨⟨[], a.cp + i * s + j * t⟩, ?_, ?_⟩
  · simp [View.from, fromb, val_const, h1, h2, bind, Except.bind, pure, Except.pure]
  · simp [address, dot]
    ring

/-- C107. `gemm3`: a `dot` for each element sets `c` to the product. -/
theorem C107_dots (dyn : Bool) (z : List Int) (hz : ∀ i ∈ z, i = 0) (I K J : Nat) (a b c : View) (μ : Mem V) (va vb vc : Int → Int → V) (h : Matrices μ I K J a b c va vb vc) :
    ∃ μ', gemm3 dyn z a b c μ = (.ok (), μ') ∧ HasProduct μ μ' I K J c va vb := by
  have e0 : lenOf a.dims 0 = I := by obtain ⟨s, t, e⟩ := view_two h.shapeA; rw [e]; rfl
  have e2 : lenOf b.dims 1 = J := by obtain ⟨s, t, e⟩ := view_two h.shapeB; rw [e]; rfl
  have key : ∀ (l : List (Nat × Nat)), (∀ q ∈ l, q.1 < I ∧ q.2 < J) → ∀ (μ1 : Mem V) (vc1 : Int → Int → V), Matrices μ1 I K J a b c va vb vc1 →
      ∃ μ', forAll (fun (q : Nat × Nat) => (do
        let x ← Act.lift (a.from [.scalar (.const q.1)])
        let y ← Act.lift (b.from [.dots (some 1), .scalar (.const q.2)])
        let v ← dotViews dyn z x y
        let w ← Act.lift (c.from [.scalar (.const q.1), .scalar (.const q.2)])
        Act.write w.cp v : Act V Unit)) l μ1 = (.ok (), μ') ∧ SameOutside (InView c [I, J]) μ1 μ' ∧
        ∀ i j : Nat, i < I → j < J → μ' (address c [(i : Int), (j : Int)]) = some (if (i, j) ∈ l then accum 0 K fun k => va i k * vb k j else vc1 i j) := by
    intro l
    induction l with
    | nil => exact fun _ μ1 vc1 hm => ⟨μ1, rfl, fun _ _ => rfl, fun i j hi hj => by simpa using hm.valueC i j (valid2.mpr ⟨by omega, by omega, by omega, by omega⟩)⟩
    | cons q l ih =>
      intro hl μ1 vc1 hm
      obtain ⟨i, j⟩ := q
      obtain ⟨hi, hj⟩ := hl (i, j) (by simp)
      obtain ⟨x, x1, x2, x3⟩ := take_row h.shapeA i hi
      obtain ⟨y, y1, y2, y3⟩ := take_col h.shapeB j hj
      obtain ⟨w, w1, w2⟩ := take_elem h.shapeC i j hi hj
      have hvc : Valid [I, J] [(i : Int), (j : Int)] := valid2.mpr ⟨by omega, by omega, by omega, by omega⟩
      have hdot := dotViews_run dyn z hz x y [K] x2 y2 μ1 (fun k => va i (k.getD 0 0)) (fun k => vb (k.getD 0 0) j)
        (by
          intro k hk
          obtain ⟨k, rfl, h1, h2⟩ := valid_one.mp hk
          rw [x3]
          exact hm.valueA _ _ (valid2.mpr ⟨by omega, by omega, h1, h2⟩))
        (by
          intro k hk
          obtain ⟨k, rfl, h1, h2⟩ := valid_one.mp hk
          rw [y3]
          exact hm.valueB _ _ (valid2.mpr ⟨h1, h2, by omega, by omega⟩))
      rw [rowMajor_one, List.foldl_map] at hdot
      set d : V := accum 0 K fun k => va i k * vb k j with hd
      have hsame : SameOutside (InView c [I, J]) μ1 (μ1.upd (address c [(i : Int), (j : Int)]) d) := by
        intro p hp
        simp only [Mem.upd]
        rw [if_neg]
        rintro rfl
        exact hp ⟨_, hvc, rfl⟩
      have hm' : Matrices (μ1.upd (address c [(i : Int), (j : Int)]) d) I K J a b c va vb (fun x y => if (i : Int) = x ∧ (j : Int) = y then d else vc1 x y) := by
        refine ⟨hm.shapeA, hm.shapeB, hm.shapeC, hm.distinct, hm.apartA, hm.apartB, ?_, ?_, ?_⟩
        · intro i k hv
          rw [hsame _ (h.apartA _ _ hv), hm.valueA _ _ hv]
        · intro k j hv
          rw [hsame _ (h.apartB _ _ hv), hm.valueB _ _ hv]
        · intro x y hv
          by_cases e : (i : Int) = x ∧ (j : Int) = y
          · obtain ⟨rfl, rfl⟩ := e
            simp [Mem.upd]
          · rw [if_neg e]
            simp only [Mem.upd]
            rw [if_neg, hm.valueC _ _ hv]
            intro e'
            have := h.distinct _ _ hv hvc e'
            simp only [List.cons.injEq, and_true] at this
            exact e ⟨this.1.symm, this.2.symm⟩
      obtain ⟨μ', r1, r2, r3⟩ := ih (fun q hq => hl q (by simp [hq])) _ _ hm'
      refine ⟨μ', ?_, outside_trans hsame r2 (fun _ h => h) (fun _ h => h), ?_⟩
      · rw [forAll, act_bind_ok (a := ()) (μ' := μ1.upd (address c [(i : Int), (j : Int)]) d), r1]
        rw [lift_bind x1, lift_bind y1, act_bind_ok hdot, lift_bind w1, w2]
        simp [Act.write, hm.valueC _ _ hvc, hd, accum]
      · intro i' j' hi' hj'
        rw [r3 i' j' hi' hj']
        by_cases e : i' = i ∧ j' = j
        · obtain ⟨rfl, rfl⟩ := e
          simp [hd]
        · have e1 : ¬ ((i : Int) = i' ∧ (j : Int) = j') := by omega
          have e2 : (i', j') ∈ (i, j) :: l ↔ (i', j') ∈ l := by
            simp only [List.mem_cons, Prod.mk.injEq, or_iff_right_iff_imp]
            intro h
            exact absurd h e
          simp only [e1, if_false, e2]
  obtain ⟨μ', h1, h2, h3⟩ := key ((List.range I).flatMap fun i => (List.range J).map fun j => (i, j)) (by
    intro q hq
    simp only [List.mem_flatMap, List.mem_map, List.mem_range] at hq
    obtain ⟨i, hi, j, hj, rfl⟩ := hq
    exact ⟨hi, hj⟩) μ vc h
  refine ⟨μ', ?_, h2, ?_⟩
  · simp only [gemm3, e0, e2, forLoop_eq]
    simpa only [forAll_flatMap, forAll_mapped] using h1
  · intro i j hv
    rw [valid2] at hv
    have := h3 i.toNat j.toNat (by omega) (by omega)
    rw [Int.toNat_of_nonneg hv.1, Int.toNat_of_nonneg hv.2.2.1] at this
    rw [this, if_pos]
    simp only [List.mem_flatMap, List.mem_map, List.mem_range]
    exact ⟨i.toNat, by omega, j.toNat, by omega, rfl⟩

end

section
variable {V : Type} [Add V] [Mul V]

/-- C107, B55. If `b` has more rows than `a` has columns, `gemm` fails the check. But `gemm_block`, if it divides the sum first, doesn't see the other rows of `b`. It adds the product of `a`
and the first rows of `b`. -/
theorem C107_block_mismatch (dyn : Bool) (z : List Int) (hz : ∀ i ∈ z, i = 0) (I K K' J depth : Nat) (hd : I + K + J < depth) (hK : 64 < K) (hI : I < K) (hJ : J < K) (hb : K < K') (a b c : View)
    (sb : Shaped b [some K', some J]) :
    ∃ b', rowsOf b K 0 = .ok b' ∧ ∀ (μ : Mem V) (va vb vc : Int → Int → V), Matrices μ I K J a b' c va vb vc →
      gemmSlice dyn z a.refs b c μ = (.error .check, μ) ∧ ∃ μ', gemmBlock dyn z depth a b c μ = (.ok (), μ') ∧ Multiplied μ μ' I K J c va vb vc := by
  obtain ⟨s, t, e⟩ := view_two sb
  have e' := rowsOf_eq K' K 0 s ⟨J, t⟩ b.cp (by omega) (by omega)
  rw [← e] at e'
  refine ⟨_, e', ?_⟩
  intro μ va vb vc h
  refine ⟨?_, ?_⟩
  · exact C29_gemm_slice_reject dyn z I K K' J I J a.refs b c μ (refs_shape h.shapeA) sb h.shapeC (by omega)
  · obtain ⟨μ', h1, h2⟩ := C107_block dyn z hz I K J depth hd a _ c μ va vb vc h
    refine ⟨μ', ?_, h2⟩
    rw [← h1]
    obtain ⟨depth, rfl⟩ : ∃ d, depth = d + 1 := ⟨depth - 1, by omega⟩
    have e0 : lenOf a.dims 0 = I := by obtain ⟨s, t, e⟩ := view_two h.shapeA; rw [e]; rfl
    have e1 : lenOf a.dims 1 = K := by obtain ⟨s, t, e⟩ := view_two h.shapeA; rw [e]; rfl
    have half : ((K : Int).tdiv 2) = ((K / 2 : Nat) : Int) := rfl
    have rest : ((K : Int) - ((K / 2 : Nat) : Int)) = ((K - K / 2 : Nat) : Int) := by omega
    have r0 : rowsOf b ((K / 2 : Nat) : Int) 0 = rowsOf ⟨[⟨K, s⟩, ⟨J, t⟩], b.cp + (0 : Nat) * s⟩ ((K / 2 : Nat) : Int) 0 := by
      have x1 := rowsOf_eq K' (K / 2) 0 s ⟨J, t⟩ b.cp (by omega) (by omega)
      have x2 := rowsOf_eq K (K / 2) 0 s ⟨J, t⟩ (b.cp + (0 : Nat) * s) (by omega) (by omega)
      rw [← e] at x1
      simp only [Nat.cast_zero] at x1 x2 ⊢
      rw [x1, x2]
      simp
    have r1 : rowsOf b ((K - K / 2 : Nat) : Int) ((K / 2 : Nat) : Int) =
        rowsOf ⟨[⟨K, s⟩, ⟨J, t⟩], b.cp + (0 : Nat) * s⟩ ((K - K / 2 : Nat) : Int) ((K / 2 : Nat) : Int) := by
      have x1 := rowsOf_eq K' (K - K / 2) (K / 2) s ⟨J, t⟩ b.cp (by omega) (by omega)
      have x2 := rowsOf_eq K (K - K / 2) (K / 2) s ⟨J, t⟩ (b.cp + (0 : Nat) * s) (by omega) (by omega)
      rw [← e] at x1
      rw [x1, x2]
      simp
    have e2 : lenOf b.dims 1 = J := by rw [e]; rfl
    have e3 : lenOf [(⟨K, s⟩ : Dim), ⟨J, t⟩] 1 = J := rfl
    have c1 : ¬ max (I : Int) (max (K : Int) (J : Int)) ≤ 64 := by omega
    have c2 : ¬ max (K : Int) (J : Int) ≤ I := by omega
    have c3 : ¬ max (I : Int) (K : Int) ≤ J := by omega
    simp only [gemmBlock, e0, e1, e2, e3, if_neg c1, if_neg c2, if_neg c3, half, rest, r0, r1]

end

/-! The hypotheses hold for the matrices of C29, and for these in blocks: all the elements are 1, `a` is 70 x 100 by rows, `b` is the same but by columns, and `c` is 70 x 70. -/

theorem exMatrices : Matrices exMem 2 3 2 exA exB exC (fun i k => address exA [i, k]) (fun k j => address exB [k, j]) (fun i j => address exC [i, j]) := by
  refine ⟨exA_values.1, exB_values.1, .cons rfl (.cons rfl .nil), exC_distinct, ?_, ?_, ?_, ?_, fun i j hv => exC_old _ hv⟩
  all_goals
    intro i j hv
    rw [valid2] at hv
    simp only [Nat.cast_ofNat] at hv
  · rintro ⟨l, hl, e⟩
    obtain ⟨x, y, rfl, h1, h2, h3, h4⟩ := valid_two.mp hl
    simp only [Nat.cast_ofNat] at h2 h4
    simp [address, dot, exA, exC] at e
    omega
  · rintro ⟨l, hl, e⟩
    obtain ⟨x, y, rfl, h1, h2, h3, h4⟩ := valid_two.mp hl
    simp only [Nat.cast_ofNat] at h2 h4
    simp [address, dot, exB, exC] at e
    omega
  · simp [exMem, address, dot, exA]
    omega
  · simp [exMem, address, dot, exB]
    omega

def exOnes : Mem Int := fun p => if 0 ≤ p ∧ p < 20000 then some 1 else none

theorem exBlocks : Matrices exOnes 70 100 70 ⟨[⟨70, 100⟩, ⟨100, 1⟩], 0⟩ ⟨[⟨100, 1⟩, ⟨70, 100⟩], 0⟩ ⟨[⟨70, 70⟩, ⟨70, 1⟩], 10000⟩ (fun _ _ => 1) (fun _ _ => 1) (fun _ _ => 1) := by
  refine ⟨.cons rfl (.cons rfl .nil), .cons rfl (.cons rfl .nil), .cons rfl (.cons rfl .nil), ?_, ?_, ?_, ?_, ?_, ?_⟩
  · intro l l' hl hl' e
    obtain ⟨i, j, rfl, h1, h2, h3, h4⟩ := valid_two.mp hl
    obtain ⟨i', j', rfl, h1', h2', h3', h4'⟩ := valid_two.mp hl'
    simp only [Nat.cast_ofNat] at h2 h4 h2' h4'
    rw [address_two, address_two] at e
    simp only [List.cons.injEq, and_true]
    omega
  all_goals
    intro i j hv
    rw [valid2] at hv
    simp only [Nat.cast_ofNat] at hv
    rw [address_two]
  · rintro ⟨l, hl, e⟩
    obtain ⟨x, y, rfl, h1, h2, h3, h4⟩ := valid_two.mp hl
    rw [address_two] at e
    omega
  · rintro ⟨l, hl, e⟩
    obtain ⟨x, y, rfl, h1, h2, h3, h4⟩ := valid_two.mp hl
    rw [address_two] at e
    omega
  all_goals
    rw [exOnes, if_pos]
    omega

example : ∃ μ', gemmBlock true [] 300 ⟨[⟨70, 100⟩, ⟨100, 1⟩], 0⟩ ⟨[⟨100, 1⟩, ⟨70, 100⟩], 0⟩ ⟨[⟨70, 70⟩, ⟨70, 1⟩], 10000⟩ exOnes = (.ok (), μ') ∧ μ' 14899 = some 101 := by
  obtain ⟨μ', h1, h2, h3⟩ := C107_block true [] (by simp) 70 100 70 300 (by simp) _ _ _ _ _ _ _ exBlocks
  refine ⟨μ', h1, ?_⟩
  rw [show (14899 : Int) = address ⟨[⟨70, 70⟩, ⟨70, 1⟩], 10000⟩ [69, 69] by rw [address_two]; rfl, h3 69 69 (valid2.mpr (by omega))]
  decide +kernel

example : ∃ μ', gemm4 true [] exA exB exC exMem = (.ok (), μ') ∧ μ' 12 = some (12 + 0 * 6 + 1 * 7 + 2 * 8) := by
  obtain ⟨μ', h1, h2, h3⟩ := C107_outer true [] (by simp) 2 3 2 _ _ _ _ _ _ _ exMatrices
  exact ⟨μ', h1, h3 0 0 (valid2.mpr (by omega))⟩

example : ∃ μ', gemm3 true [] exA exB exC exMem = (.ok (), μ') ∧ μ' 12 = some (0 + 0 * 6 + 1 * 7 + 2 * 8) := by
  obtain ⟨μ', h1, h2, h3⟩ := C107_dots true [] (by simp) 2 3 2 _ _ _ _ _ _ _ exMatrices
  exact ⟨μ', h1, h3 0 0 (valid2.mpr (by omega))⟩

example : Compact exA 2 3 ∧ Compact exC 2 2 := ⟨rfl, rfl⟩

/-- `a` is 1 x 65, `b` is 66 x 1. -/
example : gemmSlice true [] (View.refs ⟨[⟨1, 65⟩, ⟨65, 1⟩], 0⟩) ⟨[⟨66, 1⟩, ⟨1, 1⟩], 100⟩ ⟨[⟨1, 1⟩, ⟨1, 1⟩], 10000⟩ exOnes = (.error .check, exOnes) ∧
    ∃ μ', gemmBlock true [] 300 ⟨[⟨1, 65⟩, ⟨65, 1⟩], 0⟩ ⟨[⟨66, 1⟩, ⟨1, 1⟩], 100⟩ ⟨[⟨1, 1⟩, ⟨1, 1⟩], 10000⟩ exOnes = (.ok (), μ') ∧ μ' 10000 = some 66 := by
  obtain ⟨b', hb', h⟩ := C107_block_mismatch (V := Int) true [] (by simp) 1 65 66 1 300 (by simp) (by simp) (by simp) (by simp) (by simp) ⟨[⟨1, 65⟩, ⟨65, 1⟩], 0⟩
    ⟨[⟨66, 1⟩, ⟨1, 1⟩], 100⟩ ⟨[⟨1, 1⟩, ⟨1, 1⟩], 10000⟩ (.cons rfl (.cons rfl .nil))
  obtain rfl : (⟨[⟨65, 1⟩, ⟨1, 1⟩], 100⟩ : View) = b' := Except.ok.inj hb'
  have hm : Matrices exOnes 1 65 1 ⟨[⟨1, 65⟩, ⟨65, 1⟩], 0⟩ ⟨[⟨65, 1⟩, ⟨1, 1⟩], 100⟩ ⟨[⟨1, 1⟩, ⟨1, 1⟩], 10000⟩ (fun _ _ => 1) (fun _ _ => 1) (fun _ _ => 1) := by
    refine ⟨.cons rfl (.cons rfl .nil), .cons rfl (.cons rfl .nil), .cons rfl (.cons rfl .nil), ?_, ?_, ?_, ?_, ?_, ?_⟩
    · intro l l' hl hl' e
      obtain ⟨i, j, rfl, h1, h2, h3, h4⟩ := valid_two.mp hl
      obtain ⟨i', j', rfl, h1', h2', h3', h4'⟩ := valid_two.mp hl'
      simp only [List.cons.injEq, and_true]
      omega
    all_goals
      intro i j hv
      rw [valid2] at hv
      simp only [Nat.cast_ofNat, Nat.cast_one] at hv
      rw [address_two]
    · rintro ⟨l, hl, e⟩
      obtain ⟨x, y, rfl, h1, h2, h3, h4⟩ := valid_two.mp hl
      rw [address_two] at e
      omega
    · rintro ⟨l, hl, e⟩
      obtain ⟨x, y, rfl, h1, h2, h3, h4⟩ := valid_two.mp hl
      rw [address_two] at e
      omega
    all_goals
      rw [exOnes, if_pos]
      omega
  obtain ⟨h0, μ', h1, h2, h3⟩ := h _ _ _ _ hm
  refine ⟨h0, μ', h1, ?_⟩
  rw [show (10000 : Int) = address ⟨[⟨1, 1⟩, ⟨1, 1⟩], 10000⟩ [0, 0] by rw [address_two]; rfl, h3 0 0 (valid2.mpr (by omega))]
  decide +kernel

end Ra.Props
