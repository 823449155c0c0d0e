import Verif.Props.Gemm
/-!
# Matrix products with loops: C107
-/

namespace Ra.Props
open Spec

section
variable {V : Type}

theorem forLoop_eq (n : Nat) (body : Int → Act V Unit) : forLoop n body = forAll (fun (i : Nat) => body i) (List.range n) := by
  simp only [forLoop, Int.toNat_natCast]
  induction List.range n with
  | nil => rfl
  | cons i l ih =>
    show (body (i : Int) >>= fun _ => l.forM fun (i : Nat) => body i) = _
    rw [ih]
    rfl

theorem forAll_eq {m : Type → Type} [Monad m] [LawfulMonad m] {ι β : Type} (f : ι → m β) (l : List ι) : forAll f l = forAll (fun i => (do let _ ← f i; pure () : m Unit)) l := by
  induction l with
  | nil => rfl
  | cons i l ih => simp [forAll, ih]

variable [Add V] [Mul V]

/-- `c += a*b` for elements at these addresses. -/
def fmaAt (pa pb pc : Int) : Act V Unit := do
  let u ← Act.read pa
  let w ← Act.read pb
  let v ← Act.read pc
  Act.write pc (v + u * w)

theorem fmaAt_run {μ : Mem V} {pa pb pc : Int} {u w v : V} (ha : μ pa = some u) (hb : μ pb = some w) (hc : μ pc = some v) :
    fmaAt pa pb pc μ = (.ok (), μ.upd pc (v + u * w)) := by
  rw [fmaAt, act_bind_ok (a := u) (μ' := μ) (by simp [Act.read, ha]), act_bind_ok (a := w) (μ' := μ) (by simp [Act.read, hb]),
    act_bind_ok (a := v) (μ' := μ) (by simp [Act.read, hc])]
  simp [Act.write, hc]

/-- The terms of the product in any order. `l` lists the terms, and the row, column and position in the sum of term `t` are `fi t`, `fj t`, `fk t`. -/
theorem run_terms {ι : Type} (fi fj fk : ι → Int) (l : List ι) {μ : Mem V} {I K J : Nat} {a b c : View} {va vb vc : Int → Int → V} (h : Matrices μ I K J a b c va vb vc)
    (hl : ∀ t ∈ l, (0 ≤ fi t ∧ fi t < I) ∧ (0 ≤ fj t ∧ fj t < J) ∧ (0 ≤ fk t ∧ fk t < K)) :
    ∃ μ', forAll (fun t => fmaAt (address a [fi t, fk t]) (address b [fk t, fj t]) (address c [fi t, fj t])) l μ = (.ok (), μ') ∧ SameOutside (InView c [I, J]) μ μ' ∧
      ∀ i j, Valid [I, J] [i, j] →
        μ' (address c [i, j]) = some (((l.filter fun t => fi t = i ∧ fj t = j).map fk).foldl (fun x k => x + va i k * vb k j) (vc i j)) := by
  induction l generalizing μ vc with
  | nil => exact ⟨μ, rfl, fun _ _ => rfl, fun i j hv => h.valueC i j hv⟩
  | cons t l ih =>
    obtain ⟨⟨i1, i2⟩, ⟨j1, j2⟩, ⟨k1, k2⟩⟩ := hl t (by simp)
    have hvc : Valid [I, J] [fi t, fj t] := valid2.mpr ⟨i1, i2, j1, j2⟩
    have run := fmaAt_run (h.valueA _ _ (valid2.mpr ⟨i1, i2, k1, k2⟩)) (h.valueB _ _ (valid2.mpr ⟨k1, k2, j1, j2⟩)) (h.valueC _ _ hvc)
    have hin : InView c [I, J] (address c [fi t, fj t]) := ⟨_, hvc, rfl⟩
    have hsame : SameOutside (InView c [I, J]) μ (μ.upd (address c [fi t, fj t]) (vc (fi t) (fj t) + va (fi t) (fk t) * vb (fk t) (fj t))) := by
      intro p hp
      simp only [Mem.upd]
      rw [if_neg]
      rintro rfl
      exact hp hin
    have hm : Matrices (μ.upd (address c [fi t, fj t]) (vc (fi t) (fj t) + va (fi t) (fk t) * vb (fk t) (fj t))) I K J a b c va vb
        (fun i j => if fi t = i ∧ fj t = j then vc i j + va i (fk t) * vb (fk t) j else vc i j) := by
      refine ⟨h.shapeA, h.shapeB, h.shapeC, h.distinct, h.apartA, h.apartB, ?_, ?_, ?_⟩
      · intro i k hv
        rw [hsame _ (h.apartA _ _ hv), h.valueA _ _ hv]
      · intro k j hv
        rw [hsame _ (h.apartB _ _ hv), h.valueB _ _ hv]
      · intro i j hv
        by_cases e : fi t = i ∧ fj t = j
        · obtain ⟨rfl, rfl⟩ := e
          simp [Mem.upd]
        · rw [if_neg e]
          simp only [Mem.upd]
          rw [if_neg, h.valueC _ _ hv]
          intro e'
          have := h.distinct _ _ hv hvc e'
          simp only [List.cons.injEq, and_true] at this
          exact e ⟨this.1.symm, this.2.symm⟩
    obtain ⟨μ', h1, h2, h3⟩ := ih hm fun t' ht' => hl t' (by simp [ht'])
    refine ⟨μ', ?_, outside_trans hsame h2 (fun _ h => h) (fun _ h => h), ?_⟩
    · rw [forAll, act_bind_ok run, h1]
    · intro i j hv
      rw [h3 i j hv]
      by_cases e : fi t = i ∧ fj t = j
      · simp [e]
      · simp [e]

omit [Mul V] in
theorem foldl_range (n : Nat) (f : Int → V) (x : V) : ((List.range n).map fun (k : Nat) => (k : Int)).foldl (fun x k => x + f k) x = accum x n f := by
  rw [List.foldl_map]; rfl

/-- If the terms of each element of `c` are in the order of `k`, then the loop adds the product. -/
theorem multiplied_terms {ι : Type} (fi fj fk : ι → Int) (l : List ι) {μ : Mem V} {I K J : Nat} {a b c : View} {va vb vc : Int → Int → V} (h : Matrices μ I K J a b c va vb vc)
    (hl : ∀ t ∈ l, (0 ≤ fi t ∧ fi t < I) ∧ (0 ≤ fj t ∧ fj t < J) ∧ (0 ≤ fk t ∧ fk t < K))
    (ho : ∀ i j, Valid [I, J] [i, j] → (l.filter fun t => fi t = i ∧ fj t = j).map fk = (List.range K).map fun (k : Nat) => (k : Int)) :
    ∃ μ', forAll (fun t => fmaAt (address a [fi t, fk t]) (address b [fk t, fj t]) (address c [fi t, fj t])) l μ = (.ok (), μ') ∧ Multiplied μ μ' I K J c va vb vc := by
  obtain ⟨μ', h1, h2, h3⟩ := run_terms fi fj fk l h hl
  refine ⟨μ', h1, h2, ?_⟩
  intro i j hv
  rw [h3 i j hv, ho i j hv, foldl_range K (fun k => va i k * vb k j)]

/-! The orders of the loops. -/

theorem flatMap_one {α : Type} (n : Nat) (i : Int) (hi : 0 ≤ i ∧ i < n) (f : Nat → List α) :
    ((List.range n).flatMap fun (x : Nat) => if (x : Int) = i then f x else []) = f i.toNat := by
  induction n with
  | zero => omega
  | succ n ih =>
    rw [List.range_succ, List.flatMap_append, List.flatMap_singleton]
    by_cases e : (n : Int) = i
    · subst e
      rw [if_pos rfl]
      have : ((List.range n).flatMap fun (x : Nat) => if (x : Int) = n then f x else []) = [] := by
        rw [List.flatMap_eq_nil_iff]
        intro x hx
        rw [if_neg]
        have := List.mem_range.mp hx
        omega
      rw [this]
      rfl
    · rw [if_neg e, ih (by omega), List.append_nil]

/-- The terms `(i, j, k)` with `k` outermost. -/
def termsK (I K J : Nat) : List (Int × Int × Int) :=
  (List.range K).flatMap fun (k : Nat) => (List.range I).flatMap fun (i : Nat) => (List.range J).map fun (j : Nat) => ((i : Int), (j : Int), (k : Int))

/-- The terms `(i, j, k)` with `k` innermost. -/
def termsIJ (I K J : Nat) : List (Int × Int × Int) :=
  (List.range I).flatMap fun (i : Nat) => (List.range J).flatMap fun (j : Nat) => (List.range K).map fun (k : Nat) => ((i : Int), (j : Int), (k : Int))

theorem mem_termsK {I K J : Nat} {t : Int × Int × Int} (h : t ∈ termsK I K J) : (0 ≤ t.1 ∧ t.1 < I) ∧ (0 ≤ t.2.1 ∧ t.2.1 < J) ∧ (0 ≤ t.2.2 ∧ t.2.2 < K) := by
  simp only [termsK, List.mem_flatMap, List.mem_map, List.mem_range] at h
  obtain ⟨k, hk, i, hi, j, hj, rfl⟩ := h
  simp only
  omega

theorem mem_termsIJ {I K J : Nat} {t : Int × Int × Int} (h : t ∈ termsIJ I K J) : (0 ≤ t.1 ∧ t.1 < I) ∧ (0 ≤ t.2.1 ∧ t.2.1 < J) ∧ (0 ≤ t.2.2 ∧ t.2.2 < K) := by
  simp only [termsIJ, List.mem_flatMap, List.mem_map, List.mem_range] at h
  obtain ⟨i, hi, j, hj, k, hk, rfl⟩ := h
  simp only
  omega

theorem filter_if {α : Type} (P : Prop) [Decidable P] (Q : α → Prop) [DecidablePred Q] (l : List α) : (l.filter fun x => decide (P ∧ Q x)) = if P then l.filter (fun x => decide (Q x)) else [] := by
  by_cases h : P <;> simp [h]

theorem order_termsK (I K J : Nat) (i j : Int) (hv : Valid [I, J] [i, j]) :
    ((termsK I K J).filter fun t => t.1 = i ∧ t.2.1 = j).map (·.2.2) = (List.range K).map fun (k : Nat) => (k : Int) := by
  rw [valid2] at hv
  have inner : ∀ k : Nat, (((List.range I).flatMap fun (x : Nat) => (List.range J).map fun (y : Nat) => ((x : Int), (y : Int), (k : Int))).filter fun t => t.1 = i ∧ t.2.1 = j) =
      [(i, j, (k : Int))] := by
    intro k
    rw [List.filter_flatMap]
    have e1 : ∀ x : Nat, ((List.range J).map fun (y : Nat) => ((x : Int), (y : Int), (k : Int))).filter (fun t => decide (t.1 = i ∧ t.2.1 = j)) =
        if (x : Int) = i then ((List.range J).flatMap fun (y : Nat) => if (y : Int) = j then [((x : Int), (y : Int), (k : Int))] else []) else [] := by
      intro x
      rw [List.filter_map]
      by_cases e : (x : Int) = i
      · rw [if_pos e]
        induction List.range J with
        | nil => rfl
        | cons y l ih =>
          simp only [List.filter_cons, List.flatMap_cons, Function.comp_apply, e, true_and] at ih ⊢
          by_cases e2 : (y : Int) = j
          · simp [e2, ← ih, Function.comp_def]
          · simp [e2, ← ih, Function.comp_def]
      · rw [if_neg e]
        simp [e, Function.comp_def]
    simp only [e1]
    rw [flatMap_one I i ⟨hv.1, hv.2.1⟩, flatMap_one J j ⟨hv.2.2.1, hv.2.2.2⟩, Int.toNat_of_nonneg hv.1, Int.toNat_of_nonneg hv.2.2.1]
  rw [termsK, List.filter_flatMap]
  simp only [inner, List.map_flatMap, List.map_cons, List.map_nil]
  induction List.range K with
  | nil => rfl
  | cons x l ih => simp [ih]

theorem order_termsIJ (I K J : Nat) (i j : Int) (hv : Valid [I, J] [i, j]) :
    ((termsIJ I K J).filter fun t => t.1 = i ∧ t.2.1 = j).map (·.2.2) = (List.range K).map fun (k : Nat) => (k : Int) := by
  rw [valid2] at hv
  have e1 : ∀ x y : Nat, ((List.range K).map fun (k : Nat) => ((x : Int), (y : Int), (k : Int))).filter (fun t => decide (t.1 = i ∧ t.2.1 = j)) =
      if (x : Int) = i then if (y : Int) = j then ((List.range K).map fun (k : Nat) => ((x : Int), (y : Int), (k : Int))) else [] else [] := by
    intro x y
    rw [List.filter_map]
    by_cases e : (x : Int) = i <;> by_cases e2 : (y : Int) = j <;> simp [e, e2, Function.comp_def]
  have e2 : ∀ x : Nat, ((List.range J).flatMap fun (y : Nat) => (List.range K).map fun (k : Nat) => ((x : Int), (y : Int), (k : Int))).filter (fun t => decide (t.1 = i ∧ t.2.1 = j)) =
      if (x : Int) = i then ((List.range K).map fun (k : Nat) => ((x : Int), j, (k : Int))) else [] := by
    intro x
    rw [List.filter_flatMap]
    simp only [e1]
    by_cases e : (x : Int) = i
    · simp only [if_pos e]
      rw [flatMap_one J j ⟨hv.2.2.1, hv.2.2.2⟩, Int.toNat_of_nonneg hv.2.2.1]
    · simp [e]
  rw [termsIJ, List.filter_flatMap]
  simp only [e2]
  rw [flatMap_one I i ⟨hv.1, hv.2.1⟩, List.map_map]
  rfl

/-! ## C107 -/

/-- Row-major order without gaps. -/
def Compact (v : View) (n m : Nat) : Prop := v.dims = [⟨n, m⟩, ⟨m, 1⟩]

theorem compact_address {v : View} {n m : Nat} (h : Compact v n m) (i j : Int) : address v [i, j] = v.cp + (i * m + j) := by
  obtain ⟨dims, cp⟩ := v
  simp only [Compact] at h
  subst h
  simp [address, dot]

theorem rawStep_eq {I K J : Nat} {a b c : View} (ha : Compact a I K) (hb : Compact b K J) (hc : Compact c I J) (i j k : Int) :
    rawStep (V := V) c.cp a.cp b.cp J K i j k = fmaAt (address a [i, k]) (address b [k, j]) (address c [i, j]) := by
  rw [compact_address ha, compact_address hb, compact_address hc]
  rfl

/-- C107. The loops on pointers add the product if the arrays are in row-major order without gaps. -/
theorem C107_raw (I K J : Nat) (a b c : View) (ha : Compact a I K) (hb : Compact b K J) (hc : Compact c I J) (μ : Mem V) (va vb vc : Int → Int → V)
    (h : Matrices μ I K J a b c va vb vc) :
    (∃ μ', gemmKRaw a b c μ = (.ok (), μ') ∧ Multiplied μ μ' I K J c va vb vc) ∧ ∃ μ', gemmIJRaw a b c μ = (.ok (), μ') ∧ Multiplied μ μ' I K J c va vb vc := by
  have e0 : lenOf a.dims 0 = I := by rw [ha]; rfl
  have e1 : lenOf a.dims 1 = K := by rw [ha]; rfl
  have e2 : lenOf b.dims 1 = J := by rw [hb]; rfl
  constructor
  · obtain ⟨μ', h1, h2⟩ := multiplied_terms (·.1) (·.2.1) (·.2.2) (termsK I K J) h (fun t ht => mem_termsK ht) (fun i j hv => order_termsK I K J i j hv)
    refine ⟨μ', ?_, h2⟩
    simp only [gemmKRaw, e0, e1, e2, forLoop_eq, rawStep_eq ha hb hc]
    simpa only [termsK, forAll_flatMap, forAll_mapped] using h1
  · obtain ⟨μ', h1, h2⟩ := multiplied_terms (·.1) (·.2.1) (·.2.2) (termsIJ I K J) h (fun t ht => mem_termsIJ ht) (fun i j hv => order_termsIJ I K J i j hv)
    refine ⟨μ', ?_, h2⟩
    simp only [gemmIJRaw, e0, e1, e2, forLoop_eq, rawStep_eq ha hb hc]
    simpa only [termsIJ, forAll_flatMap, forAll_mapped] using h1

/-! Products with `wrank` and with `from`. -/

theorem fma_elem {p q r : Int} : (do let _ ← mapOp fmaOp [pure (.ref p), pure (.ref q), pure (.ref r)]; pure () : Act V Unit) = fmaAt p q r := by
  simp only [mapM_three, pure_bind, fmaOp, Lv.get, bind_assoc, fmaAt]
  congr 1; funext u
  congr 1; funext w
  congr 1; funext v
  exact bind_pure_unit

theorem fma_run (dyn : Bool) (z : List Int) (hz : ∀ i ∈ z, i = 0) (e : Iter (Act V) (Lv V)) (s : List Nat) (h : HasShape e (s.map some)) (pa pb pc : List Int → Int)
    (he : ∀ j, Valid s j → elem e j = mapOp fmaOp [pure (.ref (pa j)), pure (.ref (pb j)), pure (.ref (pc j))]) :
    (do let _ ← ply (β := Unit) dyn never z e; pure ()) = forAll (fun j => fmaAt (pa j) (pb j) (pc j)) (rowMajor s) := by
  rw [ply_never dyn e s h z hz]
  simp only [bind_assoc, pure_bind]
  show (forAll _ _ >>= fun _ => pure ()) = _
  rw [bind_pure_unit, forAll_eq]
  apply forAll_congr
  intro j hj
  rw [he j (mem_rowMajor.mp hj), fma_elem]

/-- The order of the traversal of a product with axes `[I, K, J]`. -/
theorem order_ikj (I K J : Nat) (i j : Int) (hv : Valid [I, J] [i, j]) :
    ((rowMajor [I, K, J]).filter fun t => t.getD 0 0 = i ∧ t.getD 2 0 = j).map (·.getD 1 0) = (List.range K).map fun (k : Nat) => (k : Int) := by
  rw [valid2] at hv
  have h := filter_middle (p := [I]) (r := [K]) (q := [J]) (i := [i]) (j := [j]) ⟨hv.1, hv.2.1, trivial⟩ ⟨hv.2.2.1, hv.2.2.2, trivial⟩
  have e : ((rowMajor [I, K, J]).filter fun t => t.getD 0 0 = i ∧ t.getD 2 0 = j) = (rowMajor [K]).map fun k => [i] ++ k ++ [j] := by
    rw [← h]
    apply List.filter_congr
    intro t ht
    obtain ⟨a, b, c, rfl, _⟩ := valid_three (mem_rowMajor.mp ht)
    simp
  rw [e, rowMajor_one, List.map_map, List.map_map]
  rfl

/-- C107. `gemm1`: a rank conjunction adds the product. -/
theorem C107_verb (dyn : Bool) (z : List Int) (hz : ∀ i ∈ z, i = 0) (I K J : Nat) : AddsProduct (V := V) I K J (gemm1 dyn z) := by
  intro a b c μ va vb vc h
  have hvs : VerbShape [[1, 2, 1], [0, 1, 1]] [[some I, some K], [some K, some J], [some I, some J]] [some I, some K, some J] := by
    refine ⟨.cons (by simp) (.cons (by simp) (.cons (by simp) .nil)), [some I], [some K, some J], rfl, ?_, ?_⟩
    · refine ⟨by simp, by simp, ?_⟩
      intro k n
      rcases k with _ | k <;> simp
    · refine ⟨.cons (by simp) (.cons (by simp) (.cons (by simp) .nil)), [some K], [some J], rfl, ?_, ?_⟩
      · refine ⟨by simp, by simp, ?_⟩
        intro k n
        rcases k with _ | k <;> simp
      · refine ⟨by simp, by simp, ?_⟩
        intro k n
        rcases k with _ | k <;> simp
  obtain ⟨e, h1, h2, h3⟩ := C17_conjunction (m := Act V) fmaOp [[1, 2, 1], [0, 1, 1]] [a.refs, b.refs, c.refs] [[some I, some K], [some K, some J], [some I, some J]]
    ⟨_, _, rfl, refs_shape h.shapeA, _, _, rfl, refs_shape h.shapeB, _, _, rfl, refs_shape h.shapeC, rfl⟩ [some I, some K, some J] hvs
  obtain ⟨μ', r1, r2⟩ := multiplied_terms (·.getD 0 0) (·.getD 2 0) (·.getD 1 0) (rowMajor [I, K, J]) h
    (by
      intro t ht
      obtain ⟨i, k, j, rfl, v1, v2, v3, v4, v5, v6⟩ := valid_three (mem_rowMajor.mp ht)
      exact ⟨⟨v1, v2⟩, ⟨v5, v6⟩, ⟨v3, v4⟩⟩) (order_ikj I K J)
  refine ⟨μ', ?_, r2⟩
  simp only [gemm1, fmaVerb, h1]
  rw [fma_run dyn z hz e [I, K, J] h2 (fun t => address a [t.getD 0 0, t.getD 1 0]) (fun t => address b [t.getD 1 0, t.getD 2 0]) (fun t => address c [t.getD 0 0, t.getD 2 0]), r1]
  intro t ht
  obtain ⟨i, k, j, rfl, v1, v2, v3, v4, v5, v6⟩ := valid_three ht
  rw [h3 _ (by simp)]
  simp only [verb, List.zipWith_cons_cons, List.zipWith_nil_left, List.length_cons, List.length_nil, List.map_cons, List.map_nil]
  simp [elem_refs]

/-- A matrix without one of its axes. -/
theorem take_col {a : View} {n m : Nat} (ha : Shaped a [some n, some m]) (k : Nat) (hk : k < m) :
    ∃ x, a.from [.dots (some 1), .scalar (.const k)] = .ok x ∧ Shaped x [some n] ∧ ∀ i, address x [i] = address a [i, k] := by
  obtain ⟨s, t, e⟩ := view_two ha
  rw [e]
  have h2 : inside (k : Int) m := by simp [inside]; omega
  refine ⟨⟨[⟨n, s⟩], a.cp + k * t⟩, ?_, .cons rfl .nil, ?_⟩
  · simp [View.from, fromb, val_const, h2, bind, Except.bind, pure, Except.pure]
  · intro i
    simp [address, dot]
    ring

theorem take_row {a : View} {n m : Nat} (ha : Shaped a [some n, some m]) (k : Nat) (hk : k < n) :
    ∃ x, a.from [.scalar (.const k)] = .ok x ∧ Shaped x [some m] ∧ ∀ j, address x [j] = address a [k, j] := by
  obtain ⟨s, t, e⟩ := view_two ha
  rw [e]
  have h2 : inside (k : Int) n := by simp [inside]; omega
  refine ⟨⟨[⟨m, t⟩], a.cp + k * s⟩, ?_, .cons rfl .nil, ?_⟩
  · simp [View.from, fromb, val_const, h2, bind, Except.bind, pure, Except.pure]
  · intro i
    simp [address, dot]
    ring

theorem run_K (I K J : Nat) {a b c : View} {μ : Mem V} {va vb vc : Int → Int → V} (h : Matrices μ I K J a b c va vb vc) (body : Int → Act V Unit)
    (hb : ∀ k : Nat, k < K → body k = forAll (fun t => fmaAt (address a [t.getD 0 0, (k : Int)]) (address b [(k : Int), t.getD 1 0]) (address c [t.getD 0 0, t.getD 1 0])) (rowMajor [I, J])) :
    ∃ μ', forLoop (lenOf a.dims 1) body μ = (.ok (), μ') ∧ Multiplied μ μ' I K J c va vb vc := by
  have e1 : lenOf a.dims 1 = K := by obtain ⟨s, t, e⟩ := view_two h.shapeA; rw [e]; rfl
  obtain ⟨μ', h1, h2⟩ := multiplied_terms (·.1) (·.2.1) (·.2.2) (termsK I K J) h (fun t ht => mem_termsK ht) (fun i j hv => order_termsK I K J i j hv)
  refine ⟨μ', ?_, h2⟩
  rw [e1, forLoop_eq, forAll_congr (fun k hk => hb k (List.mem_range.mp hk))]
  simp only [rowMajor, List.map_cons, List.map_nil, forAll_flatMap, forAll_mapped]
  simp only [termsK, forAll_flatMap, forAll_mapped] at h1
  rw [← h1]
  simp [forAll]

theorem merge_square (I J : Nat) : Merge [[some I, some J], [some I, some J]] [some I, some J] := by
  refine ⟨by simp, by simp, ?_⟩
  intro k n
  rcases k with _ | _ | k <;> simp

/-- C107. `gemm2`: a loop of rank conjunctions, one for each column of `a` and row of `b`, adds the product. -/
theorem C107_verbs (dyn : Bool) (z : List Int) (hz : ∀ i ∈ z, i = 0) (I K J : Nat) : AddsProduct (V := V) I K J (gemm2 dyn z) := by
  intro a b c μ va vb vc h
  refine run_K I K J h _ ?_
  intro k hk
  obtain ⟨x, x1, x2, x3⟩ := take_col h.shapeA k hk
  obtain ⟨y, y1, y2, y3⟩ := take_row h.shapeB k hk
  have hvs : VerbShape [[0, 1, 1]] [[some I], [some J], [some I, some J]] [some I, some J] := by
    refine ⟨.cons (by simp) (.cons (by simp) (.cons (by simp) .nil)), [some I], [some J], rfl, ?_, ?_⟩
    · refine ⟨by simp, by simp, ?_⟩
      intro k n
      rcases k with _ | k <;> simp
    · refine ⟨by simp, by simp, ?_⟩
      intro k n
      rcases k with _ | k <;> simp
  obtain ⟨e, h1, h2, h3⟩ := C17_conjunction (m := Act V) fmaOp [[0, 1, 1]] [x.refs, y.refs, c.refs] [[some I], [some J], [some I, some J]]
    ⟨_, _, rfl, refs_shape x2, _, _, rfl, refs_shape y2, _, _, rfl, refs_shape h.shapeC, rfl⟩ [some I, some J] hvs
  funext μ0
  rw [lift_bind x1, lift_bind y1]
  simp only [fmaVerb, h1]
  rw [fma_run dyn z hz e [I, J] h2 (fun t => address a [t.getD 0 0, k]) (fun t => address b [k, t.getD 1 0]) (fun t => address c [t.getD 0 0, t.getD 1 0])]
  intro t ht
  obtain ⟨i, j, rfl, v1, v2, v3, v4⟩ := valid_two.mp ht
  rw [h3 _ (by simp)]
  simp only [verb, List.zipWith_cons_cons, List.zipWith_nil_left, List.length_cons, List.length_nil, List.map_cons, List.map_nil]
  simp [elem_refs, x3, y3]

/-- C107. `gemm4`: a loop of outer products, one for each column of `a` and row of `b`, adds the product. -/
theorem C107_outer (dyn : Bool) (z : List Int) (hz : ∀ i ∈ z, i = 0) (I K J : Nat) : AddsProduct (V := V) I K J (gemm4 dyn z) := by
  intro a b c μ va vb vc h
  refine run_K I K J h _ ?_
  intro k hk
  obtain ⟨x, x1, x2, x3⟩ := take_col h.shapeA k hk
  obtain ⟨y, y1, y2, y3⟩ := take_row h.shapeB k hk
  obtain ⟨e, h1, h2, h3⟩ := C16_outer (m := Act V) mulOp [x.refs, y.refs] (by simp) [[some I], [some J]] ⟨_, _, rfl, refs_shape x2, _, _, rfl, refs_shape y2, rfl⟩
  funext μ0
  rw [lift_bind x1, lift_bind y1]
  simp only [outerMul, h1, pure_bind, update]
  rw [run_forAll dyn z hz _ c.refs e [some I, some J] [some I, some J] [I, J] (refs_shape h.shapeC) h2 (merge_square I J), forAll_eq]
  refine congrFun (forAll_congr ?_) _
  intro t ht
  obtain ⟨i, j, rfl, v1, v2, v3, v4⟩ := valid_two.mp (mem_rowMajor.mp ht)
  rw [h3 _ (by simp)]
  simp only [pieces, List.map_cons, List.map_nil, List.length_cons, List.length_nil, List.zipWith_cons_cons, List.zipWith_nil_left, List.take_succ_cons, List.take_zero,
    List.drop_succ_cons, List.drop_zero, elem_refs, mapM_two, pure_bind, mulOp, updOp, Lv.get, bind_assoc, fmaAt, x3, y3]
  simp only [Nat.zero_add, List.take_succ_cons, List.take_zero, List.drop_succ_cons, List.drop_zero, x3, y3, List.getD_cons_zero, List.getD_cons_succ]
  congr 1; funext u
  congr 1; funext w
  congr 1; funext v
  exact bind_pure_unit

/-- C107. `gemm5`, `gemm6`: with `insert`, one expression adds the product. -/
theorem C107_insert (rafma dyn : Bool) (z : List Int) (hz : ∀ i ∈ z, i = 0) (I K J : Nat) :
    AddsProduct (V := V) I K J (gemm5 dyn z) ∧ AddsProduct (V := V) I K J (gemm6 rafma dyn z) := by
  refine ⟨fun a b c μ va vb vc h => C107_gemm dyn z hz I K J a b c μ va vb vc h, ?_⟩
  intro a b c μ va vb vc h
  obtain ⟨s, t, ec⟩ := view_two h.shapeC
  have hd : c.from [.dots (some 1), .insert 1] = .ok ⟨[⟨I, s⟩, ⟨UNB, 0⟩, ⟨J, t⟩], c.cp⟩ := by
    rw [ec]; rfl
  have hcc : ∀ i k j, address ⟨[⟨I, s⟩, ⟨UNB, 0⟩, ⟨J, t⟩], c.cp⟩ [i, k, j] = address c [i, j] := by
    intro i k j
    rw [show address c [i, j] = address ⟨[⟨I, s⟩, ⟨J, t⟩], c.cp⟩ [i, j] by rw [← ec]]
    simp [address, dot]
  cases rafma with
  | false =>
    obtain ⟨μ', h1, h2⟩ := C107_gemm dyn z hz I K J a b c μ va vb vc h
    refine ⟨μ', ?_, h2⟩
    simp only [gemm6]
    rw [lift_bind (from_insert b), lift_bind hd]
    simp only [gemmSlice] at h1
    rw [lift_bind hd, lift_bind (from_insert b)] at h1
    exact h1
  | true =>
    obtain ⟨μ', r1, r2⟩ := multiplied_terms (·.getD 0 0) (·.getD 2 0) (·.getD 1 0) (rowMajor [I, K, J]) h
      (by
        intro t ht
        obtain ⟨i, k, j, rfl, v1, v2, v3, v4, v5, v6⟩ := valid_three (mem_rowMajor.mp ht)
        exact ⟨⟨v1, v2⟩, ⟨v5, v6⟩, ⟨v3, v4⟩⟩) (order_ikj I K J)
    refine ⟨μ', ?_, r2⟩
    simp only [gemm6]
    rw [lift_bind (from_insert b), lift_bind hd]
    simp only [if_true, assign]
    have hc' : HasShape (View.refs ⟨[⟨I, s⟩, ⟨UNB, 0⟩, ⟨J, t⟩], c.cp⟩ : Iter (Act V) (Lv V)) [some I, none, some J] := List.Forall₂.cons rfl (.cons rfl (.cons rfl .nil))
    have hx : HasShape (.node (valOp fmaVal) [a.refs, View.refs ⟨⟨UNB, 0⟩ :: b.dims, b.cp⟩, View.refs ⟨[⟨I, s⟩, ⟨UNB, 0⟩, ⟨J, t⟩], c.cp⟩] : Iter (Act V) (Lv V)) [some I, some K, some J] := by
      refine ⟨[[some I, some K], [none, some K, some J], [some I, none, some J]],
        ⟨_, _, rfl, refs_shape h.shapeA, _, _, rfl, refs_shape (shape_insert h.shapeB), _, _, rfl, hc', rfl⟩, ?_⟩
      refine ⟨by simp, by simp, ?_⟩
      intro k n
      rcases k with _ | _ | _ | k <;> simp
    rw [run_forAll dyn z hz _ _ _ [some I, none, some J] [some I, some K, some J] [I, K, J] hc' hx (merge_insert I K J), forAll_eq, ← r1]
    refine congrFun (forAll_congr ?_) _
    intro q hq
    obtain ⟨i, k, j, rfl, v1, v2, v3, v4, v5, v6⟩ := valid_three (mem_rowMajor.mp hq)
    have haa : elem (a.refs : Iter (Act V) (Lv V)) [i, k, j] = elem a.refs [i, k] := by
      rw [show [i, k, j] = [i, k] ++ [j] from rfl]
      have hv : Valid [I, K] [i, k] := ⟨v1, v2, v3, v4, trivial⟩
      exact elem_append (s := [I, K]) (refs_shape h.shapeA) hv [j]
    have hbb : address ⟨⟨UNB, 0⟩ :: b.dims, b.cp⟩ [i, k, j] = address b [k, j] := by simp [address, dot]
    simp only [elem, elems, haa, elem_refs, hcc, hbb, mapM_two, valOp, mapM_three, pure_bind, setOp, List.mapM_cons, List.mapM_nil, Lv.get, bind_assoc, fmaVal, fmaAt,
      List.getD_cons_zero, List.getD_cons_succ]
    congr 1; funext u
    congr 1; funext w
    congr 1; funext v
    exact bind_pure_unit

end
end Ra.Props
