import Verif.Model.ArraySum
import Verif.Props.CellSum
import Verif.Props.Slice
import Verif.Props.Dot
import Verif.Props.Crash
/-!
# C125: sums of arrays
-/

namespace Ra.Spec

section
variable {V : Type}

/-- In memory `μ` the elements of the expression `i`, of shape `t`, are arrays of shape `u`, and the element `k` of the array `j` is `va j k`. -/
structure Arrays (μ : Mem V) (t u : List Nat) (i : Iter (Act V) (Lv V)) (va : List Int → List Int → V) : Prop where
  shape : HasShape i (t.map some)
  each : ∀ j, Valid t j → ∃ x, elem i j = pure (.view x) ∧ Shaped x (u.map some) ∧ ∀ k, Valid u k → μ (address x k) = some (va j k)

/-- `f (f (f x0 (g j0)) (g j1)) ...` for the indices of the shape `t` in row-major order. -/
def foldOver (f : V → V → V) (x0 : V) (t : List Nat) (g : List Int → V) : V := ((rowMajor t).map g).foldl f x0

end
end Ra.Spec

namespace Ra.Props
open Spec

section
variable {V : Type}

/-- The loop in `sum`, when the array `c` is apart from the elements. -/
theorem addArrays_run (f : V → V → V) (dyn dyn' : Bool) (z z' : List Int) (hz : ∀ i ∈ z, i = 0) (hz' : ∀ i ∈ z', i = 0) (t u : List Nat) (i : Iter (Act V) (Lv V)) (c : View) (μ : Mem V) (va : List Int → List Int → V)
    (hi : HasShape i (t.map some)) (hc : Shaped c (u.map some)) (hd : Distinct c u) (vc : List Int → V) (hold : ∀ k, Valid u k → μ (address c k) = some (vc k))
    (he : ∀ j, Valid t j → ∃ x, elem i j = pure (.view x) ∧ Shaped x (u.map some) ∧ ∀ k, Valid u k → μ (address x k) = some (va j k) ∧ ¬ InView c u (address x k)) :
    ∃ μ', addArrays f dyn dyn' z z' i c μ = (.ok (), μ') ∧ Stored μ μ' u c fun k => foldOver f (vc k) t fun j => va j k := by
  rw [addArrays, ply_forAll dyn z hz (.node _ [i]) t ⟨_, ⟨_, _, rfl, hi, rfl⟩, merge_one _⟩]
  have key : ∀ (l : List (List Int)), (∀ j ∈ l, Valid t j) → ∀ (μ1 : Mem V) (vc : List Int → V), SameOutside (InView c u) μ μ1 → (∀ k, Valid u k → μ1 (address c k) = some (vc k)) →
      ∃ μ', forAll (elem (.node (mapOp (addInto f dyn' z' c)) [i])) l μ1 = (.ok (), μ') ∧ Stored μ μ' u c fun k => (l.map fun j => va j k).foldl f (vc k) := by
    intro l
    induction l with
    | nil => intro _ μ1 vc h1 h2; exact ⟨μ1, rfl, h1, h2⟩
    | cons j l ih =>
      intro hl μ1 vc h1 h2
      obtain ⟨x, x1, x2, x3⟩ := he j (hl j List.mem_cons_self)
      obtain ⟨μ2, g1, g2, g3⟩ := C28_prefix f dyn' z' hz' c.refs u [] (address c) μ1 (places_refs hc hd μ1) x.refs _ (refs_shape x2) (by rw [List.append_nil]; exact merge_same _) vc h2 (fun k => va j k) (by
        intro k hk μ' hμ
        rw [List.append_nil] at hk
        refine reads_refs ?_
        rw [hμ _ (x3 k hk).2, h1 _ (x3 k hk).2, (x3 k hk).1])
      obtain ⟨μ3, k1, k2⟩ := ih (fun j hj => hl j (List.mem_cons_of_mem _ hj)) μ2 (fun k => f (vc k) (va j k)) (fun p hp => by rw [g2 p hp, h1 p hp]) (by
        intro k hk
        rw [g3 k hk]
        simp [rowMajor])
      refine ⟨μ3, ?_, k2⟩
      have e : elem (.node (mapOp (addInto f dyn' z' c)) [i]) j μ1 = (.ok (.view c), μ2) := by
        simp only [elem, elems, x1, mapOp, List.mapM_cons, List.mapM_nil, id_eq, pure_bind, addInto]
        rw [act_bind_ok g1]
        rfl
      rw [forAll, act_bind_ok e, k1]
  exact key (rowMajor t) (fun j hj => mem_rowMajor.1 hj) μ vc (fun _ _ => rfl) hold

theorem act_bind_err {α β : Type} {x : Act V α} {f : α → Act V β} {e : Fault} {μ μ' : Mem V} (h : x μ = (.error e, μ')) : (x >>= f) μ = (.error e, μ') := by
  show Act.andThen x f μ = _
  simp only [Act.andThen, h]

theorem shaped_lens {x : View} {u : List Nat} (h : Shaped x (u.map some)) : x.dims.map Dim.len = u.map Nat.cast := shaped_nat.mp h

variable [Inhabited V]

/-- C125. The result of `sum` or `prod` of arrays of the same shape is a new array with that shape, where each element is the sum or the product of the elements of the arrays at the same place. -/
theorem C125_arrays (f : V → V → V) (x0 : V) (rk : Option Nat) (o : Int) (fill : Nat → V) (dyn dyn' dyn'' : Bool) (z z' z'' : List Int) (hz : ∀ i ∈ z, i = 0) (hz' : ∀ i ∈ z', i = 0) (hz'' : ∀ i ∈ z'', i = 0)
    (t u : List Nat) (hr : ∀ r, rk = some r → u.length = r) (i : Iter (Act V) (Lv V)) (μ : Mem V) (va : List Int → List Int → V) (h : Arrays μ t u i va) (h0 : ∃ x, i.deref = pure (.view x) ∧ Shaped x (u.map some)) (hf : Free μ o (size u)) :
    ∃ c μ', foldArrays f x0 rk (some o) fill dyn dyn' dyn'' z z' z'' i μ = (.ok c, μ') ∧ c.rk = rk ∧ New c μ μ' u fun k => some (foldOver f x0 t fun j => va j k) := by
  obtain ⟨x, e1, e2⟩ := h0
  obtain ⟨c, μ1, g1, g2, g3⟩ := zeros_new rk o fill dyn'' z'' hz'' u hr x0 μ hf
  obtain ⟨μ2, k1, k2, k3⟩ := addArrays_run f dyn dyn' z z' hz hz' t u i c.view μ1 va h.shape (shaped_nat.mpr g3.cont.lens) (container_distinct g3.cont) (fun _ => x0) g3.elem (by
    intro j hj
    obtain ⟨y, y1, y2, y3⟩ := h.each j hj
    refine ⟨y, y1, y2, fun k hk => ?_⟩
    have ho : ¬ Owns c (address y k) := fun ho => by have := g3.fresh _ ho; rw [y3 k hk] at this; cases this
    refine ⟨by rw [g3.same _ ho, y3 k hk], ?_⟩
    rintro ⟨l, hl, e⟩
    exact ho (e ▸ container_owns g3.cont hl))
  refine ⟨c, μ2, ?_, g2, new_again g3 (fun _ _ => rfl) k3 k2⟩
  have : i.deref μ = (.ok (.view x), μ) := by rw [e1]; rfl
  simp only [foldArrays, this, shaped_lens e2, g1, Arr.andDo, k1]

/-- C125. `sum(iter<cr>(a))`: the sum of the cells. There may be none, and then the elements of the result are all 0. -/
theorem C125_cells (f : V → V → V) (x0 : V) (rk : Option Nat) (o : Int) (fill : Nat → V) (dyn dyn' dyn'' : Bool) (z z' z'' : List Int) (hz : ∀ i ∈ z, i = 0) (hz' : ∀ i ∈ z', i = 0) (hz'' : ∀ i ∈ z'', i = 0)
    (t u : List Nat) (hr : ∀ r, rk = some r → u.length = r) (a : View) (ha : Shaped a ((t ++ u).map some)) (μ : Mem V) (va : List Int → V) (hv : ∀ j, Valid (t ++ u) j → μ (address a j) = some (va j))
    (cr : Int) (hc : frameRank (t ++ u).length cr = t.length) (hf : Free μ o (size u)) :
    ∃ c μ', foldCells f x0 rk (some o) fill dyn dyn' dyn'' z z' z'' cr a μ = (.ok c, μ') ∧ c.rk = rk ∧ New c μ μ' u fun k => some (foldOver f x0 t fun j => va (j ++ k)) := by
  obtain ⟨e, e1, e2, e3⟩ := cells_rank (V := V) a t u ha cr hc
  have hd : ∃ x, e.deref = pure (.view x) ∧ Shaped x (u.map some) := by
    simp only [View.cells] at e1
    obtain ⟨x, x1, x2, x3⟩ := e3 (List.replicate t.length 0) (by simp)
    cases hcell : a.cell cr with
    | error f => rw [hcell] at e1; cases e1
    | ok r =>
      rw [hcell] at e1
      injection e1 with e1
      subst e1
      refine ⟨_, rfl, ?_⟩
      have : (pure (Lv.view ⟨r.2, address ⟨r.1, a.cp⟩ (List.replicate t.length 0)⟩) : Act V (Lv V)) μ = (pure (Lv.view x) : Act V (Lv V)) μ := congrFun x1 μ
      injection this with h1 h2
      injection h1 with h1
      injection h1 with h1
      subst h1
      exact x2
  obtain ⟨c, μ', h1, h2, h3⟩ := C125_arrays f x0 rk o fill dyn dyn' dyn'' z z' z'' hz hz' hz'' t u hr e μ (fun j k => va (j ++ k)) ⟨e2, fun j hj => by
    obtain ⟨x, x1, x2, x3⟩ := e3 j (length_of_valid hj)
    exact ⟨x, x1, x2, fun k hk => by rw [x3, hv _ (valid_append hj hk)]⟩⟩ hd hf
  exact ⟨c, μ', by simp only [foldCells, e1]; exact h1, h2, h3⟩

/-- C125. The same for an array of arrays, if there's any. -/
theorem C125_nested (f : V → V → V) (x0 : V) (rk : Option Nat) (o : Int) (fill : Nat → V) (dyn dyn' dyn'' : Bool) (z z' z'' : List Int) (hz : ∀ i ∈ z, i = 0) (hz' : ∀ i ∈ z', i = 0) (hz'' : ∀ i ∈ z'', i = 0)
    (t u : List Nat) (hr : ∀ r, rk = some r → u.length = r) (h0 : 0 ∉ t) (a : View) (ha : Shaped a (t.map some)) (el : Int → Option View) (μ : Mem V) (va : List Int → List Int → V)
    (he : ∀ j, Valid t j → ∃ x, el (address a j) = some x ∧ Shaped x (u.map some) ∧ ∀ k, Valid u k → μ (address x k) = some (va j k)) (hf : Free μ o (size u)) :
    ∃ c μ', foldArrays f x0 rk (some o) fill dyn dyn' dyn'' z z' z'' (nestedRefs el a) μ = (.ok c, μ') ∧ c.rk = rk ∧ New c μ μ' u fun k => some (foldOver f x0 t fun j => va j k) := by
  have hz0 : Valid t (List.replicate t.length 0) := by
    clear ha he
    induction t with
    | nil => trivial
    | cons n t ih =>
      simp only [List.mem_cons, not_or] at h0
      exact ⟨by omega, by omega, ih h0.2⟩
  refine C125_arrays f x0 rk o fill dyn dyn' dyn'' z z' z'' hz hz' hz'' t u hr _ μ va ⟨ha, fun j hj => ?_⟩ ?_ hf
  · obtain ⟨x, x1, x2, x3⟩ := he j hj
    refine ⟨x, ?_, x2, x3⟩
    show (match el (address a j) with | some x => pure (Lv.view x) | none => fault .ub : Act V (Lv V)) = _
    rw [x1]
  · obtain ⟨x, x1, x2, x3⟩ := he _ hz0
    refine ⟨x, ?_, x2⟩
    have : address a (List.replicate t.length 0) = a.cp := by simp [address, dot_zeros_right]
    rw [this] at x1
    show (match el a.cp with | some x => pure (Lv.view x) | none => fault .ub : Act V (Lv V)) = _
    rw [x1]

omit [Inhabited V] in
/-- C125 (B58). If there are no arrays then `sum` looks for the shape in an element that doesn't exist, which is undefined behavior. -/
theorem C125_none (f : V → V → V) (x0 : V) (rk : Option Nat) (o : Option Int) (fill : Nat → V) (dyn dyn' dyn'' : Bool) (z z' z'' : List Int) (a : View) (el : Int → Option View) (μ : Mem V) (h : el a.cp = none) :
    foldArrays f x0 rk o fill dyn dyn' dyn'' z z' z'' (nestedRefs el a) μ = (.error .ub, μ) := by
  have : (nestedRefs el a : Iter (Act V) (Lv V)).deref μ = (.error .ub, μ) := by
    show (match el a.cp with | some x => pure (Lv.view x) | none => fault .ub : Act V (Lv V)) μ = _
    rw [h]
    rfl
  simp only [foldArrays, this]

/-- C125. If some array doesn't have the shape of the first one, and that shape doesn't match its own, then the check fails; the memory is as it was. -/
theorem C125_reject (f : V → V → V) (x0 : V) (rk : Option Nat) (o : Int) (fill : Nat → V) (dyn dyn' dyn'' : Bool) (z z' z'' : List Int) (hz : ∀ i ∈ z, i = 0) (hz' : ∀ i ∈ z', i = 0) (hz'' : ∀ i ∈ z'', i = 0)
    (t u : List Nat) (hr : ∀ r, rk = some r → u.length = r) (i : Iter (Act V) (Lv V)) (hi : HasShape i (t.map some)) (μ : Mem V) (h0 : ∃ x, i.deref = pure (.view x) ∧ Shaped x (u.map some)) (hf : Free μ o (size u))
    (pre post : List (List Int)) (j0 : List Int) (hj : rowMajor t = pre ++ j0 :: post)
    (hp : ∀ j ∈ pre, ∃ x, elem i j = pure (.view x) ∧ Shaped x (u.map some) ∧ ∀ k, Valid u k → (μ (address x k)).isSome)
    (w : List Nat) (hw : ∃ x, elem i j0 = pure (.view x) ∧ Shaped x (w.map some)) (hm : ¬ ∃ s : List Nat, Merge [u.map some, w.map some] (s.map some)) :
    foldArrays f x0 rk (some o) fill dyn dyn' dyn'' z z' z'' i μ = (.error .check, μ) := by
  obtain ⟨x, e1, e2⟩ := h0
  obtain ⟨c, μ1, g1, g2, g3⟩ := zeros_new rk o fill dyn'' z'' hz'' u hr x0 μ hf
  have hcs : Shaped c.view (u.map some) := shaped_nat.mpr g3.cont.lens
  have key : ∀ (l : List (List Int)), (∀ j ∈ l, ∃ x, elem i j = pure (.view x) ∧ Shaped x (u.map some) ∧ ∀ k, Valid u k → (μ (address x k)).isSome) → ∀ (μ2 : Mem V) (vc : List Int → V), New c μ μ2 u (fun k => some (vc k)) →
      ∃ (μ3 : Mem V) (vd : List Int → V), forAll (elem (.node (mapOp (addInto f dyn' z' c.view)) [i])) l μ2 = (.ok (), μ3) ∧ New c μ μ3 u fun k => some (vd k) := by
    intro l
    induction l with
    | nil => intro _ μ2 vc h; exact ⟨μ2, vc, rfl, h⟩
    | cons j l ih =>
      intro hl μ2 vc h
      obtain ⟨y, y1, y2, y3⟩ := hl j List.mem_cons_self
      have ho : ∀ k, Valid u k → ¬ Owns c (address y k) := fun k hk ho => by have := h.fresh _ ho; have := y3 k hk; simp_all
      obtain ⟨μ3, k1, k2, k3⟩ := C28_prefix f dyn' z' hz' c.view.refs u [] (address c.view) μ2 (places_refs hcs (container_distinct h.cont) μ2) y.refs _ (refs_shape y2) (by rw [List.append_nil]; exact merge_same _) vc h.elem
        (fun k => (μ (address y k)).getD default) (by
        intro k hk μ' hμ
        rw [List.append_nil] at hk
        refine reads_refs ?_
        have hn : ¬ InView c.view u (address y k) := by
          rintro ⟨l, hl, e⟩
          exact ho k hk (e ▸ container_owns h.cont hl)
        rw [hμ _ hn, h.same _ (ho k hk)]
        obtain ⟨v, hv⟩ := Option.isSome_iff_exists.1 (y3 k hk)
        simp [hv])
      have hn := new_again h (fun _ _ => rfl) k3 k2
      obtain ⟨μ4, vd, m1, m2⟩ := ih (fun j hj => hl j (List.mem_cons_of_mem _ hj)) μ3 _ hn
      refine ⟨μ4, vd, ?_, m2⟩
      have e : elem (.node (mapOp (addInto f dyn' z' c.view)) [i]) j μ2 = (.ok (.view c.view), μ3) := by
        simp only [elem, elems, y1, mapOp, List.mapM_cons, List.mapM_nil, id_eq, pure_bind, addInto]
        rw [act_bind_ok k1]
        rfl
      rw [forAll, act_bind_ok e, m1]
  obtain ⟨μ3, vd, m1, m2⟩ := key pre hp μ1 _ g3
  obtain ⟨y, y1, y2⟩ := hw
  have hbody : addArrays f dyn dyn' z z' i c.view μ1 = (.error .check, μ3) := by
    rw [addArrays, ply_forAll dyn z hz (.node _ [i]) t ⟨_, ⟨_, _, rfl, hi, rfl⟩, merge_one _⟩, hj, forAll_append_act _ _ _ _ _ m1, forAll]
    have e : elem (.node (mapOp (addInto f dyn' z' c.view)) [i]) j0 μ3 = (.error .check, μ3) := by
      have hu := (C27_reject dyn' z' c.view.refs y.refs _ _ (refs_shape hcs) (refs_shape y2) hm μ3 f).2
      simp only [elem, elems, y1, mapOp, List.mapM_cons, List.mapM_nil, id_eq, pure_bind, addInto]
      exact act_bind_err hu
    exact act_bind_err e
  have : i.deref μ = (.ok (.view x), μ) := by rw [e1]; rfl
  simp only [foldArrays, this, shaped_lens e2, g1, Arr.andDo, hbody]
  rw [new_release m2]

omit [Inhabited V] in
/-- `A(dots<n>, k ...)`. -/
theorem from_last (t u : List Nat) (a : View) (ha : Shaped a ((t ++ u).map some)) (k : List Int) (hk : Valid u k) :
    ∃ x, a.from (.dots (some t.length) :: k.map fun n => .scalar (.const n)) = .ok x ∧ Shaped x (t.map some) ∧ ∀ j, Valid t j → address x j = address a (j ++ k) := by
  have hacc : ∀ (u : List Nat) (k : List Int) (ds : List Dim), List.Forall₂ DimLen ds (u.map some) → Valid u k → Accepts ds (k.map .at) ∧ sliceShape (u.map some) (k.map .at) = [] ∧ sliceIndex (k.map .at) [] = k ∧ axes (k.map .at) = u.length := by
    intro u
    induction u with
    | nil =>
      intro k ds hd hk
      match k, hk with
      | [], _ => exact ⟨by cases ds <;> simp [Accepts], rfl, rfl, rfl⟩
    | cons n u ih =>
      intro k ds hd hk
      match k, hk, ds, hd with
      | n' :: k, ⟨h1, h2, h3⟩, d :: ds, .cons hd1 hd2 =>
        obtain ⟨i1, i2, i3, i4⟩ := ih k ds hd2 h3
        refine ⟨⟨.inl ⟨h1, by have : d.len = (n : Int) := hd1; omega⟩, i1⟩, by simpa [sliceShape] using i2, by simpa [sliceIndex] using i3, by simp [axes, i4]; omega⟩
  have hl := ha.length_eq
  have hdrop := List.forall₂_drop t.length ha
  rw [← List.map_drop, List.drop_left' rfl] at hdrop
  obtain ⟨h1, h2, h3, h4⟩ := hacc u k _ hdrop hk
  obtain ⟨x, x1, x2, x3⟩ := C13_slice a _ ha (.keep t.length :: k.map .at) (by simp [axes, h4]) (by
    cases hd : a.dims with
    | nil => rw [hd] at h1; simpa [Accepts] using h1
    | cons d ds => rw [hd] at h1; simpa [Accepts] using h1)
  have hs : sliceShape ((t ++ u).map some) (.keep t.length :: k.map .at) = t.map some := by
    simp only [sliceShape]
    rw [← List.map_take, ← List.map_drop, List.take_left' rfl, List.drop_left' rfl, h2, List.append_nil]
  rw [hs] at x2 x3
  refine ⟨x, by simpa [write, Function.comp_def] using x1, x2, fun j hj => ?_⟩
  rw [(x3 j (inRange_of_valid hj)).1]
  simp only [sliceIndex]
  have := length_of_valid hj
  rw [List.take_of_length_le (by omega), List.drop_of_length_le (by omega), h3]

/-- `prod` of a view. -/
theorem prodReads_run [One V] [Mul V] (dyn : Bool) (z : List Int) (hz : ∀ i ∈ z, i = 0) (x : View) (r : List Nat) (hx : Shaped x (r.map some)) (μ : Mem V) (f : List Int → V)
    (hf : ∀ j, Valid r j → μ (address x j) = some (f j)) : prodOf dyn z x.reads μ = (.ok (foldOver (· * ·) 1 r f), μ) := by
  have := forEachRef_mem μ dyn z hz (fun c xs => match xs with
    | [x] => pure (c * x)
    | _ => fault .abort) (1 : V) [x.reads] r [r.map some] ⟨_, _, rfl, hx, rfl⟩ (merge_one _) (fun j => [f j]) (by
      intro j hj c
      simp only [elems, List.mapM_cons, List.mapM_nil, id]
      have e1 : (elem (x.reads : Iter (StateT V (Act V)) V) j).run c μ = (.ok (f j, c), μ) := by
        show (StateT.lift (Act.read (address x j)) : StateT V (Act V) V).run c μ = _
        rw [StateT.run_lift, act_bind_ok (a := f j) (μ' := μ) (by simp [Act.read, hf j hj])]
        rfl
      rw [StateT.run_bind, act_bind_ok e1]
      rfl) (fun c j => c * f j) (fun _ _ _ => rfl)
  rw [foldOver, List.foldl_map]
  exact this

/-- C125. `sum(iter<cr>(a))` at `k` is `sum(a(dots<n>, k ...))`, and the same with `prod`. -/
theorem C125_axis [Zero V] [One V] [Add V] [Mul V] (rk : Option Nat) (o : Int) (fill : Nat → V) (dyn dyn' dyn'' dyn3 : Bool) (z z' z'' z3 : List Int) (hz : ∀ i ∈ z, i = 0) (hz' : ∀ i ∈ z', i = 0) (hz'' : ∀ i ∈ z'', i = 0) (hz3 : ∀ i ∈ z3, i = 0)
    (t u : List Nat) (hr : ∀ r, rk = some r → u.length = r) (a : View) (ha : Shaped a ((t ++ u).map some)) (μ : Mem V) (hv : ∀ j, Valid (t ++ u) j → (μ (address a j)).isSome)
    (cr : Int) (hc : frameRank (t ++ u).length cr = t.length) (hf : Free μ o (size u)) :
    (∃ c μ', foldCells (· + ·) 0 rk (some o) fill dyn dyn' dyn'' z z' z'' cr a μ = (.ok c, μ') ∧ Container c μ' u ∧ ∀ k, Valid u k →
      ∃ x v, a.from (.dots (some t.length) :: k.map fun n => .scalar (.const n)) = .ok x ∧ sumOf dyn3 z3 x.reads μ = (.ok v, μ) ∧ μ' (address c.view k) = some v) ∧
    ∃ c μ', foldCells (· * ·) 1 rk (some o) fill dyn dyn' dyn'' z z' z'' cr a μ = (.ok c, μ') ∧ Container c μ' u ∧ ∀ k, Valid u k →
      ∃ x v, a.from (.dots (some t.length) :: k.map fun n => .scalar (.const n)) = .ok x ∧ prodOf dyn3 z3 x.reads μ = (.ok v, μ) ∧ μ' (address c.view k) = some v := by
  have hv' : ∀ j, Valid (t ++ u) j → μ (address a j) = some ((μ (address a j)).getD default) := by
    intro j hj
    obtain ⟨v, h⟩ := Option.isSome_iff_exists.1 (hv j hj)
    simp [h]
  constructor
  · obtain ⟨c, μ', h1, _, h3⟩ := C125_cells (· + ·) 0 rk o fill dyn dyn' dyn'' z z' z'' hz hz' hz'' t u hr a ha μ _ hv' cr hc hf
    refine ⟨c, μ', h1, h3.cont, fun k hk => ?_⟩
    obtain ⟨x, x1, x2, x3⟩ := from_last t u a ha k hk
    exact ⟨x, _, x1, sumReads_run dyn3 z3 hz3 x t x2 μ (fun j => (μ (address a (j ++ k))).getD default) (fun j hj => (congrArg μ (x3 j hj)).trans (hv' _ (valid_append hj hk))), h3.elem k hk⟩
  · obtain ⟨c, μ', h1, _, h3⟩ := C125_cells (· * ·) 1 rk o fill dyn dyn' dyn'' z z' z'' hz hz' hz'' t u hr a ha μ _ hv' cr hc hf
    refine ⟨c, μ', h1, h3.cont, fun k hk => ?_⟩
    obtain ⟨x, x1, x2, x3⟩ := from_last t u a ha k hk
    exact ⟨x, _, x1, prodReads_run dyn3 z3 hz3 x t x2 μ (fun j => (μ (address a (j ++ k))).getD default) (fun j hj => (congrArg μ (x3 j hj)).trans (hv' _ (valid_append hj hk))), h3.elem k hk⟩

end

/-! ## Examples -/

theorem egThirty_free (n : Nat) : Free egThirty 100 n := by
  intro i hi
  simp only [egThirty]
  rw [if_neg (by omega)]

/-- `sum(iter<1>(A))` with `A(i, j, k) = 12*i + 4*j + k`, of shape (2, 3, 4). -/
example : ∃ c μ', foldCells (· + ·) 0 (some 1) (some 100) (fun _ => 7) true false true [] [0] [] 1 ⟨[⟨2, 12⟩, ⟨3, 4⟩, ⟨4, 1⟩], 0⟩ egThirty = (.ok c, μ') ∧ μ' (address c.view [1]) = some 66 := by
  obtain ⟨c, μ', h1, _, h3⟩ := C125_cells (· + ·) 0 (some 1) 100 (fun _ => 7) true false true [] [0] [] (by simp) (by simp) (by simp) [2, 3] [4] (by simp) ⟨[⟨2, 12⟩, ⟨3, 4⟩, ⟨4, 1⟩], 0⟩
    (.cons rfl (.cons rfl (.cons rfl .nil))) egThirty _ egThirty_into.valueA 1 rfl (egThirty_free _)
  exact ⟨c, μ', h1, h3.elem [1] (mem_rowMajor.1 (by decide +kernel))⟩

/-- The test on test/reduction.cc:198-200: with no cells, `sum` is 0 and `prod` is 1. -/
example : ∃ c μ' d μ'', foldCells (· + ·) 0 (some 1) (some 100) (fun _ => 7) true false true [] [0] [] 1 ⟨[⟨0, 111⟩, ⟨111, 1⟩], 50⟩ egThirty = (.ok c, μ') ∧ New c egThirty μ' [111] (fun _ => some 0) ∧
    foldCells (· * ·) 1 (some 1) (some 100) (fun _ => 7) true false true [] [0] [] 1 ⟨[⟨0, 111⟩, ⟨111, 1⟩], 50⟩ egThirty = (.ok d, μ'') ∧ New d egThirty μ'' [111] (fun _ => some 1) := by
  have hv : ∀ j, Valid ([0] ++ [111]) j → egThirty (address ⟨[⟨0, 111⟩, ⟨111, 1⟩], 50⟩ j) = some ((fun _ => 0) j) := by
    intro j hj
    obtain ⟨x, y, rfl, h1, h2, _⟩ := valid_two.mp hj
    omega
  obtain ⟨c, μ', h1, _, h3⟩ := C125_cells (· + ·) 0 (some 1) 100 (fun _ => 7) true false true [] [0] [] (by simp) (by simp) (by simp) [0] [111] (by simp) ⟨[⟨0, 111⟩, ⟨111, 1⟩], 50⟩
    (.cons rfl (.cons rfl .nil)) egThirty _ hv 1 rfl (egThirty_free _)
  obtain ⟨d, μ'', k1, _, k3⟩ := C125_cells (· * ·) 1 (some 1) 100 (fun _ => 7) true false true [] [0] [] (by simp) (by simp) (by simp) [0] [111] (by simp) ⟨[⟨0, 111⟩, ⟨111, 1⟩], 50⟩
    (.cons rfl (.cons rfl .nil)) egThirty _ hv 1 rfl (egThirty_free _)
  exact ⟨c, μ', d, μ'', h1, h3, k1, k3⟩

/-- Two arrays of shape (3), at 40 and 41 in an array of arrays. The second one goes backwards. -/
def egArrays (p : Int) : Option View := if p = 40 then some ⟨[⟨3, 1⟩], 0⟩ else if p = 41 then some ⟨[⟨3, -2⟩], 20⟩ else none

example : ∃ c μ', foldArrays (· + ·) 0 (some 1) (some 100) (fun _ => 7) true false true [] [0] [] (nestedRefs egArrays ⟨[⟨2, 1⟩], 40⟩) egThirty = (.ok c, μ') ∧ μ' (address c.view [2]) = some 18 := by
  obtain ⟨c, μ', h1, _, h3⟩ := C125_nested (· + ·) 0 (some 1) 100 (fun _ => 7) true false true [] [0] [] (by simp) (by simp) (by simp) [2] [3] (by simp) (by simp) ⟨[⟨2, 1⟩], 40⟩ (.cons rfl .nil) egArrays egThirty
    (fun j k => if j = [0] then k.getD 0 0 else 20 - 2 * k.getD 0 0) (by
      intro j hj
      obtain ⟨x, rfl, h1, h2⟩ := valid_one.mp hj
      have : x = 0 ∨ x = 1 := by omega
      rcases this with rfl | rfl
      · refine ⟨⟨[⟨3, 1⟩], 0⟩, rfl, .cons rfl .nil, fun k hk => ?_⟩
        obtain ⟨y, rfl, h3, h4⟩ := valid_one.mp hk
        simp [address, dot, egThirty]
        omega
      · refine ⟨⟨[⟨3, -2⟩], 20⟩, rfl, .cons rfl .nil, fun k hk => ?_⟩
        obtain ⟨y, rfl, h3, h4⟩ := valid_one.mp hk
        simp [address, dot, egThirty]
        omega) (egThirty_free _)
  exact ⟨c, μ', h1, h3.elem [2] (mem_rowMajor.1 (by decide +kernel))⟩

/-- With none. -/
example : foldArrays (· + ·) 0 (some 1) (some 100) (fun _ => 7) true false true [] [0] [] (nestedRefs egArrays ⟨[⟨0, 1⟩], 42⟩) egThirty = (.error .ub, egThirty) :=
  C125_none (· + ·) 0 (some 1) (some 100) (fun _ => 7) true false true [] [0] [] ⟨[⟨0, 1⟩], 42⟩ egArrays egThirty rfl

/-- Two arrays of different shapes. -/
def egUneven (p : Int) : Option View := if p = 40 then some ⟨[⟨3, 1⟩], 0⟩ else if p = 41 then some ⟨[⟨2, 1⟩], 20⟩ else none

example : foldArrays (· + ·) 0 (some 1) (some 100) (fun _ => 7) true false true [] [0] [] (nestedRefs egUneven ⟨[⟨2, 1⟩], 40⟩) egThirty = (.error .check, egThirty) := by
  refine C125_reject (· + ·) 0 (some 1) 100 (fun _ => 7) true false true [] [0] [] (by simp) (by simp) (by simp) [2] [3] (by simp) (nestedRefs egUneven ⟨[⟨2, 1⟩], 40⟩) (show List.Forall₂ _ _ _ from .cons rfl .nil) egThirty
    ⟨⟨[⟨3, 1⟩], 0⟩, rfl, .cons rfl .nil⟩ (egThirty_free _) [[0]] [] [1] (by decide +kernel) ?_ [2] ⟨⟨[⟨2, 1⟩], 20⟩, rfl, .cons rfl .nil⟩ ?_
  · intro j hj
    rw [List.mem_singleton] at hj
    subst hj
    refine ⟨⟨[⟨3, 1⟩], 0⟩, rfl, .cons rfl .nil, fun k hk => ?_⟩
    obtain ⟨y, rfl, h3, h4⟩ := valid_one.mp hk
    simp [address, dot, egThirty]
    omega
  · rintro ⟨s, _, _, h⟩
    have h1 := (h 0 3).2 ⟨[some 3], by simp, rfl⟩
    have h2 := (h 0 2).2 ⟨[some 2], by simp, rfl⟩
    rw [h1] at h2
    cases h2

end Ra.Props
