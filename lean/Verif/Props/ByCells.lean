import Verif.Model.ByCells
import Verif.Props.AtView
import Verif.Props.ViewOps
import Verif.Props.Matrix
import Verif.Props.GemmLoops
import Verif.Props.Manual
import Verif.Props.Dot
/-!
# C122: assignments by cells
-/

namespace Ra.Spec

/-- `a` has the shape `t ++ r`, or only the first axes of it, but at least those in `t`. -/
def StartsAs (a : View) (t r : List Nat) : Prop := ∃ m, Shaped a ((t ++ r.take m).map some)

/-- What an assignment does with the element at `j`: read the arguments, apply the operation, read the old value if it's used, and write. -/
def elementStep {V : Type} (g : Option (V → V → V)) (f : List V → Act V V) (c : View) (as : List View) (j : List Int) : Act V Unit := do
  let xs ← as.mapM fun a => Act.read (address a j)
  let y ← f xs
  match g with
  | none => Act.write (address c j) y
  | some g => do
    let old ← Act.read (address c j)
    Act.write (address c j) (g old y)

end Ra.Spec

namespace Ra.Props
open Spec

section
variable {V : Type}

/-- The assignment of one element. -/
def putOp (g : Option (V → V → V)) : List (Lv V) → Act V (Lv V) := match g with
  | none => setOp
  | some g => updOp g

theorem longestShape (ss : List (List Length)) (h : ss ≠ []) : ∃ x ∈ ss, ∀ y ∈ ss, y.length ≤ x.length := by
  induction ss with
  | nil => exact absurd rfl h
  | cons a ss ih =>
    by_cases hs : ss = []
    · exact ⟨a, by simp, by simp [hs]⟩
    · obtain ⟨x, hx, hm⟩ := ih hs
      by_cases hc : a.length ≤ x.length
      · exact ⟨x, by simp [hx], fun y hy => by rcases List.mem_cons.1 hy with rfl | hy; exacts [hc, hm y hy]⟩
      · exact ⟨a, by simp, fun y hy => by rcases List.mem_cons.1 hy with rfl | hy; exacts [le_rfl, le_trans (hm y hy) (by omega)]⟩

theorem opOn_shape (f : List V → Act V V) {as : List View} {t r : List Nat} (ha : ∀ a ∈ as, StartsAs a t r) (hne : as ≠ []) :
    ∃ sx, HasShape (opOn f as) sx ∧ Merge [(t ++ r).map some, sx] ((t ++ r).map some) := by
  obtain ⟨ss, h1, h2, h3⟩ : ∃ ss, HasShapes (as.map (View.refs (V := V))) ss ∧ (as ≠ [] → ss ≠ []) ∧ ∀ x ∈ ss, ∃ n, x = ((t ++ r).map some).take n := by
    clear hne
    induction as with
    | nil => exact ⟨[], rfl, by simp, by simp⟩
    | cons a as ih =>
      obtain ⟨ss, h1, _, h3⟩ := ih fun b hb => ha b (by simp [hb])
      obtain ⟨m, hm⟩ := ha a (by simp)
      refine ⟨_ :: ss, ⟨_, _, rfl, refs_shape hm, h1⟩, by simp, ?_⟩
      intro x hx
      rcases List.mem_cons.1 hx with rfl | hx
      · exact ⟨t.length + m, by rw [← List.map_take, List.take_length_add_append]⟩
      · exact h3 x hx
  obtain ⟨x, hx, hmax⟩ := longestShape ss (h2 hne)
  have hpre : ∀ y ∈ ss, y.length ≤ ((t ++ r).map some).length ∧ ∀ (k n : Nat), y[k]? = some (some n) → ((t ++ r).map some)[k]? = some (some n) := by
    intro y hy
    obtain ⟨m, rfl⟩ := h3 y hy
    refine ⟨by simp, fun k n h => ?_⟩
    rw [List.getElem?_take] at h
    split at h
    · exact h
    · simp at h
  refine ⟨x, ⟨ss, h1, fun y hy => hmax y hy, ⟨x, hx, rfl⟩, fun k n => ⟨fun h => ⟨x, hx, h⟩, ?_⟩⟩, ?_, ⟨_, by simp, rfl⟩, fun k n => ⟨fun h => ⟨_, by simp, h⟩, ?_⟩⟩
  · rintro ⟨y, hy, h⟩
    have h4 := (hpre y hy).2 k n h
    obtain ⟨m, hm⟩ := h3 x hx
    have hk : k < x.length := lt_of_lt_of_le (List.getElem?_eq_some_iff.1 h).1 (hmax y hy)
    rw [hm] at hk ⊢
    rw [List.getElem?_take, if_pos (by simp at hk; omega)]
    exact h4
  · intro y hy
    simp only [List.mem_cons, List.not_mem_nil, or_false] at hy
    rcases hy with rfl | rfl
    · exact le_rfl
    · exact (hpre y hx).1
  · rintro ⟨y, hy, h⟩
    simp only [List.mem_cons, List.not_mem_nil, or_false] at hy
    rcases hy with rfl | rfl
    · exact h
    · exact (hpre y hx).2 k n h

theorem elem_opOn (f : List V → Act V V) (as : List View) (j : List Int) : elem (opOn f as) j = valOp f (as.map fun a => pure (.ref (address a j))) := by
  have h : ∀ as : List View, elems (as.map (View.refs (V := V))) j = as.map fun a => pure (.ref (address a j)) := by
    intro as
    induction as with
    | nil => rfl
    | cons a as ih => simp only [List.map_cons, elems, ih, elem_refs]
  simp only [opOn, elem, h]

theorem put_forAll (g : Option (V → V → V)) (dyn : Bool) (z : List Int) (hz : ∀ i ∈ z, i = 0) (c : View) (s : List Nat) (hc : Shaped c (s.map some)) (x : Iter (Act V) (Lv V)) (sx : List Length) (hx : HasShape x sx)
    (hm : Merge [s.map some, sx] (s.map some)) : put g dyn z c.refs x = forAll (fun j => mapOp (putOp g) [pure (.ref (address c j)), elem x j]) (rowMajor s) := by
  cases g with
  | none => exact run_forAll dyn z hz _ c.refs x _ sx s (refs_shape hc) hx hm
  | some g => exact run_forAll dyn z hz _ c.refs x _ sx s (refs_shape hc) hx hm

/-- The whole assignment goes through the elements in row-major order. -/
theorem whole_run (g : Option (V → V → V)) (f : List V → Act V V) (dyn : Bool) (z : List Int) (hz : ∀ i ∈ z, i = 0) (c : View) (as : List View) (t r : List Nat) (hc : Shaped c ((t ++ r).map some))
    (ha : ∀ a ∈ as, StartsAs a t r) (hne : as ≠ []) :
    wholePut g f dyn z c as = forAll (fun j => mapOp (putOp g) [pure (.ref (address c j)), valOp f (as.map fun a => pure (.ref (address a j)))]) (rowMajor (t ++ r)) := by
  obtain ⟨sx, hx, hm⟩ := opOn_shape f ha hne
  rw [wholePut, put_forAll g dyn z hz c _ hc _ sx hx hm]
  simp only [elem_opOn]

theorem forAll_congr' {ι β γ : Type} {F : ι → Act V β} {G : ι → Act V γ} {l : List ι} (h : ∀ i ∈ l, (F i >>= fun _ => pure ()) = (G i >>= fun _ => pure ())) : forAll F l = forAll G l := by
  induction l with
  | nil => rfl
  | cons a l ih =>
    have h1 := h a (by simp)
    simp only [forAll]
    rw [ih fun i hi => h i (by simp [hi])]
    have h2 := congrArg (fun x => x >>= fun _ => forAll G l) h1
    simpa only [bind_assoc, pure_bind] using h2

theorem step_eq (g : Option (V → V → V)) (f : List V → Act V V) (c : View) (as : List View) (j : List Int) :
    (mapOp (putOp g) [pure (.ref (address c j)), valOp f (as.map fun a => pure (.ref (address a j)))] >>= fun _ => pure ()) = (elementStep g f c as j >>= fun _ => pure ()) := by
  have h1 : ∀ as : List View, (as.map fun a => (pure (.ref (address a j)) : Act V (Lv V))).mapM id = pure (as.map fun a => .ref (address a j)) := by
    intro as
    induction as with
    | nil => rfl
    | cons a as ih => simp only [List.map_cons, List.mapM_cons, id_eq, ih, pure_bind]
  have h2 : ∀ as : List View, (as.map fun a => (.ref (address a j) : Lv V)).mapM Lv.get = as.mapM fun a => Act.read (address a j) := by
    intro as
    induction as with
    | nil => rfl
    | cons a as ih => simp only [List.map_cons, List.mapM_cons, ih, Lv.get]
  cases g <;> simp only [mapOp, valOp, h1, h2, List.mapM_cons, List.mapM_nil, id_eq, pure_bind, bind_assoc, putOp, setOp, updOp, Lv.get, elementStep]

/-- C122. The whole assignment takes the elements one by one in row-major order. -/
theorem C122_order (g : Option (V → V → V)) (f : List V → Act V V) (dyn : Bool) (z : List Int) (hz : ∀ i ∈ z, i = 0) (c : View) (as : List View) (t r : List Nat) (hc : Shaped c ((t ++ r).map some))
    (ha : ∀ a ∈ as, StartsAs a t r) (hne : as ≠ []) : wholePut g f dyn z c as = forAll (elementStep g f c as) (rowMajor (t ++ r)) := by
  rw [whole_run g f dyn z hz c as t r hc ha hne]
  exact forAll_congr' fun j _ => step_eq g f c as j

theorem nestLoops_eq (t : List Nat) (body : List Int → Act V Unit) : nestLoops (t.map Nat.cast) body = forAll body (rowMajor t) := by
  induction t generalizing body with
  | nil =>
    simp only [List.map_nil, nestLoops, rowMajor, forAll]
    exact bind_pure_unit.symm
  | cons n t ih =>
    simp only [List.map_cons, nestLoops, rowMajor]
    rw [forLoop_eq, forAll_flatMap]
    refine forAll_congr fun i _ => ?_
    rw [ih, forAll_map]

theorem mapM_ok {A B : Type} (F : A → Except Fault B) (R : A → B → Prop) (l : List A) (h : ∀ a ∈ l, ∃ b, F a = .ok b ∧ R a b) : ∃ bs, l.mapM F = .ok bs ∧ List.Forall₂ R l bs := by
  induction l with
  | nil => exact ⟨[], rfl, .nil⟩
  | cons a l ih =>
    obtain ⟨b, h1, h2⟩ := h a (by simp)
    obtain ⟨bs, h3, h4⟩ := ih fun c hc => h c (by simp [hc])
    refine ⟨b :: bs, ?_, .cons h2 h4⟩
    rw [List.mapM_cons, h1, h3]
    rfl

theorem rowMajor_frame (t r : List Nat) {β : Type} (F : List Int → Act V β) : forAll F (rowMajor (t ++ r)) = forAll (fun i => forAll (fun j => F (i ++ j)) (rowMajor r)) (rowMajor t) := by
  rw [rowMajor_append, forAll_flatMap]
  exact forAll_congr fun i _ => forAll_map _ _ _

/-- The cell of `a` at `i`. -/
def CellAt (r : List Nat) (i : List Int) (a w : View) : Prop := StartsAs w [] r ∧ ∀ j, Valid r j → address w j = address a (i ++ j)

theorem cellAt_map {r : List Nat} {i : List Int} {as ws : List View} (h : List.Forall₂ (CellAt r i) as ws) (j : List Int) (hj : Valid r j) :
    (ws.map fun w => (pure (.ref (address w j)) : Act V (Lv V))) = as.map fun a => pure (.ref (address a (i ++ j))) := by
  induction h with
  | nil => rfl
  | cons h _ ih => simp only [List.map_cons, ih, h.2 j hj]

theorem cellAt_starts {r : List Nat} {i : List Int} {as ws : List View} (h : List.Forall₂ (CellAt r i) as ws) : (∀ w ∈ ws, StartsAs w [] r) ∧ (as ≠ [] → ws ≠ []) := by
  induction h with
  | nil => exact ⟨by simp, by simp⟩
  | cons h _ ih => exact ⟨fun w hw => by rcases List.mem_cons.1 hw with rfl | hw; exacts [h.1, ih.1 w hw], by simp⟩

/-- The assignment of a cell. -/
theorem cell_run (g : Option (V → V → V)) (f : List V → Act V V) (dyn : Bool) (z : List Int) (hz : ∀ i ∈ z, i = 0) (c : View) (as : List View) (r : List Nat) (i : List Int) (c' : View) (ws : List View)
    (hc : Shaped c' (r.map some)) (hc' : ∀ j, Valid r j → address c' j = address c (i ++ j)) (ha : List.Forall₂ (CellAt r i) as ws) (hne : as ≠ []) :
    wholePut g f dyn z c' ws = forAll (fun j => mapOp (putOp g) [pure (.ref (address c (i ++ j))), valOp f (as.map fun a => pure (.ref (address a (i ++ j))))]) (rowMajor r) := by
  obtain ⟨h1, h2⟩ := cellAt_starts ha
  rw [whole_run g f dyn z hz c' ws [] r hc h1 (h2 hne)]
  refine forAll_congr fun j hj => ?_
  have hj' := mem_rowMajor.1 hj
  rw [hc' j hj', cellAt_map ha j hj']

theorem inRange_take {r : List Nat} {j : List Int} (h : Valid r j) (m : Nat) : InRange ((r.take m).map some) j := by
  obtain ⟨h1, h2⟩ := inRange_of_valid h
  refine ⟨by simp at h1 ⊢; omega, fun k n hk => h2 k n ?_⟩
  rw [List.map_take, List.getElem?_take] at hk
  split at hk
  · exact hk
  · simp at hk

/-- C122. The loops on the first axes do the same as the whole assignment, whatever the memory is and where the arrays are. -/
theorem C122_loops (g : Option (V → V → V)) (f : List V → Act V V) (dyn dyn' : Bool) (z z' : List Int) (hz : ∀ i ∈ z, i = 0) (hz' : ∀ i ∈ z', i = 0) (c : View) (as : List View) (t r : List Nat)
    (hc : Shaped c ((t ++ r).map some)) (ha : ∀ a ∈ as, StartsAs a t r) (hne : as ≠ []) : loopCells g f dyn' z' t.length c as = wholePut g f dyn z c as := by
  have hl : (c.dims.take t.length).map Dim.len = t.map Nat.cast := by
    have h1 := List.forall₂_take t.length hc
    rw [← List.map_take, List.take_left'  rfl] at h1
    generalize c.dims.take t.length = ds at h1
    clear hc ha
    induction t generalizing ds with
    | nil => cases h1; rfl
    | cons n t ih => cases h1 with | cons h2 h3 => rw [List.map_cons, List.map_cons, ih _ h3]; exact congrArg (· :: _) h2
  rw [loopCells, hl, nestLoops_eq, whole_run g f dyn z hz c as t r hc ha hne, rowMajor_frame]
  refine forAll_congr fun i hi => ?_
  have hi' := mem_rowMajor.1 hi
  have hil := length_of_valid hi'
  have hsc : ∀ (v : View) (m : Nat), Shaped v ((t ++ r.take m).map some) → ∃ w, v.from (i.map fun x => .scalar (.const x)) = .ok w ∧ Shaped w ((r.take m).map some) ∧ ∀ j, Valid r j → address w j = address v (i ++ j) := by
    intro v m hv
    obtain ⟨w, h1, h2, h3⟩ := C11_scalar v (t ++ r.take m) hv i (by simp; omega) (by
      intro k hk
      have := (inRange_of_valid hi').2 k (t.getD k 0) (by
        rw [List.getElem?_map, List.getElem?_eq_getElem (by omega)]
        simp [List.getD, List.getElem?_eq_getElem (show k < t.length by omega)])
      rw [List.getD, List.getElem?_eq_getElem hk] at this
      simp only [Option.getD_some] at this
      rw [List.getD, List.getElem?_append_left (by omega)]
      exact this)
    rw [hil, List.drop_left' rfl] at h2 h3
    exact ⟨w, h1, h2, fun j hj => h3 j (inRange_take hj m)⟩
  obtain ⟨c', h1, h2, h3⟩ := hsc c r.length (by rw [List.take_length]; exact hc)
  obtain ⟨ws, h4, h5⟩ := mapM_ok (fun a : View => a.from (i.map fun x => .scalar (.const x))) (CellAt r i) as (by
    intro a haa
    obtain ⟨m, hm⟩ := ha a haa
    obtain ⟨w, k1, k2, k3⟩ := hsc a m hm
    exact ⟨w, k1, ⟨m, k2⟩, k3⟩)
  rw [List.take_length] at h2
  rw [← cell_run g f dyn' z' hz' c as r i c' ws h2 h3 h5 hne]
  funext μ
  rw [cellPutAt, lift_bind h1, lift_bind h4]

theorem cells_iter (v : View) (t u : List Nat) (hv : Shaped v ((t ++ u).map some)) (ht : t ≠ []) :
    ∃ e : Iter (Act V) (Lv V), v.cells (-(t.length : Int)) = .ok e ∧ HasShape e (t.map some) ∧ ∀ i, i.length = t.length → ∃ w, elem e i = pure (.view w) ∧ Shaped w (u.map some) ∧ ∀ j, address w j = address v (i ++ j) := by
  have hl := hv.length_eq
  simp only [List.length_map, List.length_append] at hl
  have htl := List.length_pos_iff.2 ht
  have hcell : v.cell (-(t.length : Int)) = .ok (v.dims.take t.length, v.dims.drop t.length) := by
    have e : rankCell v.dims.length (-(t.length : Int)) = (v.dims.length : Int) - t.length := by
      simp only [rankCell]
      rw [if_neg (by omega)]
      omega
    simp only [View.cell, e]
    rw [if_neg (by omega), if_pos (by omega)]
    simp
  refine ⟨.cell (v.dims.take t.length) v.cp fun p => pure (.view ⟨v.dims.drop t.length, p⟩), by simp only [View.cells, hcell]; rfl, ?_, fun i hi => ⟨_, rfl, ?_, fun j => ?_⟩⟩
  · have := List.forall₂_take t.length hv
    rwa [← List.map_take, List.take_left' rfl] at this
  · have := List.forall₂_drop t.length hv
    rwa [← List.map_drop, List.drop_left' rfl] at this
  · simp only [address]
    conv_rhs => rw [← List.take_append_drop t.length v.dims, List.map_append]
    rw [dot_append _ _ _ _ (by simp; omega)]
    ring

theorem viewsOf_map (ws : List View) : viewsOf (ws.map fun w => (.view w : Lv V)) = some ws := by
  induction ws with
  | nil => rfl
  | cons w ws ih => simp only [List.map_cons, viewsOf, ih, Option.map_some]

theorem mapM_pure_views (ws : List View) : (ws.map fun w => (pure (.view w) : Act V (Lv V))).mapM id = pure (ws.map fun w => .view w) := by
  induction ws with
  | nil => rfl
  | cons w ws ih => simp only [List.map_cons, List.mapM_cons, id_eq, ih, pure_bind]

/-- What `iter<-k>` gives for the array `a`. -/
def IterOf (t r : List Nat) (a : View) (e : Iter (Act V) (Lv V)) : Prop := HasShape e (t.map some) ∧ ∀ i, i.length = t.length → ∃ w, elem e i = pure (.view w) ∧ CellAt r i a w

theorem iters_elems {t r : List Nat} {as : List View} {es : List (Iter (Act V) (Lv V))} (h : List.Forall₂ (IterOf t r) as es) :
    HasShapes es (es.map fun _ => t.map some) ∧ ∀ i, i.length = t.length → ∃ ws, elems es i = (ws.map fun w => pure (.view w)) ∧ List.Forall₂ (CellAt r i) as ws := by
  induction h with
  | nil => exact ⟨rfl, fun i _ => ⟨[], rfl, .nil⟩⟩
  | cons h _ ih =>
    refine ⟨⟨_, _, rfl, h.1, ih.1⟩, fun i hi => ?_⟩
    obtain ⟨w, h1, h2⟩ := h.2 i hi
    obtain ⟨ws, h3, h4⟩ := ih.2 i hi
    exact ⟨w :: ws, by simp only [elems, h1, h3, List.map_cons], .cons h2 h4⟩

/-- C122. `for_each` on the cells does the same as the whole assignment, whatever the memory is and where the arrays are. -/
theorem C122_each (g : Option (V → V → V)) (f : List V → Act V V) (dyn dyn1 dyn' : Bool) (z z1 z' : List Int) (hz : ∀ i ∈ z, i = 0) (hz1 : ∀ i ∈ z1, i = 0) (hz' : ∀ i ∈ z', i = 0) (c : View) (as : List View)
    (t r : List Nat) (ht : t ≠ []) (hc : Shaped c ((t ++ r).map some)) (ha : ∀ a ∈ as, StartsAs a t r) (hne : as ≠ []) : eachCells g f dyn1 z1 dyn' z' (-(t.length : Int)) c as = wholePut g f dyn z c as := by
  obtain ⟨e, h1, h2, h3⟩ := cells_iter (V := V) c t r hc ht
  obtain ⟨es, h4, h5⟩ := mapM_ok (fun a : View => a.cells (V := V) (-(t.length : Int))) (IterOf t r) as (by
    intro a haa
    obtain ⟨m, hm⟩ := ha a haa
    obtain ⟨e, k1, k2, k3⟩ := cells_iter (V := V) a t (r.take m) hm ht
    refine ⟨e, k1, k2, fun i hi => ?_⟩
    obtain ⟨w, k4, k5, k6⟩ := k3 i hi
    exact ⟨w, k4, ⟨m, k5⟩, fun j _ => k6 j⟩)
  obtain ⟨h6, h7⟩ := iters_elems h5
  have hsh : HasShape (.node (mapOp (cellBody g f dyn' z')) (e :: es)) (t.map some) := by
    refine ⟨t.map some :: es.map fun _ => t.map some, ⟨_, _, rfl, h2, h6⟩, ?_, ⟨_, by simp, rfl⟩, fun k n => ⟨fun h => ⟨_, by simp, h⟩, ?_⟩⟩
    · intro x hx
      rcases List.mem_cons.1 hx with rfl | hx
      · exact le_rfl
      · obtain ⟨_, _, rfl⟩ := List.mem_map.1 hx
        exact le_rfl
    · rintro ⟨x, hx, h⟩
      rcases List.mem_cons.1 hx with rfl | hx
      · exact h
      · obtain ⟨_, _, rfl⟩ := List.mem_map.1 hx
        exact h
  have key : (do let _ ← ply (β := Unit) dyn1 never z1 (.node (mapOp (cellBody g f dyn' z')) (e :: es)); pure () : Act V Unit) = wholePut g f dyn z c as := by
    rw [ply_forAll dyn1 z1 hz1 _ t hsh, whole_run g f dyn z hz c as t r hc ha hne, rowMajor_frame]
    refine forAll_congr' fun i hi => ?_
    have hil := length_of_valid (mem_rowMajor.1 hi)
    obtain ⟨c', k1, k2, k3⟩ := h3 i hil
    obtain ⟨ws, k4, k5⟩ := h7 i hil
    rw [← cell_run g f dyn' z' hz' c as r i c' ws k2 (fun j _ => k3 j) k5 hne]
    simp only [elem, elems, k1, k4, mapOp]
    rw [← List.map_cons (f := fun w => (pure (.view w) : Act V (Lv V))), mapM_pure_views]
    simp only [pure_bind, List.map_cons, cellBody, viewsOf_map, bind_assoc]
  funext μ
  rw [eachCells, lift_bind h1, lift_bind h4, key]

end
/-! ## Cases -/

/-- Numbers at 0 to 9. -/
def egTen : Mem Int := fun p => if 0 ≤ p ∧ p < 10 then some p else none

/-- The sum of the arguments. -/
def egAdd (xs : List Int) : Act Int Int := pure xs.sum

/-- `c` is a matrix at 2 and `a` is one at 0, so each row of `c` but the last is a row of `a`; `b` is a vector, with a number for each row. The result of one row is used in the next, with all three. -/
example : loopCells none egAdd false [] 1 ⟨[⟨3, 2⟩, ⟨2, 1⟩], 2⟩ [⟨[⟨3, 2⟩, ⟨2, 1⟩], 0⟩, ⟨[⟨3, 1⟩], 7⟩] = wholePut none egAdd true [0] ⟨[⟨3, 2⟩, ⟨2, 1⟩], 2⟩ [⟨[⟨3, 2⟩, ⟨2, 1⟩], 0⟩, ⟨[⟨3, 1⟩], 7⟩] ∧
    eachCells none egAdd true [0] false [] (-1) ⟨[⟨3, 2⟩, ⟨2, 1⟩], 2⟩ [⟨[⟨3, 2⟩, ⟨2, 1⟩], 0⟩, ⟨[⟨3, 1⟩], 7⟩] = wholePut none egAdd true [0] ⟨[⟨3, 2⟩, ⟨2, 1⟩], 2⟩ [⟨[⟨3, 2⟩, ⟨2, 1⟩], 0⟩, ⟨[⟨3, 1⟩], 7⟩] := by
  have ha : ∀ a ∈ [(⟨[⟨3, 2⟩, ⟨2, 1⟩], 0⟩ : View), ⟨[⟨3, 1⟩], 7⟩], StartsAs a [3] [2] := by
    intro a ha
    simp only [List.mem_cons, List.not_mem_nil, or_false] at ha
    rcases ha with rfl | rfl
    · exact ⟨1, .cons rfl (.cons rfl .nil)⟩
    · exact ⟨0, .cons rfl .nil⟩
  exact ⟨C122_loops none egAdd true false [0] [] (by simp) (by simp) _ _ [3] [2] (.cons rfl (.cons rfl .nil)) ha (by simp),
    C122_each none egAdd true true false [0] [0] [] (by simp) (by simp) (by simp) _ _ [3] [2] (by simp) (.cons rfl (.cons rfl .nil)) ha (by simp)⟩

example : wholePut (some (· * ·)) egAdd true [0] ⟨[⟨3, 2⟩, ⟨2, 1⟩], 2⟩ [⟨[⟨3, 2⟩, ⟨2, 1⟩], 0⟩] = forAll (elementStep (some (· * ·)) egAdd ⟨[⟨3, 2⟩, ⟨2, 1⟩], 2⟩ [⟨[⟨3, 2⟩, ⟨2, 1⟩], 0⟩]) (rowMajor [3, 2]) :=
  C122_order _ _ true [0] (by simp) _ _ [3] [2] (.cons rfl (.cons rfl .nil)) (fun a ha => by rw [List.mem_singleton.1 ha]; exact ⟨1, .cons rfl (.cons rfl .nil)⟩) (by simp)

example : ∀ way ∈ [wholePut none egAdd true [0] ⟨[⟨3, 2⟩, ⟨2, 1⟩], 2⟩ [⟨[⟨3, 2⟩, ⟨2, 1⟩], 0⟩, ⟨[⟨3, 1⟩], 7⟩], loopCells none egAdd false [] 1 ⟨[⟨3, 2⟩, ⟨2, 1⟩], 2⟩ [⟨[⟨3, 2⟩, ⟨2, 1⟩], 0⟩, ⟨[⟨3, 1⟩], 7⟩],
      loopCells none egAdd false [] 0 ⟨[⟨3, 2⟩, ⟨2, 1⟩], 2⟩ [⟨[⟨3, 2⟩, ⟨2, 1⟩], 0⟩, ⟨[⟨3, 1⟩], 7⟩], eachCells none egAdd true [0] false [] (-1) ⟨[⟨3, 2⟩, ⟨2, 1⟩], 2⟩ [⟨[⟨3, 2⟩, ⟨2, 1⟩], 0⟩, ⟨[⟨3, 1⟩], 7⟩]],
    (List.range 10).map (fun p => (way egTen).2 (p : Nat)) = [0, 1, 7, 8, 15, 16, 24, 25, 8, 9].map fun x : Int => some x := by
  decide +kernel

/-- The loop goes by the length of `c`. If `a` is longer then the whole assignment fails and the loop doesn't, and if it's shorter then the loop fails after some rows. -/
example : (wholePut none egAdd true [0] ⟨[⟨2, 1⟩], 5⟩ [⟨[⟨3, 1⟩], 0⟩] egTen).1 = .error .check ∧ (loopCells none egAdd true [0] 1 ⟨[⟨2, 1⟩], 5⟩ [⟨[⟨3, 1⟩], 0⟩] egTen).1 = .ok () ∧
    (eachCells none egAdd true [0] true [0] (-1) ⟨[⟨2, 1⟩], 5⟩ [⟨[⟨3, 1⟩], 0⟩] egTen).1 = .error .check ∧
    (loopCells none egAdd true [0] 1 ⟨[⟨3, 1⟩], 5⟩ [⟨[⟨2, 1⟩], 0⟩] egTen).1 = .error .check ∧ (loopCells none egAdd true [0] 1 ⟨[⟨3, 1⟩], 5⟩ [⟨[⟨2, 1⟩], 0⟩] egTen).2 6 = some 1 := by
  decide +kernel

end Ra.Props
