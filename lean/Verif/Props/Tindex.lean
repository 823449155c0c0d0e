import Verif.Model.Tindex
import Verif.Props.Frame
import Verif.Props.Reduce
/-!
# C70: index placeholders
-/

namespace Ra.Props
open Spec

section
variable {m : Type → Type} {α : Type} [Monad m] [LawfulMonad m] [IndexLike α]

theorem hasShape_iotaUnb : HasShape (iotaUnb : Iter m α) [none] := .cons rfl .nil

omit [LawfulMonad m] in
theorem reframed_one (w : Nat) (s : List Length) (h : Reframed [w] [none] s) : s = List.replicate (w+1) none := by
  obtain ⟨_, h2, h3, h4, h5⟩ := h
  have hw := h2 w (by simp)
  have hl : s.length = w + 1 := by
    have := h3 (by rintro rfl; simp at hw)
    simp at this
    omega
  refine List.ext_getElem? fun k => ?_
  by_cases hk : k < w + 1
  · rw [List.getElem?_replicate_of_lt hk]
    by_cases he : k = w
    · subst he
      simpa using h4 0 k rfl
    · exact h5 k (by omega) (by simpa using he)
  · rw [List.getElem?_eq_none (by omega), List.getElem?_eq_none (by simp; omega)]

/-- C70. `_w` fits arguments with `w+1` axes or more of any length, and its element at `j` is `j[w]`. -/
theorem C70_index (w : Nat) : HasShape (tindex w : Iter m α) (List.replicate (w+1) none) ∧
    ∀ (j : List Int) (h : w < j.length), elem (tindex w : Iter m α) j = pure (ofIdx j[w]) := by
  constructor
  · obtain ⟨s, h1, h2⟩ := hasShape_reframe [w] (iotaUnb : Iter m α) [none] hasShape_iotaUnb rfl (by simp)
    rw [reframed_one w s h2] at h1
    exact h1
  · intro j h
    unfold tindex
    rw [elem_reframe [w] _ [none] hasShape_iotaUnb rfl j (by simpa using h)]
    simp [iotaUnb, elem, dot, List.getD_eq_getElem?_getD, h]

theorem hasShapes_tindex (ws : List Nat) : HasShapes (ws.map fun w => (tindex w : Iter m α)) (ws.map fun w => List.replicate (w+1) none) := by
  induction ws with
  | nil => rfl
  | cons w ws ih => exact ⟨_, _, rfl, (C70_index w).1, ih⟩

theorem elems_tindex (ws : List Nat) (j : List Int) (h : ∀ w ∈ ws, w < j.length) :
    elems (ws.map fun w => (tindex w : Iter m α)) j = ws.map fun w => pure (ofIdx (j.getD w 0)) := by
  induction ws with
  | nil => rfl
  | cons w ws ih =>
    have hw := h w (by simp)
    simp only [List.map_cons, elems, (C70_index w).2 j hw, ih fun w hw => h w (by simp [hw])]
    simp [List.getD_eq_getElem?_getD, hw]

/-- C70. In an expression with an argument of shape `s` and placeholders for axes that it has, the shape is `s`, and the placeholders give at `j` the entries of `j`. -/
theorem C70_map (op : List (m α) → m α) (a : Iter m α) (s : List Length) (h : HasShape a s) (ws : List Nat) (hw : ∀ w ∈ ws, w < s.length) :
    HasShape (.node op (a :: ws.map tindex)) s ∧
    ∀ j : List Int, j.length = s.length → elem (.node op (a :: ws.map tindex)) j = op (elem a j :: ws.map fun w => pure (ofIdx (j.getD w 0))) := by
  constructor
  · refine ⟨s :: ws.map fun w => List.replicate (w+1) none, ⟨_, _, rfl, h, hasShapes_tindex ws⟩, ?_, ⟨s, by simp, rfl⟩, ?_⟩
    · intro x hx
      simp only [List.mem_cons, List.mem_map] at hx
      rcases hx with rfl | ⟨w, hw', rfl⟩
      · exact Nat.le_refl _
      · have := hw w hw'
        simp; omega
    · intro k n
      constructor
      · intro hk
        exact ⟨s, by simp, hk⟩
      · rintro ⟨x, hx, hk⟩
        simp only [List.mem_cons, List.mem_map] at hx
        rcases hx with rfl | ⟨w, hw', rfl⟩
        · exact hk
        · rw [List.getElem?_replicate] at hk
          split at hk <;> simp at hk
  · intro j hj
    simp only [elem, elems]
    rw [elems_tindex ws j (by rw [hj]; exact hw)]

/-- C70. `for_each(f, a, _w ...)` calls `f` with each element of `a` and the entries of its index, in row-major order. -/
theorem C70_for_each {β : Type} [MonadFault m] (dyn : Bool) (f : List α → m α) (a : Iter m α) (s : List Nat) (h : HasShape a (s.map some)) (ws : List Nat) (hw : ∀ w ∈ ws, w < s.length) (z : List Int)
    (hz : ∀ i ∈ z, i = 0) :
    (do let _ ← ply (β := β) dyn never z (.node (mapOp f) (a :: ws.map tindex)); pure ())
      = forAll (fun j => do let x ← elem a j; f (x :: ws.map fun w => ofIdx (j.getD w 0))) (rowMajor s) := by
  obtain ⟨h1, h2⟩ := C70_map (mapOp f) a (s.map some) h ws (by simpa using hw)
  have e : (do let _ ← ply (β := β) dyn never z (.node (mapOp f) (a :: ws.map tindex)); pure ())
      = forAll (elem (.node (mapOp f) (a :: ws.map tindex))) (rowMajor s) := by
    simp only [ply_never dyn _ s h1 z hz, bind_assoc, pure_bind, bind_pure_unit]
  rw [e]
  refine forAll_congr fun j hj => ?_
  rw [h2 j (by simpa using (mem_rowMajor.mp hj).length)]
  have : ∀ l : List α, List.mapM id (l.map fun x => (pure x : m α)) = pure l := by
    intro l
    induction l with
    | nil => rfl
    | cons x l ih => simp [List.mapM_cons, ih]
  have e2 : (ws.map fun w => (pure (ofIdx (j.getD w 0)) : m α)) = (ws.map fun w => (ofIdx (j.getD w 0) : α)).map fun x => (pure x : m α) := by simp
  rw [e2]
  simp only [mapOp, List.mapM_cons, this, bind_assoc, pure_bind, id_eq]

open Classical in
/-- C70. `map(A, _w ...)` with as many placeholders as axes, in any order and with repetitions: the element at `j` is that of `A` at the entries of `j` that the placeholders say.
So `map(A, _1, _0)` is the transpose and `map(A, _0, _0)` the diagonal. -/
theorem C70_select [MonadFault m] (A : View) (s : List Nat) (hA : Shaped A (s.map some)) (rd : Int → m α) (ws : List Nat) (hl : ws.length = s.length) (j : List Int)
    (hj : ∀ w ∈ ws, w < j.length) :
    elem (mapView A rd (ws.map tindex)) j =
      if InRange (s.map some) (ws.map fun w => j.getD w 0) then rd (address A (ws.map fun w => j.getD w 0)) else fault .check := by
  have : ∀ l : List α, List.mapM id (l.map fun x => (pure x : m α)) = pure l := by
    intro l
    induction l with
    | nil => rfl
    | cons x l ih => simp [List.mapM_cons, ih]
  have e2 : (ws.map fun w => (pure (ofIdx (j.getD w 0)) : m α)) = (ws.map fun w => (ofIdx (j.getD w 0) : α)).map fun x => (pure x : m α) := by simp
  have e3 : ((ws.map fun w => (ofIdx (j.getD w 0) : α)).map toIdx) = ws.map fun w => j.getD w 0 := by
    simp [IndexLike.toIdx_ofIdx]
  have hE := elemAt_eq A s hA rd (ws.map fun w => j.getD w 0) (by simpa using hl)
  simp only [mapView, elem, elems_tindex ws j hj, e2, mapOp, this, pure_bind, e3]
  split
  · next h => exact hE.1 h
  · next h => exact hE.2 h

/-- The transpose of a 2x3 view. -/
example : elem (mapView (m := Except Fault) (α := Int) ex23 (fun a => .ok a) [tindex 1, tindex 0]) [2, 1] = .ok 5 := by
  have h := C70_select (m := Except Fault) (α := Int) ex23 [2, 3] (.cons rfl (.cons rfl .nil)) (fun a => .ok a) [1, 0] rfl [2, 1] (by simp)
  refine h.trans ?_
  rw [if_pos]
  · rfl
  · refine ⟨by simp, fun k n hk => ?_⟩
    rcases k with _ | _ | k <;> simp at hk <;> subst hk <;> simp

/-- `a + _1`. -/
example : elem (m := Except Fault) (α := Int) (.node (mapOp fun xs => pure xs.sum) (.cell [⟨2, 3⟩, ⟨3, 1⟩] 0 pure :: [1].map tindex)) [1, 2] = .ok 7 := by
  have h : HasShape (.cell [⟨2, 3⟩, ⟨3, 1⟩] 0 pure : Iter (Except Fault) Int) [some 2, some 3] := .cons rfl (.cons rfl .nil)
  rw [(C70_map _ _ [some 2, some 3] h [1] (by simp)).2 [1, 2] rfl]
  rfl

end
end Ra.Props
