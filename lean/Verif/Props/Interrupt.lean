import Verif.Props.Crash
import Verif.Props.Fill
/-!
# C56: constructions that fail

A constructor that throws after its storage was taken gives it back.
-/

namespace Ra.Props
open Spec

section
variable {V : Type}

/-- C56. `Array(s, x)` when the shape of `x` doesn't match `s`: the check fails, and the memory is as it was. -/
theorem C56_mismatch (rk : Option Nat) (b : Int) (fill : Nat → V) (dyn : Bool) (z : List Int) (t : List Nat) (hr : ∀ r, rk = some r → t.length = r)
    (e : Iter (Act V) (Lv V)) (se : List Length) (he : HasShape e se) (hm : ¬ ∃ s : List Nat, Merge [t.map some, se] (s.map some)) (μ : Mem V) (hf : Free μ b (size t)) :
    Arr.ofExpr rk (some b) fill dyn z (t.map Nat.cast) e μ = (.error .check, μ) := by
  refine andDo_error hr hf ?_
  intro a μ1 hc _ _
  exact ⟨μ1, (C27_reject dyn z _ e _ _ (refs_shape (v := a.view) (shaped_nat.mpr hc.lens)) he hm μ1 (fun x _ => x)).1, fun _ _ => rfl⟩

/-- C56. `Array(s, x)`, with a shape of `x` that fits, when the element of `x` at `j0` can't be evaluated (it throws, or a check fails): that's the result, and the memory is as it was,
so the storage of the array isn't lost. -/
theorem C56_interrupted (rk : Option Nat) (b : Int) (fill : Nat → V) (dyn : Bool) (z : List Int) (hz : ∀ i ∈ z, i = 0) (t : List Nat) (hr : ∀ r, rk = some r → t.length = r)
    (e : Iter (Act V) (Lv V)) (se : List Length) (he : HasShape e se) (hm : Merge [t.map some, se] (t.map some)) (f : List Int → V) (μ : Mem V) (hf : Free μ b (size t))
    (j0 : List Int) (hj0 : Valid t j0) (err : Fault)
    (hv : ∀ j, Valid t j → Before t j j0 → ∀ μ', SameOutside (fun p => μ p = none) μ μ' → Reads μ' (elem e j) (f j))
    (hx : ∀ μ', SameOutside (fun p => μ p = none) μ μ' → Fails μ' (elem e j0) err) :
    Arr.ofExpr rk (some b) fill dyn z (t.map Nat.cast) e μ = (.error err, μ) := by
  refine andDo_error hr hf ?_
  intro a μ1 hc hs hfr
  have key : ∀ j μ', SameOutside (fun p => ∃ k, Valid t k ∧ Before t k j ∧ p = address a.view k) μ1 μ' → SameOutside (fun p => μ p = none) μ μ' := by
    intro j μ' h p hp
    rw [h p ?_, hs p hp]
    rintro ⟨k, hk, _, rfl⟩
    exact hp (hfr _ (container_owns hc hk))
  obtain ⟨μ2, h1, _, h3⟩ := C64_assign dyn z hz a.view.refs e t se (refs_shape (v := a.view) (shaped_nat.mpr hc.lens)) he hm μ1 (address a.view) f
    (container_distinct hc) (fun j hj => container_mem hc hj) j0 hj0 err (fun j _ μ' _ => refers_refs μ' a.view j)
    (fun j hj hb μ' h => hv j hj hb μ' (key j μ' h)) (fun μ' h => hx μ' (key j0 μ' h))
  refine ⟨μ2, h1, ?_⟩
  intro p hp
  refine h3 p ?_
  rintro ⟨j, hj, _, rfl⟩
  exact hp ⟨j, hj, rfl⟩

/-- C56. `concrete(e)` when the element of `e` at `j0` can't be evaluated. -/
theorem C56_big_interrupted (rk : Option Nat) (b : Int) (fill : Nat → V) (dyn : Bool) (z : List Int) (hz : ∀ i ∈ z, i = 0) (e : Iter (Act V) (Lv V)) (s : List Nat)
    (hr : ∀ r, rk = some r → s.length = r) (he : HasShape e (s.map some)) (f : List Int → V) (μ : Mem V) (hf : Free μ b (size s)) (j0 : List Int) (hj0 : Valid s j0) (err : Fault)
    (hv : ∀ j, Valid s j → Before s j j0 → ∀ μ', SameOutside (fun p => μ p = none) μ μ' → Reads μ' (elem e j) (f j))
    (hx : ∀ μ', SameOutside (fun p => μ p = none) μ μ' → Fails μ' (elem e j0) err) :
    concreteBig rk (some b) fill dyn z e μ = (.error err, μ) := by
  unfold concreteBig
  rw [shape_cast he]
  exact C56_interrupted rk b fill dyn z hz s hr e _ he (merge_same _) f μ hf j0 hj0 err hv hx

end

theorem fall_keeps_free {μ' : Mem Int} (hμ : SameOutside (fun p => egMem p = none) egMem μ') (a : Int) (ha : 0 ≤ a ∧ a < 2) : μ' (4 + a) = some (4 + a) := by
  rw [hμ]
  · simp [egMem]; omega
  · simp [egMem]; omega

/-- `Array({2}, x)` and `concrete(x)`, where `x` is an expression on the view `pairV` that throws at element 1. -/
example : Arr.ofExpr (some 1) (some 100) (fun _ => 0) true [] [2] (.node fallOp [pairV.refs]) egMem = (.error .check, egMem) :=
  C56_interrupted (some 1) 100 _ true [] (by simp) [2] (by simp) (.node fallOp [pairV.refs]) [some 2] (shape_one (refs_shape (v := pairV) (.cons rfl .nil))) (merge_same _) (fun _ => 4) egMem
    (by intro i hi; simp [egMem]; omega) [1] (by simp [Valid]) .check
    (by
      intro j hj hb μ' hμ
      rcases fall_valid hj with rfl | rfl
      · exact fall_elem μ' 0 4 (fall_keeps_free hμ 0 (by omega))
      · exact absurd hb (lt_irrefl _))
    (fun μ' hμ => fall_elem μ' 1 5 (fall_keeps_free hμ 1 (by omega)))
/-- `Array({3}, x)` for the same `x`, of shape {2}. -/
example : Arr.ofExpr (some 1) (some 100) (fun _ => 0) true [] [3] (.node fallOp [pairV.refs]) egMem = (.error .check, egMem) :=
  C56_mismatch (some 1) 100 _ true [] [3] (by simp) (.node fallOp [pairV.refs]) [some 2] (shape_one (refs_shape (v := pairV) (.cons rfl .nil)))
    (by
      rintro ⟨s, hs⟩
      exact merge_len (by decide) _ hs) egMem (by intro i hi; simp [egMem]; omega)

end Ra.Props
