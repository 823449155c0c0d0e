import Verif.Spec.Elem
import Verif.Model.From
/-!
# Specification of views and slices

Only the types are used from the model.
-/

namespace Ra.Spec

/-- Address of the element of a view at index `j`. `elem` of a view iterator reads there (see `Spec.elem`). -/
def address (v : View) (j : List Int) : Int := v.cp + dot (v.dims.map Dim.step) j

/-- Shape of a view. -/
def Shaped (v : View) (s : List Length) : Prop := List.Forall₂ DimLen v.dims s

/-- `j` is an index for the shape `s`: it has an entry for each axis, and those for the finite axes are in range. There may be more entries. -/
def InRange (s : List Length) (j : List Int) : Prop :=
  s.length ≤ j.length ∧ ∀ (k n : Nat), s[k]? = some (some n) → 0 ≤ j.getD k 0 ∧ j.getD k 0 < n

/-- Subscripts: an integer; `n` positions from `o` in steps of `s`; keep `k` axes as they are; put in `k` new axes. -/
inductive Subscript where
  | at (i : Int)
  | range (n : Nat) (o s : Int)
  | keep (k : Nat)
  | new (k : Nat)

/-- How many axes of the source the subscripts refer to. -/
def axes : List Subscript → Nat
  | [] => 0
  | .at _ :: is => 1 + axes is
  | .range _ _ _ :: is => 1 + axes is
  | .keep k :: is => k + axes is
  | .new _ :: is => axes is

/-- How many axes of the result come from the subscripts. -/
def made : List Subscript → Nat
  | [] => 0
  | .at _ :: is => made is
  | .range _ _ _ :: is => 1 + made is
  | .keep k :: is => k + made is
  | .new k :: is => k + made is

/-- Shape of a slice. -/
def sliceShape (s : List Length) : List Subscript → List Length
  | [] => s
  | .at _ :: is => sliceShape (s.drop 1) is
  | .range n _ _ :: is => some n :: sliceShape (s.drop 1) is
  | .keep k :: is => s.take k ++ sliceShape (s.drop k) is
  | .new k :: is => List.replicate k none ++ sliceShape s is

/-- The index in the source of the element of the slice at `j`. -/
def sliceIndex : List Subscript → List Int → List Int
  | [], j => j
  | .at i :: is, j => i :: sliceIndex is j
  | .range _ o s :: is, j => (o + s * j.headD 0) :: sliceIndex is (j.drop 1)
  | .keep k :: is, j => j.take k ++ sliceIndex is (j.drop k)
  | .new k :: is, j => sliceIndex is (j.drop k)

/-- When a slice exists: integers are in range and all the positions of a range are in range. An unbounded axis takes any integer if it's constant
along that axis (step 0). -/
def Accepts : List Dim → List Subscript → Prop
  | _, [] => True
  | [], .at _ :: _ => False
  | [], .range _ _ _ :: _ => False
  | d :: ds, .at i :: is => ((0 ≤ i ∧ i < d.len) ∨ (d.len = UNB ∧ d.step = 0)) ∧ Accepts ds is
  | d :: ds, .range n o s :: is => (∀ k : Nat, k < n → 0 ≤ o + s * k ∧ o + s * k < d.len) ∧ Accepts ds is
  | ds, .keep k :: is => Accepts (ds.drop k) is
  | ds, .new _ :: is => Accepts ds is

end Ra.Spec
