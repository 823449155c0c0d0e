import Verif.Spec.Slice
import Verif.Spec.Index
import Verif.Model.MachineView
import Verif.Props.Chain
/-!
# Specification of views in an array of limited size

The types, the largest number, and (for sequences of operations) the operations on views without limits are used from the model.
-/

namespace Ra.Spec

/-- All the elements of a view of shape `s` are in the array with the addresses from `lo` to `lo + n - 1`. -/
def InStore (lo n : Int) (v : View) (s : List Nat) : Prop := ∀ j, Valid s j → lo ≤ address v j ∧ address v j < lo + n

/-- The number can be represented. -/
def Small (x : Int) : Prop := -dimMax - 1 ≤ x ∧ x ≤ dimMax

/-- For the range of `m` positions from `o` in steps of `st` of an axis: the number of positions, the distance from the first to the last, the last and the new step can all be represented, and if
there are no positions then the range begins at an element. -/
def RangeSmall (d : Dim) (m : Nat) (o st : Int) : Prop :=
  Small m ∧ Small (st * d.step) ∧ (m = 0 → 0 ≤ o ∧ o < d.len) ∧ (m ≠ 0 → Small ((m - 1) * st) ∧ Small (o + (m - 1) * st))

/-- The ranges among the subscripts are such. -/
def RangesSmall : List Dim → List Subscript → Prop
  | _, [] => True
  | ds, .at _ :: is => RangesSmall (ds.drop 1) is
  | [], .range _ _ _ :: _ => True
  | d :: ds, .range m o st :: is => RangeSmall d m o st ∧ RangesSmall ds is
  | ds, .keep k :: is => RangesSmall (ds.drop k) is
  | ds, .new _ :: is => RangesSmall ds is

/-- Product of the absolute values. -/
def absProd : List Int → Nat
  | [] => 1
  | x :: t => x.natAbs * absProd t

/-- What's needed so that the operation on a view of shape `s` doesn't overflow.
* `a(i ...)`: `RangesSmall`.
* `reverse`: each step can be multiplied by -1, and each length can be represented.
* `transpose`: the sum of the absolute values of the steps can be represented.
* `stencil`: the lengths of the view and those of the window can be represented.
* `ravel_free`: the size, and its product with each step, can be represented.
* `reshape`: the same, and also for the product of the new lengths, which aren't 0. -/
def OpSmall (s : List Nat) (v : View) : ViewOp → Prop
  | .slice is => ∃ js, is = js.map Props.write ∧ RangesSmall v.dims js
  | .reverse _ => ∀ d ∈ v.dims, d.len ≤ dimMax ∧ d.step.natAbs ≤ dimMax
  | .transpose _ => ((v.dims.map fun d => d.step.natAbs).sum : Nat) ≤ dimMax
  | .stencil lo hi => (∀ d ∈ v.dims, d.len ≤ dimMax) ∧ ∀ l ∈ lo, ∀ h ∈ hi, l + h + 1 ≤ dimMax
  | .ravel => size s ≤ dimMax ∧ ∀ d ∈ v.dims, d.step.natAbs * size s ≤ dimMax
  | .reshape t => 0 ∉ t ∧ size s ≤ dimMax ∧ absProd t ≤ dimMax ∧ ∀ d ∈ v.dims, d.step.natAbs * size s ≤ dimMax ∧ d.step.natAbs * absProd t ≤ dimMax

/-- Each of the operations is so, for the view that it gets, which has no empty axes and no unbounded axes. -/
def OpsSmall : List ViewOp → View → Prop
  | [], _ => True
  | op :: ops, v => (∀ d ∈ v.dims, 0 < d.len) ∧ (∀ s : List Nat, Shaped v (s.map some) → OpSmall s v op) ∧ ∀ w, op.run v = .ok w → OpsSmall ops w

/-- The numbers that are given to the operation can be represented. -/
def ArgsSmall : ViewOp → Prop
  | .slice is => ∃ js : List Subscript, is = js.map Props.write ∧ ∀ x ∈ js, (∀ i, x = .at i → Small i) ∧ ∀ m o st, x = .range m o st → Small m ∧ Small o ∧ Small st
  | .reverse k => Small k
  | .transpose ax => ∀ x ∈ ax, Small x
  | .stencil lo hi => (∀ x ∈ lo, Small x) ∧ ∀ x ∈ hi, Small x
  | .ravel => True
  | .reshape t => ∀ x ∈ t, Small x

/-- C100 as it should be, for one operation: with 64 bits, the result of an operation that should give a result or be caught is the same as with integers without limits. -/
def NoOverflowOp (lo n : Int) (v : View) (s : List Nat) (op : ViewOp) : Prop :=
  Shaped v (s.map some) → n ≤ dimMax → 0 ≤ n → InStore lo n v s → lo ≤ v.cp → v.cp ≤ lo + n → (∀ d ∈ v.dims, Small d.len ∧ Small d.step) → ArgsSmall op → op.run v ≠ .error .ub → op.runM lo n v = op.run v

end Ra.Spec
