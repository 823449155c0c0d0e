import Verif.Spec.Safe
import Verif.Props.Chain
/-!
# Specification for C98, for views

Operations on views that either are caught, or give elements of the view. What the elements are isn't considered.
-/

namespace Ra.Spec

/-- The operation is one of these. The view has shape `s`:
* it isn't allowed, in one of the ways that have to be caught (`OpFails`);
* it's one of those whose effect on the shape is known; for `reshape` and `ravel_free`, that may depend on whether the elements are in row-major order without gaps;
* it's one of those in C72 (`Covered`), for instance slices of views with unbounded axes, or `reshape` and `ravel_free` of any view that has no axis of length 1 or step 0; for `reverse`, the axis exists. -/
def OpSafe (s : List Length) (v : View) (op : ViewOp) : Prop :=
  OpFails s op ∨ (∃ t, opShape false s op = some t) ∨ (RowMajorSteps v.dims ∧ ∃ t, opShape true s op = some t) ∨ (Covered op v ∧ ∀ k, op = .reverse k → 0 ≤ k ∧ k < v.dims.length)

/-- Each of the operations is, for the view that it gets. -/
def OpsSafe : List ViewOp → View → Prop
  | [], _ => True
  | op :: ops, v => (∀ s, Shaped v s → OpSafe s v op) ∧ ∀ w, op.run v = .ok w → OpsSafe ops w

section
variable {V : Type}

mutual
/-- In the views in the expression, the operations are those. There aren't more array subscripts than axes. -/
def FExp.Safe (as : List Arr) : FExp V → Prop
  | .const _ => True
  | .index _ _ => True
  | .iota _ _ _ _ => True
  | .view i ops => ∀ a, as[i]? = some a → OpsSafe ops a.view
  | .gather _ i ops mask t => t ≠ [] ∧ FExp.Safes as t ∧ mask.count true = t.length ∧
    ∀ a, as[i]? = some a → OpsSafe ops a.view ∧ ∀ w, runOps ops a.view = .ok w → mask.length ≤ w.dims.length
  | .map _ _ t => t ≠ [] ∧ FExp.Safes as t
  | .pick _ t => t ≠ [] ∧ FExp.Safes as t
  | .fold _ _ e => FExp.Safe as e
def FExp.Safes (as : List Arr) : List (FExp V) → Prop
  | [] => True
  | e :: t => FExp.Safe as e ∧ FExp.Safes as t
end

/-- The same for the expressions of an operation. -/
def FCmd.Safe (as : List Arr) : FCmd V → Prop
  | .cmd _ => True
  | .assign d e => FExp.Safe as d ∧ FExp.Safe as e
  | .update _ d e => FExp.Safe as d ∧ FExp.Safe as e
  | .make _ _ _ e => FExp.Safe as e

/-- The same for some operations, one after the other, with the arrays that there are each time. -/
def FSafes (dyn : Bool) (z : List Int) : List (FCmd V) → List Arr → Mem V → Prop
  | [], _, _ => True
  | c :: cs, as, μ => FCmd.Safe as c ∧ ∀ as' μ', c.step dyn z as μ = (.ok (), as', μ') → FSafes dyn z cs as' μ'

/-- The same for programs that go on after a failure. -/
def FSafesAny (dyn : Bool) (z : List Int) : List (FCmd V) → List Arr → Mem V → Prop
  | [], _, _ => True
  | c :: cs, as, μ => FCmd.Safe as c ∧ ∀ r as' μ', c.step dyn z as μ = (r, as', μ') → FSafesAny dyn z cs as' μ'

end
end Ra.Spec
