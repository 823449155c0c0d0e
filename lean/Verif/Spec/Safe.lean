import Verif.Spec.Full
import Verif.Props.CaughtFull
/-!
# Specification for C98

Operations on views that aren't allowed, and that have to be caught.
-/

namespace Ra.Spec

/-- The operation isn't allowed for a view of shape `s`:
* a subscript is out of range, where there aren't more subscripts than axes. Unbounded axes aren't considered;
* an unbounded axis can't be reversed;
* there must be a destination for each axis;
* the bounds of a stencil can't be negative, or more or less than the axes, and the window has to fit;
* a shape that needs more elements than there are, other than to repeat them. -/
def OpFails (s : List Length) : ViewOp → Prop
  | .slice is => ∃ js, subscripts is = some js ∧ axes js ≤ s.length ∧ none ∉ s ∧ inBounds s js = false
  | .reverse k => 0 ≤ k ∧ s[k.toNat]? = some none
  | .transpose ax => (∀ a ∈ ax, 0 ≤ a) ∧ ax.length ≠ s.length
  | .stencil lo hi => (∃ x ∈ lo, x < 0) ∨ (∃ x ∈ hi, x < 0) ∨ lo.length ≠ s.length ∨ hi.length ≠ s.length ∨
    ∃ (k n : Nat), s[k]? = some (some n) ∧ (n : Int) < lo.getD k 0 + hi.getD k 0
  | .reshape t => ∃ s' t', finite s = some s' ∧ naturals t = some t' ∧ ¬ t' <:+ s' ∧ ¬ s' <:+ t' ∧ size s' < size t'
  | .ravel => False

/-- One of the operations isn't allowed, and those before it are those that are considered in `opsShape`. -/
def OpsFail : Bool → List Length → List ViewOp → Prop
  | _, _, [] => False
  | whole, s, op :: ops => OpFails s op ∨ ∃ t, opShape whole s op = some t ∧ OpsFail (whole && staysWhole s op) t ops

section
variable {V : Type}

mutual
/-- As `FExp.Good`, but there may also be operations on views that aren't allowed. -/
def FExp.Known (vs : List (Value V)) : FExp V → Prop
  | .const _ => True
  | .index _ _ => True
  | .iota _ _ _ _ => True
  | .view i ops => ∃ v, vs[i]? = some v ∧ ((∃ s, opsShape true (v.shape.map some) ops = some s) ∨ OpsFail true (v.shape.map some) ops)
  | .gather _ i ops mask t => t ≠ [] ∧ FExp.Knowns vs t ∧ mask.count true = t.length ∧ ∃ v, vs[i]? = some v ∧
    ((∃ b : List Nat, opsShape true (v.shape.map some) ops = some (b.map some) ∧ mask.length ≤ b.length) ∨ OpsFail true (v.shape.map some) ops)
  | .map _ cranks t => t ≠ [] ∧ FExp.Knowns vs t ∧ (FExp.Goods vs t → Fit cranks (FExp.ranks vs t))
  | .pick _ t => t ≠ [] ∧ FExp.Knowns vs t
  | .fold _ _ e => FExp.Known vs e
def FExp.Knowns (vs : List (Value V)) : List (FExp V) → Prop
  | [] => True
  | e :: t => FExp.Known vs e ∧ FExp.Knowns vs t
end

/-- The same for the expressions of an operation. -/
def FCmd.Known (vs : List (Value V)) : FCmd V → Prop
  | .cmd _ => True
  | .assign d e => FExp.Places d ∧ FExp.Known vs d ∧ FExp.Known vs e
  | .update _ d e => FExp.Places d ∧ FExp.Known vs d ∧ FExp.Known vs e
  | .make _ _ _ e => FExp.Known vs e

/-- The same for some operations, one after the other. -/
def FKnowns : List (FCmd V) → List (Value V) → Prop
  | [], _ => True
  | c :: cs, vs => FCmd.Known vs c ∧ ∀ vs', FCmd.Effect vs c vs' → FKnowns cs vs'

/-- The same for programs that go on after a failure. -/
def FKnownsAny : List (FCmd V) → List (Value V) → Prop
  | [], _ => True
  | c :: cs, vs => FCmd.Known vs c ∧ ∀ vs', FCmd.Effect vs c vs' ∨ FCmd.Fails vs c vs' → FKnownsAny cs vs'

end
end Ra.Spec
