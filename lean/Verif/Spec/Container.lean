import Verif.Spec.Memory
import Verif.Model.Array
/-!
# Specification of containers

Only the types are used from the model.
-/

namespace Ra.Spec

/-- The steps are row-major. The step of an axis whose cells have no elements doesn't matter. -/
def RowMajorSteps : List Dim → Prop
  | [] => True
  | d :: ds => (d.step = (ds.map Dim.len).prod ∨ (ds.map Dim.len).prod = 0) ∧ RowMajorSteps ds

/-- `a` is a container of shape `s`: it stores as many elements as the product of the lengths, in row-major order. -/
structure Container {V : Type} (a : Arr) (μ : Mem V) (s : List Nat) : Prop where
  lens : a.dims.map Dim.len = s.map Nat.cast
  steps : RowMajorSteps a.dims
  count : a.n = size s
  alloc : ∀ i : Nat, i < a.n → (μ (a.base + i)).isSome
  rank : ∀ r, a.rk = some r → s.length = r

/-- `p` is in the storage of `a`. -/
def Owns (a : Arr) (p : Int) : Prop := a.base ≤ p ∧ p < a.base + a.n

/-- A program that doesn't allocate or free memory, whether it fails or not. -/
def Keeps {V α : Type} (p : Act V α) : Prop := ∀ μ q, ((p μ).2 q).isSome = (μ q).isSome

end Ra.Spec
