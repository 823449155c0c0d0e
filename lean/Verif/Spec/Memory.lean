import Verif.Spec.Index
import Verif.Spec.Slice
import Verif.Model.Assign
/-!
# Specification of memory contents

Only the types and the primitive actions on memory are used from the model.
-/

namespace Ra.Spec

section
variable {V : Type}

/-- In memory `μ`, `e` has the value `x`, and to find it doesn't change the memory. -/
def Reads (μ : Mem V) (e : Act V (Lv V)) (x : V) : Prop := (do let r ← e; r.get) μ = (.ok x, μ)

/-- In memory `μ`, `e` is a reference to the address `p`, and to find it doesn't change the memory. -/
def Refers (μ : Mem V) (e : Act V (Lv V)) (p : Int) : Prop := e μ = (.ok (.ref p), μ)

/-- The memories are the same, except perhaps at the addresses in `X`. -/
def SameOutside (X : Int → Prop) (μ μ' : Mem V) : Prop := ∀ p, ¬ X p → μ' p = μ p

/-- `a` has shape `s`, and its elements have the values `f` as long as the memory is the same as `μ`, except perhaps at the addresses in `X`. -/
def Values (X : Int → Prop) (μ : Mem V) (a : Iter (Act V) (Lv V)) (s : List Nat) (f : List Int → V) : Prop :=
  HasShape a (s.map some) ∧ ∀ j, Valid s j → ∃ r, ∀ μ', SameOutside X μ μ' → elem a j μ' = (.ok r, μ') ∧ r.get μ' = (.ok (f j), μ')

/-- `c` has shape `s`, and its elements are references to the addresses `A`, all different, as long as the memory is the same as `μ` except perhaps at those addresses. -/
def Places (μ : Mem V) (c : Iter (Act V) (Lv V)) (s : List Nat) (A : List Int → Int) : Prop :=
  HasShape c (s.map some) ∧ (∀ j k, Valid s j → Valid s k → A j = A k → j = k) ∧
  ∀ j, Valid s j → ∀ μ', SameOutside (fun p => ∃ k, Valid s k ∧ p = A k) μ μ' → Refers μ' (elem c j) (A j)

/-- The view doesn't have the same element at two indices. -/
def Distinct (v : View) (s : List Nat) : Prop := ∀ j k, Valid s j → Valid s k → address v j = address v k → j = k

/-- `p` is the address of some element of the view. -/
def InView (v : View) (s : List Nat) (p : Int) : Prop := ∃ j, Valid s j ∧ p = address v j

end
end Ra.Spec
