import Verif.Spec.Container
import Verif.Model.Fill
/-!
# Specification of nested lists

Only the types are used from the model.
-/

namespace Ra.Spec

section
variable {V : Type}

/-- The nested list `x` has shape `s`: at each level there are as many items as the length of that axis. -/
def Nested : (r : Nat) → Braces V r → List Nat → Prop
  | 0, _, s => s = []
  | r+1, x, s => ∃ n s', s = n :: s' ∧ (show List (Braces V r) from x).length = n ∧ ∀ y ∈ (show List (Braces V r) from x), Nested r y s'

/-- The shape of an array made from a nested list: that of the list, and 0 for the axes after an axis of length 0. -/
def ListShape (r : Nat) (x : Braces V r) (t : List Nat) : Prop := Nested r x t ∧ ∀ k l : Nat, t[k]? = some 0 → k ≤ l → l < r → t[l]? = some 0

/-- Follow the nested list by the index, one level for each entry. -/
def follow : (r : Nat) → Braces V r → List Int → Option V
  | 0, x, [] => some x
  | r+1, x, i :: j => if i < 0 then none else do
    let y ← (show List (Braces V r) from x)[i.toNat]?
    follow r y j
  | _, _, _ => none

/-- In memory `μ` the elements of the expression `e`, of shape `s`, have the values `f`, and they depend only on the memory that's in use. -/
def Known (μ : Mem V) (e : Iter (Act V) (Lv V)) (s : List Nat) (f : List Int → V) : Prop := Values (fun p => μ p = none) μ e s f

/-- The `n` addresses from `b` aren't in use. -/
def Free (μ : Mem V) (b : Int) (n : Nat) : Prop := ∀ i : Nat, i < n → μ (b + i) = none

/-- `a` is an array of shape `s` with elements `f`, made from memory `μ`: its storage wasn't in use, and other memory is as it was. -/
structure New (a : Arr) (μ μ' : Mem V) (s : List Nat) (f : List Int → Option V) : Prop where
  cont : Container a μ' s
  elem : ∀ j, Valid s j → μ' (address a.view j) = f j
  fresh : ∀ p, Owns a p → μ p = none
  same : ∀ p, ¬ Owns a p → μ' p = μ p

end
end Ra.Spec
