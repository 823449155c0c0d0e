import Verif.Spec.Container
import Verif.Model.Program
/-!
# Specification of arrays as values

Only the types `Op`, `Exp` and `Cmd` are used from the model. An array is a shape and a list of elements; there's no memory and no views.
-/

namespace Ra.Spec

/-- An array: its shape, and its elements in row-major order. -/
structure Value (V : Type) where
  shape : List Nat
  elems : List V
  deriving DecidableEq

section
variable {V : Type}

/-- The element at index `j`. -/
def Value.get (v : Value V) (j : List Int) : Option V := v.elems[(position v.shape j).toNat]?

/-- The same array but with element `x` at index `j`. -/
def Value.put (v : Value V) (j : List Int) (x : V) : Value V := { v with elems := v.elems.set (position v.shape j).toNat x }

/-- The first `n` elements of a list, and if there aren't as many, then the others from `fill`. -/
def fit (l : List V) (fill : Nat → V) (n : Nat) : List V := (List.range n).map fun i => l.getD i (fill i)

/-- The value of an expression at index `j`. Arrays that have fewer axes than there are indices use the first ones only. -/
def Exp.at (vs : List (Value V)) (j : List Int) : Exp V → Option V
  | .const x => some x
  | .arr i => match vs[i]? with
    | some v => v.get (j.take v.shape.length)
    | none => none
  | .op f a b => match Exp.at vs j a, Exp.at vs j b with
    | some x, some y => some (f x y)
    | _, _ => none

/-- The shapes of the arguments of an expression. -/
def Exp.shapes (vs : List (Value V)) : Exp V → List (List Nat)
  | .const _ => [[]]
  | .arr i => match vs[i]? with
    | some v => [v.shape]
    | none => []
  | .op _ a b => Exp.shapes vs a ++ Exp.shapes vs b

/-- All the arrays of an expression exist. -/
def Exp.has (vs : List (Value V)) : Exp V → Bool
  | .const _ => true
  | .arr i => vs[i]?.isSome
  | .op _ a b => Exp.has vs a && Exp.has vs b

/-- The shape with most axes. -/
def longest : List (List Nat) → List Nat
  | [] => []
  | s :: ss => if (longest ss).length ≤ s.length then s else longest ss

/-- Each shape is a prefix of the one with most axes. -/
def agreed (ss : List (List Nat)) : Bool := ss.all fun s => s.isPrefixOf (longest ss)

/-- For each index in a list, in order, replace the element of array `i` at that index (or at its prefix) by `f` of itself and of the expression. -/
def loop (f : V → V → V) (i : Nat) (e : Exp V) : List (List Int) → List (Value V) → Option (List (Value V))
  | [], vs => some vs
  | j :: js, vs =>
    match vs[i]?, Exp.at vs j e with
    | some v, some x =>
      match v.get (j.take v.shape.length) with
      | some y => loop f i e js (vs.set i (v.put (j.take v.shape.length) (f y x)))
      | none => none
    | _, _ => none

/-- The effect of one operation. There's none if it isn't allowed. -/
def Cmd.effect (vs : List (Value V)) : Cmd V → Option (List (Value V))
  | .op (.default rk) => some (vs ++ [⟨List.replicate (rk.getD 1) 0, []⟩])
  | .op (.create _ _ fill s) => some (vs ++ [⟨s.map Int.toNat, fit [] fill (size (s.map Int.toNat))⟩])
  | .op (.resize i _ fill n) =>
    match vs[i]? with
    | some ⟨_ :: t, l⟩ => some (vs.set i ⟨n.toNat :: t, fit l fill (n.toNat * size t)⟩)
    | _ => none
  | .op (.resizeShape i _ fill s) =>
    match vs[i]? with
    | some v => some (vs.set i ⟨s.map Int.toNat, fit v.elems fill (size (s.map Int.toNat))⟩)
    | none => none
  | .op (.pushBack i _ x) =>
    match vs[i]? with
    | some ⟨[n], l⟩ => some (vs.set i ⟨[n + 1], l ++ [x]⟩)
    | _ => none
  | .op (.popBack i) =>
    match vs[i]? with
    | some ⟨[n + 1], l⟩ => some (vs.set i ⟨[n], l.dropLast⟩)
    | _ => none
  | .op (.copy i j _) =>
    match vs[j]? with
    | some w => some (vs.set i w)
    | none => none
  | .op (.swap i j) =>
    match vs[i]?, vs[j]? with
    | some v, some w => some ((vs.set i w).set j v)
    | _, _ => none
  | .op (.run _) => none
  | .set i j x =>
    match vs[i]? with
    | some v => if j ∈ rowMajor v.shape then some (vs.set i (v.put j x)) else none
    | none => none
  | .assign i e =>
    match vs[i]? with
    | some v =>
      let ss := v.shape :: Exp.shapes vs e
      if Exp.has vs e ∧ agreed ss then loop (fun _ x => x) i e (rowMajor (longest ss)) vs else none
    | none => none
  | .update f i e =>
    match vs[i]? with
    | some v =>
      let ss := v.shape :: Exp.shapes vs e
      if Exp.has vs e ∧ agreed ss then loop f i e (rowMajor (longest ss)) vs else none
    | none => none

/-- The effect of some operations, one after the other. -/
def effects : List (Cmd V) → List (Value V) → Option (List (Value V))
  | [], vs => some vs
  | c :: cs, vs =>
    match Cmd.effect vs c with
    | some vs' => effects cs vs'
    | none => none

/-- In memory `μ`, the array `a` has the value `v`. -/
def Represents (μ : Mem V) (a : Arr) (v : Value V) : Prop :=
  Container a μ v.shape ∧ v.elems.length = size v.shape ∧ ∀ j, Valid v.shape j → μ (address a.view j) = v.get j

end
end Ra.Spec
