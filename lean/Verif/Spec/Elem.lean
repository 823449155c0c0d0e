import Verif.Model.Iter
import Mathlib.Data.List.Forall2
/-!
# Specification of expressions: shape and elements

The meaning of an expression tree. Only the type `Iter` is used from the model, none of its functions.
-/

namespace Ra.Spec

/-- `i0*s0 + i1*s1 + ...` for as many as there are in both. -/
def dot (s : List Int) (j : List Int) : Int := (List.zipWith (· * ·) j s).sum

section
variable {m : Type → Type} {α : Type}

mutual
/-- The element of an expression at index `j`.
* A scalar is the same everywhere.
* A view takes from `j` as many entries as axes it has, and reads at that many steps from its origin.
* Axis `l` of the argument of a reframe is axis `dest[l]` of the result.
* An operation is applied to the elements of its arguments at `j`. -/
def elem : Iter m α → List Int → m α
  | .scalar c, _ => c
  | .cell dims cp rd, j => rd (cp + dot (dims.map Dim.step) j)
  | .reframe dest a, j => elem a (dest.map fun d => j.getD d 0)
  | .node op t, j => op (elems t j)
def elems : List (Iter m α) → List Int → List (m α)
  | [], _ => []
  | a :: t, j => elem a j :: elems t j
end

/-- Lengths of an axis: a number, or unbounded. -/
abbrev Length := Option Nat

/-- Prefix matching. The result has as many axes as the argument with most axes, and a finite length on an axis if and only if some argument has
that finite length on it. So two different finite lengths on the same axis don't match. -/
def Merge (ss : List (List Length)) (s : List Length) : Prop :=
  (∀ x ∈ ss, x.length ≤ s.length) ∧ (∃ x ∈ ss, x.length = s.length) ∧
  ∀ (k n : Nat), s[k]? = some (some n) ↔ ∃ x ∈ ss, x[k]? = some (some n)

/-- Shape of a reframe: axis `dest[l]` is axis `l` of the argument, and the axes in between are unbounded. -/
def Reframed (dest : List Nat) (s0 s : List Length) : Prop :=
  dest.length = s0.length ∧ (∀ d ∈ dest, d < s.length) ∧ (s ≠ [] → s.length - 1 ∈ dest) ∧
  (∀ (l k : Nat), dest[l]? = some k → s[k]? = s0[l]?) ∧ ∀ k : Nat, k < s.length → k ∉ dest → s[k]? = some none

/-- A dim with a given length. -/
def DimLen (d : Dim) (o : Length) : Prop :=
  match o with
  | none => d.len = UNB
  | some n => d.len = n

mutual
/-- `a` is a valid expression with shape `s`. -/
def HasShape : Iter m α → List Length → Prop
  | .scalar _, s => s = []
  | .cell dims _ _, s => List.Forall₂ DimLen dims s
  | .reframe dest a, s => dest.Nodup ∧ ∃ s0, HasShape a s0 ∧ Reframed dest s0 s
  | .node _ t, s => ∃ ss, HasShapes t ss ∧ Merge ss s
def HasShapes : List (Iter m α) → List (List Length) → Prop
  | [], ss => ss = []
  | a :: t, ss => ∃ s ss', ss = s :: ss' ∧ HasShape a s ∧ HasShapes t ss'
end

end
end Ra.Spec
