/-!
# Specification of indices and sequential visits

Nothing here refers to the model of the code.
-/

namespace Ra.Spec

/-- All the multi-indices of a shape, in row-major order (the last entry moves fastest). -/
def rowMajor : List Nat → List (List Int)
  | [] => [[]]
  | n :: s => (List.range n).flatMap fun (i : Nat) => (rowMajor s).map fun j => (i : Int) :: j

/-- Number of elements of a shape. -/
def size : List Nat → Nat
  | [] => 1
  | n :: s => n * size s

/-- Row-major position of a multi-index in a shape. -/
def position : List Nat → List Int → Int
  | _ :: s, i :: j => i * size s + position s j
  | _, _ => 0

/-- `j` is a valid multi-index of the shape `s`. -/
def Valid : List Nat → List Int → Prop
  | [], [] => True
  | n :: s, i :: j => 0 ≤ i ∧ i < n ∧ Valid s j
  | _, _ => False

/-- Run `f` on each item, in order, until one stops with a value. The value comes with the item where it stopped.
Nothing is run after that item. -/
def search {m : Type → Type} [Monad m] {ι β : Type} (f : ι → m (Option β)) : List ι → m (Option (β × ι))
  | [] => pure none
  | i :: is => do
    match ← f i with
    | some b => pure (some (b, i))
    | none => search f is

/-- Run `f` on each item in order and throw the results away. -/
def forAll {m : Type → Type} [Monad m] {ι β : Type} (f : ι → m β) : List ι → m Unit
  | [] => pure ()
  | i :: is => do
    let _ ← f i
    forAll f is

end Ra.Spec
