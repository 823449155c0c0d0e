import Verif.Spec.Slice
/-!
# Specification of `at` on expressions
-/

namespace Ra.Spec

variable {α : Type}

/-- Expressions without side effects that have a value at each of their indices. They are made of scalars, views of elements that can be read, and `map` with operations that don't
fail. If `frames`, then reframed arguments may also appear in it (from `wrank`, `_w` or `outer`). -/
inductive Evaluable (frames : Bool) : Iter (Except Fault) α → Prop
  | scalar (x : α) : Evaluable frames (.scalar (.ok x))
  | cell (dims : List Dim) (cp : Int) (rd : Int → Except Fault α) (s : List Length) (hs : List.Forall₂ DimLen dims s)
      (h : ∀ j, InRange s j → ∃ x, rd (cp + dot (dims.map Dim.step) j) = .ok x) : Evaluable frames (.cell dims cp rd)
  | reframe (dest : List Nat) (a : Iter (Except Fault) α) (hf : frames = true) (h : Evaluable frames a) : Evaluable frames (.reframe dest a)
  | map (f : List α → α) (t : List (Iter (Except Fault) α)) (h : ∀ a ∈ t, Evaluable frames a) : Evaluable frames (.node (mapOp fun xs => .ok (f xs)) t)

end Ra.Spec
