import Verif.Model.Frame
import Verif.Model.Ply
/-!
# Agreement relative to an operation

expr.hh:641-650.
-/

namespace Ra

variable {m : Type → Type} {α : Type}

/-- expr.hh:644-650 `agree_verb`, which ends in `agree` (expr.hh:642) because `FM::op` (expr.hh:490, 498) takes off all the conjunctions at once. `none` is a compile error, as in
`framematch`. -/
def agreeVerb (cranks : List (List Nat)) (t : List (Iter m α)) : Option Bool := do
  let dest ← framematch cranks (t.map fun a => (a.rank.toNat, [])) 0
  return agree (List.zipWith reframe dest t)

/-- expr.hh:641-642 `agree_op`. With an operation that isn't a conjunction it's `agree`. -/
def agreeOp (cranks : List (List Nat)) (t : List (Iter m α)) : Option Bool :=
  match cranks with
  | [] => some (agree t)
  | _ => agreeVerb cranks t

end Ra
