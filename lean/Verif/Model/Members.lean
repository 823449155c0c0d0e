import Verif.Model.Assign
/-!
# Members of the elements of an array

`map(&T::m, a)`, where the elements of `a` are objects. The result is an expression of references.
-/

namespace Ra

section
variable {V : Type}

/-- expr.hh:661 `std::invoke(op, ...)` where `op` is a pointer to a data member, `std::mem_fn` of one, or a function that returns a reference to one (test/mem-fn.cc:15-19, 27, 34, 46, 53). The object has `w` members of the same type and
this is number `k`. Addresses of objects are counted in objects, and those of members in members, as in `partOp`. -/
def memberOp (w : Nat) (k : Int) : List (Lv V) → Act V (Lv V)
  | [.ref p] => pure (.ref (w * p + k))
  | _ => fault .abort

/-- expr.hh:652-678 `map(&T::m, e)`. -/
def members (w : Nat) (k : Int) (e : Iter (Act V) (Lv V)) : Iter (Act V) (Lv V) := .node (mapOp (memberOp w k)) [e]

end
end Ra
