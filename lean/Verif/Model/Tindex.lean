import Verif.Model.Frame
/-!
# Index placeholders

arrays.hh:361-364.
-/

namespace Ra

section
variable {m : Type → Type} {α : Type} [Monad m] [IndexLike α]

/-- ply.hh:320-321 `iota()`: unbounded, origin 0 and step 1. -/
def iotaUnb : Iter m α := .cell [⟨UNB, 1⟩] 0 fun i => pure (ofIdx i)

/-- arrays.hh:361-364 `tindex<w>`, that is `_0`, `_1`, ... -/
def tindex (w : Nat) : Iter m α := reframe [w] iotaUnb

/-- expr.hh:668-678 `map(A, i ...)` when `A` is a view: the op is `A(i ...)`. -/
def mapView [MonadFault m] (a : View) (rd : Int → m α) (t : List (Iter m α)) : Iter m α := .node (mapOp fun vs => a.elemAt rd (vs.map toIdx)) t

end
end Ra
