import Verif.Model.ArraySum
/-!
# Assignment to arrays of arrays

`b = a` when the elements of `b` are arrays, as in examples/pitfall.cc. The elements of `a` may be arrays or not.
-/

namespace Ra

section
variable {V : Type}

/-- `iter(y)` (expr.hh:128-134, ra.hh:181-202) for an element of an array of arrays: a scalar (expr.hh:104-120) if `y` isn't an array. -/
def asArg : Lv V → Iter (Act V) (Lv V)
  | .view y => y.refs
  | y => .scalar (pure y)

/-- expr.hh:50-60 `[](auto && x, auto && y) { x = y; }` or `x OP y`, for elements `x` that are arrays: then it's another assignment. -/
def putInto (g : Option (V → V → V)) (dyn : Bool) (z : List Int) : List (Lv V) → Act V (Lv V)
  | [.view x, y] => do
    put g dyn z x.refs (asArg y)
    pure (.view x)
  | _ => fault .abort

/-- `b = e` or `b OP e` where `b` is an array of arrays, as on examples/pitfall.cc:21 (expr.hh:50-60, arrays.hh:169-217). `dyn'`, `z'` are those of the assignments to the elements. -/
def putNested (g : Option (V → V → V)) (dyn dyn' : Bool) (z z' : List Int) (el : Int → Option View) (b : View) (e : Iter (Act V) (Lv V)) : Act V Unit := do
  let _ ← ply (β := Unit) dyn never z (.node (mapOp (putInto g dyn' z')) [nestedRefs el b, e])
  pure ()

end
end Ra
