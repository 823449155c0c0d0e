import Verif.Model.AtArray
import Verif.Model.ViewOps
import Verif.Model.Maxwell
/-!
# Lists of cells: `at_view` with arrays of indices

ra.hh:240-250, and assignment to what it gives.
-/

namespace Ra

variable {V : Type}

/-- ra.hh:240-250: `at_view(a, i)` for an element of the array of indices. With as many indices as axes, the view has rank 0. -/
def atViewOp [MultiIndex V] (a : View) : List (Lv V) → Act V (Lv V)
  | [i] => do
    let x ← i.get
    let w ← Act.lift (a.atView (index x))
    pure (.view w)
  | _ => fault .abort

/-- ra.hh:240-250 `at_view(a, i)` with an array of indices: a `map` over `i`. -/
def atViewArray [MultiIndex V] (a : View) (i : Iter (Act V) (Lv V)) : Iter (Act V) (Lv V) := .node (mapOp (atViewOp a)) [i]

/-- expr.hh:50-51, the body for `y = x` (or for `y OP x`, if `g` is given) when `y` is a view: the assignment on arrays.hh:129-136, where `x` may be a view or not. `dyn`, `z` are those of this traversal. -/
def cellPut (g : Option (V → V → V)) (dyn : Bool) (z : List Int) : List (Lv V) → Act V (Lv V)
  | [.view c, .view a] => do
    put g dyn z c.refs a.refs
    pure (.view c)
  | [.view c, x] => do
    put g dyn z c.refs (.scalar (pure x))
    pure (.view c)
  | _ => fault .abort

/-- expr.hh:50-60 `at_view(a, i) = x` or `at_view(a, i) OP x`. -/
def atViewPut [MultiIndex V] (g : Option (V → V → V)) (dyn : Bool) (z : List Int) (dyn' : Bool) (z' : List Int) (a : View) (i x : Iter (Act V) (Lv V)) : Act V Unit := do
  let _ ← ply (β := Unit) dyn never z (.node (mapOp (cellPut g dyn' z')) [atViewArray a i, x])
  pure ()

end Ra
