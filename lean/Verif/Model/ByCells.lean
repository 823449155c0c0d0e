import Verif.Model.Matrix
import Verif.Model.Maxwell
import Verif.Model.Gemm
/-!
# Assignments by cells

An operation on arrays may be done all at once, with loops on the first axes, or with `for_each` on cells.
-/

namespace Ra

section
variable {V : Type}

/-- ra.hh:181-202, an operation with any number of arguments that are arrays. -/
def opOn (f : List V → Act V V) (as : List View) : Iter (Act V) (Lv V) := .node (valOp f) (as.map View.refs)

/-- bench/bench-optimize.cc:53-55 `c = a+b`, with any operation, any number of arguments, and any assignment operator. -/
def wholePut (g : Option (V → V → V)) (f : List V → Act V V) (dyn : Bool) (z : List Int) (c : View) (as : List View) : Act V Unit := put g dyn z c.refs (opOn f as)

/-- Nested loops `for (int i=0; i<n; ++i)`, as in bench/bench-optimize.cc:49. -/
def nestLoops : List Int → (List Int → Act V Unit) → Act V Unit
  | [], body => body []
  | n :: t, body => forLoop n fun i => nestLoops t fun j => body (i :: j)

/-- bench/bench-optimize.cc:50 `c(i) = a(i)+b(i)`, with any number of scalar subscripts. -/
def cellPutAt (g : Option (V → V → V)) (f : List V → Act V V) (dyn : Bool) (z : List Int) (c : View) (as : List View) (i : List Int) : Act V Unit := do
  let c' ← Act.lift (c.from (i.map fun x => .scalar (.const x)))
  let as' ← Act.lift (as.mapM fun a => a.from (i.map fun x => .scalar (.const x)))
  wholePut g f dyn z c' as'

/-- bench/bench-optimize.cc:48-52 `for (int i=0; i<a.len(0); ++i) { c(i) = a(i)+b(i); }`, with loops on the first `k` axes. The lengths are those of `c`. -/
def loopCells (g : Option (V → V → V)) (f : List V → Act V V) (dyn : Bool) (z : List Int) (k : Nat) (c : View) (as : List View) : Act V Unit :=
  nestLoops ((c.dims.take k).map Dim.len) (cellPutAt g f dyn z c as)

/-- The views in a list of references, if they are all views (expr.hh:300-306). -/
def viewsOf : List (Lv V) → Option (List View)
  | [] => some []
  | .view a :: t => (viewsOf t).map (a :: ·)
  | _ :: _ => none

/-- `[](auto && c, auto && ... a) { c = f(a ...); }` for cells, the function given to `for_each` (ply.hh:168). -/
def cellBody (g : Option (V → V → V)) (f : List V → Act V V) (dyn : Bool) (z : List Int) : List (Lv V) → Act V (Lv V)
  | .view c :: t =>
    match viewsOf t with
    | some as => do
      wholePut g f dyn z c as
      pure (.view c)
    | none => fault .abort
  | _ => fault .abort

/-- `for_each([](auto && c, auto && ... a) { c = f(a ...); }, iter<cr>(c), iter<cr>(a) ...)`: ply.hh:168, expr.hh:317-328. If the rank of the cells is 0 then they are references to elements and not views; here they are views of rank 0. -/
def eachCells (g : Option (V → V → V)) (f : List V → Act V V) (dyn : Bool) (z : List Int) (dyn' : Bool) (z' : List Int) (cr : Int) (c : View) (as : List View) : Act V Unit := do
  let c' ← Act.lift (c.cells cr)
  let as' ← Act.lift (as.mapM fun a => a.cells cr)
  let _ ← ply (β := Unit) dyn never z (.node (mapOp (cellBody g f dyn' z')) (c' :: as'))
  pure ()

end
end Ra
