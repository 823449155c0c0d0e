import Verif.Model.AxisSum
import Verif.Model.ByCells
/-!
# The sums of the cells of an array

The ways in examples/read-me.cc:99-111 to store the sum of `A(i, j, ...)` in `B(i, j)`, for arrays of any shapes.
-/

namespace Ra

section
variable {V : Type} [Inhabited V] [Zero V] [Add V]

/-- `[](auto && b, auto && a) { b = ra::sum(a); }`, the function on examples/read-me.cc:104-106 and 110. If `a` is an element and not a view then it's used as a scalar (expr.hh:104-120). `dyn`, `z` are those of the
traversal in `sum`. -/
def setSum (dyn : Bool) (z : List Int) : List (Lv V) → Act V (Lv V)
  | [.ref p, .view a] => do
    let v ← sumOf dyn z a.reads
    Act.write p v
    pure (.ref p)
  | [.ref p, .ref q] => do
    let v ← sumOf dyn z (.scalar (StateT.lift (Act.read q)))
    Act.write p v
    pure (.ref p)
  | _ => fault .abort

/-- examples/read-me.cc:103 `B = 0; B += A`. -/
def zeroAdd (dyn : Bool) (z : List Int) (dyn' : Bool) (z' : List Int) (b a : View) : Act V Unit := do
  assign dyn z b.refs (.scalar (pure (.val 0)))
  update (· + ·) dyn' z' b.refs a.refs

/-- examples/read-me.cc:104 `for_each([](auto && b, auto && a) { b = ra::sum(a); }, B, A)`. -/
def eachSum (dyn : Bool) (z : List Int) (dyn' : Bool) (z' : List Int) (b a : View) : Act V Unit := do
  let _ ← ply (β := Unit) dyn never z (.node (mapOp (setSum dyn' z')) [b.refs, a.refs])
  pure ()

/-- examples/read-me.cc:105-106 and 110 `for_each([](auto && b, auto && a) { b = ra::sum(a); }, B, iter<cr>(A))`. If `cr` is 0 then the cells are elements (expr.hh:300-306); here they are views of rank 0. -/
def eachCellSum (dyn : Bool) (z : List Int) (dyn' : Bool) (z' : List Int) (cr : Int) (b a : View) : Act V Unit := do
  let i ← Act.lift (a.cells cr)
  let _ ← ply (β := Unit) dyn never z (.node (mapOp (setSum dyn' z')) [b.refs, i])
  pure ()

end
end Ra
