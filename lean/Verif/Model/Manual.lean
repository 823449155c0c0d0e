import Verif.Model.Matrix
import Verif.Model.Frame
import Verif.Model.ViewOps
import Verif.Model.FullProgram
/-!
# Programs of the manual

Programs that the manual (docs/ra-ra.texi) says are different ways to do the same thing, made from the functions of the library.
-/

namespace Ra

section
variable {V : Type}

/-- docs/ra-ra.texi:1357-1362, the operation `c += a*b`. The right side is evaluated first, as on expr.hh:50-51. -/
def mulAdd [Add V] [Mul V] : List (Lv V) → Act V (Lv V)
  | [.ref p, a, b] => do
    let x ← a.get
    let y ← b.get
    let c ← Act.read p
    Act.write p (c + x * y)
    pure (.ref p)
  | _ => fault .abort

/-- docs/ra-ra.texi:1357-1362, `for_each(wrank<1, 1, 2>(wrank<1, 0, 1>(op)), C, A, B)`, with ply.hh:168 `for_each`. `none` is a compile error. -/
def gemmVerb [Add V] [Mul V] (dyn : Bool) (z : List Int) (a b c : Iter (Act V) (Lv V)) : Option (Act V Unit) := do
  let e ← mapVerb mulAdd [[1, 1, 2], [1, 0, 1]] [c, a, b]
  return do
    let _ ← ply (β := Unit) dyn never z e
    pure ()

/-- expr.hh:50-51, the body for `y OP x` when `y` and `x` are cells (docs/ra-ra.texi:1187-1192), that is, the assignment to a view on arrays.hh:129-136. `dyn`, `z` are those of this
traversal. -/
def cellUpd (f : V → V → V) (dyn : Bool) (z : List Int) : List (Lv V) → Act V (Lv V)
  | [.view c, .view a] => do
    update f dyn z c.refs a.refs
    pure (.view c)
  | _ => fault .abort

/-- docs/ra-ra.texi:1189, `iter<1>(s) OP iter<1>(a)`. -/
def rowsByCells (f : V → V → V) (dyn : Bool) (z : List Int) (dyn' : Bool) (z' : List Int) (s a : View) : Act V Unit := do
  let s' ← Act.lift (s.cells 1)
  let a' ← Act.lift (a.cells 1)
  let _ ← ply (β := Unit) dyn never z (.node (mapOp (cellUpd f dyn' z')) [s', a'])
  pure ()

/-- docs/ra-ra.texi:1190, `for_each(wrank<1, 1>([](auto & c, auto && a) { c OP a; }), s, a)`. `none` is a compile error. -/
def rowsByVerb (f : V → V → V) (dyn : Bool) (z : List Int) (s a : View) : Option (Act V Unit) := do
  let e ← mapVerb (updOp f) [[1, 1]] [s.refs, a.refs]
  return do
    let _ ← ply (β := Unit) dyn never z e
    pure ()

/-- docs/ra-ra.texi:1191, `s OP transpose(a)`. -/
def rowsByTranspose (f : V → V → V) (dyn : Bool) (z : List Int) (s a : View) : Act V Unit := do
  let a' ← Act.lift (a.transpose [1, 0])
  update f dyn z s.refs a'.refs

/-- docs/ra-ra.texi:716-717, `s(insert<1>) OP a`. -/
def rowsByInsert (f : V → V → V) (dyn : Bool) (z : List Int) (s a : View) : Act V Unit := do
  let s' ← Act.lift (s.from [.insert 1])
  update f dyn z s'.refs a.refs

/-- docs/ra-ra.texi:689-693, `b OP transpose(a, ilist<0, 1, 1>)`. -/
def diagonals (f : V → V → V) (dyn : Bool) (z : List Int) (b a : View) : Act V Unit := do
  let a' ← Act.lift (a.transpose [0, 1, 1])
  update f dyn z b.refs a'.refs

/-- docs/ra-ra.texi:800-820, `map(a, i, j, ...)` where `a` is a view and `i`, `j`, ... are arrays of subscripts (expr.hh:652-678). The operation is `a(i, j, ...)` on the elements, which is a reference to an
element of `a`. -/
def View.mapArrays (n : IndexLike V) (a : View) (t : List (Iter (Act V) (Lv V))) : Iter (Act V) (Lv V) := .node (mapOp (gatherOp n a)) t

end
end Ra
