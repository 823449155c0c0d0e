import Verif.Model.FullProgram
import Verif.Model.Gemm
/-!
# Array subscripts as places to assign to

`a(i, j, ...)` where some of the subscripts are arrays, on the left side of an assignment, and the ways to select elements of an array in bench/bench-from.cc.
-/

namespace Ra

section
variable {V : Type}

/-- A subscript that is read before it's used, as the conversion to `dim_t` does in `from` (ply.hh:503-511). -/
def readOp : List (Lv V) → Act V (Lv V)
  | [x] => do
    let v ← x.get
    pure (.val v)
  | _ => fault .abort

/-- ply.hh:503-525 `from` with array subscripts `t`, as `View.fromArrays`; the elements are references. Each subscript is read as soon as it's found, in place of all of them at once when they are used in `b(i ...)`
(ply.hh:509-510). -/
def View.select (n : IndexLike V) (a : View) (is : List Sub) (t : List (Iter (Act V) (Lv V))) : Except Fault (Option (Iter (Act V) (Lv V))) :=
  @View.fromArrays (Act V) (Lv V) _ _ (lvIndex n) a (fun p => pure (.ref p)) is (t.map fun i => .node (mapOp readOp) [i])

/-- `a(i, j, ...) = x` with array subscripts (ply.hh:503-525, expr.hh:50-60). If it doesn't compile, the model fails. -/
def View.selectAssign (n : IndexLike V) (dyn : Bool) (z : List Int) (a : View) (is : List Sub) (t : List (Iter (Act V) (Lv V))) (x : Iter (Act V) (Lv V)) : Act V Unit := do
  match ← Act.lift (a.select n is t) with
  | some e => assign dyn z e x
  | none => fault .abort

/-- `a(i, j, ...) OP= x` with array subscripts (ply.hh:503-525, expr.hh:50-60). -/
def View.selectUpdate (n : IndexLike V) (g : V → V → V) (dyn : Bool) (z : List Int) (a : View) (is : List Sub) (t : List (Iter (Act V) (Lv V))) (x : Iter (Act V) (Lv V)) : Act V Unit := do
  match ← Act.lift (a.select n is t) with
  | some e => update g dyn z e x
  | none => fault .abort

/-- `b = a(i, j, ...)` with array subscripts (ply.hh:503-525, expr.hh:50-60): bench/bench-from.cc:47-49, 82-84, 111-113, 142-144. -/
def View.assignSelect (n : IndexLike V) (dyn : Bool) (z : List Int) (b a : View) (is : List Sub) (t : List (Iter (Act V) (Lv V))) : Act V Unit := do
  match ← Act.lift (a.select n is t) with
  | some e => assign dyn z b.refs e
  | none => fault .abort

/-- bench/bench-from.cc:42-46, on pointers. -/
def selectRaw (n : IndexLike V) (b a i : View) : Act V Unit :=
  forLoop (lenOf i.dims 0) fun k => do
    let x ← Act.read (i.cp + k)
    let y ← Act.read (a.cp + n.toIdx x)
    Act.write (b.cp + k) y

/-- The operation on bench/bench-from.cc:51. -/
def selectOp (n : IndexLike V) (a : View) : List (Lv V) → Act V (Lv V)
  | [.ref p, i] => do
    let x ← i.get
    let c ← Act.lift (a.from [.scalar (.const (n.toIdx x))])
    let y ← Act.read c.cp
    Act.write p y
    pure (.ref p)
  | _ => fault .abort

/-- bench/bench-from.cc:50-52, with `for_each`. -/
def selectEach (n : IndexLike V) (dyn : Bool) (z : List Int) (b a i : View) : Act V Unit := do
  let _ ← ply (β := Unit) dyn never z (.node (mapOp (selectOp n a)) [b.refs, i.refs])
  pure ()

/-- bench/bench-from.cc:53-57, a loop on scalar subscripts. -/
def selectLoop (n : IndexLike V) (b a i : View) : Act V Unit :=
  forLoop (lenOf i.dims 0) fun k => do
    let q ← Act.lift (i.from [.scalar (.const k)])
    let x ← Act.read q.cp
    let c ← Act.lift (a.from [.scalar (.const (n.toIdx x))])
    let y ← Act.read c.cp
    let p ← Act.lift (b.from [.scalar (.const k)])
    Act.write p.cp y

/-- bench/bench-from.cc:75-81, on pointers. -/
def selectRaw2 (n : IndexLike V) (b a i : View) : Act V Unit :=
  let m := lenOf i.dims 0
  forLoop m fun k => forLoop m fun l => do
    let x ← Act.read (i.cp + k)
    let y ← Act.read (i.cp + l)
    let w ← Act.read (a.cp + (n.toIdx x * lenOf a.dims 0 + n.toIdx y))
    Act.write (b.cp + (k * m + l)) w

end
end Ra
