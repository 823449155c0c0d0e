import Verif.Model.Assign
/-!
# Matrix products

ra.hh:403-456. `c` is a view when the code asks for a `Slice`, else it's an iterator; the same for `a` and `b`. The arguments of `from` and `transpose` have to be
slices.
-/

namespace Ra

section
variable {V : Type} [Add V] [Mul V]

/-- ra.hh:403-412 `gemm(a, b, c)` if `c` is a slice (line 407). -/
def gemmSlice (dyn : Bool) (z : List Int) (a : Iter (Act V) (Lv V)) (b c : View) : Act V Unit := do
  let c' ← Act.lift (c.from [.dots (some 1), .insert 1])
  let b' ← Act.lift (b.from [.insert 1])
  update (· + ·) dyn z c'.refs (binaryOp (· * ·) a b'.refs)

/-- ra.hh:403-412 `gemm(a, b, c)` if `c` isn't a slice (line 409). -/
def gemmIter (dyn : Bool) (z : List Int) (a b : View) (c : Iter (Act V) (Lv V)) : Act V Unit := do
  let a' ← Act.lift (a.from [.dots (some 1), .insert 1])
  let b' ← Act.lift (b.transpose [2, 1])
  update (· + ·) dyn z c (binaryOp (· * ·) a'.refs b'.refs)

/-- ra.hh:414-425 `gemv(a, b, c)` if `b` is a slice (line 418). -/
def gemvSliceB (dyn : Bool) (z : List Int) (a : Iter (Act V) (Lv V)) (b : View) (c : Iter (Act V) (Lv V)) : Act V Unit := do
  let b' ← Act.lift (b.from [.insert 1])
  update (· + ·) dyn z c (binaryOp (· * ·) a b'.refs)

/-- ra.hh:414-425 `gemv(a, b, c)` if `c` is a slice and `b` isn't (line 420). `transpose(a)` is `transpose(a, ilist<1, 0>)` (arrays.hh:461). -/
def gemvSliceC (dyn : Bool) (z : List Int) (a : View) (b : Iter (Act V) (Lv V)) (c : View) : Act V Unit := do
  let c' ← Act.lift (c.from [.insert 1])
  let a' ← Act.lift (a.transpose [1, 0])
  update (· + ·) dyn z c'.refs (binaryOp (· * ·) a'.refs b)

/-- The operation on ra.hh:422 and 436, `iter(c) += a * b`. `dyn`, `z` are those of this traversal. The view may be the first or the second argument, and the product
keeps the order. -/
def rowOp (dyn : Bool) (z : List Int) (c : Iter (Act V) (Lv V)) : List (Lv V) → Act V (Lv V)
  | [.view a, b] => do
    update (· + ·) dyn z c (binaryOp (· * ·) a.refs (.scalar (pure b)))
    pure (.view a)
  | [a, .view b] => do
    update (· + ·) dyn z c (binaryOp (· * ·) (.scalar (pure a)) b.refs)
    pure (.view b)
  | _ => fault .abort

/-- expr.hh:317-328 `iter<cr>(a)` for a view, as views. -/
def View.cells (a : View) (cr : Int) : Except Fault (Iter (Act V) (Lv V)) := do
  let (f, c) ← a.cell cr
  return .cell f a.cp fun p => pure (.view ⟨c, p⟩)

/-- ra.hh:414-425 `gemv(a, b, c)` if neither `b` nor `c` is a slice (line 422). `dyn'`, `z'` are those of the inner traversal. -/
def gemvIter (dyn : Bool) (z : List Int) (dyn' : Bool) (z' : List Int) (a : View) (b c : Iter (Act V) (Lv V)) : Act V Unit := do
  let a' ← Act.lift (a.transpose [1, 0])
  let i ← Act.lift (a'.cells 1)
  let _ ← ply (β := Unit) dyn never z (.node (mapOp (rowOp dyn' z' c)) [i, b])
  pure ()

/-- ra.hh:427-438 `gevm(a, b, c)` if `c` is a slice (line 431). -/
def gevmSliceC (dyn : Bool) (z : List Int) (a b : Iter (Act V) (Lv V)) (c : View) : Act V Unit := do
  let c' ← Act.lift (c.from [.insert 1])
  update (· + ·) dyn z c'.refs (binaryOp (· * ·) a b)

/-- ra.hh:427-438 `gevm(a, b, c)` if `a` is a slice and `c` isn't (line 433). -/
def gevmSliceA (dyn : Bool) (z : List Int) (a b : View) (c : Iter (Act V) (Lv V)) : Act V Unit := do
  let a' ← Act.lift (a.from [.insert 1])
  let b' ← Act.lift (b.transpose [1, 0])
  update (· + ·) dyn z c (binaryOp (· * ·) a'.refs b'.refs)

/-- ra.hh:427-438 `gevm(a, b, c)` if neither `c` nor `a` is a slice (line 435). -/
def gevmIter (dyn : Bool) (z : List Int) (dyn' : Bool) (z' : List Int) (a : Iter (Act V) (Lv V)) (b : View) (c : Iter (Act V) (Lv V)) : Act V Unit := do
  let i ← Act.lift (b.cells 1)
  let _ ← ply (β := Unit) dyn never z (.node (mapOp (rowOp dyn' z' c)) [a, i])
  pure ()

end
end Ra
