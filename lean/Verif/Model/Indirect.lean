import Verif.Model.AtView
import Mathlib.Data.Rat.Floor
import Mathlib.Data.Nat.Sqrt
/-!
# Copies to and from lists of positions and lists of strips, as programs

examples/indirect.cc, examples 1 and 4.
-/

namespace Ra

section
variable {V : Type} [MultiIndex V]

/-- examples/indirect.cc:36-37 `map([&A](auto && c) -> decltype(auto) { return at(A, c); }, I) = map([&B](auto && c) { return at(B, c); }, I)`, and 43 `at(A, I) = at(B, I)`, which is the same, since `at` with an array of
indices is a map (ra.hh:228-238). -/
def copyAt (dyn : Bool) (z : List Int) (a b i : View) : Act V Unit := assign dyn z (atArray a.refs i.refs) (atArray b.refs i.refs)

/-- examples/indirect.cc:40 `[&A, &B](auto && c) { at(A, c) = at(B, c); }`. -/
def copyAtOp (a b : View) : List (Lv V) → Act V (Lv V)
  | [c] => do
    let x ← c.get
    let p ← (a.refs : Iter (Act V) (Lv V)).at (index x)
    let q ← (b.refs : Iter (Act V) (Lv V)).at (index x)
    setOp [p, q]
  | _ => fault .abort

/-- examples/indirect.cc:40 `for_each([&A, &B](auto && c) { at(A, c) = at(B, c); }, I)`. -/
def copyAtEach (dyn : Bool) (z : List Int) (a b i : View) : Act V Unit := do
  let _ ← ply (β := Unit) dyn never z (.node (mapOp (copyAtOp a b)) [i.refs])
  pure ()

omit [MultiIndex V] in
/-- examples/indirect.cc:135, 136, 139 `A(i, ra::iota(j1-j0+1, j0))` for a strip `[i, j0, j1]`. -/
def View.strip (a : View) : List Int → Except Fault View
  | [i, j0, j1] => a.from [.scalar (.const i), .iota [(.const (j1 - j0 + 1), .const 1)] (.const j0)]
  | _ => .error .abort

/-- examples/indirect.cc:135 `[&A](auto && c) -> decltype(auto) { auto [i, j0, j1] = c; return A(i, ra::iota(j1-j0+1, j0)); }`. -/
def stripOp (a : View) : List (Lv V) → Act V (Lv V)
  | [c] => do
    let x ← c.get
    let w ← Act.lift (a.strip (index x))
    pure (.view w)
  | _ => fault .abort

/-- examples/indirect.cc:135-136, the assignment of a map of views to another. `dyn'`, `z'` are those of the assignments of each view. -/
def copyStrips (dyn : Bool) (z : List Int) (dyn' : Bool) (z' : List Int) (a b i : View) : Act V Unit := do
  let _ ← ply (β := Unit) dyn never z (.node (mapOp (cellPut none dyn' z')) [.node (mapOp (stripOp a)) [i.refs], .node (mapOp (stripOp b)) [i.refs]])
  pure ()

/-- examples/indirect.cc:139 `[&A, &B](auto && c) { auto [i, j0, j1] = c; auto j = ra::iota(j1-j0+1, j0); A(i, j) = B(i, j); }`. -/
def copyStripOp (dyn' : Bool) (z' : List Int) (a b : View) : List (Lv V) → Act V (Lv V)
  | [c] => do
    let x ← c.get
    let u ← Act.lift (a.strip (index x))
    let w ← Act.lift (b.strip (index x))
    assign dyn' z' u.refs w.refs
    pure (.view u)
  | _ => fault .abort

/-- examples/indirect.cc:139-140. -/
def copyStripsEach (dyn : Bool) (z : List Int) (dyn' : Bool) (z' : List Int) (a b i : View) : Act V Unit := do
  let _ ← ply (β := Unit) dyn never z (.node (mapOp (copyStripOp dyn' z' a b)) [i.refs])
  pure ()

end

/-- Conversion of `double` to `int`, toward zero, as in examples/indirect.cc:128-130. -/
def ratInt (q : Rat) : Int := if 0 ≤ q then ⌊q⌋ else ⌈q⌉

/-- examples/indirect.cc:117-119, 124-131, the body of the loop, without rounding. `int(sqrt(q))` is the largest integer whose square isn't more than `q`. -/
def circleStrip (N : Nat) (r : Rat) (i : Nat) : List (List Int) :=
  let c : Rat := ((N : Rat) - 1) / 2
  let q : Rat := r * r - ((i : Rat) - c) * ((i : Rat) - c)
  if q < 0 then []
  else
    let d : Int := Nat.sqrt ⌊q⌋.toNat
    [[(i : Int), ratInt (c - d), ratInt (c + d)]]

/-- examples/indirect.cc:123-132, the loop. -/
def circleStrips (N : Nat) (r : Rat) : List (List Int) := (List.range N).flatMap (circleStrip N r)

end Ra
