import Verif.Model.Gemm
import Verif.Model.Frame
import Verif.Model.From
import Verif.Model.ViewOps
/-!
# The motion of bodies in examples/newton.cc

The program as it's written, for any number of bodies `n` in any number of dimensions `d` (`real3` is `d` = 3). The numbers are of any type, and `w` is the function on line 37 (`pow(·, 3/2.)`).
-/

namespace Ra

/-- What the elements of the expressions on examples/newton.cc:57 are: an integer, an array of numbers that is a value (`real3`, arrays.hh:169-217, its elements in order), or a row of an array (expr.hh:304). -/
inductive Body (V : Type) where
  | num (i : Int)
  | vec (xs : List V)
  | row (v : View)

section
variable {V : Type} [Inhabited V] [Zero V] [Add V] [_root_.Sub V] [Mul V] [Div V]

/-- examples/newton.cc:36 `real3 deltax = x(j)-x(i)` (arrays.hh:189-208), where the arguments are `x(j)` and `x(i)`. The elements are given in the order of traversal. -/
def smallDiff (dyn : Bool) (z : List Int) (a b : View) : Act V (List V) :=
  forEachRef dyn z (fun c xs => match xs with
    | [x, y] => pure (c ++ [x - y])
    | _ => fault .abort) [] [a.reads, b.reads]

/-- examples/newton.cc:37 `sum(deltax*deltax)` (ra.hh:348-354) for an array that is a value. -/
def smallSquares (dx : List V) : V := (dx.map fun t => t * t).foldl (· + ·) 0

/-- examples/newton.cc:32-39 `force`. -/
def force (G : V) (w : V → V) (dyn : Bool) (z : List Int) (d : Nat) (m x : View) (i j : Int) : Act V (List V) :=
  if i = j then pure (List.replicate d 0)
  else do
    let xj ← Act.lift (x.from [.scalar (.const j)])
    let xi ← Act.lift (x.from [.scalar (.const i)])
    let dx ← smallDiff dyn z xj xi
    let mi ← Act.lift (m.from [.scalar (.const i)])
    let a ← Act.read mi.cp
    let mj ← Act.lift (m.from [.scalar (.const j)])
    let b ← Act.read mj.cp
    pure (dx.map fun t => t * (G * a * b / w (smallSquares dx)))

/-- `force` as the operation of `from` on examples/newton.cc:57. -/
def forceOp (G : V) (w : V → V) (dyn : Bool) (z : List Int) (d : Nat) (m x : View) : List (Body V) → Act V (Body V)
  | [.num i, .num j] => do
    let r ← force G w dyn z d m x i j
    pure (.vec r)
  | _ => fault .abort

/-- ply.hh:320-330 `iota(n)`, as on examples/newton.cc:57. -/
def bodyIota (n : Nat) : Iter (Act V) (Body V) := .cell [⟨n, 1⟩] 0 fun i => pure (.num i)

/-- expr.hh:317-328 `iter<1>(F)`, as on examples/newton.cc:57. -/
def View.bodyRows (F : View) : Except Fault (Iter (Act V) (Body V)) := do
  let (f, c) ← F.cell 1
  return .cell f F.cp fun p => pure (.row ⟨c, p⟩)

/-- expr.hh:50-51, the body of `=` on examples/newton.cc:57, with the assignment of an array to a view on arrays.hh:129-136. -/
def setRow (dyn : Bool) (z : List Int) : List (Body V) → Act V (Body V)
  | [.row w, .vec xs] => do
    assign dyn z w.refs (.cell [⟨xs.length, 1⟩] 0 fun p => pure (.val (xs.getD p.toNat 0)))
    pure (.row w)
  | _ => fault .abort

/-- examples/newton.cc:57 `iter<1>(F) = from(force, iota(bodies), iota(bodies))`. `dyn'`, `z'` are those of the inner traversals. -/
def setForces (G : V) (w : V → V) (dyn : Bool) (z : List Int) (dyn' : Bool) (z' : List Int) (n d : Nat) (m x F : View) : Act V Unit := do
  let f ← Act.lift F.bodyRows
  match fromOp (forceOp G w dyn' z' d m x) [bodyIota n, bodyIota n] with
  | some e => do
    let _ ← ply (β := Unit) dyn never z (.node (mapOp (setRow dyn' z')) [f, e])
    pure ()
  | none => fault .abort

/-- examples/newton.cc:59-60 `a = 0.` and `a += transpose(F, ilist<0, 2, 1>) / m`. -/
def setAccel (dyn : Bool) (z : List Int) (m a F : View) : Act V Unit := do
  assign dyn z a.refs (.scalar (pure (.val 0)))
  let f ← Act.lift (F.transpose [0, 2, 1])
  update (· + ·) dyn z a.refs (binaryOp (· / ·) f.refs m.refs)

/-- The body of the loop on examples/newton.cc:55-64, without `draw`. -/
def newtonStep (G : V) (w : V → V) (delta : V) (dyn : Bool) (z : List Int) (dyn' : Bool) (z' : List Int) (n d : Nat) (m x v a F : View) : Act V Unit := do
  setForces G w dyn z dyn' z' n d m x F
  setAccel dyn z m a F
  update (· + ·) dyn z v.refs (binaryOp (· * ·) a.refs (.scalar (pure (.val delta))))
  update (· + ·) dyn z x.refs (binaryOp (· * ·) v.refs (.scalar (pure (.val delta))))

/-- The loop on examples/newton.cc:55-64, for any number of steps. -/
def newtonLoop (G : V) (w : V → V) (delta : V) (dyn : Bool) (z : List Int) (dyn' : Bool) (z' : List Int) (n d : Nat) (m x v a F : View) (steps : Nat) : Act V Unit :=
  forLoop steps fun _ => newtonStep G w delta dyn z dyn' z' n d m x v a F

end
end Ra
