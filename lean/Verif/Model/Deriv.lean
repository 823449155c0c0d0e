import Verif.Model.Count
import Verif.Model.Opt
import Mathlib.Algebra.Field.Defs
/-!
# Samples of a function and their second differences, as a program

examples/deriv.cc. The arrays there are made by their constructors (see C30, C56 for those); here they are views of the arrays.
-/

namespace Ra

section
variable {V : Type} [Field V]

/-- A map with a function of one argument (ra.hh:196-202). A function made with several maps, as `sqr(cos(x))`, is given as one (C74). -/
def mapVal (f : V → V) (a : Iter (Act V) (Lv V)) : Iter (Act V) (Lv V) :=
  .node (valOp fun vs => match vs with
    | [x] => pure (f x)
    | _ => fault .abort) [a]

/-- examples/deriv.cc:44 `Array1D y({numSamples}, sqr(cos(i * delta)))`, and 47. -/
def sampleOf (dyn : Bool) (z : List Int) (f : V → V) (delta : V) (v : View) : Act V Unit :=
  assign dyn z v.refs (mapVal f (binaryOp (· * ·) (tindexVal 0) (.scalar (pure (.val delta)))))

omit [Field V] in
/-- An iota as subscript (ply.hh:399-411). -/
def Seq1.asSub (i : Seq1) : Sub := .iota [(.const i.len.val, .const i.step)] (.const i.o)

omit [Field V] in
/-- examples/deriv.cc:53 `ra::iota(numSamples-2, 1)`. -/
def insideIota (n : Int) : Except Fault Seq1 := mkIota (.dyn (n - 2)) 1 1

/-- examples/deriv.cc:55 `y2(I) = (y(I-1) - 2 * y(I) + y(I+1)) / (delta*delta)`. `I-1` and `I+1` are iotas (ra.hh:132-137). -/
def secondDiff (dyn : Bool) (z : List Int) (n : Int) (delta : V) (y y2 : View) : Act V Unit := do
  let i ← Act.lift (insideIota n)
  let d ← Act.lift (y2.from [i.asSub])
  let l ← Act.lift (optSubIS i 1)
  let a ← Act.lift (y.from [l.asSub])
  let b ← Act.lift (y.from [i.asSub])
  let r ← Act.lift (optAddIS i 1)
  let c ← Act.lift (y.from [r.asSub])
  assign dyn z d.refs (binaryOp (· / ·)
    (binaryOp (· + ·) (binaryOp (· - ·) a.refs (binaryOp (· * ·) (.scalar (pure (.val 2))) b.refs)) c.refs) (.scalar (pure (.val (delta * delta)))))

/-- `a - b` for values, as in examples/deriv.cc:67. -/
def minusVal {m : Type → Type} [Monad m] [MonadFault m] : List V → m V
  | [x, y] => pure (x - y)
  | _ => fault .abort

/-- ra.hh:65 `sqr`, for values. -/
def sqrVal {m : Type → Type} [Monad m] [MonadFault m] : List V → m V
  | [x] => pure (x * x)
  | _ => fault .abort

/-- examples/deriv.cc:67 `sqrt(sum(sqr(y2(I) - y2exact(I)))/ra::size(I))`. `root` is `sqrt`. -/
def rmsError [Inhabited V] (root : V → V) (dyn : Bool) (z : List Int) (n : Int) (y2 y2exact : View) : Act V V := do
  let i ← Act.lift (insideIota n)
  let u ← Act.lift (y2.from [i.asSub])
  let w ← Act.lift (y2exact.from [i.asSub])
  let s ← sumOf dyn z (.node (mapOp sqrVal) [.node (mapOp minusVal) [u.reads, w.reads]])
  pure (root (s / (i.len.val : V)))

/-- examples/deriv.cc:44-67. -/
def derivRun [Inhabited V] (root : V → V) (f f2 : V → V) (dyn : Bool) (z : List Int) (n : Int) (delta : V) (y y2exact y2 : View) : Act V V := do
  sampleOf dyn z f delta y
  sampleOf dyn z f2 delta y2exact
  secondDiff dyn z n delta y y2
  rmsError root dyn z n y2 y2exact

end
end Ra
