import Verif.Model.StencilRun
import Mathlib.Algebra.Order.Field.Basic
/-!
# Conjugate gradients

examples/cghs.hh and the matrices in examples/laplace2d.cc, with elements in any ordered field in place of `double`, that is, as if without rounding.
-/

namespace Ra

section
variable {F : Type} [Inhabited F] [Field F] [LinearOrder F]

/-- `reduce_sqrm(v)` (ra.hh:395-401) for a view of real elements, as on examples/cghs.hh:26. -/
def sqrmView (dyn : Bool) (z : List Int) (v : View) : Act F F := reduceSqrm (fun x => x * x) dyn z v.reads

/-- examples/cghs.hh:33-43, the loop. `i` counts the iterations; it's an `int` in the code. `limit` bounds their number, which the code doesn't; the model fails if it isn't enough, and also when the
code would divide by zero. `mult` includes the argument `a` of the code. -/
def cghsLoop (dyn : Bool) (z : List Int) (mult : View → View → Act F Unit) (x g r p : View) (err : F) : (limit : Nat) → (i : Nat) → Act F Nat
  | 0, _ => fault .abort
  | limit + 1, i => do
    let q ← sqrmView dyn z g
    if err < q then
      mult r p
      let rho ← sqrmView dyn z p
      let sig ← dotViews dyn z r p
      let tau ← dotViews dyn z g r
      if sig = 0 ∨ tau = 0 then fault .abort else
        let t := tau / sig
        let gam := (t * t * rho - tau) / tau
        update (· + ·) dyn z x.refs (binaryOp (· * ·) (.scalar (pure (.val t))) r.refs)
        update (· - ·) dyn z g.refs (binaryOp (· * ·) (.scalar (pure (.val t))) p.refs)
        assign dyn z r.refs (binaryOp (· + ·) (binaryOp (· * ·) r.refs (.scalar (pure (.val gam)))) g.refs)
        cghsLoop dyn z mult x g r p err limit (i + 1)
    else
      pure i

/-- examples/cghs.hh:15-45 `cghs`. -/
def cghs (dyn : Bool) (z : List Int) (limit : Nat) (mult : View → View → Act F Unit) (b x work : View) (eps : F) : Act F Nat := do
  assign dyn z work.refs (.scalar (pure (.val 0)))
  let g ← Act.lift (work.from [.scalar (.const 0)])
  let r ← Act.lift (work.from [.scalar (.const 1)])
  let p ← Act.lift (work.from [.scalar (.const 2)])
  let e ← sqrmView dyn z b
  let err := eps * eps * e
  mult x g
  assign dyn z g.refs (binaryOp (· - ·) b.refs g.refs)
  assign dyn z r.refs g.refs
  cghsLoop dyn z mult x g r p err limit 0

/-- The right side on examples/laplace2d.cc:36. The slices are made before. -/
def stiffExpr (c n0 n1 p0 p1 : View) : Iter (Act F) (Lv F) :=
  binaryOp (· - ·) (binaryOp (· - ·) (binaryOp (· - ·) (binaryOp (· - ·) (binaryOp (· * ·) (.scalar (pure (.val 4))) c.refs) n0.refs) n1.refs) p0.refs) p1.refs

/-- examples/laplace2d.cc:30-38 `mult` for `StiffMat`. `i`, `j` are iotas of the inside (lines 34-35). -/
def stiffMult (dyn : Bool) (z : List Int) (v w : View) : Act F Unit := do
  let ns := [lenOf v.dims 0, lenOf v.dims 1]
  let d ← Act.lift (sliceFrom ns [1, 1] w)
  let c ← Act.lift (sliceFrom ns [1, 1] v)
  let n0 ← Act.lift (sliceFrom ns [0, 1] v)
  let n1 ← Act.lift (sliceFrom ns [1, 0] v)
  let p0 ← Act.lift (sliceFrom ns [2, 1] v)
  let p1 ← Act.lift (sliceFrom ns [1, 2] v)
  assign dyn z d.refs (stiffExpr c n0 n1 p0 p1)

/-- The right side on examples/laplace2d.cc:48. -/
def massExpr (h : F) (c n0 n1 p0 p1 pp nn : View) : Iter (Act F) (Lv F) :=
  binaryOp (· * ·) (.scalar (pure (.val (h * h)))) (binaryOp (· + ·) (binaryOp (· / ·) c.refs (.scalar (pure (.val 2))))
    (binaryOp (· / ·) (binaryOp (· + ·) (binaryOp (· + ·) (binaryOp (· + ·) (binaryOp (· + ·) (binaryOp (· + ·) n0.refs n1.refs) p0.refs) p1.refs) pp.refs) nn.refs) (.scalar (pure (.val 12)))))

/-- examples/laplace2d.cc:42-50 `mult` for `MassMat`. -/
def massMult (dyn : Bool) (z : List Int) (h : F) (v w : View) : Act F Unit := do
  let ns := [lenOf v.dims 0, lenOf v.dims 1]
  let d ← Act.lift (sliceFrom ns [1, 1] w)
  let c ← Act.lift (sliceFrom ns [1, 1] v)
  let n0 ← Act.lift (sliceFrom ns [0, 1] v)
  let n1 ← Act.lift (sliceFrom ns [1, 0] v)
  let p0 ← Act.lift (sliceFrom ns [2, 1] v)
  let p1 ← Act.lift (sliceFrom ns [1, 2] v)
  let pp ← Act.lift (sliceFrom ns [2, 2] v)
  let nn ← Act.lift (sliceFrom ns [0, 0] v)
  assign dyn z d.refs (massExpr h c n0 n1 p0 p1 pp nn)

end
end Ra
