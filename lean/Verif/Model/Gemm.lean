import Verif.Model.Matrix
import Verif.Model.Frame
import Verif.Model.Reduce
/-!
# Matrix products as programs

The ways to write a matrix product in bench/bench-gemm.cc. The floating point operations are those of any type with `+` and `*`, without any laws, and `maybe_fma(a, b, c)` (ra.hh:364-372)
is `c += a*b` as if without rounding.
-/

namespace Ra

section
variable {V : Type} [Add V] [Mul V]

/-- `a(iota(n, o))`, as used on bench/bench-gemm.cc:84-93 (ply.hh:503-524). -/
def rowsOf (a : View) (n o : Int) : Except Fault View := a.from [.iota [(.const n, .const 1)] (.const o)]

/-- `a(all, iota(n, o))`, as used on bench/bench-gemm.cc:88-93. -/
def colsOf (a : View) (n o : Int) : Except Fault View := a.from [.dots (some 1), .iota [(.const n, .const 1)] (.const o)]

/-- bench/bench-gemm.cc:72-95 `gemm_block`. `depth` bounds the depth of the recursion, which the code doesn't; the model fails if it isn't enough. `dyn`, `z` are those of the
traversals in `gemm`. -/
def gemmBlock (dyn : Bool) (z : List Int) : Nat → View → View → View → Act V Unit
  | 0, _, _, _ => fault .abort
  | depth + 1, a, b, c =>
    let m := lenOf a.dims 0
    let p := lenOf a.dims 1
    let n := lenOf b.dims 1
    if max m (max p n) ≤ 64 then
      gemmSlice dyn z a.refs b c
    else if max p n ≤ m then do
      let a0 ← Act.lift (rowsOf a (m.tdiv 2) 0)
      let c0 ← Act.lift (rowsOf c (m.tdiv 2) 0)
      gemmBlock dyn z depth a0 b c0
      let a1 ← Act.lift (rowsOf a (m - m.tdiv 2) (m.tdiv 2))
      let c1 ← Act.lift (rowsOf c (m - m.tdiv 2) (m.tdiv 2))
      gemmBlock dyn z depth a1 b c1
    else if max m p ≤ n then do
      let b0 ← Act.lift (colsOf b (n.tdiv 2) 0)
      let c0 ← Act.lift (colsOf c (n.tdiv 2) 0)
      gemmBlock dyn z depth a b0 c0
      let b1 ← Act.lift (colsOf b (n - n.tdiv 2) (n.tdiv 2))
      let c1 ← Act.lift (colsOf c (n - n.tdiv 2) (n.tdiv 2))
      gemmBlock dyn z depth a b1 c1
    else do
      let a0 ← Act.lift (colsOf a (p.tdiv 2) 0)
      let b0 ← Act.lift (rowsOf b (p.tdiv 2) 0)
      gemmBlock dyn z depth a0 b0 c
      let a1 ← Act.lift (colsOf a (p - p.tdiv 2) (p.tdiv 2))
      let b1 ← Act.lift (rowsOf b (p - p.tdiv 2) (p.tdiv 2))
      gemmBlock dyn z depth a1 b1 c

/-- `for (dim_t i=0; i<n; ++i) { body(i) }`, as on bench/bench-gemm.cc:107-113. -/
def forLoop (n : Int) (body : Int → Act V Unit) : Act V Unit := (List.range n.toNat).forM fun (i : Nat) => body i

/-- bench/bench-gemm.cc:110 and 129, `cc[i*N+j] += aa[i*K+k] * bb[k*N+j]`, with the right side first. -/
def rawStep (cc aa bb : Int) (N K i j k : Int) : Act V Unit := do
  let x ← Act.read (aa + (i * K + k))
  let y ← Act.read (bb + (k * N + j))
  let w ← Act.read (cc + (i * N + j))
  Act.write (cc + (i * N + j)) (w + x * y)

/-- bench/bench-gemm.cc:97-114 `gemm_k_raw`. -/
def gemmKRaw (a b c : View) : Act V Unit :=
  let M := lenOf a.dims 0
  let N := lenOf b.dims 1
  let K := lenOf a.dims 1
  forLoop K fun k => forLoop M fun i => forLoop N fun j => rawStep c.cp a.cp b.cp N K i j k

/-- bench/bench-gemm.cc:116-133 `gemm_ij_raw`. -/
def gemmIJRaw (a b c : View) : Act V Unit :=
  let M := lenOf a.dims 0
  let N := lenOf b.dims 1
  let K := lenOf a.dims 1
  forLoop M fun i => forLoop N fun j => forLoop K fun k => rawStep c.cp a.cp b.cp N K i j k

/-- The product of two elements (`std::multiplies<>` on bench/bench-gemm.cc:54), which may be references. -/
def mulOp : List (Lv V) → Act V (Lv V)
  | [x, y] => do
    let u ← x.get
    let w ← y.get
    pure (.val (u * w))
  | _ => fault .abort

/-- `from(std::multiplies<>(), a(all, k), b(k))` on bench/bench-gemm.cc:54. If it doesn't compile, the model fails. -/
def outerMul (x y : View) : Act V (Iter (Act V) (Lv V)) :=
  match fromOp mulOp [x.refs, y.refs] with
  | some e => pure e
  | none => fault .abort

/-- bench/bench-gemm.cc:49-56 `gemm4`. -/
def gemm4 (dyn : Bool) (z : List Int) (a b c : View) : Act V Unit :=
  forLoop (lenOf a.dims 1) fun k => do
    let x ← Act.lift (a.from [.dots (some 1), .scalar (.const k)])
    let y ← Act.lift (b.from [.scalar (.const k)])
    let e ← outerMul x y
    update (· + ·) dyn z c.refs e

/-- ra.hh:372 `maybe_fma(a, b, c)` on elements, with `c` a reference. -/
def fmaOp : List (Lv V) → Act V (Lv V)
  | [x, y, .ref p] => do
    let u ← x.get
    let w ← y.get
    let v ← Act.read p
    Act.write p (v + u * w)
    pure (.ref p)
  | _ => fault .abort

/-- `for_each(verb, a, b, c)` with the verb made of `wrank` (expr.hh:472-499) around `maybe_fma`, as on bench/bench-gemm.cc:28, 36. If it doesn't compile, the model fails. -/
def fmaVerb (dyn : Bool) (z : List Int) (cranks : List (List Nat)) (a b c : View) : Act V Unit :=
  match mapVerb fmaOp cranks [a.refs, b.refs, c.refs] with
  | some e => do
    let _ ← ply (β := Unit) dyn never z e
    pure ()
  | none => fault .abort

/-- bench/bench-gemm.cc:25-30 `gemm1`. -/
def gemm1 (dyn : Bool) (z : List Int) (a b c : View) : Act V Unit := fmaVerb dyn z [[1, 2, 1], [0, 1, 1]] a b c

/-- bench/bench-gemm.cc:31-38 `gemm2`. -/
def gemm2 (dyn : Bool) (z : List Int) (a b c : View) : Act V Unit :=
  forLoop (lenOf a.dims 1) fun k => do
    let x ← Act.lift (a.from [.dots (some 1), .scalar (.const k)])
    let y ← Act.lift (b.from [.scalar (.const k)])
    fmaVerb dyn z [[0, 1, 1]] x y c

/-- bench/bench-gemm.cc:57-61 `gemm5`. -/
def gemm5 (dyn : Bool) (z : List Int) (a b c : View) : Act V Unit := do
  let c' ← Act.lift (c.from [.dots (some 1), .insert 1])
  let b' ← Act.lift (b.from [.insert 1])
  update (· + ·) dyn z c'.refs (binaryOp (· * ·) a.refs b'.refs)

/-- `fma(a, b, c)` on values (ra.hh:372), as if without rounding. -/
def fmaVal : List V → Act V V
  | [x, y, w] => pure (w + x * y)
  | _ => fault .abort

/-- bench/bench-gemm.cc:62-66 `gemm6`: `maybe_fma(a, b, c)` (ra.hh:372) on arrays. With `RA_FMA` that's `c = fma(a, b, c)`, else `c += a*b`. -/
def gemm6 (rafma : Bool) (dyn : Bool) (z : List Int) (a b c : View) : Act V Unit := do
  let b' ← Act.lift (b.from [.insert 1])
  let c' ← Act.lift (c.from [.dots (some 1), .insert 1])
  if rafma then
    assign dyn z c'.refs (.node (valOp fmaVal) [a.refs, b'.refs, c'.refs])
  else
    update (· + ·) dyn z c'.refs (binaryOp (· * ·) a.refs b'.refs)

end

section
variable {V : Type}

/-- expr.hh:317-328 `iter(v)` for a pointer to memory, as the argument of a reduction (ra.hh:279-401). The elements are read from memory. -/
def View.reads {γ : Type} (v : View) : Iter (StateT γ (Act V)) V := .cell v.dims v.cp fun p => StateT.lift (Act.read p)

variable [Inhabited V] [Zero V] [Add V] [Mul V]

/-- ra.hh:379-385 `dot(a, b)` for views. -/
def dotViews (dyn : Bool) (z : List Int) (a b : View) : Act V V := dotOf dyn z a.reads b.reads

/-- bench/bench-gemm.cc:39-48 `gemm3`, also 215-224 `gemm_k`. The right side of the assignment is evaluated first. `c(i, j)` is a reference to the element (ply.hh:509-510). -/
def gemm3 (dyn : Bool) (z : List Int) (a b c : View) : Act V Unit :=
  forLoop (lenOf a.dims 0) fun i => forLoop (lenOf b.dims 1) fun j => do
    let x ← Act.lift (a.from [.scalar (.const i)])
    let y ← Act.lift (b.from [.dots (some 1), .scalar (.const j)])
    let v ← dotViews dyn z x y
    let w ← Act.lift (c.from [.scalar (.const i), .scalar (.const j)])
    Act.write w.cp v

end
end Ra
