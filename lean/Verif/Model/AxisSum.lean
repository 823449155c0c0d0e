import Verif.Model.Gemm
import Verif.Model.Manual
import Verif.Model.Fill
/-!
# Sums along an axis and products with vectors, as programs

The ways to add up the rows or the columns of a matrix in bench/bench-sum-cols.cc and bench/bench-sum-rows.cc, and the ways to write a product of a matrix and a vector in bench/bench-gemv.cc. As in
Model/Gemm.lean, the elements are of any type with `+` and `*`.
-/

namespace Ra

section
variable {V : Type} [Add V]

/-! Each element of `c` with a row of `a`. -/

/-- bench/bench-sum-cols.cc:36-47 `raw`. -/
def rowSumsRaw (c a : View) : Act V Unit :=
  let m := lenOf a.dims 0
  let n := lenOf a.dims 1
  forLoop m fun i => forLoop n fun j => do
    let x ← Act.read (a.cp + (i * n + j))
    let w ← Act.read (c.cp + i)
    Act.write (c.cp + i) (w + x)

/-- bench/bench-sum-cols.cc:48-53 `sideways`. -/
def rowSumsSideways (dyn : Bool) (z : List Int) (c a : View) : Act V Unit :=
  forLoop (lenOf a.dims 1) fun j => do
    let x ← Act.lift (a.from [.dots (some 1), .scalar (.const j)])
    update (· + ·) dyn z c.refs x.refs

/-- bench/bench-sum-cols.cc:58-61 `wrank1`. If it doesn't compile, the model fails. -/
def rowSumsVerb (dyn : Bool) (z : List Int) (c a : View) : Act V Unit :=
  match mapVerb (updOp (· + ·)) [[0, 0]] [c.refs, a.refs] with
  | some e => do
    let _ ← ply (β := Unit) dyn never z e
    pure ()
  | none => fault .abort

/-- bench/bench-sum-cols.cc:62-65 `framematch`. -/
def rowSumsMatch (dyn : Bool) (z : List Int) (c a : View) : Act V Unit := update (· + ·) dyn z c.refs a.refs

/-! Each element of `c` with a column of `a`. -/

/-- bench/bench-sum-rows.cc:40-51 `raw`. -/
def colSumsRaw (c a : View) : Act V Unit :=
  let m := lenOf a.dims 0
  let n := lenOf a.dims 1
  forLoop m fun i => forLoop n fun j => do
    let x ← Act.read (a.cp + (i * n + j))
    let w ← Act.read (c.cp + j)
    Act.write (c.cp + j) (w + x)

/-- The operation on bench/bench-sum-rows.cc:60, with `c` from outside. `dyn`, `z` are those of this traversal. -/
def addRow (dyn : Bool) (z : List Int) (c : View) : List (Lv V) → Act V (Lv V)
  | [.view a] => do
    update (· + ·) dyn z c.refs a.refs
    pure (.view c)
  | _ => fault .abort

/-- bench/bench-sum-rows.cc:58-61 `rows`. -/
def colSumsRows (dyn : Bool) (z : List Int) (dyn' : Bool) (z' : List Int) (c a : View) : Act V Unit := do
  let i ← Act.lift (a.cells 1)
  let _ ← ply (β := Unit) dyn never z (.node (mapOp (addRow dyn' z' c)) [i])
  pure ()

/-- bench/bench-sum-rows.cc:62-69 `wrank1` and `wrank2`, with the ranks of each verb. If it doesn't compile, the model fails. -/
def colSumsVerb (cranks : List (List Nat)) (dyn : Bool) (z : List Int) (c a : View) : Act V Unit :=
  match mapVerb (updOp (· + ·)) cranks [c.refs, a.refs] with
  | some e => do
    let _ ← ply (β := Unit) dyn never z e
    pure ()
  | none => fault .abort

/-- bench/bench-sum-rows.cc:70-73 `scalar`. The elements are `c` itself (expr.hh:104-120) and the rows of `a`, with the assignment to a view on arrays.hh:129-136. -/
def colSumsScalar (dyn : Bool) (z : List Int) (dyn' : Bool) (z' : List Int) (c a : View) : Act V Unit := do
  let i ← Act.lift (a.cells 1)
  let _ ← ply (β := Unit) dyn never z (.node (mapOp (cellUpd (· + ·) dyn' z')) [.scalar (pure (.view c)), i])
  pure ()

/-- bench/bench-sum-rows.cc:74-77 `iter`. -/
def colSumsIter (dyn : Bool) (z : List Int) (dyn' : Bool) (z' : List Int) (c a : View) : Act V Unit := rowsByCells (· + ·) dyn z dyn' z' c a

/-- bench/bench-sum-rows.cc:78-81 `transp`. -/
def colSumsTransp (dyn : Bool) (z : List Int) (c a : View) : Act V Unit := rowsByTranspose (· + ·) dyn z c a

end

section
variable {V : Type} [Inhabited V] [Zero V] [Add V]

/-- The operation on bench/bench-sum-cols.cc:56, `c += sum(a)`, with the right side first. -/
def addSum (dyn : Bool) (z : List Int) : List (Lv V) → Act V (Lv V)
  | [.ref p, .view a] => do
    let v ← sumOf dyn z a.reads
    let w ← Act.read p
    Act.write p (w + v)
    pure (.ref p)
  | _ => fault .abort

/-- bench/bench-sum-cols.cc:54-57 `accumcols`. -/
def rowSumsAccum (dyn : Bool) (z : List Int) (dyn' : Bool) (z' : List Int) (c a : View) : Act V Unit := do
  let i ← Act.lift (a.cells 1)
  let _ ← ply (β := Unit) dyn never z (.node (mapOp (addSum dyn' z')) [c.refs, i])
  pure ()

/-- bench/bench-sum-rows.cc:52-57 `sideways`. -/
def colSumsSideways (dyn : Bool) (z : List Int) (c a : View) : Act V Unit :=
  forLoop (lenOf a.dims 1) fun j => do
    let x ← Act.lift (a.from [.dots (some 1), .scalar (.const j)])
    let v ← sumOf dyn z x.reads
    let p ← Act.lift (c.from [.scalar (.const j)])
    let w ← Act.read p.cp
    Act.write p.cp (w + v)

variable [Mul V]

/-! Products of a matrix and a vector. The result is a new array (`Big`), made on the first line with zeros or without elements. -/

/-- bench/bench-gemv.cc:33-43 `gemv_0`, the loop. -/
def gemvLoop0 (a b c : View) : Act V Unit :=
  forLoop (lenOf a.dims 0) fun i => forLoop (lenOf a.dims 1) fun j => do
    let x ← Act.read (a.cp + (j * stepOf a.dims 1 + stepOf a.dims 0 * i))
    let q ← Act.lift (b.from [.scalar (.const j)])
    let y ← Act.read q.cp
    let p ← Act.lift (c.from [.scalar (.const i)])
    let w ← Act.read p.cp
    Act.write p.cp (w + x * y)

/-- bench/bench-gemv.cc:45-52 `gemv_i`, the loop. -/
def gemvLoopI (dyn : Bool) (z : List Int) (a b c : View) : Act V Unit :=
  forLoop (lenOf a.dims 0) fun i => do
    let x ← Act.lift (a.from [.scalar (.const i)])
    let v ← dotViews dyn z x b
    let p ← Act.lift (c.from [.scalar (.const i)])
    Act.write p.cp v

/-- bench/bench-gemv.cc:54-62 `gemv_j`, the loop. -/
def gemvLoopJ (dyn : Bool) (z : List Int) (a b c : View) : Act V Unit :=
  forLoop (lenOf a.dims 1) fun j => do
    let x ← Act.lift (a.from [.dots (some 1), .scalar (.const j)])
    let q ← Act.lift (b.from [.scalar (.const j)])
    update (· + ·) dyn z c.refs (binaryOp (· * ·) x.refs (.scalar (pure (.ref q.cp))))

/-- bench/bench-gemv.cc:64-71 `gevm_j`, the loop. -/
def gevmLoopJ (dyn : Bool) (z : List Int) (b a c : View) : Act V Unit :=
  forLoop (lenOf a.dims 1) fun j => do
    let x ← Act.lift (a.from [.dots (some 1), .scalar (.const j)])
    let v ← dotViews dyn z b x
    let p ← Act.lift (c.from [.scalar (.const j)])
    Act.write p.cp v

/-- bench/bench-gemv.cc:73-81 `gevm_i`, the loop. -/
def gevmLoopI (dyn : Bool) (z : List Int) (b a c : View) : Act V Unit :=
  forLoop (lenOf a.dims 0) fun i => do
    let q ← Act.lift (b.from [.scalar (.const i)])
    let x ← Act.lift (a.from [.scalar (.const i)])
    update (· + ·) dyn z c.refs (binaryOp (· * ·) (.scalar (pure (.ref q.cp))) x.refs)

/-- bench/bench-gemv.cc:33-43 `gemv_0`. -/
def gemv0 (o : Option Int) (fill : Nat → V) (dyn : Bool) (z : List Int) (a b : View) (μ : Mem V) : Except Fault Arr × Mem V :=
  Arr.andDo (Arr.ofExpr (some 1) o fill dyn z [lenOf a.dims 0] (.scalar (pure (.val 0))) μ) fun c => gemvLoop0 a b c.view

/-- bench/bench-gemv.cc:45-52 `gemv_i`. -/
def gemvI (o : Option Int) (fill : Nat → V) (dyn : Bool) (z : List Int) (a b : View) (μ : Mem V) : Except Fault Arr × Mem V :=
  Arr.andDo (Arr.create (some 1) o fill [lenOf a.dims 0] μ) fun c => gemvLoopI dyn z a b c.view

/-- bench/bench-gemv.cc:54-62 `gemv_j`. -/
def gemvJ (o : Option Int) (fill : Nat → V) (dyn dyn' : Bool) (z z' : List Int) (a b : View) (μ : Mem V) : Except Fault Arr × Mem V :=
  Arr.andDo (Arr.ofExpr (some 1) o fill dyn' z' [lenOf a.dims 0] (.scalar (pure (.val 0))) μ) fun c => gemvLoopJ dyn z a b c.view

/-- bench/bench-gemv.cc:64-71 `gevm_j`. -/
def gevmJ (o : Option Int) (fill : Nat → V) (dyn : Bool) (z : List Int) (b a : View) (μ : Mem V) : Except Fault Arr × Mem V :=
  Arr.andDo (Arr.create (some 1) o fill [lenOf a.dims 1] μ) fun c => gevmLoopJ dyn z b a c.view

/-- bench/bench-gemv.cc:73-81 `gevm_i`. -/
def gevmI (o : Option Int) (fill : Nat → V) (dyn dyn' : Bool) (z z' : List Int) (b a : View) (μ : Mem V) : Except Fault Arr × Mem V :=
  Arr.andDo (Arr.ofExpr (some 1) o fill dyn' z' [lenOf a.dims 1] (.scalar (pure (.val 0))) μ) fun c => gevmLoopI dyn z b a c.view

end
end Ra
