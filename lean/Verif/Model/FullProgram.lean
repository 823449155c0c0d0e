import Verif.Model.ViewProgram
import Verif.Model.Reduce
import Verif.Model.Tindex
import Verif.Model.Fill
/-!
# Programs with any expressions

As `Model/ViewProgram.lean`, with more kinds of expressions: operations with any number of arguments, rank conjunction, `pick`, index placeholders, iotas, array
subscripts, and reductions; and with arrays that are made from expressions.
-/

namespace Ra

/-- Expressions of
* `const`: scalars (expr.hh:104-120);
* `index`: the placeholder `_w` (arrays.hh:361-364), with a conversion; `iota()` is `_0`;
* `iota`: `iota(n, o, s)` (ply.hh:320-330; expr.hh:79-100), with a conversion;
* `view`: views of the arrays, made with any operations on views;
* `map`: `map(f, t ...)`, or with rank conjunctions `map(wrank<c ...>(wrank<d ...>(... f)), t ...)`, where `cranks` is `[[c, ...], [d, ...], ...]` (expr.hh:652-678);
* `gather`: array subscripts `a(i ...)` where `a` is a view, as in `view`, whose rank is static. In `mask` there's `true` for each array subscript, those are `t`, and `false` for `all`. Other kinds
  of subscripts are in `ops` (ply.hh:503-525). The elements are references, if those of the array are;
* `pick`: `pick(p, t ...)`, so also `where` (expr.hh:686-728; ra.hh:267-272);
* `fold`: a reduction such as `sum(e)` (ra.hh:306-401), that updates a variable with `f`, from `x0`. -/
inductive FExp (V : Type) where
  | const (x : V)
  | index (w : Nat) (f : Int → V)
  | iota (n : Nat) (o s : Int) (f : Int → V)
  | view (i : Nat) (ops : List ViewOp)
  | gather (n : IndexLike V) (i : Nat) (ops : List ViewOp) (mask : List Bool) (t : List (FExp V))
  | map (f : List V → V) (cranks : List (List Nat)) (t : List (FExp V))
  | pick (sel : V → Nat) (t : List (FExp V))
  | fold (f : V → V → V) (x0 : V) (e : FExp V)

section
variable {V : Type} {m : Type → Type} [Monad m] [MonadFault m] [MonadLiftT (Act V) m]

/-- Get the values from some values or references, one after the other, as the operations of ra.hh:181-202 do with their arguments. -/
def getAll (xs : List (Lv V)) : m (List V) := xs.mapM fun x => liftM (x.get : Act V V)

/-- expr.hh:652-663 `Map` with an operation that takes and gives values, as `valOp`. The traversal may have other effects. -/
def valOpIn (f : List V → V) (xs : List (Lv V)) : m (Lv V) := do
  let vs ← getAll xs
  pure (.val (f vs))

/-- The element of `Pick`: expr.hh:701-710, 719-720. The selector is a value; the result is what was selected, and may be a reference. -/
def pickIn (sel : V → Nat) (xs : List (m (Lv V))) : m (Lv V) :=
  match xs with
  | [] => fault .abort
  | p :: ps => do
    let l ← p
    let x ← liftM (l.get : Act V V)
    pickStar 0 (sel x) ps

/-- Elements as subscripts (ply.hh:503-511). Those that are references are read before, see `gatherOp`. -/
def lvIndex (n : IndexLike V) : IndexLike (Lv V) where
  toIdx
    | .val x => n.toIdx x
    | _ => 0
  ofIdx i := .val (n.ofIdx i)
  toIdx_ofIdx i := n.toIdx_ofIdx i

/-- ply.hh:509-511, the operation of the outer product for array subscripts: an element of the slice `b`. -/
def gatherOp (n : IndexLike V) (b : View) (xs : List (Lv V)) : m (Lv V) := do
  let vs ← getAll xs
  b.elemAt (fun p => pure (.ref p)) (vs.map n.toIdx)

/-- ply.hh:503-525 `from` with array subscripts `t`, as `View.fromArrays`, where the operation reads the subscripts. -/
def View.gather (n : IndexLike V) (w : View) (mask : List Bool) (t : List (Iter m (Lv V))) : Except Fault (Option (Iter m (Lv V))) := do
  let (cp, dims, ds) ← fromb w.cp 0 w.dims (mask.map fun a => if a then .array else .dots (some 1))
  let args ← @fromuArgs m (Lv V) _ (lvIndex n) dims 0 (ds.zip t)
  return fromOp (gatherOp n ⟨dims, cp⟩) args

mutual
/-- The iterator for an expression: as `VExp.iter`, with expr.hh:668-678 `map` and `map_verb`, expr.hh:724-728 `pick`, arrays.hh:361 `tindex`, and expr.hh:353-359 for `iota`. A rank conjunction whose ranks are too large
doesn't compile, this is `abort`. The reductions are done before (see `eager`), so there are none here. -/
def FExp.iter (as : List Arr) : FExp V → Except Fault (Iter m (Lv V))
  | .const x => .ok (.scalar (pure (.val x)))
  | .index w f => .ok (reframe [w] (.cell [⟨UNB, 1⟩] 0 fun i => pure (.val (f i))))
  | .iota n o s f => .ok (.cell [⟨n, s⟩] o fun i => pure (.val (f i)))
  | .view i ops => do
    let w ← viewOf as i ops
    return .cell w.dims w.cp fun p => pure (.ref p)
  | .gather n i ops mask t => do
    let w ← viewOf as i ops
    let t ← FExp.iters as t
    match ← w.gather n mask t with
    | some e => return e
    | none => .error .abort
  | .map f cranks t => do
    let t ← FExp.iters as t
    match mapVerb (valOpIn f) cranks t with
    | some e => return e
    | none => .error .abort
  | .pick sel t => do
    let t ← FExp.iters as t
    return .node (pickIn sel) t
  | .fold _ _ _ => .error .abort
/-- The same for each argument (expr.hh:668-678, 724-728). -/
def FExp.iters (as : List Arr) : List (FExp V) → Except Fault (List (Iter m (Lv V)))
  | [] => .ok []
  | e :: t => do
    let e ← FExp.iter as e
    let t ← FExp.iters as t
    return e :: t
end

end

section
variable {V : Type}

/-- The value of the traversals of `for_each` (ply.hh:168), that isn't used. -/
instance : Inhabited (Lv V) := ⟨.ref 0⟩

/-- The operation of a reduction such as on ra.hh:351-352 (`sum`): it reads an element, and updates the variable `c`. -/
def foldOp (f : V → V → V) (c : V) (xs : List (Lv V)) : Act V V :=
  match xs with
  | [x] => do
    let v ← x.get
    pure (f c v)
  | _ => fault .abort

mutual
/-- Do the reductions of an expression (ra.hh:348-401, also 306-321). They give a value when the expression is made, not when it's used. `dyn` and `z` are as in `ply`. -/
def FExp.eager (dyn : Bool) (z : List Int) (as : List Arr) : FExp V → Act V (FExp V)
  | .const x => pure (.const x)
  | .index w f => pure (.index w f)
  | .iota n o s f => pure (.iota n o s f)
  | .view i ops => pure (.view i ops)
  | .gather n i ops mask t => do
    let t ← FExp.eagers dyn z as t
    pure (.gather n i ops mask t)
  | .map f cranks t => do
    let t ← FExp.eagers dyn z as t
    pure (.map f cranks t)
  | .pick sel t => do
    let t ← FExp.eagers dyn z as t
    pure (.pick sel t)
  | .fold f x0 e => do
    let e ← FExp.eager dyn z as e
    let t ← Act.lift (FExp.iter (m := StateT V (Act V)) as e)
    let x ← forEachRef dyn z (foldOp f) x0 [t]
    pure (.const x)
/-- The same for each argument (ra.hh:348-401). -/
def FExp.eagers (dyn : Bool) (z : List Int) (as : List Arr) : List (FExp V) → Act V (List (FExp V))
  | [] => pure []
  | e :: t => do
    let e ← FExp.eager dyn z as e
    let t ← FExp.eagers dyn z as t
    pure (e :: t)
end

/-- The operations of `Cmd`, and assignments `d = e` and `d OP e` (expr.hh:50-60) where `d` is a view of a view ... of an array, or any expression that gives references to elements, such as a
`pick` of views, or a view with array subscripts. Also `Array(e)` (arrays.hh:291), where `rk` is the rank of the type of the new array, if it's static, and `o`, `fill` are as in `create`. -/
inductive FCmd (V : Type) where
  | cmd (c : Cmd V)
  | assign (d e : FExp V)
  | update (f : V → V → V) (d e : FExp V)
  | make (rk : Option Nat) (o : Option Int) (fill : Nat → V) (e : FExp V)

/-- expr.hh:50-60, `d OP e` where `op` is the body of `OP`. Both sides are made before the traversal. -/
def fassign (dyn : Bool) (z : List Int) (as : List Arr) (op : List (Lv V) → Act V (Lv V)) (d e : FExp V) : Act V Unit := do
  let d ← d.eager dyn z as
  let e ← e.eager dyn z as
  let w ← Act.lift (d.iter (m := Act V) as)
  let t ← Act.lift (e.iter (m := Act V) as)
  let _ ← ply (β := Unit) dyn never z (.node (mapOp op) [w, t])
  pure ()

/-- arrays.hh:291 `Array(e)`. -/
def fmake (dyn : Bool) (z : List Int) (as : List Arr) (rk : Option Nat) (o : Option Int) (fill : Nat → V) (e : FExp V) : Act V Arr := do
  let e ← e.eager dyn z as
  let t ← Act.lift (e.iter (m := Act V) as)
  concreteBig rk o fill dyn z t

/-- Do one operation (expr.hh:50-60 for assignments; arrays.hh:291). -/
def FCmd.step (dyn : Bool) (z : List Int) (as : List Arr) (μ : Mem V) : FCmd V → Except Fault Unit × List Arr × Mem V
  | .cmd c => c.step dyn z as μ
  | .assign d e =>
    let r := fassign dyn z as setOp d e μ
    (r.1, as, r.2)
  | .update f d e =>
    let r := fassign dyn z as (updOp f) d e μ
    (r.1, as, r.2)
  | .make rk o fill e =>
    match fmake dyn z as rk o fill e μ with
    | (.ok a, μ') => (.ok (), as ++ [a], μ')
    | (.error f, μ') => (.error f, as, μ')

/-- Do some operations (expr.hh:50-60; arrays.hh:276-313), one after the other. -/
def fprogram (dyn : Bool) (z : List Int) : List (FCmd V) → List Arr → Mem V → Except Fault Unit × List Arr × Mem V
  | [], as, μ => (.ok (), as, μ)
  | c :: cs, as, μ =>
    match c.step dyn z as μ with
    | (.ok (), as', μ') => fprogram dyn z cs as' μ'
    | (.error e, as', μ') => (.error e, as', μ')

end
end Ra
