import Verif.Model.Program
import Verif.Model.Chain
/-!
# Programs with arrays and views

Programs of `Model/Program.lean`, with assignments where both sides may be views of views of the arrays.
-/

namespace Ra

/-- An expression with views of the arrays, made with any operations on views; scalars (expr.hh:104-120), and binary operators (ra.hh:181-189). An operator
whose arguments have rank 0 is like any other here; if that rank is known when compiling ra.hh:184-185 do it before the rest, and that's in `Model/Delay.lean`. -/
inductive VExp (V : Type) where
  | const (x : V)
  | view (i : Nat) (ops : List ViewOp)
  | op (f : V → V → V) (a b : VExp V)

/-- The operations of `Cmd`, and assignments `view = e` and `view OP e` where `view` is a view of a view ... of array `i` (expr.hh:50-60). -/
inductive VCmd (V : Type) where
  | cmd (c : Cmd V)
  | assign (i : Nat) (ops : List ViewOp) (e : VExp V)
  | update (f : V → V → V) (i : Nat) (ops : List ViewOp) (e : VExp V)

section
variable {V : Type}

/-- The view of array `i` that the operations give (arrays.hh:408-630, ply.hh:503-551). -/
def viewOf (as : List Arr) (i : Nat) (ops : List ViewOp) : Except Fault View :=
  match as[i]? with
  | some a => runOps ops a.view
  | none => .error .abort

/-- The iterator for an expression: expr.hh:128-134 `iter` for a scalar, expr.hh:317-328 for a view, and ra.hh:181-189. It fails if some view does. -/
def VExp.iter (as : List Arr) : VExp V → Except Fault (Iter (Act V) (Lv V))
  | .const x => .ok (.scalar (pure (.val x)))
  | .view i ops => do
    let w ← viewOf as i ops
    return w.refs
  | .op f a b => do
    let x ← a.iter as
    let y ← b.iter as
    return binaryOp f x y

/-- Do one operation (expr.hh:50-60 for assignments). -/
def VCmd.step (dyn : Bool) (z : List Int) (as : List Arr) (μ : Mem V) : VCmd V → Except Fault Unit × List Arr × Mem V
  | .cmd c => c.step dyn z as μ
  | .assign i ops e =>
    match viewOf as i ops, e.iter as with
    | .ok w, .ok t =>
      let r := Ra.assign dyn z w.refs t μ
      (r.1, as, r.2)
    | .error e, _ => (.error e, as, μ)
    | _, .error e => (.error e, as, μ)
  | .update f i ops e =>
    match viewOf as i ops, e.iter as with
    | .ok w, .ok t =>
      let r := Ra.update f dyn z w.refs t μ
      (r.1, as, r.2)
    | .error e, _ => (.error e, as, μ)
    | _, .error e => (.error e, as, μ)

/-- Do some operations (expr.hh:50-60; arrays.hh:276-313), one after the other. -/
def vprogram (dyn : Bool) (z : List Int) : List (VCmd V) → List Arr → Mem V → Except Fault Unit × List Arr × Mem V
  | [], as, μ => (.ok (), as, μ)
  | c :: cs, as, μ =>
    match c.step dyn z as μ with
    | (.ok (), as', μ') => vprogram dyn z cs as' μ'
    | (.error e, as', μ') => (.error e, as', μ')

end
end Ra
