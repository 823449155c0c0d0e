import Verif.Model.Array
import Verif.Model.Frame
/-!
# Programs with arrays

Sequences of the operations on containers of `Model/Array.lean`, of assignments to single elements, and of assignments of expressions whose arguments are
the same arrays.
-/

namespace Ra

/-- An expression with some of the arrays, given by their place, scalars (expr.hh:104-120) and binary operators (ra.hh:181-189). -/
inductive Exp (V : Type) where
  | const (x : V)
  | arr (i : Nat)
  | op (f : V → V → V) (a b : Exp V)

/-- Operations on a list of arrays, given by their place: those of arrays.hh:276-313 and 330-346, `a(j ...) = x` (ply.hh:509-510), `a = e` (arrays.hh:276-281,
expr.hh:50-60) and `a OP e` with the other assignment operators. `op (run p)` isn't used. -/
inductive Cmd (V : Type) where
  | op (o : Op V)
  | set (i : Nat) (j : List Int) (x : V)
  | assign (i : Nat) (e : Exp V)
  | update (f : V → V → V) (i : Nat) (e : Exp V)

section
variable {V : Type}

/-- The iterator for an expression: expr.hh:128-134 `iter` for a scalar, expr.hh:317-328 for an array, and ra.hh:181-189. There's none if it has an array that
doesn't exist. -/
def Exp.iter (as : List Arr) : Exp V → Option (Iter (Act V) (Lv V))
  | .const x => some (.scalar (pure (.val x)))
  | .arr i => match as[i]? with
    | some a => some a.view.refs
    | none => none
  | .op f a b => match a.iter as, b.iter as with
    | some x, some y => some (binaryOp f x y)
    | _, _ => none

/-- Do one operation. `dyn` and `z` are as for `ply` (ply.hh:157-166). With a number of subscripts other than the rank, `a(j ...)` isn't an element (ply.hh:503-525);
that isn't modelled here. -/
def Cmd.step (dyn : Bool) (z : List Int) (as : List Arr) (μ : Mem V) : Cmd V → Except Fault Unit × List Arr × Mem V
  | .op o => o.step as μ
  | .set i j x =>
    match as[i]? with
    | some a =>
      if j.length = a.dims.length then
        let r := (a.view.elemAt (fun p => Act.write p x) j) μ
        (r.1, as, r.2)
      else (.error .abort, as, μ)
    | none => (.error .abort, as, μ)
  | .assign i e =>
    match as[i]?, e.iter as with
    | some a, some t =>
      let r := Ra.assign dyn z a.view.refs t μ
      (r.1, as, r.2)
    | _, _ => (.error .abort, as, μ)
  | .update f i e =>
    match as[i]?, e.iter as with
    | some a, some t =>
      let r := Ra.update f dyn z a.view.refs t μ
      (r.1, as, r.2)
    | _, _ => (.error .abort, as, μ)

/-- Do some operations (arrays.hh:276-313, 330-346; expr.hh:50-60), one after the other. -/
def program (dyn : Bool) (z : List Int) : List (Cmd V) → List Arr → Mem V → Except Fault Unit × List Arr × Mem V
  | [], as, μ => (.ok (), as, μ)
  | c :: cs, as, μ =>
    match c.step dyn z as μ with
    | (.ok (), as', μ') => program dyn z cs as' μ'
    | (.error e, as', μ') => (.error e, as', μ')

end
end Ra
