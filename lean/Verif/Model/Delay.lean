import Verif.Model.ViewProgram
/-!
# Expressions that are kept to be used later

Programs of `Model/ViewProgram.lean`, with variables that hold expressions: `auto e = a+b; ...; c = e`. An expression has pointers to the elements of its arguments, and pointers to the
dims of those arguments that aren't temporaries.
-/

namespace Ra

/-- An expression with views of the arrays, scalars, variables that hold other expressions, given by their place, and binary operators (ra.hh:181-189). Variables of scalar type can be given
as arrays of rank 0: `Scalar<T &>` (expr.hh:104-120) is a reference to the variable, as `Cell` is to an array of rank 0. -/
inductive DExp (V : Type) where
  | const (x : V)
  | view (i : Nat) (ops : List ViewOp)
  | kept (k : Nat)
  | op (f : V → V → V) (a b : DExp V)

/-- What `auto e = ...` holds. `val` is a number, or a `Scalar` that has a number (expr.hh:104-120, `C` isn't a reference). `arr` is a `Cell` for an array, whose member `dimv` is a reference
to that of the array (expr.hh:317-326 with `s` an lvalue, and the deduction guide on line 314); the pointer is the one from when it was made. `view` is a `Cell` for a temporary view, with
a copy of the dims. `op` is a `Map` (expr.hh:652-678). -/
inductive Kept (V : Type) where
  | val (x : V)
  | arr (i : Nat) (cp : Int)
  | view (w : View)
  | op (f : V → V → V) (a b : Kept V)

/-- The operations of `VCmd`; `auto e = ...` (ra.hh:181-189, expr.hh:668-678); and assignments `view = e` and `view OP e` with these expressions (expr.hh:50-60). -/
inductive DCmd (V : Type) where
  | cmd (c : VCmd V)
  | make (e : DExp V)
  | assign (i : Nat) (ops : List ViewOp) (e : DExp V)
  | update (f : V → V → V) (i : Nat) (ops : List ViewOp) (e : DExp V)

section
variable {V : Type}

/-- The iterator that is traversed (expr.hh:128-134, 317-328). The dims of an array are those at this time. -/
def Kept.iter (as : List Arr) : Kept V → Option (Iter (Act V) (Lv V))
  | .val x => some (.scalar (pure (.val x)))
  | .arr i cp => match as[i]? with
    | some a => some (View.refs ⟨a.dims, cp⟩)
    | none => none
  | .view w => some w.refs
  | .op f a b => match a.iter as, b.iter as with
    | some x, some y => some (binaryOp f x y)
    | _, _ => none

/-- The value of an expression of rank 0 (expr.hh:136-144 `VAL`). -/
def Kept.read (as : List Arr) (x : Kept V) : Act V V :=
  match x.iter as with
  | some t => do
    let l ← t.deref
    l.get
  | none => fault .abort

/-- If what a variable holds is a number (base.hh:368 `toreduce`), see `DExp.keep`. -/
def Kept.rank0 : Kept V → Bool
  | .val _ => true
  | _ => false

/-- If a view of array `i` has static rank 0 (base.hh:368 `toreduce`), see `DExp.keep`. -/
def viewRank0 (as : List Arr) (i : Nat) (w : View) : Bool :=
  match as[i]? with
  | some a => a.rk.isSome && w.dims.length == 0
  | none => false

/-- Make an expression, and say if its rank is 0 and known when compiling (base.hh:366-367, `is_ra_0` or `is_scalar`). ra.hh:182-183 make a `Map`; ra.hh:184-185, for `toreduce` (base.hh:368), read the
arguments and give a number, and so do the operators of the language if the arguments are numbers. A variable that holds an expression is copied (expr.hh:129). The views of an array whose rank is
known when compiling have a rank that is known when compiling; this leaves out transpositions to axes that aren't known when compiling. -/
def DExp.keep (as : List Arr) (ks : List (Kept V)) : DExp V → Act V (Kept V × Bool)
  | .const x => pure (.val x, true)
  | .view i [] => match as[i]? with
    | some a => pure (.arr i a.base, viewRank0 as i a.view)
    | none => fault .abort
  | .view i (o :: ops) => do
    let w ← Act.lift (viewOf as i (o :: ops))
    pure (.view w, viewRank0 as i w)
  | .kept k => match ks[k]? with
    | some x => pure (x, x.rank0)
    | none => fault .abort
  | .op f a b => do
    let (x, p) ← a.keep as ks
    let (y, q) ← b.keep as ks
    if p && q then
      let v ← (Kept.op f x y).read as
      pure (.val v, true)
    else pure (.op f x y, false)

/-- What is kept by `auto e = ...`. If it's a number then it's a copy; also for arrays of rank 0 and for `a(i)` when that's an element. An array of higher rank would also be copied; here
`auto e = a` is for `auto e = iter(a)` (expr.hh:317-328). -/
def DExp.hold (as : List Arr) (ks : List (Kept V)) (e : DExp V) : Act V (Kept V) := do
  let (x, p) ← e.keep as ks
  if p then
    let v ← x.read as
    pure (.val v)
  else pure x

/-- Do one operation (expr.hh:50-60 for assignments). -/
def DCmd.step (dyn : Bool) (z : List Int) (as : List Arr) (ks : List (Kept V)) (μ : Mem V) : DCmd V → Except Fault Unit × List Arr × List (Kept V) × Mem V
  | .cmd c => match c.step dyn z as μ with
    | (r, as', μ') => (r, as', ks, μ')
  | .make e => match e.hold as ks μ with
    | (.ok x, μ') => (.ok (), as, ks ++ [x], μ')
    | (.error e, μ') => (.error e, as, ks, μ')
  | .assign i ops e =>
    match viewOf as i ops, e.keep as ks μ with
    | .ok w, (.ok (x, _), μ') => match x.iter as with
      | some t => match Ra.assign dyn z w.refs t μ' with
        | (r, μ'') => (r, as, ks, μ'')
      | none => (.error .abort, as, ks, μ')
    | .error e, _ => (.error e, as, ks, μ)
    | _, (.error e, μ') => (.error e, as, ks, μ')
  | .update f i ops e =>
    match viewOf as i ops, e.keep as ks μ with
    | .ok w, (.ok (x, _), μ') => match x.iter as with
      | some t => match Ra.update f dyn z w.refs t μ' with
        | (r, μ'') => (r, as, ks, μ'')
      | none => (.error .abort, as, ks, μ')
    | .error e, _ => (.error e, as, ks, μ)
    | _, (.error e, μ') => (.error e, as, ks, μ')

/-- Do some operations (expr.hh:50-60; arrays.hh:276-313), one after the other. -/
def dprogram (dyn : Bool) (z : List Int) : List (DCmd V) → List Arr → List (Kept V) → Mem V → Except Fault Unit × List Arr × List (Kept V) × Mem V
  | [], as, ks, μ => (.ok (), as, ks, μ)
  | c :: cs, as, ks, μ =>
    match c.step dyn z as ks μ with
    | (.ok (), as', ks', μ') => dprogram dyn z cs as' ks' μ'
    | (.error e, as', ks', μ') => (.error e, as', ks', μ')

end
end Ra
