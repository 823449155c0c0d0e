import Verif.Model.FullProgram
/-!
# Programs with arrays among other threads

The programs of `Model/FullProgram.lean` as sequences of steps, so that the steps of several threads can be done in any order.

Simplifications:
* Reading an element, or writing one, is one step. So is each operation of a container (arrays.hh:276-313, 330-346), other than the assignment of an expression.
* The arrays themselves (their dims, and where their elements are) belong to the thread. The other threads have their own views of the arrays that are shared.
* `ply_ravel` keeps its counters in `thread_local` memory (ply.hh:36), so each thread has its own.
-/

namespace Ra

/-- Actions of a thread among others, such as evaluating `*a` (expr.hh:116, 303, 451, 661, 720) or assigning to it (expr.hh:50-51). An action is done, or it has a step to do, that changes memory and after which there's
something else to do. -/
inductive Amid (V α : Type) where
  | done (r : Except Fault α)
  | step (f : Mem V → Mem V) (k : Mem V → Amid V α)

section
variable {V α β : Type}

/-- Do an action, then another one unless the first failed: `RA_CK` (expr.hh:20-43) doesn't go on. -/
def Amid.andThen : Amid V α → (α → Amid V β) → Amid V β
  | .done (.ok a), f => f a
  | .done (.error e), _ => .done (.error e)
  | .step g k, f => .step g fun μ => (k μ).andThen f

/-- Sequencing, for the statements of ply.hh:21-153. -/
instance : Monad (Amid V) where
  pure a := .done (.ok a)
  bind := Amid.andThen

/-- expr.hh:20-43, a check that fails. -/
instance : MonadFault (Amid V) := ⟨fun f => .done (.error f)⟩

/-- Sequencing is associative, for the statements of ply.hh:21-153. -/
instance : LawfulMonad (Amid V) := LawfulMonad.mk'
  (id_map := by
    intro α x
    change x.andThen ((fun a => Amid.done (.ok a)) ∘ id) = x
    induction x with
    | done r => cases r <;> rfl
    | step f k ih => simp only [Amid.andThen, ih])
  (pure_bind := by intros; rfl)
  (bind_assoc := by
    intro α β γ x f g
    change (x.andThen f).andThen g = x.andThen fun a => (f a).andThen g
    induction x with
    | done r => cases r <;> rfl
    | step f k ih => simp only [Amid.andThen, ih])

/-- One step (for instance `*c.cp`, expr.hh:303). -/
def Amid.one (x : Act V α) : Amid V α := .step (fun μ => (x μ).2) fun μ => .done (x μ).1

/-- Accesses to memory (expr.hh:51, 303) are steps. -/
instance : MonadLift (Act V) (Amid V) := ⟨Amid.one⟩

/-- A computation without effects on memory, such as making a view (arrays.hh:104-116). -/
def Amid.lift (x : Except Fault α) : Amid V α := .done x

/-- The outcome of an action, also when it fails: a program stops there (`RA_CK`, expr.hh:20-43), and its arrays are as they are. -/
def Amid.outcome : Amid V α → Amid V (Except Fault α)
  | .done r => .done (.ok r)
  | .step f k => .step f fun μ => (k μ).outcome

/-- The next step (expr.hh:51, 303), if there's one. -/
def Amid.next : Amid V α → Mem V → Amid V α × Mem V
  | .done r, μ => (.done r, μ)
  | .step f k, μ => (k μ, f μ)

/-- Several threads, each with what it has left to do (user code that calls ply.hh:157-169), and the memory that they share. -/
abbrev Crowd (V α : Type) := List (Amid V α) × Mem V

/-- Thread `i` does its next step (ply.hh:157-169). -/
def Crowd.step (t : Crowd V α) (i : Nat) : Crowd V α :=
  match t.1[i]? with
  | some x =>
    let r := x.next t.2
    (t.1.set i r.1, r.2)
  | none => t

/-- The threads do their steps in the order given by the schedule (ply.hh:157-169). -/
def Crowd.exec (t : Crowd V α) (l : List Nat) : Crowd V α := l.foldl Crowd.step t

/-- expr.hh:50-51, the body for `y = x`, as `setOp`. Reading and writing are separate steps. -/
def setOpA : List (Lv V) → Amid V (Lv V)
  | [.ref p, x] => do
    let v ← (x.get : Act V V)
    (Act.write p v : Act V Unit)
    pure (.ref p)
  | _ => fault .abort

/-- expr.hh:50-51, the body for `y OP x`, as `updOp`. -/
def updOpA (f : V → V → V) : List (Lv V) → Amid V (Lv V)
  | [.ref p, x] => do
    let v ← (x.get : Act V V)
    let y ← (Act.read p : Act V V)
    (Act.write p (f y v) : Act V Unit)
    pure (.ref p)
  | _ => fault .abort

/-- The operation of a reduction such as on ra.hh:351-352 (`sum`), as `foldOp`. The variable `c` belongs to the thread. -/
def foldOpA (f : V → V → V) (c : V) (xs : List (Lv V)) : Amid V V :=
  match xs with
  | [x] => do
    let v ← (x.get : Act V V)
    pure (f c v)
  | _ => fault .abort

mutual
/-- Do the reductions of an expression (ra.hh:348-401, also 306-321), as `FExp.eager`. -/
def FExp.eagerA (dyn : Bool) (z : List Int) (as : List Arr) : FExp V → Amid V (FExp V)
  | .const x => pure (.const x)
  | .index w f => pure (.index w f)
  | .iota n o s f => pure (.iota n o s f)
  | .view i ops => pure (.view i ops)
  | .gather n i ops mask t => do
    let t ← FExp.eagersA dyn z as t
    pure (.gather n i ops mask t)
  | .map f cranks t => do
    let t ← FExp.eagersA dyn z as t
    pure (.map f cranks t)
  | .pick sel t => do
    let t ← FExp.eagersA dyn z as t
    pure (.pick sel t)
  | .fold f x0 e => do
    let e ← FExp.eagerA dyn z as e
    let t ← Amid.lift (FExp.iter (m := StateT V (Amid V)) as e)
    let x ← forEachRef dyn z (foldOpA f) x0 [t]
    pure (.const x)
/-- The same for each argument (ra.hh:348-401). -/
def FExp.eagersA (dyn : Bool) (z : List Int) (as : List Arr) : List (FExp V) → Amid V (List (FExp V))
  | [] => pure []
  | e :: t => do
    let e ← FExp.eagerA dyn z as e
    let t ← FExp.eagersA dyn z as t
    pure (e :: t)
end

/-- expr.hh:50-60, `d OP e` where `op` is the body of `OP`, as `fassign`. -/
def fassignA (dyn : Bool) (z : List Int) (as : List Arr) (op : List (Lv V) → Amid V (Lv V)) (d e : FExp V) : Amid V Unit := do
  let d ← d.eagerA dyn z as
  let e ← e.eagerA dyn z as
  let w ← Amid.lift (d.iter (m := Amid V) as)
  let t ← Amid.lift (e.iter (m := Amid V) as)
  let _ ← ply (β := Unit) dyn never z (.node (mapOp op) [w, t])
  pure ()

/-- The end of arrays.hh:291 `Array(e)`, as in `Arr.andDo`: the new array, or else its storage is freed. -/
def Arr.finishA {β : Type} (a : Arr) : Except Fault β → Amid V Arr
  | .ok _ => pure a
  | .error f => do
    Amid.one (α := Unit) fun μ => (.ok (), μ.move a a.base 0 fun _ => none)
    fault f

/-- arrays.hh:291 `Array(e)`, as `fmake`. The storage is one step, then the elements one by one. If that fails the storage is freed. -/
def fmakeA (dyn : Bool) (z : List Int) (as : List Arr) (rk : Option Nat) (o : Option Int) (fill : Nat → V) (e : FExp V) : Amid V Arr := do
  let e ← e.eagerA dyn z as
  let t ← Amid.lift (e.iter (m := Amid V) as)
  let a ← Amid.one (Arr.create rk o fill t.shape)
  let w : Iter (Amid V) (Lv V) := .cell a.dims a.base fun p => pure (.ref p)
  let r ← Amid.outcome (ply (β := Unit) dyn never z (.node (mapOp setOpA) [w, t]))
  a.finishA r

/-- The iterator for an expression of `Cmd`, as `Exp.iter`: expr.hh:128-134, 317-328, and ra.hh:181-189 for the operators. -/
def Exp.iterA (as : List Arr) : Exp V → Option (Iter (Amid V) (Lv V))
  | .const x => some (.scalar (pure (.val x)))
  | .arr i => match as[i]? with
    | some a => some (.cell a.dims a.base fun p => pure (.ref p))
    | none => none
  | .op f a b => match a.iterA as, b.iterA as with
    | some x, some y => some (.node (mapOp fun xs => match xs with
      | [x, y] => do
        let u ← (x.get : Act V V)
        let v ← (y.get : Act V V)
        pure (.val (f u v))
      | _ => fault .abort) [x, y])
    | _, _ => none

/-- `a = e` and `a OP e` (arrays.hh:276-281, expr.hh:50-60) for the whole of array `i`, as in `Cmd.step`. -/
def assignA (dyn : Bool) (z : List Int) (as : List Arr) (op : List (Lv V) → Amid V (Lv V)) (i : Nat) (e : Exp V) : Amid V Unit :=
  match as[i]?, e.iterA as with
  | some a, some t => do
    let _ ← ply (β := Unit) dyn never z (.node (mapOp op) [.cell a.dims a.base fun p => pure (.ref p), t])
    pure ()
  | _, _ => fault .abort

/-- Do one operation of `Cmd`, as `Cmd.step` (arrays.hh:276-313, 330-346; ply.hh:509-510; expr.hh:50-60). -/
def Cmd.stepA (dyn : Bool) (z : List Int) (as : List Arr) : Cmd V → Amid V (Except Fault Unit × List Arr)
  | .op o => Amid.one fun μ =>
    let r := o.step as μ
    (.ok (r.1, r.2.1), r.2.2)
  | .set i j x =>
    match as[i]? with
    | some a =>
      if j.length = a.dims.length then do
        let r ← Amid.outcome (a.view.elemAt (fun p => (Act.write p x : Act V Unit)) j)
        pure (r, as)
      else pure (.error .abort, as)
    | none => pure (.error .abort, as)
  | .assign i e => do
    let r ← Amid.outcome (assignA dyn z as setOpA i e)
    pure (r, as)
  | .update f i e => do
    let r ← Amid.outcome (assignA dyn z as (updOpA f) i e)
    pure (r, as)

/-- Do one operation, as `FCmd.step` (expr.hh:50-60 for assignments; arrays.hh:291). -/
def FCmd.stepA (dyn : Bool) (z : List Int) (as : List Arr) : FCmd V → Amid V (Except Fault Unit × List Arr)
  | .cmd c => c.stepA dyn z as
  | .assign d e => do
    let r ← Amid.outcome (fassignA dyn z as setOpA d e)
    pure (r, as)
  | .update f d e => do
    let r ← Amid.outcome (fassignA dyn z as (updOpA f) d e)
    pure (r, as)
  | .make rk o fill e => do
    let r ← Amid.outcome (fmakeA dyn z as rk o fill e)
    pure (match r with
      | .ok a => (.ok (), as ++ [a])
      | .error f => (.error f, as))

/-- Do some operations (expr.hh:50-60; arrays.hh:276-313), one after the other, as `fprogram`. -/
def fprogramA (dyn : Bool) (z : List Int) : List (FCmd V) → List Arr → Amid V (Except Fault Unit × List Arr)
  | [], as => pure (.ok (), as)
  | c :: cs, as => do
    let r ← c.stepA dyn z as
    match r with
    | (.ok (), as') => fprogramA dyn z cs as'
    | (.error e, as') => pure (.error e, as')

end
end Ra
