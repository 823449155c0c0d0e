import Verif.Model.Assign
/-!
# Threads

The memory accesses of a computation, one by one, so that those of several threads can be interleaved.

Simplifications:
* An access is to one element and it's atomic. In C++ two accesses to the same element from different threads, one of them a write, are undefined behaviour, so nothing
  should be concluded for such programs; for the others any execution is an interleaving.
* The only state that the threads share is the memory of the elements. `ply_ravel` keeps its counters in `thread_local` memory (ply.hh:36), so each thread has its own.
-/

namespace Ra

/-- Computations that access memory, such as evaluating `*a` (expr.hh:116, 303, 451, 661, 720) or assigning to it (expr.hh:50-51). -/
inductive Prog (V α : Type) where
  | ret (a : α)
  | fail (e : Fault)
  | read (p : Int) (k : V → Prog V α)
  | write (p : Int) (v : V) (k : Prog V α)

section
variable {V α β : Type}

/-- Do a computation, then another one unless the first failed: `RA_CK` (expr.hh:20-43) doesn't go on. -/
def Prog.andThen : Prog V α → (α → Prog V β) → Prog V β
  | .ret a, f => f a
  | .fail e, _ => .fail e
  | .read p k, f => .read p fun v => (k v).andThen f
  | .write p v k, f => .write p v (k.andThen f)

/-- Sequencing, for the statements of ply.hh:21-153. -/
instance : Monad (Prog V) where
  pure := .ret
  bind := Prog.andThen

/-- expr.hh:20-43, a check that fails. -/
instance : MonadFault (Prog V) := ⟨.fail⟩

/-- Sequencing is associative, for the statements of ply.hh:21-153. -/
instance : LawfulMonad (Prog V) := LawfulMonad.mk'
  (id_map := by
    intro α x
    change x.andThen (Prog.ret ∘ id) = x
    induction x with
    | ret a => rfl
    | fail e => rfl
    | read p k ih => simp only [Prog.andThen, ih]
    | write p v k ih => simp only [Prog.andThen, ih])
  (pure_bind := by intros; rfl)
  (bind_assoc := by
    intro α β γ x f g
    change (x.andThen f).andThen g = x.andThen fun a => (f a).andThen g
    induction x with
    | ret a => rfl
    | fail e => rfl
    | read p k ih => simp only [Prog.andThen, ih]
    | write p v k ih => simp only [Prog.andThen, ih])

/-- The next access (expr.hh:51, 303). To access memory that isn't there is undefined behaviour; the model stops. -/
def Prog.step : Prog V α → Mem V → Prog V α × Mem V
  | .ret a, μ => (.ret a, μ)
  | .fail e, μ => (.fail e, μ)
  | .read p k, μ => match μ p with
    | some v => (k v, μ)
    | none => (.fail .ub, μ)
  | .write p v k, μ => match μ p with
    | some _ => (k, μ.upd p v)
    | none => (.fail .ub, μ)

/-- All the accesses in sequence, without other threads (expr.hh:51, 303). -/
def Prog.run : Prog V α → Act V α
  | .ret a => fun μ => (.ok a, μ)
  | .fail e => fun μ => (.error e, μ)
  | .read p k => fun μ => match μ p with
    | some v => (k v).run μ
    | none => (.error .ub, μ)
  | .write p v k => fun μ => match μ p with
    | some _ => k.run (μ.upd p v)
    | none => (.error .ub, μ)

/-- Several threads, each with what it has left to do (user code that calls ply.hh:157-169), and the memory that they share. -/
abbrev Threads (ι V α : Type) := (ι → Prog V α) × Mem V

/-- Thread `i` does its next access (ply.hh:157-169). -/
def Threads.step {ι : Type} [DecidableEq ι] (t : Threads ι V α) (i : ι) : Threads ι V α :=
  let r := (t.1 i).step t.2
  (fun k => if k = i then r.1 else t.1 k, r.2)

/-- The threads do their accesses in the order given by the schedule (ply.hh:157-169). -/
def Threads.exec {ι : Type} [DecidableEq ι] (t : Threads ι V α) (l : List ι) : Threads ι V α := l.foldl Threads.step t

/-- Read from memory, `*c.cp` on expr.hh:303. -/
def Prog.load (p : Int) : Prog V V := .read p .ret

/-- Write to memory, `*c.cp = v` (expr.hh:51, 303). -/
def Prog.store (p : Int) (v : V) : Prog V Unit := .write p v (.ret ())

/-- Get the value from a value or a reference, as the operations of ra.hh:181-202 and the assignment of expr.hh:51 do. -/
def Lv.fetch : Lv V → Prog V V
  | .val v => pure v
  | .ref p => Prog.load p
  | .view _ => fault .abort

/-- expr.hh:317-328 `iter(v)` with expr.hh:303-304 `*a`, for a pointer to memory: the elements are references. -/
def View.places (v : View) : Iter (Prog V) (Lv V) := .cell v.dims v.cp fun p => pure (.ref p)

/-- expr.hh:652-663 `Map` with a binary operator (ra.hh:181-189). -/
def binaryOpP (f : V → V → V) (a b : Iter (Prog V) (Lv V)) : Iter (Prog V) (Lv V) :=
  .node (mapOp fun xs => match xs with
    | [x, y] => do
      let u ← x.fetch
      let v ← y.fetch
      pure (.val (f u v))
    | _ => fault .abort) [a, b]

/-- expr.hh:50-51, the body for `y = x`. It has no value; the model gives back `y`. -/
def setOpP : List (Lv V) → Prog V (Lv V)
  | [.ref p, x] => do
    let v ← x.fetch
    Prog.store p v
    pure (.ref p)
  | _ => fault .abort

/-- expr.hh:50-51, the body for `y OP x` with `OP` one of `*= += -= /=`, where `y OP x` is `y = f(y, x)`. -/
def updOpP (f : V → V → V) : List (Lv V) → Prog V (Lv V)
  | [.ref p, x] => do
    let v ← x.fetch
    let y ← Prog.load p
    Prog.store p (f y v)
    pure (.ref p)
  | _ => fault .abort

/-- expr.hh:50-60 `dst = x`, with ply.hh:168 `for_each`, as a list of accesses to memory. `z` are the counters of the thread (ply.hh:36). -/
def assignP (dyn : Bool) (z : List Int) (dst x : Iter (Prog V) (Lv V)) : Prog V Unit := do
  let _ ← ply (β := Unit) dyn never z (.node (mapOp setOpP) [dst, x])
  pure ()

/-- expr.hh:50-60 `dst OP x`, in the same way. -/
def updateP (f : V → V → V) (dyn : Bool) (z : List Int) (dst x : Iter (Prog V) (Lv V)) : Prog V Unit := do
  let _ ← ply (β := Unit) dyn never z (.node (mapOp (updOpP f)) [dst, x])
  pure ()

end
end Ra
