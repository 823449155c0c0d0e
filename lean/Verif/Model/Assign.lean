import Verif.Model.Ply
import Verif.Model.ViewOps
/-!
# Memory and assignment

Simplifications:
* Memory is a function from addresses to values, with one type of value and address units of one element. An address that isn't allocated has
  no value; to use it is undefined behaviour. Storage left without initialization (`none_t`) has some unspecified value.
* When an action fails, the memory stays as it was at that time.
-/

namespace Ra

/-- Content of the memory that pointers (`cp`, arrays.hh:104, 190, 270) go to. -/
abbrev Mem (V : Type) := Int → Option V

/-- Write one address: the effect of the assignment to an element on expr.hh:51. -/
def Mem.upd {V : Type} (μ : Mem V) (p : Int) (v : V) : Mem V := fun q => if q = p then some v else μ q

/-- Actions on memory, such as evaluating `*a` (expr.hh:116, 303, 451, 661, 720) or assigning to it (expr.hh:50-51). The memory is there after a failure too. -/
def Act (V α : Type) : Type := Mem V → Except Fault α × Mem V

section
variable {V α β : Type}

/-- Do an action, then another one unless the first failed: `RA_CK` (expr.hh:20-43) doesn't go on. -/
def Act.andThen (x : Act V α) (f : α → Act V β) : Act V β := fun μ =>
  match x μ with
  | (.ok a, μ') => f a μ'
  | (.error e, μ') => (.error e, μ')

/-- Sequencing, for the statements of ply.hh:21-153. -/
instance : Monad (Act V) where
  pure a := fun μ => (.ok a, μ)
  bind := Act.andThen

/-- expr.hh:20-43, a check that fails. -/
instance : MonadFault (Act V) := ⟨fun f μ => (.error f, μ)⟩

/-- Sequencing is associative, for the statements of ply.hh:21-153. -/
instance : LawfulMonad (Act V) := LawfulMonad.mk'
  (id_map := by
    intro α x
    funext μ
    simp only [Functor.map, Act.andThen, Function.comp, id]
    rcases x μ with ⟨_ | _, _⟩ <;> rfl)
  (pure_bind := by intros; rfl)
  (bind_assoc := by
    intro α β γ x f g
    funext μ
    simp only [bind, Act.andThen]
    rcases x μ with ⟨_ | _, _⟩ <;> rfl)

/-- A computation without effects on memory, such as making a view (arrays.hh:104-116). -/
def Act.lift (x : Except Fault α) : Act V α := fun μ => (x, μ)

/-- Values of C++ expressions: a value, a reference to memory, or a view, which is what `*a` gives when the cell rank isn't 0 (expr.hh:304). -/
inductive Lv (V : Type) where
  | val (v : V)
  | ref (p : Int)
  | view (v : View)

/-- Read from memory, `*c.cp` on expr.hh:303. -/
def Act.read (p : Int) : Act V V := fun μ =>
  match μ p with
  | some v => (.ok v, μ)
  | none => (.error .ub, μ)

/-- Write to memory, `*c.cp = v` (expr.hh:51, 303). -/
def Act.write (p : Int) (v : V) : Act V Unit := fun μ =>
  match μ p with
  | some _ => (.ok (), μ.upd p v)
  | none => (.error .ub, μ)

/-- Get the value from a value or a reference, as the operations of ra.hh:181-202 and the assignment of expr.hh:51 do. A view isn't a value. -/
def Lv.get : Lv V → Act V V
  | .val v => pure v
  | .ref p => Act.read p
  | .view _ => fault .abort

/-- expr.hh:317-328 `iter(v)` with expr.hh:303-304 `*a`, for a pointer to memory: the elements are references. -/
def View.refs (v : View) : Iter (Act V) (Lv V) := .cell v.dims v.cp fun p => pure (.ref p)

/-- expr.hh:652-663 `Map` with an operation that takes and gives values. -/
def valOp (f : List V → Act V V) : List (Act V (Lv V)) → Act V (Lv V) :=
  mapOp fun xs => do
    let vs ← xs.mapM Lv.get
    let r ← f vs
    pure (.val r)

/-- ra.hh:181-189, a binary operator. -/
def binaryOp (f : V → V → V) (a b : Iter (Act V) (Lv V)) : Iter (Act V) (Lv V) :=
  .node (valOp fun vs => match vs with
    | [x, y] => pure (f x y)
    | _ => fault .abort) [a, b]

/-- expr.hh:50-51, the body for `y = x`. It has no value; the model gives back `y`. -/
def setOp : List (Lv V) → Act V (Lv V)
  | [.ref p, x] => do
    let v ← x.get
    Act.write p v
    pure (.ref p)
  | _ => fault .abort -- assignment to a value, or wrong number of arguments

/-- expr.hh:50-51, the body for `y OP x` with `OP` one of `*= += -= /=`, where `y OP x` is `y = f(y, x)`. The right side is evaluated first. -/
def updOp (f : V → V → V) : List (Lv V) → Act V (Lv V)
  | [.ref p, x] => do
    let v ← x.get
    let y ← Act.read p
    Act.write p (f y v)
    pure (.ref p)
  | _ => fault .abort

/-- expr.hh:50-60 `dst = x`, also arrays.hh:129-136, 203-208, 276-281, with ply.hh:168 `for_each`. -/
def assign (dyn : Bool) (z : List Int) (dst x : Iter (Act V) (Lv V)) : Act V Unit := do
  let _ ← ply (β := Unit) dyn never z (.node (mapOp setOp) [dst, x])
  pure ()

/-- expr.hh:50-60 `dst OP x` for the other assignment operators. -/
def update (f : V → V → V) (dyn : Bool) (z : List Int) (dst x : Iter (Act V) (Lv V)) : Act V Unit := do
  let _ ← ply (β := Unit) dyn never z (.node (mapOp (updOp f)) [dst, x])
  pure ()

end
end Ra
