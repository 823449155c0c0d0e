import Verif.Model.Test
import Mathlib.Order.Defs.LinearOrder
/-!
# Tests with tolerances, and values that aren't numbers

test.hh:35-46, 179-213, and the comparisons of ra.hh:306-322 on such values.

Simplification: finite values are those of any linear order with zero (`F`). There's one zero. The difference of values is a parameter, so it may be rounded and may overflow.
-/

namespace Ra

/-- `double` (test.hh:35-36): NaN, the two infinities, and finite values. -/
inductive Fl (F : Type) where
  | nan
  | ninf
  | fin (x : F)
  | pinf
  deriving DecidableEq, Repr

section
variable {F : Type} [LinearOrder F] [Zero F] [One F] [Neg F]

/-- `a<b` (test.hh:45). It's false if either is NaN. -/
def Fl.lt : Fl F → Fl F → Bool
  | .nan, _ => false
  | _, .nan => false
  | .ninf, .ninf => false
  | .ninf, _ => true
  | .fin _, .ninf => false
  | .fin x, .fin y => decide (x < y)
  | .fin _, .pinf => true
  | .pinf, _ => false

/-- `a<=b` (test.hh:193, 208). It's false if either is NaN. -/
def Fl.le : Fl F → Fl F → Bool
  | .nan, _ => false
  | _, .nan => false
  | a, b => !b.lt a

/-- `a==b` (test.hh:184). It's false if either is NaN. -/
def Fl.eq (a b : Fl F) : Bool := decide (a ≠ .nan) && decide (a = b)

/-- `abs` (test.hh:183). -/
def Fl.abs : Fl F → Fl F
  | .nan => .nan
  | .ninf => .pinf
  | .fin x => .fin (if x < 0 then -x else x)
  | .pinf => .pinf

/-- `isfinite` (test.hh:183). -/
def Fl.isfinite : Fl F → Bool
  | .fin _ => true
  | _ => false

/-- `isinf` (test.hh:184). -/
def Fl.isinf : Fl F → Bool
  | .ninf => true
  | .pinf => true
  | _ => false

/-- `isnan` (test.hh:185, 45). -/
def Fl.isnan : Fl F → Bool
  | .nan => true
  | _ => false

/-- Comparison for `amin` and `amax` (ra.hh:306-322). -/
instance : LT (Fl F) := ⟨fun a b => a.lt b = true⟩
/-- Comparison for `amin` and `amax` (ra.hh:306-322) can be computed. -/
instance : DecidableLT (Fl F) := fun a b => inferInstanceAs (Decidable (a.lt b = true))
/-- What's left in a moved from value isn't used (test.hh:45). -/
instance : Inhabited (Fl F) := ⟨.nan⟩

/-- Conversion to and from `bool`, as in the arguments of `where` on test.hh:183-185. -/
instance [NeZero (1 : F)] : Boolean (Fl F) where
  toBool x := decide (x ≠ .fin 0)
  ofBool b := if b then .fin 1 else .fin 0
  toBool_ofBool b := by cases b <;> simp [NeZero.ne (1 : F)]

variable {n : Type → Type} [Monad n] [MonadFault n] [NeZero (1 : F)]

/-- test.hh:41-44, the function that `amax_strict` maps. -/
def strictStep (xs : List (Fl F)) : StateT (Fl F) n (Fl F) :=
  match xs with
  | [x] => do
    let c ← get
    if c.lt x then set x
    pure x
  | _ => fault .abort

/-- test.hh:38-46 `amax_strict`. `early` has `c` by reference, so it gives the last value. -/
def amaxStrict (dyn : Bool) (z : List Int) (a : Iter (StateT (Fl F) n) (Fl F)) : n (Fl F) := do
  let r ← (ply dyn (fun x : Fl F => if x.isnan then some Fl.nan else none) z (.node (mapOp strictStep) [a])).run .ninf
  pure (r.1.getD r.2)

/-- A function of one argument in an expression, as those on test.hh:183-185. -/
def mapOne {m : Type → Type} {α : Type} [Monad m] [MonadFault m] (f : α → α) (a : Iter m α) : Iter m α :=
  .node (mapOp fun xs => match xs with | [x] => pure (f x) | _ => fault .abort) [a]

/-- A function of two arguments in an expression, as those on test.hh:184, 192, 207. -/
def mapTwo {m : Type → Type} {α : Type} [Monad m] [MonadFault m] (f : α → α → α) (a b : Iter m α) : Iter m α :=
  .node (mapOp fun xs => match xs with | [x, y] => pure (f x y) | _ => fault .abort) [a, b]

/-- test.hh:183-185, the argument of `amax_strict` in `nanny`. -/
def nannyExpr {m : Type → Type} [Monad m] [MonadFault m] (ref a err : Iter m (Fl F)) : Iter m (Fl F) :=
  whereOp (mapOne (fun x => ofBool x.isfinite) ref) err
    (whereOp (mapOne (fun x => ofBool x.isinf) ref) (whereOp (mapTwo (fun x y => ofBool (x.eq y)) ref a) (.scalar (pure (.fin 0))) (.scalar (pure .pinf)))
      (whereOp (mapOne (fun x => ofBool x.isnan) a) (.scalar (pure (.fin 0))) (.scalar (pure .pinf))))

/-- test.hh:179-186 `nanny`. -/
def nanny (dyn : Bool) (z : List Int) (ref a err : Iter (StateT (Fl F) n) (Fl F)) : n (Fl F) := do
  let c ← amaxStrict dyn z (nannyExpr ref a err)
  pure c.abs

/-- test.hh:202-213 `test_abs`: the error, and if the test passes. `sub` is the difference. -/
def testAbs (sub : Fl F → Fl F → Fl F) (dyn : Bool) (z : List Int) (ref a : Iter (StateT (Fl F) n) (Fl F)) (req : Fl F) : n (Fl F × Bool) := do
  let e ← nanny dyn z ref a (mapTwo (fun x y => (sub x y).abs) ref a)
  pure (e, e.le req)

/-- test.hh:187-201 `test_rel`. `rel` is `rel_error` (ra.hh:92-93) if `level<=0`, else `abs(ref-a)/level`. -/
def testRel (rel : Fl F → Fl F → Fl F) (dyn : Bool) (z : List Int) (ref a : Iter (StateT (Fl F) n) (Fl F)) (req : Fl F) : n (Fl F × Bool) := do
  let e ← nanny dyn z ref a (mapTwo rel ref a)
  pure (e, e.le req)

end
end Ra
