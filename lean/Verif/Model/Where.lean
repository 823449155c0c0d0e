import Verif.Model.Deriv
import Verif.Model.FullProgram
/-!
# `pick` and `where` as places to assign to, and as masks

Here the arguments of `pick` may be references, as in an assignment, and the selector is read from memory.
-/

namespace Ra

/-- Numbers convert to `bool` (ra.hh:255-256). -/
instance : Boolean Rat := ⟨fun x => decide (x ≠ 0), fun b => if b then 1 else 0, by decide⟩

section
variable {V : Type}

/-- expr.hh:724-728 `pick(p, a0, a1, ...)` where the alternatives are arrays. -/
def pickViews (sel : V → Nat) (p : Iter (Act V) (Lv V)) (as : List View) : Iter (Act V) (Lv V) := .node (pickIn sel) (p :: as.map View.refs)

/-- expr.hh:679-680 `cast<bool>`, where the argument may be a reference. -/
def castBoolIn [Boolean V] (w : Iter (Act V) (Lv V)) : Iter (Act V) (Lv V) :=
  .node (valOp fun vs => match vs with
    | [x] => pure (ofBool (toBool x))
    | _ => fault .abort) [w]

/-- ra.hh:255-256 `where`, where the arguments may be references. -/
def whereIn [Boolean V] (w t f : Iter (Act V) (Lv V)) : Iter (Act V) (Lv V) :=
  .node (pickIn fun v => if toBool v then 1 else 0) [castBoolIn w, f, t]

/-- examples/indirect.cc:145 `A = where(w, B, A)`, with any condition and any expression in place of `B`. -/
def maskAssign [Boolean V] (dyn : Bool) (z : List Int) (a : View) (w x : Iter (Act V) (Lv V)) : Act V Unit := assign dyn z a.refs (whereIn w x a.refs)

/-- examples/indirect.cc:145 `sqr(ra::_0-centre_i)+sqr(ra::_1-centre_j)<sqr(radius)`, without rounding. -/
def discTest [Field V] [LinearOrder V] [Boolean V] (ci cj r : V) : Iter (Act V) (Lv V) :=
  binaryOp (fun x y => ofBool (decide (x < y)))
    (binaryOp (· + ·) (mapVal (fun x => x * x) (binaryOp (· - ·) (tindexVal 0) (.scalar (pure (.val ci)))))
      (mapVal (fun x => x * x) (binaryOp (· - ·) (tindexVal 1) (.scalar (pure (.val cj))))))
    (.scalar (pure (.val (r * r))))

/-- examples/indirect.cc:117-118, 145 `A = where(sqr(ra::_0-centre_i)+sqr(ra::_1-centre_j)<sqr(radius), B, A)`, for arrays of `n` by `n`. -/
def discWhere [Field V] [LinearOrder V] [Boolean V] (dyn : Bool) (z : List Int) (n : Nat) (r : V) (a b : View) : Act V Unit :=
  maskAssign dyn z a (discTest (((n : V) - 1) / 2) (((n : V) - 1) / 2) r) b.refs

end
end Ra
