/-!
# Constants, outcomes and dims
-/

namespace Ra

/-- base.hh:232 `MIS`, mismatched lengths. -/
def MIS : Int := -1922222222
/-- base.hh:233 `ANY`, a length/rank/size that is only known at run time (it only appears in static information). -/
def ANY : Int := -1944444444
/-- base.hh:234 `UNB`, an unbounded length. -/
def UNB : Int := -1988888888

/-- What happens when evaluation does not go on.
* `check`: an `RA_CK` fails (expr.hh:20-43, with `RA_CHECK` not 0).
* `ub`: undefined behaviour of C++ (eg an access outside an array).
* `abort`: `std::abort`.
* `fuel`: a model loop ran out of fuel; theorems show that it doesn't happen.
* `alloc`: the store throws (`std::bad_alloc` or `std::length_error`). -/
inductive Fault where
  | check | ub | abort | fuel | alloc
  deriving DecidableEq, Repr

/-- Monads where evaluation can fail (expr.hh:20-43 `RA_CK`). -/
class MonadFault (m : Type → Type) where
  fault : {α : Type} → Fault → m α

export MonadFault (fault)

/-- expr.hh:20-43, for computations without other effects. -/
instance : MonadFault (Except Fault) := ⟨fun f => .error f⟩

/-- base.hh:244 `inside`. -/
def inside (i b : Int) : Bool := decide (0 ≤ i) && decide (i < b)

@[simp] theorem inside_iff {i b : Int} : inside i b = true ↔ 0 ≤ i ∧ i < b := by simp [inside]

/-- expr.hh:183 `Dim`. -/
structure Dim where
  len : Int
  step : Int
  deriving DecidableEq, Repr

end Ra
