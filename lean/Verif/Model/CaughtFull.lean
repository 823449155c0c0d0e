import Verif.Model.FullProgram
/-!
# Programs with any expressions that go on after a failure

As `Model/Caught.lean`, for the programs of `Model/FullProgram.lean`.
-/

namespace Ra

section
variable {V : Type}

/-- Do some operations (arrays.hh:276-313, 330-346, 408-630; expr.hh:50-60; ply.hh:503-551), one after the other, catching the exceptions of the checks (expr.hh:20-43) and of the allocator.
The result is which of the operations succeeded. It stops at anything else. -/
def fcaught (dyn : Bool) (z : List Int) : List (FCmd V) → List Arr → Mem V → Except Fault (List Bool) × List Arr × Mem V
  | [], as, μ => (.ok [], as, μ)
  | c :: cs, as, μ =>
    match c.step dyn z as μ with
    | (.ok (), as', μ') =>
      let r := fcaught dyn z cs as' μ'
      (r.1.map (true :: ·), r.2)
    | (.error .check, as', μ') =>
      let r := fcaught dyn z cs as' μ'
      (r.1.map (false :: ·), r.2)
    | (.error .alloc, as', μ') =>
      let r := fcaught dyn z cs as' μ'
      (r.1.map (false :: ·), r.2)
    | (.error e, as', μ') => (.error e, as', μ')

end
end Ra
