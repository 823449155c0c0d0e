import Verif.Model.Program
/-!
# Programs that go on after a failure

With a check that throws (expr.hh:23-24 `RA_ASSERT`, as in examples/throw.cc), or when the allocator throws, a program may catch the exception and go on with the arrays that it has.
-/

namespace Ra

section
variable {V : Type}

/-- Do some operations (arrays.hh:276-313, 330-346; expr.hh:50-60), one after the other, catching the exceptions of the checks and of the allocator. The result is which of the operations succeeded.
It stops at anything else. -/
def caught (dyn : Bool) (z : List Int) : List (Cmd V) → List Arr → Mem V → Except Fault (List Bool) × List Arr × Mem V
  | [], as, μ => (.ok [], as, μ)
  | c :: cs, as, μ =>
    match c.step dyn z as μ with
    | (.ok (), as', μ') =>
      let r := caught dyn z cs as' μ'
      (r.1.map (true :: ·), r.2)
    | (.error .check, as', μ') =>
      let r := caught dyn z cs as' μ'
      (r.1.map (false :: ·), r.2)
    | (.error .alloc, as', μ') =>
      let r := caught dyn z cs as' μ'
      (r.1.map (false :: ·), r.2)
    | (.error e, as', μ') => (.error e, as', μ')

end
end Ra
