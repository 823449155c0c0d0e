import Verif.Model.From
import Verif.Model.ViewOps
/-!
# Structured bindings

`auto & [a, b, c] = v` for arrays and views of static shape. A result of `none` is a compile error.
-/

namespace Ra

/-- arrays.hh:637 `tuple_size`. -/
def tupleSize (v : View) : Int := dimvSize v.dims

/-- arrays.hh:632 `get<i>`: `s[i]`. Without an axis for the subscript the rank of the result is -1 (ply.hh:351-357, 509, 513). -/
def tupleGet (v : View) (i : Nat) : Option (Except Fault View) :=
  match v.dims with
  | [] => none
  | _ => some (v.from [.scalar (.const i)])

/-- One name, a reference to an element (arrays.hh:640): the address. If `get<i>` is a view, then it's converted to a reference to its element (arrays.hh:143), and it's a compile error unless
its size, which is static, is 1 (expr.hh:152-154). -/
def bindOne (v : View) (i : Nat) : Option (Except Fault Int) := do
  let b ← tupleGet v i
  if dimvSize v.dims.tail = 1 then some (b.map View.cp) else none

/-- `auto & [x0, x1 ...] = v` (arrays.hh:632-640): a name for each of `tuple_size`, in order. There must be at least one. -/
def bindings (v : View) : Option (Except Fault (List Int)) :=
  if tupleSize v ≤ 0 then none else do
    let l ← (List.range (tupleSize v).toNat).mapM (bindOne v)
    return l.mapM id

end Ra
