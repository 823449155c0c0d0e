import Verif.Model.Fill
import Verif.Model.From
/-!
# Concatenation

arrays.hh:464-472.
-/

namespace Ra

section
variable {V : Type}

/-- arrays.hh:464-472 `cat(a1, a2)`. The result (line 468) is a `Small` at `b`. The sizes are static, and on lines 469-470 they're those of the ranges. -/
def cat (b : Int) (dyn : Bool) (z : List Int) (a1 a2 : Iter (Act V) (Lv V)) : Act V View := do
  let v ← Act.lift (View.ofShape [a1.size + a2.size] b)
  let v1 ← Act.lift (v.from [.iota [(.const a1.size, .const 1)] (.const 0)])
  assign dyn z v1.refs a1
  let v2 ← Act.lift (v.from [.iota [(.const a2.size, .const 1)] (.const a1.size)])
  assign dyn z v2.refs a2
  pure v

end
end Ra
