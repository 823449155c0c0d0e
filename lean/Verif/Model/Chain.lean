import Verif.Model.ViewOps
import Verif.Model.From
/-!
# Views of views
-/

namespace Ra

/-- Operations on a view that give another view of the same memory: ply.hh:503-551, arrays.hh:408-531, 615-630. -/
inductive ViewOp where
  | slice (is : List Sub)
  | reverse (k : Int)
  | transpose (ax : List Int)
  | stencil (lo hi : List Int)
  | reshape (t : List Int)
  | ravel

/-- The view that an operation gives: ply.hh:503-551 `from`, arrays.hh:408-428 `reverse`, 431-462 `transpose`, 615-630 `stencil`, 483-531 `reshape`, 474-481 `ravel_free`. -/
def ViewOp.run : ViewOp → View → Except Fault View
  | .slice is, v => v.from is
  | .reverse k, v => v.reverse k
  | .transpose ax, v => v.transpose ax
  | .stencil lo hi, v => v.stencil lo hi
  | .reshape t, v => v.reshape t
  | .ravel, v => v.ravelFree

/-- Operations one after another, as in `reverse(transpose(a(i ...), ...), ...)` (arrays.hh:404-630). -/
def runOps (ops : List ViewOp) (v : View) : Except Fault View := ops.foldlM (fun v op => op.run v) v

end Ra
