import Verif.Model.Iter
import Verif.Model.ViewOps
/-!
# Sequences of other types as arguments

`std::` ranges, built-in arrays, and pointers with a length. The type of the elements and the way that the iterators of the sequence keep their place aren't modelled; a place in a sequence
is the distance from some place in memory, as for the pointers of the other views.
-/

namespace Ra

/-- base.hh:328-332 `is_fov`, `is_builtin`: arguments that aren't scalars nor `ra::` objects. A range has `n` elements, and `fixed` if its length is part of its type (`std::array`, or `std::span`
with an extent). A built-in array has extents `e`, all of them part of the type; those of length 0 (`is_builtin_0`) aren't modelled as a separate case. -/
inductive Foreign where
  | range (n : Nat) (fixed : Bool)
  | builtin (e : List Nat)

/-- base.hh:334-363 `rank_s`, for these types. -/
def Foreign.rankS : Foreign → Nat
  | .range _ _ => 1
  | .builtin e => e.length

/-- base.hh:372-388 `shape_s`, for these types. -/
def Foreign.shapeS : Foreign → List Int
  | .range n fixed => [if fixed then n else ANY]
  | .builtin e => e.map Nat.cast

/-- The loop on base.hh:395. -/
def sizeSLoop (s : Int) : List Int → Int
  | [] => s
  | l :: ls => if l < 0 then l else sizeSLoop (s * l) ls

/-- base.hh:390-398 `size_s`, for these types (their rank isn't ANY). -/
def Foreign.sizeS (f : Foreign) : Int := sizeSLoop 1 f.shapeS

/-- `std::ssize`, for the ranges (base.hh:409). -/
def Foreign.ssize : Foreign → Int
  | .range n _ => n
  | .builtin e => (e.headD 0 : Nat)

/-- base.hh:402-413 `size`, for these types. The last case isn't reached. -/
def Foreign.size (f : Foreign) : Int :=
  if ANY ≠ f.sizeS then f.sizeS else f.ssize

/-- base.hh:416-430 `shape`, for these types. The cases with `len` aren't reached. -/
def Foreign.shape (f : Foreign) : List Int :=
  if ANY ≠ f.sizeS then f.shapeS else [f.size]

/-- expr.hh:353-359 `viewptr`. Only a run time length (not `fixed`) is checked. -/
def viewptr (cp : Int) (n : Int) (fixed : Bool) (s : Int) : Except Fault View :=
  if !fixed && n < 0 then .error .check else .ok ⟨[⟨n, s⟩], cp⟩

/-- expr.hh:365-382 `view`. `cp` is the place of the first element: `std::begin`, or `std::data` of the first row of the first row, etc. `c_dimv` (expr.hh:221) is `filldimv`. -/
def Foreign.view (f : Foreign) (cp : Int) : Except Fault View :=
  match f with
  | .builtin _ => View.ofShape f.shape cp
  | .range _ _ => if ANY = f.sizeS then viewptr cp f.size false 1 else viewptr cp f.sizeS true 1

/-- expr.hh:385-387 `iter`. `rd` reads an element from its place. -/
def Foreign.iter {m : Type → Type} {α : Type} (f : Foreign) (cp : Int) (rd : Int → m α) : Except Fault (Iter m α) := do
  let v ← f.view cp
  return .cell v.dims v.cp rd

/-- expr.hh:361-363 `ptr`. -/
def ptr {m : Type → Type} {α : Type} (cp : Int) (n : Int) (fixed : Bool) (s : Int) (rd : Int → m α) : Except Fault (Iter m α) := do
  let v ← viewptr cp n fixed s
  return .cell v.dims v.cp rd

end Ra
