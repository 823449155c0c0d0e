import Verif.Model.ViewOps
/-!
# Views of other types on the same memory

arrays.hh:533-612. The pointer of the views here is in bytes.
-/

namespace Ra

/-- What `explode` and `collapse` (arrays.hh:533-612) use of an element type: its static dims (`T::dimv`, empty for scalars), the size of its elements (`sizeof(value_t<T>)`,
the same as `sizeof(T)` for scalars), and `sizeof(T)`. -/
structure Ty where
  dims : List Dim
  vsize : Int
  size : Int
  deriving DecidableEq, Repr

/-- arrays.hh:540-543, the loop over the axes that make a value of `sup`. Returns the compact size. -/
def compactLoop (s : Int) : List Dim → Except Fault Int
  | [] => .ok s
  | d :: dv => if d.step = s then compactLoop (s * d.len) dv else .error .check

/-- arrays.hh:546-548, the loop over the axes of `sup`. -/
def axesLoop (s : Int) : List Dim → List Dim → Except Fault Unit
  | p :: sup, d :: dv => if p.len = d.len ∧ s * p.step = d.step then axesLoop s sup dv else .error .check
  | _, _ => .ok ()

/-- The check on arrays.hh:553. -/
def stepOk (s step : Int) : Bool := if 0 = s then 0 == step else 0 == Int.tmod step s

/-- arrays.hh:551-555, the loop over the axes of the result. -/
def frameLoop (s : Int) : List Dim → Except Fault (List Dim)
  | [] => .ok []
  | d :: dv =>
    if stepOk s d.step then do
      let r ← frameLoop s dv
      return ⟨d.len, if 0 = s then 0 else Int.tdiv d.step s⟩ :: r
    else .error .check

/-- arrays.hh:533-578 `explode_dims` and `explode`, for a view with elements of size `e`. A negative rank for the result throws `std::length_error`
(line 573); this is `abort` here. -/
def View.explode (sup : Ty) (e : Int) (a : View) : Except Fault View :=
  let ru : Int := if sup.vsize = e then 0 else 1
  let rb : Int := a.dims.length - sup.dims.length - ru
  if rb < 0 then .error .abort else do
    let rb := rb.toNat
    let s ← compactLoop 1 (a.dims.drop (rb + sup.dims.length))
    if s * e = sup.vsize then
      axesLoop s sup.dims (a.dims.drop rb)
      let dims ← frameLoop (s * dimvSize sup.dims) (a.dims.take rb)
      return ⟨dims, a.cp⟩
    else .error .check

/-- arrays.hh:603-607, the loop over the axes of `sup` that become axes of the result. -/
def subLoop (s t : Int) : List Dim → Except Fault (List Dim)
  | [] => .ok []
  | d :: dv => if 0 = Int.tmod d.step s then do
      let r ← subLoop s t dv
      return ⟨d.len, Int.tdiv d.step s * t⟩ :: r
    else .error .check

/-- arrays.hh:581-612 `collapse`. `sup` is the element type of the view. The conditions on the sizes (lines 596, 602) and the rank of `sub` are
checked at compile time; they are `abort` here. -/
def View.collapse (sub sup : Ty) (a : View) : Except Fault View :=
  let subtype := Int.tdiv sup.vsize sub.size
  let subr : Int := sup.dims.length - sub.dims.length
  let r := Int.tdiv sup.size sub.size
  let t := Int.tdiv sup.vsize sub.vsize
  let s := Int.tdiv sub.size sub.vsize
  if sup.size = r * sub.size ∧ t * sub.vsize ≥ 1 ∧ 0 ≤ subr then do
    let f := a.dims.map fun d => ⟨d.len, d.step * r⟩
    let g ← subLoop s t (sup.dims.take subr.toNat)
    return ⟨f ++ g ++ (if subtype > 1 then [⟨t, 1⟩] else []), a.cp⟩
  else .error .abort

end Ra
