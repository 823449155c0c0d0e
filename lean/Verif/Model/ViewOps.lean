import Verif.Model.Iter
import Verif.Model.From
/-!
# Dims, and operations that make a view from another view

expr.hh:186-312 and arrays.hh:14-32, 404-630. Lengths and steps are run time values, as in `ViewBig`. For static dims the same code runs at compile
time, and a failed check or an access out of range there is a compile error.
-/

namespace Ra

/-- expr.hh:199-219 `filldimv`: row-major dims for the given lengths, and the size. The loop on line 209 goes from the last axis to the first. The case of
static steps (line 210) is not modelled. -/
def filldimv : List Int → Except Fault (List Dim × Int)
  | [] => .ok ([], 1)
  | n :: s => do
    let (dv, p) ← filldimv s
    if n ≥ 0 then return (⟨n, p⟩ :: dv, p * n) else .error .check

/-- arrays.hh:112, 114 `View(s, cp)`, a row-major view from its lengths. -/
def View.ofShape (s : List Int) (cp : Int) : Except Fault View := do
  let (dv, _) ← filldimv s
  return ⟨dv, cp⟩

/-- The loop on expr.hh:222 `dimv_size`. -/
def dimvSizeLoop (s : Int) : List Dim → Int
  | [] => s
  | d :: dv => if d.len < 0 then d.len else dimvSizeLoop (s * d.len) dv

/-- expr.hh:222 `dimv_size`. Also base.hh:411, `size` of objects with run time lengths. -/
def dimvSize (dv : List Dim) : Int := dimvSizeLoop 1 dv

/-- expr.hh:223 `dimv_empty`. -/
def dimvEmpty : List Dim → Bool
  | [] => false
  | d :: dv => if 0 = d.len then true else dimvEmpty dv

/-- The loop on arrays.hh:27-31 of `c_order`. The dims are in reverse. -/
def cOrderLoop (steps : Bool) (s : Int) : List Dim → Bool
  | [] => s == 0 || steps
  | d :: dv => cOrderLoop (steps && (1 == d.len || d.step == s)) (s * d.len) dv

/-- arrays.hh:16-32 `c_order`. The loop on line 23 skips axes of length 1 from the last. -/
def cOrder (dims : List Dim) (step1 : Bool) : Bool :=
  if step1 then cOrderLoop true 1 dims.reverse
  else match dims.reverse.dropWhile (·.len == 1) with
    | [] => true
    | [_] => true
    | d :: dv => cOrderLoop true (d.step * d.len) dv

/-- arrays.hh:408-428 `reverse` with a run time axis. Line 416 reads `len(k)` before the axis is checked on line 417. -/
def View.reverse (a : View) (k : Int) : Except Fault View :=
  if k < 0 then .error .ub else
  match a.dims[k.toNat]? with
  | none => .error .ub
  | some d =>
    if d.len = UNB then .error .check
    else if inside k a.dims.length then
      .ok ⟨a.dims.set k.toNat ⟨d.len, d.step * -1⟩, a.cp + (if 0 = d.len then 0 else d.step * (d.len - 1))⟩
    else .error .check

/-- arrays.hh:437-441, the loop in `transpose_dims`. -/
def transposeLoop (dst : List Dim) : List (Int × Dim) → Except Fault (List Dim)
  | [] => .ok dst
  | (sk, d) :: t =>
    if sk < 0 then .error .ub else
    match dst[sk.toNat]? with
    | none => .error .ub
    | some e => transposeLoop (dst.set sk.toNat ⟨if e.len ≥ 0 then min e.len d.len else d.len, e.step + d.step⟩) t

/-- arrays.hh:447, the rank of the result. -/
def trank (s : List Int) : Int := match s with
  | [] => 0
  | x :: xs => 1 + xs.foldl max x

/-- arrays.hh:431-462 `transpose` with a run time axis list (line 450). A negative rank throws `std::length_error` in the constructor of the dims; this is `abort` here. -/
def View.transpose (a : View) (s : List Int) : Except Fault View :=
  if trank s < 0 then .error .abort else
  if s.length = a.dims.length then do
    let dims ← transposeLoop (List.replicate (trank s).toNat ⟨UNB, 0⟩) (s.zip a.dims)
    return ⟨dims, a.cp⟩
  else .error .check

/-- arrays.hh:478-480, the step in `ravel_free`. -/
def ravelStep (dims : List Dim) : Int :=
  match dims.reverse.dropWhile (·.len == 1) with
  | [] => 1
  | d :: _ => d.step

/-- arrays.hh:474-481 `ravel_free`. -/
def View.ravelFree (a : View) : Except Fault View :=
  if cOrder a.dims false then .ok ⟨[⟨dimvSize a.dims, ravelStep a.dims⟩], a.cp⟩ else .error .check

/-- arrays.hh:493-496. -/
def quotLoop (q : Int) : List Int → Except Fault Int
  | [] => .ok q
  | x :: xs => if q * x > 0 then quotLoop (q * x) xs else .error .check

/-- arrays.hh:490-505: find the placeholder (-1) and replace it. Returns the lengths and the size `lb`. Division by 0 is undefined behaviour. -/
def placeholder (la lb : Int) : List Int → Except Fault (List Int × Int)
  | [] => .ok ([], lb)
  | x :: xs =>
    if x = -1 then do
      let q ← quotLoop lb xs
      if q = 0 then .error .ub else
      let pv := Int.tdiv la q
      if Int.tmod la q = 0 ∧ pv ≥ 0 then return (pv :: xs, la) else .error .check
    else do
      let (r, l) ← placeholder la (lb * x) xs
      return (x :: r, l)

/-- The loop on arrays.hh:511-526 and the one after it, with both lists in reverse. `none` when some lengths are different (line 512). -/
def reshapeLoop : List Dim → List Int → Option (List Dim)
  | [], b => some (b.map fun n => ⟨n, 0⟩)
  | _ :: _, [] => some []
  | d :: a, n :: b => if d.len = n then (reshapeLoop a b).map (d :: ·) else none

/-- arrays.hh:483-531 `reshape`. -/
def View.reshape (a : View) (sb : List Int) : Except Fault View := do
  let la := dimvSize a.dims
  let (sb, lb) ← placeholder la 1 sb
  match reshapeLoop a.dims.reverse sb.reverse with
  | some dv => return ⟨dv.reverse, a.cp⟩
  | none =>
    if cOrder a.dims false ∧ la ≥ lb then
      let (dv, _) ← filldimv sb
      match a.dims.getLast? with
      | none => .error .ub
      | some l => return ⟨dv.map fun d => ⟨d.len, d.step * l.step⟩, a.cp⟩
    else .error .check

/-- The loops on arrays.hh:622-628 in `stencil`: dims of the frame and dims of the window. The arguments have been matched on the first axis. -/
def stencilLoop : List Dim → List Int → List Int → Except Fault (List Dim × List Dim)
  | d :: dv, l :: lo, h :: hi =>
    if d.len ≥ l + h then do
      let (f, w) ← stencilLoop dv lo hi
      return (⟨d.len - l - h, d.step⟩ :: f, ⟨l + h + 1, d.step⟩ :: w)
    else .error .check
  | _, _, _ => .ok ([], [])

/-- arrays.hh:615-630 `stencil`. `for_each` checks that the bounds agree with the rank. -/
def View.stencil (a : View) (lo hi : List Int) : Except Fault View :=
  if (lo.all (0 ≤ ·)) ∧ (hi.all (0 ≤ ·)) then
    if lo.length = a.dims.length ∧ hi.length = a.dims.length then do
      let (f, w) ← stencilLoop a.dims lo hi
      return ⟨f ++ w, a.cp⟩
    else .error .check
  else .error .check

/-- expr.hh:228 `rank_cell` with run time rank. -/
def rankCell (r cr : Int) : Int := if cr ≥ 0 then cr else r + cr

/-- expr.hh:277-284, the constructor of `Cell` for cell rank `cr`, with run time rank: dims of the frame and of the cell. If the cell rank is negative, the
`resize` on line 280 throws `std::length_error`; this is `abort` here. -/
def View.cell (a : View) (cr : Int) : Except Fault (List Dim × List Dim) :=
  let dcell := rankCell a.dims.length cr
  if dcell < 0 then .error .abort else
  let dframe := (a.dims.length : Int) - dcell
  if 0 ≤ dframe then .ok (a.dims.take dframe.toNat, a.dims.drop dframe.toNat) else .error .check

/-- expr.hh:317-328 `iter(a, c)`, as an iterator over views. -/
def View.cellIter {m : Type → Type} [Monad m] (a : View) (cr : Int) : Except Fault (Iter m View) := do
  let (f, c) ← a.cell cr
  return .cell f a.cp fun p => pure ⟨c, p⟩

/-- expr.hh:303 `Cell::at` when the cell rank isn't 0 (302 when it is: the view has rank 0). -/
def View.cellAt (a : View) (cr : Int) (j : List Int) : Except Fault View := do
  let (f, c) ← a.cell cr
  let p ← indexer f a.cp j
  return ⟨c, p⟩

/-- ra.hh:240-250 `at_view` for a single index. -/
def View.atView (a : View) (i : List Int) : Except Fault View := a.cellAt ((a.dims.length : Int) - i.length) i

/-- ply.hh:297-307 `shape(v, e)` for one axis, given the lengths of `v`. -/
def shapeAt (lens : List Int) (e : LenExpr) : Except Fault Int := do
  let k ← (e.wlen lens.length).val
  if inside k lens.length then return lens.getD k.toNat 0 else .error .check

end Ra
