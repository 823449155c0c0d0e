import Verif.Model.Machine
import Verif.Model.Chain
/-!
# Operations on views, with the limits of `dim_t`

As `Model/From.lean` and `Model/ViewOps.lean`, with the arithmetic of `Model/Machine.lean`: overflow is undefined behaviour, and so are pointers that aren't in the array or one past its end. The array has
the addresses from `lo` to `lo + n - 1`. The arithmetic in expressions with `len` (ply.hh:243-295) is still without limits.
-/

namespace Ra

/-- Sum of two `dim_t` (base.hh:237). -/
def addM (a b : Int) : Except Fault Int := if fits (a + b) then .ok (a + b) else .error .ub

/-- Difference of two `dim_t` (base.hh:237). -/
def subM (a b : Int) : Except Fault Int := if fits (a - b) then .ok (a - b) else .error .ub

/-- ply.hh:407, the condition of the check of a range. The second part is only evaluated if the range isn't empty and its origin is in range. -/
def rangeCheckM (la i : Int) (d : Dim) : Except Fault Bool :=
  if d.len = 0 then .ok true
  else if inside i la then do
    let k ← subM d.len 1
    let e ← mulM k d.step
    let e ← addM i e
    return inside e la
  else .ok false

/-- ply.hh:402-411, as `iotaLoop`. The step of the result is found (line 403) before the check. -/
def iotaLoopM (lo n la st i : Int) (pl : Int) : List Dim → Except Fault (Int × List Dim)
  | [] => .ok (pl, [])
  | d :: ds => do
    let t ← mulM d.step st
    if ← rangeCheckM la i d then
      let k ← mulM i st
      let pl ← movePtr lo n pl k
      let (pl, bv) ← iotaLoopM lo n la st i pl ds
      return (pl, ⟨d.len, t⟩ :: bv)
    else .error .check

/-- ply.hh:367-435 `fromb`, as `fromb`. -/
def frombM (lo n : Int) (pl : Int) (bk : Nat) (dims : List Dim) : List Sub → Except Fault (Int × List Dim × List Nat)
  | [] => .ok (pl, dims, [])
  | .scalar e :: is =>
    match dims with
    | [] => .error .ub
    | d :: dims => do
      let i ← (e.wlen d.len).val
      if inside i d.len ∨ (UNB = d.len ∧ 0 = d.step) then
        let k ← mulM i d.step
        let pl ← movePtr lo n pl k
        frombM lo n pl bk dims is
      else .error .check
  | .iota iz o :: is =>
    match dims with
    | [] => .error .ub
    | d :: dims => do
      let iz ← iotaDims d.len iz
      if iz.length = 1 ∧ iz.any (·.len < 0) then .error .check else
      let i ← (o.wlen d.len).val
      let (pl, b0) ← iotaLoopM lo n d.len d.step i pl iz
      let (pl, bv, ds) ← frombM lo n pl (bk + iz.length) dims is
      return (pl, b0 ++ bv, ds)
  | .dots m :: is =>
    let m := match m with
      | some m => m
      | none => dims.length - (is.map fsrc).sum
    if dims.length < m then .error .ub else do
      let (pl, bv, ds) ← frombM lo n pl (bk + m) (dims.drop m) is
      return (pl, dims.take m ++ bv, ds)
  | .insert m :: is => do
    let (pl, bv, ds) ← frombM lo n pl (bk + m) dims is
    return (pl, List.replicate m ⟨UNB, 0⟩ ++ bv, ds)
  | .array :: is =>
    match dims with
    | [] => .error .ub
    | d :: dims => do
      let (pl, bv, ds) ← frombM lo n pl (bk + 1) dims is
      return (pl, d :: bv, bk :: ds)

/-- ply.hh:503-551 `from`, as `View.from`. -/
def View.fromM (lo n : Int) (a : View) (is : List Sub) : Except Fault View := do
  let (cp, dims, _) ← frombM lo n a.cp 0 a.dims is
  return ⟨dims, cp⟩

/-- arrays.hh:419 `revp`, how much the pointer moves. -/
def reverseMoveM (d : Dim) : Except Fault Int :=
  if 0 = d.len then .ok 0 else do
    let l ← subM d.len 1
    mulM d.step l

/-- arrays.hh:408-428 `reverse`, as `View.reverse`. -/
def View.reverseM (lo n : Int) (a : View) (k : Int) : Except Fault View :=
  if k < 0 then .error .ub else
  match a.dims[k.toNat]? with
  | none => .error .ub
  | some d =>
    if d.len = UNB then .error .check
    else if inside k a.dims.length then do
      let t ← mulM d.step (-1)
      let r ← reverseMoveM d
      let cp ← movePtr lo n a.cp r
      return ⟨a.dims.set k.toNat ⟨d.len, t⟩, cp⟩
    else .error .check

/-- arrays.hh:437-441, the loop in `transpose_dims`, as `transposeLoop`. -/
def transposeLoopM (dst : List Dim) : List (Int × Dim) → Except Fault (List Dim)
  | [] => .ok dst
  | (sk, d) :: t =>
    if sk < 0 then .error .ub else
    match dst[sk.toNat]? with
    | none => .error .ub
    | some e => do
      let s ← addM e.step d.step
      transposeLoopM (dst.set sk.toNat ⟨if e.len ≥ 0 then min e.len d.len else d.len, s⟩) t

/-- arrays.hh:431-462 `transpose`, as `View.transpose`. -/
def View.transposeM (a : View) (s : List Int) : Except Fault View :=
  if trank s < 0 then .error .abort else
  if s.length = a.dims.length then do
    let dims ← transposeLoopM (List.replicate (trank s).toNat ⟨UNB, 0⟩) (s.zip a.dims)
    return ⟨dims, a.cp⟩
  else .error .check

/-- arrays.hh:27-31, the loop in `c_order`, as `cOrderLoop`. -/
def cOrderLoopM (steps : Bool) (s : Int) : List Dim → Except Fault Bool
  | [] => .ok (s == 0 || steps)
  | d :: dv => do
    let t ← mulM s d.len
    cOrderLoopM (steps && (1 == d.len || d.step == s)) t dv

/-- arrays.hh:16-32 `c_order` with `step1 = false`, as `cOrder`. -/
def cOrderM (dims : List Dim) : Except Fault Bool :=
  match dims.reverse.dropWhile (·.len == 1) with
  | [] => .ok true
  | [_] => .ok true
  | d :: dv => do
    let s ← mulM d.step d.len
    cOrderLoopM true s dv

/-- arrays.hh:474-481 `ravel_free`, as `View.ravelFree`. -/
def View.ravelFreeM (a : View) : Except Fault View := do
  if ← cOrderM a.dims then
    let n ← dimvSizeM a.dims
    return ⟨[⟨n, ravelStep a.dims⟩], a.cp⟩
  else .error .check

/-- arrays.hh:493-496, as `quotLoop`. -/
def quotLoopM (q : Int) : List Int → Except Fault Int
  | [] => .ok q
  | x :: xs => do
    let r ← mulM q x
    if r > 0 then quotLoopM r xs else .error .check

/-- arrays.hh:490-505, as `placeholder`. -/
def placeholderM (la lb : Int) : List Int → Except Fault (List Int × Int)
  | [] => .ok ([], lb)
  | x :: xs =>
    if x = -1 then do
      let q ← quotLoopM lb xs
      if q = 0 then .error .ub else
      let pv := Int.tdiv la q
      if Int.tmod la q = 0 ∧ pv ≥ 0 then return (pv :: xs, la) else .error .check
    else do
      let l ← mulM lb x
      let (r, l) ← placeholderM la l xs
      return (x :: r, l)

/-- arrays.hh:483-531 `reshape`, as `View.reshape`. -/
def View.reshapeM (a : View) (sb : List Int) : Except Fault View := do
  let la ← dimvSizeM a.dims
  let (sb, lb) ← placeholderM la 1 sb
  match reshapeLoop a.dims.reverse sb.reverse with
  | some dv => return ⟨dv.reverse, a.cp⟩
  | none =>
    if (← cOrderM a.dims) ∧ la ≥ lb then
      let (dv, _) ← filldimvM sb
      match a.dims.getLast? with
      | none => .error .ub
      | some l => do
        let dv ← dv.mapM fun d => do
          let t ← mulM d.step l.step
          return (⟨d.len, t⟩ : Dim)
        return ⟨dv, a.cp⟩
    else .error .check

/-- arrays.hh:622-628, the loops in `stencil`, as `stencilLoop`. -/
def stencilLoopM : List Dim → List Int → List Int → Except Fault (List Dim × List Dim)
  | d :: dv, l :: lo, h :: hi => do
    let t ← addM l h
    if d.len ≥ t then do
      let a ← subM d.len l
      let a ← subM a h
      let b ← addM t 1
      let (f, w) ← stencilLoopM dv lo hi
      return (⟨a, d.step⟩ :: f, ⟨b, d.step⟩ :: w)
    else .error .check
  | _, _, _ => .ok ([], [])

/-- arrays.hh:615-630 `stencil`, as `View.stencil`. -/
def View.stencilM (a : View) (lo hi : List Int) : Except Fault View :=
  if (lo.all (0 ≤ ·)) ∧ (hi.all (0 ≤ ·)) then
    if lo.length = a.dims.length ∧ hi.length = a.dims.length then do
      let (f, w) ← stencilLoopM a.dims lo hi
      return ⟨f ++ w, a.cp⟩
    else .error .check
  else .error .check

/-- The view that an operation gives, as `ViewOp.run`: ply.hh:503-551, arrays.hh:408-462, 474-531, 615-630. -/
def ViewOp.runM (lo n : Int) : ViewOp → View → Except Fault View
  | .slice is, v => v.fromM lo n is
  | .reverse k, v => v.reverseM lo n k
  | .transpose ax, v => v.transposeM ax
  | .stencil l h, v => v.stencilM l h
  | .reshape t, v => v.reshapeM t
  | .ravel, v => v.ravelFreeM

/-- Operations one after another (ply.hh:503-551, arrays.hh:408-462, 474-531, 615-630), as `runOps`. -/
def runOpsM (lo n : Int) (ops : List ViewOp) (v : View) : Except Fault View := ops.foldlM (fun v op => op.runM lo n v) v

end Ra
