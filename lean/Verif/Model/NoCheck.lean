import Verif.Model.FullProgram
/-!
# Without checks

With `RA_CHECK==0`, `RA_CK` does nothing (expr.hh:20-21). These are the functions that have a check, or that use one that does, with the checks removed. The names are those of the
functions with checks, in another namespace. What is left of each one is in the same order as in the one with checks.

Simplifications:
* `static_assert` doesn't depend on `RA_CHECK`. As in the functions with checks, what the compiler knows isn't separated from the rest, so the shapes that a `static_assert` would reject aren't
  rejected here.
* Reading or writing out of the bounds of a list of dims or of subscripts is undefined behaviour. Reading or writing memory is only if there's nothing at that address; it could be some other object.
-/

namespace Ra.NoCheck

/-! Views. -/

/-- expr.hh:164-181 `indexer`, without 169, 173 and 177. -/
def indexer : List Dim → Int → List Int → Except Fault Int
  | [], cp, _ => .ok cp
  | _ :: _, _, [] => .error .ub
  | d :: ds, cp, i :: j => indexer ds (cp + i * d.step) j

/-- expr.hh:199-219 `filldimv`, without 204 and 215. -/
def filldimv : List Int → List Dim × Int
  | [] => ([], 1)
  | n :: s => (⟨n, (filldimv s).2⟩ :: (filldimv s).1, (filldimv s).2 * n)

/-- arrays.hh:112, 114 `View(s, cp)`, with expr.hh:199-219 without checks. -/
def ofShape (s : List Int) (cp : Int) : View := ⟨(filldimv s).1, cp⟩

/-- arrays.hh:408-428 `reverse`, without 416-417. -/
def reverse (a : View) (k : Int) : Except Fault View :=
  if k < 0 then .error .ub else
  match a.dims[k.toNat]? with
  | none => .error .ub
  | some d => .ok ⟨a.dims.set k.toNat ⟨d.len, d.step * -1⟩, a.cp + (if 0 = d.len then 0 else d.step * (d.len - 1))⟩

/-- arrays.hh:431-462 `transpose`, without 435. With too many axes, line 438 reads out of the dims. -/
def transpose (a : View) (s : List Int) : Except Fault View :=
  if trank s < 0 then .error .abort else
  if s.length ≤ a.dims.length then do
    let dims ← transposeLoop (List.replicate (trank s).toNat ⟨UNB, 0⟩) (s.zip a.dims)
    return ⟨dims, a.cp⟩
  else .error .ub

/-- arrays.hh:474-481 `ravel_free`, without 477. -/
def ravelFree (a : View) : View := ⟨[⟨dimvSize a.dims, ravelStep a.dims⟩], a.cp⟩

/-- arrays.hh:490-505, the loops of `placeholder`, without 495 and 498. -/
def placeholder (la lb : Int) : List Int → Except Fault (List Int × Int)
  | [] => .ok ([], lb)
  | x :: xs =>
    if x = -1 then
      let q := xs.foldl (· * ·) lb
      if q = 0 then .error .ub else .ok (Int.tdiv la q :: xs, la)
    else do
      let (r, l) ← placeholder la (lb * x) xs
      return (x :: r, l)

/-- arrays.hh:483-531 `reshape`, without 495, 498 and 512. -/
def reshape (a : View) (sb : List Int) : Except Fault View := do
  let la := dimvSize a.dims
  let (sb, _) ← placeholder la 1 sb
  match reshapeLoop a.dims.reverse sb.reverse with
  | some dv => return ⟨dv.reverse, a.cp⟩
  | none =>
    match a.dims.getLast? with
    | none => .error .ub
    | some l => return ⟨(filldimv sb).1.map fun d => ⟨d.len, d.step * l.step⟩, a.cp⟩

/-- The loops on arrays.hh:622-628 in `stencil`, without 623. -/
def stencilLoop : List Dim → List Int → List Int → List Dim × List Dim
  | d :: dv, l :: lo, h :: hi =>
    let r := stencilLoop dv lo hi
    (⟨d.len - l - h, d.step⟩ :: r.1, ⟨l + h + 1, d.step⟩ :: r.2)
  | _, _, _ => ([], [])

/-- arrays.hh:615-630 `stencil`, without 621, 623 and the checks of `for_each`. If the bounds don't agree with the rank then not all the dims are set. -/
def stencil (a : View) (lo hi : List Int) : Except Fault View :=
  if lo.length = a.dims.length ∧ hi.length = a.dims.length then
    let r := stencilLoop a.dims lo hi
    .ok ⟨r.1 ++ r.2, a.cp⟩
  else .error .ub

/-- expr.hh:277-284, the constructor of `Cell`, without 282. If the frame rank is negative then line 283 reads before the start of the dims. -/
def cell (a : View) (cr : Int) : Except Fault (List Dim × List Dim) :=
  let dcell := rankCell a.dims.length cr
  if dcell < 0 then .error .abort else
  let dframe := (a.dims.length : Int) - dcell
  if 0 ≤ dframe then .ok (a.dims.take dframe.toNat, a.dims.drop dframe.toNat) else .error .ub

/-- expr.hh:303 `Cell::at`, with `cell` and `indexer` without checks. -/
def cellAt (a : View) (cr : Int) (j : List Int) : Except Fault View := do
  let (f, c) ← cell a cr
  let p ← indexer f a.cp j
  return ⟨c, p⟩

/-- ra.hh:240-250 `at_view`, with `cellAt` without checks. -/
def atView (a : View) (i : List Int) : Except Fault View := cellAt a ((a.dims.length : Int) - i.length) i

/-- ply.hh:297-307 `shape(v, e)` for one axis, without 302. -/
def shapeAt (lens : List Int) (e : LenExpr) : Except Fault Int := do
  let k ← (e.wlen lens.length).val
  if 0 ≤ k then
    match lens[k.toNat]? with
    | some n => return n
    | none => .error .ub
  else .error .ub

/-- The loop on ply.hh:402-411, without 407. -/
def iotaLoop (st i : Int) (pl : Int) : List Dim → Int × List Dim
  | [] => (pl, [])
  | d :: ds =>
    let r := iotaLoop st i (pl + i * st) ds
    (r.1, ⟨d.len, d.step * st⟩ :: r.2)

/-- ply.hh:367-435 `fromb`, without 395 and 407; nor expr.hh:357 for the length of an iota. -/
def fromb (pl : Int) (bk : Nat) (dims : List Dim) : List Sub → Except Fault (Int × List Dim × List Nat)
  | [] => .ok (pl, dims, [])
  | .scalar e :: is =>
    match dims with
    | [] => .error .ub
    | d :: dims => do
      let i ← (e.wlen d.len).val
      fromb (pl + i * d.step) bk dims is
  | .iota iz o :: is =>
    match dims with
    | [] => .error .ub
    | d :: dims => do
      let iz ← iotaDims d.len iz
      let i ← (o.wlen d.len).val
      let r := iotaLoop d.step i pl iz
      let (pl, bv, ds) ← fromb r.1 (bk + iz.length) dims is
      return (pl, r.2 ++ bv, ds)
  | .dots n :: is =>
    let n := match n with
      | some n => n
      | none => dims.length - (is.map fsrc).sum
    if dims.length < n then .error .ub else do
      let (pl, bv, ds) ← fromb pl (bk + n) (dims.drop n) is
      return (pl, dims.take n ++ bv, ds)
  | .insert n :: is => do
    let (pl, bv, ds) ← fromb pl (bk + n) dims is
    return (pl, List.replicate n ⟨UNB, 0⟩ ++ bv, ds)
  | .array :: is =>
    match dims with
    | [] => .error .ub
    | d :: dims => do
      let (pl, bv, ds) ← fromb pl (bk + 1) dims is
      return (pl, d :: bv, bk :: ds)

/-- ply.hh:503-524, 529-533 `from` when all the subscripts are beatable, with `fromb` without checks. -/
def «from» (a : View) (is : List Sub) : Except Fault View := do
  let (cp, dims, _) ← fromb a.cp 0 a.dims is
  return ⟨dims, cp⟩

/-- The view that an operation gives, as `ViewOp.run`: ply.hh:503-551, arrays.hh:408-428, 431-462, 615-630, 483-531, 474-481. -/
def viewOp : ViewOp → View → Except Fault View
  | .slice is, v => NoCheck.from v is
  | .reverse k, v => reverse v k
  | .transpose ax, v => transpose v ax
  | .stencil lo hi, v => stencil v lo hi
  | .reshape t, v => reshape v t
  | .ravel, v => .ok (ravelFree v)

/-- Operations one after another, as `Ra.runOps` (arrays.hh:408-630, ply.hh:503-551). -/
def runOps (ops : List ViewOp) (v : View) : Except Fault View := ops.foldlM (fun v op => viewOp op v) v

/-- The view of array `i` that the operations give, as `Ra.viewOf` (arrays.hh:408-630, ply.hh:503-551). -/
def viewOf (as : List Arr) (i : Nat) (ops : List ViewOp) : Except Fault View :=
  match as[i]? with
  | some a => runOps ops a.view
  | none => .error .abort

/-! Traversal. -/

section
variable {m : Type → Type} {α β : Type} [Monad m] [MonadFault m]

/-- ply.hh:21-86 `ply_ravel`, without the checks of `validate` (line 25; expr.hh:517, 524, 562). -/
def plyRavel (stop : α → Option β) (z : List Int) (a : Iter m α) : m (Option β × List Int × Iter m α) :=
  match a.rank.toNat with
  | 0 => do
    let x ← a.deref
    pure (stop x, z, a)
  | r+1 =>
    let z := resizeZ z (r+1)
    let c := compact a r r (a.len r)
    let axes := (List.range c.1).reverse.map fun o => (o, a.len o)
    if axes.any (·.2 ≤ 0) then pure (none, z, a)
    else ravelLoop stop c.2 (a.step r) axes (ravelFuel axes) z a

omit [MonadFault m] in
/-- ply.hh:127-153 `ply_fixed`, without the checks of `validate` (line 131). -/
def plyFixed (stop : α → Option β) (a : Iter m α) : m (Option β × Iter m α) :=
  match a.rank.toNat with
  | 0 => do
    let x ← a.deref
    pure (stop x, a)
  | r+1 => subply stop (r+1) (a.len r) (a.step r) r a

/-- ply.hh:157-166 `ply`, with `plyRavel` and `plyFixed` without checks. -/
def ply (dyn : Bool) (stop : α → Option β) (z : List Int) (a : Iter m α) : m (Option β) :=
  if dyn then do
    let r ← plyRavel stop z a
    pure r.1
  else do
    let r ← plyFixed stop a
    pure r.1

omit [Monad m] [MonadFault m] in
/-- ply.hh:186, the constructor of `STLIterator`, without the checks of `validate`. -/
def stlBegin (a : Iter m α) : Stl m α := ⟨a, a.shape.reverse, a.size == 0⟩

/-- A range-for loop over `a`, with `stlBegin` without checks (ply.hh:191-230). -/
def stlFor (f : α → m β) (a : Iter m α) : m Unit := stlLoop f (a.size.toNat + 1) (stlBegin a)

omit [Monad m] [MonadFault m] in
/-- expr.hh:149-157 `to_scalar(e)`, without 154. -/
def toScalar (e : Iter m α) : m α := e.deref

omit [Monad m] in
/-- expr.hh:701-710 `pick_star` (also 688-697 `pick_at`), without 708. There's `std::abort()` after the check. -/
def pickStar (I p0 : Nat) : List (m α) → m α
  | [] => fault .abort
  | x :: xs => if p0 = I then x else pickStar (I+1) p0 xs

/-- ply.hh:168 `for_each(op, t ...)` when `op` updates a variable `c`, as `Ra.forEachRef`, with `ply` without checks. -/
def forEachRef {γ : Type} [Inhabited α] (dyn : Bool) (z : List Int) (op : γ → List α → m γ) (c : γ) (t : List (Iter (StateT γ m) α)) : m γ := do
  let r ← (ply (β := Unit) dyn never z (.node (mapOp fun xs => do
    let c ← get
    let c' ← (op c xs : m γ)
    set c'
    pure default) t)).run c
  pure r.2

end

/-! Array subscripts. -/

section
variable {m : Type → Type} {α : Type}

/-- ply.hh:461-465 `spacer`, without expr.hh:357. -/
def spacer [Monad m] [IndexLike α] (dims : List Dim) (p q : Nat) : List (Iter m α) :=
  ((dims.take q).drop p).map fun d => .cell [⟨d.len, 1⟩] 0 fun i => pure (ofIdx i)

/-- ply.hh:479-499 `fromu`, with `spacer` without checks. -/
def fromuArgs [Monad m] [IndexLike α] (dims : List Dim) (p : Nat) : List (Nat × Iter m α) → List (Iter m α)
  | [] => spacer dims p dims.length
  | (d, i) :: is => spacer dims p d ++ i :: fromuArgs dims (d+1) is

/-- `b(i ...)` with as many integers as axes: ply.hh:509-510, with `from` without checks. -/
def elemAt [MonadFault m] (b : View) (rd : Int → m α) (i : List Int) : m α :=
  match NoCheck.from b (i.map fun x => .scalar (.const x)) with
  | .ok c => rd c.cp
  | .error f => fault f

end

/-! Expressions. -/

section
variable {V : Type} {m : Type → Type} [Monad m] [MonadFault m] [MonadLiftT (Act V) m]

/-- The element of `Pick`, as `Ra.pickIn`: expr.hh:701-710, 719-720, with `pickStar` without checks. -/
def pickIn (sel : V → Nat) (xs : List (m (Lv V))) : m (Lv V) :=
  match xs with
  | [] => fault .abort
  | p :: ps => do
    let l ← p
    let x ← liftM (l.get : Act V V)
    pickStar 0 (sel x) ps

/-- ply.hh:509-511, as `Ra.gatherOp`, with `elemAt` without checks. -/
def gatherOp (n : IndexLike V) (b : View) (xs : List (Lv V)) : m (Lv V) := do
  let vs ← getAll xs
  elemAt b (fun p => pure (.ref p)) (vs.map n.toIdx)

/-- ply.hh:503-525 `from` with array subscripts, as `View.gather`, with `fromb`, `fromuArgs` and `gatherOp` without checks. -/
def gather (n : IndexLike V) (w : View) (mask : List Bool) (t : List (Iter m (Lv V))) : Except Fault (Option (Iter m (Lv V))) := do
  let (cp, dims, ds) ← fromb w.cp 0 w.dims (mask.map fun a => if a then .array else .dots (some 1))
  return fromOp (gatherOp n ⟨dims, cp⟩) (@fromuArgs m (Lv V) _ (lvIndex n) dims 0 (ds.zip t))

mutual
/-- The iterator for an expression, as `FExp.iter` (expr.hh:668-678, 724-728; arrays.hh:361), with the rest without checks. -/
def iter (as : List Arr) : FExp V → Except Fault (Iter m (Lv V))
  | .const x => .ok (.scalar (pure (.val x)))
  | .index w f => .ok (reframe [w] (.cell [⟨UNB, 1⟩] 0 fun i => pure (.val (f i))))
  | .iota n o s f => .ok (.cell [⟨n, s⟩] o fun i => pure (.val (f i)))
  | .view i ops => do
    let w ← viewOf as i ops
    return .cell w.dims w.cp fun p => pure (.ref p)
  | .gather n i ops mask t => do
    let w ← viewOf as i ops
    let t ← iters as t
    match ← gather n w mask t with
    | some e => return e
    | none => .error .abort
  | .map f cranks t => do
    let t ← iters as t
    match mapVerb (valOpIn f) cranks t with
    | some e => return e
    | none => .error .abort
  | .pick sel t => do
    let t ← iters as t
    return .node (pickIn sel) t
  | .fold _ _ _ => .error .abort
/-- The same for each argument (expr.hh:668-678, 724-728). -/
def iters (as : List Arr) : List (FExp V) → Except Fault (List (Iter m (Lv V)))
  | [] => .ok []
  | e :: t => do
    let e ← iter as e
    let t ← iters as t
    return e :: t
end

end

section
variable {V : Type}

mutual
/-- Do the reductions of an expression, as `FExp.eager` (ra.hh:348-401, also 306-321), with `iter` and `forEachRef` without checks. -/
def eager (dyn : Bool) (z : List Int) (as : List Arr) : FExp V → Act V (FExp V)
  | .const x => pure (.const x)
  | .index w f => pure (.index w f)
  | .iota n o s f => pure (.iota n o s f)
  | .view i ops => pure (.view i ops)
  | .gather n i ops mask t => do
    let t ← eagers dyn z as t
    pure (.gather n i ops mask t)
  | .map f cranks t => do
    let t ← eagers dyn z as t
    pure (.map f cranks t)
  | .pick sel t => do
    let t ← eagers dyn z as t
    pure (.pick sel t)
  | .fold f x0 e => do
    let e ← eager dyn z as e
    let t ← Act.lift (iter (m := StateT V (Act V)) as e)
    let x ← forEachRef dyn z (foldOp f) x0 [t]
    pure (.const x)
/-- The same for each argument (ra.hh:348-401). -/
def eagers (dyn : Bool) (z : List Int) (as : List Arr) : List (FExp V) → Act V (List (FExp V))
  | [] => pure []
  | e :: t => do
    let e ← eager dyn z as e
    let t ← eagers dyn z as t
    pure (e :: t)
end

/-! Containers. -/

/-- expr.hh:199-219 `filldimv` on the dims of an array, with expr.hh:186-197 `resize`; without 190, 195, 204, 215. With static rank, only the dims that there are get filled: line 206 reads out of the
lengths if there are fewer. -/
def fill (a : Arr) (s : List Int) : Except Fault Int × Arr :=
  if a.rk.isSome then
    if s.length < a.dims.length then (.error .ub, a)
    else
      let r := filldimv (s.take a.dims.length)
      (.ok r.2, { a with dims := r.1 })
  else
    let r := filldimv s
    (.ok r.2, { a with dims := r.1 })

/-- arrays.hh:296 `Array(s, none)`, with arrays.hh:229 `create` without its check. A negative size converts to one over the limit. -/
def create (rk : Option Nat) (o : Option Int) (fill : Nat → V) (s : List Int) (μ : Mem V) : Except Fault Arr × Mem V :=
  match (NoCheck.fill ⟨rk, List.replicate (rk.getD 0) ⟨0, 0⟩, 0, 0⟩ s) with
  | (.error e, _) => (.error e, μ)
  | (.ok n, a) =>
    match storeResize o fill n a μ with
    | (.ok (), a', μ') => (.ok a', μ')
    | (.error e, _, _) => (.error e, μ)

/-- arrays.hh:306-307 `resize(s)` and `resize(s, t)`, without 304. With rank 0 it writes out of the dims. -/
def resize (o : Option Int) (fill : Nat → V) (n : Int) (a : Arr) (μ : Mem V) : Except Fault Unit × Arr × Mem V :=
  match a.dims with
  | [] => (.error .ub, a, μ)
  | d :: ds =>
    let a' := { a with dims := ⟨n, d.step⟩ :: ds }
    storeResize o fill a'.size a' μ

/-- arrays.hh:308 `resize(s)` with a shape, with `fill` without checks. -/
def resizeShape (o : Option Int) (fill : Nat → V) (s : List Int) (a : Arr) (μ : Mem V) : Except Fault Unit × Arr × Mem V :=
  match NoCheck.fill a s with
  | (.error e, a') => (.error e, a', μ)
  | (.ok n, a') => storeResize o fill n a' μ

/-- arrays.hh:310-312 `push_back(t)`, `emplace_back`, without 304. It adds one element to the store and one to the first length, whatever the rank. With rank 0 it writes out of the dims. -/
def pushBack (o : Option Int) (t : V) (a : Arr) (μ : Mem V) : Except Fault Unit × Arr × Mem V :=
  match storeResize o (fun _ => t) (a.n + 1) a μ with
  | (.ok (), a', μ') =>
    match a.dims with
    | [] => (.error .ub, a', μ')
    | d :: ds => (.ok (), { a' with dims := ⟨d.len + 1, d.step⟩ :: ds }, μ')
  | (.error e, a', μ') => (.error e, a', μ')

/-- arrays.hh:313 `pop_back()`, without 304 and its own check. -/
def popBack (a : Arr) (μ : Mem V) : Except Fault Unit × Arr × Mem V :=
  match a.dims with
  | [] => (.error .ub, a, μ)
  | d :: ds =>
    let a' := { a with dims := ⟨d.len - 1, d.step⟩ :: ds }
    if a.n = 0 then (.error .ub, a', μ)
    else (.ok (), { a' with n := a.n - 1 }, μ.move a a.base (a.n - 1) fun _ => none)

/-- arrays.hh:340-343, for `xa` with dynamic rank and `xb` with static rank, without 338; nor expr.hh:344, so with rank 1 the step is the one in the type. When the ranks differ, the traversals on
341-342 are of lists of different lengths. -/
def swapDims (xa xb : Arr) : Except Fault (Arr × Arr) :=
  if xa.dims.length ≠ xb.dims.length then .error .ub
  else
    let c := if xb.rk = some 1 then xa.dims.map fun d => ⟨d.len, 1⟩ else xa.dims
    .ok ({ xa with dims := xb.dims }, { xb with dims := c })

/-- arrays.hh:330-346 `swap(a, b)`, with `swapDims` without checks. -/
def swap (a b : Arr) : Except Fault Unit × Arr × Arr :=
  let ds : Except Fault (Arr × Arr) :=
    if a.rk.isNone = b.rk.isNone then
      if a.rk = b.rk then .ok ({ a with dims := b.dims }, { b with dims := a.dims }) else .error .abort
    else if a.rk.isNone then swapDims a b
    else do
      let (xa, xb) ← swapDims b a
      pure (xb, xa)
  match ds with
  | .error e => (.error e, a, b)
  | .ok (a', b') => (.ok (), { a' with base := b'.base, n := b'.n }, { b' with base := a'.base, n := a'.n })

/-- Do one operation, as `Op.step` (arrays.hh:276-313, 330-346), with each one without checks. -/
def opStep (as : List Arr) (μ : Mem V) : Op V → Except Fault Unit × List Arr × Mem V
  | .default rk => if rk = some 0 then (.error .abort, as, μ) else (.ok (), as ++ [Arr.default rk], μ)
  | .create rk o fill s =>
    match create rk o fill s μ with
    | (.ok a, μ') => (.ok (), as ++ [a], μ')
    | (.error e, μ') => (.error e, as, μ')
  | .resize i o fill n => onArr i (resize o fill n) as μ
  | .resizeShape i o fill s => onArr i (resizeShape o fill s) as μ
  | .pushBack i o t => onArr i (pushBack o t) as μ
  | .popBack i => onArr i popBack as μ
  | .copy i j o =>
    match as[j]? with
    | some b => if i = j then (.ok (), as, μ) else onArr i (fun a => if a.rk = b.rk then Arr.copyFrom o a b else fun μ => (.error .abort, a, μ)) as μ
    | none => (.error .abort, as, μ)
  | .swap i j =>
    match as[i]?, as[j]? with
    | some a, some b =>
      if i = j then (.ok (), as, μ)
      else
        let r := swap a b
        (r.1, (as.set i r.2.1).set j r.2.2, μ)
    | _, _ => (.error .abort, as, μ)
  | .run p =>
    let r := p μ
    (r.1, as, r.2)

/-- arrays.hh:34-44 `to_ravel` into a view, without 38. -/
def toRavel (ct step1 : Bool) (xs : List V) (v : View) : Act V Unit :=
  if v.beginIsPtr ct step1 then ptrCopy xs v.cp else stlCopy xs (stlBegin (v.refs : Iter (Act V) (Lv V)))

/-! Assignment and programs. -/

/-- expr.hh:50-60 `dst = x`, as `Ra.assign`, with `ply` without checks. -/
def assign (dyn : Bool) (z : List Int) (dst x : Iter (Act V) (Lv V)) : Act V Unit := do
  let _ ← ply (β := Unit) dyn never z (.node (mapOp setOp) [dst, x])
  pure ()

/-- expr.hh:50-60 `dst OP x`, as `Ra.update`, with `ply` without checks. -/
def update (f : V → V → V) (dyn : Bool) (z : List Int) (dst x : Iter (Act V) (Lv V)) : Act V Unit := do
  let _ ← ply (β := Unit) dyn never z (.node (mapOp (updOp f)) [dst, x])
  pure ()

/-- Do one operation, as `Cmd.step` (arrays.hh:276-313, 330-346; ply.hh:509-510; expr.hh:50-60), with each one without checks. -/
def cmdStep (dyn : Bool) (z : List Int) (as : List Arr) (μ : Mem V) : Cmd V → Except Fault Unit × List Arr × Mem V
  | .op o => opStep as μ o
  | .set i j x =>
    match as[i]? with
    | some a =>
      if j.length = a.dims.length then
        let r := (elemAt a.view (fun p => Act.write p x) j) μ
        (r.1, as, r.2)
      else (.error .abort, as, μ)
    | none => (.error .abort, as, μ)
  | .assign i e =>
    match as[i]?, e.iter as with
    | some a, some t =>
      let r := assign dyn z a.view.refs t μ
      (r.1, as, r.2)
    | _, _ => (.error .abort, as, μ)
  | .update f i e =>
    match as[i]?, e.iter as with
    | some a, some t =>
      let r := update f dyn z a.view.refs t μ
      (r.1, as, r.2)
    | _, _ => (.error .abort, as, μ)

/-- expr.hh:50-60, `d OP e` where `op` is the body of `OP`, as `Ra.fassign`, with the rest without checks. -/
def fassign (dyn : Bool) (z : List Int) (as : List Arr) (op : List (Lv V) → Act V (Lv V)) (d e : FExp V) : Act V Unit := do
  let d ← eager dyn z as d
  let e ← eager dyn z as e
  let w ← Act.lift (iter (m := Act V) as d)
  let t ← Act.lift (iter (m := Act V) as e)
  let _ ← ply (β := Unit) dyn never z (.node (mapOp op) [w, t])
  pure ()

/-- arrays.hh:297 `Array(s, x)`, with `create` and `assign` without checks. -/
def ofExpr (rk : Option Nat) (o : Option Int) (fill : Nat → V) (dyn : Bool) (z : List Int) (s : List Int) (x : Iter (Act V) (Lv V)) (μ : Mem V) :
    Except Fault Arr × Mem V :=
  Arr.andDo (create rk o fill s μ) fun a => assign dyn z a.view.refs x

/-- arrays.hh:291 `Array(e)`, as `Ra.fmake`, with the rest without checks. -/
def fmake (dyn : Bool) (z : List Int) (as : List Arr) (rk : Option Nat) (o : Option Int) (fill : Nat → V) (e : FExp V) : Act V Arr := do
  let e ← eager dyn z as e
  let t ← Act.lift (iter (m := Act V) as e)
  ofExpr rk o fill dyn z t.shape t

/-- Do one operation, as `FCmd.step` (expr.hh:50-60; arrays.hh:291), without checks. -/
def step (dyn : Bool) (z : List Int) (as : List Arr) (μ : Mem V) : FCmd V → Except Fault Unit × List Arr × Mem V
  | .cmd c => cmdStep dyn z as μ c
  | .assign d e =>
    let r := fassign dyn z as setOp d e μ
    (r.1, as, r.2)
  | .update f d e =>
    let r := fassign dyn z as (updOp f) d e μ
    (r.1, as, r.2)
  | .make rk o fill e =>
    match fmake dyn z as rk o fill e μ with
    | (.ok a, μ') => (.ok (), as ++ [a], μ')
    | (.error f, μ') => (.error f, as, μ')

/-- Do some operations, as `Ra.fprogram` (expr.hh:50-60; arrays.hh:276-313), without checks. -/
def fprogram (dyn : Bool) (z : List Int) : List (FCmd V) → List Arr → Mem V → Except Fault Unit × List Arr × Mem V
  | [], as, μ => (.ok (), as, μ)
  | c :: cs, as, μ =>
    match step dyn z as μ c with
    | (.ok (), as', μ') => fprogram dyn z cs as' μ'
    | (.error e, as', μ') => (.error e, as', μ')

end
end Ra.NoCheck
