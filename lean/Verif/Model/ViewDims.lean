import Verif.Model.Fill
/-!
# Views made from dims, and conversions between types of views

arrays.hh:107-118 and expr.hh:330-348. A type of view may have its rank, and the length or the step of an axis, as part of the type: that is `ViewBig<P>` (nothing), `ViewBig<P, R>` (the rank), and `Ptr` and the dims of
arrays of rank 1 (the rank and some of the length and the step). When a view is made from dims, the dims of the new view are the destination of an array assignment, with the dims given as the source.

So dims are in memory here, like elements elsewhere. The dims of the new view are put at an address `b` that is free.
-/

namespace Ra

/-- expr.hh:330-334 `SDim<N, S>`: the length and the step if they are in the type. -/
structure AxisType where
  len : Option Int
  step : Option Int
deriving DecidableEq

/-- expr.hh:343 on the dim at `p`. `ck` is whether there are checks. -/
def AxisType.setLen (ck : Bool) (t : AxisType) (p : Int) (a : Dim) : Act Dim Unit :=
  match t.len with
  | none => do
    let d ← Act.read p
    Act.write p ⟨a.len, d.step⟩
  | some n => if ck ∧ n ≠ a.len then fault .check else pure ()

/-- expr.hh:344 on the dim at `p`. -/
def AxisType.setStep (ck : Bool) (t : AxisType) (p : Int) (a : Dim) : Act Dim Unit :=
  match t.step with
  | none => do
    let d ← Act.read p
    Act.write p ⟨d.len, a.step⟩
  | some s => if ck ∧ s ≠ a.step then fault .check else pure ()

/-- expr.hh:341-346 `operator=(Dim const & a)`, for each of the dims of a view, at `b`, `b+1`, ... For the type `Dim` (expr.hh:183) nothing is static. -/
def setDim (ck : Bool) (ts : List AxisType) (b : Int) : List (Lv Dim) → Act Dim (Lv Dim)
  | [.ref p, x] => do
    let a ← x.get
    let t := ts.getD (p - b).toNat ⟨none, none⟩
    t.setLen ck p a
    t.setStep ck p a
    pure (.ref p)
  | _ => fault .abort

/-- New dims at `b`, for arrays.hh:113: what is in the type, and anything for the rest (expr.hh:333-334). -/
def newDims (ts : List AxisType) (n : Nat) (b : Int) (μ : Mem Dim) : Mem Dim := fun p =>
  if b ≤ p ∧ p < b + n then
    let t := ts.getD (p - b).toNat ⟨none, none⟩
    some ⟨t.len.getD 0, t.step.getD 0⟩
  else μ p

/-- The same, as a step of the constructor (arrays.hh:113). -/
def startDims (ts : List AxisType) (n : Nat) (b : Int) : Act Dim Unit := fun μ => (.ok (), newDims ts n b μ)

/-- arrays.hh:113 `resize(dimv, ra::size(s))`, with expr.hh:186-197: how many dims there are. `none` is for dynamic rank. The size isn't static. -/
def dimsCount (ck : Bool) (ts : Option (List AxisType)) (s : Int) : Except Fault Nat :=
  match ts with
  | none => if ck ∧ s < 0 then .error .check else if s < 0 then .error .alloc else .ok s.toNat
  | some l => if ck ∧ s ≠ l.length ∧ s ≠ UNB then .error .check else .ok l.length

/-- arrays.hh:113 `View(s, cp)` for an expression `s` whose elements are dims. `dyn` and `z` are for the traversal in `iter(dimv) = s`.
Without checks it's only right for shapes that agree, since the traversal still checks that. -/
def View.ofDims (ck : Bool) (ts : Option (List AxisType)) (b : Int) (dyn : Bool) (z : List Int) (s : Iter (Act Dim) (Lv Dim)) (cp : Int) : Act Dim View := do
  let n ← Act.lift (dimsCount ck ts s.size)
  startDims (ts.getD []) n b
  let _ ← ply (β := Unit) dyn never z (.node (mapOp (setDim ck (ts.getD []) b)) [View.refs ⟨[⟨n, 1⟩], b⟩, s])
  let ds ← (List.range n).mapM fun (k : Nat) => Act.read (b + k)
  pure ⟨ds, cp⟩

/-- arrays.hh:111 `View(x)` for a view `x`, when it has other type of dims, with 109-110 when it has the same. The dims of `x` are read as `Dim` (expr.hh:347). -/
def View.convert (ck : Bool) (src dst : Option (List AxisType)) (b : Int) (dyn : Bool) (z : List Int) (v : View) : Act Dim View :=
  if src = dst then pure v
  else View.ofDims ck dst b dyn z (listIter Lv.val v.dims) v.cp

end Ra
