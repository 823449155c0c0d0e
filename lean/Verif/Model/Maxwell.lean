import Verif.Model.Gemm
import Verif.Model.From
import Verif.Model.ViewOps
/-!
# Shifts around an axis, and the field equations in examples/maxwell.cc

The program as it's written, on views of any lengths. The number of axes is also free where it can be. The numbers are of any type.
-/

namespace Ra

section
variable {V : Type}

/-- `len-n` (base.hh:291 `len`, ra.hh:181-202). -/
def lenLess (n : Int) : LenExpr := .map (fun xs => xs.getD 0 0 - xs.getD 1 0) [.len, .const n]

/-- `iota(len-n, o)` as a subscript (ply.hh:320-330). -/
def iotaLess (n o : Int) : Sub := .iota [(lenLess n, .const 1)] (.const o)

/-- `H, H, ...`, `k` times, where `H` is `ra::all` (examples/maxwell.cc:20). -/
def alls (k : Nat) : List Sub := List.replicate k (.dots (some 1))

/-- `d = x`, or `d OP= x` if `g` is given (expr.hh:50-60). -/
def put (g : Option (V → V → V)) (dyn : Bool) (z : List Int) (d x : Iter (Act V) (Lv V)) : Act V Unit :=
  match g with
  | none => assign dyn z d x
  | some g => update g dyn z d x

/-- `x(is ...) = a(js ...)` or `x(is ...) OP= a(js ...)`, as in examples/maxwell.cc:46-58. -/
def putSlice (g : Option (V → V → V)) (dyn : Bool) (z : List Int) (x : View) (is : List Sub) (a : View) (js : List Sub) : Act V Unit := do
  let w ← Act.lift (x.from is)
  let b ← Act.lift (a.from js)
  put g dyn z w.refs b.refs

/-- The two statements on examples/maxwell.cc:46-47 (`k` is 0), 48-49 (`k` is 1) or 50-51 (`k` is 2). `pre` are the first subscripts of `a`. -/
def rollNext (g : Option (V → V → V)) (dyn : Bool) (z : List Int) (k : Nat) (x a : View) (pre : List Sub) : Act V Unit := do
  putSlice g dyn z x (alls k ++ [iotaLess 1 0]) a (pre ++ alls k ++ [iotaLess 1 1])
  putSlice g dyn z x (alls k ++ [.scalar (lenLess 1)]) a (pre ++ alls k ++ [.scalar (.const 0)])

/-- The two statements on examples/maxwell.cc:53-54 (`k` is 0), 55-56 (`k` is 1) or 57-58 (`k` is 2). -/
def rollPrev (g : Option (V → V → V)) (dyn : Bool) (z : List Int) (k : Nat) (x a : View) (pre : List Sub) : Act V Unit := do
  putSlice g dyn z x (alls k ++ [iotaLess 1 1]) a (pre ++ alls k ++ [iotaLess 1 0])
  putSlice g dyn z x (alls k ++ [.scalar (.const 0)]) a (pre ++ alls k ++ [.scalar (lenLess 1)])

variable [Add V] [_root_.Sub V] [Mul V]

/-- The body of the loop in examples/maxwell.cc:44-61. -/
def waveStep (four : V) (dyn : Bool) (z : List Int) (a x y : View) (t : Int) : Act V Unit := do
  rollNext none dyn z 0 x a [.scalar (.const t)]
  rollNext (some (· + ·)) dyn z 1 x a [.scalar (.const t)]
  rollNext (some (· + ·)) dyn z 2 x a [.scalar (.const t)]
  rollPrev none dyn z 0 y a [.scalar (.const t)]
  rollPrev (some (· + ·)) dyn z 1 y a [.scalar (.const t)]
  rollPrev (some (· + ·)) dyn z 2 y a [.scalar (.const t)]
  let next ← Act.lift (a.from [.scalar (.const (t + 1))])
  let prev ← Act.lift (a.from [.scalar (.const (t - 1))])
  let now ← Act.lift (a.from [.scalar (.const t)])
  assign dyn z next.refs (binaryOp (· - ·) (binaryOp (· - ·) (binaryOp (· + ·) x.refs y.refs) prev.refs) (binaryOp (· * ·) (.scalar (pure (.val four))) now.refs))

/-- The loop in examples/maxwell.cc:44-61. -/
def waveLoop (four : V) (dyn : Bool) (z : List Int) (a x y : View) : Act V Unit :=
  forLoop (lenOf a.dims 0 - 2) fun t => waveStep four dyn z a x y (t + 1)

/-- One of the first three statements of `diff`, `DA(HH<k>, i, HH<4-k>, k) = A(HH<k>, p) - A(HH<k>, q)` (examples/maxwell.cc:67-69), where `A` has rank `r` instead of 5. -/
def diffPart (dyn : Bool) (z : List Int) (r k : Nat) (da a : View) (i p q : Sub) : Act V Unit := do
  let w ← Act.lift (da.from [.dots (some k), i, .dots (some (r - 1 - k)), .scalar (.const k)])
  let b ← Act.lift (a.from [.dots (some k), p])
  let c ← Act.lift (a.from [.dots (some k), q])
  assign dyn z w.refs (binaryOp (· - ·) b.refs c.refs)

/-- examples/maxwell.cc:65-72 `diff`, where `A` has rank `r` instead of 5. -/
def diffAxis (factor : V) (dyn : Bool) (z : List Int) (r k : Nat) (da a : View) : Act V Unit :=
  if 2 ≤ lenOf da.dims k then do
    diffPart dyn z r k da a (iotaLess 2 1) (iotaLess 2 2) (iotaLess 2 0)
    diffPart dyn z r k da a (.scalar (.const 0)) (.scalar (.const 1)) (.scalar (lenLess 1))
    diffPart dyn z r k da a (.scalar (lenLess 1)) (.scalar (.const 0)) (.scalar (lenLess 2))
    let w ← Act.lift (da.from [.dots (some r), .scalar (.const k)])
    update (· * ·) dyn z w.refs (.scalar (pure (.val factor)))
  else pure ()

/-- examples/maxwell.cc:80, `F = transpose(DA, ilist<0, 1, 2, 3, 5, 4>) - DA`, with `n` axes in place of the first 4. -/
def fieldOf (dyn : Bool) (z : List Int) (n : Nat) (f da : View) : Act V Unit := do
  let w ← Act.lift (da.transpose ((List.range n).map Nat.cast ++ [(n : Int) + 1, n]))
  assign dyn z f.refs (binaryOp (· - ·) w.refs da.refs)

/-- examples/maxwell.cc:81, `divA += transpose(DA, ilist<0, 1, 2, 3, 4, 4>)`, with `n` axes in place of the first 4. -/
def divergence (dyn : Bool) (z : List Int) (n : Nat) (d da : View) : Act V Unit := do
  let w ← Act.lift (da.transpose ((List.range n).map Nat.cast ++ [(n : Int), n]))
  update (· + ·) dyn z d.refs w.refs

end
end Ra
