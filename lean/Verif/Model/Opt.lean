import Verif.Model.Static
/-!
# Optimization of expressions with iotas

Simplification: the integers are those of mathematics, without overflow.
-/

namespace Ra

/-- The type and value of a length: static (`ic_t`) or run time (expr.hh:330-348 `SDim`). -/
inductive LenT where
  | st (n : Int)
  | dyn (n : Int)
  deriving DecidableEq, Repr

/-- The value of `dimv[0].len` (expr.hh:330-348). -/
def LenT.val : LenT → Int
  | .st n => n
  | .dyn n => n

/-- What the type says (`len_s`, expr.hh:291). -/
def LenT.static : LenT → Int
  | .st n => n
  | .dyn _ => ANY

/-- ra.hh:125 `seqv1`: iterator over a sequence, rank 1. `o` is `c.cp.i`, and `len` and `step` are those in `dimv[0]`. -/
structure Seq1 where
  len : LenT
  o : Int
  step : Int
  deriving DecidableEq, Repr

variable {m : Type → Type} [Monad m] [MonadFault m]

/-- The iterator: expr.hh:266-312 `Cell` with pointer `Seq` (79-100). -/
def Seq1.iter (i : Seq1) : Iter m Int := .cell [⟨i.len.val, i.step⟩] i.o pure

/-- The type of the iterator, for `len_s` (expr.hh:291). -/
def Seq1.type (i : Seq1) : STree := .cell (some [i.len.static])

/-- ply.hh:320-321 `iota(n, o, s)`, with expr.hh:353-359 `viewptr`. The type of a static length isn't `is_integral_v` (357). -/
def mkIota (n : LenT) (o s : Int) : Except Fault Seq1 :=
  match n with
  | .dyn k => if k ≥ 0 then .ok ⟨n, o, s⟩ else .error .check
  | .st _ => .ok ⟨n, o, s⟩

/-- The elementwise operation, ra.hh:181-189. -/
def binOp (f : Int → Int → Int) : List (m Int) → m Int :=
  mapOp fun xs => match xs with
    | [x, y] => pure (f x y)
    | _ => fault .abort

/-- The elementwise operation with one argument, ra.hh:196-202. -/
def unOp (f : Int → Int) : List (m Int) → m Int :=
  mapOp fun xs => match xs with
    | [x] => pure (f x)
    | _ => fault .abort

/-- expr.hh:68-69 `clen(e, ic<0>)` for `e` a map over two sequences. -/
def clen2 (i j : Seq1) : LenT :=
  let l := (STree.node [i.type, j.type]).len false 0
  if ANY ≠ l then .st l else .dyn ((Iter.node (binOp (m := Except Fault) (· + ·)) [i.iter, j.iter]).len 0)

/-- ra.hh:132. -/
def optAddIS (i : Seq1) (x : Int) : Except Fault Seq1 := mkIota i.len (i.o + x) i.step
/-- ra.hh:133. -/
def optAddSI (x : Int) (i : Seq1) : Except Fault Seq1 := mkIota i.len (x + i.o) i.step
/-- ra.hh:134, with expr.hh:71-72 `cadd`. -/
def optAddII (i j : Seq1) : Except Fault Seq1 := mkIota (clen2 i j) (i.o + j.o) (i.step + j.step)
/-- ra.hh:135. -/
def optSubIS (i : Seq1) (x : Int) : Except Fault Seq1 := mkIota i.len (i.o - x) i.step
/-- ra.hh:136, with expr.hh:74-75 `csub`. -/
def optSubSI (x : Int) (i : Seq1) : Except Fault Seq1 := mkIota i.len (x - i.o) (0 - i.step)
/-- ra.hh:137. -/
def optSubII (i j : Seq1) : Except Fault Seq1 := mkIota (clen2 i j) (i.o - j.o) (i.step - j.step)
/-- ra.hh:138. -/
def optMulIS (i : Seq1) (x : Int) : Except Fault Seq1 := mkIota i.len (i.o * x) (i.step * x)
/-- ra.hh:139. -/
def optMulSI (x : Int) (i : Seq1) : Except Fault Seq1 := mkIota i.len (x * i.o) (x * i.step)
/-- ra.hh:142-143. -/
def optNeg (i : Seq1) : Except Fault Seq1 := mkIota i.len (-i.o) (0 - i.step)

/-- Expressions made with the operators of ra.hh:181-202: iotas, scalars, any other expression, and operations. `bin` and `un` are the operations that aren't optimized. -/
inductive IExp (m : Type → Type) where
  | iota (i : Seq1)
  | scalar (x : Int)
  | other (t : Iter m Int)
  | add (a b : IExp m)
  | sub (a b : IExp m)
  | mul (a b : IExp m)
  | neg (a : IExp m)
  | bin (f : Int → Int → Int) (a b : IExp m)
  | un (f : Int → Int) (a : IExp m)

/-- What an operator gets (ra.hh:120-139): by type, a scalar, an iota or anything else. -/
inductive IRes (m : Type → Type) where
  | scalar (x : Int)
  | iota (i : Seq1)
  | expr (t : Iter m Int)

/-- expr.hh:128-134 `iter`. -/
def IRes.iter : IRes m → Iter m Int
  | .scalar x => .scalar (pure x)
  | .iota i => i.iter
  | .expr t => t

/-- An operator that isn't optimized, ra.hh:181-185 with 120: `map`, or the value itself if both arguments are scalars (`toreduce`).
Simplification: of all the expressions of rank 0, only scalars reduce. -/
def IRes.bin (f : Int → Int → Int) : IRes m → IRes m → IRes m
  | .scalar x, .scalar y => .scalar (f x y)
  | a, b => .expr (.node (binOp f) [a.iter, b.iter])

/-- ra.hh:196-200 with 120. -/
def IRes.un (f : Int → Int) : IRes m → IRes m
  | .scalar x => .scalar (f x)
  | a => .expr (.node (unOp f) [a.iter])

/-- ra.hh:132-134. -/
def IRes.add : IRes m → IRes m → Except Fault (IRes m)
  | .iota i, .scalar x => do return .iota (← optAddIS i x)
  | .scalar x, .iota i => do return .iota (← optAddSI x i)
  | .iota i, .iota j => do return .iota (← optAddII i j)
  | a, b => .ok (IRes.bin (· + ·) a b)

/-- ra.hh:135-137. -/
def IRes.sub : IRes m → IRes m → Except Fault (IRes m)
  | .iota i, .scalar x => do return .iota (← optSubIS i x)
  | .scalar x, .iota i => do return .iota (← optSubSI x i)
  | .iota i, .iota j => do return .iota (← optSubII i j)
  | a, b => .ok (IRes.bin (· - ·) a b)

/-- ra.hh:138-139. -/
def IRes.mul : IRes m → IRes m → Except Fault (IRes m)
  | .iota i, .scalar x => do return .iota (← optMulIS i x)
  | .scalar x, .iota i => do return .iota (← optMulSI x i)
  | a, b => .ok (IRes.bin (· * ·) a b)

/-- ra.hh:142-143. -/
def IRes.neg : IRes m → Except Fault (IRes m)
  | .iota i => do return .iota (← optNeg i)
  | a => .ok (IRes.un (- ·) a)

/-- The expression with optimization (`RA_OPT` is `opt`, ra.hh:116-118), from the inside out. -/
def IExp.eval : IExp m → Except Fault (IRes m)
  | .iota i => .ok (.iota i)
  | .scalar x => .ok (.scalar x)
  | .other t => .ok (.expr t)
  | .add a b => do (← a.eval).add (← b.eval)
  | .sub a b => do (← a.eval).sub (← b.eval)
  | .mul a b => do (← a.eval).mul (← b.eval)
  | .neg a => do (← a.eval).neg
  | .bin f a b => do return IRes.bin f (← a.eval) (← b.eval)
  | .un f a => do return IRes.un f (← a.eval)

/-- The elementwise expression, without optimization (ra.hh:118 `opt(e)`, or `RA_OPT` empty; ra.hh:181-202). -/
def IExp.plain : IExp m → Iter m Int
  | .iota i => i.iter
  | .scalar x => .scalar (pure x)
  | .other t => t
  | .add a b => .node (binOp (· + ·)) [a.plain, b.plain]
  | .sub a b => .node (binOp (· - ·)) [a.plain, b.plain]
  | .mul a b => .node (binOp (· * ·)) [a.plain, b.plain]
  | .neg a => .node (unOp (- ·)) [a.plain]
  | .bin f a b => .node (binOp f) [a.plain, b.plain]
  | .un f a => .node (unOp f) [a.plain]

end Ra
