import Verif.Model.Opt
import Verif.Model.Pointer
/-!
# Iotas of machine integer types

`Model/Opt.lean` has iotas of unlimited integers. Here each one has an integer type, with the promotions and conversions of the language, for a machine where `int` has 32 bits and `dim_t` has 64
(base.hh:237). `bool` and floating point types aren't modelled.
-/

namespace Ra

/-- The integer types that `Seq` (expr.hh:79-100) can have. -/
inductive IntT where
  | i8 | u8 | i16 | u16 | i32 | u32 | i64 | u64
  deriving DecidableEq, Repr

namespace IntT

/-- The number of bits of the types in expr.hh:83. -/
def width : IntT → Nat
  | i8 | u8 => 8
  | i16 | u16 => 16
  | i32 | u32 => 32
  | i64 | u64 => 64

/-- Which of the types in expr.hh:83 are signed. -/
def signed : IntT → Bool
  | i8 | i16 | i32 | i64 => true
  | u8 | u16 | u32 | u64 => false

/-- The smallest value of the types in expr.hh:83. -/
def lo (t : IntT) : Int := if t.signed then -2 ^ (t.width - 1) else 0

/-- The largest value of the types in expr.hh:83. -/
def hi (t : IntT) : Int := if t.signed then 2 ^ (t.width - 1) - 1 else 2 ^ t.width - 1

/-- A value of one of the types in expr.hh:83. -/
def inRange (t : IntT) (x : Int) : Bool := decide (t.lo ≤ x) && decide (x ≤ t.hi)

/-- Conversion to a type, `I(d)` in expr.hh:96: modulo 2ʷ ([conv.integral]). -/
def conv (t : IntT) (x : Int) : Int := if t.signed then Int.bmod x (2 ^ t.width) else x % 2 ^ t.width

/-- The result of an operation in a type of at least 32 bits, in ra.hh:132-143: modulo 2ʷ if it's unsigned ([basic.fundamental]), undefined if it's signed and the result isn't a value of the
type ([expr.pre]). -/
def arith (t : IntT) (x : Int) : Except Fault Int :=
  if t.signed then (if t.inRange x then .ok x else .error .ub) else .ok (x % 2 ^ t.width)

/-- The promotions of the operands in ra.hh:132-143 ([conv.prom]). -/
def promote : IntT → IntT
  | i8 | u8 | i16 | u16 => i32
  | t => t

/-- The type of the result of the operations in ra.hh:132-139 ([expr.arith.conv]). -/
def common (a b : IntT) : IntT :=
  let p := a.promote
  let q := b.promote
  if p.signed = q.signed then (if p.width ≤ q.width then q else p)
  else if p.signed then (if p.width ≤ q.width then q else p)
  else (if q.width ≤ p.width then p else q)

/-- `++i` and `--i` (expr.hh:88-89): in `int` and back if the type is smaller. -/
def bump (t : IntT) (x d : Int) : Except Fault Int := if t.width < 32 then .ok (t.conv (x + d)) else t.arith (x + d)

/-- `n` times `++i` or `--i` (expr.hh:88-89). -/
def bumps (t : IntT) (d : Int) : Nat → Int → Except Fault Int
  | 0, x => .ok x
  | n + 1, x => do
    let y ← t.bump x d
    bumps t d n y

/-- `std::ranges::advance(cp, d)` (expr.hh:310) for `Seq`. For `dim_t` that's `i += I(d)` (expr.hh:96). For other types the difference of two `Seq` isn't `difference_type` (expr.hh:90), so `Seq`
isn't a random access iterator, and `++` or `--` are used as many times as needed. -/
def advance (t : IntT) (x d : Int) : Except Fault Int :=
  if t = i64 then t.arith (x + t.conv d)
  else if 0 ≤ d then t.bumps 1 d.toNat x
  else t.bumps (-1) (-d).toNat x

/-- If `++` on the last value goes on with the first one (expr.hh:88). -/
def wraps (t : IntT) : Bool := !t.signed || decide (t.width < 32)

end IntT

/-- As `Seq1` (ra.hh:125 `seqv1`), with the type of `c.cp.i`. -/
structure SeqT where
  ty : IntT
  len : LenT
  o : Int
  step : Int
  deriving DecidableEq, Repr

variable {m : Type → Type} [Monad m] [MonadFault m]

/-- The iterator: expr.hh:266-312 `Cell` with pointer `Seq` (79-100). The pointer is the unlimited integer; it's converted to its type when it's read, and `SeqT.limit` says which are undefined. That this is the same as
to move it each time with `IntT.advance` is proved in `C88_moves`. -/
def SeqT.iter (i : SeqT) : Iter m Int := .cell [⟨i.len.val, i.step⟩] i.o fun p => pure (i.ty.conv p)

/-- The limits of the pointer (expr.hh:88-97), in the form of `ptrOk`. -/
def IntT.limit (t : IntT) : Option (Int × Int) := if t.wraps then none else some (t.lo, t.hi - t.lo)

/-- ply.hh:320-321 `iota(n, o, s)`, as `mkIota`. -/
def mkIotaT (ty : IntT) (n : LenT) (o s : Int) : Except Fault SeqT :=
  match n with
  | .dyn k => if k ≥ 0 then .ok ⟨ty, n, o, s⟩ else .error .check
  | .st _ => .ok ⟨ty, n, o, s⟩

/-- The operation on two numbers of types `a` and `b`, in ra.hh:132-139 or in ra.hh:181-189. -/
def IntT.bin (a b : IntT) (f : Int → Int → Int) (x y : Int) : Except Fault Int := (a.common b).arith (f ((a.common b).conv x) ((a.common b).conv y))

/-- The change of sign of a number of type `a`, in ra.hh:143 or in ra.hh:196-201. -/
def IntT.neg (a : IntT) (x : Int) : Except Fault Int := a.promote.arith (-(a.promote.conv x))

/-- expr.hh:68-69 `clen(e, ic<0>)`, as `clen2`. -/
def clenT (i j : SeqT) : LenT := clen2 ⟨i.len, i.o, i.step⟩ ⟨j.len, j.o, j.step⟩

namespace SeqT
/-- ra.hh:132. `J` is the type of the scalar. -/
def addIS (i : SeqT) (J : IntT) (x : Int) : Except Fault SeqT := do
  let o ← i.ty.bin J (· + ·) i.o x
  mkIotaT (i.ty.common J) i.len o i.step
/-- ra.hh:133. -/
def addSI (J : IntT) (x : Int) (i : SeqT) : Except Fault SeqT := do
  let o ← J.bin i.ty (· + ·) x i.o
  mkIotaT (J.common i.ty) i.len o i.step
/-- ra.hh:134, with expr.hh:71-72 `cadd`. -/
def addII (i j : SeqT) : Except Fault SeqT := do
  let o ← i.ty.bin j.ty (· + ·) i.o j.o
  let s ← IntT.i64.bin .i64 (· + ·) i.step j.step
  mkIotaT (i.ty.common j.ty) (clenT i j) o s
/-- ra.hh:135. -/
def subIS (i : SeqT) (J : IntT) (x : Int) : Except Fault SeqT := do
  let o ← i.ty.bin J (· - ·) i.o x
  mkIotaT (i.ty.common J) i.len o i.step
/-- ra.hh:136, with expr.hh:74-75 `csub`. -/
def subSI (J : IntT) (x : Int) (i : SeqT) : Except Fault SeqT := do
  let o ← J.bin i.ty (· - ·) x i.o
  let s ← IntT.i32.bin .i64 (· - ·) 0 i.step
  mkIotaT (J.common i.ty) i.len o s
/-- ra.hh:137. -/
def subII (i j : SeqT) : Except Fault SeqT := do
  let o ← i.ty.bin j.ty (· - ·) i.o j.o
  let s ← IntT.i64.bin .i64 (· - ·) i.step j.step
  mkIotaT (i.ty.common j.ty) (clenT i j) o s
/-- ra.hh:138. The step has the type of the product; it's converted to `dim_t` when it's used (expr.hh:294-295). -/
def mulIS (i : SeqT) (J : IntT) (x : Int) : Except Fault SeqT := do
  let o ← i.ty.bin J (· * ·) i.o x
  let s ← IntT.i64.bin J (· * ·) i.step x
  mkIotaT (i.ty.common J) i.len o (IntT.i64.conv s)
/-- ra.hh:139. -/
def mulSI (J : IntT) (x : Int) (i : SeqT) : Except Fault SeqT := do
  let o ← J.bin i.ty (· * ·) x i.o
  let s ← J.bin .i64 (· * ·) x i.step
  mkIotaT (J.common i.ty) i.len o (IntT.i64.conv s)
/-- ra.hh:142-143. -/
def negI (i : SeqT) : Except Fault SeqT := do
  let o ← i.ty.neg i.o
  let s ← IntT.i32.bin .i64 (· - ·) 0 i.step
  mkIotaT i.ty.promote i.len o s
end SeqT

/-- The elementwise operation, ra.hh:181-189, with numbers of types `a` and `b`. -/
def binOpT (a b : IntT) (f : Int → Int → Int) : List (Except Fault Int) → Except Fault Int :=
  mapOp fun xs => match xs with
    | [x, y] => a.bin b f x y
    | _ => .error .abort

/-- The elementwise change of sign, ra.hh:196-201. -/
def negOpT (a : IntT) : List (Except Fault Int) → Except Fault Int :=
  mapOp fun xs => match xs with
    | [x] => a.neg x
    | _ => .error .abort

end Ra
