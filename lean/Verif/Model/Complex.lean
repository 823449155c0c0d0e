import Verif.Model.Assign
import Verif.Model.Float
/-!
# Functions of real and complex numbers

ra.hh:41-56, 61-102. Simplification: arithmetic is exact, except for `isfinite`, `isnan` and `isinf`, which are about the kinds of values of `Model/Float.lean`.
-/

namespace Ra

/-- `std::complex<R>` (ra.hh:103). -/
structure Cx (R : Type) where
  re : R
  im : R
  deriving DecidableEq, Repr

section
variable {R : Type} [Add R] [_root_.Sub R] [Mul R] [Neg R] [Zero R]

/-- `std::fma` (ra.hh:42). -/
def fmaR (a b c : R) : R := a * b + c

/-- ra.hh:47-52 `fma` of complex numbers. -/
def Cx.fma (a b c : Cx R) : Cx R := ⟨fmaR a.re b.re (fmaR (-a.im) b.im c.re), fmaR a.re b.im (fmaR a.im b.re c.im)⟩

/-- The product of `std::complex`, as used by ra.hh:70 and 80. -/
def Cx.mul (a b : Cx R) : Cx R := ⟨a.re * b.re - a.im * b.im, a.re * b.im + a.im * b.re⟩

/-- ra.hh:70 `sqr` of a complex number. -/
def Cx.sqr (x : Cx R) : Cx R := x.mul x

/-- ra.hh:65 `sqr` of a number. -/
def sqrR (x : R) : R := x * x

/-- ra.hh:73 `sqrm` of a complex number. -/
def Cx.sqrm (x : Cx R) : R := sqrR x.re + sqrR x.im

/-- ra.hh:74 `sqrm` of two complex numbers. -/
def Cx.sqrm2 (x y : Cx R) : R := sqrR (x.re - y.re) + sqrR (x.im - y.im)

/-- ra.hh:71 `sqrm` of a number. -/
def sqrmR (x : R) : R := sqrR x

/-- ra.hh:72 `sqrm` of two numbers. -/
def sqrm2R (x y : R) : R := sqrR (x - y)

/-- ra.hh:81 `mul_conj` of numbers. -/
def mulConjR (x y : R) : R := x * y

/-- ra.hh:82-85 `mul_conj` of complex numbers. -/
def Cx.mulConj (a b : Cx R) : Cx R := ⟨a.re * b.re + a.im * b.im, a.re * b.im - a.im * b.re⟩

/-- ra.hh:86 `fma_conj` of numbers. -/
def fmaConjR (a b c : R) : R := fmaR a b c

/-- ra.hh:87-90 `fma_conj` of complex numbers. -/
def Cx.fmaConj (a b c : Cx R) : Cx R := ⟨fmaR a.re b.re (fmaR a.im b.im c.re), fmaR a.re b.im (fmaR (-a.im) b.re c.im)⟩

/-- ra.hh:91 `fma_sqrm`. -/
def Cx.fmaSqrm (a : Cx R) (c : R) : R := fmaR a.re a.re (fmaR a.im a.im c)

/-- ra.hh:101 `xi` of a number. -/
def xiR (x : R) : Cx R := ⟨0, x⟩

/-- ra.hh:102 `xi` of a complex number. -/
def Cx.xi (z : Cx R) : Cx R := ⟨-z.im, z.re⟩

/-- ra.hh:46 `conj` of a number. -/
def conjR (x : R) : R := x

/-- `std::conj` (ra.hh:43). -/
def Cx.conj (x : Cx R) : Cx R := ⟨x.re, -x.im⟩

/-- ra.hh:61 `odd`, for an argument of 32 bits. -/
def oddU (n : BitVec 32) : Bool := n &&& 1#32 != 0#32

/-- ra.hh:68 `arg` of a number. -/
def argR (_ : R) : R := 0

/-- ra.hh:98 `imag_part` of a number. -/
def imagPartR (_ : R) : R := 0

/-- ra.hh:94-95 `real_part` of a number. -/
def realPartR (x : R) : R := x

/-- ra.hh:77-78 `norm2` of complex numbers. `sqrt` is a parameter. -/
def Cx.norm2 (sqrt : R → R) (x : Cx R) : R := sqrt x.sqrm
/-- ra.hh:78 `norm2` of two complex numbers. -/
def Cx.norm2' (sqrt : R → R) (x y : Cx R) : R := sqrt (x.sqrm2 y)

/-- ra.hh:75-76 `norm2` of numbers. `abs` is a parameter. -/
def norm2R (abs : R → R) (x : R) : R := abs x
/-- ra.hh:76 `norm2` of two numbers. -/
def norm2R' (abs : R → R) (x y : R) : R := abs (x - y)

/-- ra.hh:92-93 `rel_error`, given `abs` of the arguments and `norm2` of both. -/
def relError [Div R] [OfNat R 2] [DecidableEq R] (absa absb norm : R) : R :=
  let D := absa + absb
  if D = 0 then 0 else 2 * norm / D

end

section
variable {F : Type}

/-- ra.hh:53 `isfinite` of complex numbers. -/
def Cx.isfinite (z : Cx (Fl F)) : Bool := z.re.isfinite && z.im.isfinite

/-- ra.hh:54 `isnan` of complex numbers. -/
def Cx.isnan (z : Cx (Fl F)) : Bool := z.re.isnan || z.im.isnan

/-- ra.hh:55 `isinf` of complex numbers. -/
def Cx.isinf (z : Cx (Fl F)) : Bool := (z.re.isinf || z.im.isinf) && !z.isnan

end

section
variable {V : Type}

/-- ra.hh:97 `real_part` (`k = 0`) and ra.hh:100 `imag_part` (`k = 1`) of a complex number in memory: a reference to one of the two numbers that it's made of. Addresses
of complex numbers are counted in complex numbers, and those of numbers in numbers, so the complex number at `p` is made of the numbers at `2*p` and `2*p+1`. -/
def partOp (k : Int) : List (Lv V) → Act V (Lv V)
  | [.ref p] => pure (.ref (2 * p + k))
  | _ => fault .abort

/-- ra.hh:205-211 `real_part(a)`, `imag_part(a)` where `a` is a view. -/
def View.part (v : View) (k : Int) : Iter (Act V) (Lv V) := .node (mapOp (partOp k)) [v.refs]

end
end Ra
