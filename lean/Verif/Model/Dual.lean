import Mathlib.Algebra.Field.Defs
/-!
# Dual numbers

Over any field: there's no rounding. The compound assignments (ra.hh:648-653) do `*this = *this OP r`, so they're those same operations. The functions of the standard library are in a class.
-/

namespace Ra

/-- ra.hh:634-637 `Dual`. -/
structure Dual (T : Type) where
  re : T
  du : T

/-- The functions that are used from the standard library on ra.hh:680-688, for the type `T`. -/
class Elementary (T : Type) where
  sin : T → T
  cos : T → T
  tan : T → T
  sinh : T → T
  cosh : T → T
  exp : T → T
  log : T → T
  sqrt : T → T

namespace Dual
variable {T : Type} [Field T]

/-- ra.hh:645 and 659 `dual(r)`. -/
def const (r : T) : Dual T := ⟨r, 0⟩
/-- ra.hh:662 `+a`. -/
def pos (a : Dual T) : Dual T := a
/-- ra.hh:663 `a+b`. -/
def add (a b : Dual T) : Dual T := ⟨a.re + b.re, a.du + b.du⟩
/-- ra.hh:664 `a+b` for `b` not a dual. -/
def addS (a : Dual T) (b : T) : Dual T := ⟨a.re + b, a.du⟩
/-- ra.hh:665 `a+b` for `a` not a dual. -/
def sAdd (a : T) (b : Dual T) : Dual T := ⟨a + b.re, b.du⟩
/-- ra.hh:666 `-a`. -/
def neg (a : Dual T) : Dual T := ⟨-a.re, -a.du⟩
/-- ra.hh:667 `a-b`. -/
def sub (a b : Dual T) : Dual T := ⟨a.re - b.re, a.du - b.du⟩
/-- ra.hh:668 `a-b` for `b` not a dual. -/
def subS (a : Dual T) (b : T) : Dual T := ⟨a.re - b, a.du⟩
/-- ra.hh:669 `a-b` for `a` not a dual. -/
def sSub (a : T) (b : Dual T) : Dual T := ⟨a - b.re, -b.du⟩
/-- ra.hh:670 `a*b`. -/
def mul (a b : Dual T) : Dual T := ⟨a.re * b.re, a.re * b.du + a.du * b.re⟩
/-- ra.hh:671 `a*b` for `b` not a dual. -/
def mulS (a : Dual T) (b : T) : Dual T := ⟨a.re * b, a.du * b⟩
/-- ra.hh:672 `a*b` for `a` not a dual. -/
def sMul (a : T) (b : Dual T) : Dual T := ⟨a * b.re, a * b.du⟩
/-- ra.hh:679 `inv`. `sqr` on a number is its square (ra.hh:65, 70). -/
def inv (a : Dual T) : Dual T :=
  let i := 1 / a.re
  ⟨i, -a.du * (i * i)⟩
/-- ra.hh:673 `a/b`. -/
def div (a b : Dual T) : Dual T := mul a (inv b)
/-- ra.hh:674 `a/b` for `b` not a dual. -/
def divS (a : Dual T) (b : T) : Dual T := mul a (inv (const b))
/-- ra.hh:675 `a/b` for `a` not a dual. -/
def sDiv (a : T) (b : Dual T) : Dual T := mul (const a) (inv b)
/-- ra.hh:677 `fma`. -/
def fma (a b c : Dual T) : Dual T := ⟨a.re * b.re + c.re, a.re * b.du + (a.du * b.re + c.du)⟩
/-- ra.hh:678 `sqr`. -/
def sqr (a : Dual T) : Dual T := mul a a
/-- ra.hh:686 `pow(a, b)` for `b` not a dual, of type `E`. `p` is `pow` for the type `T` and `c` is the conversion of `b` to `T`. -/
def pow {E : Type} [Sub E] [One E] (p : T → E → T) (c : E → T) (a : Dual T) (b : E) : Dual T := ⟨p a.re b, c b * p a.re (b - 1) * a.du⟩
/-- ra.hh:689 `abs`. `n` is `abs` for the type `T`. The result isn't a dual. -/
def abs {R : Type} (n : T → R) (a : Dual T) : R := n a.re
/-- ra.hh:691 `xi`. `x` is `xi` for the type `T`. -/
def xi {U : Type} (x : T → U) (a : Dual T) : Dual U := ⟨x a.re, x a.du⟩

variable [Elementary T]

/-- ra.hh:680 `cos`. -/
def cos (a : Dual T) : Dual T := ⟨Elementary.cos a.re, -Elementary.sin a.re * a.du⟩
/-- ra.hh:681 `sin`. -/
def sin (a : Dual T) : Dual T := ⟨Elementary.sin a.re, Elementary.cos a.re * a.du⟩
/-- ra.hh:682 `cosh`. -/
def cosh (a : Dual T) : Dual T := ⟨Elementary.cosh a.re, Elementary.sinh a.re * a.du⟩
/-- ra.hh:683 `sinh`. -/
def sinh (a : Dual T) : Dual T := ⟨Elementary.sinh a.re, Elementary.cosh a.re * a.du⟩
/-- ra.hh:684 `tan`. -/
def tan (a : Dual T) : Dual T :=
  let c := Elementary.cos a.du
  ⟨Elementary.tan a.re, a.du / (c * c)⟩
/-- ra.hh:685 `exp`. -/
def exp (a : Dual T) : Dual T := ⟨Elementary.exp a.re, Elementary.exp a.re * a.du⟩
/-- ra.hh:687 `log`. -/
def log (a : Dual T) : Dual T := ⟨Elementary.log a.re, a.du / a.re⟩
/-- ra.hh:688 `sqrt`. -/
def sqrt (a : Dual T) : Dual T := ⟨Elementary.sqrt a.re, a.du / (2 * Elementary.sqrt a.re)⟩

end Dual
end Ra
