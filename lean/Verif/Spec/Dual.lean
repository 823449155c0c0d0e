import Verif.Model.Dual
import Mathlib.Analysis.SpecialFunctions.Trigonometric.ArctanDeriv
import Mathlib.Analysis.SpecialFunctions.Trigonometric.ComplexDeriv
import Mathlib.Analysis.SpecialFunctions.Trigonometric.DerivHyp
import Mathlib.Analysis.SpecialFunctions.Pow.Deriv
import Mathlib.Analysis.SpecialFunctions.Sqrt
import Mathlib.Analysis.Calculus.Deriv.ZPow
/-!
# Specification of automatic differentiation

Real and complex numbers, with the functions in Mathlib for those of the standard library.
-/

namespace Ra

noncomputable instance : Elementary ℝ := ⟨Real.sin, Real.cos, Real.tan, Real.sinh, Real.cosh, Real.exp, Real.log, Real.sqrt⟩

/-- The principal square root. -/
noncomputable instance : Elementary ℂ := ⟨Complex.sin, Complex.cos, Complex.tan, Complex.sinh, Complex.cosh, Complex.exp, Complex.log, fun z => z ^ (1 / 2 : ℂ)⟩

namespace Spec

/-- `x` has the value and the derivative of `f` at `t`. -/
def Carries {𝕜 : Type} [NontriviallyNormedField 𝕜] (x : Dual 𝕜) (f : 𝕜 → 𝕜) (t : 𝕜) : Prop := x.re = f t ∧ HasDerivAt f x.du t

/-- An expression in one variable. `r` is any number that isn't a dual. -/
inductive Formula where
  | var
  | pos (a : Formula)
  | neg (a : Formula)
  | add (a b : Formula)
  | addS (a : Formula) (r : ℝ)
  | sAdd (r : ℝ) (a : Formula)
  | sub (a b : Formula)
  | subS (a : Formula) (r : ℝ)
  | sSub (r : ℝ) (a : Formula)
  | mul (a b : Formula)
  | mulS (a : Formula) (r : ℝ)
  | sMul (r : ℝ) (a : Formula)
  | div (a b : Formula)
  | divS (a : Formula) (r : ℝ)
  | sDiv (r : ℝ) (a : Formula)
  | fma (a b c : Formula)
  | sqr (a : Formula)
  | inv (a : Formula)
  | sin (a : Formula)
  | cos (a : Formula)
  | sinh (a : Formula)
  | cosh (a : Formula)
  | exp (a : Formula)
  | log (a : Formula)
  | sqrt (a : Formula)
  | powR (a : Formula) (r : ℝ)
  | powZ (a : Formula) (n : ℤ)

namespace Formula

/-- The function. -/
noncomputable def value : Formula → ℝ → ℝ
  | var, t => t
  | pos a, t => a.value t
  | neg a, t => -a.value t
  | add a b, t => a.value t + b.value t
  | addS a r, t => a.value t + r
  | sAdd r a, t => r + a.value t
  | sub a b, t => a.value t - b.value t
  | subS a r, t => a.value t - r
  | sSub r a, t => r - a.value t
  | mul a b, t => a.value t * b.value t
  | mulS a r, t => a.value t * r
  | sMul r a, t => r * a.value t
  | div a b, t => a.value t / b.value t
  | divS a r, t => a.value t / r
  | sDiv r a, t => r / a.value t
  | fma a b c, t => a.value t * b.value t + c.value t
  | sqr a, t => a.value t ^ 2
  | inv a, t => (a.value t)⁻¹
  | sin a, t => Real.sin (a.value t)
  | cos a, t => Real.cos (a.value t)
  | sinh a, t => Real.sinh (a.value t)
  | cosh a, t => Real.cosh (a.value t)
  | exp a, t => Real.exp (a.value t)
  | log a, t => Real.log (a.value t)
  | sqrt a, t => Real.sqrt (a.value t)
  | powR a r, t => a.value t ^ r
  | powZ a n, t => a.value t ^ n

/-- Nothing in it is outside of its domain at `t`, or at a point where it isn't differentiable. -/
def Defined : Formula → ℝ → Prop
  | var, _ => True
  | pos a, t | neg a, t | addS a _, t | sAdd _ a, t | subS a _, t | sSub _ a, t | mulS a _, t | sMul _ a, t => a.Defined t
  | add a b, t | sub a b, t | mul a b, t => a.Defined t ∧ b.Defined t
  | div a b, t => a.Defined t ∧ b.Defined t ∧ b.value t ≠ 0
  | divS a r, t => a.Defined t ∧ r ≠ 0
  | sDiv _ a, t | inv a, t => a.Defined t ∧ a.value t ≠ 0
  | fma a b c, t => a.Defined t ∧ b.Defined t ∧ c.Defined t
  | sqr a, t | sin a, t | cos a, t | sinh a, t | cosh a, t | exp a, t => a.Defined t
  | log a, t | sqrt a, t | powR a _, t => a.Defined t ∧ 0 < a.value t
  | powZ a n, t => a.Defined t ∧ (a.value t ≠ 0 ∨ 1 ≤ n)

/-- The same expression, on dual numbers. -/
noncomputable def dual : Formula → Dual ℝ → Dual ℝ
  | var, x => x
  | pos a, x => .pos (a.dual x)
  | neg a, x => .neg (a.dual x)
  | add a b, x => .add (a.dual x) (b.dual x)
  | addS a r, x => .addS (a.dual x) r
  | sAdd r a, x => .sAdd r (a.dual x)
  | sub a b, x => .sub (a.dual x) (b.dual x)
  | subS a r, x => .subS (a.dual x) r
  | sSub r a, x => .sSub r (a.dual x)
  | mul a b, x => .mul (a.dual x) (b.dual x)
  | mulS a r, x => .mulS (a.dual x) r
  | sMul r a, x => .sMul r (a.dual x)
  | div a b, x => .div (a.dual x) (b.dual x)
  | divS a r, x => .divS (a.dual x) r
  | sDiv r a, x => .sDiv r (a.dual x)
  | fma a b c, x => .fma (a.dual x) (b.dual x) (c.dual x)
  | sqr a, x => .sqr (a.dual x)
  | inv a, x => .inv (a.dual x)
  | sin a, x => .sin (a.dual x)
  | cos a, x => .cos (a.dual x)
  | sinh a, x => .sinh (a.dual x)
  | cosh a, x => .cosh (a.dual x)
  | exp a, x => .exp (a.dual x)
  | log a, x => .log (a.dual x)
  | sqrt a, x => .sqrt (a.dual x)
  | powR a r, x => .pow (fun y (e : ℝ) => y ^ e) id (a.dual x) r
  | powZ a n, x => .pow (fun y (e : ℤ) => y ^ e) (fun n => (n : ℝ)) (a.dual x) n

end Formula
end Spec
end Ra
