import Verif.Spec.Dual
import Mathlib.Analysis.Calculus.Deriv.Abs
/-!
# Dual numbers: C49
-/

namespace Ra.Props
open Spec

section
variable {𝕜 : Type} [NontriviallyNormedField 𝕜] {x y z : Dual 𝕜} {f g h : 𝕜 → 𝕜} {t : 𝕜}

/-- C49. Sums, differences and products, of dual numbers and of a dual number and a number. -/
theorem C49_sums (hx : Carries x f t) (hy : Carries y g t) (r : 𝕜) :
    Carries (.const r) (fun _ => r) t ∧ Carries x.pos f t ∧ Carries x.neg (fun s => -f s) t ∧
    Carries (x.add y) (fun s => f s + g s) t ∧ Carries (x.addS r) (fun s => f s + r) t ∧ Carries (.sAdd r x) (fun s => r + f s) t ∧
    Carries (x.sub y) (fun s => f s - g s) t ∧ Carries (x.subS r) (fun s => f s - r) t ∧ Carries (.sSub r x) (fun s => r - f s) t ∧
    Carries (x.mul y) (fun s => f s * g s) t ∧ Carries (x.mulS r) (fun s => f s * r) t ∧ Carries (.sMul r x) (fun s => r * f s) t := by
  obtain ⟨hx1, hx2⟩ := hx
  obtain ⟨hy1, hy2⟩ := hy
  refine ⟨⟨rfl, hasDerivAt_const t r⟩, ⟨hx1, hx2⟩, ⟨by simp [Dual.neg, hx1], hx2.neg⟩, ⟨by simp [Dual.add, hx1, hy1], hx2.add hy2⟩, ⟨by simp [Dual.addS, hx1], hx2.add_const r⟩,
    ⟨by simp [Dual.sAdd, hx1], hx2.const_add r⟩, ⟨by simp [Dual.sub, hx1, hy1], hx2.sub hy2⟩, ⟨by simp [Dual.subS, hx1], hx2.sub_const r⟩,
    ⟨by simp [Dual.sSub, hx1], hx2.const_sub r⟩, ⟨by simp [Dual.mul, hx1, hy1], ?_⟩, ⟨by simp [Dual.mulS, hx1], hx2.mul_const r⟩, ⟨by simp [Dual.sMul, hx1], hx2.const_mul r⟩⟩
  refine (hx2.mul hy2).congr_deriv ?_
  simp only [Dual.mul, hx1, hy1]
  ring

/-- C49. Inverse and quotients. -/
theorem C49_inv (hx : Carries x f t) (h0 : f t ≠ 0) : Carries x.inv (fun s => (f s)⁻¹) t := by
  obtain ⟨hx1, hx2⟩ := hx
  refine ⟨by simp [Dual.inv, hx1], ?_⟩
  refine (hx2.inv h0).congr_deriv ?_
  simp only [Dual.inv, hx1]
  field_simp

/-- C49. Quotients of dual numbers and of a dual number and a number. -/
theorem C49_div (hx : Carries x f t) (hy : Carries y g t) (r : 𝕜) :
    (g t ≠ 0 → Carries (x.div y) (fun s => f s / g s) t) ∧ (r ≠ 0 → Carries (x.divS r) (fun s => f s / r) t) ∧ (g t ≠ 0 → Carries (.sDiv r y) (fun s => r / g s) t) := by
  refine ⟨fun h0 => ?_, fun h0 => ?_, fun h0 => ?_⟩
  · simp only [div_eq_mul_inv]
    exact (C49_sums hx (C49_inv hy h0) 0).2.2.2.2.2.2.2.2.2.1
  · simp only [div_eq_mul_inv]
    exact (C49_sums hx (C49_inv (C49_sums hx hx r).1 h0) 0).2.2.2.2.2.2.2.2.2.1
  · simp only [div_eq_mul_inv]
    exact (C49_sums (C49_sums hx hx r).1 (C49_inv hy h0) 0).2.2.2.2.2.2.2.2.2.1

/-- C49. `fma` and `sqr`. -/
theorem C49_fma (hx : Carries x f t) (hy : Carries y g t) (hz : Carries z h t) :
    Carries (x.fma y z) (fun s => f s * g s + h s) t ∧ Carries x.sqr (fun s => f s ^ 2) t := by
  constructor
  · have h1 := (C49_sums hx hy 0).2.2.2.2.2.2.2.2.2.1
    have h2 := (C49_sums h1 hz 0).2.2.2.1
    convert h2 using 1
    simp [Dual.fma, Dual.add, Dual.mul, add_assoc]
  · have := (C49_sums hx hx 0).2.2.2.2.2.2.2.2.2.1
    simpa only [Dual.sqr, pow_two] using this

/-- C49. `pow` with an integer exponent. -/
theorem C49_pow_int (hx : Carries x f t) (n : ℤ) (h0 : f t ≠ 0 ∨ 1 ≤ n) : Carries (x.pow (fun y (e : ℤ) => y ^ e) (fun n => (n : 𝕜)) n) (fun s => f s ^ n) t := by
  obtain ⟨hx1, hx2⟩ := hx
  refine ⟨by simp [Dual.pow, hx1], ?_⟩
  refine ((hasDerivAt_zpow n (f t) (h0.imp id fun h => by omega)).comp t hx2).congr_deriv ?_
  simp only [Dual.pow, hx1]

end

section
variable {x : Dual ℝ} {f : ℝ → ℝ} {t : ℝ}

/-- C49. Functions of a real number. -/
theorem C49_real (hx : Carries x f t) :
    Carries x.sin (fun s => Real.sin (f s)) t ∧ Carries x.cos (fun s => Real.cos (f s)) t ∧ Carries x.sinh (fun s => Real.sinh (f s)) t ∧
    Carries x.cosh (fun s => Real.cosh (f s)) t ∧ Carries x.exp (fun s => Real.exp (f s)) t := by
  obtain ⟨hx1, hx2⟩ := hx
  refine ⟨⟨by simp [Dual.sin, Elementary.sin, hx1], ?_⟩, ⟨by simp [Dual.cos, Elementary.cos, hx1], ?_⟩, ⟨by simp [Dual.sinh, Elementary.sinh, hx1], ?_⟩,
    ⟨by simp [Dual.cosh, Elementary.cosh, hx1], ?_⟩, ⟨by simp [Dual.exp, Elementary.exp, hx1], ?_⟩⟩
  · simpa only [Dual.sin, Elementary.cos, hx1] using hx2.sin
  · simpa only [Dual.cos, Elementary.sin, hx1] using hx2.cos
  · simpa only [Dual.sinh, Elementary.cosh, hx1] using hx2.sinh
  · simpa only [Dual.cosh, Elementary.sinh, hx1] using hx2.cosh
  · simpa only [Dual.exp, Elementary.exp, hx1] using hx2.exp

/-- C49. Functions of a positive number. -/
theorem C49_real_pos (hx : Carries x f t) (h0 : 0 < f t) (r : ℝ) :
    Carries x.log (fun s => Real.log (f s)) t ∧ Carries x.sqrt (fun s => Real.sqrt (f s)) t ∧ Carries (x.pow (fun y (e : ℝ) => y ^ e) id r) (fun s => f s ^ r) t := by
  obtain ⟨hx1, hx2⟩ := hx
  refine ⟨⟨by simp [Dual.log, Elementary.log, hx1], ?_⟩, ⟨by simp [Dual.sqrt, Elementary.sqrt, hx1], ?_⟩, ⟨by simp [Dual.pow, hx1], ?_⟩⟩
  · simpa only [Dual.log, hx1] using hx2.log h0.ne'
  · simpa only [Dual.sqrt, Elementary.sqrt, hx1] using hx2.sqrt h0.ne'
  · refine (hx2.rpow_const (p := r) (.inl h0.ne')).congr_deriv ?_
    simp only [Dual.pow, hx1, id]
    ring

/-- C49. `tan` is wrong unless the derivative is zero, or the squares of its cosine and that of the argument are the same. -/
theorem C49_tan_exact (hx : Carries x f t) (h0 : Real.cos (f t) ≠ 0) (h1 : Real.cos x.du ≠ 0) :
    Carries x.tan (fun s => Real.tan (f s)) t ↔ x.du = 0 ∨ Real.cos x.du ^ 2 = Real.cos (f t) ^ 2 := by
  obtain ⟨hx1, hx2⟩ := hx
  have hd : HasDerivAt (fun s => Real.tan (f s)) (1 / Real.cos (f t) ^ 2 * x.du) t := (Real.hasDerivAt_tan h0).comp t hx2
  have : Carries x.tan (fun s => Real.tan (f s)) t ↔ x.du / (Real.cos x.du * Real.cos x.du) = 1 / Real.cos (f t) ^ 2 * x.du := by
    constructor
    · rintro ⟨_, h⟩
      simp only [Dual.tan, Elementary.cos] at h
      exact h.unique hd
    · intro h
      refine ⟨by simp [Dual.tan, Elementary.tan, hx1], ?_⟩
      simp only [Dual.tan, Elementary.cos]
      rwa [h]
  rw [this]
  constructor
  · intro h
    by_cases hdu : x.du = 0
    · exact .inl hdu
    · right
      field_simp at h
      exact h.symm
  · rintro (h | h)
    · simp [h]
    · rw [← pow_two, h]
      ring

/-- C49. False of the code: `tan` doesn't give the derivative. -/
theorem C49_tan_negation : ¬ ∀ (x : Dual ℝ) (f : ℝ → ℝ) (t : ℝ), Carries x f t → Real.cos (f t) ≠ 0 → Carries x.tan (fun s => Real.tan (f s)) t := by
  intro h
  have hx : Carries (⟨0, 1⟩ : Dual ℝ) id 0 := ⟨rfl, hasDerivAt_id 0⟩
  have h1 := Real.cos_one_pos
  have := (C49_tan_exact hx (by simp) h1.ne').mp (h _ _ _ hx (by simp))
  have hs : 0 < Real.sin 1 := Real.sin_pos_of_pos_of_le_one one_pos le_rfl
  have hc := Real.sin_sq_add_cos_sq 1
  simp only [one_ne_zero, false_or, id, Real.cos_zero] at this
  nlinarith [this]

/-- C49. `abs` isn't a dual number, so with other dual numbers it's a constant (ra.hh:645, 664-675). That's right if and only if the derivative of the argument is zero. -/
theorem C49_abs_exact (hx : Carries x f t) (h0 : f t ≠ 0) : Carries (.const (x.abs abs)) (fun s => |f s|) t ↔ x.du = 0 := by
  obtain ⟨hx1, hx2⟩ := hx
  have hd : HasDerivAt (fun s => |f s|) (((SignType.sign (f t) : SignType) : ℝ) * x.du) t := (hasDerivAt_abs h0).comp t hx2
  have hs : ((SignType.sign (f t) : SignType) : ℝ) ≠ 0 := by
    rcases lt_or_gt_of_ne h0 with h | h
    · simp [sign_neg h]
    · simp [sign_pos h]
  constructor
  · rintro ⟨_, h⟩
    have := hd.unique h
    simpa [Dual.const, hs] using this
  · intro h
    refine ⟨by simp [Dual.const, Dual.abs, hx1], ?_⟩
    simpa [Dual.const, h] using hd

/-- C49. False of the code: `abs` doesn't give the derivative. -/
theorem C49_abs_negation : ¬ ∀ (x : Dual ℝ) (f : ℝ → ℝ) (t : ℝ), Carries x f t → f t ≠ 0 → Carries (.const (x.abs abs)) (fun s => |f s|) t := by
  intro h
  have hx : Carries (⟨1, 1⟩ : Dual ℝ) id 1 := ⟨rfl, hasDerivAt_id 1⟩
  simpa using (C49_abs_exact hx one_ne_zero).mp (h _ _ _ hx one_ne_zero)

/-- C49. `xi` of a number is that number times the imaginary unit. -/
theorem C49_xi_real (hx : Carries x f t) :
    (x.xi (fun r : ℝ => (⟨0, r⟩ : ℂ))).re = Complex.I * f t ∧ HasDerivAt (fun s => Complex.I * (f s : ℂ)) (x.xi (fun r : ℝ => (⟨0, r⟩ : ℂ))).du t := by
  obtain ⟨hx1, hx2⟩ := hx
  have hI : ∀ r : ℝ, (⟨0, r⟩ : ℂ) = Complex.I * r := fun r => by apply Complex.ext <;> simp
  refine ⟨by simp [Dual.xi, hx1, hI], ?_⟩
  simpa [Dual.xi, hI] using (hx2.ofReal_comp).const_mul Complex.I

/-- C49, for any expression made with these operations, other than `tan`. If `x` has the value and derivative of `f` at `t`, then the expression at `x` has those of the expression at `f`. The full property is false of the code
because of `tan`, see C49_tan_negation. -/
theorem C49_partial (e : Formula) (hx : Carries x f t) (hd : e.Defined (f t)) : Carries (e.dual x) (fun s => e.value (f s)) t := by
  induction e with
  | var => exact hx
  | pos a ih => exact ih hd
  | neg a ih => exact (C49_sums (ih hd) (ih hd) 0).2.2.1
  | add a b iha ihb => exact (C49_sums (iha hd.1) (ihb hd.2) 0).2.2.2.1
  | addS a r ih => exact (C49_sums (ih hd) (ih hd) r).2.2.2.2.1
  | sAdd r a ih => exact (C49_sums (ih hd) (ih hd) r).2.2.2.2.2.1
  | sub a b iha ihb => exact (C49_sums (iha hd.1) (ihb hd.2) 0).2.2.2.2.2.2.1
  | subS a r ih => exact (C49_sums (ih hd) (ih hd) r).2.2.2.2.2.2.2.1
  | sSub r a ih => exact (C49_sums (ih hd) (ih hd) r).2.2.2.2.2.2.2.2.1
  | mul a b iha ihb => exact (C49_sums (iha hd.1) (ihb hd.2) 0).2.2.2.2.2.2.2.2.2.1
  | mulS a r ih => exact (C49_sums (ih hd) (ih hd) r).2.2.2.2.2.2.2.2.2.2.1
  | sMul r a ih => exact (C49_sums (ih hd) (ih hd) r).2.2.2.2.2.2.2.2.2.2.2
  | div a b iha ihb => exact (C49_div (iha hd.1) (ihb hd.2.1) 0).1 hd.2.2
  | divS a r ih => exact (C49_div (ih hd.1) (ih hd.1) r).2.1 hd.2
  | sDiv r a ih => exact (C49_div (ih hd.1) (ih hd.1) r).2.2 hd.2
  | fma a b c iha ihb ihc => exact (C49_fma (iha hd.1) (ihb hd.2.1) (ihc hd.2.2)).1
  | sqr a ih => exact (C49_fma (ih hd) (ih hd) (ih hd)).2
  | inv a ih => exact C49_inv (ih hd.1) hd.2
  | sin a ih => exact (C49_real (ih hd)).1
  | cos a ih => exact (C49_real (ih hd)).2.1
  | sinh a ih => exact (C49_real (ih hd)).2.2.1
  | cosh a ih => exact (C49_real (ih hd)).2.2.2.1
  | exp a ih => exact (C49_real (ih hd)).2.2.2.2
  | log a ih => exact (C49_real_pos (ih hd.1) hd.2 0).1
  | sqrt a ih => exact (C49_real_pos (ih hd.1) hd.2 0).2.1
  | powR a r ih => exact (C49_real_pos (ih hd.1) hd.2 r).2.2
  | powZ a n ih => exact C49_pow_int (ih hd.1) n hd.2

/-- The derivative of an expression at a point. -/
theorem C49_derivative_partial (e : Formula) (t : ℝ) (hd : e.Defined t) : (e.dual ⟨t, 1⟩).re = e.value t ∧ HasDerivAt e.value (e.dual ⟨t, 1⟩).du t := by
  have := C49_partial (x := ⟨t, 1⟩) (f := id) (t := t) e ⟨rfl, hasDerivAt_id t⟩ hd
  exact this

/-- `sqrt(1 + sin(t)*t)/(t*t)` at 1. -/
example : (Formula.div (.sqrt (.sAdd 1 (.mul (.sin .var) .var))) (.sqr .var)).Defined 1 := by
  have hs : 0 < Real.sin 1 := Real.sin_pos_of_pos_of_le_one one_pos le_rfl
  refine ⟨⟨⟨trivial, trivial⟩, ?_⟩, trivial, ?_⟩ <;> simp [Formula.value]
  positivity

end

section
variable {x : Dual ℂ} {f : ℂ → ℂ} {t : ℂ}

/-- C49. Functions of a complex number. -/
theorem C49_complex (hx : Carries x f t) :
    Carries x.sin (fun s => Complex.sin (f s)) t ∧ Carries x.cos (fun s => Complex.cos (f s)) t ∧ Carries x.sinh (fun s => Complex.sinh (f s)) t ∧
    Carries x.cosh (fun s => Complex.cosh (f s)) t ∧ Carries x.exp (fun s => Complex.exp (f s)) t := by
  obtain ⟨hx1, hx2⟩ := hx
  refine ⟨⟨by simp [Dual.sin, Elementary.sin, hx1], ?_⟩, ⟨by simp [Dual.cos, Elementary.cos, hx1], ?_⟩, ⟨by simp [Dual.sinh, Elementary.sinh, hx1], ?_⟩,
    ⟨by simp [Dual.cosh, Elementary.cosh, hx1], ?_⟩, ⟨by simp [Dual.exp, Elementary.exp, hx1], ?_⟩⟩
  · simpa only [Dual.sin, Elementary.cos, hx1] using hx2.csin
  · simpa only [Dual.cos, Elementary.sin, hx1] using hx2.ccos
  · simpa only [Dual.sinh, Elementary.cosh, hx1] using hx2.csinh
  · simpa only [Dual.cosh, Elementary.sinh, hx1] using hx2.ccosh
  · simpa only [Dual.exp, Elementary.exp, hx1] using hx2.cexp

/-- C49. `xi` of a complex number is that number times the imaginary unit. -/
theorem C49_xi_complex (hx : Carries x f t) : Carries (x.xi (fun z : ℂ => ⟨-z.im, z.re⟩)) (fun s => Complex.I * f s) t := by
  obtain ⟨hx1, hx2⟩ := hx
  have hI : ∀ z : ℂ, (⟨-z.im, z.re⟩ : ℂ) = Complex.I * z := fun z => by apply Complex.ext <;> simp
  refine ⟨by simp [Dual.xi, hx1, hI], ?_⟩
  simpa [Dual.xi, hI] using hx2.const_mul Complex.I

/-- C49. Functions of a complex number that isn't zero or a negative real. -/
theorem C49_complex_slit (hx : Carries x f t) (h0 : f t ∈ Complex.slitPlane) (r : ℂ) :
    Carries x.log (fun s => Complex.log (f s)) t ∧ Carries x.sqrt (fun s => f s ^ (1 / 2 : ℂ)) t ∧ Carries (x.pow (fun y (e : ℂ) => y ^ e) id r) (fun s => f s ^ r) t := by
  obtain ⟨hx1, hx2⟩ := hx
  have hn : f t ≠ 0 := Complex.slitPlane_ne_zero h0
  refine ⟨⟨by simp [Dual.log, Elementary.log, hx1], ?_⟩, ⟨by simp [Dual.sqrt, Elementary.sqrt, hx1], ?_⟩, ⟨by simp [Dual.pow, hx1], ?_⟩⟩
  · simpa only [Dual.log, hx1] using hx2.clog h0
  · refine (hx2.cpow_const (c := (1 / 2 : ℂ)) h0).congr_deriv ?_
    simp only [Dual.sqrt, Elementary.sqrt, hx1]
    rw [Complex.cpow_sub _ _ hn, Complex.cpow_one]
    have h2 : f t ^ (1 / 2 : ℂ) * f t ^ (1 / 2 : ℂ) = f t := by
      rw [← Complex.cpow_add _ _ hn]; norm_num
    have h3 : f t ^ (1 / 2 : ℂ) ≠ 0 := by
      intro h; rw [h] at h2; simp at h2; exact hn h2.symm
    generalize f t ^ (1 / 2 : ℂ) = q at h2 h3
    rw [← h2]
    field_simp
  · have := hx2.cpow_const (c := r) h0
    simpa only [Dual.pow, hx1, id] using this

example : Carries (⟨Complex.I, 1⟩ : Dual ℂ) id Complex.I ∧ (id Complex.I) ∈ Complex.slitPlane := ⟨⟨rfl, hasDerivAt_id _⟩, by simp [Complex.slitPlane]⟩

end

end Ra.Props
