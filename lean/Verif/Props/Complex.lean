import Verif.Model.Complex
import Verif.Props.Assign
import Mathlib.Analysis.SpecialFunctions.Complex.Arg
/-!
# Real and complex numbers (C82)

The functions of ra.hh:41-102 against the complex numbers of Mathlib.
-/

namespace Ra.Spec
open Ra

/-- The complex number with the two parts. -/
noncomputable def number (z : Cx ℝ) : ℂ := ⟨z.re, z.im⟩

/-- The complex number at `p` has these parts. -/
def HoldsCx {V : Type} (μ : Mem V) (p : Int) (c : Cx V) : Prop := μ (2 * p) = some c.re ∧ μ (2 * p + 1) = some c.im

end Ra.Spec

namespace Ra.Props
open Ra.Spec

/-- C82. `fma(a, b, c)` is `a b + c`, `fma_conj(a, b, c)` is `conj(a) b + c`, `mul_conj(a, b)` is `conj(a) b`, `sqr(a)` is `a²`, `xi(a)` is `i a`. -/
theorem C82_products (a b c : Cx ℝ) :
    number (a.fma b c) = number a * number b + number c ∧
    number (a.fmaConj b c) = starRingEnd ℂ (number a) * number b + number c ∧
    number (a.mulConj b) = starRingEnd ℂ (number a) * number b ∧
    number a.sqr = number a ^ 2 ∧ number a.xi = Complex.I * number a ∧ number a.conj = starRingEnd ℂ (number a) := by
  refine ⟨?_, ?_, ?_, ?_, ?_, ?_⟩ <;>
    apply Complex.ext <;>
    simp [number, Cx.fma, Cx.fmaConj, Cx.mulConj, Cx.sqr, Cx.mul, Cx.xi, Cx.conj, fmaR, pow_two] <;> ring

/-- C82. `sqrm` is the square of the magnitude and `norm2` is the magnitude, of the number or of the difference of two numbers. -/
theorem C82_norms (a b : Cx ℝ) (c : ℝ) :
    a.sqrm = ‖number a‖ ^ 2 ∧ a.sqrm2 b = ‖number a - number b‖ ^ 2 ∧ a.norm2 Real.sqrt = ‖number a‖ ∧ a.norm2' Real.sqrt b = ‖number a - number b‖ ∧
    a.fmaSqrm c = ‖number a‖ ^ 2 + c := by
  have h1 : a.sqrm = ‖number a‖ ^ 2 := by
    rw [Complex.sq_norm, Complex.normSq_apply]; rfl
  have h2 : a.sqrm2 b = ‖number a - number b‖ ^ 2 := by
    rw [Complex.sq_norm, Complex.normSq_apply]; rfl
  refine ⟨h1, h2, ?_, ?_, ?_⟩
  · rw [Cx.norm2, h1, Real.sqrt_sq (norm_nonneg _)]
  · rw [Cx.norm2', h2, Real.sqrt_sq (norm_nonneg _)]
  · rw [← h1]; simp only [Cx.fmaSqrm, fmaR, Cx.sqrm, sqrR]; ring

/-- C82. The functions of real numbers agree with those of the complex numbers with imaginary part zero. The exception is `arg`, see `C82_arg_negation`. -/
theorem C82_real (x y w : ℝ) :
    number (xiR x) = Complex.I * x ∧ ((sqrR x : ℝ) : ℂ) = number (Cx.sqr ⟨x, 0⟩) ∧ sqrmR x = Cx.sqrm ⟨x, 0⟩ ∧ sqrm2R x y = Cx.sqrm2 ⟨x, 0⟩ ⟨y, 0⟩ ∧
    norm2R abs x = Cx.norm2 Real.sqrt ⟨x, 0⟩ ∧ norm2R' abs x y = Cx.norm2' Real.sqrt ⟨x, 0⟩ ⟨y, 0⟩ ∧
    ((mulConjR x y : ℝ) : ℂ) = number (Cx.mulConj ⟨x, 0⟩ ⟨y, 0⟩) ∧ ((fmaConjR x y w : ℝ) : ℂ) = number (Cx.fmaConj ⟨x, 0⟩ ⟨y, 0⟩ ⟨w, 0⟩) ∧
    ((conjR x : ℝ) : ℂ) = number (Cx.conj ⟨x, 0⟩) ∧ realPartR x = (x : ℂ).re ∧ imagPartR x = (x : ℂ).im := by
  refine ⟨?_, ?_, ?_, ?_, ?_, ?_, ?_, ?_, ?_, rfl, rfl⟩
  · apply Complex.ext <;> simp [number, xiR]
  · apply Complex.ext <;> simp [number, sqrR, Cx.sqr, Cx.mul]
  · simp [sqrmR, Cx.sqrm, sqrR]
  · simp [sqrm2R, Cx.sqrm2, sqrR]
  · simp [norm2R, Cx.norm2, Cx.sqrm, sqrR, Real.sqrt_mul_self_eq_abs]
  · simp [norm2R', Cx.norm2', Cx.sqrm2, sqrR, Real.sqrt_mul_self_eq_abs]
  · apply Complex.ext <;> simp [number, mulConjR, Cx.mulConj]
  · apply Complex.ext <;> simp [number, fmaConjR, Cx.fmaConj, fmaR]
  · apply Complex.ext <;> simp [number, conjR, Cx.conj]

/-- `fma(1+2i, 3+4i, 5+6i) = 16i`. -/
example : Cx.fma (⟨1, 2⟩ : Cx ℤ) ⟨3, 4⟩ ⟨5, 6⟩ = ⟨0, 16⟩ ∧ Cx.fmaConj (⟨1, 2⟩ : Cx ℤ) ⟨3, 4⟩ ⟨5, 6⟩ = ⟨16, 4⟩ ∧ Cx.xi (⟨1, 2⟩ : Cx ℤ) = ⟨-2, 1⟩ ∧
    Cx.sqrm2 (⟨1, 2⟩ : Cx ℤ) ⟨4, 6⟩ = 25 := by decide

/-- C82. `arg` of a real number is the angle of the complex number when the real number isn't negative. -/
theorem C82_arg_partial (x : ℝ) (h : 0 ≤ x) : argR x = Complex.arg x := (Complex.arg_ofReal_of_nonneg h).symm

/-- C82. `arg` of a negative real number is 0, where the angle of the same complex number is π (B37). -/
theorem C82_arg_negation (x : ℝ) (h : x < 0) : argR x = 0 ∧ Complex.arg x = Real.pi ∧ argR x ≠ Complex.arg x := by
  refine ⟨rfl, Complex.arg_ofReal_of_neg h, ?_⟩
  rw [Complex.arg_ofReal_of_neg h]
  exact Real.pi_pos.ne

/-- C82. `rel_error(a, b)` is zero exactly when the numbers are the same, is never negative or over two, is the same with the arguments swapped, and doesn't change
when both numbers are scaled. -/
theorem C82_rel_error (a b : ℂ) :
    (relError ‖a‖ ‖b‖ ‖a - b‖ = 0 ↔ a = b) ∧ 0 ≤ relError ‖a‖ ‖b‖ ‖a - b‖ ∧ relError ‖a‖ ‖b‖ ‖a - b‖ ≤ 2 ∧
    relError ‖a‖ ‖b‖ ‖a - b‖ = relError ‖b‖ ‖a‖ ‖b - a‖ ∧
    (∀ c : ℂ, c ≠ 0 → relError ‖c * a‖ ‖c * b‖ ‖c * a - c * b‖ = relError ‖a‖ ‖b‖ ‖a - b‖) := by
  have hz : ‖a‖ + ‖b‖ = 0 → a = 0 ∧ b = 0 := by
    intro h
    have h1 := norm_nonneg a
    have h2 := norm_nonneg b
    exact ⟨norm_eq_zero.mp (by linarith), norm_eq_zero.mp (by linarith)⟩
  have hnn : 0 ≤ ‖a‖ + ‖b‖ := add_nonneg (norm_nonneg a) (norm_nonneg b)
  have htri := norm_sub_le a b
  refine ⟨?_, ?_, ?_, ?_, ?_⟩
  · unfold relError
    simp only
    split
    · next h => obtain ⟨rfl, rfl⟩ := hz h; simp
    · next h =>
      rw [div_eq_zero_iff]
      simp only [h, or_false, mul_eq_zero, OfNat.ofNat_ne_zero, false_or, norm_eq_zero, sub_eq_zero]
  · unfold relError
    simp only
    split
    · rfl
    · exact div_nonneg (mul_nonneg (by norm_num) (norm_nonneg _)) hnn
  · unfold relError
    simp only
    split
    · norm_num
    · next h =>
      rw [div_le_iff₀ (lt_of_le_of_ne hnn (Ne.symm h))]
      linarith
  · unfold relError
    simp only
    rw [add_comm ‖b‖ ‖a‖, norm_sub_rev b a]
  · intro c hc
    have hc' : ‖c‖ ≠ 0 := norm_ne_zero_iff.mpr hc
    unfold relError
    simp only
    rw [← mul_sub, norm_mul, norm_mul, norm_mul, ← mul_add]
    by_cases h : ‖a‖ + ‖b‖ = 0
    · rw [h, mul_zero]; simp
    · rw [if_neg (mul_ne_zero hc' h), if_neg h, mul_left_comm, mul_div_mul_left _ _ hc']

/-- C82. A complex number is finite, infinite or NaN, and only one of those. It's NaN when a part is NaN, and finite when both parts are. -/
theorem C82_classify {F : Type} (z : Cx (Fl F)) :
    (z.isnan = true ↔ z.re = .nan ∨ z.im = .nan) ∧ (z.isfinite = true ↔ (∃ x, z.re = .fin x) ∧ ∃ y, z.im = .fin y) ∧
    (z.isfinite = true ∧ z.isinf = false ∧ z.isnan = false ∨ z.isfinite = false ∧ z.isinf = true ∧ z.isnan = false ∨
      z.isfinite = false ∧ z.isinf = false ∧ z.isnan = true) := by
  obtain ⟨a, b⟩ := z
  cases a <;> cases b <;> simp [Cx.isnan, Cx.isfinite, Cx.isinf, Fl.isnan, Fl.isinf, Fl.isfinite]

/-- A number with an infinite part and a NaN part is NaN. -/
example : Cx.isinf (⟨.pinf, .nan⟩ : Cx (Fl ℤ)) = false ∧ Cx.isinf (⟨.pinf, .fin 2⟩ : Cx (Fl ℤ)) = true := by decide

/-- C82. `odd` gives the parity. -/
theorem C82_odd (n : BitVec 32) : oddU n = true ↔ n.toNat % 2 = 1 := by
  unfold oddU
  rw [bne_iff_ne, ne_eq, ← BitVec.toNat_inj]
  simp [Nat.and_one_is_mod]

/-! Parts of an array as references. -/

variable {V : Type}

theorem refers_part (μ : Mem V) (v : View) (k : Int) (j : List Int) : Refers μ (elem (v.part k) j) (2 * address v j + k) := rfl

theorem reads_of_refers {μ : Mem V} {e : Act V (Lv V)} {p : Int} {x : V} (h : Refers μ e p) (hx : μ p = some x) : Reads μ e x := by
  rw [reads_iff]
  exact ⟨.ref p, μ, h, by simp [Lv.get, Act.read, hx]⟩

theorem part_shape (v : View) (k : Int) (s : List Nat) (h : Shaped v (s.map some)) : HasShape (v.part (V := V) k) (s.map some) :=
  shape_one (refs_shape h)

/-- C82. The elements of `real_part(a)` and `imag_part(a)` are the parts of the elements of `a`. -/
theorem C82_parts_read (v : View) (s : List Nat) (h : Shaped v (s.map some)) (μ : Mem V) (j : List Int) (c : Cx V) (hc : HoldsCx μ (address v j) c) :
    HasShape (v.part (V := V) 0) (s.map some) ∧ HasShape (v.part (V := V) 1) (s.map some) ∧
    Reads μ (elem (v.part 0) j) c.re ∧ Reads μ (elem (v.part 1) j) c.im := by
  refine ⟨part_shape v 0 s h, part_shape v 1 s h, ?_, ?_⟩
  · exact reads_of_refers (refers_part μ v 0 j) (by simpa using hc.1)
  · exact reads_of_refers (refers_part μ v 1 j) hc.2

/-- C82. `real_part(a) = x` replaces the real part of each element of `a` with the element of `x`. It changes none of the imaginary parts, and nothing that
isn't in `a`. -/
theorem C82_parts_assign_real (dyn : Bool) (z : List Int) (hz : ∀ i ∈ z, i = 0) (v : View) (s : List Nat) (hv : Shaped v (s.map some)) (hd : Distinct v s)
    (x : Iter (Act V) (Lv V)) (sx : List Length) (hx : HasShape x sx) (hm : Merge [s.map some, sx] (s.map some)) (μ : Mem V) (c : List Int → Cx V)
    (hc : ∀ j, Valid s j → HoldsCx μ (address v j) (c j)) (f : List Int → V)
    (hf : ∀ j, Valid s j → ∀ μ', SameOutside (fun p => ∃ k, Valid s k ∧ k ≠ j ∧ p = 2 * address v k) μ μ' → Reads μ' (elem x j) (f j)) :
    ∃ μ', assign dyn z (v.part 0) x μ = (.ok (), μ') ∧ (∀ j, Valid s j → HoldsCx μ' (address v j) ⟨f j, (c j).im⟩) ∧
      ∀ p d, ¬ InView v s p → HoldsCx μ p d → HoldsCx μ' p d := by
  obtain ⟨μ', h1, h2, h3⟩ := C27_assign dyn z hz (v.part 0) x s sx (part_shape v 0 s hv) hx hm μ (fun j => 2 * address v j + 0) f
    (fun j k hj hk h => hd j k hj hk (by simpa using h)) (fun j hj => by simp [(hc j hj).1]) (fun j _ μ' _ => refers_part μ' v 0 j)
    (fun j hj μ' h => hf j hj μ' (by simpa using h))
  refine ⟨μ', h1, ?_, ?_⟩
  · intro j hj
    refine ⟨by simpa using h2 j hj, ?_⟩
    rw [h3 _ (by rintro ⟨k, _, h⟩; omega)]
    exact (hc j hj).2
  · rintro p d hp ⟨hr, hi⟩
    refine ⟨?_, ?_⟩
    · rw [h3 _ (by rintro ⟨k, hk, h⟩; exact hp ⟨k, hk, by omega⟩)]; exact hr
    · rw [h3 _ (by rintro ⟨k, hk, h⟩; omega)]; exact hi

/-- C82. `imag_part(a) = x` replaces the imaginary part of each element of `a` with the element of `x`. It changes none of the real parts, and nothing that
isn't in `a`. -/
theorem C82_parts_assign_imag (dyn : Bool) (z : List Int) (hz : ∀ i ∈ z, i = 0) (v : View) (s : List Nat) (hv : Shaped v (s.map some)) (hd : Distinct v s)
    (x : Iter (Act V) (Lv V)) (sx : List Length) (hx : HasShape x sx) (hm : Merge [s.map some, sx] (s.map some)) (μ : Mem V) (c : List Int → Cx V)
    (hc : ∀ j, Valid s j → HoldsCx μ (address v j) (c j)) (f : List Int → V)
    (hf : ∀ j, Valid s j → ∀ μ', SameOutside (fun p => ∃ k, Valid s k ∧ k ≠ j ∧ p = 2 * address v k + 1) μ μ' → Reads μ' (elem x j) (f j)) :
    ∃ μ', assign dyn z (v.part 1) x μ = (.ok (), μ') ∧ (∀ j, Valid s j → HoldsCx μ' (address v j) ⟨(c j).re, f j⟩) ∧
      ∀ p d, ¬ InView v s p → HoldsCx μ p d → HoldsCx μ' p d := by
  obtain ⟨μ', h1, h2, h3⟩ := C27_assign dyn z hz (v.part 1) x s sx (part_shape v 1 s hv) hx hm μ (fun j => 2 * address v j + 1) f
    (fun j k hj hk h => hd j k hj hk (by omega)) (fun j hj => by simp [(hc j hj).2]) (fun j _ μ' _ => refers_part μ' v 1 j) hf
  refine ⟨μ', h1, ?_, ?_⟩
  · intro j hj
    refine ⟨?_, h2 j hj⟩
    rw [h3 _ (by rintro ⟨k, _, h⟩; omega)]
    exact (hc j hj).1
  · rintro p d hp ⟨hr, hi⟩
    refine ⟨?_, ?_⟩
    · rw [h3 _ (by rintro ⟨k, hk, h⟩; omega)]; exact hr
    · rw [h3 _ (by rintro ⟨k, hk, h⟩; exact hp ⟨k, hk, by omega⟩)]; exact hi

/-- `imag_part(a) = 7` for the two elements of `a` at 3 and 1. -/
example : Shaped ⟨[⟨2, -2⟩], 3⟩ [some 2] ∧ Distinct ⟨[⟨2, -2⟩], 3⟩ [2] ∧
    (assign true [] (View.part ⟨[⟨2, -2⟩], 3⟩ 1) (.scalar (pure (.val 7))) (fun p => if 0 ≤ p ∧ p < 8 then some p else none)).1 = .ok () ∧
    (List.range 9).map (fun i => (assign true [] (View.part ⟨[⟨2, -2⟩], 3⟩ 1) (.scalar (pure (.val 7))) (fun p => if 0 ≤ p ∧ p < 8 then some p else none)).2 (i : Int)) =
      [some 0, some 1, some 2, some 7, some 4, some 5, some 6, some 7, none] := by
  refine ⟨?_, ?_, by decide +kernel, by decide +kernel⟩
  · simp [Shaped, DimLen]
  · rintro (_ | ⟨j, _ | _⟩) (_ | ⟨k, _ | _⟩) hj hk h <;> simp_all [Valid, address, dot]

end Ra.Props
