import Verif.Model.Mp
import Mathlib.Data.Nat.Choose.Basic
/-!
# Binomial coefficients: C44
-/

namespace Ra.Props

theorem binom_step (n i : Nat) : n.choose i * (n - i) / (i + 1) = n.choose (i + 1) := by
  rw [← Nat.choose_succ_right_eq]
  exact Nat.mul_div_cancel _ (by omega)

theorem binomLoop_eq (n p : Nat) : ∀ (f i : Nat), i + f = p → binomLoop n p f i (n.choose i) = n.choose p := by
  intro f
  induction f with
  | zero => intro i h; simp only [Nat.add_zero] at h; simp [binomLoop, h]
  | succ f ih =>
    intro i h
    rw [binomLoop, if_pos (by omega), binom_step]
    exact ih (i + 1) (by omega)

/-- C44. `binom` computes the binomial coefficient, for all arguments. -/
theorem C44_binom (n p : Nat) : binom n p = n.choose p := by
  unfold binom
  split
  · next h => rw [Nat.choose_eq_zero_of_lt h]
  · next h =>
    have key (q : Nat) : binomLoop n q q 0 1 = n.choose q := by
      have := binomLoop_eq n q q 0 (by omega)
      simpa using this
    simp only [key]
    split
    · exact Nat.choose_symm (by omega)
    · rfl

/-- The products that `binom` makes. -/
def Products (w n p : Nat) : Prop := ∀ i < min p (n - p), n.choose i * (n - i) < 2 ^ w

theorem binomLoopW_eq (w n p : Nat) (h : ∀ i < p, n.choose i * (n - i) < 2 ^ w) :
    ∀ (f i : Nat), i + f = p → binomLoopW w n p f i (n.choose i) = n.choose p := by
  intro f
  induction f with
  | zero => intro i h; simp only [Nat.add_zero] at h; simp [binomLoopW, h]
  | succ f ih =>
    intro i hi
    rw [binomLoopW, if_pos (by omega), Nat.mod_eq_of_lt (h i (by omega)), binom_step]
    exact ih (i + 1) (by omega)

/-- If no product wraps around, then the result is right. -/
theorem binomW_eq (w n p : Nat) (h : p ≤ n → Products w n p) : binomW w n p = n.choose p := by
  unfold binomW
  split
  · next h => rw [Nat.choose_eq_zero_of_lt h]
  · next hp =>
    have key (q : Nat) (hq : ∀ i < q, n.choose i * (n - i) < 2 ^ w) : binomLoopW w n q q 0 1 = n.choose q := by
      have := binomLoopW_eq w n q hq q 0 (by omega)
      simpa using this
    have hm : ∀ i < (if p > n - p then n - p else p), n.choose i * (n - i) < 2 ^ w := by
      intro i hi
      apply h (by omega) i
      split at hi <;> omega
    simp only [key _ hm]
    split
    · exact Nat.choose_symm (by omega)
    · rfl

theorem products_62 : ∀ n < 63, ∀ i < 31, i < n - i → n.choose i * (n - i) < 2 ^ 64 := by decide +kernel

theorem products_of {n p : Nat} (hn : n ≤ 62) (hp : p ≤ n) : Products 64 n p := by
  intro i hi
  have : min p (n - p) ≤ 31 := by omega
  exact products_62 n (by omega) i (by omega) (by omega)

/-- C44. With 64 bit arithmetic, for `n` up to 62 no product overflows, and the result is right for any `p`. -/
theorem C44_machine (n p : Nat) (hn : n ≤ 62) :
    (p ≤ n → ∀ i < min p (n - p), n.choose i * (n - i) < 2 ^ 64) ∧ binomW 64 n p = n.choose p :=
  ⟨fun h => products_of hn h, binomW_eq 64 n p fun h => products_of hn h⟩

theorem products_63 : ∀ i < 28, (63).choose i * (63 - i) < 2 ^ 64 := by decide +kernel

/-- C44. The comment in the code: also for (63 28); the next one is wrong. -/
theorem C44_limit : (∀ p, p ≤ 28 ∨ 35 ≤ p → binomW 64 63 p = (63).choose p) ∧ binomW 64 63 29 ≠ (63).choose 29 := by
  refine ⟨fun p hp => binomW_eq 64 63 p fun hp' i hi => ?_, by decide +kernel⟩
  exact products_63 i (by omega)

example : binom 7 3 = 35 := by decide +kernel
example : binomW 64 62 31 = 465428353255261088 := by decide +kernel

end Ra.Props
