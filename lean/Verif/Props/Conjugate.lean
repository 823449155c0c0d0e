import Verif.Lemmas.Search
import Mathlib.Algebra.Order.Field.Basic
import Mathlib.Algebra.BigOperators.Group.List.Basic
import Mathlib.LinearAlgebra.Dimension.Constructions
import Mathlib.LinearAlgebra.Dimension.StrongRankCondition
import Mathlib.LinearAlgebra.Dimension.Finite
import Mathlib.Tactic.Ring
import Mathlib.Tactic.FieldSimp
import Mathlib.Tactic.Linarith
import Mathlib.Tactic.LinearCombination
/-!
# The method of conjugate gradients on values, C109

The spec is in the first section. The rest is about the numbers that the program computes; the program itself is in `Props/Cghs.lean`.
-/

namespace Ra.Spec

section
variable {F : Type} [Field F] [LinearOrder F]

/-- The sum of products of elements for the shape `s`. -/
def dotOn (s : List Nat) (u v : List Int → F) : F := ((rowMajor s).map fun i => u i * v i).sum

/-- `u` is zero in `Z`. -/
def Vanishes (s : List Nat) (Z : List Int → Prop) (u : List Int → F) : Prop := ∀ i, Valid s i → Z i → u i = 0

/-- `L` is linear. -/
def LinearOn (s : List Nat) (L : (List Int → F) → List Int → F) : Prop :=
  ∀ (u v : List Int → F) (c : F) (i : List Int), Valid s i → L (fun k => u k + c * v k) i = L u i + c * L v i

/-- `L` is symmetric and positive on the arrays that are zero in `Z`. -/
structure Definite (s : List Nat) (Z : List Int → Prop) (L : (List Int → F) → List Int → F) : Prop where
  symm : ∀ u v, Vanishes s Z u → Vanishes s Z v → dotOn s u (L v) = dotOn s (L u) v
  pos : ∀ u, Vanishes s Z u → (∃ i, Valid s i ∧ u i ≠ 0) → 0 < dotOn s u (L u)

end
end Ra.Spec

namespace Ra.Props
open Spec

section
variable {F : Type} [Field F] [LinearOrder F]

theorem dotOn_comm (s : List Nat) (u v : List Int → F) : dotOn s u v = dotOn s v u := by simp only [dotOn, mul_comm]

theorem dotOn_lin (s : List Nat) (u v w : List Int → F) (a b : F) : dotOn s (fun i => a * u i + b * v i) w = a * dotOn s u w + b * dotOn s v w := by
  simp only [dotOn]
  induction rowMajor s with
  | nil => simp
  | cons i l ih =>
    simp only [List.map_cons, List.sum_cons, ih]
    ring

theorem dotOn_congr {s : List Nat} {u u' v v' : List Int → F} (h : ∀ i, Valid s i → u i = u' i) (h' : ∀ i, Valid s i → v i = v' i) : dotOn s u v = dotOn s u' v' := by
  simp only [dotOn]
  congr 1
  exact List.map_congr_left fun i hi => by rw [h i (mem_rowMajor.mp hi), h' i (mem_rowMajor.mp hi)]

theorem dotOn_sub (s : List Nat) (u v w : List Int → F) (t : F) : dotOn s (fun i => u i - t * v i) w = dotOn s u w - t * dotOn s v w := by
  have := dotOn_lin s u v w 1 (-t)
  rw [dotOn_congr (u' := fun i => 1 * u i + -t * v i) (v' := w) (fun i _ => by ring) (fun _ _ => rfl), this]
  ring

theorem dotOn_mul_add (s : List Nat) (u v w : List Int → F) (c : F) : dotOn s (fun i => u i * c + v i) w = c * dotOn s u w + dotOn s v w := by
  have := dotOn_lin s u v w c 1
  rw [dotOn_congr (u' := fun i => c * u i + 1 * v i) (v' := w) (fun i _ => by ring) (fun _ _ => rfl), this]
  ring

theorem dotOn_nonneg [IsStrictOrderedRing F] (s : List Nat) (u : List Int → F) : 0 ≤ dotOn s u u := by
  simp only [dotOn]
  induction rowMajor s with
  | nil => simp
  | cons i l ih =>
    simp only [List.map_cons, List.sum_cons]
    exact add_nonneg (mul_self_nonneg _) ih

theorem dotOn_self [IsStrictOrderedRing F] (s : List Nat) (u : List Int → F) : dotOn s u u = 0 ↔ ∀ i, Valid s i → u i = 0 := by
  have key : ∀ l : List (List Int), 0 ≤ (l.map fun i => u i * u i).sum ∧ ((l.map fun i => u i * u i).sum = 0 ↔ ∀ i ∈ l, u i = 0) := by
    intro l
    induction l with
    | nil => simp
    | cons i l ih =>
      simp only [List.map_cons, List.sum_cons, List.mem_cons, forall_eq_or_imp]
      have h := mul_self_nonneg (u i)
      refine ⟨add_nonneg h ih.1, ?_⟩
      rw [add_eq_zero_iff_of_nonneg h ih.1, ih.2, mul_self_eq_zero]
  rw [dotOn, (key _).2]
  exact ⟨fun h i hi => h i (mem_rowMajor.mpr hi), fun h i hi => h i (mem_rowMajor.mp hi)⟩

/-- The numbers computed in an iteration. -/
def cgStep (s : List Nat) (L : (List Int → F) → List Int → F) (gr : (List Int → F) × (List Int → F)) : F × F × ((List Int → F) × (List Int → F)) :=
  let g := gr.1
  let r := gr.2
  let p := L r
  let tau := dotOn s g r
  let t := tau / dotOn s r p
  let gam := (t * t * dotOn s p p - tau) / tau
  let g' := fun i => g i - t * p i
  (t, gam, g', fun i => r i * gam + g' i)

/-- After `k` iterations. -/
def cgRun (s : List Nat) (L : (List Int → F) → List Int → F) (g : List Int → F) : Nat → (List Int → F) × (List Int → F)
  | 0 => (g, g)
  | k + 1 => (cgStep s L (cgRun s L g k)).2.2

variable [IsStrictOrderedRing F]

/-- What holds after `k` iterations. -/
structure CgFacts (s : List Nat) (Z : List Int → Prop) (L : (List Int → F) → List Int → F) (g : List Int → F) (k : Nat) : Prop where
  vg : Vanishes s Z (cgRun s L g k).1
  vr : Vanishes s Z (cgRun s L g k).2
  same : dotOn s (cgRun s L g k).1 (cgRun s L g k).2 = dotOn s (cgRun s L g k).1 (cgRun s L g k).1
  gr : ∀ j < k, dotOn s (cgRun s L g k).1 (cgRun s L g j).2 = 0
  conj : ∀ j < k, dotOn s (cgRun s L g k).2 (L (cgRun s L g j).2) = 0
  gg : ∀ j < k, dotOn s (cgRun s L g k).1 (cgRun s L g j).1 = 0

/-- The divisors aren't zero. -/
theorem cg_pos {s : List Nat} {Z : List Int → Prop} {L : (List Int → F) → List Int → F} (hL : Definite s Z L) {g r : List Int → F} (hr : Vanishes s Z r) (hs : dotOn s g r = dotOn s g g) (hg : 0 < dotOn s g g) :
    0 < dotOn s r (L r) ∧ 0 < dotOn s g r := by
  rw [hs]
  refine ⟨hL.pos r hr ?_, hg⟩
  by_contra h
  push Not at h
  have : dotOn s g r = dotOn s g (fun _ => 0) := dotOn_congr (fun _ _ => rfl) h
  rw [hs] at this
  simp [dotOn] at this hg
  rw [this] at hg
  exact lt_irrefl _ hg

theorem cg_facts {s : List Nat} {Z : List Int → Prop} {L : (List Int → F) → List Int → F} (hL : Definite s Z L) (hZ : ∀ u, Vanishes s Z (L u)) (g : List Int → F) (hg : Vanishes s Z g) (n : Nat)
    (hn : ∀ k < n, 0 < dotOn s (cgRun s L g k).1 (cgRun s L g k).1) : ∀ k ≤ n, CgFacts s Z L g k := by
  intro k
  induction k using Nat.strong_induction_on with
  | _ k ih =>
    intro hk
    rcases k with _ | k
    · exact ⟨hg, hg, rfl, by simp, by simp, by simp⟩
    · obtain ⟨fvg, fvr, fsame, fgr, fconj, fgg⟩ := ih k (by omega) (by omega)
      obtain ⟨hsig, htau⟩ := cg_pos hL fvr fsame (hn k (by omega))
      -- names for the numbers of this iteration
      set gk := (cgRun s L g k).1 with egk
      set rk := (cgRun s L g k).2 with erk
      set sig := dotOn s rk (L rk) with esig
      set tau := dotOn s gk rk with etau
      set t := tau / sig with et
      set gam := (t * t * dotOn s (L rk) (L rk) - tau) / tau with egam
      have hg' : (cgRun s L g (k + 1)).1 = fun i => gk i - t * L rk i := rfl
      have hr' : (cgRun s L g (k + 1)).2 = fun i => rk i * gam + (cgRun s L g (k + 1)).1 i := rfl
      have ht : t * sig = tau := by rw [et]; field_simp
      have ht0 : t ≠ 0 := by rw [et]; exact (div_pos htau hsig).ne'
      -- the previous directions
      have prev : ∀ j, j ≤ k → ∀ w, (∀ l ≤ j, dotOn s w (cgRun s L g l).2 = 0) → dotOn s w (cgRun s L g j).1 = 0 := by
        intro j hj w hw
        rcases j with _ | j
        · exact hw 0 (by omega)
        · have e : (cgRun s L g (j + 1)).1 = fun i => (cgRun s L g (j + 1)).2 i - (cgStep s L (cgRun s L g j)).2.1 * (cgRun s L g j).2 i := by
            funext i
            show _ = (cgRun s L g j).2 i * (cgStep s L (cgRun s L g j)).2.1 + (cgRun s L g (j + 1)).1 i - _
            ring
          rw [e, dotOn_comm, dotOn_sub, dotOn_comm, hw (j + 1) (by omega), dotOn_comm, hw j (by omega)]
          simp
      have vg' : Vanishes s Z (cgRun s L g (k + 1)).1 := by
        intro i hi hz
        rw [hg']
        simp only [fvg i hi hz, hZ rk i hi hz]
        simp
      have gr' : ∀ j < k + 1, dotOn s (cgRun s L g (k + 1)).1 (cgRun s L g j).2 = 0 := by
        intro j hj
        rw [hg', dotOn_sub]
        rcases Nat.lt_succ_iff_lt_or_eq.mp hj with hj | rfl
        · have hv := (ih j (by omega) (by omega)).vr
          rw [fgr j hj, ← hL.symm _ _ fvr hv, fconj j hj]
          simp
        · rw [← erk, dotOn_comm s (L rk), ← esig, ← etau, ht, sub_self]
      have gg' : ∀ j < k + 1, dotOn s (cgRun s L g (k + 1)).1 (cgRun s L g j).1 = 0 := by
        intro j hj
        exact prev j (by omega) _ fun l hl => gr' l (by omega)
      have same' : dotOn s (cgRun s L g (k + 1)).1 (cgRun s L g (k + 1)).2 = dotOn s (cgRun s L g (k + 1)).1 (cgRun s L g (k + 1)).1 := by
        rw [hr', dotOn_comm, dotOn_mul_add, dotOn_comm s rk, gr' k (by omega)]
        simp
      -- the product of `gk` and `L rk` is that of `rk` and `L rk`
      have hgp : dotOn s gk (L rk) = sig := by
        rcases k with _ | k
        · rfl
        · have e : gk = fun i => rk i - (cgStep s L (cgRun s L g k)).2.1 * (cgRun s L g k).2 i := by
            funext i
            show _ = (cgRun s L g k).2 i * (cgStep s L (cgRun s L g k)).2.1 + gk i - _
            ring
          have hv := (ih k (by omega) (by omega)).vr
          rw [e, dotOn_sub, hL.symm _ _ hv fvr, dotOn_comm s (L _) rk, fconj k (by omega)]
          simp [esig]
      have hnew : dotOn s (cgRun s L g (k + 1)).1 (cgRun s L g (k + 1)).1 = t * t * dotOn s (L rk) (L rk) - tau := by
        have e1 : dotOn s (fun i => gk i - t * L rk i) (L rk) = sig - t * dotOn s (L rk) (L rk) := by rw [dotOn_sub, hgp]
        have e2 : dotOn s (fun i => gk i - t * L rk i) gk = tau - t * sig := by rw [dotOn_sub, fsame.symm, dotOn_comm s (L rk), hgp]
        rw [hg', dotOn_sub, dotOn_comm s gk, e2, dotOn_comm s (L rk), e1]
        linear_combination (-2) * ht
      have hgam : gam * tau = dotOn s (cgRun s L g (k + 1)).1 (cgRun s L g (k + 1)).1 := by
        rw [hnew, egam]
        field_simp
      -- `L` of a direction as a difference
      have hdiff : ∀ j, j < k + 1 → ∀ w, (cgStep s L (cgRun s L g j)).1 * dotOn s w (L (cgRun s L g j).2) = dotOn s w (cgRun s L g j).1 - dotOn s w (cgRun s L g (j + 1)).1 := by
        intro j hj w
        have e : (cgRun s L g (j + 1)).1 = fun i => (cgRun s L g j).1 i - (cgStep s L (cgRun s L g j)).1 * L (cgRun s L g j).2 i := rfl
        have e' : dotOn s w (cgRun s L g (j + 1)).1 = dotOn s w (cgRun s L g j).1 - (cgStep s L (cgRun s L g j)).1 * dotOn s w (L (cgRun s L g j).2) := by
          rw [e, dotOn_comm, dotOn_sub, dotOn_comm s _ w, dotOn_comm s _ w]
        rw [e']
        ring
      refine ⟨vg', ?_, same', gr', ?_, gg'⟩
      · intro i hi hz
        rw [hr']
        simp only [fvr i hi hz, vg' i hi hz]
        simp
      · intro j hj
        rw [hr', dotOn_mul_add]
        rcases Nat.lt_succ_iff_lt_or_eq.mp hj with hj' | rfl
        · have fj := ih j (by omega) (by omega)
          have hpos := cg_pos hL fj.vr fj.same (hn j (by omega))
          have hne : (cgStep s L (cgRun s L g j)).1 ≠ 0 := (div_pos hpos.2 hpos.1).ne'
          have := hdiff j hj (cgRun s L g (k + 1)).1
          rw [gg' j hj, gg' (j + 1) (by omega), sub_self] at this
          rw [fconj j hj', (mul_eq_zero.mp this).resolve_left hne]
          simp
        · have := hdiff j hj (cgRun s L g (j + 1)).1
          rw [gg' j hj] at this
          have e : (cgStep s L (cgRun s L g j)).1 = t := rfl
          rw [e, ← hgam, ← ht, ← erk] at this
          have h3 : t * (gam * sig + dotOn s (cgRun s L g (j + 1)).1 (L rk)) = 0 := by
            rw [mul_add, this]
            ring
          exact (mul_eq_zero.mp h3).resolve_left ht0

/-- Orthogonal arrays that vanish in `Z` are at most as many as the elements that aren't in `Z`. -/
theorem ortho_count (s : List Nat) (Z : List Int → Prop) [DecidablePred Z] (f : Nat → List Int → F) (n : Nat) (hv : ∀ k < n, Vanishes s Z (f k)) (hp : ∀ k < n, 0 < dotOn s (f k) (f k))
    (ho : ∀ k < n, ∀ j < k, dotOn s (f k) (f j) = 0) : n ≤ ((rowMajor s).filter fun i => ¬ Z i).length := by
  set l := (rowMajor s).filter fun i => ¬ Z i with el
  have hsum : ∀ u v : List Int → F, Vanishes s Z u → dotOn s u v = ∑ i : Fin l.length, u l[i] * v l[i] := by
    intro u v hu
    have e : ∑ i : Fin l.length, u l[i] * v l[i] = (l.map fun i => u i * v i).sum := Fin.sum_univ_fun_getElem l fun i => u i * v i
    rw [e, el, dotOn]
    have hval : ∀ i ∈ rowMajor s, Z i → u i = 0 := fun i hi hz => hu i (mem_rowMajor.mp hi) hz
    clear e el
    clear_value l
    generalize rowMajor s = q at hval
    induction q with
    | nil => rfl
    | cons i m ih =>
      have := ih fun k hk => hval k (by simp [hk])
      by_cases hz : Z i
      · simp [hz, hval i (by simp) hz] at this ⊢
        exact this
      · simp [hz] at this ⊢
        exact this
  have hli : LinearIndependent F (fun (k : Fin n) (i : Fin l.length) => f k l[i]) := by
    rw [Fintype.linearIndependent_iff]
    intro c hc k
    have h1 : ∑ i : Fin l.length, (∑ j : Fin n, c j * f j l[i]) * f k l[i] = 0 := by
      refine Finset.sum_eq_zero fun i _ => ?_
      have := congrFun hc i
      simp at this
      exact mul_eq_zero_of_left this _
    simp only [Finset.sum_mul] at h1
    rw [Finset.sum_comm] at h1
    have h2 : ∀ j : Fin n, ∑ i : Fin l.length, c j * f j l[i] * f k l[i] = c j * dotOn s (f j) (f k) := by
      intro j
      rw [hsum _ _ (hv j j.2), Finset.mul_sum]
      exact Finset.sum_congr rfl fun i _ => by ring
    simp only [h2] at h1
    rw [Finset.sum_eq_single k] at h1
    · exact (mul_eq_zero.mp h1).resolve_right (hp k k.2).ne'
    · intro j _ hj
      rcases Nat.lt_or_gt_of_ne (fun e => hj (Fin.ext e) : (j : Nat) ≠ k) with h | h
      · rw [dotOn_comm, ho k k.2 j h, mul_zero]
      · rw [ho j j.2 k h, mul_zero]
    · simp
  have := hli.fintype_card_le_finrank
  simpa using this

end
end Ra.Props
