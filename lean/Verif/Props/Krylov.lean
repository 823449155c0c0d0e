import Verif.Props.Laplace
/-!
# C109: conjugate gradients when the right hand side is a sum of a few eigenvectors
-/

namespace Ra.Props
open Spec

section
variable {F : Type} [Inhabited F] [Field F] [LinearOrder F]

/-- `u` is a combination of the first `d` arrays of `e`. -/
def SpannedBy (s : List Nat) (e : Nat → List Int → F) (d : Nat) (u : List Int → F) : Prop := ∃ c : Nat → F, ∀ i, Valid s i → u i = ∑ k ∈ Finset.range d, c k * e k i

omit [Inhabited F] [LinearOrder F] in
theorem spanned_lin {s : List Nat} {e : Nat → List Int → F} {d : Nat} {u v w : List Int → F} (hu : SpannedBy s e d u) (hv : SpannedBy s e d v) (a b : F) (hw : ∀ i, Valid s i → w i = a * u i + b * v i) :
    SpannedBy s e d w := by
  obtain ⟨c, hc⟩ := hu
  obtain ⟨c', hc'⟩ := hv
  refine ⟨fun k => a * c k + b * c' k, fun i hi => ?_⟩
  rw [hw i hi, hc i hi, hc' i hi, Finset.mul_sum, Finset.mul_sum, ← Finset.sum_add_distrib]
  exact Finset.sum_congr rfl fun k _ => by ring

variable [IsStrictOrderedRing F]

omit [Inhabited F] in
/-- `L` of an array that is zero is zero. -/
theorem definite_zero {s : List Nat} {Z : List Int → Prop} {L : (List Int → F) → List Int → F} (hD : Definite s Z L) (hZ : ∀ u, Vanishes s Z (L u)) (w : List Int → F) (hw : ∀ i, Valid s i → w i = 0) :
    ∀ i, Valid s i → L w i = 0 := by
  have h := hD.symm (L w) w (hZ w) (fun i hi _ => hw i hi)
  have h0 : dotOn s (L (L w)) w = 0 := by
    rw [dotOn_congr (u' := L (L w)) (v' := fun _ => 0) (fun _ _ => rfl) hw]
    simp [dotOn]
  rw [h0] at h
  exact (dotOn_self s _).mp h

omit [Inhabited F] in
theorem spanned_mult {s : List Nat} {Z : List Int → Prop} {L : (List Int → F) → List Int → F} (hL : LinearOn s L) (hD : Definite s Z L) (hZ : ∀ u, Vanishes s Z (L u)) {e : Nat → List Int → F} {d : Nat}
    {lam : Nat → F} (he : ∀ k < d, ∀ i, Valid s i → L (e k) i = lam k * e k i) {u : List Int → F} (hu : SpannedBy s e d u) : SpannedBy s e d (L u) := by
  obtain ⟨c, hc⟩ := hu
  have key : ∀ d' ≤ d, ∀ i, Valid s i → L (fun i => ∑ k ∈ Finset.range d', c k * e k i) i = ∑ k ∈ Finset.range d', c k * lam k * e k i := by
    intro d' hd'
    induction d' with
    | zero =>
      intro i hi
      simpa using definite_zero hD hZ (fun _ => (0 : F)) (fun _ _ => rfl) i hi
    | succ d' ih =>
      intro i hi
      have h1 := hL (fun i => ∑ k ∈ Finset.range d', c k * e k i) (e d') (c d') i hi
      rw [ih (by omega) i hi, he d' (by omega) i hi] at h1
      simp only [Finset.sum_range_succ]
      rw [h1]
      ring
  refine ⟨fun k => c k * lam k, fun i hi => ?_⟩
  have h2 := hL (fun i => ∑ k ∈ Finset.range d, c k * e k i) (fun i => u i - ∑ k ∈ Finset.range d, c k * e k i) 1 i hi
  have h3 := definite_zero hD hZ (fun i => u i - ∑ k ∈ Finset.range d, c k * e k i) (fun i hi => by rw [hc i hi, sub_self]) i hi
  rw [key d le_rfl i hi, h3, mul_zero, add_zero] at h2
  rw [← h2]
  congr 1
  funext k
  ring

omit [Inhabited F] in
/-- Orthogonal arrays that are combinations of `d` arrays are at most `d`. -/
theorem spanned_count (s : List Nat) (e : Nat → List Int → F) (d : Nat) (f : Nat → List Int → F) (n : Nat) (hv : ∀ k < n, SpannedBy s e d (f k)) (hp : ∀ k < n, 0 < dotOn s (f k) (f k))
    (ho : ∀ k < n, ∀ j < k, dotOn s (f k) (f j) = 0) : n ≤ d := by
  choose C hC using hv
  have hli : LinearIndependent F (fun (k : Fin n) (i : Fin d) => C k k.2 i) := by
    rw [Fintype.linearIndependent_iff]
    intro a ha k
    have h1 : ∀ i, Valid s i → ∑ j : Fin n, a j * f j i = 0 := by
      intro i hi
      have h2 : ∀ j : Fin n, a j * f j i = ∑ m : Fin d, a j * C j j.2 m * e m i := by
        intro j
        rw [hC j j.2 i hi, Finset.mul_sum, Finset.sum_range]
        exact Finset.sum_congr rfl fun m _ => by ring
      simp only [h2]
      rw [Finset.sum_comm]
      refine Finset.sum_eq_zero fun m _ => ?_
      have := congrFun ha m
      simp at this
      rw [← Finset.sum_mul, this, zero_mul]
    have h3 : ∑ j : Fin n, a j * dotOn s (f j) (f k) = 0 := by
      have h4 : ∀ l : List (List Int), (∀ i ∈ l, Valid s i) → ∑ j : Fin n, a j * (l.map fun i => f j i * f k i).sum = 0 := by
        intro l
        induction l with
        | nil => simp
        | cons i l ih =>
          intro hl
          simp only [List.map_cons, List.sum_cons, mul_add, Finset.sum_add_distrib]
          rw [ih fun q hq => hl q (by simp [hq]), add_zero]
          have := h1 i (hl i (by simp))
          calc ∑ j : Fin n, a j * (f j i * f k i) = (∑ j : Fin n, a j * f j i) * f k i := by
                rw [Finset.sum_mul]
                exact Finset.sum_congr rfl fun j _ => by ring
            _ = 0 := by rw [this, zero_mul]
      exact h4 (rowMajor s) fun i hi => mem_rowMajor.mp hi
    rw [Finset.sum_eq_single k] at h3
    · exact (mul_eq_zero.mp h3).resolve_right (hp k k.2).ne'
    · intro j _ hj
      rcases Nat.lt_or_gt_of_ne (fun e => hj (Fin.ext e) : (j : Nat) ≠ k) with h | h
      · rw [dotOn_comm, ho k k.2 j h, mul_zero]
      · rw [ho j j.2 k h, mul_zero]
    · simp
  have := hli.fintype_card_le_finrank
  simpa using this

/-- The loop ends, when something else limits the number of iterations with a residual that isn't zero. -/
theorem cghs_bounded (dyn : Bool) (z : List Int) (hz : ∀ i ∈ z, i = 0) (I : Mem F → Prop) (T : Int → Prop) (mult : View → View → Act F Unit) (s : List Nat) (Z : List Int → Prop)
    (L : (List Int → F) → List Int → F) (hM : Multiplies I T mult s Z L) (hD : Definite s Z L) {b x g r p : View} (hl : Layout T s b x g r p)
    (err : F) (he : 0 ≤ err) (g0 : List Int → F) (hg0 : Vanishes s Z g0) (N : Nat)
    (hN : ∀ n, (∀ k < n, 0 < dotOn s (cgRun s L g0 k).1 (cgRun s L g0 k).1) → n ≤ N) (limit : Nat) :
    ∀ (k : Nat) (μ : Mem F) (vx vp : List Int → F), N ≤ limit + k → k ≤ N → I μ → CgState μ s Z x g r p vx (cgRun s L g0 k).1 (cgRun s L g0 k).2 vp →
      (∀ j < k, 0 < dotOn s (cgRun s L g0 j).1 (cgRun s L g0 j).1) →
      ∃ n μ', cghsLoop dyn z mult x g r p err (limit + 1) k μ = (.ok n, μ') ∧ n ≤ N := by
  have key : ∀ (limit k : Nat) (μ : Mem F) (vx vp : List Int → F), I μ → CgState μ s Z x g r p vx (cgRun s L g0 k).1 (cgRun s L g0 k).2 vp →
      (∀ j < k, 0 < dotOn s (cgRun s L g0 j).1 (cgRun s L g0 j).1) → err < dotOn s (cgRun s L g0 k).1 (cgRun s L g0 k).1 →
      k + 1 ≤ N ∧ ∃ μ' vx', I μ' ∧ CgState μ' s Z x g r p vx' (cgRun s L g0 (k + 1)).1 (cgRun s L g0 (k + 1)).2 (L (cgRun s L g0 k).2) ∧
        (∀ j < k + 1, 0 < dotOn s (cgRun s L g0 j).1 (cgRun s L g0 j).1) ∧ cghsLoop dyn z mult x g r p err (limit + 1) k μ = cghsLoop dyn z mult x g r p err limit (k + 1) μ' := by
    intro limit k μ vx vp hI0 h0 hpos hlt
    have hpos' : ∀ j < k + 1, 0 < dotOn s (cgRun s L g0 j).1 (cgRun s L g0 j).1 := by
      intro j hj
      rcases Nat.lt_succ_iff_lt_or_eq.mp hj with hj | rfl
      · exact hpos j hj
      · exact lt_of_le_of_lt he hlt
    have facts := cg_facts hD (fun u i hi hz => hM.zero u i hi hz) g0 hg0 (k + 1) hpos'
    refine ⟨hN _ hpos', ?_⟩
    obtain ⟨μ₁, μ₂, h1, hI1, h2, h3⟩ := cghs_iter dyn z hz I T mult s Z L hM hl μ hI0 vx _ _ vp h0 err limit k
    obtain ⟨p1, p2⟩ := cg_pos hD (facts k (by omega)).vr (facts k (by omega)).same (hpos' k (by omega))
    refine ⟨μ₂, _, hI1, h2, hpos', ?_⟩
    rw [h3, if_pos hlt, if_neg]
    rintro (e | e)
    · exact p1.ne' e
    · exact p2.ne' e
  induction limit with
  | zero =>
    intro k μ vx vp hk hk' hI0 h0 hpos
    by_cases hlt : err < dotOn s (cgRun s L g0 k).1 (cgRun s L g0 k).1
    · have := (key 0 k μ vx vp hI0 h0 hpos hlt).1
      omega
    · obtain ⟨μ₁, μ₂, h1, hI1, h2, h3⟩ := cghs_iter dyn z hz I T mult s Z L hM hl μ hI0 vx _ _ vp h0 err 0 k
      rw [if_neg hlt] at h3
      exact ⟨k, μ, h3, by omega⟩
  | succ limit ih =>
    intro k μ vx vp hk hk' hI0 h0 hpos
    by_cases hlt : err < dotOn s (cgRun s L g0 k).1 (cgRun s L g0 k).1
    · obtain ⟨a0, μ', vx', a1, a2, a3, a4⟩ := key (limit + 1) k μ vx vp hI0 h0 hpos hlt
      obtain ⟨n, μ'', b1, b2⟩ := ih (k + 1) μ' vx' _ (by omega) a0 a1 a2 a3
      exact ⟨n, μ'', by rw [a4]; exact b1, b2⟩
    · obtain ⟨μ₁, μ₂, h1, hI1, h2, h3⟩ := cghs_iter dyn z hz I T mult s Z L hM hl μ hI0 vx _ _ vp h0 err (limit + 1) k
      rw [if_neg hlt] at h3
      exact ⟨k, μ, h3, by omega⟩

omit [Inhabited F] [IsStrictOrderedRing F] in
theorem spanned_run [IsStrictOrderedRing F] {s : List Nat} {Z : List Int → Prop} {L : (List Int → F) → List Int → F} (hL : LinearOn s L) (hD : Definite s Z L) (hZ : ∀ u, Vanishes s Z (L u)) {e : Nat → List Int → F} {d : Nat}
    {lam : Nat → F} (he : ∀ k < d, ∀ i, Valid s i → L (e k) i = lam k * e k i) {g0 : List Int → F} (hg : SpannedBy s e d g0) (k : Nat) :
    SpannedBy s e d (cgRun s L g0 k).1 ∧ SpannedBy s e d (cgRun s L g0 k).2 := by
  induction k with
  | zero => exact ⟨hg, hg⟩
  | succ k ih =>
    obtain ⟨h1, h2⟩ := ih
    have h3 : SpannedBy s e d (cgRun s L g0 (k + 1)).1 := spanned_lin h1 (spanned_mult hL hD hZ he h2) 1 (-(cgStep s L (cgRun s L g0 k)).1) fun i _ => by simp only [cgRun, cgStep]; ring
    exact ⟨h3, spanned_lin h2 h3 (cgStep s L (cgRun s L g0 k)).2.1 1 fun i _ => by simp only [cgRun, cgStep]; ring⟩

/-- C109. If the residual at the start is a sum of `d` eigenvectors, then `cghs` returns after at most `d` iterations. -/
theorem C109_eigen (dyn : Bool) (z : List Int) (hz : ∀ i ∈ z, i = 0) (I : Mem F → Prop) (T : Int → Prop) (mult : View → View → Act F Unit) (s : List Nat) (Z : List Int → Prop)
    (L : (List Int → F) → List Int → F) (hM : Multiplies I T mult s Z L) (hL : LinearOn s L) (hD : Definite s Z L) (b x work : View) (μ : Mem F) (vb vx : List Int → F)
    (h : System μ s b x work vb vx) (hb : Vanishes s Z vb) (hI0 : I μ) (hTb : Off T s b) (hTx : Off T s x) (hTw : Off T (3 :: s) work) (eps : F)
    (d : Nat) (e : Nat → List Int → F) (lam : Nat → F) (he : ∀ k < d, ∀ i, Valid s i → L (e k) i = lam k * e k i)
    (hr : ∀ i, Valid s i → vb i - L vx i = ∑ k ∈ Finset.range d, e k i) (limit : Nat) (hlim : d ≤ limit) :
    ∃ n μ', cghs dyn z (limit + 1) mult b x work eps μ = (.ok n, μ') ∧ n ≤ d ∧
      SameOutside (fun a => InView x s a ∨ InView work (3 :: s) a ∨ T a) μ μ' ∧
      ∃ vx', HasValues μ' s x vx' ∧ dotOn s (fun k => vb k - L vx' k) (fun k => vb k - L vx' k) ≤ eps * eps * dotOn s vb vb := by
  obtain ⟨g, r, p, m, hl, h1, hIm, h2, h3, h4⟩ := cghs_start dyn z hz I T mult s Z L hM b x work μ vb vx h hI0 hTb hTx hTw eps
  have hZ : ∀ u, Vanishes s Z (L u) := fun u i hi hz => hM.zero u i hi hz
  have hv0 : Vanishes s Z fun k => vb k - L vx k := fun i hi hz => by beta_reduce; rw [hb i hi hz, hM.zero vx i hi hz, sub_zero]
  have hN : ∀ n, (∀ k < n, 0 < dotOn s (cgRun s L (fun k => vb k - L vx k) k).1 (cgRun s L (fun k => vb k - L vx k) k).1) → n ≤ d := by
    intro n hn
    have facts := cg_facts hD hZ _ hv0 n hn
    exact spanned_count s e d (fun j => (cgRun s L (fun k => vb k - L vx k) j).1) n
      (fun k _ => (spanned_run hL hD hZ he ⟨fun _ => 1, fun i hi => by rw [hr i hi]; simp⟩ k).1) hn fun k hk j hj => (facts k (by omega)).gg j hj
  obtain ⟨n, μ', e1, e2⟩ := cghs_bounded dyn z hz I T mult s Z L hM hD hl (eps * eps * dotOn s vb vb)
    (mul_nonneg (mul_self_nonneg eps) (dotOn_nonneg s vb)) (fun k => vb k - L vx k) hv0 d hN limit 0 m vx _ (by omega) (by omega) hIm h3 (by simp)
  rw [← h4] at e1
  exact ⟨n, μ', e1, e2, C109_residual dyn z hz I T mult s Z L hM hL b x work μ vb vx h hI0 hTb hTx hTw eps _ n μ' e1⟩

end

/-- The right hand side of the grid of 3 rows and 4 columns is an eigenvector, so one iteration is enough for the exact solution, and there are two unknowns. -/
example : ∃ k μ' vx', cghs true [] 2 (stiffMult true []) exGridB exGridX exGridW 0 exGridMem = (.ok k, μ') ∧ k ≤ 1 ∧ HasValues μ' [3, 4] exGridX vx' ∧ ∀ i, Valid [3, 4] i → stiffOf [3, 4] vx' i = if Inner [3, 4] i then 1 else 0 := by
  have inside : ∀ a b : Int, Inner [3, 4] [a, b] ↔ a = 1 ∧ (b = 1 ∨ b = 2) := by
    intro a b
    rw [inner_two]
    constructor
    · rintro ⟨c, d, e, h⟩
      simp at e
      omega
    · intro h
      exact ⟨a, b, rfl, by omega, by omega, by omega, by omega⟩
  have hz : ∀ i, Valid [3, 4] i → stiffOf [3, 4] (fun _ => (0 : Rat)) i = 0 := by
    intro i hi
    obtain ⟨a, b, rfl, h⟩ := valid_two.mp hi
    simp [stiffOf, secondDiffs_two]
  obtain ⟨k, μ', h1, h2, _, vx', h3, h4⟩ := C109_eigen true [] (by simp) (fun _ => True) (fun _ => False) (stiffMult true []) [3, 4] (fun i => ¬ Inner [3, 4] i) (stiffOf [3, 4]) (C109_stiff true [] (by simp) 3 4 (by omega) (by omega))
    (stiff_linear 3 4) (C109_definite 3 4 (by omega) (by omega)) exGridB exGridX exGridW exGridMem _ _ exSystem (fun i _ h => if_neg h) trivial (fun _ _ h => h) (fun _ _ h => h) (fun _ _ h => h) 0
    1 (fun _ i => if Inner [3, 4] i then 1 else 0) (fun _ => 3) (by
      intro k _ i hi
      obtain ⟨a, b, rfl, h⟩ := valid_two.mp hi
      simp only [stiffOf, secondDiffs_two, inside]
      split_ifs <;> first | omega | norm_num) (by
      intro i hi
      rw [hz i hi]
      simp) 1 le_rfl
  refine ⟨k, μ', vx', h1, h2, h3, fun i hi => ?_⟩
  rw [zero_mul, zero_mul] at h4
  exact (sub_eq_zero.mp ((dotOn_self [3, 4] _).mp (le_antisymm h4 (dotOn_nonneg _ _)) i hi)).symm

end Ra.Props
