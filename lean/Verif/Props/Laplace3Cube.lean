import Verif.Props.Laplace3
import Verif.Props.Laplace
import Mathlib.Algebra.Order.BigOperators.Ring.Finset
import Mathlib.Tactic.IntervalCases
import Mathlib.Tactic.NormNum
import Mathlib.Tactic.Linarith
/-!
# The mesh of examples/laplace3d.cc, C116

The spec is in the first section.
-/

namespace Ra.Spec

/-- The number of the vertex at `i`, `j`, `k`, when there are `n` elements along each edge of the cube. -/
def vertex (n : Nat) (i j k : Int) : Int := (i * (n + 1) + j) * (n + 1) + k

/-- The vertices of an element go around the bottom face and then around the top face. -/
def cornerX (a : Nat) : Int := if a % 4 = 1 ∨ a % 4 = 2 then 1 else 0
def cornerY (a : Nat) : Int := if a % 4 = 2 ∨ a % 4 = 3 then 1 else 0
def cornerZ (a : Nat) : Int := if 4 ≤ a then 1 else 0

/-- `p` is the number of a vertex on a face of the cube. -/
def OnFace (n : Nat) (p : Int) : Prop :=
  ∃ i j k : Int, (0 ≤ i ∧ i ≤ n) ∧ (0 ≤ j ∧ j ≤ n) ∧ (0 ≤ k ∧ k ≤ n) ∧ (i = 0 ∨ i = n ∨ j = 0 ∨ j = n ∨ k = 0 ∨ k = n) ∧ p = vertex n i j k

noncomputable instance (n : Nat) : DecidablePred (OnFace n) := Classical.decPred _

/-- `A` is the matrix of a cube with `n` elements along each edge, and its boundary is that of the cube. -/
structure Cube {F : Type} (n : Nat) (A : Matrix0bnd F) : Prop where
  shapeM : Shaped A.M [some 8, some 8]
  count : A.nE = n * n * n
  vertices : ∀ i j k : Nat, i < n → j < n → k < n → ∀ a : Nat, a < 8 → (A.E (((i * n + j) * n + k : Nat) : Int)).v a = vertex n (i + cornerX a) (j + cornerY a) (k + cornerZ a)
  bounds : ∀ p : Int, (∃ q : Nat, q < A.nB ∧ A.B q = p) ↔ OnFace n p

section
variable {F : Type} [Field F]

/-- The integrals of a product of hat functions at the ends `x` and `y` of a segment of length 2, and of the product of their slopes. -/
def hat (x y : Int) : F := if x = y then 2 / 3 else 1 / 3
def slope (x y : Int) : F := if x = y then 1 / 2 else -1 / 2

/-- The integrals over an element of the products of two functions that are hats along each axis, and of the products of their gradients. -/
def mass (a b : Nat) : F := hat (cornerX a) (cornerX b) * hat (cornerY a) (cornerY b) * hat (cornerZ a) (cornerZ b)
def stiff (a b : Nat) : F :=
  slope (cornerX a) (cornerX b) * hat (cornerY a) (cornerY b) * hat (cornerZ a) (cornerZ b) + hat (cornerX a) (cornerX b) * slope (cornerY a) (cornerY b) * hat (cornerZ a) (cornerZ b) +
    hat (cornerX a) (cornerX b) * hat (cornerY a) (cornerY b) * slope (cornerZ a) (cornerZ b)

end
end Ra.Spec

namespace Ra.Props
open Spec

/-! Numbers. -/

theorem vertex_inj {n : Nat} {i j k i' j' k' : Int} (hj : 0 ≤ j ∧ j ≤ n) (hk : 0 ≤ k ∧ k ≤ n) (hj' : 0 ≤ j' ∧ j' ≤ n) (hk' : 0 ≤ k' ∧ k' ≤ n) (h : vertex n i j k = vertex n i' j' k') : i = i' ∧ j = j' ∧ k = k' := by
  simp only [vertex] at h
  have key : ∀ (a b c d : Int), 0 ≤ b → b ≤ n → 0 ≤ d → d ≤ n → a * (n + 1) + b = c * (n + 1) + d → a = c ∧ b = d := by
    intro a b c d h1 h2 h3 h4 e
    have e1 : (a * (n + 1) + b) / (n + 1) = a := by
      rw [Int.add_comm, Int.add_mul_ediv_right _ _ (by omega), Int.ediv_eq_zero_of_lt h1 (by omega), zero_add]
    have e2 : (c * (n + 1) + d) / (n + 1) = c := by
      rw [Int.add_comm, Int.add_mul_ediv_right _ _ (by omega), Int.ediv_eq_zero_of_lt h3 (by omega), zero_add]
    have : a = c := by rw [← e1, ← e2, e]
    subst this
    exact ⟨rfl, by omega⟩
  obtain ⟨e1, e2⟩ := key _ _ _ _ hk.1 hk.2 hk'.1 hk'.2 h
  obtain ⟨e3, e4⟩ := key _ _ _ _ hj.1 hj.2 hj'.1 hj'.2 e1
  exact ⟨e3, e4, e2⟩

theorem vertex_range {n : Nat} {i j k : Int} (hi : 0 ≤ i ∧ i ≤ n) (hj : 0 ≤ j ∧ j ≤ n) (hk : 0 ≤ k ∧ k ≤ n) : 0 ≤ vertex n i j k ∧ vertex n i j k < ((n + 1) ^ 3 : Nat) := by
  simp only [vertex]
  push_cast
  constructor
  · have := mul_nonneg hi.1 (by omega : (0 : Int) ≤ n + 1)
    have := mul_nonneg (add_nonneg this hj.1) (by omega : (0 : Int) ≤ n + 1)
    omega
  · have h1 : i * (n + 1) + j ≤ (n + 1) * (n + 1) - 1 := by nlinarith
    nlinarith

/-- Every number is that of a vertex. -/
theorem vertex_surj {n : Nat} {p : Int} (h : 0 ≤ p ∧ p < ((n + 1) ^ 3 : Nat)) : ∃ i j k : Nat, i ≤ n ∧ j ≤ n ∧ k ≤ n ∧ p = vertex n i j k := by
  obtain ⟨h0, h1⟩ := h
  lift p to Nat using h0
  have h1 : p < (n + 1) * (n + 1) * (n + 1) := by
    have : p < (n + 1) ^ 3 := by exact_mod_cast h1
    rw [pow_succ, pow_two] at this
    exact this
  refine ⟨p / (n + 1) / (n + 1), p / (n + 1) % (n + 1), p % (n + 1), ?_, ?_, ?_, ?_⟩
  · have := Nat.div_lt_of_lt_mul (m := p) (n := n + 1) (k := (n + 1) * (n + 1)) (by linarith)
    have := Nat.div_lt_of_lt_mul (m := p / (n + 1)) (n := n + 1) (k := n + 1) (by linarith)
    omega
  · have := Nat.mod_lt (p / (n + 1)) (by omega : n + 1 > 0); omega
  · have := Nat.mod_lt p (by omega : n + 1 > 0); omega
  · simp only [vertex]
    have e1 := Nat.div_add_mod' (p / (n + 1)) (n + 1)
    have e2 := Nat.div_add_mod' p (n + 1)
    have : (p / (n + 1) / (n + 1) * (n + 1) + p / (n + 1) % (n + 1)) * (n + 1) + p % (n + 1) = p := by rw [e1, e2]
    exact_mod_cast this.symm

/-- Every element is at some place. -/
theorem element_surj {n e : Nat} (h : e < n * n * n) : ∃ i j k : Nat, i < n ∧ j < n ∧ k < n ∧ e = (i * n + j) * n + k := by
  have hn : 0 < n := by
    rcases Nat.eq_zero_or_pos n with rfl | h'
    · simp at h
    · exact h'
  refine ⟨e / n / n, e / n % n, e % n, ?_, Nat.mod_lt _ hn, Nat.mod_lt _ hn, ?_⟩
  · have := Nat.div_lt_of_lt_mul (m := e) (n := n) (k := n * n) (by linarith)
    exact Nat.div_lt_of_lt_mul (m := e / n) (n := n) (k := n) (by linarith)
  · rw [Nat.div_add_mod' (e / n) n, Nat.div_add_mod' e n]

theorem corner_range (a : Nat) : (0 ≤ cornerX a ∧ cornerX a ≤ 1) ∧ (0 ≤ cornerY a ∧ cornerY a ≤ 1) ∧ (0 ≤ cornerZ a ∧ cornerZ a ≤ 1) := by
  simp only [cornerX, cornerY, cornerZ]
  refine ⟨?_, ?_, ?_⟩ <;> split <;> simp

theorem corner_inj {a b : Nat} (ha : a < 8) (hb : b < 8) (hx : cornerX a = cornerX b) (hy : cornerY a = cornerY b) (hz : cornerZ a = cornerZ b) : a = b := by
  have : ∀ a < 8, ∀ b < 8, cornerX a = cornerX b → cornerY a = cornerY b → cornerZ a = cornerZ b → a = b := by decide
  exact this a ha b hb hx hy hz

section
variable {F : Type}

theorem cube_index {n : Nat} {A : Matrix0bnd F} (h : Cube n A) {e : Nat} (he : e < A.nE) :
    ∃ i j k : Nat, i < n ∧ j < n ∧ k < n ∧ ∀ a : Nat, a < 8 → (A.E e).v a = vertex n (i + cornerX a) (j + cornerY a) (k + cornerZ a) := by
  rw [h.count] at he
  obtain ⟨i, j, k, hi, hj, hk, rfl⟩ := element_surj he
  exact ⟨i, j, k, hi, hj, hk, h.vertices i j k hi hj hk⟩

/-- C116. The tables that are set for the cube are those that the products need. -/
theorem C116_cube (n : Nat) (A : Matrix0bnd F) (h : Cube n A) : Mesh A ((n + 1) ^ 3) where
  shapeM := h.shapeM
  vertices := by
    intro e he a ha
    obtain ⟨i, j, k, hi, hj, hk, hv⟩ := cube_index h he
    obtain ⟨hx, hy, hz⟩ := corner_range a
    rw [hv a ha]
    exact vertex_range (by omega) (by omega) (by omega)
  apart := by
    intro e he a b ha hb
    obtain ⟨i, j, k, hi, hj, hk, hv⟩ := cube_index h he
    obtain ⟨hx, hy, hz⟩ := corner_range a
    obtain ⟨hx', hy', hz'⟩ := corner_range b
    rw [hv a ha, hv b hb]
    intro e
    obtain ⟨e1, e2, e3⟩ := vertex_inj (by omega) (by omega) (by omega) (by omega) e
    exact corner_inj ha hb (by omega) (by omega) (by omega)
  bounds := by
    intro q hq
    obtain ⟨i, j, k, hi, hj, hk, _, e⟩ := (h.bounds _).mp ⟨q, hq, rfl⟩
    rw [e]
    exact vertex_range hi hj hk

end

section
variable {F : Type} [Field F] [CharZero F]

/-- C116. The tables are those of the integrals. -/
theorem C116_tables (a b : Nat) (ha : a < 8) (hb : b < 8) : ((stiffTable (F := F)).getD a []).getD b 0 = stiff a b ∧ ((massTable (F := F)).getD a []).getD b 0 = mass a b := by
  constructor
  · interval_cases a <;> interval_cases b <;> norm_num [stiffTable, stiff, hat, slope, cornerX, cornerY, cornerZ]
  · interval_cases a <;> interval_cases b <;> norm_num [massTable, mass, hat, cornerX, cornerY, cornerZ]

theorem stiff_energy (x : Nat → F) : ∑ a ∈ Finset.range 8, ∑ b ∈ Finset.range 8, x a * (stiff a b * x b) =
    ((x 0 - x 2) ^ 2 + (x 0 - x 5) ^ 2 + (x 0 - x 6) ^ 2 + (x 0 - x 7) ^ 2 + (x 1 - x 3) ^ 2 + (x 1 - x 4) ^ 2 + (x 1 - x 6) ^ 2 + (x 1 - x 7) ^ 2 +
      (x 2 - x 4) ^ 2 + (x 2 - x 5) ^ 2 + (x 2 - x 7) ^ 2 + (x 3 - x 4) ^ 2 + (x 3 - x 5) ^ 2 + (x 3 - x 6) ^ 2 + (x 4 - x 6) ^ 2 + (x 5 - x 7) ^ 2) / 6 := by
  have h : ∀ a ∈ Finset.range 8, ∑ b ∈ Finset.range 8, x a * (stiff a b * x b) = ∑ b ∈ Finset.range 8, x a * (((stiffTable (F := F)).getD a []).getD b 0 * x b) := by
    intro a ha
    refine Finset.sum_congr rfl fun b hb => ?_
    rw [(C116_tables a b (Finset.mem_range.mp ha) (Finset.mem_range.mp hb)).1]
  rw [Finset.sum_congr rfl h]
  simp only [Finset.sum_range_succ, Finset.sum_range_zero, stiffTable, List.getD_cons_zero, List.getD_cons_succ]
  ring

theorem slope_symm (x y : Int) : (slope x y : F) = slope y x := by simp only [slope, eq_comm]
theorem hat_symm (x y : Int) : (hat x y : F) = hat y x := by simp only [hat, eq_comm]
theorem stiff_symm (a b : Nat) : (stiff a b : F) = stiff b a := by
  rw [stiff, slope_symm, hat_symm (cornerY a), hat_symm (cornerZ a), hat_symm (cornerX a), slope_symm (cornerY a), slope_symm (cornerZ a), stiff]

end

section
variable {F : Type} [Field F]

theorem assembled_linear [LinearOrder F] (M : Nat → Nat → F) (h : F) (nE : Nat) (E : Nat → Nat → Int) (bd : Int → Prop) [DecidablePred bd] (s : List Nat) : LinearOn s (assembled M h nE E bd) := by
  intro u v c i _
  simp only [assembled]
  split_ifs
  · simp
  · rw [show ∀ x y : F, x * h + c * (y * h) = (x + c * y) * h from fun x y => by ring, Finset.mul_sum, ← Finset.sum_add_distrib]
    congr 1
    refine Finset.sum_congr rfl fun e _ => ?_
    rw [Finset.mul_sum, ← Finset.sum_add_distrib]
    refine Finset.sum_congr rfl fun a _ => ?_
    split_ifs
    · rw [Finset.mul_sum, ← Finset.sum_add_distrib]
      exact Finset.sum_congr rfl fun b _ => by ring
    · simp

variable [LinearOrder F]

theorem dotOn_one (N : Nat) (u v : List Int → F) : dotOn [N] u v = ∑ p ∈ Finset.range N, u [(p : Int)] * v [(p : Int)] := by
  rw [dotOn, rowMajor_one, List.map_map]
  induction N with
  | zero => simp
  | succ k ih => rw [List.range_succ, List.map_append, List.sum_append, ih, Finset.sum_range_succ]; simp

/-- The product as a sum over elements. -/
theorem assembled_form (M : Nat → Nat → F) (h : F) (nE : Nat) (E : Nat → Nat → Int) (bd : Int → Prop) [DecidablePred bd] (N : Nat) (hE : ∀ e < nE, ∀ a : Nat, a < 8 → 0 ≤ E e a ∧ E e a < N) (u v : List Int → F)
    (hu : Vanishes [N] (fun i => bd (i.headD 0)) u) :
    dotOn [N] u (assembled M h nE E bd v) = h * ∑ e ∈ Finset.range nE, ∑ a ∈ Finset.range 8, ∑ b ∈ Finset.range 8, u [E e a] * (M a b * v [E e b]) := by
  rw [dotOn_one]
  have h1 : ∀ p ∈ Finset.range N, u [(p : Int)] * assembled M h nE E bd v [(p : Int)] =
      ∑ e ∈ Finset.range nE, ∑ a ∈ Finset.range 8, if E e a = (p : Int) then h * ∑ b ∈ Finset.range 8, u [E e a] * (M a b * v [E e b]) else 0 := by
    intro p hp
    by_cases hb : bd p
    · rw [hu [(p : Int)] (valid_one.mpr ⟨_, rfl, by omega, by have := Finset.mem_range.mp hp; omega⟩) hb, zero_mul]
      symm
      refine Finset.sum_eq_zero fun e he => Finset.sum_eq_zero fun a ha => ?_
      split_ifs with q
      · rw [q]
        have := hu [(p : Int)] (valid_one.mpr ⟨_, rfl, by omega, by have := Finset.mem_range.mp hp; omega⟩) hb
        simp [this]
      · rfl
    · rw [assembled, if_neg (by simpa using hb), Finset.sum_mul, Finset.mul_sum]
      refine Finset.sum_congr rfl fun e _ => ?_
      rw [Finset.sum_mul, Finset.mul_sum]
      refine Finset.sum_congr rfl fun a _ => ?_
      show _ * ((if E e a = (p : Int) then _ else _) * h) = _
      split_ifs with q
      · rw [q, Finset.sum_mul, Finset.mul_sum, Finset.mul_sum]
        exact Finset.sum_congr rfl fun b _ => by ring
      · simp
  rw [Finset.sum_congr rfl h1, Finset.sum_comm, Finset.mul_sum]
  refine Finset.sum_congr rfl fun e he => ?_
  rw [Finset.sum_comm, Finset.mul_sum]
  refine Finset.sum_congr rfl fun a ha => ?_
  obtain ⟨q1, q2⟩ := hE e (Finset.mem_range.mp he) a (Finset.mem_range.mp ha)
  rw [Finset.sum_eq_single (E e a).toNat]
  · rw [if_pos (by omega)]
  · intro p _ hne
    rw [if_neg (by omega)]
  · intro hn
    exact absurd (Finset.mem_range.mpr (by omega)) hn

/-- C116. The stiffness matrix of the cube is symmetric and positive for the arrays that are zero on the faces. -/
theorem C116_definite [IsStrictOrderedRing F] (n : Nat) (A : Matrix0bnd F) (hA : Cube n A) (h : F) (hh : 0 < h) :
    Definite [(n + 1) ^ 3] (fun i => OnFace n (i.headD 0)) (assembled stiff h A.nE (fun e a => (A.E e).v a) (OnFace n)) := by
  have hm := C116_cube n A hA
  constructor
  · intro u v hu hv
    rw [dotOn_comm _ (assembled _ _ _ _ _ u), assembled_form _ _ _ _ _ _ hm.vertices u v hu, assembled_form _ _ _ _ _ _ hm.vertices v u hv]
    congr 1
    refine Finset.sum_congr rfl fun e _ => ?_
    rw [Finset.sum_comm]
    refine Finset.sum_congr rfl fun b _ => Finset.sum_congr rfl fun a _ => ?_
    rw [stiff_symm a b]
    ring
  · rintro u hu ⟨p, hp, hne⟩
    rw [assembled_form _ _ _ _ _ _ hm.vertices u u hu]
    refine mul_pos hh ?_
    have hpos : ∀ e ∈ Finset.range A.nE, 0 ≤ ∑ a ∈ Finset.range 8, ∑ b ∈ Finset.range 8, u [(A.E e).v a] * (stiff a b * u [(A.E e).v b]) := by
      intro e _
      rw [stiff_energy (fun a : Nat => u [(A.E e).v a])]
      positivity
    refine lt_of_le_of_ne (Finset.sum_nonneg hpos) fun e0 => hne ?_
    have hall := (Finset.sum_eq_zero_iff_of_nonneg hpos).mp e0.symm
    have hedge : ∀ e < A.nE, ∀ a b : Nat, a < 8 → b < 8 → u [(A.E e).v a] = u [(A.E e).v b] := by
      intro e he
      have h0 := hall e (Finset.mem_range.mpr he)
      rw [stiff_energy (fun a : Nat => u [(A.E e).v a])] at h0
      generalize hx : (fun a : Nat => u [(A.E e).v a]) = x at h0
      have hx' : ∀ a : Nat, u [(A.E e).v a] = x a := fun a => by rw [← hx]
      simp only [hx'] at h0
      have : ∀ a : Nat, a < 8 → x a = x 0 := by
        have n1 := sq_nonneg (x 0 - x 2)
        have n2 := sq_nonneg (x 0 - x 5)
        have n3 := sq_nonneg (x 0 - x 6)
        have n4 := sq_nonneg (x 0 - x 7)
        have n5 := sq_nonneg (x 1 - x 3)
        have n6 := sq_nonneg (x 1 - x 4)
        have n7 := sq_nonneg (x 1 - x 6)
        have n8 := sq_nonneg (x 1 - x 7)
        have n9 := sq_nonneg (x 2 - x 4)
        have m1 := sq_nonneg (x 2 - x 5)
        have m2 := sq_nonneg (x 2 - x 7)
        have m3 := sq_nonneg (x 3 - x 4)
        have m4 := sq_nonneg (x 3 - x 5)
        have m5 := sq_nonneg (x 3 - x 6)
        have m6 := sq_nonneg (x 4 - x 6)
        have m7 := sq_nonneg (x 5 - x 7)
        have z : ∀ y y' : F, (y - y') ^ 2 ≤ 0 → y = y' := fun y y' hy => sub_eq_zero.mp (pow_eq_zero_iff (two_ne_zero) |>.mp (le_antisymm hy (sq_nonneg (y - y'))))
        have e2 : x 2 = x 0 := (z (x 0) (x 2) (by linarith)).symm
        have e5 : x 5 = x 0 := (z (x 0) (x 5) (by linarith)).symm
        have e6 : x 6 = x 0 := (z (x 0) (x 6) (by linarith)).symm
        have e7 : x 7 = x 0 := (z (x 0) (x 7) (by linarith)).symm
        have e1 : x 1 = x 6 := z (x 1) (x 6) (by linarith)
        have e3 : x 3 = x 6 := z (x 3) (x 6) (by linarith)
        have e4 : x 4 = x 6 := z (x 4) (x 6) (by linarith)
        intro a ha
        interval_cases a
        · rfl
        · rw [e1, e6]
        · exact e2
        · rw [e3, e6]
        · rw [e4, e6]
        · exact e5
        · exact e6
        · exact e7
      intro a b ha hb
      rw [hx', hx', this a ha, this b hb]
    obtain ⟨p, rfl, hp'⟩ := valid_one.mp hp
    obtain ⟨i, j, k, hi, hj, hk, rfl⟩ := vertex_surj hp'
    -- along the last axis
    have hzero : ∀ k : Nat, k ≤ n → u [vertex n i j k] = 0 := by
      intro k
      induction k with
      | zero =>
        intro _
        exact hu _ (valid_one.mpr ⟨_, rfl, vertex_range (by omega) (by omega) (by omega)⟩) ⟨i, j, 0, by omega, by omega, by omega, by omega, rfl⟩
      | succ k ih =>
        intro hk
        obtain ⟨i', a, ha, hi'⟩ : ∃ i' a : Nat, i' < n ∧ a < 2 ∧ i = i' + a := by
          by_cases h : i = n
          · exact ⟨n - 1, 1, by omega, by omega, by omega⟩
          · exact ⟨i, 0, by omega, by omega, by omega⟩
        obtain ⟨j', b, hb, hj'⟩ : ∃ j' b : Nat, j' < n ∧ b < 2 ∧ j = j' + b := by
          by_cases h : j = n
          · exact ⟨n - 1, 1, by omega, by omega, by omega⟩
          · exact ⟨j, 0, by omega, by omega, by omega⟩
        have hc : ∀ a < 2, ∀ b < 2, ∀ c < 2, ∃ d < 8, cornerX d = (a : Nat) ∧ cornerY d = (b : Nat) ∧ cornerZ d = (c : Nat) := by decide
        obtain ⟨d, hd, d1, d2, d3⟩ := hc a hi'.1 b hj'.1 0 (by omega)
        obtain ⟨d', hd', d1', d2', d3'⟩ := hc a hi'.1 b hj'.1 1 (by omega)
        have he : ((i' * n + j') * n + k) < A.nE := by
          rw [hA.count]
          have : i' * n + j' + 1 ≤ n * n := by nlinarith
          nlinarith
        have := hedge _ he d d' hd hd'
        rw [hA.vertices i' j' k ha hb (by omega) d hd, hA.vertices i' j' k ha hb (by omega) d' hd', d1, d2, d3, d1', d2', d3'] at this
        have e1 : ((i' : Int) + (a : Int)) = i := by omega
        have e2 : ((j' : Int) + (b : Int)) = j := by omega
        rw [e1, e2] at this
        simp only [Nat.cast_zero, add_zero, Nat.cast_one] at this
        push_cast
        rw [← this]
        exact ih (by omega)
    exact hzero k hk

/-- There are no more unknowns than vertices inside. -/
theorem cube_count (n : Nat) : ((rowMajor [(n + 1) ^ 3]).filter fun i => ¬ OnFace n (i.headD 0)).length ≤ (n - 1) ^ 3 := by
  have h1 : ((rowMajor [(n + 1) ^ 3]).filter fun i => ¬ OnFace n (i.headD 0)).Nodup := (nodup_rowMajor _).filter _
  have h2 : ((rowMajor [(n + 1) ^ 3]).filter fun i => ¬ OnFace n (i.headD 0)) ⊆ (rowMajor [n - 1, n - 1, n - 1]).map (fun j => [vertex n (j.getD 0 0 + 1) (j.getD 1 0 + 1) (j.getD 2 0 + 1)]) := by
    intro i hi
    simp only [List.mem_filter, decide_eq_true_eq] at hi
    obtain ⟨p, rfl, hp⟩ := valid_one.mp (mem_rowMajor.mp hi.1)
    obtain ⟨i, j, k, hi', hj, hk, rfl⟩ := vertex_surj hp
    have hn := hi.2
    have : ¬ (i = 0 ∨ i = n ∨ j = 0 ∨ j = n ∨ k = 0 ∨ k = n) := by
      intro h
      exact hn ⟨i, j, k, by omega, by omega, by omega, by omega, rfl⟩
    refine List.mem_map.mpr ⟨[((i - 1 : Nat) : Int), ((j - 1 : Nat) : Int), ((k - 1 : Nat) : Int)], mem_rowMajor.mpr ⟨by omega, by omega, by omega, by omega, by omega, by omega, trivial⟩, ?_⟩
    have e1 : (((i - 1 : Nat) : Int) + 1) = i := by omega
    have e2 : (((j - 1 : Nat) : Int) + 1) = j := by omega
    have e3 : (((k - 1 : Nat) : Int) + 1) = k := by omega
    simp [e1, e2, e3]
  have := (List.Nodup.subperm h1 h2).length_le
  rw [List.length_map, length_rowMajor] at this
  refine le_trans this (le_of_eq ?_)
  simp [size]
  ring

end
end Ra.Props
