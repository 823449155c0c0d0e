import Verif.Props.Cghs
import Mathlib.Algebra.Order.BigOperators.Ring.Finset
import Mathlib.Data.List.Perm.Subperm
/-!
# The matrix of examples/laplace2d.cc, C109
-/

namespace Ra.Spec

section
variable {F : Type} [Field F]

/-- Minus the sum of the second differences, and zero on the border. -/
def stiffOf (s : List Nat) (u : List Int → F) (i : List Int) : F := if Inner s i then -secondDiffs u i else 0

/-- The average of `u` around an index, and zero on the border. -/
def massOf (h : F) (s : List Nat) (u : List Int → F) (i : List Int) : F :=
  match i with
  | [a, b] => if Inner s [a, b] then h * h * (u [a, b] / 2 + (u [a - 1, b] + u [a, b - 1] + u [a + 1, b] + u [a, b + 1] + u [a + 1, b + 1] + u [a - 1, b - 1]) / 12) else 0
  | _ => 0

end
end Ra.Spec

namespace Ra.Props
open Spec Finset

section
variable {F : Type} [Field F]

theorem inner_two {n m : Nat} {i : List Int} : Inner [n, m] i ↔ ∃ a b : Int, i = [a, b] ∧ 1 ≤ a ∧ a + 1 < n ∧ 1 ≤ b ∧ b + 1 < m := by
  constructor
  · intro h
    obtain ⟨a, b, rfl, _⟩ := valid_two.mp (inner_valid h)
    simp only [Inner, List.forall₂_cons, List.Forall₂.nil, and_true] at h
    exact ⟨a, b, rfl, h.1.1, h.1.2, h.2.1, h.2.2⟩
  · rintro ⟨a, b, rfl, h1, h2, h3, h4⟩
    exact .cons ⟨h1, h2⟩ (.cons ⟨h3, h4⟩ .nil)

theorem secondDiffs_two (u : List Int → F) (a b : Int) : secondDiffs u [a, b] = u [a + 1, b] + u [a - 1, b] + u [a, b + 1] + u [a, b - 1] - 4 * u [a, b] := by
  simp [secondDiffs, List.range_succ]
  ring

theorem stiff_linear [LinearOrder F] (n m : Nat) : LinearOn [n, m] (stiffOf (F := F) [n, m]) := by
  intro u v c i hi
  simp only [stiffOf]
  split_ifs with h
  · obtain ⟨a, b, rfl, _⟩ := inner_two.mp h
    simp only [secondDiffs_two]
    ring
  · simp

/-! Sums. -/

/-- Sum by parts. -/
theorem sum_parts (n : Nat) (u v : Nat → F) (h0 : u 0 = 0) (h1 : u (n + 1) = 0) :
    ∑ i ∈ range n, u (i + 1) * (2 * v (i + 1) - v i - v (i + 2)) = ∑ i ∈ range (n + 1), (u (i + 1) - u i) * (v (i + 1) - v i) := by
  have key : ∀ k, ∑ i ∈ range k, u (i + 1) * (2 * v (i + 1) - v i - v (i + 2)) = ∑ i ∈ range k, (u (i + 1) - u i) * (v (i + 1) - v i) + u 0 * (v 1 - v 0) - u k * (v (k + 1) - v k) := by
    intro k
    induction k with
    | zero => simp
    | succ k ih =>
      rw [sum_range_succ, sum_range_succ, ih]
      ring
  rw [key, sum_range_succ, h0, h1]
  ring

variable [LinearOrder F]

theorem dotOn_two (n m : Nat) (u v : List Int → F) : dotOn [n, m] u v = ∑ i ∈ range n, ∑ j ∈ range m, u [(i : Int), (j : Int)] * v [(i : Int), (j : Int)] := by
  have e : ∀ (k : Nat) (f : Nat → F), ((List.range k).map f).sum = ∑ i ∈ range k, f i := by
    intro k f
    induction k with
    | zero => simp
    | succ k ih => rw [List.range_succ, List.map_append, List.sum_append, ih, sum_range_succ]; simp
  have e2 : ∀ (l : List Nat) (f : Nat → List F), (l.flatMap f).sum = (l.map fun a => (f a).sum).sum := by
    intro l f
    induction l with
    | nil => rfl
    | cons a l ih => rw [List.flatMap_cons, List.sum_append, ih, List.map_cons, List.sum_cons]
  simp only [dotOn, rowMajor, List.map_flatMap, List.map_cons, List.map_nil]
  simp [← e, e2]

omit [LinearOrder F] in
/-- The sum without the border. -/
theorem sum_inside (n : Nat) (f : Nat → F) (h0 : f 0 = 0) (h1 : f (n + 1) = 0) : ∑ i ∈ range (n + 2), f i = ∑ i ∈ range n, f (i + 1) := by
  rw [sum_range_succ, sum_range_succ', h0, h1]
  simp

/-- The product by the matrix as a sum of products of differences. -/
theorem stiff_sum (n m : Nat) (u v : List Int → F) (hu : Vanishes [n + 2, m + 2] (fun i => ¬ Inner [n + 2, m + 2] i) u) :
    dotOn [n + 2, m + 2] u (stiffOf [n + 2, m + 2] v) =
      ∑ j ∈ range m, ∑ i ∈ range (n + 1), (u [((i + 1 : Nat) : Int), ((j + 1 : Nat) : Int)] - u [(i : Int), ((j + 1 : Nat) : Int)]) * (v [((i + 1 : Nat) : Int), ((j + 1 : Nat) : Int)] - v [(i : Int), ((j + 1 : Nat) : Int)]) +
      ∑ i ∈ range n, ∑ j ∈ range (m + 1), (u [((i + 1 : Nat) : Int), ((j + 1 : Nat) : Int)] - u [((i + 1 : Nat) : Int), (j : Int)]) * (v [((i + 1 : Nat) : Int), ((j + 1 : Nat) : Int)] - v [((i + 1 : Nat) : Int), (j : Int)]) := by
  have hz : ∀ i j : Nat, i < n + 2 → j < m + 2 → (i = 0 ∨ i = n + 1 ∨ j = 0 ∨ j = m + 1) → u [(i : Int), (j : Int)] = 0 := by
    intro i j hi hj hb
    refine hu _ (valid_two.mpr ⟨_, _, rfl, by omega, by omega, by omega, by omega⟩) ?_
    beta_reduce
    rw [inner_two]
    rintro ⟨a, b, e, _⟩
    simp at e
    omega
  rw [dotOn_two, sum_inside]
  · have e1 : ∀ i ∈ range n, ∑ j ∈ range (m + 2), u [((i + 1 : Nat) : Int), (j : Int)] * stiffOf [n + 2, m + 2] v [((i + 1 : Nat) : Int), (j : Int)] =
        ∑ j ∈ range m, (u [((i + 1 : Nat) : Int), ((j + 1 : Nat) : Int)] * (2 * v [((i + 1 : Nat) : Int), ((j + 1 : Nat) : Int)] - v [(i : Int), ((j + 1 : Nat) : Int)] - v [((i + 2 : Nat) : Int), ((j + 1 : Nat) : Int)]) +
          u [((i + 1 : Nat) : Int), ((j + 1 : Nat) : Int)] * (2 * v [((i + 1 : Nat) : Int), ((j + 1 : Nat) : Int)] - v [((i + 1 : Nat) : Int), (j : Int)] - v [((i + 1 : Nat) : Int), ((j + 2 : Nat) : Int)])) := by
      intro i hi
      have hi := mem_range.mp hi
      rw [sum_inside]
      · refine sum_congr rfl fun j hj => ?_
        have hj := mem_range.mp hj
        rw [stiffOf, if_pos (inner_two.mpr ⟨_, _, rfl, by omega, by omega, by omega, by omega⟩), secondDiffs_two]
        have a1 : ((i + 1 : Nat) : Int) + 1 = ((i + 2 : Nat) : Int) := by omega
        have a2 : ((i + 1 : Nat) : Int) - 1 = (i : Int) := by omega
        have a3 : ((j + 1 : Nat) : Int) + 1 = ((j + 2 : Nat) : Int) := by omega
        have a4 : ((j + 1 : Nat) : Int) - 1 = (j : Int) := by omega
        rw [a1, a2, a3, a4]
        ring
      · rw [hz (i + 1) 0 (by omega) (by omega) (by omega), zero_mul]
      · rw [hz (i + 1) (m + 1) (by omega) (by omega) (by omega), zero_mul]
    rw [sum_congr rfl e1]
    simp only [sum_add_distrib]
    rw [sum_comm]
    congr 1
    · refine sum_congr rfl fun j hj => ?_
      have hj := mem_range.mp hj
      exact sum_parts n (fun i => u [(i : Int), ((j + 1 : Nat) : Int)]) (fun i => v [(i : Int), ((j + 1 : Nat) : Int)]) (hz 0 (j + 1) (by omega) (by omega) (by omega)) (hz (n + 1) (j + 1) (by omega) (by omega) (by omega))
    · refine sum_congr rfl fun i hi => ?_
      have hi := mem_range.mp hi
      exact sum_parts m (fun j => u [((i + 1 : Nat) : Int), (j : Int)]) (fun j => v [((i + 1 : Nat) : Int), (j : Int)]) (hz (i + 1) 0 (by omega) (by omega) (by omega)) (hz (i + 1) (m + 1) (by omega) (by omega) (by omega))
  · refine sum_eq_zero fun j hj => ?_
    have hj := mem_range.mp hj
    rw [hz 0 j (by omega) (by omega) (by omega), zero_mul]
  · refine sum_eq_zero fun j hj => ?_
    have hj := mem_range.mp hj
    rw [hz (n + 1) j (by omega) (by omega) (by omega), zero_mul]

/-- C109. The matrix is symmetric and positive. -/
theorem C109_definite [IsStrictOrderedRing F] (n m : Nat) (hn : 2 ≤ n) (hm : 2 ≤ m) : Definite [n, m] (fun i => ¬ Inner [n, m] i) (stiffOf (F := F) [n, m]) := by
  obtain ⟨n, rfl⟩ : ∃ k, n = k + 2 := ⟨n - 2, by omega⟩
  obtain ⟨m, rfl⟩ : ∃ k, m = k + 2 := ⟨m - 2, by omega⟩
  constructor
  · intro u v hu hv
    rw [dotOn_comm _ (stiffOf _ u), stiff_sum n m u v hu, stiff_sum n m v u hv]
    simp only [mul_comm]
  · rintro u hu ⟨i, hi, hne⟩
    have hin : Inner [n + 2, m + 2] i := by
      by_contra h
      exact hne (hu i hi h)
    obtain ⟨a, b, rfl, h1, h2, h3, h4⟩ := inner_two.mp hin
    obtain ⟨i, rfl⟩ : ∃ i : Nat, a = ((i + 1 : Nat) : Int) := ⟨(a - 1).toNat, by omega⟩
    obtain ⟨j, rfl⟩ : ∃ j : Nat, b = ((j + 1 : Nat) : Int) := ⟨(b - 1).toNat, by omega⟩
    rw [stiff_sum n m u u hu]
    refine add_pos_of_pos_of_nonneg (sum_pos' (fun j _ => sum_nonneg fun i _ => mul_self_nonneg _) ⟨j, mem_range.mpr (by omega), ?_⟩) (sum_nonneg fun i _ => sum_nonneg fun j _ => mul_self_nonneg _)
    refine lt_of_le_of_ne (sum_nonneg fun i _ => mul_self_nonneg _) fun e => hne ?_
    have hall := (sum_eq_zero_iff_of_nonneg fun i _ => mul_self_nonneg _).mp e.symm
    have hk : ∀ k : Nat, k ≤ n + 1 → u [(k : Int), ((j + 1 : Nat) : Int)] = 0 := by
      intro k
      induction k with
      | zero =>
        intro _
        refine hu _ (valid_two.mpr ⟨_, _, rfl, by omega, by omega, by omega, by omega⟩) ?_
        beta_reduce
        rw [inner_two]
        rintro ⟨a, b, e, _⟩
        simp at e
        omega
      | succ k ih =>
        intro hk
        have := mul_self_eq_zero.mp (hall k (mem_range.mpr (by omega)))
        rw [ih (by omega), sub_zero] at this
        exact this
    exact hk (i + 1) (by omega)


/-! The programs. -/

variable [Inhabited F]

omit [LinearOrder F] [Inhabited F] in
/-- The slices of the inside, displaced. -/
theorem slices_two {n m : Nat} (hn : 2 ≤ n) (hm : 2 ≤ m) {v w : View} (hv : Shaped v ([n, m].map some)) (hw : Shaped w ([n, m].map some)) (hd : Distinct w [n, m]) (hp : Parted [n, m] v w)
    (μ : Mem F) (f h : List Int → F) (hf : HasValues μ [n, m] v f) (hh : HasValues μ [n, m] w h) :
    ∃ (d : View) (g : Int → Int → View), sliceFrom [lenOf v.dims 0, lenOf v.dims 1] [1, 1] w = .ok d ∧ Shaped d ([n - 2, m - 2].map some) ∧ Distinct d [n - 2, m - 2] ∧
      (∀ j, Valid [n - 2, m - 2] j → (μ (address d j)).isSome) ∧
      (∀ k l, 0 ≤ k → k < 3 → 0 ≤ l → l < 3 → sliceFrom [lenOf v.dims 0, lenOf v.dims 1] [k, l] v = .ok (g k l) ∧ Shaped (g k l) ([n - 2, m - 2].map some) ∧
        ∀ a b μ', Valid [n - 2, m - 2] [a, b] → SameOutside (InView d [n - 2, m - 2]) μ μ' → μ' (address (g k l) [a, b]) = some (f [a + k, b + l])) ∧
      (∀ μ' (q : List Int → F), SameOutside (InView d [n - 2, m - 2]) μ μ' → (∀ j, Valid [n - 2, m - 2] j → μ' (address d j) = some (q (j.map (· + 1)))) →
        SameOutside (InView w [n, m]) μ μ' ∧ HasValues μ' [n, m] w fun i => if Inner [n, m] i then q i else h i) := by
  have hlong : ∀ k ∈ [n, m], 2 ≤ k := by simp [hn, hm]
  have hG : Grids μ [n, m] v w f := ⟨hlong, hv, hw, hd, hp, hf, fun i hi => by rw [hh i hi]; rfl⟩
  have hl : [lenOf v.dims 0, lenOf v.dims 1] = [n, m].map (Nat.cast : Nat → Int) := by
    obtain ⟨d0, d1, e, h0, h1⟩ : ∃ d0 d1, v.dims = [d0, d1] ∧ d0.len = (n : Int) ∧ d1.len = (m : Int) := by
      rw [Shaped] at hv
      rcases hvd : v.dims with _ | ⟨d0, _ | ⟨d1, _ | ⟨d2, t⟩⟩⟩ <;> rw [hvd] at hv <;> simp at hv
      exact ⟨d0, d1, rfl, hv.1, hv.2⟩
    simp [e, lenOf, h0, h1]
  obtain ⟨d, d1, d2, d3, d4, d5⟩ := grids_slice hG
  have hsl : ∀ k l : Int, ∃ x, 0 ≤ k → k < 3 → 0 ≤ l → l < 3 → sliceFrom ([n, m].map Nat.cast) [k, l] v = .ok x ∧ Shaped x ([n - 2, m - 2].map some) ∧
      ∀ j, j.length = 2 → address x j = address v (List.zipWith (· + ·) j [k, l]) := by
    intro k l
    by_cases ho : Valid [3, 3] [k, l]
    · obtain ⟨x, hx⟩ := slice_inside hv hlong [k, l] ho
      exact ⟨x, fun _ _ _ _ => hx⟩
    · refine ⟨v, fun a b c d => absurd ?_ ho⟩
      exact valid_two.mpr ⟨k, l, rfl, by omega, by omega, by omega, by omega⟩
  choose g hg using hsl
  rw [hl]
  refine ⟨d, g, d1, d2, d3, ?_, ?_, ?_⟩
  · intro j hj
    rw [(d4 j hj).1]
    exact hG.here _ (inner_valid (d4 j hj).2)
  · intro k l h1 h2 h3 h4
    obtain ⟨g1, g2, g3⟩ := hg k l h1 h2 h3 h4
    refine ⟨g1, g2, ?_⟩
    intro a b μ' hab hs
    have hv : Valid [n, m] [a + k, b + l] := valid_sum (s := [n, m]) (j := [a, b]) (o := [k, l]) hab (valid_two.mpr ⟨k, l, rfl, by omega, by omega, by omega, by omega⟩)
    have : address (g k l) [a, b] = address v [a + k, b + l] := g3 [a, b] rfl
    rw [this, hs _ fun hp => grids_apart hG hv ((d5 _).mp hp), hf _ hv]
  · intro μ' q h1 h2
    obtain ⟨e1, e2⟩ := grids_done d4 d5 h1 h2
    refine ⟨fun a ha => e1 a ?_, ?_⟩
    · rintro ⟨i, hi, rfl⟩
      exact ha ⟨i, inner_valid hi, rfl⟩
    · intro i hi
      beta_reduce
      split_ifs with hin
      · exact e2 i hin
      · rw [e1 _ ?_, hh i hi]
        rintro ⟨k, hk, e⟩
        exact hin (by rw [hd _ _ hi (inner_valid hk) e]; exact hk)

theorem two_index {n m : Nat} {j : List Int} (h : Valid [n, m] j) : ∃ a b : Int, j = [a, b] := by
  obtain ⟨a, b, rfl, _⟩ := valid_two.mp h
  exact ⟨a, b, rfl⟩

/-- C109. `mult` of `StiffMat` gives minus the second differences. -/
theorem C109_stiff (dyn : Bool) (z : List Int) (hz : ∀ i ∈ z, i = 0) (n m : Nat) (hn : 2 ≤ n) (hm : 2 ≤ m) :
    Multiplies (fun _ : Mem F => True) (fun _ => False) (stiffMult dyn z) [n, m] (fun i => ¬ Inner [n, m] i) (stiffOf [n, m]) := by
  refine ⟨fun u i _ hz => if_neg hz, fun _ _ _ _ => trivial, ?_⟩
  intro v w μ f h _ hv hw hd hp _ _ hf hh h0
  obtain ⟨d, g, d1, d2, d3, d4, d5, d6⟩ := slices_two hn hm hv hw hd hp μ f h hf hh
  have g11 := d5 1 1 (by omega) (by omega) (by omega) (by omega)
  have g01 := d5 0 1 (by omega) (by omega) (by omega) (by omega)
  have g10 := d5 1 0 (by omega) (by omega) (by omega) (by omega)
  have g21 := d5 2 1 (by omega) (by omega) (by omega) (by omega)
  have g12 := d5 1 2 (by omega) (by omega) (by omega) (by omega)
  obtain ⟨μ', a1, a2, a3⟩ := C27_view dyn z hz d [n - 2, m - 2] d2 d3 (stiffExpr (g 1 1) (g 0 1) (g 1 0) (g 2 1) (g 1 2)) ([n - 2, m - 2].map some)
    (by
      refine binary_shape _ (binary_shape _ (binary_shape _ (binary_shape _ (binary_shape _ (rfl : HasShape (.scalar _) []) (refs_shape g11.2.1) ?_) (refs_shape g01.2.1) (merge_same _)) (refs_shape g10.2.1) (merge_same _))
        (refs_shape g21.2.1) (merge_same _)) (refs_shape g12.2.1) (merge_same _)
      exact merge_longer [] [n - 2, m - 2])
    (merge_same _) μ d4 (fun j => -secondDiffs f (j.map (· + 1)))
    (by
      intro j hj μ' hμ'
      have hs : SameOutside (InView d [n - 2, m - 2]) μ μ' := fun a ha => hμ' a fun hp => ha hp.1
      obtain ⟨a, b, rfl⟩ := two_index hj
      have e : -secondDiffs f ([a, b].map (· + 1)) = 4 * f [a + 1, b + 1] - f [a + 0, b + 1] - f [a + 1, b + 0] - f [a + 2, b + 1] - f [a + 1, b + 2] := by
        simp only [List.map_cons, List.map_nil, secondDiffs_two]
        have a1 : a + 1 + 1 = a + 2 := by omega
        have a2 : a + 1 - 1 = a + 0 := by omega
        have a3 : b + 1 + 1 = b + 2 := by omega
        have a4 : b + 1 - 1 = b + 0 := by omega
        rw [a1, a2, a3, a4]
        ring
      rw [e]
      exact reads_binary _ (reads_binary _ (reads_binary _ (reads_binary _ (reads_binary _ (reads_scalar _ _ _) (reads_refs (g11.2.2 a b μ' hj hs))) (reads_refs (g01.2.2 a b μ' hj hs)))
        (reads_refs (g10.2.2 a b μ' hj hs))) (reads_refs (g21.2.2 a b μ' hj hs))) (reads_refs (g12.2.2 a b μ' hj hs)))
  obtain ⟨e1, e2⟩ := d6 μ' (fun i => -secondDiffs f i) a3 a2
  refine ⟨μ', ?_, fun a ha => e1 a fun hw => ha (.inl hw), trivial, ?_⟩
  · simp only [stiffMult]
    rw [lift_bind d1, lift_bind g11.1, lift_bind g01.1, lift_bind g10.1, lift_bind g21.1, lift_bind g12.1]
    exact a1
  · intro i hi
    rw [e2 i hi, stiffOf]
    beta_reduce
    split_ifs with hin
    · rfl
    · rw [h0 i hi hin]

/-- C109. `mult` of `MassMat` gives averages. -/
theorem C109_mass (dyn : Bool) (z : List Int) (hz : ∀ i ∈ z, i = 0) (c : F) (n m : Nat) (hn : 2 ≤ n) (hm : 2 ≤ m) :
    Multiplies (fun _ : Mem F => True) (fun _ => False) (massMult dyn z c) [n, m] (fun i => ¬ Inner [n, m] i) (massOf c [n, m]) := by
  refine ⟨?_, fun _ _ _ _ => trivial, ?_⟩
  · intro u i hi hz
    obtain ⟨a, b, rfl⟩ := two_index hi
    exact if_neg hz
  intro v w μ f h _ hv hw hd hp _ _ hf hh h0
  obtain ⟨d, g, d1, d2, d3, d4, d5, d6⟩ := slices_two hn hm hv hw hd hp μ f h hf hh
  have g11 := d5 1 1 (by omega) (by omega) (by omega) (by omega)
  have g01 := d5 0 1 (by omega) (by omega) (by omega) (by omega)
  have g10 := d5 1 0 (by omega) (by omega) (by omega) (by omega)
  have g21 := d5 2 1 (by omega) (by omega) (by omega) (by omega)
  have g12 := d5 1 2 (by omega) (by omega) (by omega) (by omega)
  have g22 := d5 2 2 (by omega) (by omega) (by omega) (by omega)
  have g00 := d5 0 0 (by omega) (by omega) (by omega) (by omega)
  obtain ⟨μ', a1, a2, a3⟩ := C27_view dyn z hz d [n - 2, m - 2] d2 d3 (massExpr c (g 1 1) (g 0 1) (g 1 0) (g 2 1) (g 1 2) (g 2 2) (g 0 0)) ([n - 2, m - 2].map some)
    (by
      refine binary_shape _ (rfl : HasShape (.scalar _) []) (binary_shape _ (binary_shape _ (refs_shape g11.2.1) (rfl : HasShape (.scalar _) []) (merge_nil _))
        (binary_shape _ (binary_shape _ (binary_shape _ (binary_shape _ (binary_shape _ (binary_shape _ (refs_shape g01.2.1) (refs_shape g10.2.1) (merge_same _)) (refs_shape g21.2.1) (merge_same _))
        (refs_shape g12.2.1) (merge_same _)) (refs_shape g22.2.1) (merge_same _)) (refs_shape g00.2.1) (merge_same _)) (rfl : HasShape (.scalar _) []) (merge_nil _)) (merge_same _)) ?_
      exact merge_longer [] [n - 2, m - 2])
    (merge_same _) μ d4 (fun j => massOf c [n, m] f (j.map (· + 1)))
    (by
      intro j hj μ' hμ'
      have hs : SameOutside (InView d [n - 2, m - 2]) μ μ' := fun a ha => hμ' a fun hp => ha hp.1
      obtain ⟨a, b, rfl⟩ := two_index hj
      have e : massOf c [n, m] f ([a, b].map (· + 1)) = c * c * (f [a + 1, b + 1] / 2 + (f [a + 0, b + 1] + f [a + 1, b + 0] + f [a + 2, b + 1] + f [a + 1, b + 2] + f [a + 2, b + 2] + f [a + 0, b + 0]) / 12) := by
        have hin : Inner [n, m] [a + 1, b + 1] := inner_shift.mpr ⟨_, hj, rfl⟩
        simp only [List.map_cons, List.map_nil, massOf]
        have a1 : a + 1 + 1 = a + 2 := by omega
        have a2 : a + 1 - 1 = a + 0 := by omega
        have a3 : b + 1 + 1 = b + 2 := by omega
        have a4 : b + 1 - 1 = b + 0 := by omega
        rw [if_pos hin, a1, a2, a3, a4]
      rw [e]
      exact reads_binary _ (reads_scalar _ _ _) (reads_binary _ (reads_binary _ (reads_refs (g11.2.2 a b μ' hj hs)) (reads_scalar _ _ _))
        (reads_binary _ (reads_binary _ (reads_binary _ (reads_binary _ (reads_binary _ (reads_binary _ (reads_refs (g01.2.2 a b μ' hj hs)) (reads_refs (g10.2.2 a b μ' hj hs))) (reads_refs (g21.2.2 a b μ' hj hs)))
        (reads_refs (g12.2.2 a b μ' hj hs))) (reads_refs (g22.2.2 a b μ' hj hs))) (reads_refs (g00.2.2 a b μ' hj hs))) (reads_scalar _ _ _))))
  obtain ⟨e1, e2⟩ := d6 μ' (massOf c [n, m] f) a3 a2
  refine ⟨μ', ?_, fun a ha => e1 a fun hw => ha (.inl hw), trivial, ?_⟩
  · simp only [massMult]
    rw [lift_bind d1, lift_bind g11.1, lift_bind g01.1, lift_bind g10.1, lift_bind g21.1, lift_bind g12.1, lift_bind g22.1, lift_bind g00.1]
    exact a1
  · intro i hi
    rw [e2 i hi]
    beta_reduce
    split_ifs with hin
    · rfl
    · obtain ⟨a, b, rfl⟩ := two_index hi
      rw [h0 _ hi hin, massOf, if_neg hin]

/-- There are no more unknowns than elements inside. -/
theorem inside_count (n m : Nat) : ((rowMajor [n, m]).filter fun i => ¬ ¬ Inner [n, m] i).length ≤ (n - 2) * (m - 2) := by
  have h1 : ((rowMajor [n, m]).filter fun i => ¬ ¬ Inner [n, m] i).Nodup := (nodup_rowMajor _).filter _
  have h2 : ((rowMajor [n, m]).filter fun i => ¬ ¬ Inner [n, m] i) ⊆ (rowMajor [n - 2, m - 2]).map (fun j => j.map (· + 1)) := by
    intro i hi
    simp only [List.mem_filter, not_not, decide_eq_true_eq] at hi
    obtain ⟨j, hj, rfl⟩ := inner_shift.mp hi.2
    exact List.mem_map.mpr ⟨j, mem_rowMajor.mpr hj, rfl⟩
  have := (List.Nodup.subperm h1 h2).length_le
  rw [List.length_map, length_rowMajor] at this
  simpa [size] using this

/-- C109. examples/laplace2d.cc:81. `cghs` solves the difference equations up to the tolerance, in at most as many iterations as there are unknowns. -/
theorem C109_laplace [IsStrictOrderedRing F] (dyn : Bool) (z : List Int) (hz : ∀ i ∈ z, i = 0) (n m : Nat) (hn : 2 ≤ n) (hm : 2 ≤ m) (b x work : View) (μ : Mem F) (vb vx : List Int → F)
    (h : System μ [n, m] b x work vb vx) (hb : ∀ i, Valid [n, m] i → ¬ Inner [n, m] i → vb i = 0) (eps : F) (limit : Nat) (hlim : (n - 2) * (m - 2) ≤ limit) :
    ∃ k μ' vx', cghs dyn z (limit + 1) (stiffMult dyn z) b x work eps μ = (.ok k, μ') ∧ k ≤ (n - 2) * (m - 2) ∧
      SameOutside (fun a => InView x [n, m] a ∨ InView work [3, n, m] a) μ μ' ∧ HasValues μ' [n, m] x vx' ∧
      dotOn [n, m] (fun i => vb i - stiffOf [n, m] vx' i) (fun i => vb i - stiffOf [n, m] vx' i) ≤ eps * eps * dotOn [n, m] vb vb := by
  have hc := inside_count n m
  obtain ⟨k, μ', e1, e2, e3, vx', e4, e5⟩ := C109_ends dyn z hz (fun _ => True) (fun _ => False) (stiffMult dyn z) [n, m] (fun i => ¬ Inner [n, m] i) (stiffOf [n, m]) (C109_stiff dyn z hz n m hn hm) (stiff_linear n m)
    (C109_definite n m hn hm) b x work μ vb vx h hb trivial (fun _ _ h => h) (fun _ _ h => h) (fun _ _ h => h) eps limit (le_trans hc hlim)
  exact ⟨k, μ', vx', e1, le_trans e2 hc, fun a ha => e3 a fun h => ha (by simpa using h), e4, e5⟩

end

/-! A grid of 3 rows and 4 columns, with two unknowns. -/

/-- `b` is 1 inside, and the rest is zero. -/
def exGridMem : Mem Rat := fun a => if 0 ≤ a ∧ a < 60 then some (if a = 5 ∨ a = 6 then 1 else 0) else none

def exGridB : View := ⟨[⟨3, 4⟩, ⟨4, 1⟩], 0⟩
def exGridX : View := ⟨[⟨3, 4⟩, ⟨4, 1⟩], 12⟩
def exGridW : View := ⟨[⟨3, 12⟩, ⟨3, 4⟩, ⟨4, 1⟩], 24⟩

theorem exSystem : System exGridMem [3, 4] exGridB exGridX exGridW (fun i => if Inner [3, 4] i then 1 else 0) (fun _ => 0) where
  shapeB := .cons rfl (.cons rfl .nil)
  shapeX := .cons rfl (.cons rfl .nil)
  shapeW := .cons rfl (.cons rfl (.cons rfl .nil))
  distinctX := by
    intro i j hi hj e
    obtain ⟨a, b, rfl, h⟩ := valid_two.mp hi
    obtain ⟨c, d, rfl, k⟩ := valid_two.mp hj
    simp [address, exGridX, dot] at e
    have : a = c := by omega
    have : b = d := by omega
    simp [*]
  distinctW := by
    intro i j hi hj e
    obtain ⟨a, b, c, rfl, h⟩ := valid_three hi
    obtain ⟨a', b', c', rfl, k⟩ := valid_three hj
    simp [address, exGridW, dot] at e
    have : a = a' := by omega
    have : b = b' := by omega
    have : c = c' := by omega
    simp [*]
  bx := by
    intro i j hi hj e
    obtain ⟨a, b, rfl, h⟩ := valid_two.mp hi
    obtain ⟨c, d, rfl, k⟩ := valid_two.mp hj
    simp [address, exGridB, exGridX, dot] at e
    omega
  bw := by
    intro i k j hi hj e
    obtain ⟨a, b, rfl, h⟩ := valid_two.mp hi
    obtain ⟨a', b', c', q, k⟩ := valid_three hj
    rw [q] at e
    simp [address, exGridB, exGridW, dot] at e
    omega
  xw := by
    intro i k j hi hj e
    obtain ⟨a, b, rfl, h⟩ := valid_two.mp hi
    obtain ⟨a', b', c', q, k⟩ := valid_three hj
    rw [q] at e
    simp [address, exGridX, exGridW, dot] at e
    omega
  valueB := by
    intro i hi
    obtain ⟨a, b, rfl, h⟩ := valid_two.mp hi
    have e : address exGridB [a, b] = 4 * a + b := by simp [address, exGridB, dot]; omega
    have q : (4 * a + b = 5 ∨ 4 * a + b = 6) ↔ Inner [3, 4] [a, b] := by
      rw [inner_two]
      constructor
      · intro h; exact ⟨a, b, rfl, by omega, by omega, by omega, by omega⟩
      · rintro ⟨c, d, e, h⟩
        simp at e
        omega
    rw [e, exGridMem, if_pos (by omega)]
    simp only [q]
  valueX := by
    intro i hi
    obtain ⟨a, b, rfl, h⟩ := valid_two.mp hi
    have e : address exGridX [a, b] = 12 + 4 * a + b := by simp [address, exGridX, dot]; omega
    rw [e, exGridMem, if_pos (by omega), if_neg (by omega)]
  hereW := by
    intro i hi
    obtain ⟨a, b, c, rfl, h⟩ := valid_three hi
    have e : address exGridW [a, b, c] = 24 + 12 * a + 4 * b + c := by simp [address, exGridW, dot]; omega
    rw [e, exGridMem, if_pos (by omega)]
    rfl

example : ∃ k μ' vx', cghs true [] 3 (stiffMult true []) exGridB exGridX exGridW 0 exGridMem = (.ok k, μ') ∧ k ≤ 2 ∧ HasValues μ' [3, 4] exGridX vx' ∧ ∀ i, Valid [3, 4] i → stiffOf [3, 4] vx' i = if Inner [3, 4] i then 1 else 0 := by
  obtain ⟨k, μ', vx', h1, h2, _, h3, h4⟩ := C109_laplace true [] (by simp) 3 4 (by omega) (by omega) exGridB exGridX exGridW exGridMem _ _ exSystem (fun i _ h => if_neg h) 0 2 (by omega)
  refine ⟨k, μ', vx', h1, h2, h3, fun i hi => ?_⟩
  rw [zero_mul, zero_mul] at h4
  exact (sub_eq_zero.mp ((dotOn_self [3, 4] _).mp (le_antisymm h4 (dotOn_nonneg _ _)) i hi)).symm

/-- It takes one iteration, and then the unknowns are 1/3. -/
example : (match cghs true [] 3 (stiffMult true []) exGridB exGridX exGridW 0 exGridMem with
    | (.ok k, μ) => k == 1 && μ 17 == some (1 / 3) && μ 18 == some (1 / 3) && μ 16 == some 0
    | _ => false) = true := by decide +kernel

end Ra.Props
