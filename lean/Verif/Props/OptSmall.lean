import Verif.Model.OptSmall
import Verif.Props.Assign
/-!
# C77: operations on small vectors
-/

namespace Ra.Props
open Spec

section
variable {V : Type}

theorem readVec_run (μ : Mem V) (n : Nat) (p : Int) (x : Nat → V) (h : ∀ i : Nat, i < n → μ (p + i) = some (x i)) : readVec p n μ = (.ok ((List.range n).map x), μ) := by
  induction n generalizing p x with
  | zero => rfl
  | succ n ih =>
    have h0 : μ p = some (x 0) := by simpa using h 0 (by omega)
    rw [readVec, act_bind_ok (a := x 0) (μ' := μ) (by simp [Act.read, h0]), act_bind_ok (ih (p + 1) (fun i => x (i + 1)) fun i hi => by
      rw [← h (i + 1) (by omega)]
      congr 1
      push_cast
      omega)]
    rw [List.range_succ_eq_map]
    simp [act_pure, Function.comp_def]

/-- C77 (part). For two aligned vectors of the same static length in memory, the optimization gives a vector with the values that the elements of the expression have at that time. It doesn't change the memory. -/
theorem C77_values_partial (f : V → V → V) (n : Nat) (p q : Int) (hp : (n : Int) ∣ p) (hq : (n : Int) ∣ q) (μ : Mem V) (x y : Nat → V) (hx : ∀ i : Nat, i < n → μ (p + i) = some (x i))
    (hy : ∀ i : Nat, i < n → μ (q + i) = some (y i)) :
    ∃ zs, optSmall f n p q μ = (.ok zs, μ) ∧ HasShape (smallIter zs) [some n] ∧ HasShape (binaryOp f (View.refs ⟨[⟨n, 1⟩], p⟩) (View.refs ⟨[⟨n, 1⟩], q⟩)) [some n] ∧
      ∀ j, Valid [n] j → ∃ v, Reads μ (elem (binaryOp f (View.refs ⟨[⟨n, 1⟩], p⟩) (View.refs ⟨[⟨n, 1⟩], q⟩)) j) v ∧ ∀ μ', Reads μ' (elem (smallIter zs) j) v := by
  have hsh : ∀ r : Int, HasShape (View.refs ⟨[⟨n, 1⟩], r⟩ : Iter (Act V) (Lv V)) [some n] := fun r => .cons rfl .nil
  have hv : ∀ r : Int, Shaped ⟨[⟨n, 1⟩], r⟩ [some n] := fun r => .cons rfl .nil
  refine ⟨List.zipWith f ((List.range n).map x) ((List.range n).map y), ?_, ?_, binary_shape f (hsh p) (hsh q) (merge_same _), ?_⟩
  · rw [optSmall, if_pos ⟨hp, hq⟩, act_bind_ok (readVec_run μ n p x hx), act_bind_ok (readVec_run μ n q y hy), act_pure]
  · exact .cons (by simp [DimLen]) .nil
  · intro j hj
    match j, hj with
    | [i], ⟨h0, h1, _⟩ =>
      obtain ⟨k, rfl⟩ := Int.eq_ofNat_of_zero_le h0
      have hk : k < n := by simpa using h1
      refine ⟨f (x k) (y k), reads_binary f (reads_refs ?_) (reads_refs ?_), fun μ' => ?_⟩
      · simpa [address, dot] using hx k hk
      · simpa [address, dot] using hy k hk
      · have hz : (List.zipWith f ((List.range n).map x) ((List.range n).map y))[k]? = some (f (x k) (y k)) := by
          simp [List.getElem?_zipWith, hk]
        show (do let r ← (match (List.zipWith f ((List.range n).map x) ((List.range n).map y))[((0 : Int) + dot [1] [(k : Int)]).toNat]? with
          | some x => pure (.val x)
          | none => fault .ub : Act V (Lv V)); r.get) μ' = _
        rw [show ((0 : Int) + dot [1] [(k : Int)]).toNat = k by simp [dot], hz]
        rfl

/-- C77 (part). With the optimization and aligned vectors, an assignment of the result gives the values from before the assignment, even if the destination overlaps the vectors. -/
theorem C77_assign_partial (f : V → V → V) (n : Nat) (p q : Int) (hp : (n : Int) ∣ p) (hq : (n : Int) ∣ q) (μ : Mem V) (x y : Nat → V) (hx : ∀ i : Nat, i < n → μ (p + i) = some (x i))
    (hy : ∀ i : Nat, i < n → μ (q + i) = some (y i)) (dyn : Bool) (z : List Int) (hz : ∀ i ∈ z, i = 0) (v : View) (hv : Shaped v [some n]) (hd : Distinct v [n])
    (hm : ∀ j, Valid [n] j → (μ (address v j)).isSome) :
    ∃ zs μ', optSmall f n p q μ = (.ok zs, μ) ∧ assign dyn z v.refs (smallIter zs) μ = (.ok (), μ') ∧
      (∀ i : Nat, i < n → μ' (address v [(i : Int)]) = some (f (x i) (y i))) ∧ SameOutside (InView v [n]) μ μ' := by
  obtain ⟨zs, h1, h2, h3, h4⟩ := C77_values_partial f n p q hp hq μ x y hx hy
  have hval : ∀ j, Valid [n] j → ∀ μ', Reads μ' (elem (smallIter zs) j) (f (x (j.getD 0 0).toNat) (y (j.getD 0 0).toNat)) := by
    intro j hj μ'
    obtain ⟨w, h5, h6⟩ := h4 j hj
    match j, hj with
    | [i], ⟨h0, h1, _⟩ =>
      obtain ⟨k, rfl⟩ := Int.eq_ofNat_of_zero_le h0
      have hk : k < n := by simpa using h1
      have h7 : Reads μ (elem (binaryOp f (View.refs ⟨[⟨n, 1⟩], p⟩) (View.refs ⟨[⟨n, 1⟩], q⟩)) [(k : Int)]) (f (x k) (y k)) :=
        reads_binary f (reads_refs (by simpa [address, dot] using hx k hk)) (reads_refs (by simpa [address, dot] using hy k hk))
      have : w = f (x k) (y k) := by
        simp only [Reads] at h5 h7
        rw [h5] at h7
        simpa using h7
      subst this
      simpa using h6 μ'
  obtain ⟨μ', g1, g2, g3⟩ := C27_view dyn z hz v [n] hv hd (smallIter zs) [some n] h2 (merge_same _) μ hm _ (fun j hj μ' _ => hval j hj μ')
  refine ⟨zs, μ', h1, g1, fun i hi => ?_, g3⟩
  simpa using g2 [(i : Int)] ⟨by omega, by exact_mod_cast hi, trivial⟩

/-- C77 (part). The assignment does the same without the optimization if each element of the destination is apart from the vectors, or is the element of the vector with the same index. What's
missing, because it isn't true, is the same for any overlap. -/
theorem C77_same_partial (f : V → V → V) (n : Nat) (p q : Int) (hp : (n : Int) ∣ p) (hq : (n : Int) ∣ q) (μ : Mem V) (x y : Nat → V) (hx : ∀ i : Nat, i < n → μ (p + i) = some (x i))
    (hy : ∀ i : Nat, i < n → μ (q + i) = some (y i)) (dyn : Bool) (z : List Int) (hz : ∀ i ∈ z, i = 0) (v : View) (hv : Shaped v [some n]) (hd : Distinct v [n])
    (hm : ∀ j, Valid [n] j → (μ (address v j)).isSome)
    (ho : ∀ i k : Nat, i < n → k < n → address v [(k : Int)] = p + i ∨ address v [(k : Int)] = q + i → i = k) :
    ∃ zs μ', optSmall f n p q μ = (.ok zs, μ) ∧ assign dyn z v.refs (smallIter zs) μ = (.ok (), μ') ∧
      assign dyn z v.refs (binaryOp f (View.refs ⟨[⟨n, 1⟩], p⟩) (View.refs ⟨[⟨n, 1⟩], q⟩)) μ = (.ok (), μ') := by
  obtain ⟨zs, μ', h1, h2, h3, h4⟩ := C77_assign_partial f n p q hp hq μ x y hx hy dyn z hz v hv hd hm
  obtain ⟨_, _, _, hsh, _⟩ := C77_values_partial f n p q hp hq μ x y hx hy
  refine ⟨zs, μ', h1, h2, ?_⟩
  obtain ⟨μ2, g1, g2, g3⟩ := C27_view dyn z hz v [n] hv hd _ [some n] hsh (merge_same _) μ hm (fun j => f (x (j.getD 0 0).toNat) (y (j.getD 0 0).toNat)) (by
    intro j hj μ' hs
    match j, hj with
    | [i], ⟨h0, h1, _⟩ =>
      obtain ⟨k, rfl⟩ := Int.eq_ofNat_of_zero_le h0
      have hk : k < n := by simpa using h1
      have key : ∀ r : Int, (r = p ∨ r = q) → μ' (r + k) = μ (r + k) := by
        intro r hr
        refine hs _ ?_
        rintro ⟨⟨j', hj', he⟩, hne⟩
        match j', hj' with
        | [i'], ⟨h0', h1', _⟩ =>
          obtain ⟨k', rfl⟩ := Int.eq_ofNat_of_zero_le h0'
          have := ho k k' hk (by simpa using h1') (by rcases hr with rfl | rfl; exact .inl he.symm; exact .inr he.symm)
          subst this
          exact hne he
      refine reads_binary f (reads_refs ?_) (reads_refs ?_)
      · simpa [address, dot, key p (.inl rfl)] using hx k hk
      · simpa [address, dot, key q (.inr rfl)] using hy k hk)
  rw [g1]
  congr 2
  funext r
  by_cases hr : InView v [n] r
  · obtain ⟨j, hj, rfl⟩ := hr
    rw [g2 j hj]
    match j, hj with
    | [i], ⟨h0, h1, _⟩ =>
      obtain ⟨k, rfl⟩ := Int.eq_ofNat_of_zero_le h0
      rw [h3 k (by simpa using h1)]
      simp
  · rw [g3 r hr, h4 r hr]

end

/-- Memory with 1, 5, 9 at 0, 1, 2. -/
def egSmall : Mem Int := fun p => if 0 ≤ p ∧ p < 3 then some (4 * p + 1) else none

/-- C77 is false of the code (B33): for `a` with elements 1, 5, 9, after `a[1:3] = a[0:2] + a[0:2]` the last element is 10 with the optimization, and 4 without it, because then the second element
is read after it has changed. -/
theorem C77_negation : ∃ zs, (optSmall (· + ·) 2 0 0 egSmall).1 = .ok zs ∧
    (assign false [] (View.refs ⟨[⟨2, 1⟩], 1⟩) (smallIter zs) egSmall).2 2 = some 10 ∧
    (assign false [] (View.refs ⟨[⟨2, 1⟩], 1⟩) (binaryOp (· + ·) (View.refs ⟨[⟨2, 1⟩], 0⟩) (View.refs ⟨[⟨2, 1⟩], 0⟩)) egSmall).2 2 = some 4 := by
  refine ⟨[2, 10], by decide +kernel, by decide +kernel, by decide +kernel⟩

/-- The hypotheses of `C77_same_partial` hold for `a[0:2] = a[0:2] + a[0:2]`. -/
example : ∃ zs μ', optSmall (· + ·) 2 0 0 egSmall = (.ok zs, egSmall) ∧ assign false [] (View.refs ⟨[⟨2, 1⟩], 0⟩) (smallIter zs) egSmall = (.ok (), μ') ∧
    assign false [] (View.refs ⟨[⟨2, 1⟩], 0⟩) (binaryOp (· + ·) (View.refs ⟨[⟨(2 : Nat), 1⟩], 0⟩) (View.refs ⟨[⟨(2 : Nat), 1⟩], 0⟩)) egSmall = (.ok (), μ') := by
  refine C77_same_partial (· + ·) 2 0 0 (by decide) (by decide) egSmall (fun i => 4 * i + 1) (fun i => 4 * i + 1) ?_ ?_ false [] (by simp) ⟨[⟨2, 1⟩], 0⟩ ?_ ?_ ?_ ?_
  · intro i hi; simp [egSmall]; omega
  · intro i hi; simp [egSmall]; omega
  · simp [Shaped, DimLen, UNB_val]
  · intro i j hi hj h
    match i, j, hi, hj with
    | [a], [b], _, _ => simpa [address, dot] using h
  · intro j hj
    match j, hj with
    | [a], ⟨h0, h1, _⟩ =>
      have : a < 2 := by simpa using h1
      simp [egSmall, address, dot]
      omega
  · intro i k _ _ h
    simp [address, dot] at h
    omega

/-- C77 is false of the code (B33): for `a` with 3 elements, `a[1:3] + a[1:3]` has a value, but with the optimization it's undefined behaviour because the vectors aren't aligned. -/
theorem C77_align_negation : (optSmall (· + ·) 2 1 1 egSmall).1 = .error .ub ∧
    ∀ j, Valid [2] j → ∃ w, Reads egSmall (elem (binaryOp (· + ·) (View.refs ⟨[⟨(2 : Nat), 1⟩], 1⟩) (View.refs ⟨[⟨(2 : Nat), 1⟩], 1⟩)) j) w := by
  refine ⟨by decide +kernel, fun j hj => ?_⟩
  match j, hj with
  | [a], ⟨h0, h1, _⟩ =>
    have h1 : a < 2 := by simpa using h1
    have : egSmall (address ⟨[⟨(2 : Nat), 1⟩], 1⟩ [a]) = some (4 * (1 + a) + 1) := by
      simp [egSmall, address, dot]
      omega
    exact ⟨_, reads_binary _ (reads_refs this) (reads_refs this)⟩

end Ra.Props
