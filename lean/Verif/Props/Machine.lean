import Verif.Model.Machine
import Verif.Props.ViewOps
import Verif.Props.Reshape
/-!
# C67: sizes, steps and indices with 64 bits
-/

namespace Ra.Props
open Spec

theorem mulM_nat (a b : Nat) : mulM (a : Int) (b : Int) = if ((a * b : Nat) : Int) ≤ dimMax then .ok ((a * b : Nat) : Int) else .error .ub := by
  unfold mulM
  push_cast
  have h : 0 ≤ (a : Int) * b := by positivity
  generalize (a : Int) * b = x at h ⊢
  have : fits x = true ↔ x ≤ dimMax := by
    rw [fits_iff]
    simp only [dimMax]
    omega
  by_cases h' : x ≤ dimMax
  · rw [if_pos (this.mpr h'), if_pos h']
  · rw [if_neg (fun e => h' (this.mp e)), if_neg h']

/-- C67. The steps and the size that are computed for a shape are those of unlimited integers if the product of the last `k` lengths can be represented, for each `k`. Else there's
overflow. -/
theorem C67_dims (s : List Nat) :
    ((∀ k, (size (s.drop k) : Int) ≤ dimMax) → filldimvM (s.map Nat.cast) = filldimv (s.map Nat.cast)) ∧
    ((∃ k, dimMax < (size (s.drop k) : Int)) → filldimvM (s.map Nat.cast) = .error .ub) := by
  induction s with
  | nil =>
    refine ⟨fun _ => rfl, ?_⟩
    rintro ⟨k, hk⟩
    simp [size, dimMax] at hk
  | cons n s ih =>
    obtain ⟨dv, h1, _, _⟩ := filldimv_ok s
    constructor
    · intro h
      have h2 := ih.1 fun k => by simpa using h (k+1)
      have h3 := h 0
      simp only [List.drop_zero, size] at h3
      simp only [List.map_cons, filldimvM, filldimv, h2, h1, bind, Except.bind, pure, Except.pure]
      rw [if_pos (by omega), if_pos (by omega), mulM_nat, if_pos (by rw [Nat.mul_comm]; exact h3)]
      simp
    · rintro ⟨k, hk⟩
      cases k with
      | succ k =>
        have h2 := ih.2 ⟨k, by simpa using hk⟩
        simp only [List.map_cons, filldimvM, h2, bind, Except.bind]
      | zero =>
        simp only [List.drop_zero, size] at hk
        by_cases h : ∃ k, dimMax < (size (s.drop k) : Int)
        · have h2 := ih.2 h
          simp only [List.map_cons, filldimvM, h2, bind, Except.bind]
        · have h2 := ih.1 fun k => by
            by_contra hh
            exact h ⟨k, by omega⟩
          simp only [List.map_cons, filldimvM, h2, h1, bind, Except.bind]
          rw [if_pos (by omega), mulM_nat, if_neg (by rw [Nat.mul_comm]; omega)]

theorem dimvSizeLoopM_eq {dv : List Dim} {s : List Nat} (h : dv.map Dim.len = s.map Nat.cast) : ∀ p : Nat, (p : Int) ≤ dimMax →
    ((∀ k, ((p * size (s.take k) : Nat) : Int) ≤ dimMax) → dimvSizeLoopM p dv = .ok ((p * size s : Nat) : Int)) ∧
    ((∃ k, dimMax < ((p * size (s.take k) : Nat) : Int)) → dimvSizeLoopM p dv = .error .ub) := by
  induction s generalizing dv with
  | nil =>
    intro p hp
    match dv, h with
    | [], _ =>
      refine ⟨fun _ => by simp [dimvSizeLoopM, size], ?_⟩
      rintro ⟨k, hk⟩
      simp only [List.take_nil, size, Nat.mul_one] at hk
      omega
  | cons n s ih =>
    intro p hp
    match dv, h with
    | d :: dv, h =>
      simp only [List.map_cons, List.cons.injEq] at h
      simp only [dimvSizeLoopM, h.1]
      rw [if_neg (by omega), mulM_nat]
      by_cases hpn : ((p * n : Nat) : Int) ≤ dimMax
      · rw [if_pos hpn]
        obtain ⟨i1, i2⟩ := ih h.2 (p * n) hpn
        simp only [bind, Except.bind]
        constructor
        · intro hk
          rw [i1]
          · simp [size, Nat.mul_assoc]
          · intro k
            have := hk (k+1)
            simpa [size, Nat.mul_assoc] using this
        · rintro ⟨k, hk⟩
          cases k with
          | zero => simp only [List.take_zero, size, Nat.mul_one] at hk; omega
          | succ k => exact i2 ⟨k, by simpa [size, Nat.mul_assoc] using hk⟩
      · rw [if_neg hpn]
        simp only [bind, Except.bind]
        constructor
        · intro hk
          have := hk 1
          simp only [List.take_succ_cons, List.take_zero, size, Nat.mul_one] at this
          exact absurd this hpn
        · intro _; trivial

/-- C67. `size()` is the product of the lengths if the product of the first `k` lengths can be represented, for each `k`. Else there's overflow. -/
theorem C67_size (v : View) (s : List Nat) (h : Shaped v (s.map some)) :
    ((∀ k, (size (s.take k) : Int) ≤ dimMax) → dimvSizeM v.dims = .ok (size s : Int)) ∧
    ((∃ k, dimMax < (size (s.take k) : Int)) → dimvSizeM v.dims = .error .ub) := by
  have := dimvSizeLoopM_eq (shaped_nat.mp h) 1 (by simp [dimMax])
  simpa [dimvSizeM] using this

theorem size_take_le {s : List Nat} (h : 0 ∉ s) (k : Nat) : size (s.take k) ≤ size s ∧ size (s.drop k) ≤ size s := by
  have hp : ∀ l : List Nat, 0 ∉ l → 0 < size l := by
    intro l
    induction l with
    | nil => intro _; simp [size]
    | cons n l ih =>
      intro hl
      simp only [List.mem_cons, not_or] at hl
      exact Nat.mul_pos (by omega) (ih hl.2)
  have e : size s = size (s.take k) * size (s.drop k) := by rw [← Spec.size_append, List.take_append_drop]
  have h1 := hp (s.take k) fun x => h (List.mem_of_mem_take x)
  have h2 := hp (s.drop k) fun x => h (List.mem_of_mem_drop x)
  rw [e]
  exact ⟨Nat.le_mul_of_pos_right _ h2, Nat.le_mul_of_pos_left _ h1⟩

/-- C67 for arrays that aren't empty. If the number of elements can be represented, then there's no overflow when the array is made (expr.hh:199-219) or on `size()`. What's
missing: arrays that are empty (`C67_negation`). -/
theorem C67_partial (s : List Nat) (h : 0 ∉ s) (hs : (size s : Int) ≤ dimMax) :
    ∃ dv, filldimvM (s.map Nat.cast) = .ok (dv, (size s : Int)) ∧ dimvSizeM dv = .ok (size s : Int) ∧ ∀ j, Valid s j → dot (dv.map Dim.step) j = position s j := by
  obtain ⟨dv, h1, h2, h3⟩ := filldimv_ok s
  refine ⟨dv, ?_, ?_, h3⟩
  · rw [(C67_dims s).1, h1]
    intro k
    have := (size_take_le h k).2
    omega
  · refine (C67_size ⟨dv, 0⟩ s h2).1 fun k => ?_
    have := (size_take_le h k).1
    omega

example : ∃ dv, filldimvM [1048576, 1048576, 4194304] = .ok (dv, 4611686018427387904) ∧ dimvSizeM dv = .ok 4611686018427387904 := by
  obtain ⟨dv, h1, h2, _⟩ := C67_partial [1048576, 1048576, 4194304] (by simp) (by simp [size, dimMax])
  exact ⟨dv, by simpa [size] using h1, by simpa [size] using h2⟩

/-- C67 as it should be: there's no overflow if all the lengths and the number of elements can be represented. -/
def NoOverflow (s : List Nat) : Prop :=
  (∀ n ∈ s, (n : Int) ≤ dimMax) → (size s : Int) ≤ dimMax → ∃ dv, filldimvM (s.map Nat.cast) = .ok (dv, (size s : Int)) ∧ dimvSizeM dv = .ok (size s : Int)

/-- C67 is false of the code for empty arrays. It isn't possible to make an array of shape {0, 2⁴⁰, 2⁴⁰}; and it's possible to make one of shape {2⁴⁰, 2⁴⁰, 0}, but not to get its size. -/
theorem C67_negation : ¬ NoOverflow [0, 1099511627776, 1099511627776] ∧ ¬ NoOverflow [1099511627776, 1099511627776, 0] := by
  constructor
  · intro h
    obtain ⟨dv, h1, _⟩ := h (by simp [dimMax]) (by simp [size, dimMax])
    rw [(C67_dims [0, 1099511627776, 1099511627776]).2 ⟨1, by simp [size, dimMax]⟩] at h1
    simp at h1
  · intro h
    obtain ⟨dv, h1, h2⟩ := h (by simp [dimMax]) (by simp [size, dimMax])
    obtain ⟨dv', e1, e2, _⟩ := filldimv_ok [1099511627776, 1099511627776, 0]
    rw [(C67_dims [1099511627776, 1099511627776, 0]).1 (by
      intro k; rcases k with _ | _ | _ | k <;> simp [size, dimMax]), e1] at h1
    simp only [Except.ok.injEq, Prod.mk.injEq, and_true] at h1
    subst h1
    rw [(C67_size ⟨dv', 0⟩ [1099511627776, 1099511627776, 0] e2).2 ⟨2, by simp [size, dimMax]⟩] at h2
    simp at h2

theorem valid_zeros_pos {s : List Nat} (h : 0 ∉ s) : Valid s (List.replicate s.length 0) := by
  induction s with
  | nil => trivial
  | cons n s ih =>
    simp only [List.mem_cons, not_or] at h
    exact ⟨by omega, by omega, ih h.2⟩

/-- C67. To find an element by its index, valid or not. If all the elements are in an array with no more than the largest number of elements that can be represented, then there's no
overflow, and all the pointers are in the array. -/
theorem C67_index (v : View) (s : List Nat) (hv : Shaped v (s.map some)) (hs : 0 ∉ s) (lo n : Int) (hn : n ≤ dimMax)
    (hb : ∀ j, Valid s j → lo ≤ address v j ∧ address v j < lo + n) (j : List Int) :
    indexerM lo n v.dims v.cp j = indexer v.dims v.cp j := by
  unfold indexerM indexer
  split
  · next hl =>
    obtain ⟨dims, cp⟩ := v
    simp only at hl ⊢
    have hv : List.Forall₂ DimLen dims (s.map some) := hv
    clear hl
    induction s generalizing dims cp j with
    | nil =>
      match dims, hv with
      | [], _ => simp [indexLoopM, indexLoop]
    | cons k s ih =>
      match dims, hv with
      | d :: ds, .cons hd hv =>
        simp only [List.mem_cons, not_or] at hs
        have hd : d.len = k := hd
        cases j with
        | nil => rfl
        | cons i j =>
          simp only [indexLoopM, indexLoop]
          by_cases hi : inside i d.len = true ∨ UNB = d.len
          · rw [if_pos hi, if_pos hi]
            have hu : ¬ UNB = d.len := by rw [hd]; simp only [UNB]; omega
            have hi' : 0 ≤ i ∧ i < k := by
              have := hi.resolve_right hu
              rw [inside_iff, hd] at this
              exact this
            have h0 := hb (0 :: List.replicate s.length 0) ⟨by omega, by omega, valid_zeros_pos hs.2⟩
            have h1 := hb (i :: List.replicate s.length 0) ⟨hi'.1, hi'.2, valid_zeros_pos hs.2⟩
            have e : ∀ x : Int, address ⟨d :: ds, cp⟩ (x :: List.replicate s.length 0) = cp + x * d.step := by
              intro x
              have := dot_zeros s.length (ds.map Dim.step)
              simp only [dot] at this
              rw [List.zipWith_comm_of_comm (fun x y => Int.mul_comm x y)] at this
              simp [address, dot, this]
            rw [e] at h0 h1
            have hf : fits (i * d.step) = true := by
              rw [fits_iff]
              constructor <;> omega
            simp only [mulM, hf, if_true, bind, Except.bind, movePtr]
            rw [if_pos (by constructor <;> omega)]
            refine ih hs.2 j ds (cp + i * d.step) hv ?_ hv
            intro j' hj'
            have := hb (i :: j') ⟨hi'.1, hi'.2, hj'⟩
            have e2 : address ⟨ds, cp + i * d.step⟩ j' = address ⟨d :: ds, cp⟩ (i :: j') := by
              simp [address, dot, add_assoc]
            rw [e2]
            exact this
          · rw [if_neg hi, if_neg hi]
  · rfl

/-- The second column of a 3x2 array, reversed. -/
example : indexerM 10 6 [⟨3, -2⟩] 15 [2] = .ok 11 ∧ indexerM 10 6 [⟨3, -2⟩] 15 [3] = .error .check := by
  have h := C67_index ⟨[⟨3, -2⟩], 15⟩ [3] (.cons rfl .nil) (by simp) 10 6 (by simp [dimMax]) (by
    intro j hj
    match j, hj with
    | [i], ⟨h1, h2, _⟩ => simp [address, dot]; omega)
  exact ⟨(h [2]).trans rfl, (h [3]).trans rfl⟩

end Ra.Props
