import Verif.Model.Cat
import Verif.Props.Fill
import Verif.Props.Slice
/-!
# Concatenation (C83)
-/

namespace Ra.Props
open Spec

section
variable {V : Type}

theorem shape_size {m : Type → Type} {α : Type} {e : Iter m α} {s : List Nat} (h : HasShape e (s.map some)) : e.size = (size s : Int) := by
  have : ∀ (s : List Nat) (c : Int), sizeLoop (s.map Nat.cast) c = c * size s := by
    intro s
    induction s with
    | nil => intro c; simp [sizeLoop, size]
    | cons n s ih =>
      intro c
      simp only [List.map_cons, sizeLoop, size, List.prod_cons]
      rw [if_neg (by omega), ih]
      simp [size]
      ring
  rw [Iter.size, shape_cast h, this, one_mul]

/-- A range of a row-major view of rank 1 is assigned to. -/
theorem assign_range (dyn : Bool) (z : List Int) (hz : ∀ i ∈ z, i = 0) (v : View) (N : Nat) (hv : Shaped v [some N]) (b : Int) (ha : ∀ i : Int, address v [i] = b + i)
    (n o : Nat) (hno : o + n ≤ N) (e : Iter (Act V) (Lv V)) (s : List Nat) (hs : s = [n] ∨ s = [] ∧ n = 1) (f : List Int → V) (μ : Mem V)
    (he : Values (fun p => b ≤ p ∧ p < b + N) μ e s f) (μ1 : Mem V) (h1 : SameOutside (fun p => b ≤ p ∧ p < b + N) μ μ1)
    (hm : ∀ i : Nat, i < N → (μ1 (b + i)).isSome) :
    ∃ v' μ', v.from [.iota [(.const (n : Int), .const 1)] (.const (o : Int))] = .ok v' ∧ assign dyn z v'.refs e μ1 = (.ok (), μ') ∧
      (∀ i : Nat, i < n → μ' (b + o + i) = some (f ([(i : Int)].take s.length))) ∧ SameOutside (fun p => b + o ≤ p ∧ p < b + o + n) μ1 μ' := by
  obtain ⟨d, hd⟩ : ∃ d, v.dims = [d] := by
    have := hv.length_eq
    match h : v.dims, this with
    | [d], _ => exact ⟨d, rfl⟩
  have hdl : d.len = N := by
    have := hv
    rw [Shaped, hd] at this
    simpa [DimLen] using this
  obtain ⟨v', hf, hsh, hadr⟩ := C13_slice v [some N] hv [.range n o 1] (by simp [axes]) (by
    rw [hd]
    simp only [Accepts, and_true]
    intro k hk
    rw [hdl]
    omega)
  have hsh' : Shaped v' (([n] : List Nat).map some) := by simpa [sliceShape] using hsh
  have hadr' : ∀ i : Int, 0 ≤ i → i < n → address v' [i] = b + o + i := by
    intro i h0 hi
    have := (hadr [i] (by
      refine ⟨by simp [sliceShape], fun k m hk => ?_⟩
      match k, hk with
      | 0, hk => simp [sliceShape] at hk; subst hk; simpa using ⟨h0, hi⟩
      | k+1, hk => simp [sliceShape] at hk)).1
    rw [this]
    simp only [sliceIndex, List.headD_cons, List.drop_succ_cons, List.drop_zero]
    rw [ha]
    ring
  have hmerge : Merge [([n] : List Nat).map some, s.map some] (([n] : List Nat).map some) := by
    rcases hs with rfl | ⟨rfl, rfl⟩
    · exact merge_same _
    · exact merge_nil _
  have hval : ∀ j, Valid [n] j → ∃ i : Nat, i < n ∧ j = [(i : Int)] := by
    intro j hj
    match j, hj with
    | [i], ⟨h0, h1, _⟩ => exact ⟨i.toNat, by omega, by simp; omega⟩
  obtain ⟨μ', g1, g2, g3⟩ := C27_view dyn z hz v' [n] hsh' (by
    intro j k hj hk h
    obtain ⟨i, hi, rfl⟩ := hval j hj
    obtain ⟨l, hl, rfl⟩ := hval k hk
    rw [hadr' _ (by omega) (by omega), hadr' _ (by omega) (by omega)] at h
    simp; omega) e (s.map some) he.1 hmerge μ1 (by
    intro j hj
    obtain ⟨i, hi, rfl⟩ := hval j hj
    rw [hadr' _ (by omega) (by omega)]
    have := hm (o + i) (by omega)
    rwa [Nat.cast_add, ← add_assoc] at this) (fun j => f (j.take s.length)) (by
    intro j hj μ2 h2
    have hl := elem_take e _ he.1 j
    rw [List.length_map] at hl
    rw [← hl]
    refine known_reads he (valid_of_merge hmerge hj) fun p hp => ?_
    rw [h2 p, h1 p hp]
    rintro ⟨⟨k, hk, rfl⟩, _⟩
    obtain ⟨i, hi, rfl⟩ := hval k hk
    rw [hadr' _ (by omega) (by omega)] at hp
    omega)
  refine ⟨v', μ', by simpa [write] using hf, g1, ?_, ?_⟩
  · intro i hi
    have := g2 [(i : Int)] ⟨by omega, by omega, trivial⟩
    rwa [hadr' _ (by omega) (by omega)] at this
  · intro p hp
    refine g3 p ?_
    rintro ⟨k, hk, rfl⟩
    obtain ⟨i, hi, rfl⟩ := hval k hk
    rw [hadr' _ (by omega) (by omega)] at hp
    omega

/-- C83. `cat(a1, a2)`, where each argument is a vector or a scalar, is a vector that has the elements of `a1` and then those of `a2`. No other memory changes. -/
theorem C83_cat (b : Int) (dyn : Bool) (z : List Int) (hz : ∀ i ∈ z, i = 0) (a1 a2 : Iter (Act V) (Lv V)) (n1 n2 : Nat) (s1 s2 : List Nat)
    (hs1 : s1 = [n1] ∨ s1 = [] ∧ n1 = 1) (hs2 : s2 = [n2] ∨ s2 = [] ∧ n2 = 1) (f1 f2 : List Int → V) (μ : Mem V)
    (h1 : Values (fun p => b ≤ p ∧ p < b + (n1 + n2 : Nat)) μ a1 s1 f1) (h2 : Values (fun p => b ≤ p ∧ p < b + (n1 + n2 : Nat)) μ a2 s2 f2)
    (hm : ∀ i : Nat, i < n1 + n2 → (μ (b + i)).isSome) :
    ∃ v μ', cat b dyn z a1 a2 μ = (.ok v, μ') ∧ Shaped v [some (n1 + n2)] ∧
      (∀ i : Nat, i < n1 → μ' (address v [(i : Int)]) = some (f1 ([(i : Int)].take s1.length))) ∧
      (∀ i : Nat, i < n2 → μ' (address v [((n1 + i : Nat) : Int)]) = some (f2 ([(i : Int)].take s2.length))) ∧
      (∀ i : Nat, i < n1 + n2 → address v [(i : Int)] = b + i) ∧ SameOutside (fun p => b ≤ p ∧ p < b + (n1 + n2 : Nat)) μ μ' := by
  have e1 : a1.size = (n1 : Int) := by
    rw [shape_size h1.1]
    rcases hs1 with rfl | ⟨rfl, rfl⟩ <;> simp [size]
  have e2 : a2.size = (n2 : Int) := by
    rw [shape_size h2.1]
    rcases hs2 with rfl | ⟨rfl, rfl⟩ <;> simp [size]
  obtain ⟨dv, g1, g2, g3⟩ := filldimv_ok [n1 + n2]
  have hof : View.ofShape [a1.size + a2.size] b = .ok ⟨dv, b⟩ := by
    rw [e1, e2, View.ofShape]
    have : [(n1 : Int) + n2] = [n1 + n2].map Nat.cast := by simp
    rw [this, g1]; rfl
  have hstep : dv = [⟨(n1 + n2 : Nat), 1⟩] := by
    have h : filldimv ([n1 + n2].map Nat.cast) = .ok ([⟨(n1 + n2 : Nat), 1⟩], 1 * ((n1 + n2 : Nat) : Int)) := by
      have h0 : ((n1 + n2 : Nat) : Int) ≥ 0 := by omega
      simp only [List.map_cons, List.map_nil, filldimv, bind, Except.bind, if_pos h0]
      rfl
    rw [h] at g1
    injection g1 with g1
    exact (congrArg Prod.fst g1).symm
  have ha : ∀ i : Int, address (⟨dv, b⟩ : View) [i] = b + i := by
    intro i; subst hstep; simp [address, dot]
  obtain ⟨v1, μ1, k1, k2, k3, k4⟩ := assign_range dyn z hz ⟨dv, b⟩ (n1 + n2) g2 b ha n1 0 (by omega) a1 s1 hs1 f1 μ h1 μ (fun _ _ => rfl) hm
  have hm1 : ∀ i : Nat, i < n1 + n2 → (μ1 (b + i)).isSome := by
    intro i hi
    by_cases hlt : i < n1
    · have := k3 i hlt
      rw [Nat.cast_zero, add_zero] at this
      rw [this]; rfl
    · rw [k4 _ (by push_cast; omega)]; exact hm i hi
  have hso : SameOutside (fun p => b ≤ p ∧ p < b + (n1 + n2 : Nat)) μ μ1 := fun p hp => k4 p (by push_cast at hp ⊢; omega)
  obtain ⟨v2, μ2, l1, l2, l3, l4⟩ := assign_range dyn z hz ⟨dv, b⟩ (n1 + n2) g2 b ha n2 n1 (by omega) a2 s2 hs2 f2 μ h2 μ1 hso hm1
  refine ⟨⟨dv, b⟩, μ2, ?_, g2, ?_, ?_, fun i _ => ha i, ?_⟩
  · unfold cat
    rw [hof, e1, e2]
    have hl : ∀ (v : View) (μ : Mem V), (Act.lift (.ok v) : Act V View) μ = (.ok v, μ) := fun _ _ => rfl
    rw [act_bind_ok (hl _ _), show ((0 : Int)) = ((0 : Nat) : Int) from rfl, k1, act_bind_ok (hl _ _), act_bind_ok k2, l1, act_bind_ok (hl _ _), act_bind_ok l2]
    rfl
  · intro i hi
    rw [ha, l4 _ (by omega)]
    have := k3 i hi
    rwa [Nat.cast_zero, add_zero] at this
  · intro i hi
    rw [ha, Nat.cast_add, ← add_assoc]
    exact l3 i hi
  · intro p hp
    rw [l4 p (by push_cast at hp; omega), hso p hp]

/-- `cat({10, 11}, 5)`, with the vector at 0 and the result at 4. -/
example : (cat 4 true [] (View.refs ⟨[⟨2, 1⟩], 0⟩) (.scalar (pure (.val 5))) (fun p => if 0 ≤ p ∧ p < 8 then some (10 + p) else none)).1 = .ok ⟨[⟨3, 1⟩], 4⟩ ∧
    (List.range 9).map (fun i => (cat 4 true [] (View.refs ⟨[⟨2, 1⟩], 0⟩) (.scalar (pure (.val 5))) (fun p => if 0 ≤ p ∧ p < 8 then some (10 + p) else none)).2 (i : Int)) =
      [some 10, some 11, some 12, some 13, some 10, some 11, some 5, some 17, none] := by
  constructor <;> decide +kernel

example : Values (fun p => 4 ≤ p ∧ p < 4 + (2 + 1 : Nat)) (fun p => if 0 ≤ p ∧ p < 8 then some (10 + p) else none) (View.refs ⟨[⟨2, 1⟩], 0⟩) [2] (fun j => 10 + j.headD 0) := by
  refine ⟨refs_shape (by simp [Shaped, DimLen]), ?_⟩
  rintro (_ | ⟨i, _ | _⟩) hj <;> simp [Valid] at hj
  refine ⟨.ref i, fun μ' hs => ⟨?_, ?_⟩⟩
  · simp [elem, View.refs, dot]; rfl
  · simp only [Lv.get, Act.read]
    rw [hs i (by simp; omega)]
    have : 0 ≤ i ∧ i < 8 := by omega
    simp [this]

end
end Ra.Props
