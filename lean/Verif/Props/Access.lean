import Verif.Model.Access
import Verif.Props.Array
import Verif.Props.Chain
import Verif.Props.Fill
/-!
# C76: iteration over views and containers, `back`, `as` and borrowed arrays
-/

namespace Ra.Props
open Spec

section
variable {m : Type → Type} [Monad m] [LawfulMonad m] [MonadFault m] {β : Type}

omit [LawfulMonad m] [MonadFault m] in
theorem ptrFor_eq (f : Int → m β) (p : Int) (n : Nat) : ptrFor f p n = forAll f ((List.range n).map fun (i : Nat) => p + (i : Int)) := by
  induction n generalizing p with
  | zero => rfl
  | succ n ih =>
    rw [List.range_succ_eq_map]
    simp only [ptrFor, ih, List.map_cons, List.map_map, forAll, Nat.cast_zero, add_zero]
    congr 1
    funext _
    congr 1
    refine List.map_congr_left fun i _ => ?_
    simp only [Function.comp_apply]
    push_cast
    omega

omit [LawfulMonad m] [MonadFault m] in
theorem forAll_map {ι κ : Type} (g : κ → ι) (f : ι → m β) (l : List κ) : forAll f (l.map g) = forAll (fun j => f (g j)) l := by
  induction l with
  | nil => rfl
  | cons a l ih => simp only [List.map_cons, forAll, ih]

/-- C76. A range-for loop over a view visits its elements once each in row-major order, whatever is known of its dims by the compiler. -/
theorem C76_view (ct step1 : Bool) (v : View) (s : List Nat) (hv : Shaped v (s.map some)) (f : Int → m β) :
    v.rangeFor ct step1 f = forAll (fun j => f (address v j)) (rowMajor s) := by
  have hsz : dimvSize v.dims = size s := dimvSize_eq hv
  have hptr : (∀ j, Valid s j → dot (v.dims.map Dim.step) j = position s j) → ptrFor f v.cp (size s) = forAll (fun j => f (address v j)) (rowMajor s) := by
    intro h
    rw [ptrFor_eq, ← forAll_map (address v) f]
    congr 1
    rw [show (List.range (size s)).map (fun (i : Nat) => v.cp + (i : Int)) = ((List.range (size s)).map (Nat.cast : Nat → Int)).map (fun i => v.cp + i) by simp [List.map_map, Function.comp_def],
      ← map_position, List.map_map]
    refine List.map_congr_left fun j hj => ?_
    simp only [Function.comp_apply, address]
    rw [h j (mem_rowMajor.mp hj)]
  unfold View.rangeFor
  split
  · next hb =>
    rw [hsz, if_pos (by omega), Int.toNat_natCast]
    simp only [View.beginIsPtr, Bool.or_eq_true, Bool.and_eq_true] at hb
    rcases hb with ⟨_, hb⟩ | ⟨_, hb⟩
    · exact hptr ((C23_unit v.dims s hv).mp hb)
    · split at hb
      · next d hd =>
        refine hptr ((C23_unit v.dims s hv).mp ?_)
        rw [hd]
        simp only [decide_eq_true_eq] at hb
        simp [cOrder, cOrderLoop, ← hb]
      · cases hb
  · have := C10_stl_visits f (.cell v.dims v.cp pure) s hv
    rw [this]
    simp only [elem, pure_bind]
    rfl

/-- C76. A range-for loop over a container does the same. -/
theorem C76_container {V : Type} (a : Arr) (μ : Mem V) (s : List Nat) (h : Container a μ s) (f : Int → m β) :
    a.rangeFor f = forAll (fun j => f (address a.view j)) (rowMajor s) := by
  obtain ⟨_, h2, h3⟩ := C30_elements a μ s h
  unfold Arr.rangeFor
  rw [h2, if_pos (by omega), Int.toNat_natCast, ptrFor_eq, ← h3, forAll_map]

/-- C76. `back()` is the last item, when there is one. -/
theorem C76_back (v : View) (n : Nat) (s : List Nat) (hv : Shaped v ((n :: s).map some)) :
    if n = 0 then v.back = .error .check
    else ∃ b, v.back = .ok b ∧ Shaped b (s.map some) ∧ ∀ j, Valid s j → address b j = address v (((n : Int) - 1) :: j) := by
  obtain ⟨dims, cp⟩ := v
  cases dims with
  | nil => cases hv
  | cons d ds =>
    have hd : d.len = n := by
      cases hv with
      | cons h _ => exact h
    simp only [View.back, hd]
    split
    · next h0 =>
      subst h0
      exact C11_scalar_reject _ (0 :: s) hv [-1] (by simp) ⟨0, by simp, by simp⟩
    · next h0 =>
      obtain ⟨b, h1, h2, h3⟩ := C11_scalar _ (n :: s) hv [(n : Int) - 1] (by simp) (by
        intro k hk
        simp only [List.length_singleton] at hk
        have : k = 0 := by omega
        subst this
        simp
        omega)
      exact ⟨b, h1, h2, fun j hj => h3 j (inRange_of_valid hj)⟩

/-- C76. `as<s, o>()` is the `s` items from item `o`, if they are there. -/
theorem C76_as (v : View) (n : Nat) (s : List Nat) (hv : Shaped v ((n :: s).map some)) (k : Nat) (o : Int) :
    ((∃ b, v.as k o = .ok b) ↔ ∀ i : Nat, i < k → 0 ≤ o + i ∧ o + i < n) ∧
    ∀ b, v.as k o = .ok b → Shaped b ((k :: s).map some) ∧ ∀ i j, Valid (k :: s) (i :: j) → address b (i :: j) = address v ((o + i) :: j) := by
  have e : v.as k o = v.from [.dots (some 0), .iota [(.const k, .const 1)] (.const o)] := by
    have h0 : fromb v.cp 0 v.dims [.dots (some 0), .iota [(.const k, .const 1)] (.const o)] = fromb v.cp 0 v.dims [.iota [(.const k, .const 1)] (.const o)] := by
      rw [fromb]
      simp only [Nat.not_lt_zero, if_false, List.drop_zero, List.take_zero, List.nil_append, Nat.add_zero]
      generalize fromb v.cp 0 v.dims [.iota [(.const k, .const 1)] (.const o)] = x
      cases x <;> rfl
    simp only [View.as, View.from, h0]
  rw [e]
  refine ⟨?_, fun b hb => ?_⟩
  · have := C12_range v (n :: s) hv 0 (by simp) k o 1
    simpa only [one_mul, List.getElem_cons_zero] using this
  · obtain ⟨h1, h2⟩ := C12_elements v (n :: s) hv 0 (by simp) k o 1 b hb
    refine ⟨by simpa using h1, fun i j hj => ?_⟩
    simpa using (h2 (i :: j) (by simpa using hj)).1

/-- C76. A borrowed array has the shape and the elements of the view. -/
theorem C76_borrow (rk : Option Nat) (v : View) (s : List Nat) (hv : Shaped v (s.map some)) (a : Arr) (h : sharedBorrowing rk v = .ok a) : a.view = v ∧ a.rk = rk ∧ a.n = size s := by
  unfold sharedBorrowing at h
  split at h
  · cases h
  · simp only [Except.ok.injEq] at h
    subst h
    exact ⟨rfl, rfl, by simp [dimvSize_eq hv]⟩

/-- C76 (part). If the elements of the view are in row-major order without gaps, then a range-for loop over the borrowed array visits them in that order. What's missing, because it isn't true,
is the same for any other view. -/
theorem C76_borrow_partial (rk : Option Nat) (v : View) (s : List Nat) (hv : Shaped v (s.map some)) (hc : ∀ j, Valid s j → address v j = v.cp + position s j) (a : Arr)
    (h : sharedBorrowing rk v = .ok a) (f : Int → m β) : a.rangeFor f = forAll (fun j => f (address v j)) (rowMajor s) := by
  have h1 : a.dims = v.dims ∧ a.base = v.cp := by
    have := (C76_borrow rk v s hv a h).1
    exact ⟨congrArg View.dims this, congrArg View.cp this⟩
  have hsz : a.size = size s := by
    have := dimvSize_eq hv
    simpa only [Arr.size, h1.1] using this
  unfold Arr.rangeFor
  rw [hsz, if_pos (by omega), Int.toNat_natCast, h1.2, ← C76_view true false v s hv f]
  unfold View.rangeFor
  rw [if_pos, dimvSize_eq hv, if_pos (by omega), Int.toNat_natCast]
  have : cOrder v.dims true = true := (C23_unit v.dims s hv).mpr fun j hj => by
    have := hc j hj
    simp only [address] at this
    omega
  simp [View.beginIsPtr, this]

/-- C76. With static rank 1 other steps are rejected. -/
theorem C76_borrow_rank1 (v : View) (n : Nat) (hv : Shaped v [some n]) : (∃ a, sharedBorrowing (some 1) v = .ok a) ↔ ∃ d, v.dims = [d] ∧ d.step = 1 := by
  obtain ⟨dims, cp⟩ := v
  cases hv with
  | @cons d _ ds _ _ ht =>
    cases ht
    by_cases h : d.step = 1 <;> simp [sharedBorrowing, h]

end

/-- C76 is false of the code (B31): a borrowed array for two rows of a matrix with 4 columns that has the first 2 columns only visits elements that the view doesn't have. -/
theorem C76_borrow_negation : ∃ a, sharedBorrowing (some 2) ⟨[⟨2, 4⟩, ⟨2, 1⟩], 0⟩ = .ok a ∧ (∀ j, Valid [2, 2] j → address a.view j ≠ 2) ∧
    ∃ f : Int → Except Fault Unit, (∀ p, p ≠ 2 → f p = .ok ()) ∧ a.rangeFor f = .error .ub := by
  refine ⟨_, rfl, ?_, fun p => if p = 2 then .error .ub else .ok (), fun p hp => by simp [hp], rfl⟩
  intro j hj
  match j, hj with
  | [i, k], ⟨h1, h2, h3, h4, _⟩ =>
    simp [address, dot, Arr.view]
    omega

/-- C76 is false of the code (B32): `back()` of an array of rank 0, when the rank is only known at run time, isn't checked. -/
theorem C76_back_negation (cp : Int) : View.back ⟨[], cp⟩ = .error .ub := rfl

/-- A reversed matrix (iterated by index), a matrix in row-major order (by pointers), and its last row. -/
example : (View.rangeFor true false ⟨[⟨2, -3⟩, ⟨3, 1⟩], 3⟩ (fun p => if p = 0 then (.error .check : Except Fault Unit) else if p = 5 then .error .abort else .ok ())) = .error .abort ∧
    View.beginIsPtr true false ⟨[⟨2, -3⟩, ⟨3, 1⟩], 3⟩ = false ∧ View.beginIsPtr true false ⟨[⟨2, 3⟩, ⟨3, 1⟩], 0⟩ = true ∧
    View.back ⟨[⟨2, 3⟩, ⟨3, 1⟩], 0⟩ = .ok ⟨[⟨3, 1⟩], 3⟩ ∧ View.back ⟨[⟨0, 3⟩, ⟨3, 1⟩], 0⟩ = .error .check ∧ View.as 2 1 ⟨[⟨4, 1⟩], 0⟩ = .ok ⟨[⟨2, 1⟩], 1⟩ := by
  refine ⟨rfl, rfl, rfl, rfl, rfl, rfl⟩

end Ra.Props
