import Verif.Model.FromAny
import Verif.Props.Frame
/-!
# C69: array subscripts on views of run time rank
-/

namespace Ra.Props
open Spec

section
variable {m : Type → Type} {α : Type}

theorem made_ge (is : List (ArrSub m α)) : (arrs is).length ≤ made (is.map ArrSub.kept) := by
  induction is with
  | nil => simp [arrs]
  | cons i is ih =>
    cases i with
    | array I s0 => simp [arrs, made, ArrSub.kept]; omega
    | sub i => cases i <;> simp [arrs, made, ArrSub.kept] <;> omega

theorem dsOf_range (is : List (ArrSub m α)) (h : made (is.map ArrSub.kept) = (arrs is).length) (bk : Nat) :
    dsOf bk is = List.range' bk (arrs is).length := by
  induction is generalizing bk with
  | nil => simp [arrs, dsOf]
  | cons i is ih =>
    have hg := made_ge is
    cases i with
    | array I s0 =>
      simp [arrs, made, ArrSub.kept] at h
      simp [dsOf, arrs, List.range'_succ, ih (by omega)]
    | sub i =>
      cases i with
      | «at» x =>
        simp [arrs, made, ArrSub.kept] at h
        simp [dsOf, arrs, ih h]
      | range n o s =>
        simp [arrs, made, ArrSub.kept] at h
        omega
      | keep k =>
        simp [arrs, made, ArrSub.kept] at h
        obtain rfl : k = 0 := by omega
        simp [dsOf, arrs, ih (by omega)]
      | new k =>
        simp [arrs, made, ArrSub.kept] at h
        obtain rfl : k = 0 := by omega
        simp [dsOf, arrs, ih (by omega)]

theorem sum_fsrc (is : List (ArrSub m α)) : ((is.map msub).map fsrc).sum = axes (is.map ArrSub.kept) := by
  induction is with
  | nil => simp [axes]
  | cons i is ih =>
    simp only [List.map_cons, List.sum_cons, ih]
    cases i with
    | array I s0 => simp [msub, fsrc, axes, ArrSub.kept]
    | sub i => cases i <;> simp [msub, write, fsrc, axes, ArrSub.kept]

theorem sum_fdst (is : List (ArrSub m α)) : ((is.map msub).map fdst).sum = made (is.map ArrSub.kept) := by
  induction is with
  | nil => simp [made]
  | cons i is ih =>
    simp only [List.map_cons, List.sum_cons, ih]
    cases i with
    | array I s0 => simp [msub, fdst, made, ArrSub.kept]
    | sub i => cases i <;> simp [msub, write, fdst, made, ArrSub.kept]

/-- All the subscripts are arrays. -/
theorem all_arrays (is : List (ArrSub m α)) (h : (is.map msub).all Sub.unbeaten = true) :
    axes (is.map ArrSub.kept) = is.length ∧ made (is.map ArrSub.kept) = (arrs is).length ∧ (arrs is).length = is.length ∧
    ∀ cp bk dims, is.length ≤ dims.length → fromb cp bk dims (is.map msub) = .ok (cp, dims, List.range' bk is.length) := by
  induction is with
  | nil => simp [axes, made, arrs, fromb]
  | cons i is ih =>
    cases i with
    | array I s0 =>
      obtain ⟨h1, h2, h3, h4⟩ := ih (by simpa [msub, Sub.unbeaten] using h)
      refine ⟨?_, ?_, ?_, ?_⟩
      · simp [axes, ArrSub.kept, h1]; omega
      · simp [made, ArrSub.kept, h2, arrs]; omega
      · simp [arrs, h3]
      · intro cp bk dims hd
        match dims, hd with
        | d :: dims, hd =>
          simp only [List.map_cons, msub, fromb, h4 cp (bk+1) dims (by simpa using hd), bind, Except.bind, pure, Except.pure]
          simp [List.range'_succ]
    | sub i => cases i <;> simp [msub, write, Sub.unbeaten] at h

theorem fromuArgs_all [Monad m] [IndexLike α] (dims : List Dim) (l : List (Iter m α)) (p : Nat) (h : p + l.length = dims.length) :
    fromuArgs dims p ((List.range' p l.length).zip l) = .ok l := by
  induction l generalizing p with
  | nil =>
    simp only [List.length_nil, Nat.add_zero] at h
    subst h
    simp [fromuArgs, spacer, pure, Except.pure]
  | cons x l ih =>
    simp only [List.length_cons] at h
    simp only [List.length_cons, List.range'_succ, List.zip_cons_cons, fromuArgs, ih (p+1) (by omega), bind, Except.bind]
    simp [spacer, pure, Except.pure]

/-- C69, where there aren't more subscripts than axes. If the subscripts refer to all the axes of the view, and all those that aren't arrays are scalars, then the result is the same as for a view of
static rank (given in `C15_outer` and `C15_reject`). Otherwise the check fails.
What's missing: when there are more subscripts than axes the check may not see it (`C69_negation`). -/
theorem C69_partial [Monad m] [MonadFault m] [IndexLike α] (v : View) (rd : Int → m α) (is : List (ArrSub m α)) (hax : axes (is.map ArrSub.kept) ≤ v.dims.length) :
    v.fromAny rd (is.map msub) (arrs is) =
      if axes (is.map ArrSub.kept) = v.dims.length ∧ made (is.map ArrSub.kept) = (arrs is).length then v.fromArrays rd (is.map msub) (arrs is) else .error .check := by
  unfold View.fromAny
  split
  · next h =>
    obtain ⟨h1, h2, h3, h4⟩ := all_arrays is h
    simp only [h1, h2, and_true, List.length_map, eq_comm]
    split
    · next hl =>
      simp only [View.fromArrays, h4 v.cp 0 v.dims (by omega), bind, Except.bind]
      have hu := fromuArgs_all v.dims (arrs is) 0 (by omega)
      rw [h3] at hu
      rw [hu]
      rfl
    · rfl
  · have hg := made_ge is
    simp only [frombrank, sum_fsrc, sum_fdst]
    by_cases hc : axes (is.map ArrSub.kept) = v.dims.length ∧ made (is.map ArrSub.kept) = (arrs is).length
    · rw [if_pos (by omega), if_pos hc]
      have hf := fromb_arrays is v.cp 0 v.dims
      rw [dsOf_range is hc.2, ← List.range_eq_range'] at hf
      simp only [View.fromArrays, hf]
      cases fromb v.cp 0 v.dims (is.map wkept) <;> rfl
    · rw [if_neg (by omega), if_neg hc]

/-- C69. If all the subscripts are arrays and there are more of them than axes, then the check fails. -/
theorem C69_too_many_arrays [Monad m] [MonadFault m] [IndexLike α] (v : View) (rd : Int → m α) (is : List (ArrSub m α)) (ha : ∀ i ∈ is, ∃ I s, i = .array I s)
    (hl : v.dims.length < is.length) : v.fromAny rd (is.map msub) (arrs is) = .error .check := by
  unfold View.fromAny
  rw [if_pos, if_neg (by simp; omega)]
  simp only [List.all_map, List.all_eq_true]
  intro i hi
  obtain ⟨I, s, rfl⟩ := ha i hi
  rfl

/-- `a(1, I)` for a 2x3 array of run time rank. -/
example : ex23.fromAny (m := Except Fault) (fun a => .ok a) [.scalar (.const 1), .array] [exI]
    = ex23.fromArrays (fun a => .ok a) [.scalar (.const 1), .array] [exI] := by
  have := C69_partial (m := Except Fault) (α := Int) ex23 (fun a => .ok a) [.sub (.at 1), .array exI [some 4]] (by decide)
  rw [if_pos (by decide)] at this
  exact this

/-- C69 as it should be: no undefined behaviour, whatever the rank of the array turns out to be. -/
def NeverUB (v : View) (is : List (ArrSub (Except Fault) Int)) : Prop :=
  v.fromAny (fun a => .ok a) (is.map msub) (arrs is) ≠ .error .ub

/-- C69 is false of the code: with `a(I, iota(2))` for an array of rank 1 the check passes, and the code uses dims that don't exist. -/
theorem C69_negation : ¬ ∀ v (s : List Nat) is, Shaped v (s.map some) → (∃ I s0, .array I s0 ∈ is) → (∀ I s0, .array I s0 ∈ is → HasShape I s0) → NeverUB v is := by
  intro h
  refine h ⟨[⟨3, 1⟩], 0⟩ [3] [.array exI [some 4], .sub (.range 2 0 1)] (.cons rfl .nil) ⟨exI, [some 4], by simp⟩ ?_ rfl
  intro I s h
  simp at h
  obtain ⟨rfl, rfl⟩ := h
  exact .cons rfl .nil

/-- C69. Instead `a(I, iota(2))` fails the check for an array of rank 2, when `a` isn't of static rank. -/
theorem C69_limit : ∃ v, ∃ s : List Nat, Shaped v (s.map some) ∧ s.length = 2 ∧ v.fromAny (m := Except Fault) (fun a => .ok a) [.array, .iota [(.const 2, .const 1)] (.const 0)] [exI] = .error .check ∧
    ∃ e, v.fromArrays (m := Except Fault) (fun a => .ok a) [.array, .iota [(.const 2, .const 1)] (.const 0)] [exI] = .ok (some e) := by
  refine ⟨⟨[⟨3, 3⟩, ⟨3, 1⟩], 0⟩, [3, 3], .cons rfl (.cons rfl .nil), rfl, rfl, ?_⟩
  obtain ⟨e, h1, _⟩ := C15_outer (m := Except Fault) ⟨[⟨3, 3⟩, ⟨3, 1⟩], 0⟩ [3, 3] (.cons rfl (.cons rfl .nil)) (fun a => .ok a)
    [.array exI [some 4], .sub (.range 2 0 1)] (by simp) ⟨exI, [some 4], by simp⟩
    (by intro I s h; simp at h; obtain ⟨rfl, rfl⟩ := h; exact .cons rfl .nil) (by decide) ⟨by intro k hk; constructor <;> simp <;> omega, trivial⟩
  exact ⟨e, h1⟩

end
end Ra.Props
