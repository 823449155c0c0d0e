import Verif.Lemmas.NoCheck
import Verif.Props.FullProgram
/-!
# C96: the checks can be turned off

With `RA_CHECK=0` there are no checks. Nothing else changes: what a program does with the checks, unless one of them fails, is what it does without.
-/

namespace Ra.Props

open Ra.Spec

section
variable {V : Type}

/-- C96. Programs as in C92. Unless a check fails, the outcome, the arrays and the memory are the same without checks. This is so also when the program ends in another way, for instance
when there isn't memory. -/
theorem C96_program (dyn : Bool) (z : List Int) (cs : List (FCmd V)) (as : List Arr) (μ : Mem V) (h : (fprogram dyn z cs as μ).1 ≠ .error .check) :
    NoCheck.fprogram dyn z cs as μ = fprogram dyn z cs as μ := by
  induction cs generalizing as μ with
  | nil => rfl
  | cons c cs ih =>
    simp only [fprogram, NoCheck.fprogram] at *
    have hs := sim_step dyn z as μ c
    rcases hm : c.step dyn z as μ with ⟨e | u, as', μ'⟩ <;> rw [hm] at h hs
    · rw [hs (fun he => h (by simp only at he; rw [he]))]
    · rw [hs (by simp)]
      exact ih as' μ' h

/-- C96. Operations on views, one or more. -/
theorem C96_views (ops : List ViewOp) (v : View) (h : runOps ops v ≠ .error .check) : NoCheck.runOps ops v = runOps ops v := sim_ex.1 (sim_runOps ops v) h

/-- C96. The views that `at` or iteration over cells give. -/
theorem C96_cells (a : View) (cr : Int) (j : List Int) :
    (a.cell cr ≠ .error .check → NoCheck.cell a cr = a.cell cr) ∧
    (a.cellAt cr j ≠ .error .check → NoCheck.cellAt a cr j = a.cellAt cr j) ∧
    (a.atView j ≠ .error .check → NoCheck.atView a j = a.atView j) :=
  ⟨sim_ex.1 (sim_cell a cr), sim_ex.1 (sim_cellAt a cr j), sim_ex.1 (sim_cellAt a _ j)⟩

/-- C96. The length of an axis that's given by an expression with `len`. -/
theorem C96_shape (s : List Int) (e : LenExpr) (h : shapeAt s e ≠ .error .check) : NoCheck.shapeAt s e = shapeAt s e := sim_ex.1 (sim_shapeAt s e) h

/-- C96. To make a row-major view from its lengths. -/
theorem C96_dims (s : List Int) (p : Int) (h : View.ofShape s p ≠ .error .check) : .ok (NoCheck.ofShape s p) = View.ofShape s p := by
  have hs := sim_filldimv s
  unfold View.ofShape at *
  rcases hm : filldimv s with e | r <;> rw [hm] at h hs
  · rcases hs with rfl | hs
    · exact absurd rfl h
    · cases hs
  · obtain ⟨b, hb, rfl⟩ := hs
    unfold NoCheck.ofShape
    rw [Except.ok.inj hb]
    rfl

/-- C96. A traversal of any expression, that may end early. Its elements may be anything, and evaluating them may have any effect on memory. -/
theorem C96_traversal {α β : Type} (dyn : Bool) (stop : α → Option β) (z : List Int) (a : Iter (Act V) α) (μ : Mem V) (h : (ply dyn stop z a μ).1 ≠ .error .check) :
    NoCheck.ply dyn stop z a μ = ply dyn stop z a μ := by
  by_cases hv : a.validate = true
  · unfold ply plyRavel plyFixed NoCheck.ply NoCheck.plyRavel NoCheck.plyFixed
    rw [if_pos hv, if_pos hv]
    cases dyn <;> rcases a.rank.toNat with _ | r <;> rfl
  · refine absurd ?_ h
    unfold ply plyRavel plyFixed
    rw [if_neg hv, if_neg hv]
    cases dyn <;> rfl

/-- C96. A range-for loop. -/
theorem C96_range {α β : Type} (f : α → Act V β) (a : Iter (Act V) α) (μ : Mem V) (h : (stlFor f a μ).1 ≠ .error .check) :
    NoCheck.stlFor f a μ = stlFor f a μ := by
  have e : stlFor f a = if a.validate then NoCheck.stlFor f a else fault .check := by
    unfold stlFor Stl.begin NoCheck.stlFor NoCheck.stlBegin
    by_cases hv : a.validate = true
    · rw [if_pos hv, if_pos hv]
    · rw [if_neg hv, if_neg hv]
  rw [e] at h ⊢
  by_cases hv : a.validate = true
  · rw [if_pos hv]
  · rw [if_neg hv] at h
    exact absurd rfl h

/-- C96. Conversion of an array or an expression to its only element. -/
theorem C96_scalar {α : Type} (e : Iter (Act V) α) (μ : Mem V) (h : (toScalar e μ).1 ≠ .error .check) : NoCheck.toScalar e μ = toScalar e μ := by
  unfold toScalar at *
  split at h
  · rename_i h1
    rw [if_pos h1]
    rfl
  · exact absurd rfl h

/-- C96. Assignment of a flat list to a view. -/
theorem C96_list (ct step1 : Bool) (xs : List V) (v : View) (μ : Mem V) (h : (v.toRavel ct step1 xs μ).1 ≠ .error .check) :
    NoCheck.toRavel ct step1 xs v μ = v.toRavel ct step1 xs μ := by
  unfold View.toRavel NoCheck.toRavel at *
  split at h
  · rename_i hl
    rw [if_pos hl]
    split at h
    · rename_i hp
      rw [if_pos hp, if_pos hp]
    · rename_i hp
      rw [if_neg hp, if_neg hp]
      unfold Stl.begin at *
      split at h
      · rename_i hv
        rw [if_pos hv]
        rfl
      · exact absurd rfl h
  · exact absurd rfl h

/-- C96. Without checks, programs that don't meet them may do something else, and that isn't noticed: an assignment between arrays whose shapes don't match does nothing, a subscript out of range gives
another element, and an array whose shape doesn't agree with its number of elements is made by `push_back`. -/
theorem C96_silent : ∃ (as : List Arr) (μ : Mem Int) (cs : List (FCmd Int)), (∀ c ∈ cs, (fprogram true [] [c] as μ).1 = .error .check) ∧
    (NoCheck.fprogram true [] cs as μ).1 = .ok () ∧ cs.length = 3 ∧
    (NoCheck.fprogram true [] cs as μ).2.2 23 = some 77 ∧ (NoCheck.fprogram true [] cs as μ).2.1.map (fun a => (a.dims.map Dim.len, a.n)) = [([3, 2], 5), ([3], 3)] := by
  refine ⟨[⟨none, [⟨2, 2⟩, ⟨2, 1⟩], 0, 4⟩, ⟨some 1, [⟨3, 1⟩], 10, 3⟩], fun p => if (0 ≤ p ∧ p < 4) ∨ (10 ≤ p ∧ p < 13) then some p else none,
    [.assign (.view 0 []) (.view 1 []), .cmd (.set 0 [0, 3] 77), .cmd (.op (.pushBack 0 (some 20) 5))], ?_, ?_, rfl, ?_, ?_⟩ <;> decide +kernel

end

/-! The programs of C92 meet the hypotheses, and so do those that end when there isn't memory. -/

example : (fprogram true [] egFCmds [] noMem).1 ≠ .error .check := by decide +kernel
example : (fprogram (V := Int) true [] [.cmd (.op (.create none none (fun _ => 0) [2, 2]))] [] noMem).1 = .error .alloc := by decide +kernel
example : runOps [.slice [.scalar (.const 1), .iota [(.const 2, .const (-1))] (.const 3)], .reverse 0, .reshape [2, -1]] ⟨[⟨3, 4⟩, ⟨4, 1⟩], 0⟩ = .ok ⟨[⟨2, 1⟩, ⟨1, 1⟩], 6⟩ := by decide +kernel
example : (⟨[⟨3, 4⟩, ⟨4, 1⟩], 0⟩ : View).cellAt 1 [2] = .ok ⟨[⟨4, 1⟩], 8⟩ := by decide +kernel
example : shapeAt [3, 4] (.map (fun x => x.getD 0 0 - 1) [.len]) = .ok 4 := by decide +kernel
example : View.ofShape [2, 3] 5 = .ok ⟨[⟨2, 3⟩, ⟨3, 1⟩], 5⟩ := by decide +kernel

/-- Some memory, and a view of it with gaps, for the examples. -/
def egCMem : Mem Int := fun p => if 0 ≤ p ∧ p < 12 then some (p * p) else none
def egCView : View := ⟨[⟨3, 4⟩, ⟨2, 2⟩], 0⟩

example : (ply (β := Unit) true never [] (.node (mapOp (updOp (· - ·))) [egCView.refs, .cell [⟨3, 1⟩] 0 fun i => pure (.val i)]) egCMem).1.isOk = true ∧
    (ply (β := Unit) true never [] (.node (mapOp (updOp (· - ·))) [egCView.refs, .cell [⟨3, 1⟩] 0 fun i => pure (.val i)]) egCMem).2 10 = some 98 := by decide +kernel
example : (stlFor (fun (x : Lv Int) => x.get) egCView.refs egCMem).1.isOk = true := by decide +kernel
example : ((do let x ← toScalar (⟨[⟨1, 4⟩, ⟨1, 1⟩], 3⟩ : View).refs; x.get : Act Int Int) egCMem).1 = .ok 9 := by decide +kernel
example : (egCView.toRavel false false [1, 2, 3, 4, 5, 6] egCMem).1.isOk = true ∧ (egCView.toRavel false false [1, 2, 3, 4, 5, 6] egCMem).2 6 = some 4 := by decide +kernel

end Ra.Props
