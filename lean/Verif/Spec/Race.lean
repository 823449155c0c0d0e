import Verif.Model.Amid
/-!
# Specification for C104: what the next step of a thread reads and writes

Only the steps and the memory are used from the model. What a step reads or writes is found by looking at what it does with other values in memory.
-/

namespace Ra.Spec

section
variable {V α : Type}

/-- The same memory is allocated, with any values. -/
def SameAlloc (μ μ' : Mem V) : Prop := ∀ p, (μ' p).isSome = (μ p).isSome

/-- The next step of the thread writes (or frees) the memory at `p`: with some values in memory, it's different after the step. -/
def WritesAt (x : Amid V α) (μ : Mem V) (p : Int) : Prop := ∃ μ', SameAlloc μ μ' ∧ (x.next μ').2 p ≠ μ' p

/-- The next step of the thread reads the memory at `p`: with another value there, what the thread does after is different, or what it writes somewhere is. -/
def ReadsAt (x : Amid V α) (μ : Mem V) (p : Int) : Prop :=
  ∃ μ1 μ2, SameAlloc μ μ1 ∧ SameAlloc μ μ2 ∧ (∀ q, q ≠ p → μ1 q = μ2 q) ∧
    ((x.next μ1).1 ≠ (x.next μ2).1 ∨ ∃ q, (x.next μ1).2 q ≠ (x.next μ2).2 q ∧ ((x.next μ1).2 q ≠ μ1 q ∨ (x.next μ2).2 q ≠ μ2 q))

/-- There's a data race: the next steps of two of the threads have to do with the same memory, and one of them writes it. -/
def Race (t : Crowd V α) : Prop :=
  ∃ (i j : Nat) (x y : Amid V α) (p : Int), i ≠ j ∧ t.1[i]? = some x ∧ t.1[j]? = some y ∧ (t.2 p).isSome ∧ WritesAt x t.2 p ∧ (ReadsAt y t.2 p ∨ WritesAt y t.2 p)

end
end Ra.Spec
