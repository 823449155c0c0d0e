import Verif.Spec.Memory
import Verif.Model.Thread
/-!
# Specification for threads

Only the types and the primitive accesses to memory are used from the model.
-/

namespace Ra.Spec

section
variable {V α : Type}

/-- What `x` has left to do after `n` accesses when there are no other threads, and the memory then. -/
def alone (x : Prog V α) (μ : Mem V) : Nat → Prog V α × Mem V
  | 0 => (x, μ)
  | n+1 => (alone x μ n).1.step (alone x μ n).2

/-- When it runs from memory `μ`, without other threads, `x` reads only from addresses in `R` and writes only at addresses in `W`. -/
def Within (R W : Int → Prop) : Prog V α → Mem V → Prop
  | .ret _, _ => True
  | .fail _, _ => True
  | .read p k, μ => R p ∧ ∀ v, μ p = some v → Within R W (k v) μ
  | .write p v k, μ => W p ∧ ((μ p).isSome → Within R W k (μ.upd p v))

/-- No thread writes where another one reads or writes. -/
def NoConflict {ι : Type} (R W : ι → Int → Prop) : Prop := ∀ i j, i ≠ j → ∀ p, W i p → ¬ R j p ∧ ¬ W j p

/-- In memory `μ`, `e` has the value `x`, and to find it only addresses in `R` are read. -/
def ReadsIn (R : Int → Prop) (μ : Mem V) (e : Prog V (Lv V)) (x : V) : Prop :=
  (do let r ← e; r.fetch).run μ = (.ok x, μ) ∧ Within R (fun _ => False) (do let r ← e; r.fetch) μ

end
end Ra.Spec
