import Verif.Model.Assign
/-!
# Operations on small vectors (`RA_OPT_SMALL`)
-/

namespace Ra

section
variable {V : Type}

/-- Read `n` elements from `p`, as `*(extvector<T, N> *)p` does (ra.hh:156). -/
def readVec (p : Int) : Nat → Act V (List V)
  | 0 => pure []
  | n+1 => do
    let x ← Act.read p
    let xs ← readVec (p + 1) n
    pure (x :: xs)

/-- ra.hh:145-175, `opt` for an operation with two vectors of static length `n` and step 1: the result is a new `Small`. The vector operations of the compiler are the operation on
each pair of elements. The alignment of the vector type (arrays.hh:157-159) is its size, so an access through a pointer that isn't a multiple of `n` elements is undefined behaviour;
the size of the elements is taken to be the unit of addresses. -/
def optSmall (f : V → V → V) (n : Nat) (p q : Int) : Act V (List V) :=
  if (n : Int) ∣ p ∧ (n : Int) ∣ q then do
    let x ← readVec p n
    let y ← readVec q n
    pure (List.zipWith f x y)
  else fault .ub

/-- expr.hh:317-328 `iter` for the `Small` that `opt` returns. It isn't in the memory of the program, because no one else has its address. -/
def smallIter (xs : List V) : Iter (Act V) (Lv V) := .cell [⟨xs.length, 1⟩] 0 fun i => match xs[i.toNat]? with
  | some x => pure (.val x)
  | none => fault .ub

end
end Ra
