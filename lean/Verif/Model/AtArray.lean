import Verif.Model.Assign
/-!
# Lists of positions: `at` with arrays of indices

ra.hh:228-238.
-/

namespace Ra

/-- Values that are used as indices with one entry for each axis, as `Small<int, 2>` (ra.hh:228-238). -/
class MultiIndex (V : Type) where
  index : V → List Int

export MultiIndex (index)

variable {V : Type}

/-- ra.hh:232, 234, 236: `at(a, i)` for an element of the array of indices. For views it's `*indexer(a, a.data(), iter(i))`, which is what `Cell::at` does (expr.hh:301-302), so there's no
need to tell both cases apart. -/
def atOp [MultiIndex V] (a : Iter (Act V) (Lv V)) : List (Lv V) → Act V (Lv V)
  | [i] => do
    let x ← i.get
    a.at (index x)
  | _ => fault .abort

/-- ra.hh:228-238 `at(a, i)` with an array of indices: a `map` over `i`. -/
def atArray [MultiIndex V] (a i : Iter (Act V) (Lv V)) : Iter (Act V) (Lv V) := .node (mapOp (atOp a)) [i]

end Ra
