import Verif.Model.Access
import Verif.Model.Pack
import Verif.Model.Frame
import Verif.Model.Dot
/-!
# Ways to count the elements of an array, and sums with index placeholders, as programs

bench/bench-iterator.cc and bench/bench-tensorindex.cc. The elements are in any ring, so a counter never overflows.
-/

namespace Ra

section
variable {V : Type}

/-- bench/bench-iterator.cc:38-39, 77-78 `a = i; ++i;`, where `a` is the element at this address and the state is `i`. -/
def countStep [IntCast V] (p : Int) : StateT Int (Act V) Unit := fun i => do
  Act.write p (i : V)
  pure ((), i + 1)

/-- bench/bench-iterator.cc:36-40, also 75-79 `int i = 0; for (auto & a: A) { a = i; ++i; }`, for a view. Gives the last value of `i`. -/
def View.countFor [IntCast V] (ct step1 : Bool) (v : View) : Act V Int := do
  let r ← (v.rangeFor ct step1 countStep : StateT Int (Act V) Unit) 0
  pure r.2

/-- bench/bench-iterator.cc:36-40, also 75-79, for a container. -/
def Arr.countFor [IntCast V] (a : Arr) : Act V Int := do
  let r ← (a.rangeFor countStep : StateT Int (Act V) Unit) 0
  pure r.2

/-- arrays.hh:361-364 `tindex<w>`, that is `_0`, `_1`, ... with elements of type `V`. -/
def tindexVal [IntCast V] (w : Nat) : Iter (Act V) (Lv V) := reframe [w] (.cell [⟨UNB, 1⟩] 0 fun i => pure (.val (i : V)))

/-- bench/bench-iterator.cc:44 `A = ra::_0`. -/
def View.countAxis [IntCast V] (dyn : Bool) (z : List Int) (v : View) : Act V Unit := assign dyn z v.refs (tindexVal 0)

/-- bench/bench-iterator.cc:28, 48 `A = ra::iota(ra::size(A))`. -/
def View.countIota [Ring V] (dyn : Bool) (z : List Int) (v : View) : Act V Unit := assign dyn z v.refs (packIota (dimvSize v.dims).toNat)

/-- arrays.hh:42 `std::ranges::copy(x, b)`: `*b = *x; ++b`, where the state is the pointer `b`. -/
def copyStep (p : Int) : StateT Int (Act V) Unit := fun q => do
  let x ← Act.read p
  Act.write q x
  pure ((), q + 1)

/-- arrays.hh:34-44 `to_ravel(A, b)` of a view into an `Array`, as in bench/bench-iterator.cc:69. The check (line 38) is for the sizes. -/
def View.ravelTo (ct step1 : Bool) (v : View) (b : Arr) : Act V Unit :=
  if dimvSize v.dims = b.size then do
    let _ ← (v.rangeFor ct step1 copyStep : StateT Int (Act V) Unit) b.base
    pure ()
  else fault .check

variable [Ring V]

/-- bench/bench-tensorindex.cc:39, 45 `a+ra::tindex<w>`. -/
def plusIndex (a : View) (w : Nat) : Iter (Act V) (Lv V) := .node (mapOp (pairValOp (· + ·))) [a.refs, tindexVal w]

/-- bench/bench-tensorindex.cc:36-41 `fa` and 42-47 `fb`: with `ply`, or with `ply_ravel` when `dyn`. -/
def indexTotal (dyn : Bool) (z : List Int) (y : Int) (a : View) : Act V V :=
  fromZero y do
    let _ ← ply (β := Unit) dyn never z (.node (mapOp (plusPairOp (fun i j => 2 * i - j) y)) [plusIndex a 0, plusIndex a 1])
    pure ()

end

end Ra
