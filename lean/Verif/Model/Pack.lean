import Verif.Model.Assign
import Verif.Model.Complex
import Verif.Model.Explode
import Verif.Model.Gemm
import Verif.Model.From
import Mathlib.Algebra.Ring.Int.Defs
import Mathlib.Data.Int.Cast.Basic
/-!
# Arrays of tuples: `pack`

expr.hh:683-684, with the uses in test/operators.cc:228-245, examples/indirect.cc:158-172 and bench/bench-pack.cc. As in `Model/Complex.lean`, addresses of tuples are counted in tuples and those of numbers in numbers.
-/

namespace Ra

section
variable {V : Type}

/-- Elements of the arguments and of the results of `pack` (expr.hh:683-684): numbers, or references to numbers; tuples (`std::tuple`, `std::complex`, `Small`); and tuples of references, which is also what a reference to a tuple in memory is. -/
inductive PackEl (V : Type) where
  | lv (x : Lv V)
  | tup (vs : List V)
  | refs (ps : List Int)

/-- The value of a number or reference, for the arguments `a ...` of expr.hh:684. -/
def PackEl.get : PackEl V → Act V V
  | .lv x => x.get
  | _ => fault .abort

/-- The place of a reference, for the arguments `a ...` of expr.hh:684. -/
def PackEl.place : PackEl V → Act V Int
  | .lv (.ref p) => pure p
  | _ => fault .abort

/-- expr.hh:684 `T { a ... }`, where the elements of `T` aren't references. -/
def packOp (xs : List (PackEl V)) : Act V (PackEl V) := do
  let vs ← xs.mapM PackEl.get
  pure (.tup vs)

/-- expr.hh:684 `T { a ... }`, where `T` is a tuple of references. -/
def packRefsOp (xs : List (PackEl V)) : Act V (PackEl V) := do
  let ps ← xs.mapM PackEl.place
  pure (.refs ps)

/-- expr.hh:683-684 `pack<T>(a ...)`. -/
def pack (es : List (Iter (Act V) (PackEl V))) : Iter (Act V) (PackEl V) := .node (mapOp packOp) es

/-- expr.hh:683-684 `pack<T>(a ...)` where `T` is a tuple of references. -/
def packRefs (es : List (Iter (Act V) (PackEl V))) : Iter (Act V) (PackEl V) := .node (mapOp packRefsOp) es

/-- expr.hh:317-328 `iter(v)` for a view of numbers. -/
def View.numbers (v : View) : Iter (Act V) (PackEl V) := .cell v.dims v.cp fun p => pure (.lv (.ref p))

/-- expr.hh:317-328 `iter(v)` for a view of tuples of `k` numbers. -/
def View.tuples (k : Nat) (v : View) : Iter (Act V) (PackEl V) := .cell v.dims v.cp fun p => pure (.refs ((List.range k).map fun (m : Nat) => k * p + m))

/-- `=` on expr.hh:51, for a tuple of values on the right: one part after another. -/
def writeParts : List Int → List V → Act V Unit
  | [], [] => pure ()
  | p :: ps, v :: vs => do
    Act.write p v
    writeParts ps vs
  | _, _ => fault .abort

/-- `=` on expr.hh:51, for a tuple of references on the right: one part after another. -/
def copyParts : List Int → List Int → Act V Unit
  | [], [] => pure ()
  | p :: ps, q :: qs => do
    let v ← Act.read q
    Act.write p v
    copyParts ps qs
  | _, _ => fault .abort

/-- expr.hh:50-51, the body of `=` for tuples. -/
def setTuple : List (PackEl V) → Act V (PackEl V)
  | [.refs ps, .tup vs] => do
    writeParts ps vs
    pure (.refs ps)
  | [.refs ps, .refs qs] => do
    copyParts ps qs
    pure (.refs ps)
  | _ => fault .abort

/-- expr.hh:50-60 `y = x` for arrays of tuples. -/
def assignTuples (dyn : Bool) (z : List Int) (y x : Iter (Act V) (PackEl V)) : Act V Unit := do
  let _ ← ply (β := Unit) dyn never z (.node (mapOp setTuple) [y, x])
  pure ()

/-- ra.hh:228-238 `at(a, i)` for an index that is a tuple, as on examples/indirect.cc:168. `ix` is the conversion of a number to an index. -/
def atTupleOp (ix : V → Int) (a : View) : List (PackEl V) → Act V (PackEl V)
  | [.tup vs] => do
    let x ← a.refs.at (vs.map ix)
    pure (.lv x)
  | _ => fault .abort

/-- ra.hh:228-238 `at(a, i)` where `i` is an array of tuples. -/
def atTuples (ix : V → Int) (a : View) (i : Iter (Act V) (PackEl V)) : Iter (Act V) (PackEl V) := .node (mapOp (atTupleOp ix a)) [i]

end

section
variable {R : Type} [Ring R]

/-- `iota(size)` and `iota(size, 0.)` on bench/bench-pack.cc:41-53. -/
def packIota (n : Nat) : Iter (Act R) (Lv R) := .cell [⟨n, 1⟩] 0 fun i => pure (.val (i : R))

/-- `size-iota(size)` on bench/bench-pack.cc:42-53. The optimization of C42 isn't considered. -/
def packDown (n : Nat) : Iter (Act R) (Lv R) := .node (valOp fun xs => match xs with | [x, y] => pure (x - y) | _ => fault .abort) [.scalar (pure (.val (n : R))), packIota n]

/-- bench/bench-pack.cc:33-39 `f_raw`. -/
def fillRaw (n : Nat) (a : View) : Act R Unit := forLoop n fun i => do
  Act.write (2 * a.cp + 2 * i) (i : R)
  Act.write (2 * a.cp + 2 * i + 1) ((n : R) - i)

/-- bench/bench-pack.cc:40-43 `f_reim`. -/
def fillReim (dyn : Bool) (z : List Int) (n : Nat) (a : View) : Act R Unit := do
  assign dyn z (a.part 0) (packIota n)
  assign dyn z (a.part 1) (packDown n)

/-- bench/bench-pack.cc:44-48 `f_collapse`. The sizes are those of `double` and `std::complex<double>`. -/
def fillCollapse (dyn : Bool) (z : List Int) (n : Nat) (a : View) : Act R Unit := do
  let c ← Act.lift (a.collapse ⟨[], 8, 8⟩ ⟨[], 16, 16⟩)
  let areim : View := ⟨c.dims, 2 * c.cp⟩
  let re ← Act.lift (areim.from [.dots (some 1), .scalar (.const 0)])
  assign dyn z re.refs (packIota n)
  let im ← Act.lift (areim.from [.dots (some 1), .scalar (.const 1)])
  assign dyn z im.refs (packDown n)

/-- The iotas of bench/bench-pack.cc:50 and 53. -/
def packIota' (n : Nat) : Iter (Act R) (PackEl R) := .cell [⟨n, 1⟩] 0 fun i => pure (.lv (.val (i : R)))

/-- expr.hh:652-663, a `map` of numbers. -/
def numOp (f : List R → Act R R) : List (Act R (PackEl R)) → Act R (PackEl R) :=
  mapOp fun xs => do
    let vs ← xs.mapM PackEl.get
    let r ← f vs
    pure (.lv (.val r))

/-- `size-iota(size, 0.)` on bench/bench-pack.cc:50 and 53. -/
def packDown' (n : Nat) : Iter (Act R) (PackEl R) := .node (numOp fun xs => match xs with | [x, y] => pure (x - y) | _ => fault .abort) [.scalar (pure (.lv (.val (n : R)))), packIota' n]

/-- bench/bench-pack.cc:49-51 `f_pack`. -/
def fillPack (dyn : Bool) (z : List Int) (n : Nat) (a : View) : Act R Unit := assignTuples dyn z (a.tuples 2) (pack [packIota' n, packDown' n])

/-- ra.hh:101 `xi` of a number, as the operation of a `map`. -/
def xiOp : List (PackEl R) → Act R (PackEl R)
  | [x] => do
    let v ← x.get
    let c := xiR v
    pure (.tup [c.re, c.im])
  | _ => fault .abort

/-- `+` of a number and a complex number, as the operation of a `map` (ra.hh:188). -/
def addCxOp : List (PackEl R) → Act R (PackEl R)
  | [x, .tup [u, v]] => do
    let r ← x.get
    pure (.tup [u + r, v])
  | _ => fault .abort

/-- bench/bench-pack.cc:52-54 `f_xi`. -/
def fillXi (dyn : Bool) (z : List Int) (n : Nat) (a : View) : Act R Unit :=
  assignTuples dyn z (a.tuples 2) (.node (mapOp addCxOp) [packIota' n, .node (mapOp xiOp) [packDown' n]])

end
end Ra
