import Verif.Model.Reduce
import Verif.Model.LenTree
import Verif.Model.ViewOps
/-!
# Running the model on the test programs of the project

The modules in this directory have expectations from the test programs in /repo/test, as examples about the model. They aren't proofs of any
property: they say that, on the inputs that the tests use, the model does what the tests of the project say that the code does. Each
example cites the lines of the test.

Here are the helpers.
-/

namespace Ra.Conform

/-- To compare outcomes. -/
instance {ε α : Type} [DecidableEq ε] [DecidableEq α] : DecidableEq (Except ε α)
  | .ok a, .ok b => if h : a = b then isTrue (by rw [h]) else isFalse (by simp [h])
  | .error a, .error b => if h : a = b then isTrue (by rw [h]) else isFalse (by simp [h])
  | .ok _, .error _ => isFalse (by simp)
  | .error _, .ok _ => isFalse (by simp)

/-- Evaluation of integer elements, with the elements that have been visited, last first. -/
abbrev M := StateT (List Int) (Except Fault)

/-- Elements in memory at 0, 1, ... -/
def mem (xs : List Int) (p : Int) : M Int := if 0 ≤ p ∧ p < xs.length then pure (xs.getD p.toNat 0) else fault .ub

/-- The pointers of an iota are its elements. -/
def seq (p : Int) : M Int := pure p

/-- A row-major view at 0. -/
def big (s : List Int) : View := (View.ofShape s 0).toOption.getD ⟨[], 0⟩

/-- Iterate over the elements of a view in memory. -/
def leaf (v : View) (xs : List Int) : Iter M Int := .cell v.dims v.cp (mem xs)

/-- Iterate over a row-major array. -/
def arr (s : List Int) (xs : List Int) : Iter M Int := leaf (big s) xs

/-- A vector. -/
def vec (xs : List Int) : Iter M Int := arr [xs.length] xs

/-- Scalar. -/
def sc (x : Int) : Iter M Int := .scalar (pure x)

/-- `ra::_0`, `ra::_1`, ...: iota on axis `k`, of unbounded length. -/
def tix (k : Nat) : Iter M Int := .reframe [k] (.cell [⟨UNB, 1⟩] 0 seq)

/-- `ra::iota(n, o, s)`. -/
def iotaAt (n : Int) (o : Int := 0) (s : Int := 1) : Iter M Int := .cell [⟨n, s⟩] o seq

/-- An operation with one argument. -/
def op1 (f : Int → Int) (a : Iter M Int) : Iter M Int :=
  .node (mapOp fun xs => match xs with | [x] => pure (f x) | _ => fault .abort) [a]

/-- An operation with two arguments. -/
def op2 {m : Type → Type} [Monad m] [MonadFault m] (f : Int → Int → Int) (a b : Iter m Int) : Iter m Int :=
  .node (mapOp fun xs => match xs with | [x, y] => pure (f x y) | _ => fault .abort) [a, b]

/-- The shape of an expression, and its elements in the order that `ply` visits them. Both kinds of traversal must agree. -/
def elems (a : Iter M Int) : Except Fault (List Int × List Int) :=
  let e : Iter M Int := .node (mapOp fun xs => do modify (xs ++ ·); pure 0) [a]
  match (ply (β := Unit) true never [] e).run [], (ply (β := Unit) false never [] e).run [] with
  | .ok (_, xs), .ok (_, ys) => if xs = ys then .ok (a.shape, xs.reverse) else .error .fuel
  | .error f, .error g => if f = g then .error f else .error .fuel
  | _, _ => .error .fuel

/-- The elements of an expression through an STL iterator. -/
def stlElems (a : Iter M Int) : Except Fault (List Int) :=
  match (stlFor (fun x => modify (x :: ·)) a).run [] with
  | .ok (_, xs) => .ok xs.reverse
  | .error f => .error f

/-- The shape and elements of a view, or the fault in making it. -/
def viewElems (xs : List Int) (v : Except Fault View) : Except Fault (List Int × List Int) := do
  let v ← v
  elems (leaf v xs)

/-- As `viewElems` for an iota. -/
def seqElems (v : Except Fault View) : Except Fault (List Int × List Int) := do
  let v ← v
  elems (.cell v.dims v.cp seq)

/-- The elements of a selection with array subscripts. -/
def fromElems (v : View) (xs : List Int) (is : List Sub) (arrays : List (Iter M Int)) : Except Fault (List Int × List Int) := do
  match ← v.fromArrays (mem xs) is arrays with
  | some a => elems a
  | none => .error .abort

/-- The same, if the rank isn't static. -/
def fromAnyElems (v : View) (xs : List Int) (is : List Sub) (arrays : List (Iter M Int)) : Except Fault (List Int × List Int) := do
  match ← v.fromAny (mem xs) is arrays with
  | some a => elems a
  | none => .error .abort

/-- The elements of an array from `f` of its subscripts, row-major. -/
def fill (s : List Nat) (f : List Int → Int) : List Int :=
  match s with
  | [] => [f []]
  | n :: s => (List.range n).flatMap fun (i : Nat) => fill s fun j => f ((i : Int) :: j)

/-- A subscript `i`. -/
def at' (i : Int) : Sub := .scalar (.const i)
/-- A subscript `ra::len-i`. -/
def atEnd (i : Int) : Sub := .scalar (.map (fun xs => xs.getD 0 0 - xs.getD 1 0) [.len, .const i])
/-- A subscript `ra::iota(n, o, s)`. -/
def io (n : Int) (o : Int := 0) (s : Int := 1) : Sub := .iota [(.const n, .const s)] (.const o)
/-- A subscript `ra::iota({m, n})`. -/
def io2 (m n : Int) : Sub := .iota [(.const m, .const n), (.const n, .const 1)] (.const 0)
/-- `ra::all`. -/
def all : Sub := .dots (some 1)
/-- `ra::dots<>`. -/
def dots : Sub := .dots none

end Ra.Conform
