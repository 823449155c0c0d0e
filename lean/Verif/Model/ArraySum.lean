import Verif.Model.CellSum
/-!
# Sums of arrays

`sum` and `prod` when the elements of the argument are arrays themselves: the cells of an array, or the elements of an array of arrays.
-/

namespace Ra

section
variable {V : Type}

/-- `[&c](auto && a){ c+=a; }`, the function on ra.hh:352, or `c*=a` on ra.hh:360, when `a` is an array (expr.hh:50-60). -/
def addInto (f : V → V → V) (dyn : Bool) (z : List Int) (c : View) : List (Lv V) → Act V (Lv V)
  | [.view a] => do
    update f dyn z c.refs a.refs
    pure (.view c)
  | _ => fault .abort

/-- ra.hh:352 or 360, `for_each([&c](auto && a){ c+=a; }, a)`. `dyn'`, `z'` are those of the traversal in `c+=a`. -/
def addArrays (f : V → V → V) (dyn dyn' : Bool) (z z' : List Int) (i : Iter (Act V) (Lv V)) (c : View) : Act V Unit := do
  let _ ← ply (β := Unit) dyn never z (.node (mapOp (addInto f dyn' z' c)) [i])
  pure ()

/-- ra.hh:348-354 `sum` (`f` is the sum and `x0` is 0) and ra.hh:356-362 `prod` (the product and 1) when the elements of `a` are arrays with a shape that isn't known to the compiler. `VAL(a)` on ra.hh:351 is the element under the iterator
(expr.hh:136-144), before anything else is done. `copy_shape(VAL(a), x0)` is a new array with the shape of that element (arrays.hh:394-395). `i` is the iterator, `o`, `fill` are the storage of the new array, as in `Arr.create`. -/
def foldArrays (f : V → V → V) (x0 : V) (rk : Option Nat) (o : Option Int) (fill : Nat → V) (dyn dyn' dyn'' : Bool) (z z' z'' : List Int) (i : Iter (Act V) (Lv V)) (μ : Mem V) : Except Fault Arr × Mem V :=
  match i.deref μ with
  | (.ok (.view v), μ1) => Arr.andDo (Arr.ofExpr rk o fill dyn'' z'' (v.dims.map Dim.len) (.scalar (pure (.val x0))) μ1) fun c => addArrays f dyn dyn' z z' i c.view
  | (.ok _, μ1) => (.error .abort, μ1)
  | (.error e, μ1) => (.error e, μ1)

/-- `sum(iter<cr>(a))` or `prod(iter<cr>(a))`, as on test/reduction.cc:190-201: ra.hh:348-362 with expr.hh:317-328. If `cr` is 0 then the elements aren't arrays; here they are views of rank 0. -/
def foldCells (f : V → V → V) (x0 : V) (rk : Option Nat) (o : Option Int) (fill : Nat → V) (dyn dyn' dyn'' : Bool) (z z' z'' : List Int) (cr : Int) (a : View) (μ : Mem V) : Except Fault Arr × Mem V :=
  match a.cells cr with
  | .ok i => foldArrays f x0 rk o fill dyn dyn' dyn'' z z' z'' i μ
  | .error e => (.error e, μ)

/-- An array of arrays (`Big<Big<int, 1>, 1>` or others) as an expression: expr.hh:266-312 with elements that are arrays. `el p` is the array at `p`, if there's one; it's undefined behavior to look at it if there isn't. -/
def nestedRefs (el : Int → Option View) (a : View) : Iter (Act V) (Lv V) := .cell a.dims a.cp fun p =>
  match el p with
  | some x => pure (.view x)
  | none => fault .ub

end
end Ra
