import Verif.Model.Ply
/-!
# Reductions

Simplifications: as elements have one type `α`, the values in between (`std::optional`, indices) are in `α` through conversions.
-/

namespace Ra

/-- Values that hold an `std::optional`, for `early` (ply.hh:31, 64, 169). -/
class Optional (α : Type) (β : outParam Type) where
  get : α → Option β
  put : Option β → α
  get_put : ∀ o, get (put o) = o

/-- Values that hold an integer, such as an index (ra.hh:292-296). -/
class Integer (α : Type) where
  toInt : α → Int
  ofInt : Int → α
  toInt_ofInt : ∀ i, toInt (ofInt i) = i

export Integer (toInt ofInt)

/-- expr.hh:20-43, for the reductions that keep a value by reference (ra.hh:306-401). -/
instance {γ : Type} {n : Type → Type} [Monad n] [MonadFault n] : MonadFault (StateT γ n) := ⟨fun f _ => fault f⟩

section
variable {m : Type → Type} {α : Type} [Monad m] [MonadFault m]

/-- ra.hh:279-282 `any`. -/
def anyOf [Boolean α] [Optional α Bool] (dyn : Bool) (z : List Int) (a : Iter m α) : m Bool :=
  earlyOf dyn Optional.get z
    (.node (mapOp fun xs => match xs with
      | [x] => pure (Optional.put (if toBool x then some true else none))
      | _ => fault .abort) [a]) false

/-- ra.hh:285-288 `every`. -/
def everyOf [Boolean α] [Optional α Bool] (dyn : Bool) (z : List Int) (a : Iter m α) : m Bool :=
  earlyOf dyn Optional.get z
    (.node (mapOp fun xs => match xs with
      | [x] => pure (Optional.put (if !toBool x then some false else none))
      | _ => fault .abort) [a]) true

/-- ply.hh:320-330 `iota()`, rank 1, unbounded, from 0 with step 1. -/
def iotaU [Integer α] : Iter m α := .cell [⟨UNB, 1⟩] 0 (fun i => pure (ofInt i))

/-- ra.hh:292-296 `index`. -/
def indexOf [Boolean α] [Integer α] [Optional α Int] (dyn : Bool) (z : List Int) (a : Iter m α) : m Int :=
  earlyOf dyn Optional.get z
    (.node (mapOp fun xs => match xs with
      | [x, i] => pure (Optional.put (if toBool x then some (toInt i) else none))
      | _ => fault .abort) [a, iotaU]) (-1)

/-- ra.hh:299-303 `lexical_compare`. -/
def lexicalCompare [DecidableEq α] [LT α] [DecidableLT α] [Optional α Bool] (dyn : Bool) (z : List Int) (a b : Iter m α) : m Bool :=
  earlyOf dyn Optional.get z
    (.node (mapOp fun xs => match xs with
      | [x, y] => pure (Optional.put (if x = y then none else some (decide (x < y))))
      | _ => fault .abort) [a, b]) false

end

section
variable {n : Type → Type} {α γ : Type} [Monad n] [MonadFault n] [Inhabited α]

/-- ply.hh:168 `for_each(op, t ...)`, when `op` updates a variable `c` that it has by reference. `op` gives no value (`default`). -/
def forEachRef (dyn : Bool) (z : List Int) (op : γ → List α → n γ) (c : γ) (t : List (Iter (StateT γ n) α)) : n γ := do
  let r ← (ply (β := Unit) dyn never z (.node (mapOp fun xs => do
    let c ← get
    let c' ← (op c xs : n γ)
    set c'
    pure default) t)).run c
  pure r.2

/-- ra.hh:306-312 `amin`. `hi` is the value on line 309, infinity if there is one, else the largest. -/
def amin [LT α] [DecidableLT α] (hi : α) (dyn : Bool) (z : List Int) (a : Iter (StateT α n) α) : n α :=
  forEachRef dyn z (fun c xs => match xs with
    | [x] => pure (if x < c then x else c)
    | _ => fault .abort) hi [a]

/-- ra.hh:315-321 `amax`. `lo` is the value on line 318. -/
def amax [LT α] [DecidableLT α] (lo : α) (dyn : Bool) (z : List Int) (a : Iter (StateT α n) α) : n α :=
  forEachRef dyn z (fun c xs => match xs with
    | [x] => pure (if c < x then x else c)
    | _ => fault .abort) lo [a]

/-- ra.hh:326-335 `refmin`. The elements of `a` are references, that is addresses `α`, and `val` is what they refer to. -/
def refmin {V : Type} (less : V → V → Bool) (val : α → V) (dyn : Bool) (z : List Int) (a : Iter (StateT α n) α) : n α := do
  if a.size > 0 then
    let (p, _) ← a.deref.run default
    forEachRef dyn z (fun p xs => match xs with
      | [x] => pure (if less (val x) (val p) then x else p)
      | _ => fault .abort) p [a]
  else fault .check

/-- ra.hh:337-346 `refmax`. -/
def refmax {V : Type} (less : V → V → Bool) (val : α → V) (dyn : Bool) (z : List Int) (a : Iter (StateT α n) α) : n α := do
  if a.size > 0 then
    let (p, _) ← a.deref.run default
    forEachRef dyn z (fun p xs => match xs with
      | [x] => pure (if less (val p) (val x) then x else p)
      | _ => fault .abort) p [a]
  else fault .check

/-- ra.hh:348-354 `sum`, for elements that aren't arrays themselves. -/
def sumOf [Zero α] [Add α] (dyn : Bool) (z : List Int) (a : Iter (StateT α n) α) : n α :=
  forEachRef dyn z (fun c xs => match xs with
    | [x] => pure (c + x)
    | _ => fault .abort) 0 [a]

/-- ra.hh:356-362 `prod`, for elements that aren't arrays themselves. -/
def prodOf [One α] [Mul α] (dyn : Bool) (z : List Int) (a : Iter (StateT α n) α) : n α :=
  forEachRef dyn z (fun c xs => match xs with
    | [x] => pure (c * x)
    | _ => fault .abort) 1 [a]

/-- ra.hh:379-385 `dot`, with `maybe_fma` (line 372) as if without rounding. -/
def dotOf [Zero α] [Add α] [Mul α] (dyn : Bool) (z : List Int) (a b : Iter (StateT α n) α) : n α :=
  forEachRef dyn z (fun c xs => match xs with
    | [x, y] => pure (c + x * y)
    | _ => fault .abort) 0 [a, b]

/-- ra.hh:387-393 `cdot`. -/
def cdotOf [Zero α] [Add α] [Mul α] (conj : α → α) (dyn : Bool) (z : List Int) (a b : Iter (StateT α n) α) : n α :=
  forEachRef dyn z (fun c xs => match xs with
    | [x, y] => pure (c + conj x * y)
    | _ => fault .abort) 0 [a, b]

/-- ra.hh:395-401 `reduce_sqrm`. -/
def reduceSqrm [Zero α] [Add α] (sqrm : α → α) (dyn : Bool) (z : List Int) (a : Iter (StateT α n) α) : n α :=
  forEachRef dyn z (fun c xs => match xs with
    | [x] => pure (c + sqrm x)
    | _ => fault .abort) 0 [a]

end
end Ra
