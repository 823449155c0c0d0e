import Verif.Model.Array
import Verif.Model.Matrix
/-!
# Construction from lists and from expressions

arrays.hh:34-82, 119-137, 199-202, 282-303, 371-401, and ra.hh:440-456.

Simplifications:
* An `std::initializer_list`, or an array argument `T (&&x)[N]`, is a list of values. It isn't in the memory.
* The memory of a `SmallArray` is there from the start, at some address.
-/

namespace Ra

section
variable {V : Type}

/-! Flat lists. -/

/-- arrays.hh:42 `std::ranges::copy(x, p)` for a pointer. -/
def ptrCopy : List V → Int → Act V Unit
  | [], _ => pure ()
  | x :: xs, p => do
    Act.write p x
    ptrCopy xs (p + 1)

/-- arrays.hh:42 `std::ranges::copy(x, p)` for an `STLIterator`: `*p = x` (ply.hh:192) and `++p` (224) for each of the list. -/
def stlCopy : List V → Stl (Act V) (Lv V) → Act V Unit
  | [], _ => pure ()
  | x :: xs, p => do
    let _ ← (do let y ← p.a.deref; setOp [y, .val x])
    stlCopy xs p.next

/-- arrays.hh:137 `begin()`: when it's a pointer. `ct` if the dims are static, `step1` if the rank is 1 and the step is static. -/
def View.beginIsPtr (ct step1 : Bool) (v : View) : Bool :=
  (ct && cOrder v.dims true) || (step1 && match v.dims with
    | [d] => decide (1 = d.step)
    | _ => false)

/-- arrays.hh:34-44 `to_ravel` into a view, also arrays.hh:130 `v = {x0, x1, ...}` and 199, the constructor of `SmallArray` from its elements. If the sizes are static then the
check (line 40) is done by the compiler. -/
def View.toRavel (ct step1 : Bool) (xs : List V) (v : View) : Act V Unit :=
  if (xs.length : Int) = dimvSize v.dims then
    if v.beginIsPtr ct step1 then ptrCopy xs v.cp
    else do
      let p ← Act.lift (Stl.begin (v.refs : Iter (Act V) (Lv V)))
      stlCopy xs p
  else fault .check

/-- arrays.hh:34-44 `to_ravel` into an `Array`, with arrays.hh:315 `begin()`. -/
def Arr.toRavel (xs : List V) (a : Arr) : Act V Unit := if (xs.length : Int) = a.size then ptrCopy xs a.base else fault .check

/-- A constructor that makes an array and then does something with it (arrays.hh:297-303). If that throws, the array is destroyed. -/
def Arr.andDo (c : Except Fault Arr × Mem V) (body : Arr → Act V Unit) : Except Fault Arr × Mem V :=
  match c with
  | (.error e, μ) => (.error e, μ)
  | (.ok a, μ) =>
    match body a μ with
    | (.ok (), μ') => (.ok a, μ')
    | (.error e, μ') => (.error e, μ'.move a a.base 0 fun _ => none)

/-- arrays.hh:298 `Array(s, {x0, x1, ...})`, also 300, 302. -/
def Arr.ofList (rk : Option Nat) (o : Option Int) (fill : Nat → V) (s : List Int) (xs : List V) (μ : Mem V) : Except Fault Arr × Mem V :=
  Arr.andDo (Arr.create rk o fill s μ) fun a => a.toRavel xs

/-- arrays.hh:303 `std::ranges::copy_n(p, n, q)`. -/
def copyN : Nat → Int → Int → Act V Unit
  | 0, _, _ => pure ()
  | n+1, p, q => do
    let x ← Act.read p
    Act.write q x
    copyN n (p + 1) (q + 1)

/-- arrays.hh:303 `Array(s, p)` with a pointer. -/
def Arr.ofPtr (rk : Option Nat) (o : Option Int) (fill : Nat → V) (s : List Int) (p : Int) (μ : Mem V) : Except Fault Arr × Mem V :=
  Arr.andDo (Arr.create rk o fill s μ) fun a => copyN a.size.toNat p a.base

/-! Expressions. -/

/-- arrays.hh:297 `Array(s, x)`, with arrays.hh:133; also 299, 301, 395 (`copy_shape`) and 398 (`with_shape`). -/
def Arr.ofExpr (rk : Option Nat) (o : Option Int) (fill : Nat → V) (dyn : Bool) (z : List Int) (s : List Int) (x : Iter (Act V) (Lv V)) (μ : Mem V) :
    Except Fault Arr × Mem V :=
  Arr.andDo (Arr.create rk o fill s μ) fun a => assign dyn z a.view.refs x

/-- arrays.hh:386 `concrete(e)` if the size isn't static, with arrays.hh:291 `Array(x)`. -/
def concreteBig (rk : Option Nat) (o : Option Int) (fill : Nat → V) (dyn : Bool) (z : List Int) (e : Iter (Act V) (Lv V)) (μ : Mem V) : Except Fault Arr × Mem V :=
  Arr.ofExpr rk o fill dyn z e.shape e μ

/-- arrays.hh:386 `concrete(e)` if the size is static, with arrays.hh:201-202 `SmallArray(x)`. The array is at `b`; its dims are `c_dimv(shape_s(e))`, with expr.hh:199-219. -/
def concreteSmall (b : Int) (dyn : Bool) (z : List Int) (e : Iter (Act V) (Lv V)) : Act V View := do
  let v ← Act.lift (View.ofShape e.shape b)
  assign dyn z v.refs e
  pure v

/-- expr.hh:149-157 `to_scalar(e)`, where `VAL(e)` is `*iter(e)` (expr.hh:135-143). -/
def toScalar {m : Type → Type} {α : Type} [Monad m] [MonadFault m] (e : Iter m α) : m α := if 1 = e.size then e.deref else fault .check

/-- arrays.hh:386 `concrete(e)` if the rank is 0, with the conversions on arrays.hh:143, 215, 320 and expr.hh:305, 662, 721. -/
def concreteValue (e : Iter (Act V) (Lv V)) : Act V V := do
  let x ← toScalar e
  x.get

/-! Nested lists. -/

/-- arrays.hh:66-68 `braces<T, R>`. -/
def Braces (V : Type) : Nat → Type
  | 0 => V
  | r+1 => List (Braces V r)

/-- arrays.hh:70-82 `braces_shape`. What isn't reached stays 0 (line 74). -/
def bracesShape : (r : Nat) → Braces V r → List Int
  | 0, _ => []
  | r+1, l => (List.length l : Int) :: match l with
    | [] => List.replicate r 0
    | x :: _ => bracesShape r x

/-- expr.hh:361-363 `ptr(l)`, iteration over a list. To read out of the list is undefined behaviour. -/
def listIter {m : Type → Type} {α β : Type} [Monad m] [MonadFault m] (g : β → α) (l : List β) : Iter m α :=
  .cell [⟨l.length, 1⟩] 0 fun p => if p < 0 then fault .ub else match l[p.toNat]? with
    | some x => pure (g x)
    | none => fault .ub

/-- arrays.hh:119-122 and 283-285, `v = x` for nested lists. The traversals at each level are different functions, each with its own `dyn` and `z`. If the rank is 1, it's
the operator on arrays.hh:133. -/
def assignBraces (dyn : Nat → Bool) (z : Nat → List Int) : (r : Nat) → View → Braces V r → Act V Unit
  | 0, v, x => assign (dyn 0) (z 0) v.refs (.scalar (pure (.val (show V from x))))
  | 1, v, x => assign (dyn 1) (z 1) v.refs (listIter Lv.val (show List V from x))
  | r+2, v, x => do
    let (f, c) ← Act.lift (v.cell (-1))
    let cells : Iter (Act V) (View ⊕ Braces V (r+1)) := .cell f v.cp fun p => pure (.inl ⟨c, p⟩)
    let _ ← ply (β := Unit) (dyn (r+2)) never (z (r+2)) (.node (mapOp fun (xs : List (View ⊕ Braces V (r+1))) => match xs with
      | [.inl w, .inr y] => do
        assignBraces dyn z (r+1) w y
        pure (.inl w)
      | _ => fault .abort) [cells, listIter Sum.inr (show List (Braces V (r+1)) from x)])
    pure ()

/-- arrays.hh:292-293 `Array(x)` with nested lists. If the rank is 1 then overload resolution takes line 298 next, else it's line 297. -/
def Arr.ofBraces (rk : Option Nat) (o : Option Int) (fill : Nat → V) (dyn : Nat → Bool) (z : Nat → List Int) : (r : Nat) → Braces V r → Mem V → Except Fault Arr × Mem V
  | 1, x, μ => Arr.ofList rk o fill (bracesShape 1 x) (show List V from x) μ
  | r, x, μ => Arr.andDo (Arr.create rk o fill (bracesShape r x) μ) fun a => assignBraces dyn z r a.view x

/-! Products that make their result. -/

variable [Add V] [Mul V] [Zero V]

/-- ra.hh:440-444 `gemm(a, b)`, when the result is a `Big`. -/
def gemmNew (o : Option Int) (fill : Nat → V) (dyn dyn' : Bool) (z z' : List Int) (a : Iter (Act V) (Lv V)) (b : View) (μ : Mem V) : Except Fault Arr × Mem V :=
  Arr.andDo (Arr.ofExpr (some 2) o fill dyn' z' [a.len 0, lenOf b.dims 1] (.scalar (pure (.val 0))) μ) fun c => gemmSlice dyn z a b c.view

/-- ra.hh:446-450 `gemv(a, b)`, when the result is a `Big` and `b` is a slice. -/
def gemvNewB (o : Option Int) (fill : Nat → V) (dyn dyn' : Bool) (z z' : List Int) (a : Iter (Act V) (Lv V)) (b : View) (μ : Mem V) : Except Fault Arr × Mem V :=
  Arr.andDo (Arr.ofExpr (some 1) o fill dyn' z' [a.len 0] (.scalar (pure (.val 0))) μ) fun c => gemvSliceB dyn z a b c.view.refs

/-- ra.hh:446-450 `gemv(a, b)`, when the result is a `Big` and `b` isn't a slice. -/
def gemvNewC (o : Option Int) (fill : Nat → V) (dyn dyn' : Bool) (z z' : List Int) (a : View) (b : Iter (Act V) (Lv V)) (μ : Mem V) : Except Fault Arr × Mem V :=
  Arr.andDo (Arr.ofExpr (some 1) o fill dyn' z' [lenOf a.dims 0] (.scalar (pure (.val 0))) μ) fun c => gemvSliceC dyn z a b c.view

/-- ra.hh:452-456 `gevm(a, b)`, when the result is a `Big`. -/
def gevmNew (o : Option Int) (fill : Nat → V) (dyn dyn' : Bool) (z z' : List Int) (a b : Iter (Act V) (Lv V)) (μ : Mem V) : Except Fault Arr × Mem V :=
  Arr.andDo (Arr.ofExpr (some 1) o fill dyn' z' [b.len 1] (.scalar (pure (.val 0))) μ) fun c => gevmSliceC dyn z a b c.view

end
end Ra
