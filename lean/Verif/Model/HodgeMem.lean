import Verif.Model.Wedge
import Verif.Model.Frame
import Verif.Model.Assign
/-!
# Wedge product and Hodge star in memory

As `Model/Wedge.lean`, where the arguments and the results are vectors (views of rank 1) in memory, so they may overlap.
-/

namespace Ra

section
variable {R : Type} [CommRing R]

/-- What `a[i]` is in ra.hh:556 `decltype(a[i])(fps::sign)*a[i]`: a reference to a constant element, as for any array since the argument is `auto const &`; a reference to an `int`; or a reference to
an element of another type, for a view of elements that aren't constant. The cast converts the sign in the first case. In the others it's `reinterpret_cast` of an `int`. -/
inductive ElemRef where
  | const
  | int
  | other

/-- ra.hh:548-556, the place and the sign for the component `Cai`. There's none if some `static_assert` fails. -/
def hodgePlace (D O : Nat) (Lex Cb Cr : List (List Nat)) (Cai : List Nat) : Option (Nat × Int) :=
  let wl := findWhere Cai Lex
  if wl < 0 then none
  else do
    let SCai ← Lex[wl.toNat]?
    let CompCai := complement SCai D
    let w := findWhere CompCai Cb
    if O = Cai.length ∧ D - O = CompCai.length ∧ w ≥ 0 then
      let Cbw ← Cb[w.toNat]?
      let s := findSign (Cai ++ Cbw) Cr
      if s ≠ 0 then some (w.toNat, s) else none
    else none

/-- ra.hh:556 `decltype(a[i])(fps::sign)`. A reference to the `int` is good if that's the type of the elements; reading it as another type is undefined behavior. -/
def castSign (s : Int) : ElemRef → Act R R
  | .const => pure (s : R)
  | .int => pure (s : R)
  | .other => fault .ub

/-- ra.hh:539-559 `Hodge::hodge_aux<i>(a, b)`, from the list `Ca` from `i` on, where `a[i]` is `rd i`. `abort` if it doesn't compile. -/
def hodgeLoop (k : ElemRef) (D O : Nat) (Lex Cb Cr : List (List Nat)) (rd : Nat → Act R R) (b : View) : Nat → List (List Nat) → Act R Unit
  | _, [] => pure ()
  | i, Cai :: Ca =>
    match hodgePlace D O Lex Cb Cr Cai with
    | none => fault .abort
    | some (w, s) => do
      let sign ← castSign s k
      let x ← rd i
      b.elemAt (fun p => Act.write p (sign * x)) [(w : Int)]
      hodgeLoop k D O Lex Cb Cr rd b (i + 1) Ca

/-- ra.hh:564-566 `hodgex(a, b)`, with 526-535. The size of `a` is `na`. -/
def hodgexFrom (k : ElemRef) (D O : Nat) (na : Int) (rd : Nat → Act R R) (b : View) : Act R Unit :=
  match choose D O, choose D (D - O), choose D (O + (D - O)), combs (mpIota D 0) O with
  | some Ca, some Cb, some Cr, some Lex =>
    if O ≤ D ∧ na = binom D O ∧ dimvSize b.dims = binom D (D - O) then hodgeLoop k D O Lex Cb Cr rd b 0 Ca else fault .abort
  | _, _, _, _ => fault .abort

/-- ra.hh:564-566 `hodgex(a, b)` for two views; `k` is for those of `a`. If `a` is an array then `k` is `const`. -/
def hodgexMem (k : ElemRef) (D O : Nat) (a b : View) : Act R Unit := hodgexFrom k D O (dimvSize a.dims) (fun i => a.elemAt Act.read [(i : Int)]) b

/-- All the elements of a view of rank 1 and length `n`, for arrays.hh:386 `concrete` in ra.hh:587 and `auto b(a)` in ra.hh:582, that make a copy. -/
def readArr (a : View) (n : Nat) : Act R (List R) := (List.range n).mapM fun (i : Nat) => a.elemAt Act.read [(i : Int)]

/-- ra.hh:580-582 `hodge(a)` when it isn't trivial and `a` is an array: `auto b(a)` makes a copy of the elements. -/
def hodgeArray (D O : Nat) (a : View) : Act R Unit := do
  let b ← readArr a (dimvSize a.dims).toNat
  hodgexFrom .const D O (dimvSize a.dims) (fun i => match b[i]? with
    | some x => pure x
    | none => fault .check) a

/-- ra.hh:580-582 `hodge(a)` when it isn't trivial and `a` is a view: `auto b(a)` is another view of the same elements (arrays.hh:118). -/
def hodgeView (k : ElemRef) (D O : Nat) (a : View) : Act R Unit := hodgexMem k D O a a

/-- `r = {x ...}` in ra.hh:521: arrays.hh:130 with 34-43. -/
def writeVec (r : View) : Nat → List R → Act R Unit
  | _, [] => pure ()
  | k, x :: xs => do
    r.elemAt (fun p => Act.write p x) [(k : Int)]
    writeVec r (k + 1) xs

/-- ra.hh:585-587 `wedge(a, b, r)`, with 517-522. -/
def wedgeMem (D Oa Ob : Nat) (a b r : View) : Act R Unit := do
  let x ← readArr a (binom D Oa)
  let y ← readArr b (binom D Ob)
  match wedge D Oa Ob x y with
  | some z => if dimvSize r.dims = binom D (Oa + Ob) then writeVec r 0 z else fault .abort
  | none => fault .abort

end
end Ra
