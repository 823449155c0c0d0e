import Verif.Model.Mp
import Mathlib.Algebra.Ring.Defs
/-!
# Wedge product and Hodge star

Components are lists of values of a commutative ring. A scalar is a list of one component. `none` is an error when compiling.
-/

namespace Ra

variable {R : Type} [CommRing R]

/-- Component `w` of `a`: `a[Sa::where]`, or `a` if it is a scalar (ra.hh:511-512), with the `static_assert` in 510. -/
def component (a : List R) (w : Int) : Option R := if w ≥ 0 then a[w.toNat]? else none

/-- ra.hh:498-516 `Wedge::term<Xr, Fa>(a, b)`. -/
def wedgeTerm (Ca Cb : List (List Nat)) (X : List Nat) (a b : List R) : List (List Nat) → Option R
  | [] => some 0
  | F :: Fs =>
    let G := complementList F X F
    let sign := findSign F Ca * findSign G Cb * permsign (F ++ G) X
    if sign = 1 ∨ sign = -1 then do
      let aw ← component a (findWhere F Ca)
      let bw ← component b (findWhere G Cb)
      let r ← wedgeTerm Ca Cb X a b Fs
      pure ((sign : R) * aw * bw + r)
    else none

/-- ra.hh:475-523 `Wedge::prod(a, b, r)` and 585-602 `wedge(a, b)`, except for two scalars. -/
def wedge (D Oa Ob : Nat) (a b : List R) : Option (List R) :=
  if Oa ≤ D ∧ Ob ≤ D ∧ Oa + Ob ≤ D then do
    let Ca ← choose D Oa
    let Cb ← choose D Ob
    let Cr ← choose D (Oa + Ob)
    if a.length = binom D Oa ∧ b.length = binom D Ob ∧ Cr.length = binom D (Oa + Ob) then
      Cr.mapM fun X => do
        let Fa ← combs X Oa
        wedgeTerm Ca Cb X a b Fa
    else none
  else none

/-- ra.hh:593-594 `wedge(a, b)` for two scalars. -/
def wedgeScalar (a b : R) : R := a * b

/-- ra.hh:604-605 `cross(a, b)`. -/
def cross (a b : List R) : Option (List R) := wedge a.length 1 1 a b

/-- ra.hh:607-612 `perp(v)`. -/
def perp (v : List R) : Option (List R) :=
  match v with
  | [x, y] => some [y, -x]
  | _ => none

/-- ra.hh:614-620 `perp(v, n)` with scalar `n`. -/
def perpScalar (v : List R) (n : R) : Option (List R) :=
  match v with
  | [x, y] => some [y * n, -x * n]
  | _ => none

/-- ra.hh:539-559 `Hodge::hodge_aux<i>(a, b)`, from the list `Ca` from `i` on. `b` is the destination. -/
def hodgeAux (D O : Nat) (Lex Cb Cr : List (List Nat)) (a : List R) : Nat → List (List Nat) → List R → Option (List R)
  | _, [], b => some b
  | i, Cai :: Ca, b =>
    let wl := findWhere Cai Lex
    if wl < 0 then none
    else do
      let SCai ← Lex[wl.toNat]?
      let CompCai := complement SCai D
      let w := findWhere CompCai Cb
      if O = Cai.length ∧ D - O = CompCai.length ∧ w ≥ 0 then
        let Cbw ← Cb[w.toNat]?
        let s := findSign (Cai ++ Cbw) Cr
        let ai ← a[i]?
        if s ≠ 0 then hodgeAux D O Lex Cb Cr a (i + 1) Ca (b.set w.toNat ((s : R) * ai)) else none
      else none

/-- ra.hh:564-566 `hodgex(a, b)`, with 526-535. -/
def hodgex (D O : Nat) (a b : List R) : Option (List R) :=
  if O ≤ D then do
    let Ca ← choose D O
    let Cb ← choose D (D - O)
    let Cr ← choose D (O + (D - O))
    let Lex ← combs (mpIota D 0) O
    if a.length = binom D O ∧ b.length = binom D (D - O) then hodgeAux D O Lex Cb Cr a 0 Ca b else none
  else none

/-- ra.hh:537 `Hodge::trivial`. -/
def hodgeTrivial (D O : Nat) : Bool := decide (2 * O ≠ D) && (decide (2 * O < D) || !decide (O * (D - O) % 2 = 1))

/-- ra.hh:568-574 `hodge(a, b)`, two arguments. -/
def hodge (D O : Nat) (a b : List R) : Option (List R) :=
  if O ≤ D then
    if hodgeTrivial D O then (if a.length = binom D O ∧ b.length = binom D (D - O) then some a else none)
    else hodgex D O a b
  else none

/-- ra.hh:576-582 `hodge(a)`, one argument. -/
def hodge1 (D O : Nat) (a : List R) : Option (List R) :=
  if O ≤ D then
    if hodgeTrivial D O then (if a.length = binom D O then some a else none)
    else hodgex D O a a
  else none

end Ra
