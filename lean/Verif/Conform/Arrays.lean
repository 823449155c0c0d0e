import Verif.Conform.Exprs
import Verif.Model.Fill
import Verif.Model.ShapeArg
/-!
# Arrays

test/big-0.cc, test/big-1.cc, test/ra-0.cc, test/owned.cc, test/ownership.cc, test/swap.cc.
-/

namespace Ra.Conform

/-- No memory in use. -/
def none' : Mem Int := fun _ => .none

/-- What's in a new array before anything is written. -/
def junk (_ : Nat) : Int := -77

/-- Positions of the elements of a view in row-major order. -/
def spots : List Dim → Int → List Int
  | [], p => [p]
  | d :: ds, p => (List.range d.len.toNat).flatMap fun (i : Nat) => spots ds (p + (i : Int) * d.step)

/-- Shape and elements of an array that was made. -/
def made (r : Except Fault Arr × Mem Int) : Except Fault (List Int × List (Option Int)) :=
  match r with
  | (.ok a, μ) => .ok (a.dims.map (·.len), (spots a.dims a.base).map μ)
  | (.error e, _) => .error e

/-- Do something to an array that was made. -/
def andThen (r : Except Fault Arr × Mem Int) (f : Arr → Mem Int → Except Fault Unit × Arr × Mem Int) : Except Fault Arr × Mem Int :=
  match r with
  | (.ok a, μ) => match f a μ with
    | (.ok (), a, μ) => (.ok a, μ)
    | (.error e, _, μ) => (.error e, μ)
  | (.error e, μ) => (.error e, μ)

/-- Do something to the elements of an array that was made. -/
def andDo (r : Except Fault Arr × Mem Int) (f : Arr → Act Int Unit) : Except Fault Arr × Mem Int :=
  andThen r fun a μ => let q := f a μ; (q.1, a, q.2)

/-- Expressions with values. -/
abbrev E := Iter (Act Int) (Lv Int)

/-- Scalar. -/
def sc' (x : Int) : E := .scalar (pure (.val x))
/-- `ra::_0`, `ra::_1`, ... -/
def tix' (k : Nat) : E := .reframe [k] (.cell [⟨UNB, 1⟩] 0 fun i => pure (.val i))
/-- A vector. -/
def vec' (xs : List Int) : E := listIter Lv.val xs
/-- `ra::ptr(p)`, for elements that are there. -/
def ptr' (xs : List Int) : E := .cell [⟨UNB, 1⟩] 0 fun i => match xs[i.toNat]? with
  | some x => if 0 ≤ i then pure (.val x) else fault .ub
  | .none => fault .ub

/-- `Big<int, R>({s ...}, {xs ...})`. -/
def withList (rk : Option Nat) (s xs : List Int) : Except Fault Arr × Mem Int := Arr.ofList rk (some 100) junk s xs none'
/-- `Big<int, R>({s ...}, e)`. -/
def withExpr (rk : Option Nat) (s : List Int) (e : E) : Except Fault Arr × Mem Int := Arr.ofExpr rk (some 100) junk rk.isNone [] s e none'

/-! ## test/big-0.cc -/

/-- big-0.cc:28-30: too many dims. -/
example : (made (withExpr (some 2) [2, 3, 1] (sc' 99)), made (withList (some 2) [2, 3, 1] [1, 2, 3, 4, 5, 6]), made (withExpr (some 0) [3, 4] (sc' 3)))
    = (.error .check, .error .check, .error .check) := by decide +kernel
/-- big-0.cc:35-36: too few, too many dims. -/
example : [[2], [2, 3, 4]].map (fun s => (Arr.fill ⟨some 2, [⟨0, 0⟩, ⟨0, 0⟩], 0, 0⟩ s).1) = [.error .check, .error .check] := by decide +kernel
/-- big-0.cc:60-65: `Big<double, 1> a(sizes, none); a = 33`. -/
example : made (andDo (withExpr (some 1) [5] (sc' 0)) fun a => assign false [] a.view.refs (sc' 33)) = .ok ([5], List.replicate 5 (some 33)) := by decide +kernel
/-- big-0.cc:89-95. -/
example : made (withList (some 2) [3, 2] [0, 1, 2, 3, 4, 5]) = .ok ([3, 2], (fill [3, 2] fun i => i.getD 0 0 * 2 + i.getD 1 0).map some) := by decide +kernel
/-- big-0.cc:96-101. -/
example : made (withExpr Option.none [3, 1] (sc' 3)) = .ok ([3, 1], [some 3, some 3, some 3]) := by decide +kernel
/-- big-0.cc:131-146: nested braces in an assignment. -/
example : made (andDo (withList (some 2) [2, 3] [0, 1, 2, 3, 4, 5]) fun a => assignBraces (fun _ => false) (fun _ => []) 2 a.view ([[4, 5, 6], [7, 8, 9]] : List (List Int)))
    = .ok ([2, 3], [4, 5, 6, 7, 8, 9].map some) := by decide +kernel
/-- big-0.cc:154-160, 235-245: nested braces in a constructor, with static rank or not. -/
example : [some 2, Option.none].map (fun rk => made (Arr.ofBraces rk (some 100) junk (fun _ => rk.isNone) (fun _ => []) 2 ([[4, 5, 6], [7, 8, 9]] : List (List Int)) none'))
    = List.replicate 2 (.ok ([2, 3], [4, 5, 6, 7, 8, 9].map some)) := by decide +kernel
/-- big-0.cc:263-271: default constructors. -/
example : [Option.none, some 1].map (fun rk => (Arr.default rk).dims) = [[⟨0, 1⟩], [⟨0, 1⟩]] := by decide +kernel
/-- big-0.cc:272-279: scalar shape for rank 1. -/
example : [Option.none, some 1].map (fun rk => made (withExpr rk [3] (tix' 0))) = List.replicate 2 (.ok ([3], [some 0, some 1, some 2])) := by decide +kernel
/-- big-0.cc:290-294: from a scalar, with dynamic rank. -/
example : made (concreteBig Option.none (some 100) junk true [] (sc' 4) none') = .ok ([], [some 4]) := by decide +kernel
/-- big-0.cc:302-313: conversion to scalar. And of an array with two elements. -/
example : [[], [1], [1, 1], [2]].map (fun s => match withExpr (some s.length) s (sc' 3) with
    | (.ok a, μ) => (concreteValue a.view.refs μ).1
    | (.error e, _) => .error e) = [.ok 3, .ok 3, .ok 3, .error .check] := by decide +kernel

/-! ## test/big-1.cc -/

/-- big-1.cc:28-40: `push_back` on an empty array. -/
example : made (andThen (.ok (Arr.default (some 1)), none') (Arr.pushBack (some 100) 12)) = .ok ([1], [some 12]) := by decide +kernel
/-- big-1.cc:48-53: `BigValueInit<int, 1>`. -/
example : made (andThen (andThen (withList (some 1) [6] [1, 2, 3, 4, 5, 6]) (Arr.resize (some 100) (fun _ => 0) 3)) (Arr.resize (some 200) (fun _ => 0) 6))
    = .ok ([6], [1, 2, 3, 0, 0, 0].map some) := by decide +kernel
/-- big-1.cc:54-64: `resize` of the first axis. -/
example : made (andThen (withList (some 2) [3, 2] [1, 2, 3, 4, 5, 6]) (Arr.resize .none junk 2)) = .ok ([2, 2], [1, 2, 3, 4].map some) := by decide +kernel
/-- big-1.cc:75-88: `iter(a.dimv) = c.dimv` makes a Fortran array, then `a() = b` keeps its dims. -/
example : (let r := andThen (withList (some 2) [2, 3] [0, 1, 2, 3, 4, 5]) fun a μ => (.ok (), { a with dims := [⟨2, 1⟩, ⟨3, 2⟩] }, μ)
    (made r, (andDo r fun a => assign false [] a.view.refs (.cell [⟨2, 3⟩, ⟨3, 1⟩] 0 fun p => pure (.val p))) |> made))
    = (.ok ([2, 3], [0, 2, 4, 1, 3, 5].map some), .ok ([2, 3], [0, 1, 2, 3, 4, 5].map some)) := by decide +kernel
/-- big-1.cc:158-163: a view of a sequence. -/
example : seqElems (View.ofShape [3, 2] 1) = .ok ([3, 2], [1, 2, 3, 4, 5, 6]) := by decide +kernel
/-- big-1.cc:164-172: a view as `iota<w>`. -/
example : (elems (op2 (· + ·) (.cell [⟨UNB, 1⟩] 0 seq) (vec [1, 2, 3])),
    made (withExpr Option.none [3, 4] (binaryOp (· - ·) (.cell [⟨UNB, 1⟩] 0 fun i => pure (.val i)) (.cell [⟨UNB, 0⟩, ⟨UNB, 1⟩] 0 fun i => pure (.val i)))))
    = (.ok ([3], [1, 3, 5]), .ok ([3, 4], [0, -1, -2, -3, 1, 0, -1, -2, 2, 1, 0, -1].map some)) := by decide +kernel

/-! ## test/ra-0.cc -/

/-- ra-0.cc:57-63: the static length doesn't depend on the order. -/
example : (colen 4 ANY, colen ANY 4) = (4, 4) := by decide +kernel
/-- ra-0.cc:72-78: a view in memory. -/
example : viewElems [99, 2, 3, 4, 5, 6] (.ok ⟨[⟨3, 2⟩, ⟨2, 1⟩], 0⟩) = .ok ([3, 2], [99, 2, 3, 4, 5, 6]) := by decide +kernel
/-- ra-0.cc:148-158: `Big<int> x {9}` has rank 1 and `Big<int> y = 9` has rank 0. -/
example : (made (Arr.ofBraces Option.none (some 100) junk (fun _ => true) (fun _ => []) 1 ([9] : List Int) none'),
    made (concreteBig Option.none (some 100) junk true [] (sc' 9) none')) = (.ok ([1], [some 9]), .ok ([], [some 9])) := by decide +kernel
/-- ra-0.cc:186-205: through iterators. -/
example : (stlElems (leaf ⟨[⟨3, 2⟩, ⟨2, 1⟩], 0⟩ [1, 2, 3, 4, 5, 6]), stlElems (leaf ⟨[⟨6, 1⟩], 0⟩ [1, 2, 3, 4, 5, 6]))
    = (.ok [1, 2, 3, 4, 5, 6], .ok [1, 2, 3, 4, 5, 6]) := by decide +kernel
/-- ra-0.cc:277-289: copy to the iterator of a view in another order. -/
example : (let r := (View.toRavel (V := Int) false false [1, 2, 3, 4, 5, 6] ⟨[⟨3, 1⟩, ⟨2, 3⟩], 0⟩ fun p => if 0 ≤ p ∧ p < 6 then some 0 else .none)
    (r.1.isOk, [0, 1, 2, 3, 4, 5].map r.2)) = (true, [1, 3, 5, 2, 4, 6].map some) := by decide +kernel
/-- ra-0.cc:290-305: from a pointer. -/
example : made (Arr.ofPtr Option.none (some 100) junk [3, 2] 0 fun p => if 0 ≤ p ∧ p < 6 then some (p+1) else .none) = .ok ([3, 2], [1, 2, 3, 4, 5, 6].map some) := by
  decide +kernel
/-- ra-0.cc:306-315: from Fortran order. -/
example : stlElems (leaf ⟨[⟨3, 1⟩, ⟨2, 3⟩], 0⟩ [1, 2, 3, 4, 5, 6]) = .ok [1, 4, 2, 5, 3, 6] := by decide +kernel
/-- ra-0.cc:324-344: a pointer matches the first axis. -/
example : made (withExpr (some 2) [3, 2] (ptr' [1, 2, 3, 4, 5, 6])) = .ok ([3, 2], [1, 1, 2, 2, 3, 3].map some) := by decide +kernel
/-- ra-0.cc:347-365: with a shape and an expression that can't drive. -/
example : [tix' 0, binaryOp (· + ·) (sc' 3) (tix' 0), binaryOp (· - ·) (tix' 0) (tix' 1)].map (fun e => made (withExpr (some 2) [3, 2] e))
    = [.ok ([3, 2], [0, 0, 1, 1, 2, 2].map some), .ok ([3, 2], [3, 3, 4, 4, 5, 5].map some), .ok ([3, 2], [0, -1, 1, 0, 2, 1].map some)] := by decide +kernel
/-- ra-0.cc:376-384: with a shape and an expression. -/
example : [sc' 9, vec' [11, 22, 33]].map (fun e => made (withExpr (some 2) [3, 2] e))
    = [.ok ([3, 2], [9, 9, 9, 9, 9, 9].map some), .ok ([3, 2], [11, 11, 22, 22, 33, 33].map some)] := by decide +kernel
/-- ra-0.cc:385-394: move. -/
example : (match withList (some 2) [3, 2] [2, 3, 1, 4, 8, 9] with
    | (.ok a, μ) => (made (.ok (Arr.moveOut a).1, μ), (Arr.moveOut a).2.n)
    | (.error e, _) => (.error e, 0)) = (.ok ([3, 2], [2, 3, 1, 4, 8, 9].map some), 0) := by decide +kernel
/-- ra-0.cc:395-408: from a scalar, and `b = 55`. -/
example : made (andDo (concreteBig Option.none (some 100) junk true [] (sc' 44) none') fun a => assign true [] a.view.refs (sc' 55)) = .ok ([], [some 55]) := by decide +kernel
/-- ra-0.cc:468-494: row-major assignment from a list, to an array and to its transpose. -/
example : (let r := andDo (withList (some 2) [3, 2] [0, 0, 0, 0, 0, 0]) fun a => a.toRavel [2, 3, 1, 4, 8, 9]
    (made r, made (andDo r fun a => View.toRavel false false [2, 3, 1, 4, 8, 9] ⟨a.dims.reverse, a.base⟩)))
    = (.ok ([3, 2], [2, 3, 1, 4, 8, 9].map some), .ok ([3, 2], [2, 4, 3, 8, 1, 9].map some)) := by decide +kernel

/-! ## test/owned.cc -/

/-- owned.cc:20-39: `resize` of the first axis keeps the elements that there were. -/
example : [5, 8, 3].map (fun n => match made (andThen (withExpr (some 2) [5, 3] (binaryOp (· - ·) (tix' 0) (tix' 1))) (Arr.resize (some 200) junk n)) with
    | .ok (s, xs) => (s, xs.take 9)
    | .error _ => ([], [])) = [5, 8, 3].map fun n => ([n, 3], [0, -1, -2, 1, 0, -1, 2, 1, 0].map some) := by decide +kernel
/-- owned.cc:40-48: with a value for the new elements. -/
example : made (andThen (withExpr (some 1) [2] (sc' 3)) (Arr.resize (some 200) (fun _ => 9) 4)) = .ok ([4], [3, 3, 9, 9].map some) := by decide +kernel
/-- owned.cc:49-57: from length 0. -/
example : made (andThen (withExpr (some 3) [0, 3, 2] (sc' 0)) (Arr.resize (some 200) junk 1)) = .ok ([1, 3, 2], List.replicate 6 (some (-77))) := by decide +kernel
/-- owned.cc:59-67: `resize` with a shape, with smaller sizes. The elements stay in row-major order. -/
example : made (andThen (withExpr Option.none [3, 2, 2] (binaryOp (· - ·) (tix' 0) (tix' 2))) (Arr.resizeShape .none junk [5, 2]))
    = .ok ([5, 2], [0, -1, 0, -1, 1, 0, 1, 0, 2, 1].map some) := by decide +kernel
/-- owned.cc:68-85: `push_back`. -/
example : [Option.none, some 1].map (fun rk => made (andThen (andThen (andThen (andThen (.ok (Arr.default rk), none') (Arr.pushBack (some 100) 2)) (Arr.pushBack (some 200) 3))
    (Arr.pushBack (some 300) 4)) (Arr.pushBack (some 400) 7))) = List.replicate 2 (.ok ([4], [2, 3, 4, 7].map some)) := by decide +kernel

/-! ## test/ownership.cc -/

/-- ownership.cc:44-50: a copy is another array. -/
example : (match withExpr (some 1) [5] (sc' 11) with
    | (.ok a, μ) => match Arr.copyFrom (some 200) (Arr.default (some 1)) a μ with
      | (.ok (), b, μ) => (match assign false [] a.view.refs (sc' 99) μ with
        | (.ok (), μ) => some (made (.ok a, μ), made (.ok b, μ))
        | _ => .none)
      | _ => .none
    | _ => .none) = some (.ok ([5], List.replicate 5 (some 99)), .ok ([5], List.replicate 5 (some 11))) := by decide +kernel
/-- ownership.cc:66-87: `operator=` between arrays replaces, with static rank or not. -/
example : [some 1, Option.none].map (fun rk => match withExpr rk [5] (sc' 11) with
    | (.ok a, μ) => match Arr.ofExpr rk (some 200) junk rk.isNone [] [7] (sc' 4) μ with
      | (.ok b, μ) => made (andThen (.ok b, μ) fun b μ => Arr.copyFrom (some 300) b a μ)
      | (.error e, _) => .error e
    | (.error e, _) => .error e) = List.replicate 2 (.ok ([5], List.replicate 5 (some 11))) := by decide +kernel

/-! ## test/swap.cc -/

/-- swap.cc:34-42, 54-62: with static rank and not, and with different dynamic ranks. -/
example : [(some 2, Option.none, [3, 2]), (Option.none, Option.none, [2, 3, 2]), (some 2, some 2, [3, 2]), (some 2, Option.none, [2, 3, 2])].map (fun t =>
    match withExpr t.1 [2, 3] (sc' 1) with
    | (.ok a, μ) => match Arr.ofExpr t.2.1 (some 200) junk true [] t.2.2 (tix' 0) μ with
      | (.ok b, μ) => match Arr.swap a b with
        | (.ok (), a, b) => (made (.ok a, μ), made (.ok b, μ))
        | (.error e, _, _) => (.error e, .error e)
      | (.error e, _) => (.error e, .error e)
    | (.error e, _) => (.error e, .error e))
    = [(.ok ([3, 2], [0, 0, 1, 1, 2, 2].map some), .ok ([2, 3], List.replicate 6 (some 1))),
       (.ok ([2, 3, 2], [0, 0, 0, 0, 0, 0, 1, 1, 1, 1, 1, 1].map some), .ok ([2, 3], List.replicate 6 (some 1))),
       (.ok ([3, 2], [0, 0, 1, 1, 2, 2].map some), .ok ([2, 3], List.replicate 6 (some 1))),
       (.error .check, .error .check)] := by decide +kernel

end Ra.Conform
