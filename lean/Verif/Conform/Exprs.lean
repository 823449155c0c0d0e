import Verif.Conform.Base
import Verif.Model.Static
import Verif.Model.Matrix
/-!
# Expressions

From test/frame-new.cc, test/frame-old.cc, test/wrank.cc, test/ply.cc, test/where.cc, test/early.cc and test/reduction.cc.
-/

namespace Ra.Conform

/-- The index of the row and so on, for `fill`. -/
def ix (k : Nat) (j : List Int) : Int := j.getD k 0

/-! ## frame-new.cc -/

/-- frame-new.cc:50: `(ra::_0+1)*100 + (ra::_1+1)*10 + (ra::_2+1)`. -/
def fa : List Int := fill [2, 3, 4] fun j => (ix 0 j + 1) * 100 + (ix 1 j + 1) * 10 + (ix 2 j + 1)
/-- frame-new.cc:51. -/
def fb : List Int := fill [2, 3, 4, 5] fun j => (ix 0 j + 1) * 1000 + (ix 1 j + 1) * 100 + (ix 2 j + 1) * 10 + (ix 3 j + 1)

-- frame-new.cc:48-66, 79-99, 117-145
example : (op2 (· + ·) (arr [2, 3, 4] fa) (arr [2, 3, 4, 5] fb)).rank = 4 := by decide +kernel
example : (op2 (· + ·) (arr [2, 3, 4] fa) (arr [2, 3, 4, 5] fb)).shape = [2, 3, 4, 5] := by decide +kernel
example : (op2 (· + ·) (arr [2, 3, 4] fa) (arr [2, 3, 4, 5] fb)).size = 2 * 3 * 4 * 5 := by decide +kernel
example : elems (op2 (· + ·) (arr [2, 3, 4] fa) (arr [2, 3, 4, 5] fb)) =
    .ok ([2, 3, 4, 5], fill [2, 3, 4, 5] fun j => (ix 0 j + 1) * 1100 + (ix 1 j + 1) * 110 + (ix 2 j + 1) * 11 + (ix 3 j + 1)) := by decide +kernel
-- frame-new.cc:59-64, the static lengths
example : (STree.node [.cell (some [2, 3, 4]), .cell (some [2, 3, 4, 5])]).rank = 4 := by decide +kernel
example : (List.range 4).map ((STree.node [.cell (some [2, 3, 4]), .cell (some [2, 3, 4, 5])]).len false) = [2, 3, 4, 5] := by decide +kernel
example : (STree.node [.cell (some [2, 3, 4]), .cell (some [2, 3, 4, 5])]).size = 2 * 3 * 4 * 5 := by decide +kernel
-- frame-new.cc:67-78
example : fullCheck (m := M) (α := Int) [.cell (some [2, 3, 4]), .cell (some [2, 4, 4, 5])] [arr [2, 3, 4] [], arr [2, 4, 4, 5] []] = false := by decide +kernel
-- frame-new.cc:91-96
example : (List.range 4).map ((STree.node [.cell (some [ANY, ANY, ANY]), .cell (some [ANY, ANY, ANY, ANY])]).len false) = [ANY, ANY, ANY, ANY] := by decide +kernel
example : (STree.node [.cell (some [ANY, ANY, ANY]), .cell (some [ANY, ANY, ANY, ANY])]).size = ANY := by decide +kernel
-- frame-new.cc:100-116
example : agree [arr [2, 3, 4] [], arr [2, 4, 4, 5] []] = false := by decide +kernel
example : agree [arr [2, 3, 4] [], arr [2, 3, 4, 5] []] = true := by decide +kernel
-- frame-new.cc:133-139
example : (STree.node [.cell (some [ANY, ANY, ANY]), .cell none]).rank = ANY ∧ (STree.node [.cell none, .cell none]).size = ANY := by decide +kernel
example : (List.range 4).map ((STree.node [.cell none, .cell (some [ANY, ANY, ANY, ANY])]).len false) = [ANY, ANY, ANY, ANY] := by decide +kernel
-- frame-new.cc:146-174, cases with periodic axes
example : ((big [2, 3, 4]).from [all, .insert 1, io 4 0 0]).map (fun b => (op2 (· + ·) (arr [2, 3, 4] fa) (leaf b fa)).shape) = .ok [2, 3, 4, 4] := by decide +kernel
example : ((big [2, 3, 4]).from [all, .insert 1, io 4 0 0]).bind (fun b => elems (op2 (· + ·) (arr [2, 3, 4] fa) (leaf b fa))) =
    elems (op2 (· + ·) (arr [2, 3, 4] fa) (arr [2, 3, 4, 4] (fill [2, 3, 4, 4] fun j => (ix 0 j + 1) * 100 + 10 + (ix 3 j + 1)))) := by decide +kernel
example : ((big [2, 3, 4]).from [all, .insert 1, io 4 0 0]).bind (fun b => elems (op2 (· + ·) (leaf b fa) (arr [2, 3, 4] fa))) =
    elems (op2 (· + ·) (arr [2, 3, 4] fa) (arr [2, 3, 4, 4] (fill [2, 3, 4, 4] fun j => (ix 0 j + 1) * 100 + 10 + (ix 3 j + 1)))) := by decide +kernel
-- frame-new.cc:175-191, broadcasting
example : (do
    let a ← (big [4, 3]).from [.dots (some 2), .insert 1]
    let b ← (big [5]).from [.insert 2, .dots (some 1)]
    elems (op2 (· - ·) (leaf a (fill [4, 3] fun j => 10 * ix 1 j + 100 * ix 0 j)) (leaf b (fill [5] (ix 0))))) =
    .ok ([4, 3, 5], fill [4, 3, 5] fun j => 10 * ix 1 j + 100 * ix 0 j - ix 2 j) := by decide +kernel
/-- An outer product. -/
def outer (f : Int → Int → Int) (a b : Iter M Int) : Except Fault (List Int × List Int) :=
  match fromOp (fun xs => match xs with | [x, y] => pure (f x y) | _ => fault .abort) [a, b] with
  | some e => elems e
  | none => .error .abort
example : outer (· - ·) (arr [4, 3] (fill [4, 3] fun j => 10 * ix 1 j + 100 * ix 0 j)) (vec (fill [5] (ix 0))) =
    .ok ([4, 3, 5], fill [4, 3, 5] fun j => 10 * ix 1 j + 100 * ix 0 j - ix 2 j) := by decide +kernel
-- frame-new.cc:198-209
example : elems (op2 (fun x y => if x = y then 1 else 0)
      (op2 (· + ·) (op2 (· + ·) (op2 (· + ·) (op2 (· * ·) (tix 0) (sc 1)) (op2 (· * ·) (tix 1) (sc 0))) (op2 (· * ·) (tix 2) (sc 5))) (sc 1))
      (leaf ⟨[⟨5, 1⟩, ⟨1, 0⟩, ⟨2, 5⟩], 0⟩ [1, 2, 3, 4, 5, 6, 7, 8, 9, 10])) = .ok ([5, 1, 2], List.replicate 10 1) := by decide +kernel
-- frame-new.cc:211-219
example : (STree.node [.cell (some [UNB]), .scalar]).size = UNB ∧ (STree.node [.cell (some [UNB, UNB]), .scalar]).size = UNB := by decide +kernel

/-! ## frame-old.cc -/

-- frame-old.cc:20-27
example : (op2 (· + ·) (tix 0) (sc 1)).rank = 1 ∧ (op2 (· + ·) (tix 0) (sc 1)).len 0 = UNB := by decide +kernel
-- frame-old.cc:28-44
example : elems (op2 (fun a b => a - (b + 1)) (arr [3, 2] [1, 2, 3, 4, 5, 6]) (tix 0)) = .ok ([3, 2], [0, 1, 1, 2, 2, 3]) := by decide +kernel
example : elems (op2 (fun a b => b - (a + 1)) (tix 0) (arr [3, 2] [1, 2, 3, 4, 5, 6])) = .ok ([3, 2], [0, 1, 1, 2, 2, 3]) := by decide +kernel
-- frame-old.cc:45-61
example : elems (op2 (fun a b => a - (b + 1)) (arr [3, 2] [1, 2, 3, 4, 5, 6]) (tix 1)) = .ok ([3, 2], [0, 0, 2, 2, 4, 4]) := by decide +kernel
example : elems (op2 (fun a b => b - (a + 1)) (tix 1) (arr [3, 2] [1, 2, 3, 4, 5, 6])) = .ok ([3, 2], [0, 0, 2, 2, 4, 4]) := by decide +kernel
-- frame-old.cc:62-106
example : elems (op2 (· - ·) (arr [3, 2] [1, 2, 3, 4, 5, 6]) (vec [1, 2, 3])) = .ok ([3, 2], [0, 1, 1, 2, 2, 3]) := by decide +kernel
example : elems (op2 (fun a b => b - a) (vec [1, 2, 3]) (arr [3, 2] [1, 2, 3, 4, 5, 6])) = .ok ([3, 2], [0, 1, 1, 2, 2, 3]) := by decide +kernel
-- frame-old.cc:107-119
example : elems (op2 (fun _ x => x) (arr [2, 2] [0, 0, 0, 0]) (op2 (· - ·) (vec [1, 2]) (tix 1))) = .ok ([2, 2], [1, 0, 2, 1]) := by decide +kernel
-- frame-old.cc:120-127
example : fromElems (big [3, 2]) (fill [3, 2] fun j => ix 0 j - ix 1 j) [.array] [vec [0, 1, 2]] = .ok ([3, 2], fill [3, 2] fun j => ix 0 j - ix 1 j) := by decide +kernel

/-! ## wrank.cc -/

/-- A verb with two arguments. -/
def verb2 (f : Int → Int → Int) (cr : List (List Nat)) (a b : Iter M Int) : Except Fault (List Int × List Int) :=
  match mapVerb (fun xs => match xs with | [x, y] => pure (f x y) | _ => fault .abort) cr [a, b] with
  | some e => elems e
  | none => .error .abort

-- wrank.cc:139-161
example : verb2 (· - ·) [[0, 1]] (vec [10, 11, 12]) (vec [1, 2, 3, 4]) = .ok ([3, 4], [9, 8, 7, 6, 10, 9, 8, 7, 11, 10, 9, 8]) := by decide +kernel
example : verb2 (· - ·) [[1, 0]] (vec [10, 11, 12]) (vec [1, 2, 3, 4]) = .ok ([4, 3], [9, 10, 11, 8, 9, 10, 7, 8, 9, 6, 7, 8]) := by decide +kernel
-- wrank.cc:162-182
example : verb2 (fun a b => 100 * a + b) [[0, 1]] (vec [10, 11, 12]) (vec [1, 2, 3, 4]) =
    .ok ([3, 4], [1001, 1002, 1003, 1004, 1101, 1102, 1103, 1104, 1201, 1202, 1203, 1204]) := by decide +kernel
-- wrank.cc:198-207
example : (verb2 (· * ·) [[0, 0]] (arr [2, 2, 2] (List.replicate 8 1)) (arr [2, 2, 2] (List.replicate 8 2))).map (fun r => r.2.sum) = .ok 16 := by decide +kernel
-- wrank.cc:208-221: d(i, k, j) = a(i, k)*b(k, j)
example : verb2 (· * ·) [[1, 2], [0, 1]] (arr [2, 3] (fill [2, 3] fun j => ix 0 j - ix 1 j)) (arr [3, 2] (fill [3, 2] fun j => ix 1 j - 2 * ix 0 j)) =
    .ok ([2, 3, 2], fill [2, 3, 2] fun j => (ix 0 j - ix 1 j) * (ix 2 j - 2 * ix 1 j)) := by decide +kernel
-- wrank.cc:283-293
example : outer (· - ·) (iotaAt 3) (iotaAt 3) = .ok ([3, 3], [0, -1, -2, 1, 0, -1, 2, 1, 0]) := by decide +kernel
example : outer (· - ·) (vec [0, 1, 2]) (vec [0, 1, 2]) = .ok ([3, 3], [0, -1, -2, 1, 0, -1, 2, 1, 0]) := by decide +kernel

/-! ## ply.cc -/

-- ply.cc:28-45
example : elems (op2 (· - ·) (arr [3, 2] [0, 1, 2, 3, 4, 5]) (sc 3)) = .ok ([3, 2], [-3, -2, -1, 0, 1, 2]) := by decide +kernel
-- ply.cc:67-82
example : elems (op2 (· - ·) (arr [3, 2, 4] (fill [24] (ix 0))) (arr [3, 2, 4] (fill [24] (ix 0)))) = .ok ([3, 2, 4], List.replicate 24 0) := by decide +kernel
-- ply.cc:84-105
example : elems (op2 (· - ·) (arr [] [7]) (sc 3)) = .ok ([], [4]) := by decide +kernel
-- ply.cc:106-154, empty
example : elems (vec []) = .ok ([0], []) := by decide +kernel
example : elems (arr [2, 0] []) = .ok ([2, 0], []) := by decide +kernel
example : elems (arr [0, 2] []) = .ok ([0, 2], []) := by decide +kernel
example : elems (arr [] [0]) = .ok ([], [0]) := by decide +kernel
example : elems (op2 (· + ·) (arr [2, 0] []) (arr [2, 0] [])) = .ok ([2, 0], []) := by decide +kernel
example : elems (op2 (· + ·) (arr [0, 2] []) (sc 1)) = .ok ([0, 2], []) := by decide +kernel
example : stlElems (arr [0, 2] []) = .ok [] ∧ stlElems (arr [2, 0] []) = .ok [] ∧ stlElems (vec []) = .ok [] ∧ stlElems (arr [] [5]) = .ok [5] := by decide +kernel
-- ply.cc:198-234
example : elems (op2 (fun _ x => x) (arr [3, 2] (List.replicate 6 0)) (vec [1, 2, 3])) = .ok ([3, 2], [1, 1, 2, 2, 3, 3]) := by decide +kernel
example : elems (op2 (fun _ x => x) (arr [3, 2, 4] (List.replicate 24 0)) (arr [3, 2] [1, 2, 3, 4, 5, 6])) =
    .ok ([3, 2, 4], fill [3, 2, 4] fun j => 2 * ix 0 j + ix 1 j + 1) := by decide +kernel
-- ply.cc:245-255
example : elems (op2 (fun _ x => x) (vec [0, 0, 0]) (sc 7)) = .ok ([3], [7, 7, 7]) := by decide +kernel
example : elems (op2 (fun _ x => x) (vec [0, 0, 0]) (tix 0)) = .ok ([3], [0, 1, 2]) := by decide +kernel
-- ply.cc:260-289
example : elems (op2 (· - ·) (arr [3, 2, 4] (fill [24] fun j => ix 0 j + 1)) (arr [3, 2] [1, 2, 3, 4, 5, 6])) =
    .ok ([3, 2, 4], [0, 1, 2, 3, 3, 4, 5, 6, 6, 7, 8, 9, 9, 10, 11, 12, 12, 13, 14, 15, 15, 16, 17, 18]) := by decide +kernel

/-! ## where.cc -/

/-- `pick(p, a ...)`. -/
def picked (p : Iter M Int) (a : List (Iter M Int)) : Iter M Int := .node (pickOp Int.toNat) (p :: a)

/-- Counts the elements that are evaluated, with 1000 in the list of those visited. -/
def counted (a : Iter M Int) : Iter M Int :=
  .node (mapOp fun xs => match xs with | [x] => do modify (1000 :: ·); pure x | _ => fault .abort) [a]

-- where.cc:22-38
example : elems (picked (vec [0, 1, 0]) [vec [1, 2, 3], vec [10, 20, 30]]) = .ok ([3], [1, 20, 3]) := by decide +kernel
example : (elems (picked (vec [0, 1, 0]) [counted (vec [1, 2, 3]), counted (vec [10, 20, 30])])).map (fun r => r.2.count 1000) = .ok 3 := by decide +kernel
example : elems (whereOp (vec [0, 1, 0]) (vec [1, 2, 3]) (vec [10, 20, 30])) = .ok ([3], [10, 2, 30]) := by decide +kernel
example : (elems (whereOp (vec [0, 1, 0]) (counted (vec [1, 2, 3])) (counted (vec [10, 20, 30])))).map (fun r => r.2.count 1000) = .ok 3 := by decide +kernel
-- where.cc:54-62
example : elems (op2 (· + ·) (sc 3) (picked (vec [0, 1]) [vec [1, 2], vec [10, 20]])) = .ok ([2], [4, 23]) := by decide +kernel
-- where.cc:76-97
example : elems (whereOp (sc 1) (vec [1, 2]) (op1 (- ·) (vec [1, 2]))) = .ok ([2], [1, 2]) := by decide +kernel
example : ((whereOp (sc 1) (vec [1, 2]) (op1 (- ·) (vec [1, 2]))).at [0]).run [] = .ok (1, []) := by decide +kernel
example : elems (whereOp (sc 1) (op2 (· - ·) (vec [1, 2]) (sc 3)) (op1 (- ·) (vec [1, 2]))) = .ok ([2], [-2, -1]) := by decide +kernel
-- where.cc:98-109
example : elems (whereOp (vec [1, 0, 0, 1]) (sc 1) (sc 2)) = .ok ([4], [1, 2, 2, 1]) := by decide +kernel
example : elems (whereOp (andOp (op2 (fun a b => ofBool (a > b)) (tix 0) (sc 0)) (op2 (fun a b => ofBool (a < b)) (tix 0) (sc 3))) (vec [1, 2, 3, 4]) (sc 17)) =
    .ok ([4], [17, 2, 3, 17]) := by decide +kernel
example : elems (whereOp (vec [1, 0, 0, 1]) (op2 (· + ·) (op2 (· * ·) (sc 2) (tix 0)) (sc 1)) (op2 (· * ·) (sc 2) (tix 0))) = .ok ([4], [1, 2, 4, 7]) := by decide +kernel
example : elems (whereOp (vec [1, 0, 0, 1]) (sc 99) (arr [4, 3] (fill [4, 3] fun j => ix 0 j - ix 1 j))) =
    .ok ([4, 3], [99, 99, 99, 1, 0, -1, 2, 1, 0, 99, 99, 99]) := by decide +kernel
-- where.cc:110-122
example : elems (whereOp (op2 (fun a b => ofBool (a ≥ b)) (vec [-1, 0, 1]) (sc 0)) (whereOp (op2 (fun a b => ofBool (a < b)) (vec [-1, 0, 1]) (sc 1)) (sc 77) (sc 99)) (sc 44)) =
    .ok ([3], [44, 77, 99]) := by decide +kernel
-- examples/where-pick.cc:15-41
example : elems (whereOp (op2 (fun a b => ofBool (a > b)) (op1 (fun a => (a.natAbs : Int)) (vec [-3, -2, -1, 0, 1, 2, 3])) (sc 2)) (op2 (· + ·) (vec [-3, -2, -1, 0, 1, 2, 3]) (sc 10))
    (op2 (· - ·) (vec [-3, -2, -1, 0, 1, 2, 3]) (sc 10))) = .ok ([7], [7, -12, -11, -10, -9, -8, 13]) := by decide +kernel
example : elems (picked (whereOp (op2 (fun a b => ofBool (a < b)) (vec [-3, -2, -1, 0, 1, 2, 3]) (sc 0)) (sc 0) (whereOp (op2 (fun a b => ofBool (a == b)) (vec [-3, -2, -1, 0, 1, 2, 3]) (sc 0)) (sc 1) (sc 2)))
    [op2 (· * ·) (vec [-3, -2, -1, 0, 1, 2, 3]) (sc 3), sc 77, op2 (· * ·) (vec [-3, -2, -1, 0, 1, 2, 3]) (sc 2)]) = .ok ([7], [-9, -6, -3, 77, 2, 4, 6]) := by decide +kernel
-- where.cc:162-166
example : elems (whereOp (vec [1, 0]) (op2 (· * ·) (sc 3) (tix 0)) (op2 (· * ·) (sc 2) (tix 0))) = .ok ([2], [0, 2]) := by decide +kernel
-- where.cc:167-177
example : elems (andOp (vec [1, 1, 0, 0]) (vec [1, 0, 1, 0])) = .ok ([4], [1, 0, 0, 0]) := by decide +kernel
example : (elems (andOp (vec [1, 1, 0, 0]) (counted (vec [1, 0, 1, 0])))).map (fun r => r.2.count 1000) = .ok 2 := by decide +kernel
example : elems (orOp (vec [1, 1, 0, 0]) (vec [1, 0, 1, 0])) = .ok ([4], [1, 1, 1, 0]) := by decide +kernel
example : (elems (orOp (vec [1, 1, 0, 0]) (counted (vec [1, 0, 1, 0])))).map (fun r => r.2.count 1000) = .ok 2 := by decide +kernel

/-! ## early.cc and reduction.cc -/

/-- Values for `early`: `std::optional<bool>` or `std::optional<int>` is `none`, or the number. -/
local instance optBool : Optional Int Bool :=
  ⟨fun x => if x = 0 then none else some (x = 1), fun o => match o with | none => 0 | some true => 1 | some false => 2, by intro o; rcases o with _ | _ | _ <;> rfl⟩

/-- `any` and `every`, if both kinds of traversal agree. -/
def anyEvery (a : Iter M Int) : Except Fault (Bool × Bool) := do
  let (x, _) ← (anyOf true [] a).run []
  let (x', _) ← (anyOf false [] a).run []
  let (y, _) ← (everyOf true [] a).run []
  let (y', _) ← (everyOf false [] a).run []
  if x = x' ∧ y = y' then return (x, y) else .error .fuel

/-- `a == b`. -/
def eqs (a b : Iter M Int) : Iter M Int := op2 (fun x y => ofBool (x = y)) a b

-- early.cc:17-28
example : anyEvery (eqs (arr [] [99]) (sc 99)) = .ok (true, true) := by decide +kernel
-- early.cc:29-34, 52-57
example : anyEvery (op1 (· % 2) (arr [2, 3] (fill [2, 3] fun j => ix 0 j * 2 + ix 1 j * 10))) = .ok (false, false) := by decide +kernel
-- early.cc:35-43
example : anyEvery (eqs (sc 1) (arr [2, 3] [1, 1, 1, 1, 0, 1])) = .ok (true, false) := by decide +kernel
example : anyEvery (eqs (sc 0) (arr [2, 3] [1, 1, 1, 1, 0, 1])) = .ok (true, false) := by decide +kernel
example : ((big [2, 3]).transpose [1, 0]).bind (fun v => anyEvery (eqs (sc 1) (leaf v [1, 1, 1, 1, 0, 1]))) = .ok (true, false) := by decide +kernel
-- reduction.cc:35-53
example : anyEvery (op2 (· + ·) (sc 10) (arr [4, 4] (fill [4, 4] fun j => ix 0 j - ix 1 j))) = .ok (true, true) := by decide +kernel
example : anyEvery (sc 1) = .ok (true, true) ∧ anyEvery (sc 0) = .ok (false, false) := by decide +kernel
example : anyEvery (eqs (vec [5, 5]) (sc 5)) = .ok (true, true) := by decide +kernel
example : anyEvery (eqs (vec [2, 5]) (sc 5)) = .ok (true, false) := by decide +kernel
example : anyEvery (eqs (vec [5, 2]) (sc 5)) = .ok (true, false) := by decide +kernel
example : anyEvery (eqs (vec [2, 3]) (sc 5)) = .ok (false, false) := by decide +kernel

/-- Pairs, for `std::optional<int>`. -/
abbrev M2 := Except Fault
/-- A leaf of pairs (0, x). -/
def leaf2 (s : List Int) (xs : List Int) : Iter M2 (Int × Int) :=
  .cell (big s).dims 0 fun p => if 0 ≤ p ∧ p < xs.length then .ok (0, xs.getD p.toNat 0) else .error .ub
local instance : Integer (Int × Int) := ⟨Prod.snd, fun i => (0, i), fun _ => rfl⟩
local instance : Boolean (Int × Int) := ⟨fun x => x.2 ≠ 0, fun b => (0, if b then 1 else 0), by decide⟩
local instance : Optional (Int × Int) Int :=
  ⟨fun x => if x.1 = 0 then none else some x.2, fun o => match o with | none => (0, 0) | some i => (1, i), by intro o; cases o <;> rfl⟩
/-- `ra::index(f(a))`. -/
def indexIf (f : Int → Bool) (a : Iter M2 (Int × Int)) : Except Fault (Int × Int) := do
  let e : Iter M2 (Int × Int) := .node (mapOp fun xs => match xs with | [x] => pure (0, if f x.2 then 1 else 0) | _ => fault .abort) [a]
  let x ← indexOf true [] e
  let y ← indexOf false [] e
  return (x, y)
-- early.cc:64-82
example : indexIf (· < 0) (leaf2 [4] [1, 3, -1, 9]) = .ok (2, 2) := by decide +kernel
example : indexIf (· > 10) (leaf2 [4] [1, 3, -1, 9]) = .ok (-1, -1) := by decide +kernel
example : indexIf (· < 0) (leaf2 [2, 2] [1, 3, -1, 9]) = .ok (1, 1) := by decide +kernel
example : indexIf (· > 10) (leaf2 [2, 2] [1, 3, -1, 9]) = .ok (-1, -1) := by decide +kernel

/-- Leaf for the reductions that keep a value. -/
def rleaf (s : List Int) (xs : List Int) : Iter (StateT Int (Except Fault)) Int :=
  .cell (big s).dims 0 fun p => if 0 ≤ p ∧ p < xs.length then pure (xs.getD p.toNat 0) else fault .ub

-- reduction.cc:22-34
example : amax (-10000) true [] (rleaf [2, 2] [1, 2, 9, -10]) = .ok 9 := by decide +kernel
example : amax (-10000) false [] (op2 (· + ·) (rleaf [2, 2] [1, 2, 9, -10]) (rleaf [2, 2] [1, 1, 1, 1])) = .ok 10 := by decide +kernel
-- reduction.cc:83-109
example : dotOf true [] (rleaf [2] [1, 2]) (rleaf [2] [3, 4]) = .ok 11 := by decide +kernel
example : cdotOf id false [] (rleaf [2] [1, 2]) (rleaf [2] [3, 4]) = .ok 11 := by decide +kernel
example : reduceSqrm (fun x => x * x) true [] (op2 (· - ·) (rleaf [2] [1, 2]) (rleaf [2] [3, 4])) = .ok 8 := by decide +kernel
-- reduction.cc:237-239, the value that stands for infinity
example : amin 10000 true [] (rleaf [0] []) = .ok 10000 := by decide +kernel

/-! ## In memory -/

/-- A list in memory, at 0, 1, ... -/
def memOf (xs : List Int) : Mem Int := fun p => if 0 ≤ p ∧ p < xs.length then xs[p.toNat]? else none

/-- What's in memory after an action that has to succeed. -/
def after (xs : List Int) (x : Act Int Unit) : Except Fault (List Int) :=
  match x (memOf xs) with
  | (.ok _, μ) => .ok ((List.range xs.length).map fun i : Nat => (μ i).getD 0)
  | (.error f, _) => .error f

/-- A row-major view at `p`. -/
def bigAt (s : List Int) (p : Int) : View := ⟨(big s).dims, p⟩

-- reduction.cc:141-174: C += A, C = C + A sum the columns; here A is 2 x 3 at 2 and C is at 0
example : after [0, 0, 1, 2, 3, 4, 5, 6] (update (· + ·) true [] (bigAt [2] 0).refs (bigAt [2, 3] 2).refs) = .ok [6, 15, 1, 2, 3, 4, 5, 6] := by decide +kernel
example : after [0, 0, 1, 2, 3, 4, 5, 6] (assign true [] (bigAt [2] 0).refs (binaryOp (· + ·) (bigAt [2] 0).refs (bigAt [2, 3] 2).refs)) =
    .ok [6, 15, 1, 2, 3, 4, 5, 6] := by decide +kernel
example : after [0, 1, 2, 3] (update (· + ·) false [] (bigAt [] 0).refs (bigAt [3] 1).refs) = .ok [6, 1, 2, 3] := by decide +kernel
-- reduction.cc:241-260 gemv, with x at 0, a at 4 and y at 16
example : after ([1, 2, 3, 4] ++ (fill [3, 4] fun j => ix 0 j - ix 1 j) ++ [0, 0, 0]) (gemvSliceB true [] (bigAt [3, 4] 4).refs (bigAt [4] 0) (bigAt [3] 16).refs) =
    .ok ([1, 2, 3, 4] ++ (fill [3, 4] fun j => ix 0 j - ix 1 j) ++ [-20, -10, 0]) := by decide +kernel
example : after ([1, 2, 3, 4] ++ (fill [3, 4] fun j => ix 0 j - ix 1 j) ++ [0, 0, 0]) (gemvIter true [] true [] (bigAt [3, 4] 4) (bigAt [4] 0).refs (bigAt [3] 16).refs) =
    .ok ([1, 2, 3, 4] ++ (fill [3, 4] fun j => ix 0 j - ix 1 j) ++ [-20, -10, 0]) := by decide +kernel
-- reduction.cc:261-279 gevm
example : after ([1, 2, 3, 4] ++ (fill [4, 3] fun j => ix 1 j - ix 0 j) ++ [0, 0, 0]) (gevmSliceC true [] (bigAt [4] 0).refs (bigAt [4, 3] 4).refs (bigAt [3] 16)) =
    .ok ([1, 2, 3, 4] ++ (fill [4, 3] fun j => ix 1 j - ix 0 j) ++ [-20, -10, 0]) := by decide +kernel
-- reduction.cc:290-298 gemm, with A at 0, B at 6, C at 14
example : after (List.replicate 6 2 ++ List.replicate 8 3 ++ List.replicate 12 0) (gemmSlice true [] (bigAt [3, 2] 0).refs (bigAt [2, 4] 6) (bigAt [3, 4] 14)) =
    .ok (List.replicate 6 2 ++ List.replicate 8 3 ++ List.replicate 12 12) := by decide +kernel
-- reduction.cc:316-323
example : after (List.replicate 6 2 ++ List.replicate 8 3 ++ List.replicate 12 1) (gemmIter true [] (bigAt [3, 2] 0) (bigAt [2, 4] 6) (bigAt [3, 4] 14).refs) =
    .ok (List.replicate 6 2 ++ List.replicate 8 3 ++ List.replicate 12 13) := by decide +kernel
-- reduction.cc:344-367 gemv with non-slices
example : after (List.replicate 6 2 ++ List.replicate 2 3 ++ List.replicate 3 1) (gemvSliceB false [] (bigAt [3, 2] 0).refs (bigAt [2] 6) (bigAt [3] 8).refs) =
    .ok (List.replicate 6 2 ++ List.replicate 2 3 ++ List.replicate 3 13) := by decide +kernel
example : after (List.replicate 6 2 ++ List.replicate 2 3 ++ List.replicate 3 0) (gemvSliceC false [] (bigAt [3, 2] 0) (bigAt [2] 6).refs (bigAt [3] 8)) =
    .ok (List.replicate 6 2 ++ List.replicate 2 3 ++ List.replicate 3 12) := by decide +kernel
example : after (List.replicate 6 2 ++ List.replicate 2 3 ++ List.replicate 3 1) (gemvIter false [] false [] (bigAt [3, 2] 0) (bigAt [2] 6).refs (bigAt [3] 8).refs) =
    .ok (List.replicate 6 2 ++ List.replicate 2 3 ++ List.replicate 3 13) := by decide +kernel
-- reduction.cc:379-400 gevm with non-slices
example : after (List.replicate 2 3 ++ List.replicate 6 2 ++ List.replicate 3 1) (gevmSliceA false [] (bigAt [2] 0) (bigAt [2, 3] 2) (bigAt [3] 8).refs) =
    .ok (List.replicate 2 3 ++ List.replicate 6 2 ++ List.replicate 3 13) := by decide +kernel
example : after (List.replicate 2 3 ++ List.replicate 6 2 ++ List.replicate 3 1) (gevmSliceC false [] (bigAt [2] 0).refs (bigAt [2, 3] 2).refs (bigAt [3] 8)) =
    .ok (List.replicate 2 3 ++ List.replicate 6 2 ++ List.replicate 3 13) := by decide +kernel
example : after (List.replicate 2 3 ++ List.replicate 6 2 ++ List.replicate 3 1) (gevmIter false [] false [] (bigAt [2] 0).refs (bigAt [2, 3] 2) (bigAt [3] 8).refs) =
    .ok (List.replicate 2 3 ++ List.replicate 6 2 ++ List.replicate 3 13) := by decide +kernel

end Ra.Conform
