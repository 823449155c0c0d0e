import Verif.Model.Dual
import Verif.Model.Format
/-!
# Printing and reading dual numbers

As in `Model/Format.lean`, the parts of a dual number are printed with `print` and read with `rd`.
-/

namespace Ra

variable {T V : Type}

/-- ra.hh:693-694 `operator<<`. -/
def Dual.print (print : T → List Char) (a : Dual T) : List Char := ['['] ++ print a.re ++ [' '] ++ print a.du ++ [']']

/-- `i >> s` for a `char` (ra.hh:699, 702): the first one that isn't white space. -/
def readChar (t : List Char) : Option (Char × List Char) :=
  match t.dropWhile isSpace with
  | c :: r => some (c, r)
  | [] => none

/-- ra.hh:696-706 `operator>>`. The result has the parts that were read; `none` is for those that weren't. On line 699 `s` isn't initialized and if it can't be read then it's used as it is. On line
703 it's the opening bracket if it can't be read. -/
def Stream.readDual (rd : List Char → Option (T × List Char)) (i : Stream) : Except Fault ((Option T × Option T) × Stream) :=
  match i.read readChar with
  | (none, _) => .error .ub
  | (some s, i) =>
    if s ≠ '[' then .ok ((none, none), { i with good := false })
    else
      let re := i.read rd
      let du := re.2.read rd
      let c := du.2.read readChar
      let s := c.1.getD s
      .ok ((re.1, du.1), if s ≠ ']' then { c.2 with good := false } else c.2)

/-- ply.hh:582, 594, 607: `for (auto & ci: c) { i >> ci; }` for elements that are read with `rd`. It's `Stream.readEach` for a `>>` that can fail. -/
def Stream.readAll (rd : Stream → Except Fault (V × Stream)) : Nat → Stream → Except Fault (List V × Stream)
  | 0, i => .ok ([], i)
  | n+1, i => do
    let x ← rd i
    let r ← Stream.readAll rd n x.2
    .ok (x.1 :: r.1, r.2)

/-- ply.hh:599-610 `operator>>` for an array that doesn't have static size. It's `Stream.readArray` for a `>>` that can fail. -/
def Stream.readArrayOf (rank : Option Nat) (rd : Stream → Except Fault (V × Stream)) (i : Stream) : Except Fault (Option (List Int × List V) × Stream) := do
  let s ← i.readShape rank
  if s.2.good then
    if s.1.all (fun n => decide (0 ≤ n)) then do
      let r ← Stream.readAll rd (s.1.foldl (· * ·) 1).toNat s.2
      .ok (some (s.1, r.1), r.2)
    else .error .check
  else .ok (none, s.2)

end Ra
