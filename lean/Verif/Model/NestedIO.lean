import Verif.Model.DualIO
import Verif.Model.ViewOps
/-!
# Printing and reading arrays of arrays, and several things in turn

As in `Model/Format.lean`, the innermost elements are printed with `print` and read with `rd`.
-/

namespace Ra

variable {V : Type}

/-- What's static in the type of an array: `SmallArray<T, ...>` (arrays.hh:169), `Array` with static rank and `Array` with rank `ANY` (arrays.hh:252). -/
inductive AKind where
  | static (s : List Nat)
  | rank (r : Nat)
  | any

/-- `size_s(a)==ANY` (base.hh:390-404, on ply.hh:664). -/
def AKind.anysize : AKind → Bool
  | .static _ => false
  | _ => true

/-- `rank_s(a)==ANY`, as the result of `shape` is a vector then (base.hh:426-427, on ply.hh:661). -/
def AKind.anyrank : AKind → Bool
  | .any => true
  | _ => false

/-- The type of an element (arrays.hh:169, 252 `T`): it might be another array. -/
inductive AType where
  | elem
  | array (k : AKind) (t : AType)

/-- An array by its shape and its elements, which are in row-major order in its storage (arrays.hh:169-217, 252-322). -/
structure Items (X : Type) where
  shape : List Nat
  elems : List X

/-- An object of the given type (arrays.hh:169, 252). -/
def AType.Val (V : Type) : AType → Type
  | .elem => V
  | .array _ t => Items (t.Val V)

/-- What's read (ply.hh:576-610): for an element, it or nothing; for an array, its shape and what's read for each of its elements, or nothing. -/
def AType.Got (V : Type) : AType → Type
  | .elem => Option V
  | .array _ t => Option (List Int × List (t.Got V))

/-- `std::format("{}", a)`, also `o << a` (ply.hh:569-575, 656-697). The elements of an array are formatted by `under` (line 671), which is the formatter for the type of the elements (lines
617-619), so with the default style as `parse` isn't called with other than `}` (line 653). `*a` and `under.format` on it are modelled together, by the reference of the iterator. -/
def AType.text (print : V → List Char) : (t : AType) → t.Val V → Except Fault (List Char)
  | .elem, x => .ok (print x)
  | .array k t, a => do
    let v ← View.ofShape (a.shape.map Nat.cast) 0
    format jstyle id k.anysize k.anyrank (.cell v.dims v.cp fun i =>
      if i < 0 then .error .ub else match a.elems[i.toNat]? with
        | some x => text print t x
        | none => .error .ub)

/-- `i >> a` (ply.hh:576-610): lines 576-582 for static size, or else 599-610. -/
def AType.read (rd : List Char → Option (V × List Char)) : (t : AType) → Stream → Except Fault (t.Got V × Stream)
  | .elem, i => .ok (i.read rd)
  | .array (.static s) t, i => do
    let r ← Stream.readAll (read rd t) (s.foldl (· * ·) 1) i
    .ok (some (s.map Nat.cast, r.1), r.2)
  | .array (.rank r) t, i => Stream.readArrayOf (some r) (read rd t) i
  | .array .any t, i => Stream.readArrayOf none (read rd t) i

/-- An argument of `print` or `format` (base.hh:464-465): a string, or something of the types above. -/
inductive PArg (V : Type) where
  | str (s : List Char)
  | val (t : AType) (x : t.Val V)

/-- base.hh:462-463 `print1`. Either way (`std::print` or `<<`) it's the same text. -/
def PArg.text (print : V → List Char) : PArg V → Except Fault (List Char)
  | .str s => .ok s
  | .val t x => t.text print x

/-- base.hh:464-466 `print` and `format`: each argument in turn. -/
def printArgs (print : V → List Char) : List (PArg V) → Except Fault (List Char)
  | [] => .ok []
  | a :: as => do
    let s ← a.text print
    let r ← printArgs print as
    .ok (s ++ r)

/-- `i >> a >> b ...`, with ply.hh:576-610. -/
def readArgs (rd : List Char → Option (V × List Char)) : List AType → Stream → Except Fault (List ((t : AType) × t.Got V) × Stream)
  | [], i => .ok ([], i)
  | t :: ts, i => do
    let x ← t.read rd i
    let r ← readArgs rd ts x.2
    .ok (⟨t, x.1⟩ :: r.1, r.2)

end Ra
