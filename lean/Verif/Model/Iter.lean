import Verif.Model.Match
/-!
# Array iterators

One tree type for the classes that satisfy the `Iterator` concept (base.hh:298-311). Reading an element may have any effect, so it is
an action in a monad `m`.

Simplifications:
* Element values of all the leaves have one type `α` (take a sum type for mixed expressions; a reference is a value of `α` that holds an
  address).
* A pointer is an `Int`; what it points to is given by `rd`. A `Seq` pointer (expr.hh:79-100) is the integer it holds and `rd` is `pure`.
* The `static`/`requires` variants of each method are merged, since they compute the same value.
* Axis numbers are `Nat`: the code never calls these methods with a negative axis.
-/

namespace Ra

/-- Positions (`save()`) and steps (`step(k)`): an integer, or a tuple of them for `Match` (expr.hh:620-631). -/
inductive Tree where
  | leaf (x : Int)
  | node (t : List Tree)

/-- Iterators.
* `scalar`: expr.hh:104-120 `Scalar`.
* `cell`: expr.hh:266-312 `Cell`. `dims` are the frame dims (`dimv[0..framer)`), `cp` is `c.cp`, and `rd` gives `*a`: the element
  `*c.cp` if the cell rank is 0, else the view with base `c.cp` and fixed dims.
* `reframe`: expr.hh:402-455 `Reframe`.
* `node`: expr.hh:532-634 `Match` together with how `Map` (expr.hh:652-663) or `Pick` (expr.hh:712-722) use the arguments to make their
  element; see `mapOp` and `pickOp`. -/
inductive Iter (m : Type → Type) (α : Type) where
  | scalar (c : m α)
  | cell (dims : List Dim) (cp : Int) (rd : Int → m α)
  | reframe (dest : List Nat) (a : Iter m α)
  | node (op : List (m α) → m α) (t : List (Iter m α))

/-- Value that stands for the result of `len(k)` when the axis `k` doesn't exist: expr.hh:110-111 aborts and expr.hh:292-293 reads outside
of `dimv`. The callers guard with `k<rank`. It is negative so that it cannot pass for a length. -/
def noLen : Int := -1

/-- expr.hh:408 `Reframe::orig`: the first original axis that goes to axis `k`; `none` is the `-1` in the code (dead axis). -/
def orig (dest : List Nat) (k : Nat) : Option Nat := dest.findIdx? (· == k)

/-- expr.hh:407 `Reframe::rank`. -/
def reframeRank (dest : List Nat) : Int := if dest = [] then 0 else 1 + (dest.foldl max 0 : Nat)

/-- expr.hh:294-295 `Cell::step(k)`, 0 for axes over the rank. -/
def stepOf (dims : List Dim) (k : Nat) : Int := ((dims[k]?).map Dim.step).getD 0

/-- expr.hh:292-293 `Cell::len(k)`. -/
def lenOf (dims : List Dim) (k : Nat) : Int := ((dims[k]?).map Dim.len).getD noLen

mutual
/-- expr.hh:399-400 `samestep<0, T>`. -/
def Tree.zeroLike : Tree → Tree
  | .leaf _ => .leaf 0
  | .node t => .node (zeroLikes t)
/-- expr.hh:399-400, for each item of a tuple. -/
def zeroLikes : List Tree → List Tree
  | [] => []
  | x :: t => x.zeroLike :: zeroLikes t
end

/-- expr.hh:164-181 `indexer`, the loop on line 175. `dims` and the index advance together. -/
def indexLoop : List Dim → Int → List Int → Except Fault Int
  | [], cp, _ => .ok cp
  | _ :: _, _, [] => .error .ub
  | d :: ds, cp, i :: j => if inside i d.len ∨ UNB = d.len then indexLoop ds (cp + i * d.step) j else .error .check

/-- expr.hh:164-181 `indexer`. The index `p` is a rank 1 iterator over `j`; other ranks are rejected statically or on line 169. -/
def indexer (dims : List Dim) (cp : Int) (j : List Int) : Except Fault Int :=
  if j.length ≥ dims.length then indexLoop dims cp j else .error .check

section
variable {m : Type → Type} {α : Type}

mutual
/-- `rank()`: expr.hh:109 (`Scalar`), 287 (`Cell`), 407 (`Reframe`), 575-578 (`Match`). -/
def Iter.rank : Iter m α → Int
  | .scalar _ => 0
  | .cell dims _ _ => dims.length
  | .reframe dest _ => reframeRank dest
  | .node _ t => coranks UNB (rankList t)
/-- expr.hh:575-578, for each argument of `Match`. -/
def rankList : List (Iter m α) → List Int
  | [] => []
  | a :: t => a.rank :: rankList t
end

mutual
/-- `len(k)`: expr.hh:111 (`Scalar`), 293 (`Cell`), 420-424 (`Reframe`), 598-608 (`Match`). -/
def Iter.len : Iter m α → Nat → Int
  | .scalar _, _ => noLen
  | .cell dims _ _, k => lenOf dims k
  | .reframe dest a, k =>
    match orig dest k with
    | some l => a.len l
    | none => UNB
  | .node _ t, k => colens UNB (lenList t k)
/-- What each argument of `Match` contributes to `len(k)`: expr.hh:600-606. -/
def lenList : List (Iter m α) → Nat → List (Option Int)
  | [], _ => []
  | a :: t, k => (if (k : Int) < a.rank then some (a.len k) else none) :: lenList t k
end

mutual
/-- `step(k)`: expr.hh:112, 294-295, 444-448, 621-624. -/
def Iter.step : Iter m α → Nat → Tree
  | .scalar _, _ => .leaf 0
  | .cell dims _ _, k => .leaf (stepOf dims k)
  | .reframe dest a, k =>
    match orig dest k with
    | some l => a.step l
    | none => (a.step 0).zeroLike
  | .node _ t, k => .node (stepList t k)
/-- expr.hh:621-624, for each argument of `Match`. -/
def stepList : List (Iter m α) → Nat → List Tree
  | [], _ => []
  | a :: t, k => a.step k :: stepList t k
end

mutual
/-- `adv(k, d)`: expr.hh:113, 300, 449, 630. -/
def Iter.adv : Iter m α → Nat → Int → Iter m α
  | .scalar c, _, _ => .scalar c
  | .cell dims cp rd, k, d => .cell dims (cp + stepOf dims k * d) rd
  | .reframe dest a, k, d =>
    match orig dest k with
    | some l => .reframe dest (a.adv l d)
    | none => .reframe dest a
  | .node op t, k, d => .node op (advList t k d)
/-- expr.hh:630, for each argument of `Match`. -/
def advList : List (Iter m α) → Nat → Int → List (Iter m α)
  | [], _, _ => []
  | a :: t, k, d => a.adv k d :: advList t k d
end

mutual
/-- `mov(s)`: expr.hh:119, 310, 454, 633. A tree of another form is a type error in the code. -/
def Iter.mov : Iter m α → Tree → Iter m α
  | .scalar c, _ => .scalar c
  | .cell dims cp rd, .leaf d => .cell dims (cp + d) rd
  | .cell dims cp rd, .node _ => .cell dims cp rd
  | .reframe dest a, s => .reframe dest (a.mov s)
  | .node op t, .node s => .node op (movList t s)
  | .node op t, .leaf _ => .node op t
/-- expr.hh:633, for each argument of `Match`. -/
def movList : List (Iter m α) → List Tree → List (Iter m α)
  | a :: t, x :: s => a.mov x :: movList t s
  | t, _ => t
end

mutual
/-- `save()`: expr.hh:117, 306, 452, 631. -/
def Iter.save : Iter m α → Tree
  | .scalar _ => .leaf 0
  | .cell _ cp _ => .leaf cp
  | .reframe _ a => a.save
  | .node _ t => .node (saveList t)
/-- expr.hh:631, for each argument of `Match`. -/
def saveList : List (Iter m α) → List Tree
  | [] => []
  | a :: t => a.save :: saveList t
end

mutual
/-- `load(p)`: expr.hh:118, 307, 453, 632. A tree of another form is a type error in the code. -/
def Iter.load : Iter m α → Tree → Iter m α
  | .scalar c, _ => .scalar c
  | .cell dims _ rd, .leaf p => .cell dims p rd
  | .cell dims cp rd, .node _ => .cell dims cp rd
  | .reframe dest a, s => .reframe dest (a.load s)
  | .node op t, .node s => .node op (loadList t s)
  | .node op t, .leaf _ => .node op t
/-- expr.hh:632, for each argument of `Match`. -/
def loadList : List (Iter m α) → List Tree → List (Iter m α)
  | a :: t, x :: s => a.load x :: loadList t s
  | t, _ => t
end

mutual
/-- `keep(st, z, j)`: expr.hh:114, 296-297, 425-436, 609-618. -/
def Iter.keep : Iter m α → Int → Nat → Nat → Bool
  | .scalar _, _, _, _ => true
  | .cell dims _ _, st, z, j => st * stepOf dims z == stepOf dims j
  | .reframe dest a, st, z, j =>
    match orig dest z, orig dest j with
    | some wz, some wj => a.keep st wz wj
    | _, _ => false
  | .node _ t, st, z, j => keepList t st z j
/-- expr.hh:609-618, for each argument of `Match`. -/
def keepList : List (Iter m α) → Int → Nat → Nat → Bool
  | [], _, _, _ => true
  | a :: t, st, z, j => a.keep st z j && keepList t st z j
end

mutual
/-- `*a`: expr.hh:116, 303-304, 451, and 661 (`Map`), 720 (`Pick`) through `op`. -/
def Iter.deref : Iter m α → m α
  | .scalar c => c
  | .cell _ cp rd => rd cp
  | .reframe _ a => a.deref
  | .node op t => op (derefList t)
/-- expr.hh:661, 720, for each argument of `Map` or `Pick`. -/
def derefList : List (Iter m α) → List (m α)
  | [] => []
  | a :: t => a.deref :: derefList t
end

mutual
/-- `a.at(j)`: expr.hh:115, 301-302, 450, and 660 (`Map`), 719 (`Pick`) through `op`. On line 450 `j[di]` reads outside of `j` if an entry
of the destination axes is not below the size of `j`; that is undefined behaviour. -/
def Iter.at [MonadFault m] : Iter m α → List Int → m α
  | .scalar c, _ => c
  | .cell dims cp rd, j =>
    match indexer dims cp j with
    | .ok p => rd p
    | .error f => fault f
  | .reframe dest a, j =>
    if dest.all (· < j.length) then a.at (dest.map fun d => j.getD d 0) else fault .ub
  | .node op t, j => op (atList t j)
/-- expr.hh:660, 719, for each argument of `Map` or `Pick`. -/
def atList [MonadFault m] : List (Iter m α) → List Int → List (m α)
  | [], _ => []
  | a :: t, j => a.at j :: atList t j
end

/-- The shape as given by `len(k)` for `k` below the rank: base.hh:416-430 `shape`. -/
def Iter.shape (a : Iter m α) : List Int := (List.range a.rank.toNat).map a.len

/-- The element of `Map`: expr.hh:661 `std::invoke(op, *get<I>(t) ...)`. The arguments are evaluated, then the operation is applied.
C++ doesn't fix the order in which the arguments are evaluated; this one goes left to right. -/
def mapOp [Monad m] (f : List α → m α) (xs : List (m α)) : m α := do
  let vs ← xs.mapM id
  f vs

/-- expr.hh:701-710 `pick_star` (also 688-697 `pick_at`). `I` is the template parameter, the list has the arguments from `I+1` on. -/
def pickStar [MonadFault m] (I p0 : Nat) : List (m α) → m α
  | [] => fault .check
  | x :: xs => if p0 = I then x else pickStar (I+1) p0 xs

/-- The element of `Pick`: expr.hh:719-720. The first argument is the selector. `sel` is the conversion of the selector to `std::size_t`. -/
def pickOp [Monad m] [MonadFault m] (sel : α → Nat) (xs : List (m α)) : m α :=
  match xs with
  | [] => fault .abort -- `requires (sizeof...(P)>1)`
  | p :: ps => do
    let i ← p
    pickStar 0 (sel i) ps

/-- Values that convert to and from `bool`, for `cast<bool>` (expr.hh:680-681; ra.hh:252-272). -/
class Boolean (α : Type) where
  toBool : α → Bool
  ofBool : Bool → α
  toBool_ofBool : ∀ b, toBool (ofBool b) = b

export Boolean (toBool ofBool)

/-- `bool` itself (ra.hh:252-272). -/
instance : Boolean Bool := ⟨id, id, fun _ => rfl⟩
/-- Integers convert to `bool` (ra.hh:252-272). -/
instance : Boolean Int := ⟨fun x => decide (x ≠ 0), fun b => if b then 1 else 0, by decide⟩

/-- expr.hh:680-681 `cast<bool>` with one argument. -/
def castBool [Monad m] [MonadFault m] [Boolean α] (a : Iter m α) : Iter m α :=
  .node (mapOp fun vs => match vs with | [v] => pure (ofBool (toBool v)) | _ => fault .abort) [a]

/-- ra.hh:255-256 `where` with array arguments. -/
def whereOp [Monad m] [MonadFault m] [Boolean α] (w t f : Iter m α) : Iter m α :=
  .node (pickOp fun v => if toBool v then 1 else 0) [castBool w, f, t]

/-- ra.hh:262-263 `operator &&` with array arguments. -/
def andOp [Monad m] [MonadFault m] [Boolean α] (a b : Iter m α) : Iter m α :=
  whereOp a (castBool b) (.scalar (pure (ofBool false)))

/-- ra.hh:265-266 `operator ||` with array arguments. -/
def orOp [Monad m] [MonadFault m] [Boolean α] (a b : Iter m α) : Iter m α :=
  whereOp a (.scalar (pure (ofBool true))) (castBool b)

end

end Ra
