import Verif.Model.Ply
/-!
# Compile time shapes and checks

What the types say about the lengths. `STree` is the type of an expression as far as the lengths go, and a value of that type is an `Iter` with
the same form (`Inst` in Props/Static.lean).
-/

namespace Ra

/-- Types of iterators (expr.hh:104-120, 266-312, 402-455, 532-634). In `cell`, `none` is a view of rank `ANY`; else each length is a number, `UNB`, or `ANY`. -/
inductive STree where
  | scalar
  | cell (lens : Option (List Int))
  | reframe (dest : List Nat) (a : STree)
  | node (t : List STree)

mutual
/-- `rank_s`: expr.hh:109 (`Scalar`), 287-288 (`Cell`), 407 (`Reframe`), 537 (`Match::rs`). -/
def STree.rank : STree → Int
  | .scalar => 0
  | .cell none => ANY
  | .cell (some lens) => lens.length
  | .reframe dest _ => reframeRank dest
  | .node t => coranks UNB (srankList t)
/-- expr.hh:537, for each argument. -/
def srankList : List STree → List Int
  | [] => []
  | a :: t => a.rank :: srankList t
end

/-- expr.hh:582-591, the fold in `Match::len_s(k, check)`, from the running length `s`. An argument is `none` if its rank isn't over `k`. -/
def scolens (check : Bool) : Int → List (Option Int) → Int
  | s, [] => s
  | s, none :: t => if s = MIS then s else scolens check s t
  | s, some sk :: t =>
    let s' := if MIS = sk then MIS else if check && (ANY = sk || ANY = s) then ANY else colen sk s
    if s' = MIS then s' else scolens check s' t

mutual
/-- `len_s(k)`: expr.hh:110, 291, 409-413, and `len_s(k, check)`, 579-591. A `Reframe` calls `len_s` of its argument without `check`, even in a `Match`. -/
def STree.len : STree → Bool → Nat → Int
  | .scalar, _, _ => noLen
  | .cell none, _, _ => ANY
  | .cell (some lens), _, k => lens.getD k noLen
  | .reframe dest a, _, k =>
    match orig dest k with
    | some l => a.len false l
    | none => UNB
  | .node t, check, k => scolens check UNB (slenList t check k)
/-- What each argument contributes (expr.hh:584-588). -/
def slenList : List STree → Bool → Nat → List (Option Int)
  | [], _, _ => []
  | a :: t, check, k => (if a.rank < 0 ∨ (k : Int) < a.rank then some (a.len check k) else none) :: slenList t check k
end

/-- The loop on expr.hh:545-551. -/
def checkLoop (t : List STree) (val : Nat) : List Nat → Nat
  | [] => if 0 = val then 2 else 1
  | k :: ks =>
    let l := (STree.node t).len true k
    if MIS = l ∨ UNB = l then 0
    else if ANY = l then checkLoop t (val + 1) ks
    else checkLoop t val ks

/-- expr.hh:539-554 `Match::check_s`. 0: fail, 1: run time check, 2: pass. -/
def checkS (t : List STree) : Nat :=
  if (STree.node t).rank = ANY then 1
  else checkLoop t 0 (List.range (STree.node t).rank.toNat)

/-- expr.hh:555-568 `Match::check`, with both the static and the run time parts. -/
def fullCheck {m : Type → Type} {α : Type} (d : List STree) (t : List (Iter m α)) : Bool :=
  if checkS d = 1 then matchCheck t else decide (checkS d ≠ 0)

/-- base.hh:390-398 `size_s`. The loop is the same as `sizeLoop`. -/
def STree.size (d : STree) : Int :=
  if d.rank = ANY then ANY
  else sizeLoop ((List.range d.rank.toNat).map (d.len false)) 1

end Ra
