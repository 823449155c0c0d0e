import Verif.Model.Ply
/-!
# The pointers of a traversal

In the rest of the model the pointer of a view is a number, which may be anything as long as it isn't used. In C++ the result of pointer arithmetic has to be in the array or one past its
end, else it's undefined behaviour even if the pointer isn't used ([expr.add]). Here is `ply_ravel` with that check after each motion.
-/

namespace Ra

section
variable {m : Type → Type} {α β : Type}

mutual
/-- The pointers (expr.hh:274 `c.cp`) of the views in an expression. -/
def Iter.ptrs : Iter m α → List Int
  | .scalar _ => []
  | .cell _ cp _ => [cp]
  | .reframe _ a => a.ptrs
  | .node _ t => ptrsList t
/-- For each argument of `Match` (expr.hh:532-634). -/
def ptrsList : List (Iter m α) → List Int
  | [] => []
  | a :: t => a.ptrs ++ ptrsList t
end

/-- [expr.add] for the pointers in expr.hh:274. A pointer to an array with addresses from `lo` to `lo + n - 1`, given as `some (lo, n)`, has to stay there or one past the end. With `none`
it isn't a pointer (expr.hh:79-100 `Seq`). -/
def ptrOk (p : Int) : Option (Int × Int) → Bool
  | none => true
  | some (lo, n) => decide (lo ≤ p) && decide (p ≤ lo + n)

/-- [expr.add] for all the views in an expression (expr.hh:274). `b` has the array of each one. -/
def Iter.ptrsOk (b : List (Option (Int × Int))) (a : Iter m α) : Bool := (a.ptrs.zip b).all fun x => ptrOk x.1 x.2

variable [Monad m] [MonadFault m]

/-- The result of a motion (expr.hh:300, 310), if it's defined. -/
def moved (b : List (Option (Int × Int))) (a : Iter m α) : m (Iter m α) := if a.ptrsOk b then pure a else fault .ub

/-- ply.hh:60-68, as `inner`. -/
def innerP (b : List (Option (Int × Int))) (stop : α → Option β) (ss0 : Tree) : Nat → Iter m α → m (Option β × Iter m α)
  | 0, a => pure (none, a)
  | n+1, a => do
    let x ← a.deref
    match stop x with
    | some b => pure (some b, a)
    | none => do
      let a' ← moved b (a.mov ss0)
      innerP b stop ss0 n a'

/-- ply.hh:70-84, as `carry`. -/
def carryP (b : List (Option (Int × Int))) : List (Nat × Int) → List Int → Iter m α → m (Bool × List Int × Iter m α)
  | [], z, a => pure (true, z, a)
  | _ :: _, [], a => pure (true, [], a)
  | (o, sha) :: axes, i :: z, a =>
    if i + 1 < sha then do
      let a' ← moved b (a.adv o 1)
      pure (false, (i + 1) :: z, a')
    else do
      let a' ← moved b (a.adv o (1 - sha))
      let r ← carryP b axes z a'
      pure (r.1, 0 :: r.2.1, r.2.2)

/-- ply.hh:58-85, as `ravelLoop`. -/
def ravelLoopP (b : List (Option (Int × Int))) (stop : α → Option β) (ss : Int) (ss0 : Tree) (axes : List (Nat × Int)) :
    Nat → List Int → Iter m α → m (Option β × List Int × Iter m α)
  | 0, _, _ => fault .fuel
  | n+1, z, a => do
    let place := a.save
    let r ← innerP b stop ss0 ss.toNat a
    match r with
    | (some b, a') => pure (some b, z, a')
    | (none, a') => do
      let c ← carryP b axes z (a'.load place)
      if c.1 then pure (none, c.2.1, c.2.2) else ravelLoopP b stop ss ss0 axes n c.2.1 c.2.2

/-- ply.hh:21-86 `ply_ravel`, as `plyRavel`. -/
def plyRavelP (b : List (Option (Int × Int))) (stop : α → Option β) (z : List Int) (a : Iter m α) : m (Option β × List Int × Iter m α) :=
  if a.validate then
    match a.rank.toNat with
    | 0 => do
      let x ← a.deref
      pure (stop x, z, a)
    | r+1 =>
      let z := resizeZ z (r+1)
      let c := compact a r r (a.len r)
      let axes := (List.range c.1).reverse.map fun o => (o, a.len o)
      if axes.any (·.2 ≤ 0) then pure (none, z, a)
      else ravelLoopP b stop c.2 (a.step r) axes (ravelFuel axes) z a
  else fault .check

/-- ply.hh:107-117, as `subplyLoop`. -/
def subplyLoopP (b : List (Option (Int × Int))) (body : Iter m α → m (Option β × Iter m α)) (o : Nat) : Nat → Iter m α → m (Option β × Iter m α)
  | 0, a => pure (none, a)
  | n+1, a => do
    let r ← body a
    match r with
    | (some b, a') => pure (some b, a')
    | (none, a') => do
      let a'' ← moved b (a'.adv o 1)
      subplyLoopP b body o n a''

/-- ply.hh:90-125 `subply`, as `subply`. -/
def subplyP (b : List (Option (Int × Int))) (stop : α → Option β) (rank : Nat) (s : Int) (ss0 : Tree) : Nat → Iter m α → m (Option β × Iter m α)
  | 0, a => do
    let place := a.save
    let r ← innerP b stop ss0 s.toNat a
    match r with
    | (some b, a') => pure (some b, a')
    | (none, a') => pure (none, a'.load place)
  | k+1, a => do
    let size := a.len (rank-1-(k+1))
    let r ← subplyLoopP b (subplyP b stop rank s ss0 k) (rank-1-(k+1)) size.toNat a
    match r with
    | (some b, a') => pure (some b, a')
    | (none, a') => do
      let a'' ← moved b (a'.adv (rank-1-(k+1)) (-size))
      pure (none, a'')

/-- ply.hh:127-153 `ply_fixed`, as `plyFixed`. -/
def plyFixedP (b : List (Option (Int × Int))) (stop : α → Option β) (a : Iter m α) : m (Option β × Iter m α) :=
  if a.validate then
    match a.rank.toNat with
    | 0 => do
      let x ← a.deref
      pure (stop x, a)
    | r+1 => subplyP b stop (r+1) (a.len r) (a.step r) r a
  else fault .check

/-- ply.hh:157-166 `ply`, as `ply`. -/
def plyP (b : List (Option (Int × Int))) (dyn : Bool) (stop : α → Option β) (z : List Int) (a : Iter m α) : m (Option β) :=
  if dyn then do
    let r ← plyRavelP b stop z a
    pure r.1
  else do
    let r ← plyFixedP b stop a
    pure r.1

end
end Ra
