import Verif.Model.Machine
import Verif.Model.Pointer
/-!
# Traversals, with the limits of `dim_t`

As `Model/Pointer.lean`, where each pointer has to stay in its array, and with the arithmetic of `Model/Machine.lean`: the products of lengths and steps that `ply_ravel` uses to find how many of the
axes can be traversed as one, and those in each motion, have to be represented in 64 bits.
-/

namespace Ra

section
variable {m : Type → Type} {α β : Type}

mutual
/-- There's no overflow in `step(k)*d` on expr.hh:300, for the views in the expression. -/
def Iter.mulFits : Iter m α → Nat → Int → Bool
  | .scalar _, _, _ => true
  | .cell dims _ _, k, d => fits (stepOf dims k * d)
  | .reframe dest a, k, d =>
    match orig dest k with
    | some l => a.mulFits l d
    | none => true
  | .node _ t, k, d => mulFitsList t k d
/-- expr.hh:630, for each argument of `Match`. -/
def mulFitsList : List (Iter m α) → Nat → Int → Bool
  | [], _, _ => true
  | a :: t, k, d => a.mulFits k d && mulFitsList t k d
end

mutual
/-- `keep(st, z, j)`: expr.hh:114, 296-297, 425-436, 609-618, as `Iter.keep`. -/
def Iter.keepM : Iter m α → Int → Nat → Nat → Except Fault Bool
  | .scalar _, _, _, _ => .ok true
  | .cell dims _ _, st, z, j => do
    let p ← mulM st (stepOf dims z)
    return p == stepOf dims j
  | .reframe dest a, st, z, j =>
    match orig dest z, orig dest j with
    | some wz, some wj => a.keepM st wz wj
    | _, _ => .ok false
  | .node _ t, st, z, j => keepListM t st z j
/-- expr.hh:609-618, as `keepList`. The arguments after one that gives `false` aren't asked. -/
def keepListM : List (Iter m α) → Int → Nat → Nat → Except Fault Bool
  | [], _, _, _ => .ok true
  | a :: t, st, z, j => do
    if ← a.keepM st z j then keepListM t st z j else return false
end

/-- ply.hh:43-46, as `compact`. -/
def compactM (a : Iter m α) (z0 : Nat) : Nat → Int → Except Fault (Nat × Int)
  | 0, ss => .ok (0, ss)
  | n+1, ss => do
    if ← a.keepM ss z0 n then
      let t ← mulM ss (a.len n)
      compactM a z0 n t
    else return (n+1, ss)

variable [Monad m] [MonadFault m]

/-- `adv(k, d)`: expr.hh:113, 300, 449, 630. -/
def advM (b : List (Option (Int × Int))) (a : Iter m α) (k : Nat) (d : Int) : m (Iter m α) := if a.mulFits k d then moved b (a.adv k d) else fault .ub

/-- ply.hh:70-84, as `carry`. -/
def carryM (b : List (Option (Int × Int))) : List (Nat × Int) → List Int → Iter m α → m (Bool × List Int × Iter m α)
  | [], z, a => pure (true, z, a)
  | _ :: _, [], a => pure (true, [], a)
  | (o, sha) :: axes, i :: z, a =>
    if i + 1 < sha then do
      let a' ← advM b a o 1
      pure (false, (i + 1) :: z, a')
    else do
      let a' ← advM b a o (1 - sha)
      let r ← carryM b axes z a'
      pure (r.1, 0 :: r.2.1, r.2.2)

/-- ply.hh:58-85, as `ravelLoop`. The inner loop has no products, so it's that of `Model/Pointer.lean`. -/
def ravelLoopM (b : List (Option (Int × Int))) (stop : α → Option β) (ss : Int) (ss0 : Tree) (axes : List (Nat × Int)) :
    Nat → List Int → Iter m α → m (Option β × List Int × Iter m α)
  | 0, _, _ => fault .fuel
  | n+1, z, a => do
    let place := a.save
    let r ← innerP b stop ss0 ss.toNat a
    match r with
    | (some b, a') => pure (some b, z, a')
    | (none, a') => do
      let c ← carryM b axes z (a'.load place)
      if c.1 then pure (none, c.2.1, c.2.2) else ravelLoopM b stop ss ss0 axes n c.2.1 c.2.2

/-- ply.hh:21-86 `ply_ravel`, as `plyRavel`. -/
def plyRavelM (b : List (Option (Int × Int))) (stop : α → Option β) (z : List Int) (a : Iter m α) : m (Option β × List Int × Iter m α) :=
  if a.validate then
    match a.rank.toNat with
    | 0 => do
      let x ← a.deref
      pure (stop x, z, a)
    | r+1 =>
      let z := resizeZ z (r+1)
      match compactM a r r (a.len r) with
      | .error f => fault f
      | .ok c =>
        let axes := (List.range c.1).reverse.map fun o => (o, a.len o)
        if axes.any (·.2 ≤ 0) then pure (none, z, a)
        else ravelLoopM b stop c.2 (a.step r) axes (ravelFuel axes) z a
  else fault .check

/-- ply.hh:107-117, as `subplyLoop`. -/
def subplyLoopM (b : List (Option (Int × Int))) (body : Iter m α → m (Option β × Iter m α)) (o : Nat) : Nat → Iter m α → m (Option β × Iter m α)
  | 0, a => pure (none, a)
  | n+1, a => do
    let r ← body a
    match r with
    | (some b, a') => pure (some b, a')
    | (none, a') => do
      let a'' ← advM b a' o 1
      subplyLoopM b body o n a''

/-- ply.hh:90-125 `subply`, as `subply`. -/
def subplyM (b : List (Option (Int × Int))) (stop : α → Option β) (rank : Nat) (s : Int) (ss0 : Tree) : Nat → Iter m α → m (Option β × Iter m α)
  | 0, a => do
    let place := a.save
    let r ← innerP b stop ss0 s.toNat a
    match r with
    | (some b, a') => pure (some b, a')
    | (none, a') => pure (none, a'.load place)
  | k+1, a => do
    let size := a.len (rank-1-(k+1))
    let r ← subplyLoopM b (subplyM b stop rank s ss0 k) (rank-1-(k+1)) size.toNat a
    match r with
    | (some b, a') => pure (some b, a')
    | (none, a') => do
      let a'' ← advM b a' (rank-1-(k+1)) (-size)
      pure (none, a'')

/-- ply.hh:127-153 `ply_fixed`, as `plyFixed`. -/
def plyFixedM (b : List (Option (Int × Int))) (stop : α → Option β) (a : Iter m α) : m (Option β × Iter m α) :=
  if a.validate then
    match a.rank.toNat with
    | 0 => do
      let x ← a.deref
      pure (stop x, a)
    | r+1 => subplyM b stop (r+1) (a.len r) (a.step r) r a
  else fault .check

/-- ply.hh:157-166 `ply`, as `ply`. -/
def plyM (b : List (Option (Int × Int))) (dyn : Bool) (stop : α → Option β) (z : List Int) (a : Iter m α) : m (Option β) :=
  if dyn then do
    let r ← plyRavelM b stop z a
    pure r.1
  else do
    let r ← plyFixedM b stop a
    pure r.1

end
end Ra
