import Verif.Model.Ply
/-!
# `ply_ravel` with its counters in thread local memory

Here the counters are part of the state, so that they survive failures and may be seen by traversals inside of the evaluation of an element. All the
calls that share them are of the same instantiation (ply.hh:36).

Simplification: `ocd` (ply.hh:42) is an index instead of an iterator, so nothing is said about iterators that become invalid when a traversal inside of this
one makes the vector longer.
-/

namespace Ra

/-- ply.hh:35 `z_t`. -/
structure Zt where
  order : Nat
  sha : Int
  ind : Int
  deriving DecidableEq

/-- Actions on some state and on the vector `z` of ply.hh:36, for the evaluation of `*a` (ply.hh:61, 64). The state is there after a failure too. -/
def TAct (σ α : Type) : Type := σ × List Zt → Except Fault α × (σ × List Zt)

section
variable {σ α β : Type}

/-- Do an action, then another one unless the first failed (ply.hh:21-86). -/
def TAct.andThen (x : TAct σ α) (f : α → TAct σ β) : TAct σ β := fun s =>
  match x s with
  | (.ok a, s') => f a s'
  | (.error e, s') => (.error e, s')

/-- Sequencing, for the statements of ply.hh:21-86. -/
instance : Monad (TAct σ) where
  pure a := fun s => (.ok a, s)
  bind := TAct.andThen

/-- expr.hh:20-43, a check that fails, or any exception. -/
instance : MonadFault (TAct σ) := ⟨fun f s => (.error f, s)⟩

/-- Sequencing is associative, for the statements of ply.hh:21-86. -/
instance : LawfulMonad (TAct σ) := LawfulMonad.mk'
  (id_map := by
    intro α x
    funext s
    simp only [Functor.map, TAct.andThen, Function.comp, id]
    rcases x s with ⟨_ | _, _⟩ <;> rfl)
  (pure_bind := by intros; rfl)
  (bind_assoc := by
    intro α β γ x f g
    funext s
    simp only [bind, TAct.andThen]
    rcases x s with ⟨_ | _, _⟩ <;> rfl)

/-- Read the vector `z` (ply.hh:36). -/
def TAct.getZ : TAct σ (List Zt) := fun s => (.ok s.2, s)

/-- Write the vector `z` (ply.hh:36). -/
def TAct.setZ (z : List Zt) : TAct σ Unit := fun s => (.ok (), (s.1, z))

/-- ply.hh:37 `z.resize(rank)`: new items are zero. -/
def resizeZt (z : List Zt) (r : Nat) : List Zt := (z ++ List.replicate r (Zt.mk 0 0 0)).take r

/-- ply.hh:38-40, the loop that writes `z[i].order`. -/
def orderZ (r : Nat) (z : List Zt) : List Zt := z.mapIdx fun i x => { x with order := r - 1 - i }

/-- ply.hh:47-49, the loop that writes `z[k].sha`, up to the first `k` where the length isn't positive. `n` is the number of `k` left; the result says if
there's one such. -/
def shaZ (a : Iter (TAct σ) α) (ocd : Nat) : Nat → Nat → TAct σ Bool
  | 0, _ => pure false
  | n+1, k => do
    let z ← TAct.getZ
    match z[k]?, z[ocd + k]? with
    | some zk, some o => do
      TAct.setZ (z.set k { zk with sha := a.len o.order })
      if a.len o.order ≤ 0 then pure true else shaZ a ocd n (k+1)
    | _, _ => fault .ub

/-- ply.hh:70-84, the loop that advances the counters. `n` is the number of `k` left. The result says if it went through all of them. -/
def carryZ (ocd : Nat) : Nat → Nat → Iter (TAct σ) α → TAct σ (Bool × Iter (TAct σ) α)
  | 0, _, a => pure (true, a)
  | n+1, k, a => do
    let z ← TAct.getZ
    match z[k]?, z[ocd + k]? with
    | some zk, some o =>
      if zk.ind + 1 < zk.sha then do
        TAct.setZ (z.set k { zk with ind := zk.ind + 1 })
        pure (false, a.adv o.order 1)
      else do
        TAct.setZ (z.set k { zk with ind := 0 })
        carryZ ocd n (k+1) (a.adv o.order (1 - zk.sha))
    | _, _ => fault .ub

/-- ply.hh:58-85, the loop. -/
def ravelLoopZ (stop : α → Option β) (ss : Int) (ss0 : Tree) (ocd rank : Nat) : Nat → Iter (TAct σ) α → TAct σ (Option β)
  | 0, _ => fault .fuel
  | n+1, a => do
    let place := a.save
    let r ← inner stop ss0 ss.toNat a
    match r with
    | (some b, _) => pure (some b)
    | (none, a') => do
      let c ← carryZ ocd rank 0 (a'.load place)
      if c.1 then pure none else ravelLoopZ stop ss ss0 ocd rank n c.2

/-- ply.hh:21-86 `ply_ravel`. `fuel` is a bound on the iterations of the loop of line 58. The result is the value of the element that stopped, if any. -/
def plyRavelZ (fuel : Nat) (stop : α → Option β) (a : Iter (TAct σ) α) : TAct σ (Option β) :=
  if a.validate then
    match a.rank.toNat with
    | 0 => do
      let x ← a.deref
      pure (stop x)
    | r+1 => do
      let z ← TAct.getZ
      TAct.setZ (orderZ (r+1) (resizeZt z (r+1)))
      let c := compact a r r (a.len r)
      let ocd := r + 1 - c.1
      let e ← shaZ a ocd c.1 0
      if e then pure none else ravelLoopZ stop c.2 (a.step r) ocd c.1 fuel a
  else fault .check

/-- ply.hh:168 `for_each`, with the counters in the state. -/
def forEachZ (fuel : Nat) (a : Iter (TAct σ) α) : TAct σ Unit := do
  let _ ← plyRavelZ (β := Unit) fuel never a
  pure ()

end
end Ra
