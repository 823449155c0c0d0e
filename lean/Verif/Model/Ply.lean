import Verif.Model.Iter
/-!
# Traversal

`stop` says whether the value of an element ends the traversal: `*a` gives a `std::optional` when there is an `early` argument, and
`stop` is the conversion. Without `early`, `stop` is `fun _ => none`.

The results carry the iterator as it's left, and for `ply_ravel` also the loop counters that stay in thread local memory.
-/

namespace Ra

/-- Never stop: no `early` argument (ply.hh:62, 98). -/
def never {α β : Type} : α → Option β := fun _ => none

section
variable {m : Type → Type} {α β : Type}

/-- base.hh:402-413 `size`, the loop on line 411: the first negative length, else the product. -/
def sizeLoop : List Int → Int → Int
  | [], s => s
  | l :: t, s => if l < 0 then l else sizeLoop t (s * l)

/-- base.hh:402-413 `size`. -/
def Iter.size (a : Iter m α) : Int := sizeLoop a.shape 1

/-- expr.hh:555-568 `Match::check`, when the answer depends on run time lengths (line 559); it says if there's a length for each axis.
See Model/Static.lean for the static cases. -/
def matchCheck (t : List (Iter m α)) : Bool :=
  (List.range (coranks UNB (rankList t)).toNat).all fun k => decide (0 ≤ colens UNB (lenList t k))

/-- expr.hh:639 `agree`. The arguments have gone through `iter`. -/
def agree (t : List (Iter m α)) : Bool := matchCheck t

/-- expr.hh:509-526 `validate`, for types that pass its static assertions. A `Match` is checked axis by axis (expr.hh:556-568), else
the size has to be bounded. -/
def Iter.validate (a : Iter m α) : Bool :=
  match a with
  | .node _ t => matchCheck t
  | _ => decide (0 ≤ a.size)

variable [Monad m]

/-- ply.hh:60-68 and 96-104: evaluate the element and move, `n` times. -/
def inner (stop : α → Option β) (ss0 : Tree) : Nat → Iter m α → m (Option β × Iter m α)
  | 0, a => pure (none, a)
  | n+1, a => do
    let x ← a.deref
    match stop x with
    | some b => pure (some b, a)
    | none => inner stop ss0 n (a.mov ss0)

/-- ply.hh:70-84: advance the counters of the axes that haven't been raveled, from the innermost. `axes` has `ocd[k].order` and
`z[k].sha`, and `z` has `z[k].ind`. The result says if it went through all of them (`k>=rank`). `z` is never shorter than `axes`. -/
def carry : List (Nat × Int) → List Int → Iter m α → Bool × List Int × Iter m α
  | [], z, a => (true, z, a)
  | _ :: _, [], a => (true, [], a)
  | (o, sha) :: axes, i :: z, a =>
    if i + 1 < sha then (false, (i + 1) :: z, a.adv o 1)
    else
      let r := carry axes z (a.adv o (1 - sha))
      (r.1, 0 :: r.2.1, r.2.2)

variable [MonadFault m]

/-- ply.hh:58-85. -/
def ravelLoop (stop : α → Option β) (ss : Int) (ss0 : Tree) (axes : List (Nat × Int)) :
    Nat → List Int → Iter m α → m (Option β × List Int × Iter m α)
  | 0, _, _ => fault .fuel
  | n+1, z, a => do
    let place := a.save
    let r ← inner stop ss0 ss.toNat a
    match r with
    | (some b, a') => pure (some b, z, a')
    | (none, a') =>
      let c := carry axes z (a'.load place)
      if c.1 then pure (none, c.2.1, c.2.2) else ravelLoop stop ss ss0 axes n c.2.1 c.2.2

/-- ply.hh:43-46: find the outermost compact axis. `n` is `rank` in the loop, and the next axis to try is `n-1`. `z0` is the axis
`z[0].order`. -/
def compact (a : Iter m α) (z0 : Nat) : Nat → Int → Nat × Int
  | 0, ss => (0, ss)
  | n+1, ss => if a.keep ss z0 n then compact a z0 n (ss * a.len n) else (n+1, ss)

/-- ply.hh:37 `z.resize(rank)` on the counters: new ones are 0. -/
def resizeZ (z : List Int) (r : Nat) : List Int := (z ++ List.replicate r 0).take r

/-- Bound on the iterations of the loop on ply.hh:58 when the counters aren't negative. -/
def ravelFuel : List (Nat × Int) → Nat
  | [] => 1
  | (_, sha) :: t => sha.toNat * ravelFuel t

/-- ply.hh:21-86 `ply_ravel`. `z` has the counters `z[k].ind` as the last call of the same instantiation left them (thread local,
line 36); the other fields of `z` are written before they are read. The result has them as they are left for the next call.
If `*a` throws then the counters are left as they are at that time; that isn't in the result. -/
def plyRavel (stop : α → Option β) (z : List Int) (a : Iter m α) : m (Option β × List Int × Iter m α) :=
  if a.validate then
    match a.rank.toNat with
    | 0 => do
      let x ← a.deref
      pure (stop x, z, a)
    | r+1 =>
      let z := resizeZ z (r+1)
      let c := compact a r r (a.len r)
      let axes := (List.range c.1).reverse.map fun o => (o, a.len o)
      if axes.any (·.2 ≤ 0) then pure (none, z, a)
      else ravelLoop stop c.2 (a.step r) axes (ravelFuel axes) z a
  else fault .check

omit [MonadFault m] in
/-- ply.hh:107-117: evaluate `body` and advance on axis `o`, `n` times. -/
def subplyLoop (body : Iter m α → m (Option β × Iter m α)) (o : Nat) : Nat → Iter m α → m (Option β × Iter m α)
  | 0, a => pure (none, a)
  | n+1, a => do
    let r ← body a
    match r with
    | (some b, a') => pure (some b, a')
    | (none, a') => subplyLoop body o n (a'.adv o 1)

omit [MonadFault m] in
/-- ply.hh:90-125 `subply` with `urank` 1. `rank` is the rank and the axis `order[k]` is `rank-1-k` (ply.hh:142). -/
def subply (stop : α → Option β) (rank : Nat) (s : Int) (ss0 : Tree) : Nat → Iter m α → m (Option β × Iter m α)
  | 0, a => do
    let place := a.save
    let r ← inner stop ss0 s.toNat a
    match r with
    | (some b, a') => pure (some b, a')
    | (none, a') => pure (none, a'.load place)
  | k+1, a => do
    let size := a.len (rank-1-(k+1))
    let r ← subplyLoop (subply stop rank s ss0 k) (rank-1-(k+1)) size.toNat a
    match r with
    | (some b, a') => pure (some b, a')
    | (none, a') => pure (none, a'.adv (rank-1-(k+1)) (-size))

/-- ply.hh:127-153 `ply_fixed`. -/
def plyFixed (stop : α → Option β) (a : Iter m α) : m (Option β × Iter m α) :=
  if a.validate then
    match a.rank.toNat with
    | 0 => do
      let x ← a.deref
      pure (stop x, a)
    | r+1 => subply stop (r+1) (a.len r) (a.step r) r a
  else fault .check

/-- ply.hh:157-166 `ply`, where `dyn` is `ANY==size_s(a)`, without the state that's left behind. `z` matters only in the first case. -/
def ply (dyn : Bool) (stop : α → Option β) (z : List Int) (a : Iter m α) : m (Option β) :=
  if dyn then do
    let r ← plyRavel stop z a
    pure r.1
  else do
    let r ← plyFixed stop a
    pure r.1

/-- ply.hh:169 `early(a, def)` for dynamic or static sizes. -/
def earlyOf (dyn : Bool) (stop : α → Option β) (z : List Int) (a : Iter m α) (dft : β) : m β := do
  let r ← ply dyn stop z a
  pure (r.getD dft)

/-- ply.hh:176-226 `STLIterator`. `ind` is kept with the innermost axis first. -/
structure Stl (m : Type → Type) (α : Type) where
  a : Iter m α
  ind : List Int
  over : Bool

omit [Monad m] [MonadFault m] in
/-- ply.hh:186 the constructor. -/
def Stl.begin (a : Iter m α) : Except Fault (Stl m α) :=
  if a.validate then .ok ⟨a, a.shape.reverse, a.size == 0⟩ else .error .check

omit [Monad m] [MonadFault m] in
/-- ply.hh:194-207 `next()` and 208-223 `nexts()`, which do the same. The axis is `n-1` in the loop, and the recursion is on the
counters, innermost first. -/
def stlNext : List Int → Nat → Iter m α → Bool × List Int × Iter m α
  | _, 0, a => (true, [], a)
  | [], _+1, a => (true, [], a)
  | i :: ind, n+1, a =>
    if i - 1 > 0 then (false, (i - 1) :: ind, a.adv n 1)
    else
      let r := stlNext ind n (a.adv n (1 - a.len n))
      (r.1, a.len n :: r.2.1, r.2.2)

omit [Monad m] [MonadFault m] in
/-- ply.hh:224 `operator++`. `over` is never cleared (lines 206, 222). -/
def Stl.next (p : Stl m α) : Stl m α :=
  let r := stlNext p.ind p.a.rank.toNat p.a
  ⟨r.2.2, r.2.1, p.over || r.1⟩

/-- A range-for loop, `for (auto && x: a) { f(x); }`: compare with the sentinel (ply.hh:191), `*i` (192), the body, `++i` (224). -/
def stlLoop (f : α → m β) : Nat → Stl m α → m Unit
  | 0, _ => fault .fuel
  | n+1, p =>
    if p.over then pure ()
    else do
      let x ← p.a.deref
      let _ ← f x
      stlLoop f n p.next

/-- A range-for loop over `a`, from `begin(a)` (ply.hh:230). A traversal of `a` visits `size(a)` elements and compares with the sentinel once more. -/
def stlFor (f : α → m β) (a : Iter m α) : m Unit :=
  match Stl.begin a with
  | .ok p => stlLoop f (a.size.toNat + 1) p
  | .error e => fault e

end
end Ra
