import Verif.Model.Iter
import Verif.Model.From
/-!
# Rank conjunction, outer product, array subscripts

expr.hh:458-499, 668-678 and ply.hh:459-551.
-/

namespace Ra

/-- expr.hh:478-499 `Framematch`. Here the verb is the list of the cell ranks of each nested conjunction, outermost first (the operation
itself is not needed). Each argument has its rank and the axes assigned so far (`Ri`). `none` is a compile error: a cell rank larger than what's left of
the rank of the argument (base.hh:94 `iota_` asserts), or a different number of arguments. -/
def framematch : List (List Nat) → List (Nat × List Nat) → Nat → Option (List (List Nat))
  | [], args, skip =>
    if args.all fun a => a.2.length ≤ a.1 then
      some (args.map fun a => a.2 ++ List.range' skip (a.1 - a.2.length))
    else none
  | c :: cs, args, skip =>
    if c.length = args.length ∧ (List.zipWith (fun a c => decide (a.2.length + c ≤ a.1)) args c).all id then
      let live := List.zipWith (fun a c => a.1 - a.2.length - c) args c
      framematch cs (List.zipWith (fun a l => (a.1, a.2 ++ List.range' skip l)) args live) (skip + live.foldl max 0)
    else none

section
variable {m : Type → Type} {α : Type}

/-- expr.hh:458-467 `reframe`. -/
def reframe (dest : List Nat) (a : Iter m α) : Iter m α :=
  if dest = List.range dest.length then a else .reframe dest a

/-- expr.hh:668-674 `map_verb`. The ranks must be static. -/
def mapVerb [Monad m] (f : List α → m α) (cranks : List (List Nat)) (t : List (Iter m α)) : Option (Iter m α) := do
  let dest ← framematch cranks (t.map fun a => (a.rank.toNat, [])) 0
  return .node (mapOp f) (List.zipWith reframe dest t)

/-- ply.hh:467-477 `fromu_loop`: the cell ranks of each conjunction, for arguments of ranks `I`, from `drop` on. -/
def fromuLoop (I : List Nat) (drop : Nat) : List (List Nat) :=
  if drop < I.length then (List.replicate drop 0 ++ I.drop drop) :: fromuLoop I (drop+1) else []
termination_by I.length - drop

/-- ply.hh:548-550 `from(op, i ...)` with one or more arguments (outer product). -/
def fromOp [Monad m] (f : List α → m α) (t : List (Iter m α)) : Option (Iter m α) :=
  mapVerb f (fromuLoop (t.map fun a => a.rank.toNat) 1) t

/-- Values that are used as subscripts (ply.hh:503-543). -/
class IndexLike (α : Type) where
  toIdx : α → Int
  ofIdx : Int → α
  toIdx_ofIdx : ∀ i, toIdx (ofIdx i) = i

export IndexLike (toIdx ofIdx)

/-- `dim_t` subscripts (ply.hh:503-543). -/
instance : IndexLike Int := ⟨id, id, fun _ => rfl⟩

/-- ply.hh:461-465 `spacer`: an iota for each axis in `[p, q)`. With run time lengths `viewptr` (expr.hh:355) checks that they aren't negative. -/
def spacer [Monad m] [IndexLike α] (dims : List Dim) (p q : Nat) : Except Fault (List (Iter m α)) :=
  ((dims.take q).drop p).mapM fun d =>
    if d.len < 0 then .error .check else .ok (.cell [⟨d.len, 1⟩] 0 fun i => pure (ofIdx i))

/-- ply.hh:479-499 `fromu`. `p` is `0==c ? 0 : 1+ds()[c-1]`; `arrays` are the unbeatable subscripts (after `wlen`, ply.hh:496) with their axes in
`b`. Returns the arguments of the outer product. -/
def fromuArgs [Monad m] [IndexLike α] (dims : List Dim) (p : Nat) : List (Nat × Iter m α) → Except Fault (List (Iter m α))
  | [] => spacer dims p dims.length
  | (d, i) :: is => do
    let sp ← spacer dims p d
    let rest ← fromuArgs dims (d+1) is
    return sp ++ i :: rest

/-- `b(i ...)` with as many integers as axes: ply.hh:509-510 in `from`. -/
def View.elemAt [MonadFault m] (b : View) (rd : Int → m α) (i : List Int) : m α :=
  match b.from (i.map fun x => .scalar (.const x)) with
  | .ok c => rd c.cp
  | .error f => fault f

/-- ply.hh:503-525 `from` with some subscripts that can't be beaten: `is` has `array` for those and `arrays` gives them in order. -/
def View.fromArrays [Monad m] [MonadFault m] [IndexLike α] (a : View) (rd : Int → m α) (is : List Sub) (arrays : List (Iter m α)) :
    Except Fault (Option (Iter m α)) := do
  let (cp, dims, ds) ← fromb a.cp 0 a.dims is
  let args ← fromuArgs dims 0 (ds.zip arrays)
  return fromOp (fun vs => (View.mk dims cp).elemAt rd (vs.map toIdx)) args

end
end Ra
