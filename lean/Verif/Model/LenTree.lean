import Verif.Model.FromAny
/-!
# `ra::len` in array subscripts

ply.hh:239-295 for expressions of any rank, and its uses in `fromu` (496) and `from` (534-545).
-/

namespace Ra

section
variable {m : Type → Type} {α : Type}

/-- Expressions of any rank with `ra::len`: an expression without it; `ra::len` (base.hh:278-291); an operation, `Map` (expr.hh:652-663) or `Pick` (712-728); or an iota with `ra::len` in
any of its parameters (ply.hh:276-295). -/
inductive LTree (m : Type → Type) (α : Type) where
  | base (t : Iter m α)
  | len
  | node (op : List (m α) → m α) (t : List (LTree m α))
  | seq (n o s : LenExpr)

mutual
/-- base.hh:294 `has_len`, with the specializations on ply.hh:255-295. -/
def LTree.hasLen : LTree m α → Bool
  | .base _ => false
  | .len => true
  | .node _ t => hasLenAll t
  | .seq n o s => n.hasLen || o.hasLen || s.hasLen
/-- ply.hh:262, 269, `has_len<P> || ...`. -/
def hasLenAll : List (LTree m α) → Bool
  | [] => false
  | e :: t => e.hasLen || hasLenAll t
end

section
variable [Monad m] [IndexLike α]

mutual
/-- ply.hh:243-252 `wlen`, with `WLen<...>::f` for `Len` (255-259), `Map` and `Pick` (261-273), and `Seq` in `Ptr` or `ViewPtr` (276-295). -/
def LTree.wlen (ln : Int) : LTree m α → LTree m α
  | .base t => .base t
  | .len => .base (.scalar (pure (ofIdx ln)))
  | .node op t => if hasLenAll t then .node op (wlenAll ln t) else .node op t
  | .seq n o s => if n.hasLen || o.hasLen || s.hasLen then .seq (n.wlen ln) (o.wlen ln) (s.wlen ln) else .seq n o s
/-- ply.hh:266, 273, for each argument. -/
def wlenAll (ln : Int) : List (LTree m α) → List (LTree m α)
  | [] => []
  | e :: t => e.wlen ln :: wlenAll ln t
end

mutual
/-- The iterator for the expression. `ra::len` is rejected statically ("Stray ra::len", expr.hh:511). Iotas of run time length are checked (expr.hh:353-359, 361-363). -/
def LTree.iter : LTree m α → Except Fault (Iter m α)
  | .base t => .ok t
  | .len => .error .abort
  | .node op t => do return .node op (← iterAll t)
  | .seq n o s => do
    let o ← o.val
    let n ← n.val
    let s ← s.val
    if n < 0 then .error .check else return .cell [⟨n, s⟩] o fun i => pure (ofIdx i)
/-- For each argument (expr.hh:652-663). -/
def iterAll : List (LTree m α) → Except Fault (List (Iter m α))
  | [] => .ok []
  | e :: t => do
    let a ← e.iter
    let b ← iterAll t
    return a :: b
end

/-- ply.hh:479-499 `fromu`, with `wlen` (496). -/
def fromuLen (dims : List Dim) (p : Nat) : List (Nat × LTree m α) → Except Fault (List (Iter m α))
  | [] => spacer dims p dims.length
  | (d, i) :: is => do
    let sp ← spacer dims p d
    let i ← (i.wlen (dims.getD d ⟨0, 0⟩).len).iter
    let rest ← fromuLen dims (d+1) is
    return sp ++ i :: rest

/-- ply.hh:503-525 `from`, as `View.fromArrays`, with `ra::len` in the arrays. -/
def View.fromArraysLen [MonadFault m] (a : View) (rd : Int → m α) (is : List Sub) (arrays : List (LTree m α)) : Except Fault (Option (Iter m α)) := do
  let (cp, dims, ds) ← fromb a.cp 0 a.dims is
  let args ← fromuLen dims 0 (ds.zip arrays)
  return fromOp (fun vs => (View.mk dims cp).elemAt rd (vs.map toIdx)) args

/-- ply.hh:528-545 `from` on a view of run time rank, as `View.fromAny`, with `ra::len` in the arrays. On the first branch there's no `wlen`. -/
def View.fromAnyLen [MonadFault m] (a : View) (rd : Int → m α) (is : List Sub) (arrays : List (LTree m α)) : Except Fault (Option (Iter m α)) :=
  if is.all Sub.unbeaten then
    if a.dims.length = is.length then do
      return fromOp (fun vs => a.elemAt rd (vs.map toIdx)) (← iterAll arrays)
    else .error .check
  else
    if (arrays.length : Int) = frombrank a.dims.length is then do
      let (cp, dims, _) ← fromb a.cp 0 a.dims is
      let args ← fromuLen dims 0 ((List.range arrays.length).zip arrays)
      return fromOp (fun vs => (View.mk dims cp).elemAt rd (vs.map toIdx)) args
    else .error .check

end
end
end Ra
