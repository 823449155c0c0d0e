import Verif.Model.Base
/-!
# `ra::len` in subscripts

ply.hh:239-295. An integer valued expression of rank 0 that may contain `ra::len`.
-/

namespace Ra

/-- Scalar expressions with `ra::len`: base.hh:278-291 `Len`, expr.hh:104-120 `Scalar`, 652-663 `Map`, 712-722 `Pick`. An operation takes the list of its arguments. -/
inductive LenExpr where
  | const (x : Int)
  | len
  | map (op : List Int → Int) (t : List LenExpr)
  | pick (t : List LenExpr)

mutual
/-- base.hh:294 `has_len`, with the specializations for `Map` and `Pick` (ply.hh:255-274). -/
def LenExpr.hasLen : LenExpr → Bool
  | .const _ => false
  | .len => true
  | .map _ t => hasLens t
  | .pick t => hasLens t
/-- ply.hh:262, 269, `has_len<P> || ...`. -/
def hasLens : List LenExpr → Bool
  | [] => false
  | e :: t => e.hasLen || hasLens t
end

mutual
/-- ply.hh:243-252 `wlen`, and `WLen<...>::f` for `Len` (255-259), `Map` (261-266) and `Pick` (268-273). -/
def LenExpr.wlen (ln : Int) : LenExpr → LenExpr
  | .const x => .const x
  | .len => .const ln
  | .map op t => if hasLens t then .map op (wlens ln t) else .map op t
  | .pick t => if hasLens t then .pick (wlens ln t) else .pick t
/-- ply.hh:266, 273, for each argument. -/
def wlens (ln : Int) : List LenExpr → List LenExpr
  | [] => []
  | e :: t => e.wlen ln :: wlens ln t
end

mutual
/-- `VAL(e)` for a scalar expression (expr.hh:135-143 `VAL`; 661, 720). `Len` has no value: the code rejects it statically ("Stray
ra::len", expr.hh:511). -/
def LenExpr.val : LenExpr → Except Fault Int
  | .const x => .ok x
  | .len => .error .abort
  | .map op t => do
    let vs ← vals t
    return op vs
  | .pick t =>
    match t with
    | [] => .error .abort
    | p :: ts => do
      let i ← p.val
      pickVal 0 i ts
/-- expr.hh:661, for each argument. -/
def vals : List LenExpr → Except Fault (List Int)
  | [] => .ok []
  | e :: t => do
    let v ← e.val
    let vs ← vals t
    return v :: vs
/-- expr.hh:701-710 `pick_star`. -/
def pickVal (k i : Int) : List LenExpr → Except Fault Int
  | [] => .error .check
  | e :: t => if i = k then e.val else pickVal (k+1) i t
end

end Ra
