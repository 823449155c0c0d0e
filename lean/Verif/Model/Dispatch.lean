import Verif.Model.Iter
/-!
# Which overload of an operator is used

The operators and functions of `ra::` have an overload for arrays (which makes an expression) and another one for arguments of rank 0 (which gives a value at once). Each overload is chosen
from the types of the arguments.
-/

namespace Ra

/-- What the overloads look at in a type: `is_scalar` (base.hh:321-325), `is_ra` (328-329) with its `rank_s` (334-363, `none` for ANY), `is_fov` (332), `is_builtin` (330-331), or other types.
`len` is `has_len` (294, ply.hh:256-295): the type is `ra::len`, or an expression with it. -/
inductive Kind where
  | scalar
  | ra (rank : Option Nat) (len : Bool)
  | fov
  | builtin
  | other (len : Bool)
deriving DecidableEq

/-- base.hh:321-325 `is_scalar`. -/
def Kind.isScalar : Kind → Bool
  | .scalar => true
  | _ => false

/-- base.hh:329 `is_ra`. -/
def Kind.isRa : Kind → Bool
  | .ra _ _ => true
  | _ => false

/-- base.hh:332 `is_fov`. -/
def Kind.isFov : Kind → Bool
  | .fov => true
  | _ => false

/-- base.hh:331 `is_builtin`. -/
def Kind.isBuiltin : Kind → Bool
  | .builtin => true
  | _ => false

/-- base.hh:295-296 `is_special`. -/
def Kind.isSpecial : Kind → Bool
  | .ra _ l => l
  | .other l => l
  | _ => false

/-- base.hh:366 `is_ra_pos`. -/
def Kind.isRaPos : Kind → Bool
  | .ra r _ => r != some 0
  | _ => false

/-- base.hh:367 `is_ra_0`. -/
def Kind.isRa0 : Kind → Bool
  | .ra r _ => r == some 0
  | .scalar => true
  | _ => false

/-- base.hh:368 `toreduce`. -/
def toreduce (a : List Kind) : Bool := a.any (fun k => !k.isScalar) && a.all fun k => k.isRa0 && !k.isSpecial

/-- base.hh:369 `tomap`. -/
def tomap (a : List Kind) : Bool := a.any (fun k => k.isRaPos || k.isSpecial) && a.all fun k => k.isRa || k.isScalar || k.isFov || k.isBuiltin

/-- The overloads of an operator or function (ra.hh:181-190, 196-201, 205-210, 262-272). `builtin` is the one for scalars, which isn't in `ra::`. -/
inductive Choice where
  | map | reduce | builtin | none
deriving DecidableEq

/-- The overloads whose requirements hold (ra.hh:182, 184; 197, 199; 206, 208). -/
def candidates (a : List Kind) : List Choice := (if tomap a then [.map] else []) ++ (if toreduce a then [.reduce] else [])

/-- The overload that is used (ra.hh:181-202). If all the arguments are scalars it's the one in the language or in `std::`. -/
def chosen (a : List Kind) : Choice :=
  match candidates a with
  | [c] => c
  | [] => if a.all Kind.isScalar then .builtin else .none
  | _ => .none

/-- The overloads of `where` on ra.hh:252-260. -/
inductive WhereChoice where
  | reduce | map | plain
deriving DecidableEq

/-- The overloads of `where(w, t, f)` whose requirements hold, when `w` is `bool` (ra.hh:252, 255, 259). -/
def whereCandidates (t f : Kind) : List WhereChoice :=
  (if toreduce [t, f] then [.reduce] else []) ++ (if tomap [.scalar, t, f] then [.map] else []) ++ (if !tomap [t, f] && !toreduce [t, f] then [.plain] else [])

/-- expr.hh:575-578 `Match::rank_s`: the largest, or ANY if there's any ANY. -/
def rankMax : List (Option Nat) → Option Nat
  | [] => some 0
  | r :: l => match r, rankMax l with
    | some n, some k => some (max n k)
    | _, _ => none

/-- base.hh:334-363 `rank_s`, for `iter(a)`. -/
def Kind.rankS : Kind → Option Nat
  | .scalar => some 0
  | .ra r _ => r
  | .fov => some 1
  | .builtin => none
  | .other _ => none

/-- Nested operators (ra.hh:181-202). A leaf is an argument, with its kind; `iter(a)` is given by the iterator. -/
inductive OTree (m : Type → Type) (α : Type) where
  | leaf (k : Kind) (a : Iter m α)
  | op (f : List α → m α) (t : List (OTree m α))

section
variable {m : Type → Type} {α : Type}

mutual
/-- The type of the result of nested operators (ra.hh:181-202), or none if some operator has no overload. The rank of built-in arrays is given by the iterator, so it's ANY here. -/
def OTree.kind : OTree m α → Option Kind
  | .leaf k _ => some k
  | .op _ t =>
    match kinds t with
    | none => none
    | some ks =>
      match chosen ks with
      | .map => some (.ra (rankMax (ks.map Kind.rankS)) (ks.any Kind.isSpecial))
      | .reduce => some .scalar
      | .builtin => some .scalar
      | .none => none
/-- For each argument (ra.hh:181-202). -/
def kinds : List (OTree m α) → Option (List Kind)
  | [] => some []
  | a :: t =>
    match a.kind, kinds t with
    | some k, some ks => some (k :: ks)
    | _, _ => none
end

variable [Monad m] [MonadFault m]

mutual
/-- The result of nested operators. ra.hh:183, 198, 207 make an expression; ra.hh:185, 200, 209 read the arguments (expr.hh:136-144 `VAL`) and give a value. Without an overload there isn't
a program, so that isn't a result of the model; see `kind`. -/
def OTree.build : OTree m α → m (Iter m α)
  | .leaf _ a => pure a
  | .op f t => do
    let its ← builds t
    match kinds t with
    | none => fault .check
    | some ks =>
      match chosen ks with
      | .map => pure (.node (mapOp f) its)
      | .none => fault .check
      | _ => do
        let x ← mapOp f (its.map Iter.deref)
        pure (.scalar (pure x))
/-- For each argument (ra.hh:181-202). -/
def builds : List (OTree m α) → m (List (Iter m α))
  | [] => pure []
  | a :: t => do
    let it ← a.build
    let its ← builds t
    pure (it :: its)
end

end
end Ra
