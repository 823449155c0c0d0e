import Verif.Model.Len
/-!
# Views and beaten slicing

ply.hh:310-457 and the Slice part of `from` (503-551).
-/

namespace Ra

/-- arrays.hh:84-149 `View`: dims and a pointer. Static dims (`CT`) are dims like the others. -/
structure View where
  dims : List Dim
  cp : Int
  deriving DecidableEq, Repr

/-- One subscript.
* `scalar`: anything of rank 0 (`is_scalar_index`, ply.hh:334).
* `iota`: a `Seq` view with nonzero rank and not of static unbounded size (`is_iota`, ply.hh:333, `beatable`, ply.hh:337-342).
  `dims` are (len, step), `o` is the origin.
* `dots`: ply.hh:316, `none` is `UNB`.
* `insert`: ply.hh:314.
* `array`: any other; the beaten slice keeps that axis (ply.hh:407-411). -/
inductive Sub where
  | scalar (e : LenExpr)
  | iota (dims : List (LenExpr × LenExpr)) (o : LenExpr)
  | dots (n : Option Nat)
  | insert (n : Nat)
  | array

/-- ply.hh:344,346,348 `fsrc`, with 0 for `UNB` as in its uses (ply.hh:355, 363, 397). -/
def fsrc : Sub → Nat
  | .dots n => n.getD 0
  | .insert _ => 0
  | _ => 1

/-- ply.hh:345,347,349 `fdst`, with 0 for `UNB`. -/
def fdst : Sub → Nat
  | .scalar _ => 0
  | .iota dims _ => dims.length
  | .dots n => n.getD 0
  | .insert n => n
  | .array => 1

/-- ply.hh:359-365 `frombrank` (also 351-357 `frombrank_s`). -/
def frombrank (rank : Nat) (is : List Sub) : Int := ((rank : Int) - (is.map fsrc).sum) + (is.map fdst).sum

/-- ply.hh:276-295 `WLen` for the length and step of an iota; ply.hh:320-330. A rank 1 iota goes through `viewptr` (expr.hh:353-359), which
checks the length. -/
def iotaDims (la : Int) : List (LenExpr × LenExpr) → Except Fault (List Dim)
  | [] => .ok []
  | (n, s) :: t => do
    let n ← (n.wlen la).val
    let s ← (s.wlen la).val
    let t ← iotaDims la t
    return ⟨n, s⟩ :: t

/-- The loop on ply.hh:402-411. `la`, `st` are the len and step of the source axis and `i` the origin of the iota. -/
def iotaLoop (la st i : Int) (pl : Int) : List Dim → Except Fault (Int × List Dim)
  | [] => .ok (pl, [])
  | d :: ds =>
    if d.len = 0 ∨ (inside i la ∧ inside (i + (d.len - 1) * d.step) la) then do
      let (pl, bv) ← iotaLoop la st i (pl + i * st) ds
      return (pl, ⟨d.len, d.step * st⟩ :: bv)
    else .error .check

/-- ply.hh:367-435 `fromb`. `dims` are those of the source from axis `ak` on. Returns the pointer, the dims of the result from axis `bk` on, and the
axes of the result for each `array` subscript (`ds`). The code runs this with some of the three results disabled (ply.hh:437-457).
A source axis that doesn't exist is read outside of `dimv`. -/
def fromb (pl : Int) (bk : Nat) (dims : List Dim) : List Sub → Except Fault (Int × List Dim × List Nat)
  | [] => .ok (pl, dims, [])
  | .scalar e :: is =>
    match dims with
    | [] => .error .ub
    | d :: dims => do
      let i ← (e.wlen d.len).val
      if inside i d.len ∨ (UNB = d.len ∧ 0 = d.step) then
        fromb (pl + i * d.step) bk dims is
      else .error .check
  | .iota iz o :: is =>
    match dims with
    | [] => .error .ub
    | d :: dims => do
      let iz ← iotaDims d.len iz
      if iz.length = 1 ∧ iz.any (·.len < 0) then .error .check else
      let i ← (o.wlen d.len).val
      let (pl, b0) ← iotaLoop d.len d.step i pl iz
      let (pl, bv, ds) ← fromb pl (bk + iz.length) dims is
      return (pl, b0 ++ bv, ds)
  | .dots n :: is =>
    let n := match n with
      | some n => n
      | none => dims.length - (is.map fsrc).sum
    if dims.length < n then .error .ub else do
      let (pl, bv, ds) ← fromb pl (bk + n) (dims.drop n) is
      return (pl, dims.take n ++ bv, ds)
  | .insert n :: is => do
    let (pl, bv, ds) ← fromb pl (bk + n) dims is
    return (pl, List.replicate n ⟨UNB, 0⟩ ++ bv, ds)
  | .array :: is =>
    match dims with
    | [] => .error .ub
    | d :: dims => do
      let (pl, bv, ds) ← fromb pl (bk + 1) dims is
      return (pl, d :: bv, bk :: ds)

/-- ply.hh:503-524, 529-533 `from` when all the subscripts are beatable. If the rank of the result is 0 the code dereferences the pointer. -/
def View.from (a : View) (is : List Sub) : Except Fault View := do
  let (cp, dims, _) ← fromb a.cp 0 a.dims is
  return ⟨dims, cp⟩

end Ra
