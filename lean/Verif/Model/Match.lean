import Verif.Model.Base
/-!
# Prefix matching of lengths and ranks (run time part)
-/

namespace Ra

/-- expr.hh:529 `colen`. Finite before `ANY` before `UNB`. -/
def colen (a b : Int) : Int :=
  if a ≥ 0 then (if a = b then a else if b ≥ 0 then MIS else a)
  else if UNB = a then b
  else if UNB = b then a
  else b

/-- expr.hh:530 `corank`. -/
def corank (a b : Int) : Int :=
  if ANY = a then a
  else if ANY = b then b
  else if a ≥ 0 then (if b ≥ 0 then max a b else a)
  else b

/-- expr.hh:598-608 the fold in `Match::len(k)` from the running length `s`. An argument is `none` if its rank is not over `k`
(line 601), else it is its length on axis `k`. The `&&` fold on line 607 stops at the first mismatch. -/
def colens : Int → List (Option Int) → Int
  | s, [] => s
  | s, none :: t => if s = MIS then s else colens s t
  | s, some sk :: t =>
    let s' := if sk = MIS then MIS else colen sk s
    if s' = MIS then s' else colens s' t

/-- expr.hh:575-578 the fold in `Match::rank()` from the running rank `r`. -/
def coranks : Int → List Int → Int
  | r, [] => r
  | r, a :: t => coranks (corank a r) t

end Ra
