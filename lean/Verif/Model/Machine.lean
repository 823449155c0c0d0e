import Verif.Model.ViewOps
import Verif.Model.Ply
/-!
# Arithmetic with limits

The rest of the model has integers without limits. Here is the arithmetic of lengths, steps and indices as it's done on a machine where `dim_t` (base.hh:237, `ptrdiff_t`) has
64 bits. Overflow of signed integers is undefined behaviour. The result of pointer arithmetic has to be in the array or one past its end, else that's undefined behaviour too.
-/

namespace Ra

/-- The largest `dim_t` (base.hh:237). -/
def dimMax : Int := 9223372036854775807

/-- `dim_t` (base.hh:237) can hold the number. -/
def fits (x : Int) : Bool := decide (-dimMax - 1 ≤ x) && decide (x ≤ dimMax)

@[simp] theorem fits_iff {x : Int} : fits x = true ↔ -dimMax - 1 ≤ x ∧ x ≤ dimMax := by simp [fits]

/-- Product of two `dim_t` (base.hh:237). -/
def mulM (a b : Int) : Except Fault Int := if fits (a * b) then .ok (a * b) else .error .ub

/-- expr.hh:199-219 `filldimv`, in the same way as `filldimv`. The product is after the check of the length (lines 215, 216). -/
def filldimvM : List Int → Except Fault (List Dim × Int)
  | [] => .ok ([], 1)
  | n :: s => do
    let (dv, p) ← filldimvM s
    if n ≥ 0 then do
      let q ← mulM p n
      return (⟨n, p⟩ :: dv, q)
    else .error .check

/-- The loop on expr.hh:222 `dimv_size`, also base.hh:411. -/
def dimvSizeLoopM (s : Int) : List Dim → Except Fault Int
  | [] => .ok s
  | d :: dv => if d.len < 0 then .ok d.len else do
    let t ← mulM s d.len
    dimvSizeLoopM t dv

/-- expr.hh:222 `dimv_size`, also base.hh:411. -/
def dimvSizeM (dv : List Dim) : Except Fault Int := dimvSizeLoopM 1 dv

/-- Pointer arithmetic (`std::ranges::advance` on expr.hh:178, 310) in an array with the addresses from `lo` to `lo + n - 1`. -/
def movePtr (lo n cp d : Int) : Except Fault Int := if lo ≤ cp + d ∧ cp + d ≤ lo + n then .ok (cp + d) else .error .ub

/-- expr.hh:175-179, the loop of `indexer`, for a pointer to an array with the addresses from `lo` to `lo + n - 1`. -/
def indexLoopM (lo n : Int) : List Dim → Int → List Int → Except Fault Int
  | [], cp, _ => .ok cp
  | _ :: _, _, [] => .error .ub
  | d :: ds, cp, i :: j =>
    if inside i d.len ∨ UNB = d.len then do
      let k ← mulM i d.step
      let cp ← movePtr lo n cp k
      indexLoopM lo n ds cp j
    else .error .check

/-- expr.hh:164-181 `indexer`. -/
def indexerM (lo n : Int) (dims : List Dim) (cp : Int) (j : List Int) : Except Fault Int :=
  if j.length ≥ dims.length then indexLoopM lo n dims cp j else .error .check

end Ra
