import Verif.Model.Fill
/-!
# Iteration over views and containers, `back`, `as` and borrowed arrays
-/

namespace Ra

section
variable {m : Type → Type} [Monad m] [MonadFault m] {β : Type}

/-- `for (auto p=begin; p!=begin+n; ++p) { f(*p); }`, by addresses (arrays.hh:137-138, 315-316 when they are pointers). -/
def ptrFor (f : Int → m β) (p : Int) : Nat → m Unit
  | 0 => pure ()
  | n+1 => do
    let _ ← f p
    ptrFor f (p + 1) n

/-- A range-for loop over a view (arrays.hh:137-139). The size isn't negative unless the view is unbounded, and then the loop doesn't end at all. -/
def View.rangeFor (ct step1 : Bool) (v : View) (f : Int → m β) : m Unit :=
  if v.beginIsPtr ct step1 then
    if 0 ≤ dimvSize v.dims then ptrFor f v.cp (dimvSize v.dims).toNat else fault .ub
  else stlFor f (.cell v.dims v.cp pure)

/-- A range-for loop over an array (arrays.hh:315-316). -/
def Arr.rangeFor (a : Arr) (f : Int → m β) : m Unit := if 0 ≤ a.size then ptrFor f a.base a.size.toNat else fault .ub

end

/-- arrays.hh:140 `back()`, also 317 and 212. `len(0)` reads the first dim without a check; with static rank 0 it doesn't compile. -/
def View.back (v : View) : Except Fault View :=
  match v.dims with
  | [] => .error .ub
  | d :: _ => v.from [.scalar (.const (d.len - 1))]

/-- arrays.hh:144 `as<s, o>()`. -/
def View.as (s o : Int) (v : View) : Except Fault View := v.from [.iota [(.const s, .const 1)] (.const o)]

/-- arrays.hh:351-359 `shared_borrowing(s)`. With static rank 1 the step of an array is static, and the assignment of the dim checks it (expr.hh:345). The store doesn't know how
many elements it has; the model takes what the caller has to know, that there are as many as in the view. -/
def sharedBorrowing (rk : Option Nat) (v : View) : Except Fault Arr :=
  if rk = some 1 ∧ ¬ v.dims.all (fun d => d.step = 1) then .error .check
  else .ok ⟨rk, v.dims, v.cp, (dimvSize v.dims).toNat⟩

end Ra
