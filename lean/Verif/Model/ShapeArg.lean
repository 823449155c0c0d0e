import Verif.Model.Array
import Verif.Model.Static
/-!
# Shapes and indices that are given by expressions

The shape in `Array(s, x)`, `View(s, p)` and `a.resize(s)` and the index in `at(a, i)` may be any expression with the right rank. The code goes through them by hand, not with `ply`. The elements of the expression may
read memory, and they may also read the dims of the array that is being resized, as `shape(a, i)` does (ply.hh:298-307). So both are in the state here.
-/

namespace Ra

/-- Computations (expr.hh:199-219) that may fail, on the dims that are being filled and on memory. -/
def DimAct (V α : Type) : Type := List Dim × Mem V → Except Fault α × (List Dim × Mem V)

section
variable {V α β : Type}

/-- A sequence (expr.hh:199-219). After a failure, the dims and the memory are as it leaves them. -/
def DimAct.andThen (x : DimAct V α) (f : α → DimAct V β) : DimAct V β := fun s =>
  match x s with
  | (.ok a, s') => f a s'
  | (.error e, s') => (.error e, s')

/-- Sequences of steps (expr.hh:199-219). -/
instance : Monad (DimAct V) where
  pure a := fun s => (.ok a, s)
  bind := DimAct.andThen

/-- Checks (expr.hh:20-43). -/
instance : MonadFault (DimAct V) := ⟨fun f s => (.error f, s)⟩

/-- The steps are a lawful monad (expr.hh:199-219). -/
instance : LawfulMonad (DimAct V) := LawfulMonad.mk'
  (bind_pure_comp := fun _ _ => rfl)
  (id_map := by
    intro α x; funext s
    show (match x s with | (.ok a, s') => (Except.ok a, s') | (.error e, s') => (.error e, s')) = x s
    rcases x s with ⟨_ | _, _⟩ <;> rfl)
  (pure_bind := fun _ _ => rfl)
  (bind_assoc := by
    intro α β γ x f g; funext s
    simp only [bind, DimAct.andThen]
    rcases x s with ⟨_ | _, _⟩ <;> rfl)

/-- Read memory (expr.hh:303, `*c.cp`). -/
def DimAct.read (p : Int) : DimAct V V := fun s =>
  match s.2 p with
  | some v => (.ok v, s)
  | none => (.error .ub, s)

/-- ply.hh:297-305 `shape(v, e)` for axis `k`, when `v` is the array that has these dims. -/
def DimAct.axis (k : Int) : DimAct V Int := fun s => (if inside k s.1.length then .ok (lenOf s.1 k.toNat) else .error .check, s)

/-- ply.hh:297-307 `shape(v, e)`, for an expression `e` without `ra::len`: `v` is read when the elements are. -/
def axesOf (e : Iter (DimAct V) Int) : Iter (DimAct V) Int :=
  .node (mapOp fun xs => match xs with | [k] => DimAct.axis k | _ => fault .abort) [e]

/-- expr.hh:186-197 `resize` for dims. `rk` is the static rank. `static` is when `s` is known by the type. The dims added to a vector have no values yet; here they are 0. -/
def resizeDims (rk : Option Nat) (s : Int) (static : Bool) : DimAct V Unit := fun (dv, μ) =>
  match rk with
  | none => if 0 ≤ s then (.ok (), (dv.take s.toNat ++ List.replicate (s.toNat - dv.length) ⟨0, 0⟩, μ)) else (.error .check, (dv, μ))
  | some _ => if s = dv.length ∨ s = UNB then (.ok (), (dv, μ)) else (.error (if static then .abort else .check), (dv, μ))

/-- expr.hh:207 `dv[k].len = l`. -/
def DimAct.setLen (k : Nat) (l : Int) : DimAct V Unit := fun s => (.ok (), (s.1.modify k fun d => ⟨l, d.step⟩, s.2))

/-- The loop on expr.hh:207, from axis `k` on, for `n` axes. -/
def fillLens : Nat → Nat → Iter (DimAct V) Int → DimAct V Unit
  | _, 0, _ => pure ()
  | k, n+1, p => do
    let l ← p.deref
    DimAct.setLen k l
    fillLens (k+1) n (p.mov (p.step 0))

/-- expr.hh:208-218, the steps and the size. -/
def fillRest : DimAct V Int := fun (dv, μ) =>
  let r := fillSteps (dv.map fun d => (d.len, d.step))
  (r.1, (r.2, μ))

/-- expr.hh:199-219 `filldimv(p, dv)`. `t` is the type of `p` as far as the lengths go. What doesn't compile is `abort`. -/
def fillFrom (rk : Option Nat) (t : STree) (p : Iter (DimAct V) Int) : DimAct V Int := fun s =>
  if t.rank ≠ 0 ∧ t.rank ≠ 1 ∧ t.rank ≠ ANY then (.error .abort, s)
  else if t.rank = ANY ∧ ¬ (p.rank = 0 ∨ p.rank = 1) then (.error .check, s)
  else match resizeDims rk (if t.size = ANY then p.size else t.size) (t.size ≠ ANY) s with
    | (.error e, s') => (.error e, s')
    | (.ok (), s') => (do fillLens 0 s'.1.length p; fillRest : DimAct V Int) s'

/-- arrays.hh:296 `Array(s, none)`, as `Arr.create`, for any expression as the shape. -/
def Arr.createFrom (rk : Option Nat) (o : Option Int) (fill : Nat → V) (t : STree) (p : Iter (DimAct V) Int) (μ : Mem V) : Except Fault Arr × Mem V :=
  match fillFrom rk t p (List.replicate (rk.getD 0) ⟨0, 0⟩, μ) with
  | (.error e, (_, μ')) => (.error e, μ')
  | (.ok n, (dv, μ')) =>
    if 0 ≤ n then
      match storeResize o fill n ⟨rk, dv, 0, 0⟩ μ' with
      | (.ok (), a', μ'') => (.ok a', μ'')
      | (.error e, _, _) => (.error e, μ')
    else (.error .check, μ')

/-- arrays.hh:308 `resize(s)`, as `Arr.resizeShape`, for any expression with static rank 1 as the shape. -/
def Arr.resizeFrom (o : Option Int) (fill : Nat → V) (t : STree) (p : Iter (DimAct V) Int) (a : Arr) (μ : Mem V) : Except Fault Unit × Arr × Mem V :=
  if t.rank ≠ 1 then (.error .abort, a, μ)
  else match fillFrom a.rk t p (a.dims, μ) with
    | (.error e, (dv, μ')) => (.error e, { a with dims := dv }, μ')
    | (.ok n, (dv, μ')) => storeResize o fill n { a with dims := dv } μ'

/-- arrays.hh:112 `View(s, cp)`, as `View.ofShape`, for any expression as the shape. -/
def View.ofShapeFrom (rk : Option Nat) (t : STree) (p : Iter (DimAct V) Int) (cp : Int) (μ : Mem V) : Except Fault View × Mem V :=
  match fillFrom rk t p (List.replicate (rk.getD 0) ⟨0, 0⟩, μ) with
  | (.error e, (_, μ')) => (.error e, μ')
  | (.ok _, (dv, μ')) => (.ok ⟨dv, cp⟩, μ')

end

section
variable {m : Type → Type} [Monad m] [MonadFault m]

/-- The loop on expr.hh:175-179. -/
def indexFrom : List Dim → Int → Iter m Int → m Int
  | [], cp, _ => pure cp
  | d :: ds, cp, p => do
    let i ← p.deref
    if inside i d.len ∨ UNB = d.len then indexFrom ds (cp + i * d.step) (p.mov (p.step 0)) else fault .check

/-- expr.hh:163-181 `indexer(a, cp, p)`. `rk` is the static rank of `a`, and `t` is the type of `p` as far as the lengths go. What doesn't compile is `abort`. -/
def indexerFrom (rk : Option Nat) (dims : List Dim) (cp : Int) (t : STree) (p : Iter m Int) : m Int :=
  if t.rank ≠ 1 ∧ t.rank ≠ ANY then fault .abort
  else if t.rank = ANY ∧ p.rank ≠ 1 then fault .check
  else match rk with
    | none => if p.len 0 ≥ dims.length then indexFrom dims cp p else fault .check
    | some r =>
      if t.len false 0 < r then
        if t.len false 0 ≠ ANY then fault .abort
        else if p.len 0 ≥ dims.length then indexFrom dims cp p else fault .check
      else indexFrom dims cp p

end
end Ra
