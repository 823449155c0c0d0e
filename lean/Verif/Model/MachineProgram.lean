import Verif.Model.MachineView
import Verif.Model.MachinePly
import Verif.Model.Program
/-!
# Programs with arrays, with the limits of `dim_t`

As `Model/Program.lean`, with the arithmetic of `Model/Machine.lean`: overflow is undefined behaviour, and so are pointers that aren't in the array or one past its end.
-/

namespace Ra

/-- expr.hh:206-218, the loops of `filldimv`, as `fillSteps`. The product (line 216) is after the check of the length (line 215). -/
def fillStepsM : List (Int × Int) → Except Fault Int × List Dim
  | [] => (.ok 1, [])
  | (n, st) :: r =>
    match fillStepsM r with
    | (.error e, dv) => (.error e, ⟨n, st⟩ :: dv)
    | (.ok p, dv) => if n ≥ 0 then (mulM p n, ⟨n, p⟩ :: dv) else (.error .check, ⟨n, p⟩ :: dv)

/-- expr.hh:199-219 `filldimv`, as `Arr.fill`. -/
def Arr.fillM (a : Arr) (s : List Int) : Except Fault Int × Arr :=
  if a.rk.isSome ∧ s.length ≠ a.dims.length then (.error .check, a)
  else
    let r := fillStepsM (s.zip ((a.dims.map Dim.step) ++ List.replicate (s.length - a.dims.length) 0))
    (r.1, { a with dims := r.2 })

section
variable {V : Type}

/-- arrays.hh:296 `Array(s, none)`, as `Arr.create`. -/
def Arr.createM (rk : Option Nat) (o : Option Int) (fill : Nat → V) (s : List Int) (μ : Mem V) : Except Fault Arr × Mem V :=
  match (Arr.fillM ⟨rk, List.replicate (rk.getD 0) ⟨0, 0⟩, 0, 0⟩ s) with
  | (.error e, _) => (.error e, μ)
  | (.ok n, a) =>
    if 0 ≤ n then
      match storeResize o fill n a μ with
      | (.ok (), a', μ') => (.ok a', μ')
      | (.error e, _, _) => (.error e, μ)
    else (.error .check, μ)

/-- arrays.hh:306-307 `resize(s)` and `resize(s, t)`, as `Arr.resize`. -/
def Arr.resizeM (o : Option Int) (fill : Nat → V) (n : Int) (a : Arr) (μ : Mem V) : Except Fault Unit × Arr × Mem V :=
  match a.dims with
  | [] => (.error .check, a, μ)
  | d :: ds =>
    let a' := { a with dims := ⟨n, d.step⟩ :: ds }
    match dimvSizeM a'.dims with
    | .ok l => storeResize o fill l a' μ
    | .error e => (.error e, a', μ)

/-- arrays.hh:308 `resize(s)` with a shape, as `Arr.resizeShape`. -/
def Arr.resizeShapeM (o : Option Int) (fill : Nat → V) (s : List Int) (a : Arr) (μ : Mem V) : Except Fault Unit × Arr × Mem V :=
  match a.fillM s with
  | (.error e, a') => (.error e, a', μ)
  | (.ok n, a') => storeResize o fill n a' μ

/-- arrays.hh:310-312 `push_back(t)`, `emplace_back`, as `Arr.pushBack`. -/
def Arr.pushBackM (o : Option Int) (t : V) (a : Arr) (μ : Mem V) : Except Fault Unit × Arr × Mem V :=
  match a.dims with
  | [d] =>
    match storeResize o (fun _ => t) (a.n + 1) a μ with
    | (.ok (), a', μ') =>
      match addM d.len 1 with
      | .ok l => (.ok (), { a' with dims := [⟨l, d.step⟩] }, μ')
      | .error e => (.error e, a', μ')
    | (.error e, a', μ') => (.error e, a', μ')
  | _ => (.error .check, a, μ)

/-- Do one operation, as `Op.step` (arrays.hh:276-313, 330-346). The other operations have no arithmetic that may overflow. -/
def Op.stepM (as : List Arr) (μ : Mem V) : Op V → Except Fault Unit × List Arr × Mem V
  | .create rk o fill s =>
    match Arr.createM rk o fill s μ with
    | (.ok a, μ') => (.ok (), as ++ [a], μ')
    | (.error e, μ') => (.error e, as, μ')
  | .resize i o fill n => onArr i (Arr.resizeM o fill n) as μ
  | .resizeShape i o fill s => onArr i (Arr.resizeShapeM o fill s) as μ
  | .pushBack i o t => onArr i (Arr.pushBackM o t) as μ
  | op => op.step as μ

/-- The array that each pointer of the expression points to (arrays.hh:270-274). -/
def Exp.stores (as : List Arr) : Exp V → List (Option (Int × Int))
  | .const _ => []
  | .arr i => match as[i]? with
    | some a => [some (a.base, (a.n : Int))]
    | none => []
  | .op _ a b => a.stores as ++ b.stores as

/-- `a(j ...)` with as many integers as axes (ply.hh:509-510), as `View.elemAt`. -/
def Arr.elemAtM (a : Arr) (rd : Int → Act V Unit) (j : List Int) : Act V Unit :=
  match a.view.fromM a.base a.n (j.map fun x => .scalar (.const x)) with
  | .ok c => rd c.cp
  | .error f => fault f

/-- expr.hh:50-60 with ply.hh:168 `for_each`, as `assign` and `update`. `op` is `setOp` or `updOp f`. -/
def assignM (op : List (Lv V) → Act V (Lv V)) (dyn : Bool) (z : List Int) (as : List Arr) (a : Arr) (e : Exp V) (x : Iter (Act V) (Lv V)) : Act V Unit := do
  let _ ← plyM (β := Unit) (some (a.base, (a.n : Int)) :: e.stores as) dyn never z (.node (mapOp op) [a.view.refs, x])
  pure ()

/-- Do one operation, as `Cmd.step` (arrays.hh:276-313, 330-346; ply.hh:509-510; expr.hh:50-60). -/
def Cmd.stepM (dyn : Bool) (z : List Int) (as : List Arr) (μ : Mem V) : Cmd V → Except Fault Unit × List Arr × Mem V
  | .op o => o.stepM as μ
  | .set i j x =>
    match as[i]? with
    | some a =>
      if j.length = a.dims.length then
        let r := (a.elemAtM (fun p => Act.write p x) j) μ
        (r.1, as, r.2)
      else (.error .abort, as, μ)
    | none => (.error .abort, as, μ)
  | .assign i e =>
    match as[i]?, e.iter as with
    | some a, some t =>
      let r := assignM setOp dyn z as a e t μ
      (r.1, as, r.2)
    | _, _ => (.error .abort, as, μ)
  | .update f i e =>
    match as[i]?, e.iter as with
    | some a, some t =>
      let r := assignM (updOp f) dyn z as a e t μ
      (r.1, as, r.2)
    | _, _ => (.error .abort, as, μ)

/-- Do some operations, as `program` (arrays.hh:276-313, 330-346; expr.hh:50-60). -/
def programM (dyn : Bool) (z : List Int) : List (Cmd V) → List Arr → Mem V → Except Fault Unit × List Arr × Mem V
  | [], as, μ => (.ok (), as, μ)
  | c :: cs, as, μ =>
    match c.stepM dyn z as μ with
    | (.ok (), as', μ') => programM dyn z cs as' μ'
    | (.error e, as', μ') => (.error e, as', μ')

end
end Ra
