import Verif.Model.Assign
/-!
# Containers

arrays.hh:252-346, `Array` with a `std::vector` store, so `Big<T, R>`. `SmallArray` has static dims, so it's as a view in what concerns its shape.

Simplifications:
* The store is a range of memory, its address and count. The elements past the count are not allocated, so spare capacity isn't modelled.
* Where new storage goes is a choice of the allocator. It's an argument `o`: `none` when it throws, else an address. The storage has to be free;
  an address that isn't free counts as `none`.
* A rank that the compiler has to check (`RA_CR`, arrays.hh:304, with static rank) is checked at run time.
* The allocation of the dims themselves, for dynamic rank, doesn't throw.
-/

namespace Ra

/-- arrays.hh:252-274 `Array`. `rk` is `R`, or nothing if it's `ANY`. `base` and `n` are `data()` and `size()` of the store. -/
structure Arr where
  rk : Option Nat
  dims : List Dim
  base : Int
  n : Nat

/-- arrays.hh:273-274 `view()`. -/
def Arr.view (a : Arr) : View := ⟨a.dims, a.base⟩

/-- arrays.hh:267 `size()`. -/
def Arr.size (a : Arr) : Int := dimvSize a.dims

section
variable {V : Type}

/-- What the allocator of the store (arrays.hh:270) can give: the memory at `b, b+1, ..., b+n-1` isn't in use, except perhaps by `a`. -/
def freeFor (μ : Mem V) (a : Arr) (b : Int) (n : Nat) : Bool :=
  (List.range n).all fun i => (μ (b + i)).isNone || (decide (a.base ≤ b + i) && decide (b + i < a.base + a.n))

/-- For arrays.hh:306-313, what `store.resize`, `store.push_back` and `store.pop_back` do to the memory: after the store of `a` moved to `b` and changed to `n` elements, with `fill` for the new ones. -/
def Mem.move (μ : Mem V) (a : Arr) (b : Int) (n : Nat) (fill : Nat → Option V) : Mem V := fun p =>
  if b ≤ p ∧ p < b + n then
    if p < b + a.n then μ (a.base + (p - b)) else fill (p - b).toNat
  else if a.base ≤ p ∧ p < a.base + a.n then none
  else μ p

/-- arrays.hh:306-308, `store.resize(n)` for `std::vector`. A negative `n` converts to a size over the limit. A smaller size needs no new storage. -/
def storeResize (o : Option Int) (fill : Nat → V) (n : Int) (a : Arr) (μ : Mem V) : Except Fault Unit × Arr × Mem V :=
  if n < 0 then (.error .alloc, a, μ)
  else if n ≤ a.n then (.ok (), { a with n := n.toNat }, μ.move a a.base n.toNat fun i => some (fill i))
  else match o with
    | none => (.error .alloc, a, μ)
    | some b =>
      if freeFor μ a b n.toNat then (.ok (), { a with base := b, n := n.toNat }, μ.move a b n.toNat fun i => some (fill i))
      else (.error .alloc, a, μ)

/-- expr.hh:206-218, the loops of `filldimv`, with what they leave in the dims when they fail. The argument has the lengths, and the steps from before. See also
`filldimv`. -/
def fillSteps : List (Int × Int) → Except Fault Int × List Dim
  | [] => (.ok 1, [])
  | (n, st) :: r =>
    match fillSteps r with
    | (.error e, dv) => (.error e, ⟨n, st⟩ :: dv)
    | (.ok p, dv) => if n ≥ 0 then (.ok (p * n), ⟨n, p⟩ :: dv) else (.error .check, ⟨n, p⟩ :: dv)

/-- expr.hh:199-219 `filldimv` on the dims of an array, with expr.hh:186-197 `resize`. The dims added have some step at first. -/
def Arr.fill (a : Arr) (s : List Int) : Except Fault Int × Arr :=
  if a.rk.isSome ∧ s.length ≠ a.dims.length then (.error .check, a)
  else
    let r := fillSteps (s.zip ((a.dims.map Dim.step) ++ List.replicate (s.length - a.dims.length) 0))
    (r.1, { a with dims := r.2 })

/-- arrays.hh:287-290 `Array()`, when the rank isn't 0. With static rank 0 it's the same as `Array({}, none)`. -/
def Arr.default (rk : Option Nat) : Arr := ⟨rk, List.replicate (rk.getD 1) ⟨0, 1⟩, 0, 0⟩

/-- arrays.hh:296 `Array(s, none)`, with arrays.hh:229 `create`. When it fails there's no array. -/
def Arr.create (rk : Option Nat) (o : Option Int) (fill : Nat → V) (s : List Int) (μ : Mem V) : Except Fault Arr × Mem V :=
  match (Arr.fill ⟨rk, List.replicate (rk.getD 0) ⟨0, 0⟩, 0, 0⟩ s) with
  | (.error e, _) => (.error e, μ)
  | (.ok n, a) =>
    if 0 ≤ n then
      match storeResize o fill n a μ with
      | (.ok (), a', μ') => (.ok a', μ')
      | (.error e, _, _) => (.error e, μ)
    else (.error .check, μ)

/-- arrays.hh:306-307 `resize(s)` and `resize(s, t)`. -/
def Arr.resize (o : Option Int) (fill : Nat → V) (n : Int) (a : Arr) (μ : Mem V) : Except Fault Unit × Arr × Mem V :=
  match a.dims with
  | [] => (.error .check, a, μ)
  | d :: ds =>
    let a' := { a with dims := ⟨n, d.step⟩ :: ds }
    storeResize o fill a'.size a' μ

/-- arrays.hh:308 `resize(s)` with a shape. -/
def Arr.resizeShape (o : Option Int) (fill : Nat → V) (s : List Int) (a : Arr) (μ : Mem V) : Except Fault Unit × Arr × Mem V :=
  match a.fill s with
  | (.error e, a') => (.error e, a', μ)
  | (.ok n, a') => storeResize o fill n a' μ

/-- arrays.hh:310-312 `push_back(t)`, `emplace_back`. -/
def Arr.pushBack (o : Option Int) (t : V) (a : Arr) (μ : Mem V) : Except Fault Unit × Arr × Mem V :=
  match a.dims with
  | [d] =>
    match storeResize o (fun _ => t) (a.n + 1) a μ with
    | (.ok (), a', μ') => (.ok (), { a' with dims := [⟨d.len + 1, d.step⟩] }, μ')
    | (.error e, a', μ') => (.error e, a', μ')
  | _ => (.error .check, a, μ)

/-- arrays.hh:313 `pop_back()`. For an empty `std::vector`, `pop_back` isn't defined. -/
def Arr.popBack (a : Arr) (μ : Mem V) : Except Fault Unit × Arr × Mem V :=
  match a.dims with
  | [d] =>
    if 0 < d.len then
      let a' := { a with dims := [⟨d.len - 1, d.step⟩] }
      if a.n = 0 then (.error .ub, a', μ)
      else (.ok (), { a' with n := a.n - 1 }, μ.move a a.base (a.n - 1) fun _ => none)
    else (.error .check, a, μ)
  | _ => (.error .check, a, μ)

/-- The defaulted `a = b` for arrays of the same type: the dims (arrays.hh:256) and then the store (270). -/
def Arr.copyFrom (o : Option Int) (a b : Arr) (μ : Mem V) : Except Fault Unit × Arr × Mem V :=
  let a' := { a with dims := b.dims }
  match o with
  | none => (.error .alloc, a', μ)
  | some c =>
    if freeFor μ a c b.n then
      (.ok (), { a' with base := c, n := b.n }, fun p =>
        if c ≤ p ∧ p < c + b.n then μ (b.base + (p - c))
        else if a.base ≤ p ∧ p < a.base + a.n then none
        else μ p)
    else (.error .alloc, a', μ)

/-- The defaulted move constructor of arrays.hh:252-322 (members on lines 256 and 270): the new array, and what's left of the old one. The dims are copied if they are in a `std::array`, else the `std::vector` is left
empty. -/
def Arr.moveOut (b : Arr) : Arr × Arr := (b, { b with dims := if b.rk.isSome then b.dims else [], n := 0 })

/-- arrays.hh:340-343, for `xa` with dynamic rank and `xb` with static rank. `c` is `iter(c) = xa.dimv`; expr.hh:341-346 checks the step if the rank is 1. -/
def swapDims (xa xb : Arr) : Except Fault (Arr × Arr) :=
  let c := xa.dims
  if xb.rk = some 1 ∧ ¬ c.all (fun d => d.step = 1) then .error .check
  else
    let xa := { xa with dims := xb.dims }
    let xb := { xb with dims := c }
    .ok (xa, xb)

/-- arrays.hh:330-346 `swap(a, b)`. Arrays of the same type are swapped by `std::swap`, with the same effect as lines 336 and 345. If there's an
error nothing has changed. Different static ranks don't compile. -/
def Arr.swap (a b : Arr) : Except Fault Unit × Arr × Arr :=
  let ds : Except Fault (Arr × Arr) :=
    if a.rk.isNone = b.rk.isNone then
      if a.rk = b.rk then .ok ({ a with dims := b.dims }, { b with dims := a.dims }) else .error .abort
    else if a.dims.length ≠ b.dims.length then .error .check
    else if a.rk.isNone then swapDims a b
    else do
      let (xa, xb) ← swapDims b a
      pure (xb, xa)
  match ds with
  | .error e => (.error e, a, b)
  | .ok (a', b') => (.ok (), { a' with base := b'.base, n := b'.n }, { b' with base := a'.base, n := a'.n })

/-- Operations on a list of arrays, given by their place: arrays.hh:276-313 and 330-346. -/
inductive Op (V : Type) where
  | default (rk : Option Nat)
  | create (rk : Option Nat) (o : Option Int) (fill : Nat → V) (s : List Int)
  | resize (i : Nat) (o : Option Int) (fill : Nat → V) (n : Int)
  | resizeShape (i : Nat) (o : Option Int) (fill : Nat → V) (s : List Int)
  | pushBack (i : Nat) (o : Option Int) (t : V)
  | popBack (i : Nat)
  | copy (i j : Nat) (o : Option Int)
  | swap (i j : Nat)
  | run (p : Act V Unit)

/-- An operation on one array of the list (a member function of arrays.hh:306-313). -/
def onArr (i : Nat) (f : Arr → Mem V → Except Fault Unit × Arr × Mem V) (as : List Arr) (μ : Mem V) : Except Fault Unit × List Arr × Mem V :=
  match as[i]? with
  | some a =>
    let r := f a μ
    (r.1, as.set i r.2.1, r.2.2)
  | none => (.error .abort, as, μ)

/-- Do one operation. A program `run` is for instance an assignment to the elements of one of the arrays (arrays.hh:276-285). -/
def Op.step (as : List Arr) (μ : Mem V) : Op V → Except Fault Unit × List Arr × Mem V
  | .default rk => if rk = some 0 then (.error .abort, as, μ) else (.ok (), as ++ [Arr.default rk], μ)
  | .create rk o fill s =>
    match Arr.create rk o fill s μ with
    | (.ok a, μ') => (.ok (), as ++ [a], μ')
    | (.error e, μ') => (.error e, as, μ')
  | .resize i o fill n => onArr i (Arr.resize o fill n) as μ
  | .resizeShape i o fill s => onArr i (Arr.resizeShape o fill s) as μ
  | .pushBack i o t => onArr i (Arr.pushBack o t) as μ
  | .popBack i => onArr i Arr.popBack as μ
  | .copy i j o =>
    match as[j]? with
    | some b => if i = j then (.ok (), as, μ) else onArr i (fun a => if a.rk = b.rk then Arr.copyFrom o a b else fun μ => (.error .abort, a, μ)) as μ
    | none => (.error .abort, as, μ)
  | .swap i j =>
    match as[i]?, as[j]? with
    | some a, some b =>
      if i = j then (.ok (), as, μ)
      else
        let r := Arr.swap a b
        (r.1, (as.set i r.2.1).set j r.2.2, μ)
    | _, _ => (.error .abort, as, μ)
  | .run p =>
    let r := p μ
    (r.1, as, r.2)

/-- Do some operations (arrays.hh:276-313, 330-346), one after the other. -/
def steps : List (Op V) → List Arr → Mem V → Except Fault Unit × List Arr × Mem V
  | [], as, μ => (.ok (), as, μ)
  | op :: ops, as, μ =>
    match op.step as μ with
    | (.ok (), as', μ') => steps ops as' μ'
    | (.error e, as', μ') => (.error e, as', μ')

end
end Ra
