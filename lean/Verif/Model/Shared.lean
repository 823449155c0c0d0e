import Verif.Model.Access
import Verif.Model.Frame
/-!
# Arrays with shared or unique storage

arrays.hh:252-346 with the stores of arrays.hh:233-249, so `Shared<T, R>` and `Unique<T, R>`, and arrays.hh:351-359 `shared_borrowing`.

Simplifications:
* A `std::shared_ptr` is a pointer and the place of its control block in a list. Control blocks aren't removed from the list, so the place identifies the block.
* The allocation of the control block doesn't fail; if it did then `new T[n]` would be released by `std::shared_ptr` itself.
* All the threads that use the same control block do it one after the other.
-/

namespace Ra

/-- What `std::shared_ptr` keeps for the pointers that share it (arrays.hh:242-249, 356): the storage `new T[n]`, if the deleter releases it, and how many pointers there are. -/
structure Ctl where
  base : Int
  n : Nat
  own : Bool
  uses : Nat

/-- arrays.hh:252-270 `Array` with `std::shared_ptr` or `std::unique_ptr`. `arr.base` is `store.get()`, and `ctl` is the control block, or nothing when the pointer is null. -/
structure SArr where
  arr : Arr
  ctl : Option Nat

/-- The arrays of a program (arrays.hh:252-270), those that were destroyed being nothing; the control blocks, and the memory. -/
structure SState (V : Type) where
  as : List (Option SArr)
  ctls : List Ctl
  μ : Mem V

/-- Operations on a list of arrays, given by their place: `Array()` (arrays.hh:287-288), `Array(s, ...)` (296), `shared_borrowing(v)` (351-359), copy and move constructors, copy and move assignment,
`swap` (330-346), the destructor, and `a(j ...) = x` (ply.hh:509-510). -/
inductive SOp (V : Type) where
  | default (rk : Option Nat)
  | create (rk : Option Nat) (o : Option Int) (fill : Nat → V) (s : List Int)
  | borrow (rk : Option Nat) (v : View)
  | copyNew (j : Nat)
  | moveNew (j : Nat)
  | copy (i j : Nat)
  | move (i j : Nat)
  | swap (i j : Nat)
  | destroy (i : Nat)
  | set (i : Nat) (j : List Int) (x : V)

section
variable {V : Type}

/-- One more pointer uses the control block (copy of `std::shared_ptr`, arrays.hh:245). -/
def acquire (k : Option Nat) (cs : List Ctl) : List Ctl :=
  match k with
  | none => cs
  | some k => cs.modify k fun c => { c with uses := c.uses + 1 }

/-- One pointer less uses the control block. If it's the last, then the deleter is called: `std::default_delete<T []>` (arrays.hh:247), or nothing (356). -/
def release (k : Option Nat) (cs : List Ctl) (μ : Mem V) : List Ctl × Mem V :=
  match k with
  | none => (cs, μ)
  | some k =>
    match cs[k]? with
    | none => (cs, μ)
    | some c =>
      (cs.set k { c with uses := c.uses - 1 },
        if c.uses - 1 = 0 ∧ c.own then fun p => if c.base ≤ p ∧ p < c.base + c.n then none else μ p else μ)

/-- An array that was moved from (the defaulted move of arrays.hh:252-322): the pointer is null; the dims are copied if they are in a `std::array`, else the `std::vector` is left empty. -/
def SArr.moved (b : SArr) : SArr := ⟨b.arr.moveOut.2, none⟩

/-- Do one operation (arrays.hh:252-322). With `uniq` the arrays are `Unique`, and those that need copies of pointers don't compile. Different types don't compile either. The assignment of an array moved to itself isn't modelled. -/
def SOp.step (uniq : Bool) (st : SState V) : SOp V → Except Fault Unit × SState V
  | .default rk => if rk = some 0 then (.error .abort, st) else (.ok (), { st with as := st.as ++ [some ⟨Arr.default rk, none⟩] })
  | .create rk o fill s =>
    match Arr.create rk o fill s st.μ with
    | (.ok a, μ') => (.ok (), ⟨st.as ++ [some ⟨a, some st.ctls.length⟩], st.ctls ++ [⟨a.base, a.n, true, 1⟩], μ'⟩)
    | (.error e, μ') => (.error e, { st with μ := μ' })
  | .borrow rk v =>
    if uniq then (.error .abort, st)
    else match sharedBorrowing rk v with
      | .ok a => (.ok (), { st with as := st.as ++ [some ⟨a, some st.ctls.length⟩], ctls := st.ctls ++ [⟨a.base, a.n, false, 1⟩] })
      | .error e => (.error e, st)
  | .copyNew j =>
    match st.as[j]? with
    | some (some b) => if uniq then (.error .abort, st) else (.ok (), { st with as := st.as ++ [some b], ctls := acquire b.ctl st.ctls })
    | _ => (.error .abort, st)
  | .moveNew j =>
    match st.as[j]? with
    | some (some b) => (.ok (), { st with as := st.as.set j (some b.moved) ++ [some b] })
    | _ => (.error .abort, st)
  | .copy i j =>
    match st.as[i]?, st.as[j]? with
    | some (some a), some (some b) =>
      if uniq ∨ a.arr.rk ≠ b.arr.rk then (.error .abort, st)
      else
        let r := release a.ctl (acquire b.ctl st.ctls) st.μ
        (.ok (), ⟨st.as.set i (some b), r.1, r.2⟩)
    | _, _ => (.error .abort, st)
  | .move i j =>
    match st.as[i]?, st.as[j]? with
    | some (some a), some (some b) =>
      if i = j ∨ a.arr.rk ≠ b.arr.rk then (.error .abort, st)
      else
        let r := release a.ctl st.ctls st.μ
        (.ok (), ⟨(st.as.set j (some b.moved)).set i (some b), r.1, r.2⟩)
    | _, _ => (.error .abort, st)
  | .swap i j =>
    match st.as[i]?, st.as[j]? with
    | some (some a), some (some b) =>
      if i = j then (.ok (), st)
      else match Arr.swap a.arr b.arr with
        | (.ok (), a', b') => (.ok (), { st with as := (st.as.set i (some ⟨a', b.ctl⟩)).set j (some ⟨b', a.ctl⟩) })
        | (.error e, _, _) => (.error e, st)
    | _, _ => (.error .abort, st)
  | .destroy i =>
    match st.as[i]? with
    | some (some a) =>
      let r := release a.ctl st.ctls st.μ
      (.ok (), ⟨st.as.set i none, r.1, r.2⟩)
    | _ => (.error .abort, st)
  | .set i j x =>
    match st.as[i]? with
    | some (some a) =>
      if j.length = a.arr.dims.length then
        let r := (a.arr.view.elemAt (fun p => if a.ctl = none then fault .ub else Act.write p x) j) st.μ
        (r.1, { st with μ := r.2 })
      else (.error .abort, st)
    | _ => (.error .abort, st)

/-- Do some operations (arrays.hh:252-359), one after the other. -/
def sprogram (uniq : Bool) : List (SOp V) → SState V → Except Fault Unit × SState V
  | [], st => (.ok (), st)
  | op :: ops, st =>
    match op.step uniq st with
    | (.ok (), st') => sprogram uniq ops st'
    | (.error e, st') => (.error e, st')

end
end Ra
