import Verif.Model.Const
import Mathlib.Tactic.Common
/-!
# C102: const arrays aren't changed
-/

namespace Ra.Spec

/-- Given to be read only: an array that is `const` or whose elements are, or something that points to `const` elements. -/
def GivenConst : Qual → Prop
  | .arr _ tc c => tc = true ∨ c = true
  | .view pc _ => pc = true
  | .iter pc => pc = true
  | .elem pc => pc = true

/-- The storage is a vector or part of the array, as in `Big` and `Small`, or the elements are `const`. -/
def OwnsConst : Qual → Prop
  | .arr st tc _ => st = .vector ∨ st = .inplace ∨ tc = true
  | _ => True

/-- No array is numbered that doesn't exist. -/
def Numbered {V : Type} (s : QState V) : Prop := ∀ v ∈ s.vars, v.array < s.next

end Ra.Spec

namespace Ra.Props
open Spec

/-- Operations on something that can only be read make something that can only be read, or a new array. -/
theorem apply_const {q : Qual} (h : GivenConst q) (h' : OwnsConst q) {op : QOp} {q' : Qual} (e : q.apply op = some (.same q')) : GivenConst q' ∧ OwnsConst q' := by
  cases q with
  | arr st tc c =>
    simp only [GivenConst, OwnsConst] at h h'
    cases op <;> cases st <;> cases tc <;> cases c <;> simp_all [Qual.apply, Qual.data, Qual.viewed] <;>
      (try (rename_i s; cases s)) <;> simp_all [GivenConst, OwnsConst] <;> (subst e; simp [GivenConst, OwnsConst])
  | view pc c =>
    simp only [GivenConst] at h
    subst h
    cases op <;> simp_all [Qual.apply, Qual.data, Qual.viewed] <;> (try (rename_i s; cases s)) <;> simp_all [GivenConst, OwnsConst] <;> (subst e; simp [GivenConst, OwnsConst])
  | iter pc =>
    simp only [GivenConst] at h
    subst h
    cases op <;> simp_all [Qual.apply, Qual.data, Qual.viewed] <;> (try (rename_i s; cases s)) <;> simp_all [GivenConst, OwnsConst] <;> (subst e; simp [GivenConst, OwnsConst])
  | elem pc =>
    simp only [GivenConst] at h
    subst h
    cases op <;> simp_all [Qual.apply, Qual.data, Qual.viewed] <;> (try (rename_i s; cases s)) <;> simp_all [GivenConst, OwnsConst] <;> (subst e; simp [GivenConst, OwnsConst])

theorem not_writable {q : Qual} (h : GivenConst q) : q.writable = false := by
  cases q with
  | arr st tc c => simp only [GivenConst] at h; simp only [Qual.writable]; rcases h with h | h <;> simp [h]
  | view pc c => simp only [GivenConst] at h; simp [Qual.writable, h]
  | iter pc => simp only [GivenConst] at h; simp [Qual.writable, h]
  | elem pc => simp only [GivenConst] at h; simp [Qual.writable, h]

/-- All that gives access to array `n` is for reading. -/
def AllConst {V : Type} (s : QState V) (n : Nat) : Prop := ∀ v ∈ s.vars, v.array = n → GivenConst v.qual ∧ OwnsConst v.qual

theorem run_const {V : Type} {s s' : QState V} {c : QStmt V} (h : c.run s = some s') (hn : Numbered s) {n : Nat} (hlt : n < s.next) (hc : AllConst s n) :
    Numbered s' ∧ n < s'.next ∧ AllConst s' n ∧ s'.mem n = s.mem n := by
  cases c with
  | make x op d =>
    simp only [QStmt.run] at h
    cases hx : s.vars[x]? with
    | none => simp [hx] at h
    | some v =>
      have hv := List.mem_of_getElem? hx
      simp only [hx, Option.bind_eq_bind, Option.bind_some] at h
      cases ha : v.qual.apply op with
      | none => simp [ha] at h
      | some r =>
        cases r with
        | same q =>
          simp only [ha, Option.bind_some, Option.pure_def, Option.some.injEq] at h
          subst h
          refine ⟨?_, hlt, ?_, rfl⟩
          · intro w hw
            simp only [List.mem_append, List.mem_singleton] at hw
            rcases hw with hw | rfl
            · exact hn w hw
            · exact hn v hv
          · intro w hw e
            simp only [List.mem_append, List.mem_singleton] at hw
            rcases hw with hw | rfl
            · exact hc w hw e
            · obtain ⟨h1, h2⟩ := hc v hv e
              exact apply_const h1 h2 ha
        | fresh q =>
          simp only [ha, Option.bind_some, Option.pure_def, Option.some.injEq] at h
          subst h
          refine ⟨?_, by simp only; omega, ?_, ?_⟩
          · intro w hw
            simp only [List.mem_append, List.mem_singleton] at hw
            rcases hw with hw | rfl
            · have := hn w hw; simp only; omega
            · simp
          · intro w hw e
            simp only [List.mem_append, List.mem_singleton] at hw
            rcases hw with hw | rfl
            · exact hc w hw e
            · simp only at e; omega
          · simp only; rw [if_neg (by omega)]
  | put x d y =>
    simp only [QStmt.run] at h
    cases hx : s.vars[x]? with
    | none => simp [hx] at h
    | some v =>
      have hv := List.mem_of_getElem? hx
      simp only [hx, Option.bind_eq_bind, Option.bind_some] at h
      cases hw : v.qual.writable with
      | false => simp [hw] at h
      | true =>
        simp only [hw, if_true, Option.pure_def, Option.some.injEq] at h
        subst h
        refine ⟨hn, hlt, hc, ?_⟩
        funext p
        simp only
        rw [if_neg]
        rintro ⟨e, -⟩
        have := not_writable (hc v hv e.symm).1
        rw [hw] at this
        exact absurd this (by simp)

/-- C102. A program doesn't change the elements of an array if all that it has been given of that array is for reading: the array is `const`, or it has been given as a view or an iterator of `const`
elements. This holds for `Big` and `Small`, and for any array with `const` elements. Whatever the program does with other arrays. What's missing: `Unique` and `Shared` (`C102_negation`). -/
theorem C102_partial {V : Type} (t : List (QStmt V)) (s s' : QState V) (h : QStmt.runs s t = some s') (hn : Numbered s) (n : Nat) (hlt : n < s.next)
    (hc : ∀ v ∈ s.vars, v.array = n → GivenConst v.qual ∧ OwnsConst v.qual) : s'.mem n = s.mem n := by
  induction t generalizing s with
  | nil => simp only [QStmt.runs, Option.some.injEq] at h; rw [h]
  | cons c t ih =>
    simp only [QStmt.runs, Option.bind_eq_bind, Option.bind_eq_some_iff] at h
    obtain ⟨s1, h1, h2⟩ := h
    obtain ⟨a, b, c', d⟩ := run_const h1 hn hlt hc
    rw [ih s1 h2 a b c', d]

/-- C102 as it should be, for any kind of storage. -/
def ConstKept (st : QStore) : Prop :=
  ∀ (t : List (QStmt Int)) (s s' : QState Int), QStmt.runs s t = some s' → Numbered s → ∀ n < s.next, (∀ v ∈ s.vars, v.array = n → v.qual = .arr st false true) → s'.mem n = s.mem n

/-- One array, given as `const`. -/
def given (st : QStore) : QState Int := ⟨[⟨.arr st false true, 0, 0⟩], fun _ p => p, 1⟩

/-- C102 is false of the code for `Unique` and `Shared`: if `a` is a `const` array, `a(2) = 99` compiles. -/
theorem C102_negation : ¬ ConstKept .unique ∧ ¬ ConstKept .shared := by
  have h : ∀ st, (st = .unique ∨ st = .shared) → ¬ ConstKept st := by
    intro st hst hk
    have hr : ∃ s', QStmt.runs (given st) [.make 0 .at 2, .put 1 0 99] = some s' ∧ s'.mem 0 2 = 99 := by
      rcases hst with rfl | rfl <;> exact ⟨_, rfl, rfl⟩
    obtain ⟨s', h1, h2⟩ := hr
    have := hk _ _ s' h1 (by intro v hv; simp [given] at hv; subst hv; simp [given]) 0 (by simp [given]) (by intro v hv _; simp [given] at hv; subst hv; rfl)
    rw [this] at h2
    simp [given] at h2
  exact ⟨h _ (.inl rfl), h _ (.inr rfl)⟩

/-- `Big` and `Small` keep it. -/
theorem C102_big : ConstKept .vector ∧ ConstKept .inplace :=
  ⟨fun t s s' h hn n hlt hc => C102_partial t s s' h hn n hlt fun v hv e => by rw [hc v hv e]; exact ⟨.inr rfl, .inl rfl⟩,
    fun t s s' h hn n hlt hc => C102_partial t s s' h hn n hlt fun v hv e => by rw [hc v hv e]; exact ⟨.inr rfl, .inr (.inl rfl)⟩⟩

/-- `const` on a view is about the view, not the elements: the same operations compile, the results are the same, and it can be written if it could. -/
theorem C102_view (pc c c' : Bool) (op : QOp) : (Qual.view pc c).apply op = (Qual.view pc c').apply op ∧ (Qual.view pc c).writable = (Qual.view pc c').writable := by
  refine ⟨?_, rfl⟩
  cases op <;> rfl

/-- What isn't `const` doesn't become `const` unless it's asked for: through all the other operations on an array that isn't `const` it can be written. -/
theorem C102_write (st : QStore) (op : QOp) (q : Qual) (h : op ≠ .cref) (h' : ∀ b, op ≠ .toView b) (h'' : ∀ b, op ≠ .explode b) (e : (Qual.arr st false false).apply op = some (.same q) ∨ (Qual.arr st false false).apply op = some (.fresh q)) :
    q.writable = true := by
  cases op with
  | cref => exact absurd rfl h
  | toView b => exact absurd rfl (h' b)
  | explode b => exact absurd rfl (h'' b)
  | _ => cases st <;> simp [Qual.apply, Qual.data, Qual.viewed] at e <;> subst e <;> rfl

/-- A function that is given two `Big`, the first as `const`, writes on the second and on a copy of the first. It can't write on the first. -/
example : ∃ s', QStmt.runs (V := Int) ⟨[⟨.arr .vector false true, 0, 0⟩, ⟨.arr .vector false false, 1, 0⟩], fun _ p => p, 2⟩
    [.make 1 .slice 3, .put 2 1 99, .make 0 .copy 0, .make 3 .at 5, .put 4 0 98] = some s' ∧ s'.mem 0 4 = 4 ∧ s'.mem 1 4 = 99 ∧ s'.mem 2 5 = 98 := ⟨_, rfl, rfl, rfl, rfl⟩
example : (QStmt.runs (given .vector) [.make 0 .at 2, .put 1 0 99]).isNone ∧ (QStmt.runs (given .vector) [.make 0 .begin 0, .make 1 .deref 0, .put 2 0 99]).isNone ∧
    (QStmt.runs (given .inplace) [.put 0 0 99]).isNone ∧ (QStmt.runs (given .vector) [.make 0 (.toView false) 0]).isNone ∧ (QStmt.runs (given .vector) [.make 0 (.toView true) 0]).isSome := ⟨rfl, rfl, rfl, rfl, rfl⟩
/-- The rows of the manual (docs/ra-ra.texi:536-555). -/
example : let a := Qual.arr .vector false false; let b := Qual.arr .vector false true
    a.apply .at = some (.same (.elem false)) ∧ a.apply (.toView false) = some (.same (.view false false)) ∧ (Qual.view false false).apply .at = some (.same (.elem false)) ∧
    (Qual.view false true).apply .at = some (.same (.elem false)) ∧ a.apply (.toView true) = some (.same (.view true false)) ∧ (Qual.view true false).apply .at = some (.same (.elem true)) ∧
    b.apply .at = some (.same (.elem true)) ∧ b.apply (.toView false) = none ∧ b.apply (.toView true) = some (.same (.view true false)) := ⟨rfl, rfl, rfl, rfl, rfl, rfl, rfl, rfl, rfl⟩

end Ra.Props
