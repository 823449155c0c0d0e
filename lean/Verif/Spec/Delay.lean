import Verif.Spec.Views
import Verif.Model.Delay
/-!
# Specification of programs with expressions that are kept to be used later

Only the types `DExp` and `DCmd` are used from the model, besides those of `Spec/Views.lean`. There's no memory, and there aren't pointers. What's kept is the text of the expression.
-/

namespace Ra.Spec

section
variable {V : Type}

/-- The arrays in an expression. -/
def VExp.arrays : VExp V → List Nat
  | .const _ => []
  | .view i _ => [i]
  | .op _ a b => VExp.arrays a ++ VExp.arrays b

/-- The arrays that an operation replaces or gives another size. Those are not the ones with assignments to their elements. -/
def replaced : VCmd V → List Nat
  | .cmd (.op (.resize i _ _ _)) => [i]
  | .cmd (.op (.resizeShape i _ _ _)) => [i]
  | .cmd (.op (.pushBack i _ _)) => [i]
  | .cmd (.op (.popBack i)) => [i]
  | .cmd (.op (.copy i _ _)) => [i]
  | .cmd (.op (.swap i j)) => [i, j]
  | _ => []

/-- The ranks of the arrays that an operation makes, if they are known when compiling. -/
def declared : VCmd V → List (Option Nat)
  | .cmd (.op (.default rk)) => [rk]
  | .cmd (.op (.create rk _ _ _)) => [rk]
  | _ => []

/-- The values of the arrays; their ranks, if known when compiling; and the expressions that are kept, each with whether it can be used. -/
structure Env (V : Type) where
  vs : List (Value V)
  rks : List (Option Nat)
  ks : List (VExp V × Bool)

/-- It's a number, or an array or view of an array that is known to have rank 0 when compiling. -/
def isNumber (E : Env V) : VExp V → Bool
  | .const _ => true
  | .view i ops => match E.vs[i]?, E.rks[i]? with
    | some v, some (some _) => decide (opsShape true (v.shape.map some) ops = some [])
    | _, _ => false
  | .op _ _ _ => false

/-- What an expression means at the time that it's made: kept expressions are replaced by their text, and operations on numbers by the result. -/
def meaning (E : Env V) : DExp V → Option (VExp V)
  | .const x => some (.const x)
  | .view i ops => match E.vs[i]? with
    | some v => if (opsShape true (v.shape.map some) ops).isSome then some (.view i ops) else none
    | none => none
  | .kept k => match E.ks[k]? with
    | some (e, true) => some e
    | _ => none
  | .op f a b => match meaning E a, meaning E b with
    | some x, some y =>
      if isNumber E x && isNumber E y then
        match VExp.at E.vs [] x, VExp.at E.vs [] y with
        | some u, some v => some (.const (f u v))
        | _, _ => none
      else some (.op f x y)
    | _, _ => none

/-- What's kept: the meaning, or the value if it's a number. -/
def keeps (E : Env V) (e : DExp V) : Option (VExp V) :=
  match meaning E e with
  | some x =>
    if isNumber E x then
      match VExp.at E.vs [] x with
      | some u => some (.const u)
      | none => none
    else some x
  | none => none

/-- The effect of one operation. -/
inductive DCmd.Effect : Env V → DCmd V → Env V → Prop where
  | cmd (E : Env V) (c : VCmd V) (vs' : List (Value V)) (h : VCmd.Effect E.vs c vs') :
    DCmd.Effect E (.cmd c) ⟨vs', E.rks ++ declared c, E.ks.map fun k => (k.1, k.2 && (VExp.arrays k.1).all fun i => decide (i ∉ replaced c))⟩
  | make (E : Env V) (e : DExp V) (x : VExp V) (h : keeps E e = some x) : DCmd.Effect E (.make e) ⟨E.vs, E.rks, E.ks ++ [(x, true)]⟩
  | assign (E : Env V) (i : Nat) (ops : List ViewOp) (e : DExp V) (x : VExp V) (vs' : List (Value V)) (h : meaning E e = some x) (ha : Assigns (fun _ x => x) E.vs i ops x vs') :
    DCmd.Effect E (.assign i ops e) ⟨vs', E.rks, E.ks⟩
  | update (E : Env V) (f : V → V → V) (i : Nat) (ops : List ViewOp) (e : DExp V) (x : VExp V) (vs' : List (Value V)) (h : meaning E e = some x) (ha : Assigns f E.vs i ops x vs') :
    DCmd.Effect E (.update f i ops e) ⟨vs', E.rks, E.ks⟩

/-- The effect of some operations, one after the other. -/
def DEffects : List (DCmd V) → Env V → Env V → Prop
  | [], E, E' => E' = E
  | c :: cs, E, E' => ∃ E1, DCmd.Effect E c E1 ∧ DEffects cs E1 E'

/-- The value of an expression at index `j`, with each kept expression replaced by its text, and nothing done before its time. -/
def DExp.at (E : Env V) (j : List Int) : DExp V → Option V
  | .const x => some x
  | .view i ops => VExp.at E.vs j (.view i ops)
  | .kept k => match E.ks[k]? with
    | some (e, _) => VExp.at E.vs j e
    | none => none
  | .op f a b => match DExp.at E j a, DExp.at E j b with
    | some x, some y => some (f x y)
    | _, _ => none

/-- In memory `μ`, the expression would read at index `j` some place that isn't in use. -/
def Dangling (as : List Arr) (μ : Mem V) (j : List Int) : Kept V → Prop
  | .val _ => False
  | .arr i cp => ∃ a, as[i]? = some a ∧ μ (address ⟨a.dims, cp⟩ j) = none
  | .view w => μ (address w j) = none
  | .op _ a b => Dangling as μ j a ∨ Dangling as μ j b

end
end Ra.Spec
