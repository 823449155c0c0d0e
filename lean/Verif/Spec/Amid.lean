import Verif.Spec.Inside
import Verif.Model.Amid
/-!
# Specification for C104

Only the types and the memory are used from the model.
-/

namespace Ra.Spec

section
variable {V : Type}

/-- The same operation, when there's no memory. -/
def denyOp : Op V → Op V
  | .create rk _ fill s => .create rk none fill s
  | .resize i _ fill n => .resize i none fill n
  | .resizeShape i _ fill s => .resizeShape i none fill s
  | .pushBack i _ t => .pushBack i none t
  | .copy i j _ => .copy i j none
  | o => o

/-- The same operation, when there's no memory. -/
def deny : FCmd V → FCmd V
  | .cmd (.op o) => .cmd (.op (denyOp o))
  | .make rk _ fill e => .make rk none fill e
  | c => c

/-- The same program, where there may be no memory for some of the operations. -/
def Granted (cs cs' : List (FCmd V)) : Prop := List.Forall₂ (fun c c' => c' = c ∨ c' = deny c) cs cs'

/-- The operation doesn't change any of the first `k` arrays. -/
def OpSpares (k : Nat) : Op V → Prop
  | .default _ => True
  | .create _ _ _ _ => True
  | .resize i _ _ _ => k ≤ i
  | .resizeShape i _ _ _ => k ≤ i
  | .pushBack i _ _ => k ≤ i
  | .popBack i => k ≤ i
  | .copy i _ _ => k ≤ i
  | .swap i j => k ≤ i ∧ k ≤ j
  | .run _ => False

mutual
/-- The arrays whose elements the expression may refer to. -/
def targets : FExp V → List Nat
  | .view i _ => [i]
  | .gather _ i _ _ _ => [i]
  | .pick _ t => targetsTail t
  | _ => []
/-- Those of the choices of `pick`: the first argument selects. -/
def targetsTail : List (FExp V) → List Nat
  | [] => []
  | _ :: t => targetsAll t
/-- Those of some expressions. -/
def targetsAll : List (FExp V) → List Nat
  | [] => []
  | e :: t => targets e ++ targetsAll t
end

/-- The operation doesn't change any of the first `k` arrays. -/
def Spares (k : Nat) : FCmd V → Prop
  | .cmd (.op o) => OpSpares k o
  | .cmd (.set i _ _) => k ≤ i
  | .cmd (.assign i _) => k ≤ i
  | .cmd (.update _ i _) => k ≤ i
  | .assign d _ => ∀ i ∈ targets d, k ≤ i
  | .update _ d _ => ∀ i ∈ targets d, k ≤ i
  | .make _ _ _ _ => True

/-- A thread, with the arrays that only it uses, besides those that it shares with the others, and a program; `dyn` and `z` are as for `fprogram`. -/
structure Thread (V : Type) where
  own : List Arr
  dyn : Bool
  z : List Int
  cs : List (FCmd V)

/-- What the thread has to do. -/
def Thread.todo (t : Thread V) (shared : List Arr) : Amid V (Except Fault Unit × List Arr) := fprogramA t.dyn t.z t.cs (shared ++ t.own)

/-- The memory of some arrays and nothing else. -/
structure Just (as : List Arr) (μ μa : Mem V) : Prop where
  here : ∀ p, (∃ a ∈ as, Owns a p) → μa p = μ p
  rest : ∀ p, (¬ ∃ a ∈ as, Owns a p) → μa p = none

/-- The program of the thread is one of those in C98, it doesn't change the arrays that it shares with other threads, and the operations on views are of the kinds in `OpSafe`, if it was alone. -/
structure Thread.Polite (t : Thread V) (shared : List Arr) (μ : Mem V) : Prop where
  start : ∀ i ∈ t.z, i = 0
  sane : ∀ p, FCmd.cmd (.op (.run p)) ∉ t.cs
  spares : ∀ c ∈ t.cs, Spares shared.length c
  safe : ∀ μa, Just (shared ++ t.own) μ μa → FSafes t.dyn t.z t.cs (shared ++ t.own) μa

end
end Ra.Spec
