import Verif.Spec.Value
import Verif.Spec.Slice
import Verif.Model.ViewProgram
/-!
# Specification of views of arrays as index maps, and of programs with them

Only the types `ViewOp`, `VExp` and `VCmd` are used from the model, besides those of `Spec/Value.lean`. There's no memory and no addresses or steps: a view is a shape, and
for each index the index in the array.
-/

namespace Ra.Spec

/-- The index at a position in row-major order. -/
def atPosition : List Nat → Int → List Int
  | [], _ => []
  | _ :: s, p => p / size s :: atPosition s (p % size s)

/-- What a subscript means. Those with `ra::len` have their own property (C43). -/
def subscript : Sub → Option Subscript
  | .scalar (.const i) => some (.at i)
  | .iota [(.const n, .const st)] (.const o) => if 0 ≤ n then some (.range n.toNat o st) else none
  | .dots (some k) => some (.keep k)
  | .insert k => some (.new k)
  | _ => none

/-- What the subscripts mean. -/
def subscripts : List Sub → Option (List Subscript)
  | [] => some []
  | i :: is => match subscript i, subscripts is with
    | some j, some js => some (j :: js)
    | _, _ => none

/-- The subscripts are in range. Subscripts for unbounded axes aren't considered here. -/
def inBounds : List Length → List Subscript → Bool
  | _, [] => true
  | some n :: s, .at i :: js => decide (0 ≤ i ∧ i < n) && inBounds s js
  | some n :: s, .range m o st :: js => ((List.range m).all fun (k : Nat) => decide (0 ≤ o + st * k ∧ o + st * k < n)) && inBounds s js
  | s, .keep k :: js => decide (k ≤ s.length) && inBounds (s.drop k) js
  | s, .new _ :: js => inBounds s js
  | _, _ => false

/-- If no number is negative, the same numbers. -/
def naturals (l : List Int) : Option (List Nat) := if l.all (0 ≤ ·) then some (l.map Int.toNat) else none

/-- If no length is unbounded, the lengths. -/
def finite (s : List Length) : Option (List Nat) := if s.all Option.isSome then some (s.map (·.getD 0)) else none

/-- The smallest of the lengths, or unbounded if there are none. -/
def smallest : List Length → Length
  | [] => none
  | none :: ls => smallest ls
  | some n :: ls => match smallest ls with
    | some m => some (min n m)
    | none => some n

/-- The lengths of the axes that are sent to axis `a`. -/
def sentTo (ax : List Nat) (s : List Length) (a : Nat) : List Length := ((ax.zip s).filter (·.1 == a)).map (·.2)

/-- How many axes there are after sending axes to others. -/
def sentRank (ax : List Nat) : Nat := ax.foldr (fun a r => max (a + 1) r) 0

/-- The shape that an operation gives for a view of shape `s`, if it's one of those that are considered here. `whole` is for when all the elements are in
row-major order without gaps, as in an array; only then are `reshape` (other than to add or remove leading axes) and `ravel_free` considered.
Sending both unbounded axes and others to the same axis isn't considered, and neither is reshaping an empty array to get elements. -/
def opShape (whole : Bool) (s : List Length) : ViewOp → Option (List Length)
  | .slice is =>
    match subscripts is with
    | some js => if inBounds s js then some (sliceShape s js) else none
    | none => none
  | .reverse k => if 0 ≤ k ∧ (s.getD k.toNat none).isSome then some s else none
  | .transpose ax =>
    match naturals ax with
    | some ax =>
      if ax.length = s.length ∧ (ax.all fun a => (sentTo ax s a).all Option.isNone || (sentTo ax s a).all Option.isSome) then
        some ((List.range (sentRank ax)).map fun a => smallest (sentTo ax s a))
      else none
    | none => none
  | .stencil lo hi =>
    match finite s, naturals lo, naturals hi with
    | some s, some lo, some hi =>
      if lo.length = s.length ∧ hi.length = s.length ∧ (((List.zipWith (· + ·) lo hi).zip s).all fun p => p.1 ≤ p.2) then
        some ((List.zipWith (· - ·) s (List.zipWith (· + ·) lo hi) ++ List.zipWith (fun l h => l + h + 1) lo hi).map some)
      else none
    | _, _, _ => none
  | .reshape t =>
    match finite s, naturals t with
    | some s, some t =>
      if t <:+ s then (if 0 ∈ t ∨ 0 ∉ s then some (t.map some) else none)
      else if s <:+ t then some (t.map some)
      else if whole ∧ size t ≤ size s then some (t.map some)
      else none
    | _, _ => none
  | .ravel =>
    match finite s with
    | some s => if whole then some [some (size s)] else none
    | none => none

/-- After these operations the elements are still in row-major order without gaps. -/
def staysWhole (s : List Length) : ViewOp → Bool
  | .ravel => true
  | .reshape t => decide (t.length ≤ s.length) || ! decide (s.map (fun l => (l.getD 0 : Int)) <:+ t)
  | _ => false

/-- The index before the operation, for index `j` after it. -/
def opIndex (s : List Length) (j : List Int) : ViewOp → List Int
  | .slice is => match subscripts is with
    | some js => sliceIndex js j
    | none => j
  | .reverse k => j.set k.toNat ((((s.getD k.toNat none).getD 0 : Nat) : Int) - 1 - j.getD k.toNat 0)
  | .transpose ax => ax.map fun a => j.getD a.toNat 0
  | .stencil _ _ => List.zipWith (· + ·) (j.take s.length) (j.drop s.length)
  | .reshape t =>
    let s := s.map (·.getD 0)
    let t := t.map Int.toNat
    if t <:+ s then List.replicate (s.length - t.length) 0 ++ j
    else if s <:+ t then j.drop (t.length - s.length)
    else atPosition s (position t j)
  | .ravel => atPosition (s.map (·.getD 0)) (j.headD 0)

/-- The shape that some operations give. -/
def opsShape : Bool → List Length → List ViewOp → Option (List Length)
  | _, s, [] => some s
  | whole, s, op :: ops => match opShape whole s op with
    | some t => opsShape (whole && staysWhole s op) t ops
    | none => none

/-- The index before some operations, for index `j` after them. -/
def opsIndex : Bool → List Length → List ViewOp → List Int → List Int
  | _, _, [], j => j
  | whole, s, op :: ops, j => match opShape whole s op with
    | some t => opIndex s (opsIndex (whole && staysWhole s op) t ops j) op
    | none => []

section
variable {V : Type}

/-- The index in the array `v` of the element of a view of `v` at `j`. If `j` has more entries than the view has axes the others aren't used. -/
def place (v : Value V) (ops : List ViewOp) (j : List Int) : List Int := (opsIndex true (v.shape.map some) ops j).take v.shape.length

/-- The value of an expression at index `j`. -/
def VExp.at (vs : List (Value V)) (j : List Int) : VExp V → Option V
  | .const x => some x
  | .view i ops => match vs[i]? with
    | some v => v.get (place v ops j)
    | none => none
  | .op f a b => match VExp.at vs j a, VExp.at vs j b with
    | some x, some y => some (f x y)
    | _, _ => none

/-- The shapes of the arguments of an expression, if they are views that are considered here. -/
def VExp.shapes (vs : List (Value V)) : VExp V → Option (List (List Length))
  | .const _ => some [[]]
  | .view i ops => match vs[i]? with
    | some v => match opsShape true (v.shape.map some) ops with
      | some t => some [t]
      | none => none
    | none => none
  | .op _ a b => match VExp.shapes vs a, VExp.shapes vs b with
    | some x, some y => some (x ++ y)
    | _, _ => none

/-- For each index in a list, in order, replace the element of the view of array `i` at that index by `f` of itself and of the expression. -/
def vloop (f : V → V → V) (i : Nat) (ops : List ViewOp) (e : VExp V) : List (List Int) → List (Value V) → Option (List (Value V))
  | [], vs => some vs
  | j :: js, vs =>
    match vs[i]?, VExp.at vs j e with
    | some v, some x =>
      match v.get (place v ops j) with
      | some y => vloop f i ops e js (vs.set i (v.put (place v ops j) (f y x)))
      | none => none
    | _, _ => none

/-- The effect of an assignment: the shapes match, and the elements are assigned one by one in row-major order. -/
def Assigns (f : V → V → V) (vs : List (Value V)) (i : Nat) (ops : List ViewOp) (e : VExp V) (vs' : List (Value V)) : Prop :=
  ∃ v d ss, ∃ s : List Nat, vs[i]? = some v ∧ opsShape true (v.shape.map some) ops = some d ∧ VExp.shapes vs e = some ss ∧ Merge (d :: ss) (s.map some) ∧
    vloop f i ops e (rowMajor s) vs = some vs'

/-- Where the expression reads an element of the view of array `i` (whose value is `v`), it's at the index that it's for. -/
def Apart (v : Value V) (i : Nat) (ops : List ViewOp) (s : List Nat) : VExp V → Prop
  | .const _ => True
  | .view l ops' => l = i → ∀ j k, Valid s j → Valid s k → place v ops' j = place v ops k → j = k
  | .op _ a b => Apart v i ops s a ∧ Apart v i ops s b

/-- The effect of one operation. -/
def VCmd.Effect (vs : List (Value V)) : VCmd V → List (Value V) → Prop
  | .cmd c, vs' => Cmd.effect vs c = some vs'
  | .assign i ops e, vs' => Assigns (fun _ x => x) vs i ops e vs'
  | .update f i ops e, vs' => Assigns f vs i ops e vs'

/-- The effect of some operations, one after the other. -/
def Effects : List (VCmd V) → List (Value V) → List (Value V) → Prop
  | [], vs, vs' => vs' = vs
  | c :: cs, vs, vs' => ∃ vs1, VCmd.Effect vs c vs1 ∧ Effects cs vs1 vs'

end
end Ra.Spec
