import Verif.Spec.Views
import Verif.Spec.Frame
import Verif.Model.FullProgram
/-!
# Specification of programs with any expressions

Only the types `FExp` and `FCmd` are used from the model, besides those of `Spec/Views.lean`.
-/

namespace Ra.Spec

/-- The largest of some ranks. -/
def largest : List Nat → Nat
  | [] => 0
  | r :: rs => max r (largest rs)

/-- The rank of a rank conjunction: that of the largest frame, and so on, and then that of the largest cell. -/
def verbRank : List (List Nat) → List Nat → Nat
  | [], rs => largest rs
  | c :: cs, rs => largest (List.zipWith (· - ·) rs c) + verbRank cs c

/-- The rank of an array of rank `r` with array subscripts of ranks `rs`, those are where the mask has `true`. The other axes are kept. -/
def gatherRank : List Bool → Nat → List Nat → Nat
  | true :: m, r, q :: rs => q + gatherRank m (r - 1) rs
  | false :: m, r, rs => 1 + gatherRank m (r - 1) rs
  | _, r, _ => r

/-- The shape of an array of shape `b` with array subscripts of shapes `ss`: each axis that has an array subscript is replaced by the shape of that subscript. -/
def gatherShape : List Bool → List Nat → List (List Length) → Option (List Length)
  | [], b, [] => some (b.map some)
  | true :: m, _ :: b, s :: ss => (gatherShape m b ss).map (s ++ ·)
  | false :: m, n :: b, ss => (gatherShape m b ss).map (some n :: ·)
  | _, _, _ => none

/-- The array subscripts `gs`, of ranks `rs`, for the indices `j`: each takes as many indices as its rank. The result is the index in an array of rank `r`. -/
def gathered {V : Type} (toIdx : V → Int) : List Bool → Nat → List Nat → List (List Int → Option V) → List Int → Option (List Int)
  | true :: m, r, q :: rs, g :: gs, j => match g (j.take q), gathered toIdx m (r - 1) rs gs (j.drop q) with
    | some x, some i => some (toIdx x :: i)
    | _, _ => none
  | false :: m, r, rs, gs, j => (gathered toIdx m (r - 1) rs gs (j.drop 1)).map (j.headD 0 :: ·)
  | _, r, _, _, j => some (j.take r)

/-- Each index is less than the length and not negative. -/
def within : List Length → List Int → Bool
  | some n :: s, i :: j => decide (0 ≤ i) && decide (i < n) && within s j
  | none :: s, _ :: j => within s j
  | _, _ => true

section
variable {V : Type}

/-- The shape of a view. -/
def viewShape (v : Value V) (ops : List ViewOp) : List Length := (opsShape true (v.shape.map some) ops).getD []

/-- The index in the array `v` of the element that's given by array subscripts on a view of `v`, if there's one. -/
def gatherAt (v : Value V) (ops : List ViewOp) (toIdx : V → Int) (mask : List Bool) (rs : List Nat) (gs : List (List Int → Option V)) (j : List Int) : Option (List Int) :=
  match gathered toIdx mask (viewShape v ops).length rs gs j with
  | some x => if within (viewShape v ops) x then some (place v ops x) else none
  | none => none

mutual
/-- The rank of an expression. -/
def FExp.rank (vs : List (Value V)) : FExp V → Nat
  | .const _ => 0
  | .index w _ => w + 1
  | .iota _ _ _ _ => 1
  | .view i ops => match vs[i]? with
    | some v => (viewShape v ops).length
    | none => 0
  | .gather _ i ops mask t => match vs[i]? with
    | some v => gatherRank mask (viewShape v ops).length (FExp.ranks vs t)
    | none => 0
  | .map _ cranks t => verbRank cranks (FExp.ranks vs t)
  | .pick _ t => largest (FExp.ranks vs t)
  | .fold _ _ _ => 0
def FExp.ranks (vs : List (Value V)) : List (FExp V) → List Nat
  | [] => []
  | e :: t => FExp.rank vs e :: FExp.ranks vs t
end

mutual
/-- The expression has shape `s`. The views are those that are considered in `opsShape`. -/
def FExp.Shape (vs : List (Value V)) : FExp V → List Length → Prop
  | .const _, s => s = []
  | .index w _, s => s = List.replicate (w + 1) none
  | .iota n _ _ _, s => s = [some n]
  | .view i ops, s => ∃ v, vs[i]? = some v ∧ opsShape true (v.shape.map some) ops = some s
  | .gather _ i ops mask t, s => t ≠ [] ∧ ∃ v, ∃ b : List Nat, ∃ ss, vs[i]? = some v ∧ opsShape true (v.shape.map some) ops = some (b.map some) ∧ FExp.Shapes vs t ss ∧
    gatherShape mask b ss = some s
  | .map _ cranks t, s => ∃ ss, FExp.Shapes vs t ss ∧ VerbShape cranks ss s
  | .pick _ t, s => ∃ ss, FExp.Shapes vs t ss ∧ Merge ss s
  | .fold _ _ _, _ => False
def FExp.Shapes (vs : List (Value V)) : List (FExp V) → List (List Length) → Prop
  | [], ss => ss = []
  | e :: t, ss => ∃ s ss', ss = s :: ss' ∧ FExp.Shape vs e s ∧ FExp.Shapes vs t ss'
end

/-- All the values, if they are all there. -/
def allOf : List (Option V) → Option (List V)
  | [] => some []
  | some x :: t => (allOf t).map (x :: ·)
  | none :: _ => none

mutual
/-- The value of an expression at index `j`. Of the arguments of `pick` only the selector and the one it selects need to have a value. With array
subscripts, there's a value if the subscripts are in range. -/
def FExp.at (vs : List (Value V)) : FExp V → List Int → Option V
  | .const x, _ => some x
  | .index w f, j => some (f (j.getD w 0))
  | .iota _ o s f, j => some (f (o + s * j.headD 0))
  | .view i ops, j => match vs[i]? with
    | some v => v.get (place v ops j)
    | none => none
  | .gather n i ops mask t, j => match vs[i]? with
    | some v => match gatherAt v ops n.toIdx mask (FExp.ranks vs t) (FExp.ats vs t) j with
      | some p => v.get p
      | none => none
    | none => none
  | .map f cranks t, j => verb (m := Option) (fun xs => (allOf xs).map f) cranks ((FExp.ranks vs t).zip (FExp.ats vs t)) j
  | .pick sel t, j => match FExp.ats vs t with
    | p :: ps => match p j with
      | some x => match ps[sel x]? with
        | some g => g j
        | none => none
      | none => none
    | [] => none
  | .fold _ _ _, _ => none
def FExp.ats (vs : List (Value V)) : List (FExp V) → List (List Int → Option V)
  | [] => []
  | e :: t => FExp.at vs e :: FExp.ats vs t
end

mutual
/-- The element that an expression refers to at index `j`: the array and the index in it. -/
def FExp.refers (vs : List (Value V)) : FExp V → List Int → Option (Nat × List Int)
  | .view i ops, j => match vs[i]? with
    | some v => some (i, place v ops j)
    | none => none
  | .gather n i ops mask t, j => match vs[i]? with
    | some v => match gatherAt v ops n.toIdx mask (FExp.ranks vs t) (FExp.ats vs t) j with
      | some p => some (i, p)
      | none => none
    | none => none
  | .pick sel t, j => match t with
    | [] => none
    | p :: ps => match FExp.at vs p j with
      | some x => match (FExp.referss vs ps)[sel x]? with
        | some g => g j
        | none => none
      | none => none
  | _, _ => none
def FExp.referss (vs : List (Value V)) : List (FExp V) → List (List Int → Option (Nat × List Int))
  | [] => []
  | e :: t => FExp.refers vs e :: FExp.referss vs t
end

/-- The value of a variable that starts as `x` and is updated with the values of an expression at some indices, in order. -/
def folded (vs : List (Value V)) (f : V → V → V) (e : FExp V) : List (List Int) → V → Option V
  | [], x => some x
  | j :: js, x => match FExp.at vs e j with
    | some y => folded vs f e js (f x y)
    | none => none

mutual
/-- `e'` is `e` with the values of the reductions in place of the reductions. What's reduced has a finite shape, and it's taken in row-major order. -/
def FExp.Reduced (vs : List (Value V)) : FExp V → FExp V → Prop
  | .gather n i ops mask t, e' => ∃ t', FExp.Reduceds vs t t' ∧ e' = .gather n i ops mask t'
  | .map f cranks t, e' => ∃ t', FExp.Reduceds vs t t' ∧ e' = .map f cranks t'
  | .pick sel t, e' => ∃ t', FExp.Reduceds vs t t' ∧ e' = .pick sel t'
  | .fold f x0 e, e' => ∃ e1, ∃ s : List Nat, ∃ x, FExp.Reduced vs e e1 ∧ FExp.Shape vs e1 (s.map some) ∧ folded vs f e1 (rowMajor s) x0 = some x ∧ e' = .const x
  | e, e' => e' = e
def FExp.Reduceds (vs : List (Value V)) : List (FExp V) → List (FExp V) → Prop
  | [], t' => t' = []
  | e :: t, t' => ∃ e1 t1, FExp.Reduced vs e e1 ∧ FExp.Reduceds vs t t1 ∧ t' = e1 :: t1
end

mutual
/-- The views in the expression are those that are considered in `opsShape`, and the cell ranks of the rank conjunctions aren't larger than the ranks of what they apply to.
Views with array subscripts have finite lengths, and there aren't more subscripts than axes. The shapes needn't match, and the subscripts needn't be in range. -/
def FExp.Good (vs : List (Value V)) : FExp V → Prop
  | .const _ => True
  | .index _ _ => True
  | .iota _ _ _ _ => True
  | .view i ops => ∃ v, vs[i]? = some v ∧ ∃ s, opsShape true (v.shape.map some) ops = some s
  | .gather _ i ops mask t => t ≠ [] ∧ FExp.Goods vs t ∧ mask.count true = t.length ∧ ∃ v, ∃ b : List Nat, vs[i]? = some v ∧ opsShape true (v.shape.map some) ops = some (b.map some) ∧
    mask.length ≤ b.length
  | .map _ cranks t => t ≠ [] ∧ FExp.Goods vs t ∧ Fit cranks (FExp.ranks vs t)
  | .pick _ t => t ≠ [] ∧ FExp.Goods vs t
  | .fold _ _ e => FExp.Good vs e
def FExp.Goods (vs : List (Value V)) : List (FExp V) → Prop
  | [] => True
  | e :: t => FExp.Good vs e ∧ FExp.Goods vs t
end

mutual
/-- The expression can be assigned to: it's a view, perhaps with array subscripts, or selects among those. -/
def FExp.Places : FExp V → Prop
  | .view _ _ => True
  | .gather _ _ _ _ _ => True
  | .pick _ t => match t with
    | [] => False
    | _ :: ps => FExp.AllPlaces ps
  | _ => False
def FExp.AllPlaces : List (FExp V) → Prop
  | [] => True
  | e :: t => FExp.Places e ∧ FExp.AllPlaces t
end

/-- For each index in a list, in order, replace the element that `d` refers to at that index by `f` of itself and of the expression. If there's no such element, or no value, stop (`false`). -/
def floop (f : V → V → V) (d e : FExp V) : List (List Int) → List (Value V) → List (Value V) × Bool
  | [], vs => (vs, true)
  | j :: js, vs =>
    match FExp.refers vs d j, FExp.at vs e j with
    | some (i, p), some x =>
      match vs[i]? with
      | some v => match v.get p with
        | some y => floop f d e js (vs.set i (v.put p (f y x)))
        | none => (vs, false)
      | none => (vs, false)
    | _, _ => (vs, false)

/-- After the reductions are done, the assignment is `d' OP e'`, and the shapes match to give `s`. -/
def Prepared (vs : List (Value V)) (d e d' e' : FExp V) (s : List Nat) : Prop :=
  FExp.Reduced vs d d' ∧ FExp.Reduced vs e e' ∧ ∃ sd se, FExp.Shape vs d' sd ∧ FExp.Shape vs e' se ∧ Merge [sd, se] (s.map some)

/-- The effect of an assignment: the reductions are done first, the shapes match, and the elements are assigned one by one in row-major order. -/
def FAssigns (f : V → V → V) (vs : List (Value V)) (d e : FExp V) (vs' : List (Value V)) : Prop :=
  FExp.Places d ∧ ∃ d' e', ∃ s : List Nat, Prepared vs d e d' e' s ∧ floop f d' e' (rowMajor s) vs = (vs', true)

/-- The effect of making an array from an expression: the reductions are done first, and the array has the shape and the elements of the result. The rank is `rk` if it's given. -/
def FMakes (vs : List (Value V)) (rk : Option Nat) (e : FExp V) (vs' : List (Value V)) : Prop :=
  ∃ e', ∃ s : List Nat, ∃ xs, FExp.Reduced vs e e' ∧ FExp.Shape vs e' (s.map some) ∧ (∀ r, rk = some r → s.length = r) ∧ allOf ((rowMajor s).map (FExp.at vs e')) = some xs ∧ vs' = vs ++ [⟨s, xs⟩]

/-- An assignment that fails: either the shapes don't match, or a reduction can't be done, and nothing changes; or it stops when there's nothing to select or a subscript is out of range. -/
def FFails (f : V → V → V) (vs : List (Value V)) (d e : FExp V) (vs' : List (Value V)) : Prop :=
  ((¬ ∃ d' e' s, Prepared vs d e d' e' s) ∧ vs' = vs) ∨ ∃ d' e', ∃ s : List Nat, Prepared vs d e d' e' s ∧ floop f d' e' (rowMajor s) vs = (vs', false)

/-- The arrays have the same shapes, and the same elements other than those in `P`. -/
def SameBut (P : Nat → List Int → Prop) (vs vs' : List (Value V)) : Prop :=
  vs'.length = vs.length ∧ ∀ (i : Nat) (v : Value V), vs[i]? = some v → ∃ v', vs'[i]? = some v' ∧ v'.shape = v.shape ∧ v'.elems.length = v.elems.length ∧
    ∀ p, Valid v.shape p → ¬ P i p → v'.get p = v.get p

/-- An assignment `d OP e` of shape `s` assigns to an element at most once. -/
def Once (vs : List (Value V)) (d : FExp V) (s : List Nat) : Prop :=
  ∀ j k q, Valid s j → Valid s k → FExp.refers vs d j = some q → FExp.refers vs d k = some q → j = k

/-- In an assignment `d OP e` of shape `s`, the value for an index doesn't depend on the elements that are assigned for the others. -/
def Independent (vs : List (Value V)) (d e : FExp V) (s : List Nat) : Prop :=
  ∀ j, Valid s j → ∀ vs', SameBut (fun i p => ∃ k, Valid s k ∧ k ≠ j ∧ FExp.refers vs d k = some (i, p)) vs vs' →
    FExp.at vs' e j = FExp.at vs e j ∧ FExp.refers vs' d j = FExp.refers vs d j

/-- The effect of one operation. -/
def FCmd.Effect (vs : List (Value V)) : FCmd V → List (Value V) → Prop
  | .cmd c, vs' => Cmd.effect vs c = some vs'
  | .assign d e, vs' => FAssigns (fun _ x => x) vs d e vs'
  | .update f d e, vs' => FAssigns f vs d e vs'
  | .make rk _ _ e, vs' => FMakes vs rk e vs'

/-- The effect of some operations, one after the other. -/
def FEffects : List (FCmd V) → List (Value V) → List (Value V) → Prop
  | [], vs, vs' => vs' = vs
  | c :: cs, vs, vs' => ∃ vs1, FCmd.Effect vs c vs1 ∧ FEffects cs vs1 vs'

end
end Ra.Spec
