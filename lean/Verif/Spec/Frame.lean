import Verif.Spec.Slice
/-!
# Specification of rank conjunction and outer product
-/

namespace Ra.Spec

/-- Rank conjunction on arguments given as functions of an index, each with its rank. With cell ranks `c`, each argument takes as frame index
the leading entries of `j` for the axes that aren't in its cell. The inner verb applies to the cells of the arguments with the rest of `j`.
The number of entries of `j` that go to the frame is the largest frame rank. -/
def verb {m : Type → Type} {α : Type} (op : List (m α) → m α) : List (List Nat) → List (Nat × (List Int → m α)) → List Int → m α
  | [], args, j => op (args.map fun a => a.2 (j.take a.1))
  | c :: cs, args, j =>
    let F := (List.zipWith (fun a c => a.1 - c) args c).foldl max 0
    verb op cs (List.zipWith (fun a c => (c, fun x => a.2 (j.take (a.1 - c) ++ x))) args c) (j.drop F)

/-- Shape of a rank conjunction: for each level the match of the frames, and then the match of the cells. -/
def VerbShape : List (List Nat) → List (List Length) → List Length → Prop
  | [], ss, s => Merge ss s
  | c :: cs, ss, s => List.Forall₂ (fun (x : List Length) (c : Nat) => c ≤ x.length) ss c ∧ ∃ sf sr, s = sf ++ sr ∧
      Merge (List.zipWith (fun x c => x.take (x.length - c)) ss c) sf ∧
      VerbShape cs (List.zipWith (fun x c => x.drop (x.length - c)) ss c) sr

/-- The cell ranks of each conjunction are not larger than the ranks of what they apply to: the arguments for the outer one, and the cells of the
outer one for the inner one. -/
def Fit : List (List Nat) → List Nat → Prop
  | [], _ => True
  | c :: cs, rs => List.Forall₂ (fun r c => c ≤ r) rs c ∧ Fit cs c

/-- Cut an index in pieces of the given lengths. -/
def pieces : List Nat → List Int → List (List Int)
  | [], _ => []
  | r :: rs, j => j.take r :: pieces rs (j.drop r)

/-! ### Array subscripts -/

/-- A subscript that may be an array of positions with the given shape. -/
inductive ArrSub (m : Type → Type) (α : Type) where
  | sub (i : Subscript)
  | array (I : Iter m α) (s : List Length)

section
variable {m : Type → Type} {α : Type}

/-- The same with an axis kept in place of an array. -/
def ArrSub.kept : ArrSub m α → Subscript
  | .sub i => i
  | .array _ _ => .keep 1

/-- Shape of an array with array subscripts. -/
def outerShape (s : List Length) : List (ArrSub m α) → List Length
  | [] => s
  | .sub (.at _) :: is => outerShape (s.drop 1) is
  | .sub (.range n _ _) :: is => some n :: outerShape (s.drop 1) is
  | .sub (.keep k) :: is => s.take k ++ outerShape (s.drop k) is
  | .sub (.new k) :: is => List.replicate k none ++ outerShape s is
  | .array _ s0 :: is => s0 ++ outerShape (s.drop 1) is

/-- How many axes the element index `j` gives to a subscript, that is, the number of axes that it makes in the result. -/
def ArrSub.takes : ArrSub m α → Nat
  | .sub (.at _) => 0
  | .sub (.range _ _ _) => 1
  | .sub (.keep k) => k
  | .sub (.new k) => k
  | .array _ s0 => s0.length

/-- The elements of the subscript arrays that are needed for the element `j` of the result, in the order of the subscripts. -/
def positions : List (ArrSub m α) → List Int → List (m α)
  | [], _ => []
  | .array I s0 :: is, j => elem I (j.take s0.length) :: positions is (j.drop s0.length)
  | i :: is, j => positions is (j.drop i.takes)

/-- The index in the source of the element of the result at `j`, if the positions read from the subscript arrays are `vs`. -/
def outerIndex : List (ArrSub m α) → List Int → List Int → List Int
  | [], j, _ => j
  | .sub (.at i) :: is, j, vs => i :: outerIndex is j vs
  | .sub (.range _ o s) :: is, j, vs => (o + s * j.headD 0) :: outerIndex is (j.drop 1) vs
  | .sub (.keep k) :: is, j, vs => j.take k ++ outerIndex is (j.drop k) vs
  | .sub (.new k) :: is, j, vs => outerIndex is (j.drop k) vs
  | .array _ s0 :: is, j, vs => vs.headD 0 :: outerIndex is (j.drop s0.length) vs.tail

end
end Ra.Spec
