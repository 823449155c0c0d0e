import Verif.Model.Matrix
import Verif.Model.Select
import Mathlib.Algebra.Field.Defs
/-!
# Finite elements in a cube

examples/laplace3d.cc:25-95, 97-100, 130-147.

Simplifications:
* The tables of integers (`Element::v` and `B`) are in a memory of their own while they're set, since they aren't `double`, and are functions in the products.
* The output and the vertex coordinates aren't modelled.
-/

namespace Ra

section
variable {F : Type}

/-- examples/laplace3d.cc:46-50 `Element`: the vertices, and the addresses of the temporaries. -/
structure Element where
  v : Int → Int
  reg1 : View
  reg2 : View

/-- examples/laplace3d.cc:52-58 `Matrix0bnd`. `E` and `B` have `nE` and `nB` elements. -/
structure Matrix0bnd (F : Type) where
  M : View
  h : F
  nE : Nat
  E : Int → Element
  nB : Nat
  B : Int → Int

/-- `E.v` as a subscript (examples/laplace3d.cc:65, 76, 79), which is `int [8]`. -/
def Element.index (n : IndexLike F) (E : Element) : Iter (Act F) (Lv F) := .cell [⟨8, 1⟩] 0 fun p => pure (.val (n.ofIdx (E.v p)))

/-- `A.B` as a subscript (examples/laplace3d.cc:66, 81). -/
def Matrix0bnd.bound (n : IndexLike F) (A : Matrix0bnd F) : Iter (Act F) (Lv F) := .cell [⟨A.nB, 1⟩] 0 fun p => pure (.val (n.ofIdx (A.B p)))

/-- `A.E` as an argument (examples/laplace3d.cc:65, 80). -/
def Matrix0bnd.elements (A : Matrix0bnd F) : Iter (Act F) Element := .cell [⟨A.nE, 1⟩] 0 fun p => pure (A.E p)

variable [Zero F] [Add F] [Mul F]

/-- The operation on examples/laplace3d.cc:65. Neither `v(E.v)` nor `w(E.v)` are slices. -/
def elemOp0 (n : IndexLike F) (dyn : Bool) (z : List Int) (M v w : View) : List Element → Act F Element
  | [E] => do
    match ← Act.lift (v.select n [.array] [E.index n]), ← Act.lift (w.select n [.array] [E.index n]) with
    | some x, some y => do
      gemvIter dyn z dyn z M x y
      pure E
    | _, _ => fault .abort
  | _ => fault .abort

/-- The operation on examples/laplace3d.cc:75-80. `E.reg1` and `E.reg2` aren't slices. -/
def elemOp1 (n : IndexLike F) (dyn : Bool) (z : List Int) (M v w : View) : List Element → Act F Element
  | [E] => do
    match ← Act.lift (v.select n [.array] [E.index n]) with
    | some x => do
      assign dyn z E.reg1.refs x
      assign dyn z E.reg2.refs (.scalar (pure (.val 0)))
      gemvIter dyn z dyn z M E.reg1.refs E.reg2.refs
      w.selectUpdate n (· + ·) dyn z [.array] [E.index n] E.reg2.refs
      pure E
    | none => fault .abort
  | _ => fault .abort

/-- examples/laplace3d.cc:60-68 `mult0` if `op` is `elemOp0`, and 70-83 `mult1` if `op` is `elemOp1`. -/
def multElems (op : View → View → List Element → Act F Element) (n : IndexLike F) (dyn : Bool) (z : List Int) (A : Matrix0bnd F) (v w : View) : Act F Unit := do
  assign dyn z w.refs (.scalar (pure (.val 0)))
  let _ ← ply (β := Unit) dyn never z (.node (mapOp (op v w)) [A.elements])
  w.selectAssign n dyn z [.array] [A.bound n] (.scalar (pure (.val 0)))
  update (· * ·) dyn z w.refs (.scalar (pure (.val A.h)))

/-- examples/laplace3d.cc:60-68 `mult0`. `dyn'`, `z'` are those of the traversals of an element. -/
def mult0 (n : IndexLike F) (dyn : Bool) (z : List Int) (dyn' : Bool) (z' : List Int) (A : Matrix0bnd F) (v w : View) : Act F Unit := multElems (elemOp0 n dyn' z' A.M) n dyn z A v w

/-- examples/laplace3d.cc:70-83 `mult1`. -/
def mult1 (n : IndexLike F) (dyn : Bool) (z : List Int) (dyn' : Bool) (z' : List Int) (A : Matrix0bnd F) (v w : View) : Act F Unit := multElems (elemOp1 n dyn' z' A.M) n dyn z A v w

end

section
variable {F : Type} [Field F]

/-- examples/laplace3d.cc:25-34 `SM`. -/
def stiffTable : List (List F) :=
  let d23 := 2 / 3; let d16 := -1 / 6; let d00 := 0
  [[d23, d00, d16, d00, d00, d16, d16, d16],
   [d00, d23, d00, d16, d16, d00, d16, d16],
   [d16, d00, d23, d00, d16, d16, d00, d16],
   [d00, d16, d00, d23, d16, d16, d16, d00],
   [d00, d16, d16, d16, d23, d00, d16, d00],
   [d16, d00, d16, d16, d00, d23, d00, d16],
   [d16, d16, d00, d16, d16, d00, d23, d00],
   [d16, d16, d16, d00, d00, d16, d00, d23]]

/-- examples/laplace3d.cc:26, 35-42 `MM`. -/
def massTable : List (List F) :=
  let d827 := 8 / 27; let d427 := 4 / 27; let d227 := 2 / 27; let d127 := 1 / 27
  [[d827, d427, d227, d427, d427, d227, d127, d227],
   [d427, d827, d427, d227, d227, d427, d227, d127],
   [d227, d427, d827, d427, d127, d227, d427, d227],
   [d427, d227, d427, d827, d227, d127, d227, d427],
   [d427, d227, d127, d227, d827, d427, d227, d427],
   [d227, d427, d227, d127, d427, d827, d427, d227],
   [d127, d227, d427, d227, d227, d427, d827, d427],
   [d227, d127, d227, d427, d427, d227, d427, d827]]

/-- examples/laplace3d.cc:85-95. The element matrix is copied from the table (arrays.hh:199-202); `M` is the member of `Matrix0bnd`. -/
def setMatrix (dyn : Bool) (z : List Int) (M : View) (table : List (List F)) : Act F Unit :=
  assign dyn z M.refs (.cell [⟨8, 8⟩, ⟨8, 1⟩] 0 fun p => pure (.val ((table.getD (p / 8).toNat []).getD (p % 8).toNat 0)))

end

/-- examples/laplace3d.cc:43-44 `ISF`. -/
def isfTable : List (List Int) := [[0, 0, 0], [1, 0, 0], [1, 1, 0], [0, 1, 0], [0, 0, 1], [1, 0, 1], [1, 1, 1], [0, 1, 1]]

/-- examples/laplace3d.cc:97-100 `pos`. -/
def gridPos (n i j k : Int) : Int := n * (n * i + j) + k

/-- The operation on examples/laplace3d.cc:133. The vertices of the element `e` begin at the address of `E(e)`. -/
def setVertex (n : Int) (E : View) : List (Lv Int) → Act Int (Lv Int)
  | [.val i, .val j, .val k, .val v] => do
    let d := isfTable.getD v.toNat []
    let e ← Act.lift (E.from [.scalar (.const (gridPos n i j k))])
    Act.write (e.cp + v) (gridPos (n + 1) (i + d.getD 0 0) (j + d.getD 1 0) (k + d.getD 2 0))
    pure (.ref (e.cp + v))
  | _ => fault .abort

/-- ply.hh:320-330 `iota(n)`, as on examples/laplace3d.cc:131-134. -/
def intIota (n : Nat) : Iter (Act Int) (Lv Int) := .cell [⟨n, 1⟩] 0 fun i => pure (.val i)

/-- examples/laplace3d.cc:130-134, set the elements. -/
def setElements (dyn : Bool) (z : List Int) (n : Nat) (E : View) : Act Int Unit :=
  match fromOp (setVertex n E) [intIota n, intIota n, intIota n, intIota 8] with
  | some e => do
    let _ ← ply (β := Unit) dyn never z e
    pure ()
  | none => fault .abort

/-- `B[k++] = x` (examples/laplace3d.cc:140-145). -/
def putNext (B : View) (x k : Int) : Act Int Int := do
  let c ← Act.lift (B.from [.scalar (.const k)])
  Act.write c.cp x
  pure (k + 1)

/-- The body of the loops on examples/laplace3d.cc:138-147. -/
def putSides (n : Nat) (B : View) (i j k : Int) : Act Int Int := do
  let k ← putNext B (gridPos (n + 1) 0 i j) k
  let k ← putNext B (gridPos (n + 1) n i j) k
  let k ← putNext B (gridPos (n + 1) i 0 j) k
  let k ← putNext B (gridPos (n + 1) i n j) k
  let k ← putNext B (gridPos (n + 1) i j 0) k
  putNext B (gridPos (n + 1) i j n) k

/-- examples/laplace3d.cc:136-147, set the boundaries. -/
def setBounds (n : Nat) (B : View) : Act Int Unit := do
  let _ ← (List.range (n + 1)).foldlM (fun (k : Int) (i : Nat) => (List.range (n + 1)).foldlM (fun (k : Int) (j : Nat) => putSides n B i j k) k) 0
  pure ()

end Ra
