import Verif.Model.AxisSum
import Verif.Model.AtArray
/-!
# Sums of products and of elements at a list of positions, as programs

The ways to add up an operation on two arrays in bench/bench-dot.cc and bench/bench-reduce-sqrm.cc, and the ways to add up the elements at a list of positions in bench/bench-at.cc. The operation `g` on
two elements is `*` in the first and `sqrm(a, b)` (ra.hh:72), which is `sqrm(a-b)`, in the second.
-/

namespace Ra

section
variable {V : Type} [Add V]

/-- bench/bench-dot.cc:36 and others, `y += x`, where `y` is at this address. -/
def plusAt (y : Int) (x : V) : Act V Unit := do
  let w ← Act.read y
  Act.write y (w + x)

/-- bench/bench-dot.cc:64-71 `real y(0.); INSIDE; return y;`. Also 33-37, 119-125. -/
def fromZero [Zero V] (y : Int) (body : Act V Unit) : Act V V := do
  Act.write y 0
  body
  Act.read y

/-- bench/bench-dot.cc:77, also 169; bench/bench-reduce-sqrm.cc:77. `[&y](real const a, real const b) { y += a*b; }`. It has no value; the model gives back `y`. -/
def plusPairOp (g : V → V → V) (y : Int) : List (Lv V) → Act V (Lv V)
  | [a, b] => do
    let u ← a.get
    let v ← b.get
    plusAt y (g u v)
    pure (.ref y)
  | _ => fault .abort

/-- bench/bench-dot.cc:82, 93; bench/bench-reduce-sqrm.cc:85. `[&y](real const a) { y += a; }`. -/
def plusOneOp (y : Int) : List (Lv V) → Act V (Lv V)
  | [a] => do
    let u ← a.get
    plusAt y u
    pure (.ref y)
  | _ => fault .abort

omit [Add V] in
/-- bench/bench-dot.cc:83, 94; bench/bench-reduce-sqrm.cc:86. `[](real const a, real const b) { return a*b; }`. -/
def pairValOp (g : V → V → V) : List (Lv V) → Act V (Lv V)
  | [a, b] => do
    let u ← a.get
    let v ← b.get
    pure (.val (g u v))
  | _ => fault .abort

variable [Zero V]

/-- bench/bench-dot.cc:75-78 `by_1l`, with `ply_ravel` or `ply_fixed` (97-98), also 166-171; bench/bench-reduce-sqrm.cc:73-79 `traversal`. -/
def dotMap (g : V → V → V) (dyn : Bool) (z : List Int) (y : Int) (a b : View) : Act V V :=
  fromZero y do
    let _ ← ply (β := Unit) dyn never z (.node (mapOp (plusPairOp g y)) [a.refs, b.refs])
    pure ()

/-- bench/bench-dot.cc:80-84 `by_2l`; bench/bench-reduce-sqrm.cc:81-89 `traversal2`. -/
def dotMaps (g : V → V → V) (dyn : Bool) (z : List Int) (y : Int) (a b : View) : Act V V :=
  fromZero y do
    let _ ← ply (β := Unit) dyn never z (.node (mapOp (plusOneOp y)) [.node (mapOp (pairValOp g)) [a.refs, b.refs]])
    pure ()

/-- bench/bench-dot.cc:86-89 `by_1w`. If it doesn't compile, the model fails. -/
def dotVerb (g : V → V → V) (dyn : Bool) (z : List Int) (y : Int) (a b : View) : Act V V :=
  fromZero y <| match mapVerb (plusPairOp g y) [[0, 0]] [a.refs, b.refs] with
    | some e => do
      let _ ← ply (β := Unit) dyn never z e
      pure ()
    | none => fault .abort

/-- bench/bench-dot.cc:91-95 `by_2w`. If it doesn't compile, the model fails. -/
def dotVerbs (g : V → V → V) (dyn : Bool) (z : List Int) (y : Int) (a b : View) : Act V V :=
  fromZero y <| match (mapVerb (pairValOp g) [[0, 0]] [a.refs, b.refs]).bind fun e => mapVerb (plusOneOp y) [[0]] [e] with
    | some e => do
      let _ ← ply (β := Unit) dyn never z e
      pure ()
    | none => fault .abort

omit [Add V] [Zero V] in
/-- Nested loops, as those on bench/bench-dot.cc:35, 41-42, 49-51 (also 121, 129-130, 139-141) for ranks 1 to 3, for any rank. -/
def loops : List Int → (List Int → Act V Unit) → Act V Unit
  | [], body => body []
  | n :: s, body => forLoop n fun i => loops s fun j => body (i :: j)

/-- bench/bench-dot.cc:31-54 `by_raw` for arrays, and 119-147 `f_small_indexed`; bench/bench-reduce-sqrm.cc:41-44, 96-101, 112-118, 129-139. `a(j, k, ...)` has rank 0 and converts to an element. -/
def dotLoops (g : V → V → V) (y : Int) (a b : View) : Act V V :=
  fromZero y <| loops (a.dims.map Dim.len) fun j => do
    let p ← Act.lift (a.from (j.map fun i => .scalar (.const i)))
    let q ← Act.lift (b.from (j.map fun i => .scalar (.const i)))
    let u ← Act.read p.cp
    let v ← Act.read q.cp
    plusAt y (g u v)

/-- bench/bench-dot.cc:31-38 `by_raw` for pointers, and 149-157 `f_small_indexed_raw`; bench/bench-reduce-sqrm.cc:66-70. -/
def dotRaw (g : V → V → V) (y : Int) (n : Int) (a b : View) : Act V V :=
  fromZero y <| forLoop n fun i => do
    let u ← Act.read (a.cp + i)
    let v ← Act.read (b.cp + i)
    plusAt y (g u v)

omit [Add V] [Zero V] in
/-- bench/bench-dot.cc:162 `A*B`; bench/bench-reduce-sqrm.cc:55 `A-B` with the squares that `reduce_sqrm` takes (ra.hh:364-369). The operation on elements, as an expression that a reduction goes through. -/
def pairExpr {γ : Type} (g : V → V → V) (a b : View) : Iter (StateT γ (Act V)) V :=
  .node (mapOp fun xs => match xs with
    | [x, y] => pure (g x y)
    | _ => fault .abort) [a.reads, b.reads]

/-- bench/bench-dot.cc:160-163 `sum(A*B)`; bench/bench-reduce-sqrm.cc:55, `reduce_sqrm(A-B)` (ra.hh:364-369). -/
def dotSum [Inhabited V] (g : V → V → V) (dyn : Bool) (z : List Int) (a b : View) : Act V V := sumOf dyn z (pairExpr g a b)

end

/-! Elements at a list of positions. -/

section
variable {V : Type}

/-- expr.hh:173-179, the elements of a vector that are indices, one by one. `ix` converts an element to an index. -/
def readIdx (ix : V → Int) (i : View) : Act V (List Int) :=
  (List.range (lenOf i.dims 0).toNat).mapM fun (k : Nat) => do
    let u ← Act.read (i.cp + k * (i.dims.headD ⟨0, 0⟩).step)
    pure (ix u)

/-- ra.hh:228-238 `at(a, i)`, when `i` is a vector. The indices are all read before the first is checked, but that makes no difference. -/
def atVec (ix : V → Int) (a i : View) : Act V Int := do
  let j ← readIdx ix i
  Act.lift (indexer a.dims a.cp j)

variable [Zero V] [Add V]

/-- bench/bench-at.cc:45-49 for the rank 2 of `c`, which is `r` here, `val += C(I(i, 0), I(i, 1))`. -/
def atSubscripts (ix : V → Int) (y : Int) (c i : View) : Act V V :=
  fromZero y <| forLoop (lenOf i.dims 0) fun o => do
    let j ← (List.range c.dims.length).mapM fun (k : Nat) => (do
      let p ← Act.lift (i.from [.scalar (.const o), .scalar (.const k)])
      let u ← Act.read p.cp
      pure (ix u) : Act V Int)
    let q ← Act.lift (c.from (j.map fun k => .scalar (.const k)))
    let v ← Act.read q.cp
    plusAt y v

/-- bench/bench-at.cc:53-57 and 99-103, `val += at(C, I(i))`. -/
def atLoop (ix : V → Int) (y : Int) (c i : View) : Act V V :=
  fromZero y <| forLoop (lenOf i.dims 0) fun o => do
    let w ← Act.lift (i.from [.scalar (.const o)])
    let p ← atVec ix c w
    let v ← Act.read p
    plusAt y v

/-- bench/bench-at.cc:62 and 108, `sum(at(C, ra::iter<1>(I)))`. `at` is a `map` over `iter<1>(I)`; here it's part of what's read in each cell. -/
def atSum [Inhabited V] (ix : V → Int) (dyn : Bool) (z : List Int) (c i : View) : Act V V := do
  let (f, e) ← Act.lift (i.cell 1)
  sumOf dyn z (.cell f i.cp fun p => StateT.lift do
    let q ← atVec ix c ⟨e, p⟩
    Act.read q)

end

end Ra
