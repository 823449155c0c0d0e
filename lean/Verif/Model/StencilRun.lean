import Verif.Model.Gemm
/-!
# Programs with stencils

bench/bench-stencil1.cc, bench-stencil2.cc and bench-stencil3.cc are the same program for ranks 1, 2 and 3. Here they are the cases of one program for any rank, which is the length of `ns`,
the lengths `nx`, `ny`, ... of the arrays. The benchmarks swap the pointers of the arrays after each step; here the views are swapped, and they have the same dims.
-/

namespace Ra

section
variable {V : Type}

/-- `A(I ...)` with `I` an iota from the given start: `I` is `iota(nx-2, 1)` (bench/bench-stencil1.cc:21, bench-stencil2.cc:22-23, bench-stencil3.cc:25-27), and `I+1`, `I-1` are iotas too
(ra.hh:116-143), with other starts. -/
def sliceFrom (ns : List Int) (start : List Int) (v : View) : Except Fault View :=
  v.from (List.zipWith (fun n o => .iota [(.const (n - 2), .const 1)] (.const o)) ns start)

/-- The indices next to `i`, in the order of the expressions on bench/bench-stencil1.cc:34, bench-stencil2.cc:39-41 and bench-stencil3.cc:44-46. -/
def nextTo (i : List Int) : List (List Int) :=
  ((List.range i.length).map fun k => i.modify k (· + 1)) ++ (List.range i.length).map fun k => i.modify k (· - 1)

variable [IntCast V] [Add V] [Mul V]

/-- The constant -2, -4 or -6 on bench/bench-stencil1.cc:34, bench-stencil2.cc:39 and bench-stencil3.cc:44. -/
def centre (r : Nat) : V := ((-(2 * r) : Int) : V)

/-- The expression on bench/bench-stencil1.cc:34, bench-stencil2.cc:39-41 and bench-stencil3.cc:44-46, when `A(i ...)` is `at i`. -/
def aroundAt (at_ : List Int → Act V V) (i : List Int) : Act V V := do
  let c ← at_ i
  let xs ← (nextTo i).mapM at_
  pure (xs.foldl (· + ·) (centre i.length * c))

/-- The loops `for (int i=1; i+1<nx; ++i)` of bench/bench-stencil1.cc:33, bench-stencil2.cc:37-38 and bench-stencil3.cc:41-43. -/
def loopsInside : List Int → (List Int → Act V Unit) → Act V Unit
  | [], f => f []
  | n :: ns, f => forLoop (n - 2) fun i => loopsInside ns fun j => f ((i + 1) :: j)

/-- `f_raw`: bench/bench-stencil1.cc:29-38, bench-stencil2.cc:33-46, bench-stencil3.cc:37-52. -/
def stencilRaw (ns : List Int) (a w : View) : Act V Unit :=
  loopsInside ns fun i => do
    let v ← aroundAt (a.elemAt Act.read) i
    w.elemAt (fun p => Act.write p v) i

/-- The right side of `f_slices` as an expression: bench/bench-stencil1.cc:45, bench-stencil2.cc:53-55, bench-stencil3.cc:59-61. The slices are made before. -/
def aroundSlices (r : Nat) (c : View) (xs : List View) : Iter (Act V) (Lv V) :=
  xs.foldl (fun e x => binaryOp (· + ·) e x.refs) (binaryOp (· * ·) (.scalar (pure (.val (centre r)))) c.refs)

/-- `f_slices`: bench/bench-stencil1.cc:41-48, bench-stencil2.cc:49-58, bench-stencil3.cc:55-64. -/
def stencilSlices (dyn : Bool) (z : List Int) (ns : List Int) (a w : View) : Act V Unit := do
  let start := ns.map fun _ => 1
  let d ← Act.lift (sliceFrom ns start w)
  let c ← Act.lift (sliceFrom ns start a)
  let xs ← Act.lift ((nextTo start).mapM fun o => sliceFrom ns o a)
  assign dyn z d.refs (aroundSlices ns.length c xs)

/-- The operation on bench/bench-stencil1.cc:56, bench-stencil2.cc:66-68 and bench-stencil3.cc:72-74. The argument is a window. -/
def aroundOp (r : Nat) : List (Lv V) → Act V (Lv V)
  | [.view s] => do
    let v ← aroundAt (s.elemAt Act.read) (List.replicate r 1)
    pure (.val v)
  | _ => fault .abort

/-- `stencil(A, 1, 1)` (bench/bench-stencil1.cc:123), with a one for each axis. The stencil is made once; its pointer is set in each step to that of `A` (bench/bench-stencil1.cc:55), which has the
same dims. -/
def windowsOf (ns : List Int) (a : View) : Except Fault View := a.stencil (ns.map fun _ => 1) (ns.map fun _ => 1)

/-- `f_stencil_explicit`: bench/bench-stencil1.cc:51-60, bench-stencil2.cc:61-72, bench-stencil3.cc:67-78. -/
def stencilExplicit (dyn : Bool) (z : List Int) (ns : List Int) (a w : View) : Act V Unit := do
  let st ← Act.lift (windowsOf ns a)
  let d ← Act.lift (sliceFrom ns (ns.map fun _ => 1) w)
  let i ← Act.lift (st.cells ns.length)
  assign dyn z d.refs (.node (mapOp (aroundOp ns.length)) [i])

end

section
variable {V : Type} [Inhabited V] [Zero V] [Add V] [Mul V]

/-- The product of two values, as in `s*mask` on bench/bench-stencil1.cc:68. -/
def timesVal {m : Type → Type} [Monad m] [MonadFault m] : List V → m V
  | [x, y] => pure (x * y)
  | _ => fault .abort

/-- The operation on bench/bench-stencil1.cc:68, bench-stencil2.cc:80 and bench-stencil3.cc:86, `sum(s*mask)`. The argument is a window. -/
def windowOp (dyn : Bool) (z : List Int) (mask : View) : List (Lv V) → Act V (Lv V)
  | [.view s] => do
    let v ← sumOf dyn z (.node (mapOp timesVal) [s.reads, mask.reads])
    pure (.val v)
  | _ => fault .abort

/-- `map([](auto && s) { return sum(s*mask); }, iter<r>(st))` assigned to `d`, as in `f_stencil_arrayop`: bench/bench-stencil1.cc:63-71, bench-stencil2.cc:75-83, bench-stencil3.cc:81-89. `dyn'`, `z'` are those
of the traversal of each window. -/
def windowSums (dyn : Bool) (z : List Int) (dyn' : Bool) (z' : List Int) (st mask d : View) : Act V Unit := do
  let i ← Act.lift (st.cells mask.dims.length)
  assign dyn z d.refs (.node (mapOp (windowOp dyn' z' mask)) [i])

/-- Set `d` to zero and then add `map(wrank<r, r>(std::multiplies<>()), st, mask)`, as in `f_sumprod`: bench/bench-stencil1.cc:74-83, bench-stencil2.cc:86-95, bench-stencil3.cc:92-101. If it doesn't
compile, the model fails. -/
def windowProds (dyn : Bool) (z : List Int) (st mask d : View) : Act V Unit := do
  assign dyn z d.refs (.scalar (pure (.val 0)))
  match mapVerb mulOp [[mask.dims.length, mask.dims.length]] [st.refs, mask.refs] with
  | some e => update (· + ·) dyn z d.refs e
  | none => fault .abort

/-- `A += B*C` on bench/bench-stencil1.cc:92, where `A` is a reference. -/
def addMulOp : List (Lv V) → Act V (Lv V)
  | [.ref p, x, y] => do
    let u ← x.get
    let w ← y.get
    let v ← Act.read p
    Act.write p (v + u * w)
    pure (.ref p)
  | _ => fault .abort

/-- Set `d` to zero and then traverse `map(wrank<0, r, r>(A += B*C), d, st, mask)`, as in `f_sumprod2`: bench/bench-stencil1.cc:86-95, bench-stencil2.cc:98-107, bench-stencil3.cc:104-113. The code calls
`ply_fixed`, that is `dyn` is false. -/
def windowVerb (dyn : Bool) (z : List Int) (st mask d : View) : Act V Unit := do
  assign dyn z d.refs (.scalar (pure (.val 0)))
  match mapVerb addMulOp [[0, mask.dims.length, mask.dims.length]] [d.refs, st.refs, mask.refs] with
  | some e => do
    let _ ← ply (β := Unit) false never z e
    pure ()
  | none => fault .abort

/-- The ways to sum over windows on bench/bench-stencil1.cc:63-95 (also bench-stencil2.cc:75-107, bench-stencil3.cc:81-113), with the slice and the stencil as there. -/
def stencilMask (sums : View → View → View → Act V Unit) (mask : View) (ns : List Int) (a w : View) : Act V Unit := do
  let st ← Act.lift (windowsOf ns a)
  let d ← Act.lift (sliceFrom ns (ns.map fun _ => 1) w)
  sums st mask d

/-- A number of steps, with the arrays swapped after each (bench/bench-stencil1.cc:36, 108). -/
def swapSteps (step : View → View → Act V Unit) : Nat → View → View → Act V Unit
  | 0, _, _ => pure ()
  | n + 1, a, w => do
    step a w
    swapSteps step n w a

variable [IntCast V]

/-- The ways to do a step that are compared on bench/bench-stencil1.cc:126-132. The flags and lists are those of the traversals. -/
inductive StencilWay where
  | raw
  | slices (dyn : Bool) (z : List Int)
  | explicit (dyn : Bool) (z : List Int)
  | arrayop (dyn : Bool) (z : List Int) (dyn' : Bool) (z' : List Int)
  | sumprod (dyn : Bool) (z : List Int)
  | sumprod2 (dyn : Bool) (z : List Int)

/-- A step (bench/bench-stencil1.cc:29-95, bench-stencil2.cc:33-107, bench-stencil3.cc:37-113). -/
def StencilWay.run (mask : View) (ns : List Int) : StencilWay → View → View → Act V Unit
  | .raw => stencilRaw ns
  | .slices dyn z => stencilSlices dyn z ns
  | .explicit dyn z => stencilExplicit dyn z ns
  | .arrayop dyn z dyn' z' => stencilMask (windowSums dyn z dyn' z') mask ns
  | .sumprod dyn z => stencilMask (windowProds dyn z) mask ns
  | .sumprod2 dyn z => stencilMask (windowVerb dyn z) mask ns

end
end Ra
