import Verif.Conform.Exprs
import Verif.Model.Fill
import Verif.Model.Opt
import Verif.Model.Tindex
import Verif.Model.AtArray
import Verif.Model.SeqType
/-!
# Checks, subscripts with `at`, iotas, `ra::len` and placeholders

test/checks.cc, test/at.cc, test/iota.cc, test/len.cc, test/optimize.cc, test/tensorindex.cc, test/self-assign.cc, test/swap.cc, test/cellrank.cc.
-/

namespace Ra.Conform

/-! ## test/checks.cc -/

/-- checks.cc:42-54. -/
example : (big []).cell 1 = .error .check := by decide +kernel
/-- checks.cc:55-66. -/
example : [(UNB, ANY), (ANY, UNB), (0, UNB), (UNB, 0), (0, ANY), (ANY, 0), (1, 0), (0, 0)].map (fun x => colen x.1 x.2) = [ANY, ANY, 0, 0, 0, 0, MIS, 0] := by
  decide +kernel
/-- checks.cc:73-82. -/
example : ((iotaAt 10).at [11]).run [] = .error .check := by rfl
/-- checks.cc:89-99. -/
example : viewElems (fill [10] (ix 0)) ((big [10]).from [io 1 10]) = .error .check := by decide +kernel
/-- checks.cc:100-111. -/
example : viewElems (fill [3, 4] fun _ => 0) ((big [3, 4]).from [all, .scalar .len]) = .error .check := by decide +kernel
/-- checks.cc:118-140. -/
example : ((arr [3] [10, 20, 30]).at [2]).run' [] = .ok 30 ∧ ((leaf ⟨[⟨2, 1⟩], 0⟩ [10, 20, 30]).at [2]).run' [] = .error .check := by decide +kernel
/-- checks.cc:141-151. -/
example : mkIota (.dyn (-1)) 0 1 = .error .check := by decide +kernel

/-- A view with an unbounded axis before the one of 10. -/
def unb10 : View := ((big [10]).from [.insert 1, all]).toOption.getD ⟨[], 0⟩

/-- checks.cc:159-183. -/
example : after (List.replicate 10 0) (update (· * ·) true [] unb10.refs (.scalar (pure (.val (-1))))) = .error .check ∧
    elems (leaf unb10 (List.replicate 10 0)) = .error .check := by decide +kernel
/-- checks.cc:202-214. -/
example : agree [arr [2, 3, 4] (fill [2, 3, 4] fun _ => 0), sc 99] = true ∧ agree [leaf unb10 (List.replicate 10 0), sc 99] = false ∧
    checkS [.cell none, .scalar] = 1 := by decide +kernel
/-- checks.cc:215-232. -/
example : checkS [.cell (some [ANY, ANY, ANY]), .cell (some [ANY, ANY, ANY, ANY])] = 1 ∧ agree [arr [2, 3, 4] [], arr [2, 4, 4, 5] []] = false ∧
    elems (op2 (· + ·) (arr [2, 3, 4] []) (arr [2, 4, 4, 5] [])) = .error .check := by decide +kernel
/-- checks.cc:234-241. -/
example : (STree.node [.cell (some [2, 2]), .cell (some [3, 2])]).len false 0 = MIS ∧ checkS [.cell (some [2, 2]), .cell (some [3, 2])] = 0 ∧
    checkS [.cell (some [3, 2]), .cell (some [2, 2])] = 0 := by decide +kernel

def sA : STree := .cell (some [2])
def sB : STree := .cell (some [2, 2])
def sC : STree := .cell (some [2, 3])

/-- checks.cc:242-263. -/
example : checkS [sA, sB] = 2 ∧ checkS [sA, sC] = 2 ∧ checkS [sB, sA] = 2 ∧ checkS [sC, sA] = 2 ∧ checkS [sA, .node [sB, sC]] = 0 ∧
    checkS [.node [sB, sC], sA] = 0 ∧ checkS [.node [sA, .node [sB, sC]]] = 0 ∧ checkS [.node [.node [sB, sC], sA]] = 0 := by decide +kernel
/-- checks.cc:264-271. -/
example : checkS [.cell (some []), .cell (some [ANY])] = 1 ∧ checkS [.cell (some [ANY]), .cell (some [])] = 1 := by decide +kernel
/-- checks.cc:272-289. -/
example : (STree.node [sA, .cell (some [ANY])]).len false 0 = 2 ∧ checkS [sA, .cell (some [ANY])] = 1 ∧ agree [vec [2, 3], vec [77]] = false ∧
    after [2, 3, 77] (assign false [] (bigAt [2] 0).refs (bigAt [1] 2).refs) = .error .check := by decide +kernel

/-- If an operation on an array fails, and how. -/
def failure {α : Type} (x : Except Fault α × Mem Int) : Option Fault := match x.1 with | .ok _ => none | .error f => some f

/-- checks.cc:290-305: the dynamic rank array has the default shape, that can't be that of a rank 2 array. -/
example : failure (concreteBig (some 2) (some 100) (fun _ => 0) true [] ((Arr.default none).view.refs : Iter (Act Int) (Lv Int)) (memOf [])) = some .check := by
  decide +kernel
/-- checks.cc:323-335. -/
example : after [1] (assign true [] (Arr.default none).view.refs (bigAt [1] 0).refs) = .error .check := by decide +kernel
/-- checks.cc:336-354. -/
example : (toScalar (leaf (bigAt [1] 0) [7, 0])).run' [] = .ok 7 ∧ (toScalar (leaf (bigAt [8] 0) [7, 0, 0, 0, 1, 1, 1, 1])).run' [] = .error .check := by
  decide +kernel
/-- checks.cc:361-375. -/
example : (do
    match ← (big [4]).fromArrays (mem [1, 2, 3, 4]) [.array] [tix 0] with
    | some t => elems (op2 (· + ·) (vec [1, 2, 3, 4, 5]) t)
    | none => .error .abort) = .error .check := by decide +kernel
/-- checks.cc:382-394. -/
example : after [0, 1, 2, 3, 4, 5] (assignBraces (fun _ => true) (fun _ => []) 2 (bigAt [2, 3] 0) (show List (List Int) from [[4, 5], [7, 8]])) = .error .check := by
  decide +kernel
/-- checks.cc:402-436. -/
example : checkS [.cell (some [ANY]), .cell (some [ANY])] = 1 ∧ checkS [.cell none, .cell none] = 1 ∧
    elems (op2 (· - ·) (vec [10, 10, 10]) (vec [1, 1, 1, 1])) = .error .check := by decide +kernel

/-! ## test/at.cc, test/self-assign.cc

A position `{i, j}` is kept in memory as the number `10*i+j`. -/

instance : MultiIndex Int := ⟨fun x => [x / 10, x % 10]⟩

/-- at.cc:19-27. -/
example : ((arr [3, 2] [1, 4, 2, 5, 3, 6]).at [1, 1]).run' [] = .ok 5 ∧ viewElems [1, 4, 2, 5, 3, 6] ((big [3, 2]).atView [1]) = .ok ([2], [2, 5]) := by
  decide +kernel

/-- at.cc:71-72: `A` is at 0, `B` at 16 and the positions at 32. -/
def m16 : List Int := List.replicate 16 0 ++ (fill [4, 4] fun j => 10 * ix 0 j + ix 1 j) ++ [11, 22]
def A44 : View := bigAt [4, 4] 0
def B44 : View := bigAt [4, 4] 16
def I2 : View := bigAt [2] 32
/-- at.cc:71. -/
def C44 : List Int := [0, 0, 0, 0, 0, 11, 0, 0, 0, 0, 22, 0, 0, 0, 0, 0]

/-- at.cc:30-33, 35-38, 49-55, 110-117. -/
example : (after m16 (assign true [] (atArray A44.refs I2.refs) (atArray B44.refs I2.refs))).map (·.take 16) = .ok C44 := by decide +kernel
/-- at.cc:57-59. -/
example : (after m16 (assign true [] (atArray A44.refs I2.refs) (atArray (binaryOp (· + ·) B44.refs (.scalar (pure (.val 1)))) I2.refs))).map (·.take 16) =
    .ok [0, 0, 0, 0, 0, 12, 0, 0, 0, 0, 23, 0, 0, 0, 0, 0] := by decide +kernel
/-- at.cc:119-121. -/
example : (after (C44 ++ [32]) (assign true [] (atArray A44.refs (bigAt [] 16).refs) (.scalar (pure (.val 99))))).map (·.take 16) =
    .ok [0, 0, 0, 0, 0, 11, 0, 0, 0, 0, 22, 0, 0, 0, 99, 0] := by decide +kernel
/-- at.cc:123-129. The result is at 10. -/
example : (after ([100, 101, 110, 111, 120, 121] ++ [1, 20, 10, 21] ++ [0, 0, 0, 0]) (assign true [] (bigAt [2, 2] 10).refs
    (atArray (bigAt [3, 2] 0).refs (bigAt [2, 2] 6).refs))).map (·.drop 10) = .ok [101, 120, 110, 121] := by decide +kernel
/-- at.cc:130-136. -/
example : viewElems [100, 101, 110, 111, 120, 121] ((big [3, 2]).atView []) = .ok ([3, 2], [100, 101, 110, 111, 120, 121]) ∧
    viewElems [100, 101, 110, 111, 120, 121] ((big [3, 2]).atView [2]) = .ok ([2], [120, 121]) ∧
    viewElems [100, 101, 110, 111, 120, 121] ((big [3, 2]).atView [2, 0]) = .ok ([], [120]) := by decide +kernel
/-- at.cc:104-109. -/
example : ((arr [4, 4] (fill [4, 4] fun j => ix 0 j - ix 1 j)).at [1, 2]).run' [] = .ok (-1) := by decide +kernel
/-- self-assign.cc:19-26. -/
example : (after m16 (assign true [] (atArray A44.refs I2.refs) (.scalar (pure (.val 9))))).map (·.take 16) =
    .ok [0, 0, 0, 0, 0, 9, 0, 0, 0, 0, 9, 0, 0, 0, 0, 0] := by decide +kernel

/-- `pick` with its selector in memory. -/
def pickRefs (s : View) (t : List View) : Iter (Act Int) (Lv Int) :=
  .node (fun xs => match xs with
    | p :: xs => do
      let i ← (do (← p).get)
      pickStar 0 i.toNat xs
    | [] => fault .abort) ((s :: t).map View.refs)

/-- self-assign.cc:31-42: `A`, `B`, `C`, `D` are at 0, 16, 32, 48, and `s`, `z` at 64, 68. -/
example : (after (List.replicate 16 4 ++ List.replicate 16 8 ++ List.replicate 16 2 ++ List.replicate 16 0 ++ [0, 1, 0, 1] ++ [1, 0, 0, 1])
    (assign true [] (pickRefs (bigAt [4] 64) [bigAt [4, 4] 0, bigAt [4, 4] 16]) (pickRefs (bigAt [4] 68) [bigAt [4, 4] 32, bigAt [4, 4] 48]))).map (·.take 32) =
    .ok ([0, 0, 0, 0, 4, 4, 4, 4, 2, 2, 2, 2, 4, 4, 4, 4] ++ [8, 8, 8, 8, 2, 2, 2, 2, 8, 8, 8, 8, 0, 0, 0, 0]) := by decide +kernel

/-! ## test/iota.cc, test/optimize.cc -/

/-- iota.cc:21-34. -/
example : elems (iotaAt 4 1) = .ok ([4], [1, 2, 3, 4]) ∧ elems (iotaAt 4) = .ok ([4], [0, 1, 2, 3]) ∧ elems (iotaAt 4 1 2) = .ok ([4], [1, 3, 5, 7]) := by decide +kernel
/-- iota.cc:36-50. -/
example : (do after (List.replicate 24 0) (assign true [] (← (big [3, 4, 2]).transpose [0, 2, 1]).refs (.cell [⟨3, 1⟩] 1 fun p => pure (.val p)))) =
    .ok (List.replicate 8 1 ++ List.replicate 8 2 ++ List.replicate 8 3) := by decide +kernel
/-- iota.cc:51-68. -/
example : elems (op2 (· + ·) (tix 0) (iotaAt 4)) = .ok ([4], [0, 2, 4, 6]) ∧ elems (op2 (· + ·) (vec [3, 5, 0, -1]) (tix 0)) = .ok ([4], [3, 6, 2, 2]) ∧
    ((tix 0).at [99]).run' [] = .ok 99 := by decide +kernel
/-- iota.cc:90-111. -/
example : seqElems ((View.mk [⟨5, -2⟩] 3).reverse 0) = .ok ([5], [-5, -3, -1, 1, 3]) := by decide +kernel
/-- iota.cc:119-125. -/
example : optNeg ⟨.dyn 3, 1, 2⟩ = .ok ⟨.dyn 3, -1, -2⟩ ∧ elems (Seq1.iter ⟨.dyn 3, -1, -2⟩) = .ok ([3], [-1, -3, -5]) := by decide +kernel
/-- iota.cc:134-141. -/
example : seqElems ((View.mk [⟨9, 1⟩] 3).from [io 3 1 2]) = .ok ([3], [4, 6, 8]) ∧ (View.mk [⟨9, 1⟩] 3).from [io 3 1 2] = .ok ⟨[⟨3, 2⟩], 4⟩ := by decide +kernel
/-- iota.cc:142-146. -/
example : elems (.cell (big [7, 7, 7]).dims 0 fun p => pure (IntT.u8.conv p)) = .ok ([7, 7, 7], (List.range 343).map fun (i : Nat) => ((i % 256 : Nat) : Int)) := by
  decide +kernel

/-- optimize.cc:23-32. -/
example : optAddII ⟨.st 4, 0, 1⟩ ⟨.dyn 4, 0, 2⟩ = .ok ⟨.st 4, 0, 3⟩ ∧ optAddII ⟨.dyn 4, 0, 1⟩ ⟨.st 4, 0, 2⟩ = .ok ⟨.st 4, 0, 3⟩ ∧
    optSubII ⟨.st 4, 0, 1⟩ ⟨.dyn 4, 0, 2⟩ = .ok ⟨.st 4, 0, -1⟩ ∧ optSubII ⟨.dyn 4, 0, 1⟩ ⟨.st 4, 0, 2⟩ = .ok ⟨.st 4, 0, -1⟩ ∧
    elems (Seq1.iter ⟨.st 4, 0, -1⟩) = .ok ([4], [0, -1, -2, -3]) ∧ elems (Seq1.iter ⟨.st 4, 0, 3⟩) = .ok ([4], [0, 3, 6, 9]) := by decide +kernel

/-- The elements of an expression after optimization, and the iota that it is, if it's one. -/
def optElems (e : IExp M) : Except Fault (Option Seq1 × List Int × List Int) := do
  match ← e.eval with
  | .iota i => return (some i, ← elems i.iter)
  | .scalar x => return (none, ← elems (sc x))
  | .expr t => return (none, ← elems t)

def i5 : IExp M := .iota ⟨.dyn 5, 0, 1⟩

/-- optimize.cc:55-59. -/
example : optElems (.mul i5 i5) = .ok (none, [5], [0, 1, 4, 9, 16]) := by decide +kernel
/-- optimize.cc:66-98. -/
example : optElems (.add i5 (.scalar 1)) = .ok (some ⟨.dyn 5, 1, 1⟩, [5], [1, 2, 3, 4, 5]) ∧
    optElems (.add (.scalar 1) i5) = .ok (some ⟨.dyn 5, 1, 1⟩, [5], [1, 2, 3, 4, 5]) := by decide +kernel
/-- optimize.cc:99-116. -/
example : optElems (.neg i5) = .ok (some ⟨.dyn 5, 0, -1⟩, [5], [0, -1, -2, -3, -4]) := by decide +kernel
/-- optimize.cc:117-142. -/
example : optElems (.mul i5 (.scalar 2)) = .ok (some ⟨.dyn 5, 0, 2⟩, [5], [0, 2, 4, 6, 8]) ∧
    optElems (.mul (.scalar 2) i5) = .ok (some ⟨.dyn 5, 0, 2⟩, [5], [0, 2, 4, 6, 8]) := by decide +kernel

/-! ## test/len.cc -/

def lplus (a b : LenExpr) : LenExpr := .map List.sum [a, b]
def lc (x : Int) : LenExpr := .const x

/-- len.cc:46-61, the ones that are scalars. -/
example : [(5, lc 3), (5, .len), (5, lplus .len .len), (5, lplus (lplus .len .len) (lplus .len .len)), (5, lplus (lc 99) (lc 1)), (5, lplus (lc 99) .len),
    (8, lplus .len (lplus (lc 3) .len))].map (fun x => (LenExpr.wlen x.1 x.2).val) = [.ok 3, .ok 5, .ok 10, .ok 20, .ok 100, .ok 104, .ok 19] := by decide +kernel

/-- The elements after `wlen`. -/
def wlenElems (n : Int) (t : LTree M Int) : Except Fault (List Int × List Int) := do elems (← (t.wlen n).iter)

def tplus (a b : LTree M Int) : LTree M Int := .node (mapOp fun xs => pure xs.sum) [a, b]

/-- len.cc:60-61. -/
example : wlenElems 8 (tplus (.base (iotaAt 10)) (tplus (.base (sc 3)) .len)) = elems (iotaAt 10 11) ∧
    wlenElems 8 (tplus (.base (iotaAt 10)) (.base (sc 3))) = elems (iotaAt 10 3) := by decide +kernel
/-- len.cc:62, 66. -/
example : wlenElems 4 (.node (pickOp Int.toNat) [.base (vec [0, 1, 0]), .len, .base (sc 3)]) = .ok ([3], [4, 3, 4]) := by decide +kernel
/-- len.cc:69-82. -/
example : wlenElems 5 (.seq .len (lc 0) (lc 1)) = elems (iotaAt 5) ∧ wlenElems 5 (.seq .len .len (lc 1)) = elems (iotaAt 5 5) ∧
    wlenElems 10 (.seq (lc 5) (lplus .len .len) (lc 1)) = elems (iotaAt 5 20) ∧ wlenElems 10 (.seq .len (lplus .len .len) (lc 1)) = elems (iotaAt 10 20) ∧
    wlenElems 10 (.seq (lplus .len (lc 1)) (lplus .len .len) (lc 1)) = elems (iotaAt 11 20) ∧
    wlenElems 10 (.seq .len (lplus .len .len) (.map (fun x => x.getD 0 0 / x.getD 1 0) [.len, lc 5])) = elems (iotaAt 10 20 2) := by decide +kernel
/-- optimize.cc:37-40. -/
example : wlenElems 10 (tplus (.seq .len (lc 0) (lc 1)) (.seq .len (lc 0) (lc 1))) = elems (iotaAt 10 0 2) := by decide +kernel

/-! ## test/tensorindex.cc -/

/-- tensorindex.cc:28. -/
def ti : List Int := [1, 0, 2, -1, 2, 0, 4, -2, 3, 0, 6, -3, 4, 0, 8, -4]

/-- A selection with one placeholder as subscript. -/
def selPlace (xs : List Int) (k : Nat) : Except Fault (Iter M Int) := do
  match ← (big [xs.length]).fromArrays (mem xs) [.array] [tix k] with
  | some t => pure t
  | none => .error .abort

/-- tensorindex.cc:21-28. The shape is that of the destination. -/
example : (do elems (op2 (fun _ x => x) (arr [4, 4] (List.replicate 16 0)) (op2 (· * ·) (← selPlace [1, 2, 3, 4] 0) (← selPlace [1, 0, 2, -1] 1)))) =
    .ok ([4, 4], ti) := by decide +kernel
/-- tensorindex.cc:33-35. -/
example : elems (op2 (fun _ x => x) (vec [0, 0, 0, 0]) (mapView (big [4, 4]) (mem ti) [tix 0, tix 0])) = .ok ([4], [1, 0, 6, -4]) := by decide +kernel
/-- tensorindex.cc:37-41. -/
example : elems (op2 (fun _ x => x) (arr [4, 4] (List.replicate 16 0)) (mapView (big [4, 4]) (mem ti) [tix 0, tix 1])) = .ok ([4, 4], ti) := by decide +kernel
/-- tensorindex.cc:43-45. -/
example : elems (op2 (fun _ x => x) (arr [4, 4] (List.replicate 16 0)) (mapView (big [4, 4]) (mem ti) [tix 1, tix 0])) =
    viewElems ti ((big [4, 4]).transpose [1, 0]) := by decide +kernel
/-- tensorindex.cc:52-55. -/
example : (after ([0, 0, 0, 0] ++ ti) (update (· + ·) true [] (bigAt [4] 0).refs (bigAt [4, 4] 4).refs)).map (·.take 4) = .ok [2, 4, 6, 8] := by decide +kernel
/-- tensorindex.cc:59-65. -/
example : elems (op2 (· - ·) (op2 (· + ·) (arr [4, 3] (List.replicate 12 0)) (tix 0)) (tix 1)) = .ok ([4, 3], fill [4, 3] fun j => ix 0 j - ix 1 j) := by decide +kernel

/-! ## test/swap.cc -/

/-- The dims and the place of the elements of two arrays after `swap`. -/
def swapped (ra rb : Option Nat) (sa sb : List Int) : Except Fault ((List Dim × Int) × (List Dim × Int)) :=
  match Arr.swap ⟨ra, (big sa).dims, 0, 6⟩ ⟨rb, (big sb).dims, 100, 6⟩ with
  | (.ok (), a, b) => .ok ((a.dims, a.base), (b.dims, b.base))
  | (.error f, _, _) => .error f

/-- swap.cc:34-43, 44-53. -/
example : swapped (some 2) none [2, 3] [3, 2] = .ok (((big [3, 2]).dims, 100), ((big [2, 3]).dims, 0)) ∧
    swapped (some 2) (some 2) [2, 3] [3, 2] = .ok (((big [3, 2]).dims, 100), ((big [2, 3]).dims, 0)) := by decide +kernel
/-- swap.cc:54-63. -/
example : swapped none none [2, 3] [2, 3, 4] = .ok (((big [2, 3, 4]).dims, 100), ((big [2, 3]).dims, 0)) := by decide +kernel

/-! ## test/cellrank.cc -/

/-- cellrank.cc:17-31: the cells of rank 2 of `A` at 0, those of rank 1 of `B` at 24, and the elements of `C` at 32. -/
def slide (upd : Bool) : Act Int Unit := do
  let (fa, ca) ← Act.lift ((bigAt [4, 2, 3] 0).cell 2)
  let (fb, cb) ← Act.lift ((bigAt [4, 2] 24).cell 1)
  let e : Iter (Act Int) View := .node (mapOp fun xs => match xs with
    | [a, b, c] => do
      (if upd then update (· + ·) true [] a.refs (binaryOp (· + ·) b.refs c.refs) else assign true [] a.refs (binaryOp (· + ·) b.refs c.refs))
      pure a
    | _ => fault .abort) [.cell fa 0 fun p => pure ⟨ca, p⟩, .cell fb 24 fun p => pure ⟨cb, p⟩, .cell [⟨4, 1⟩] 32 fun p => pure ⟨[], p⟩]
  let _ ← ply (β := Unit) true never [] e
  pure ()

/-- cellrank.cc:17-31. -/
example : (after (List.replicate 24 0 ++ List.replicate 8 1 ++ List.replicate 4 10) (slide false)).map (·.take 24) = .ok (List.replicate 24 11) ∧
    (after (List.replicate 24 0 ++ List.replicate 8 1 ++ List.replicate 4 10) (do slide false; slide true)).map (·.take 24) = .ok (List.replicate 24 22) := by
  decide +kernel

end Ra.Conform
