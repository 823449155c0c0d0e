import Verif.Conform.Arrays
/-!
# Assignments and operators

test/compatibility.cc, test/operators.cc, test/concrete.cc, test/stl-compat.cc.
-/

namespace Ra.Conform

/-- Assignment to the view that an operation makes. -/
def setView (v : Except Fault View) (e : E) : Act Int Unit := do
  let v ← Act.lift v
  assign true [] v.refs e

/-! ## test/compatibility.cc -/

-- compatibility.cc:23-30: match on the first axis
example : made (withExpr (some 2) [3, 2] (vec' [1, 2, 3])) = .ok ([3, 2], [1, 1, 2, 2, 3, 3].map some) := by decide +kernel
-- compatibility.cc:32-40: also through a transposed view
example : made (andDo (withExpr (some 3) [3, 4, 2] (sc' 0)) fun a => setView (a.view.transpose [0, 2, 1]) (vec' [1, 2, 3])) =
    .ok ([3, 4, 2], (List.replicate 8 (1 : Int) ++ List.replicate 8 2 ++ List.replicate 8 3).map some) := by decide +kernel
-- compatibility.cc:41-54: match on another axis
example : verb2 (· + ·) [[0, 1]] (vec [10, 20, 30]) (vec [1, 2]) = .ok ([3, 2], [11, 12, 21, 22, 31, 32]) := by decide +kernel
-- compatibility.cc:55-60
example : after [1, 2, 3] (update (· * ·) true [] (bigAt [3] 0).refs (sc' 3)) = .ok [3, 6, 9] := by decide +kernel
-- compatibility.cc:61-66
example : elems (op2 (· + ·) (vec [1, 2, 3]) (vec [10, 20, 30])) = .ok ([3], [11, 22, 33]) := by decide +kernel
-- compatibility.cc:70-71
example : elems (op2 (· + ·) (tix 0) (vec [1, 2, 3])) = .ok ([3], [1, 3, 5]) := by decide +kernel
-- compatibility.cc:72-73
example : elems (op2 (· - ·) (op2 (· + ·) (tix 0) (arr [2, 3] [1, 2, 3, 4, 5, 6])) (tix 1)) = .ok ([2, 3], [1, 1, 1, 5, 5, 5]) := by decide +kernel
-- compatibility.cc:74-75
example : made (withExpr (some 4) [2, 2, 2, 2] (binaryOp (· + ·) (binaryOp (· + ·) (binaryOp (· + ·) (binaryOp (· * ·) (tix' 0) (sc' 8)) (binaryOp (· * ·) (tix' 1) (sc' 4)))
    (binaryOp (· * ·) (tix' 2) (sc' 2))) (tix' 3))) = .ok ([2, 2, 2, 2], (List.range 16).map fun i : Nat => some (i : Int)) := by decide +kernel
-- compatibility.cc:154-166, with p at 0 and q at 3
example : after [1, 2, 3, 1, 2, 3] (do
    update (· + ·) true [] (bigAt [3] 3).refs (bigAt [3] 0).refs
    update (· + ·) true [] (bigAt [3] 0).refs (bigAt [3] 3).refs
    update (· + ·) true [] (.cell [⟨UNB, 1⟩] 0 fun p => pure (.ref p)) (bigAt [3] 0).refs) = .ok [6, 12, 18, 2, 4, 6] := by decide +kernel

/-! ## test/operators.cc -/

-- operators.cc:92-99
example : after [1, 2, 3, 5] (update (· * ·) false [] (bigAt [3] 0).refs (bigAt [] 3).refs) = .ok [5, 10, 15, 5] := by decide +kernel
-- operators.cc:122-136
example : elems (op2 (· + ·) (arr [3, 2] [1, 2, 3, 20, 5, 6]) (vec [10, 20, 30])) = .ok ([3, 2], [11, 12, 23, 40, 35, 36]) := by decide +kernel
example : elems (eqs (arr [3, 2] [1, 2, 3, 20, 5, 6]) (vec [10, 20, 30])) = .ok ([3, 2], [0, 0, 0, 1, 0, 0]) := by decide +kernel
-- operators.cc:174-189
example : elems (op2 (· + ·) (vec [1, 2, 3]) (vec [1, 2, 4])) = .ok ([3], [2, 4, 7]) := by decide +kernel
example : made (concreteBig (some 1) (some 100) junk false [] (binaryOp (· + ·) (vec' [1, 2, 3]) (vec' [10, 20, 30])) none') = .ok ([3], [11, 22, 33].map some) := by
  decide +kernel
-- operators.cc:201-208
example : elems (op2 (· + ·) (arr [3, 2] [1, 2, 3, 20, 5, 6]) (sc 3)) = .ok ([3, 2], [4, 5, 6, 23, 8, 9]) := by decide +kernel
-- operators.cc:209-225: `a += 4`, then `a += a`
example : (let r := withExpr (some 2) [3, 2] (binaryOp (· - ·) (tix' 0) (tix' 1))
    let s := andDo r fun a => update (· + ·) false [] a.view.refs (sc' 4)
    (made r, made s, made (andDo s fun a => update (· + ·) false [] a.view.refs a.view.refs))) =
    (.ok ([3, 2], [0, -1, 1, 0, 2, 1].map some), .ok ([3, 2], [4, 3, 5, 4, 6, 5].map some), .ok ([3, 2], [8, 6, 10, 8, 12, 10].map some)) := by decide +kernel
-- operators.cc:254-271: with a at 0, b at 6, t at 12
example : after (List.replicate 6 7 ++ List.replicate 6 5 ++ List.replicate 6 9) (assign false [] (bigAt [3, 2] 0).refs (bigAt [3, 2] 6).refs) =
    .ok (List.replicate 6 5 ++ List.replicate 6 5 ++ List.replicate 6 9) := by decide +kernel
example : after (List.replicate 6 7 ++ List.replicate 6 5 ++ List.replicate 6 9) (do
    let t ← Act.lift ((bigAt [2, 3] 12).transpose [1, 0])
    assign false [] (bigAt [3, 2] 0).refs t.refs) = .ok (List.replicate 6 9 ++ List.replicate 6 5 ++ List.replicate 6 9) := by decide +kernel

/-! ## test/concrete.cc -/

-- concrete.cc:54-63, 84-96
example : made (concreteBig (some 1) (some 100) junk false [] (binaryOp (· + ·) (vec' [1, 2, 3]) (vec' [4, 5, 6])) none') = .ok ([3], [5, 7, 9].map some) := by decide +kernel
-- concrete.cc:106-118
example : made (concreteBig (some 2) (some 100) junk false []
    (binaryOp (· + ·) (.cell [⟨3, 2⟩, ⟨2, 1⟩] 0 fun p => pure (.val (p + 1))) (vec' [4, 5, 6])) none') = .ok ([3, 2], [5, 6, 8, 9, 11, 12].map some) := by decide +kernel
-- concrete.cc:119-132: if the rank isn't static
example : made (concreteBig Option.none (some 100) junk true [] (binaryOp (· + ·) (vec' [1, 2, 3]) (vec' [4, 5, 6])) none') = .ok ([3], [5, 7, 9].map some) := by decide +kernel
-- concrete.cc:146-159: `concrete` makes copies
example : (match withList (some 1) [3] [1, 2, 3] with
    | (.ok a, μ) => match concreteBig (some 1) (some 200) junk false [] a.view.refs μ with
      | (.ok c, μ) => (match assign false [] a.view.refs (sc' 99) μ with
        | (.ok (), μ) => some (made (.ok a, μ), made (.ok c, μ))
        | _ => .none)
      | _ => .none
    | _ => .none) = some (.ok ([3], List.replicate 3 (some 99)), .ok ([3], [1, 2, 3].map some)) := by decide +kernel

/-! ## test/stl-compat.cc -/

-- stl-compat.cc:50-56: with a at 0 and b at 3
example : elems (op2 (· + ·) (vec [1, 2, 3]) (.cell [⟨UNB, 1⟩] 0 (mem [1, -1, 1]))) = .ok ([3], [2, 1, 4]) := by decide +kernel
example : after [1, 2, 3, 1, -1, 1] (assign true [] (.cell [⟨UNB, 1⟩] 3 fun p => pure (.ref p)) (vec' [7, 4, 5])) = .ok [1, 2, 3, 7, 4, 5] := by decide +kernel
-- stl-compat.cc:61-64
example : made (withExpr (some 1) [3] (ptr' [1, 2, 3])) = .ok ([3], [1, 2, 3].map some) := by decide +kernel
-- stl-compat.cc:66-71
example : after [1, 2, 3] (assign true [] (.cell [⟨UNB, 1⟩] 0 fun p => pure (.ref p)) (binaryOp (· - ·) (sc' 0) (.cell [⟨3, 9⟩] 1 fun i => pure (.val i)))) = .ok [-1, -10, -19] := by
  decide +kernel
-- stl-compat.cc:78-83: pointer, length and step
example : (elems (.cell [⟨3, 2⟩] 0 (mem [1, 2, 3, 4, 5, 6])), (((Iter.cell [⟨3, 2⟩] 0 (mem [1, 2, 3, 4, 5, 6])).at [2]).run []).map (·.1)) = (.ok ([3], [1, 3, 5]), .ok 5) := by decide +kernel
-- stl-compat.cc:91-97: an empty view
example : ((big [0, 2, 3]).from [all, at' 1]).bind (fun v => stlElems (leaf v [])) = .ok [] := by decide +kernel
-- stl-compat.cc:118-124
example : elems (iotaAt 15 (-5)) = .ok ([15], (List.range 15).map fun i : Nat => (i : Int) - 5) := by decide +kernel
-- stl-compat.cc:137-148: an iterator on an expression
example : stlElems (op2 (· + ·) (arr [4, 2, 3] (fill [4, 2, 3] fun j => ix 0 j - ix 1 j + ix 2 j)) (sc 1)) = .ok (fill [4, 2, 3] fun j => ix 0 j - ix 1 j + ix 2 j + 1) := by decide +kernel

end Ra.Conform
