import Verif.Conform.Base
/-!
# Subscripts

From test/fromb.cc, test/fromu.cc and test/genfrom.cc.
-/

namespace Ra.Conform

/-- fromb.cc:20: a vector `ra::_0` of length 10. -/
def v10 : List Int := fill [10] fun j => j.getD 0 0
/-- fromb.cc:36: 10 x 10, `ra::_1 + 10*ra::_0`. -/
def m10 : List Int := fill [10, 10] fun j => j.getD 1 0 + 10 * j.getD 0 0

-- fromb.cc:18-34
example : (big [10]).from [io 4] = .ok ⟨[⟨4, 1⟩], 0⟩ := by decide +kernel
example : viewElems v10 ((big [10]).from [io 4]) = .ok ([4], [0, 1, 2, 3]) := by decide +kernel
example : viewElems v10 ((big [10]).from [.iota [(.map (fun xs => xs.getD 0 0 - 5) [.len], .const 1)] (.const 5)]) = .ok ([5], [5, 6, 7, 8, 9]) := by decide +kernel
-- fromb.cc:35-84
example : viewElems m10 ((big [10, 10]).from [at' 3, all]) = .ok ([10], fill [10] fun j => 30 + j.getD 0 0) := by decide +kernel
example : ((big [10, 10]).from [at' 3, all]).map View.cp = .ok 30 := by decide +kernel
example : viewElems m10 ((big [10, 10]).from [io 4]) = .ok ([4, 10], fill [4, 10] fun j => j.getD 1 0 + 10 * j.getD 0 0) := by decide +kernel
example : viewElems m10 ((big [10, 10]).from [io 4 4]) = .ok ([4, 10], fill [4, 10] fun j => j.getD 1 0 + 10 * (j.getD 0 0 + 4)) := by decide +kernel
example : ((big [10, 10]).from [io 4 4]).map View.cp = .ok 40 := by decide +kernel
example : viewElems m10 ((big [10, 10]).from [at' 3, io 5 4]) = .ok ([5], fill [5] fun j => 30 + j.getD 0 0 + 4) := by decide +kernel
example : ((big [10, 10]).from [at' 3, io 5 4]).map View.cp = .ok 34 := by decide +kernel
example : viewElems m10 ((big [10, 10]).from [all, io 4 2 2]) = .ok ([10, 4], fill [10, 4] fun j => 10 * j.getD 0 0 + 2 * (1 + j.getD 1 0)) := by decide +kernel
example : ((big [10, 10]).from [all, io 4 2 2]).map View.cp = .ok 2 := by decide +kernel
example : viewElems m10 ((big [10, 10]).from [io 3 1 2, io 2 2 3]) = .ok ([3, 2], fill [3, 2] fun j => 10 * (1 + 2 * j.getD 0 0) + 2 + j.getD 1 0 * 3) := by decide +kernel
example : ((big [10, 10]).from [io 3 1 2, io 2 2 3]).map View.cp = .ok 12 := by decide +kernel
example : viewElems m10 ((big [10, 10]).from [io 3 9 (-2), io 2 2 3]) = .ok ([3, 2], fill [3, 2] fun j => 10 * (9 - 2 * j.getD 0 0) + 2 + j.getD 1 0 * 3) := by decide +kernel
example : ((big [10, 10]).from [io 3 9 (-2), io 2 2 3]).map View.cp = .ok 92 := by decide +kernel
-- fromb.cc: zero length iota
example : viewElems v10 ((big [10]).from [io 0 10]) = .ok ([0], []) := by decide +kernel
example : viewElems v10 ((big [10]).from [io 0 10 (-1)]) = .ok ([0], []) := by decide +kernel
-- fromb.cc: the dims of a(iota(2, 1))
example : (big [4, 4]).from [io 2 1] = .ok ⟨[⟨2, 4⟩, ⟨4, 1⟩], 4⟩ := by decide +kernel

/-- fromb.cc: 2 x 3 x 4, `ra::_0*100 + ra::_1*10 + ra::_2`. -/
def a234 : List Int := fill [2, 3, 4] fun j => j.getD 0 0 * 100 + j.getD 1 0 * 10 + j.getD 2 0

-- fromb.cc: trivial case
example : viewElems a234 ((big [2, 3, 4]).from []) = .ok ([2, 3, 4], a234) := by decide +kernel
-- fromb.cc: scalar len
example : (big [2, 3, 4]).from [atEnd 1, at' 0, at' 0] = (big [2, 3, 4]).from [at' 1, at' 0, at' 0] := by decide +kernel
example : (big [2, 3, 4]).from [at' 0, atEnd 1, at' 0] = (big [2, 3, 4]).from [at' 0, at' 2, at' 0] := by decide +kernel
example : (big [2, 3, 4]).from [at' 0, at' 0, atEnd 1] = (big [2, 3, 4]).from [at' 0, at' 0, at' 3] := by decide +kernel
example : (big [4, 3, 2]).from [atEnd 1, atEnd 1, atEnd 1] = (big [4, 3, 2]).from [at' 3, at' 2, at' 1] := by decide +kernel
-- fromb.cc: iota len
example : (big [2, 3, 4]).from [.iota [(.len, .const 1)] (.const 0), at' 0, at' 0] = (big [2, 3, 4]).from [io 2, at' 0, at' 0] := by decide +kernel
example : (big [2, 3, 4]).from [at' 0, .iota [(.len, .const 1)] (.const 0), at' 0] = (big [2, 3, 4]).from [at' 0, io 3, at' 0] := by decide +kernel
example : (big [2, 3, 4]).from [at' 0, at' 0, .iota [(.len, .const 1)] (.map (fun xs => xs.getD 0 0 * 0) [.len])] =
    (big [2, 3, 4]).from [at' 0, at' 0, io 4] := by decide +kernel
example : (big [2, 3, 4]).from [at' 0, at' 0, .iota [(.const 2, .map (fun xs => xs.getD 0 0 / 2) [.len])] (.const 0)] =
    (big [2, 3, 4]).from [at' 0, at' 0, io 2 0 2] := by decide +kernel
-- fromb.cc: beatable multi-axis selectors
example : ∀ i ∈ [0, 1], (big [2, 3, 4]).from [.dots (some 0), at' i] = (big [2, 3, 4]).from [at' i] := by decide +kernel
example : ∀ i ∈ [0, 1], (big [2, 3, 4]).from [all, at' i] = (big [2, 3, 4]).from [.dots (some 1), at' i] := by decide +kernel
example : ∀ i ∈ [0, 1], (big [2, 3, 4]).from [all, all, at' i] = (big [2, 3, 4]).from [.dots (some 2), at' i] := by decide +kernel
example : (big [2, 3, 4]).from [all, all, at' 3] = (big [2, 3, 4]).from [.dots (some 2), atEnd 1] := by decide +kernel
example : (big [2, 3, 4]).from [all, all, at' 1] = (big [2, 3, 4]).from [dots, at' 1] := by decide +kernel
example : ∀ i ∈ [0, 1], (big [2, 3, 4]).from [at' i, all, all] = (big [2, 3, 4]).from [at' i] := by decide +kernel
example : ∀ i ∈ [0, 1], (big [2, 3, 4]).from [at' i, all, all] = (big [2, 3, 4]).from [at' i, .dots (some 2)] := by decide +kernel
example : (big [2, 3, 4]).from [at' 1, all, all] = (big [2, 3, 4]).from [at' 1, dots] := by decide +kernel
example : (big [2, 3, 4]).from [at' 0, all, at' 1] = (big [2, 3, 4]).from [at' 0, dots, at' 1] := by decide +kernel
example : viewElems a234 ((big [2, 3, 4]).from [at' 1, dots, at' 0]) = .ok ([3], [100, 110, 120]) := by decide +kernel
-- fromb.cc: insert
example : (big [2, 3, 4]).from [.insert 0, at' 0] = (big [2, 3, 4]).from [at' 0] := by decide +kernel
example : ((big [2, 3, 4]).from [.insert 1]).map (fun v => v.dims.map Dim.len) = .ok [UNB, 2, 3, 4] := by decide +kernel
example : ((big [2, 3, 4]).from [all, .insert 2]).map (fun v => v.dims.map Dim.len) = .ok [2, UNB, UNB, 3, 4] := by decide +kernel
-- fromb.cc: insert with undefined len: assign a(insert<1>) to a 2 x 2 x 3 x 4 array
example : ((big [2, 3, 4]).from [.insert 1]).bind (fun v => elems (op2 (fun _ x => x) (arr [2, 2, 3, 4] (List.replicate 48 0)) (leaf v a234))) =
    .ok ([2, 2, 3, 4], a234 ++ a234) := by decide +kernel
-- fromb.cc: mix insert + dots
example : (big [2, 3, 4]).from [.insert 1, .dots (some 3)] = (big [2, 3, 4]).from [.insert 1, dots] := by decide +kernel
example : (big [2, 3, 4]).from [dots, .insert 1] = (big [2, 3, 4]).from [all, all, all, .insert 1] := by decide +kernel
-- fromb.cc: shortcuts
example : viewElems (fill [4, 4] fun j => j.getD 0 0 - j.getD 1 0) ((big [4, 4]).from [io 2 1 2, io 2 0 2]) =
    .ok ([2, 2], fill [2, 2] fun j => 2 * j.getD 0 0 + 1 - 2 * j.getD 1 0) := by decide +kernel
example : viewElems (fill [4, 4] fun j => j.getD 0 0 - j.getD 1 0) ((big [4, 4]).from [all, at' 3]) =
    .ok ([4], fill [4] fun j => j.getD 0 0 - 3) := by decide +kernel
example : viewElems (fill [4, 4] fun j => j.getD 0 0 - j.getD 1 0) ((big [4, 4]).from [at' 2, at' 2]) = .ok ([], [0]) := by decide +kernel
-- fromb.cc: dims of A(insert ...)
example : (big [4]).from [.insert 1, all] = .ok ⟨[⟨UNB, 0⟩, ⟨4, 1⟩], 0⟩ := by decide +kernel

-- genfrom.cc: iota
example : seqElems (.ok (big [3, 4])) = .ok ([3, 4], [0, 1, 2, 3, 4, 5, 6, 7, 8, 9, 10, 11]) := by decide +kernel
example : seqElems ((big [3, 4]).from [io 2, io 3]) = .ok ([2, 3], [0, 1, 2, 4, 5, 6]) := by decide +kernel
example : seqElems ((big [3, 4]).from [at' 1, io 3]) = .ok ([3], [4, 5, 6]) := by decide +kernel
example : seqElems ((big [3, 4]).from [io 2, at' 1]) = .ok ([2], [1, 5]) := by decide +kernel
example : seqElems ((big [3, 4]).from [at' 1, at' 1]) = .ok ([], [5]) := by decide +kernel
example : seqElems ((big [3, 4]).from [at' 1]) = .ok ([4], [4, 5, 6, 7]) := by decide +kernel
example : seqElems ((big [3, 4]).from [io 2]) = .ok ([2, 4], [0, 1, 2, 3, 4, 5, 6, 7]) := by decide +kernel
example : seqElems ((big [3, 4]).from [all, io2 2 2]) = .ok ([3, 2, 2], [0, 1, 2, 3, 4, 5, 6, 7, 8, 9, 10, 11]) := by decide +kernel
example : seqElems ((big [3, 4]).from [.dots (some 1), at' 1]) = .ok ([3], [1, 5, 9]) := by decide +kernel
example : seqElems ((big [3, 4]).from [at' 1, .dots (some 1)]) = .ok ([4], [4, 5, 6, 7]) := by decide +kernel
example : ((big [3, 4]).from [.dots (some 1), .insert 1]).map (fun v => v.dims.map Dim.len) = .ok [3, UNB, 4] := by decide +kernel
example : seqElems ((big [3, 4]).from [at' 2, at' 3]) = .ok ([], [11]) := by decide +kernel
example : seqElems ((big [3, 2, 3]).from [at' 1, dots]) = .ok ([2, 3], [6, 7, 8, 9, 10, 11]) := by decide +kernel
example : seqElems ((big [3, 2, 3]).from [dots, at' 1]) = .ok ([3, 2], [1, 4, 7, 10, 13, 16]) := by decide +kernel
example : seqElems ((big [3, 2, 3]).from [at' 1, dots, at' 1]) = .ok ([2], [7, 10]) := by decide +kernel
-- genfrom.cc: ranks
example : [frombrank 2 [], frombrank 2 [io 2, io 3], frombrank 2 [at' 1, io 3], frombrank 2 [at' 1, at' 1], frombrank 2 [at' 1], frombrank 2 [io 2], frombrank 2 [all, io2 2 2],
    frombrank 2 [all, at' 1]] = [2, 2, 1, 0, 1, 2, 3, 1] := by decide +kernel

-- fromu.cc:45-63
example : fromElems (big [4]) [7, 9, 3, 4] [.array] [vec [3, 2, 0, 1]] = .ok ([4], [4, 3, 7, 9]) := by decide +kernel
example : fromAnyElems (big [4]) [7, 9, 3, 4] [.array] [vec [3, 2, 0, 1]] = .ok ([4], [4, 3, 7, 9]) := by decide +kernel
example : fromElems (big [4]) [7, 9, 3, 4] [.array] [arr [2, 2] [3, 2, 0, 1]] = .ok ([2, 2], [4, 3, 7, 9]) := by decide +kernel
-- fromu.cc:70-82
example : fromElems (big [2, 2]) [1, 2, 3, 4] [.array, .array] [vec [0, 1], vec [0, 1]] = .ok ([2, 2], [1, 2, 3, 4]) := by decide +kernel
example : fromElems (big [2, 2]) [1, 2, 3, 4] [.array, .array] [vec [0, 1], vec [1, 0]] = .ok ([2, 2], [2, 1, 4, 3]) := by decide +kernel
example : fromElems (big [2, 2]) [1, 2, 3, 4] [.array, .array] [vec [1, 0], vec [0, 1]] = .ok ([2, 2], [3, 4, 1, 2]) := by decide +kernel
example : fromElems (big [2, 2]) [1, 2, 3, 4] [.array, .array] [vec [1, 0], vec [1, 0]] = .ok ([2, 2], [4, 3, 2, 1]) := by decide +kernel
example : fromAnyElems (big [2, 2]) [1, 2, 3, 4] [.array, .array] [vec [1, 0], vec [1, 0]] = .ok ([2, 2], [4, 3, 2, 1]) := by decide +kernel
-- fromu.cc:93-101, mixed cases
example : fromElems (big [2, 2]) [4, 1, 7, 9] [.array, at' 1] [vec [1, 0]] = .ok ([2], [9, 1]) := by decide +kernel
example : fromElems (big [2, 2]) [4, 1, 7, 9] [at' 1, .array] [vec [1, 0]] = .ok ([2], [9, 7]) := by decide +kernel
example : fromAnyElems (big [2, 2]) [4, 1, 7, 9] [.array, at' 1] [vec [1, 0]] = .ok ([2], [9, 1]) := by decide +kernel
example : fromAnyElems (big [2, 2]) [4, 1, 7, 9] [at' 1, .array] [vec [1, 0]] = .ok ([2], [9, 7]) := by decide +kernel
-- fromu.cc:25-26, len in an unbeatable subscript
example : (do
    match ← (big [10]).fromArraysLen (mem v10) [.array] [.node (mapOp fun xs => match xs with | [x, y] => pure (x - y) | _ => fault .abort) [.len, .base (vec [1, 2, 3, 4])]] with
    | some a => elems a
    | none => .error .abort : Except Fault _) = .ok ([4], [9, 8, 7, 6]) := by decide +kernel
-- fromu.cc:168-169: b = a(3-ra::_0)
example : (do
    match ← (big [4]).fromArrays (mem [1, 4, 2, 3]) [.array] [op2 (· - ·) (sc 3) (tix 0)] with
    | some a => elems (op2 (fun _ x => x) (vec [0, 0, 0, 0]) a)
    | none => .error .abort : Except Fault _) = .ok ([4], [3, 2, 4, 1]) := by decide +kernel
-- fromu.cc:154-161
example : elems (op2 (fun _ x => x) (arr [3, 4] (List.replicate 12 0)) (op2 (fun i j => i - j) (tix 1) (tix 0))) =
    .ok ([3, 4], fill [3, 4] fun j => j.getD 1 0 - j.getD 0 0) := by decide +kernel

end Ra.Conform
