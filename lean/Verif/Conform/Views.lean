import Verif.Conform.Base
/-!
# Views of views

From test/view-ops.cc and test/reshape.cc.
-/

namespace Ra.Conform

/-- view-ops.cc:21 `std::iota(a.begin(), a.end(), 1)`. -/
def from1 (n : Nat) : List Int := (List.range n).map fun i : Nat => (i : Int) + 1

-- view-ops.cc:18-52
example : viewElems (from1 24) ((big [3, 2, 4]).reverse 0) =
    .ok ([3, 2, 4], [17, 18, 19, 20, 21, 22, 23, 24, 9, 10, 11, 12, 13, 14, 15, 16, 1, 2, 3, 4, 5, 6, 7, 8]) := by decide +kernel
example : ((big [3, 2, 4]).reverse 0).bind (fun v => stlElems (leaf v (from1 24))) =
    .ok [17, 18, 19, 20, 21, 22, 23, 24, 9, 10, 11, 12, 13, 14, 15, 16, 1, 2, 3, 4, 5, 6, 7, 8] := by decide +kernel
example : (big [3, 2, 4]).reverse 0 = (big [3, 2, 4]).from [.iota [(.len, .const (-1))] (.map (fun xs => xs.getD 0 0 - 1) [.len])] := by decide +kernel
example : viewElems (from1 24) ((big [3, 2, 4]).reverse 1) =
    .ok ([3, 2, 4], [5, 6, 7, 8, 1, 2, 3, 4, 13, 14, 15, 16, 9, 10, 11, 12, 21, 22, 23, 24, 17, 18, 19, 20]) := by decide +kernel
example : (big [3, 2, 4]).reverse 1 = (big [3, 2, 4]).from [.dots (some 1), .iota [(.len, .const (-1))] (.map (fun xs => xs.getD 0 0 - 1) [.len])] := by decide +kernel
example : viewElems (from1 24) ((big [3, 2, 4]).reverse 2) =
    .ok ([3, 2, 4], [4, 3, 2, 1, 8, 7, 6, 5, 12, 11, 10, 9, 16, 15, 14, 13, 20, 19, 18, 17, 24, 23, 22, 21]) := by decide +kernel
example : (big [3, 2, 4]).reverse 2 = (big [3, 2, 4]).from [.dots (some 2), .iota [(.len, .const (-1))] (.map (fun xs => xs.getD 0 0 - 1) [.len])] := by decide +kernel
-- view-ops.cc:54-75
example : viewElems (from1 6) ((big [3, 2]).transpose [1, 0]) = .ok ([2, 3], [1, 3, 5, 2, 4, 6]) := by decide +kernel
-- view-ops.cc:86-115
example : viewElems [99] ((big []).transpose []) = .ok ([], [99]) := by decide +kernel
example : cOrder (big []).dims true = true := by decide +kernel
-- view-ops.cc:121-138
example : viewElems (from1 6) ((big [3, 2]).transpose [0, 0]) = .ok ([2], [1, 4]) := by decide +kernel
example : cOrder (big [3, 2]).dims true = true := by decide +kernel
example : ((big [3, 2]).transpose [0, 0]).map (fun v => cOrder v.dims true) = .ok false := by decide +kernel
-- view-ops.cc:139-164
example : viewElems (from1 6) ((big [2, 3]).transpose [0, 0]) = .ok ([2], [1, 5]) := by decide +kernel
-- view-ops.cc:165-187
example : ((big [3]).transpose [1]).bind (fun v => elems (op2 (· - ·) (vec [1, 2, 3]) (leaf v [1, 2, 3]))) =
    ((big [3]).from [.insert 1]).bind (fun v => elems (op2 (· - ·) (vec [1, 2, 3]) (leaf v [1, 2, 3]))) := by decide +kernel
example : ((big [3]).transpose [1]).map (fun v => dimvSize v.dims) = .ok UNB := by decide +kernel
example : ((big [3]).transpose [1]).bind (fun v => elems (op2 (· - ·) (leaf v [1, 2, 3]) (vec [1, 2, 3]))) =
    .ok ([3, 3], [0, 1, 2, -1, 0, 1, -2, -1, 0]) := by decide +kernel
example : ((big [3]).from [.insert 1]).bind (fun v => elems (op2 (· - ·) (leaf v [1, 2, 3]) (vec [1, 2, 3]))) =
    .ok ([3, 3], [0, 1, 2, -1, 0, 1, -2, -1, 0]) := by decide +kernel
-- view-ops.cc:188-195
example : viewElems (from1 6) ((big [2, 3]).transpose [0, 1]) = .ok ([2, 3], [1, 2, 3, 4, 5, 6]) := by decide +kernel
example : viewElems (from1 6) ((big [2, 3]).transpose [1, 0]) = .ok ([3, 2], [1, 4, 2, 5, 3, 6]) := by decide +kernel
-- view-ops.cc:196-216
example : cOrder (big [2, 3]).dims false = true := by decide +kernel
example : ((big [2, 3]).transpose [1, 0]).map (fun v => cOrder v.dims false) = .ok false := by decide +kernel
example : cOrder [⟨2, 1⟩, ⟨1, 3⟩] false = true := by decide +kernel
example : viewElems (from1 6) (View.ravelFree ⟨[⟨2, 1⟩, ⟨1, 3⟩], 0⟩) = .ok ([2], [1, 2]) := by decide +kernel
example : cOrder [⟨2, 10⟩, ⟨1, 8⟩, ⟨5, 2⟩] false = true := by decide +kernel
example : viewElems (fill [30] fun j => j.getD 0 0) (View.ravelFree ⟨[⟨2, 10⟩, ⟨1, 8⟩, ⟨5, 2⟩], 0⟩) = .ok ([10], [0, 2, 4, 6, 8, 10, 12, 14, 16, 18]) := by decide +kernel

/-- reshape.cc:21: 2 x 3 x 3, `ra::_0*3+ra::_1`. -/
def aa233 : List Int := fill [2, 3, 3] fun j => j.getD 0 0 * 3 + j.getD 1 0
/-- reshape.cc:22: `aa(ra::all, ra::all, 0)`. -/
def a23 : View := ((big [2, 3, 3]).from [all, all, at' 0]).toOption.getD ⟨[], 0⟩

-- reshape.cc:23-43
example : viewElems aa233 a23.ravelFree = .ok ([6], [0, 1, 2, 3, 4, 5]) := by decide +kernel
example : a23.ravelFree.map View.cp = .ok a23.cp := by decide +kernel
example : viewElems aa233 (a23.reshape [3]) = .ok ([3], [0, 1, 2]) := by decide +kernel
example : viewElems aa233 (a23.reshape [2, 2, 3]) = .ok ([2, 2, 3], [0, 1, 2, 3, 4, 5, 0, 1, 2, 3, 4, 5]) := by decide +kernel
example : (a23.reshape [2, 2, 3]).map (fun v => (v.dims.map Dim.step).take 1) = .ok [0] := by decide +kernel
example : (a23.reshape [2, 2, 3]).map View.cp = .ok a23.cp := by decide +kernel
example : viewElems aa233 (a23.reshape [3, 2]) = .ok ([3, 2], [0, 1, 2, 3, 4, 5]) := by decide +kernel
example : viewElems aa233 (a23.reshape [2, 1, 2]) = .ok ([2, 1, 2], [0, 1, 2, 3]) := by decide +kernel
example : viewElems aa233 (a23.reshape [-1, 2]) = .ok ([3, 2], [0, 1, 2, 3, 4, 5]) := by decide +kernel
example : viewElems aa233 (a23.reshape [2, -1]) = .ok ([2, 3], [0, 1, 2, 3, 4, 5]) := by decide +kernel
example : viewElems aa233 (a23.reshape [2, -1, 3]) = .ok ([2, 1, 3], [0, 1, 2, 3, 4, 5]) := by decide +kernel
-- reshape.cc:45-80
example : viewElems (fill [6] fun j => j.getD 0 0) ((big [2, 3]).reshape [3]) = .ok ([3], [0, 1, 2]) := by decide +kernel
example : viewElems (fill [6] fun j => j.getD 0 0) ((big [2, 3]).reshape [3, 2]) = .ok ([3, 2], [0, 1, 2, 3, 4, 5]) := by decide +kernel

end Ra.Conform
