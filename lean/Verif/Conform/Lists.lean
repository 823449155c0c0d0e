import Verif.Model.MpList
/-!
# Type lists, with the inputs of the test programs
-/

namespace Ra.Conform

/-- base.hh:72 `ilist_t<I ...>`. -/
def il (l : List Int) : CType := .list (l.map .ic)

/-- test/tuples.cc:57 `mp::sum`. -/
def mpSum (A : List CType) : Option CType := do
  let v ← A.mapM fun a => match a with | .ic v => some v | _ => none
  return .ic v.sum

/-- test/tuples.cc:58 `mp::prod`. -/
def mpProd (A : List CType) : Option CType := do
  let v ← A.mapM fun a => match a with | .ic v => some v | _ => none
  return .ic (v.foldr (· * ·) 1)

/-- test/tuples.cc:147-152. -/
example : Mp.map mpSum [il [5, 6, 3]] = some (il [5, 6, 3]) := rfl
example : Mp.map mpSum [il [5, 6, 3], il [2, 3, -1]] = some (il [7, 9, 2]) := rfl

/-- test/tuples.cc:153-156. -/
example : Mp.rest (il [5, 6, 3]) = some (il [6, 3]) := rfl

/-- test/tuples.cc:157-161. -/
example : Mp.tuple2list (.tuple [.ic 6, .ic 3]) = some (il [6, 3]) := rfl
example : Mp.list2tuple (il [6, 3]) = some (.tuple [.ic 6, .ic 3]) := rfl

/-- test/tuples.cc:162-166. -/
example : Mp.tupleSize (il [3, 4]) = some 2 ∧ Mp.get 0 (il [3, 4]) = some (.ic 3) ∧ Mp.get 1 (il [3, 4]) = some (.ic 4) := ⟨rfl, rfl, rfl⟩

/-- test/tuples.cc:214-217. -/
example : Mp.apply mpSum (il []) = some (.ic 0) ∧ Mp.apply mpSum (il [2, 4]) = some (.ic 6) ∧ Mp.apply mpProd (il []) = some (.ic 1) ∧
    Mp.apply mpProd (il [2, 3]) = some (.ic 6) := ⟨rfl, rfl, rfl, rfl⟩

/-- test/tuples.cc:219-233. -/
example : Mp.append [il [0, 2, 3], il [5, 6, 7]] = some (il [0, 2, 3, 5, 6, 7]) := rfl
example : Mp.append [il [0, 2, 3], il [9, 8]] = some (il [0, 2, 3, 9, 8]) := rfl
example : Mp.append [il [9, 8], il [5, 6, 7]] = some (il [9, 8, 5, 6, 7]) := rfl
example : Mp.append [il [0, 2, 3], il []] = some (il [0, 2, 3]) ∧ Mp.append [il [], il [0, 2, 3]] = some (il [0, 2, 3]) := ⟨rfl, rfl⟩

/-- test/tuples.cc:234-240. -/
example : Mp.iota 4 0 1 = some (il [0, 1, 2, 3]) ∧ Mp.iota 4 3 1 = some (il [3, 4, 5, 6]) ∧ Mp.iota 0 3 1 = some (il []) ∧ Mp.iota 1 3 1 = some (il [3]) ∧
    Mp.iota 3 (-2) 1 = some (il [-2, -1, 0]) ∧ Mp.iota 4 3 (-1) = some (il [3, 2, 1, 0]) := ⟨rfl, rfl, rfl, rfl, rfl, rfl⟩

/-- test/tuples.cc:241-243. -/
example : Mp.makelist 2 (.ic 9) = some (il [9, 9]) ∧ Mp.makelist 0 (.ic 9) = some (il []) := ⟨rfl, rfl⟩

/-- test/tuples.cc:244-253. -/
def abc : CType := .list [il [0, 2, 3], il [5, 6, 7], il [9, 8]]

example : Mp.ref abc [0, 0] = some (.ic 0) ∧ Mp.ref abc [0, 1] = some (.ic 2) ∧ Mp.ref abc [0, 2] = some (.ic 3) ∧ Mp.ref abc [1, 0] = some (.ic 5) ∧
    Mp.ref abc [1, 1] = some (.ic 6) ∧ Mp.ref abc [1, 2] = some (.ic 7) ∧ Mp.ref abc [2, 0] = some (.ic 9) ∧ Mp.ref abc [2, 1] = some (.ic 8) :=
  ⟨rfl, rfl, rfl, rfl, rfl, rfl, rfl, rfl⟩
example : Mp.first (il [5, 6, 7]) = some (.ic 5) ∧ Mp.first (il [9, 8]) = some (.ic 9) := ⟨rfl, rfl⟩
example : (Mp.ref (il []) []).bind Mp.len = some 0 := rfl

/-- test/tuples.cc:256-273. -/
def s3 : CType := .list [.list [il [0, 2, 3], il [5, 6, 7]], .list [il [5, 6, 7], il [9, 8]]]

example : [[0, 0, 0], [0, 0, 1], [0, 0, 2], [0, 1, 0], [0, 1, 1], [0, 1, 2], [1, 0, 0], [1, 0, 1], [1, 0, 2], [1, 1, 0], [1, 1, 1]].map (Mp.ref s3) =
    ([0, 2, 3, 5, 6, 7, 5, 6, 7, 9, 8] : List Int).map (some ∘ .ic) := rfl

/-- test/tuples.cc:274-279. -/
example : Mp.index (il [0, 2, 3]) (.ic 0) = some 0 ∧ Mp.index (il [0, 2, 3]) (.ic 2) = some 1 ∧ Mp.index (il [0, 2, 3]) (.ic 3) = some 2 ∧
    Mp.index (il [0, 2, 3]) (.ic 4) = some (-1) ∧ Mp.index s3 (.list [il [5, 6, 7], il [9, 8]]) = some 1 := ⟨rfl, rfl, rfl, rfl, rfl⟩

/-- test/tuples.cc:82-91. `InvertIndex`. -/
def invertIndex (A : List Int) : Option CType := do
  let N := A.foldl max (-2147483648)
  Mp.map (fun T => do match T with | [t] => return .ic (← Mp.index (il A) t) | _ => none) [← Mp.iota (if N ≥ 0 then N + 1 else 0) 0 1]

/-- test/tuples.cc:280-295. -/
example : invertIndex [4, 6, 7, 1] = some (il [-1, 3, -1, -1, 0, -1, 1, 2]) ∧ invertIndex [3] = some (il [-1, -1, -1, 0]) ∧ invertIndex [] = some (il []) :=
  ⟨rfl, rfl, rfl⟩

/-- test/tuples.cc:296-300. -/
example : ([0, 2, 3, 9] : List Int).map (fun v => Mp.indexif (il [0, 2, 3]) fun t => some (CType.same (.ic v) t)) = [some 0, some 1, some 2, some (-1)] := rfl

/-- test/tuples.cc:307-310. -/
example : Mp.reverse (il [0, 2, 3, 5, 6, 7]) (il []) = some (il [7, 6, 5, 3, 2, 0]) ∧ Mp.reverse (il []) (il []) = some (il []) := ⟨rfl, rfl⟩

/-- test/tuples.cc:311-318. -/
example : Mp.drop (il [0, 2, 3]) 0 = some (il [0, 2, 3]) ∧ Mp.drop (il [0, 2, 3]) 1 = some (il [2, 3]) ∧ Mp.drop (il [0, 2, 3]) 2 = some (il [3]) ∧
    Mp.drop (il [0, 2, 3]) 3 = some (il []) := ⟨rfl, rfl, rfl, rfl⟩
example : Mp.take (il [0, 2, 3]) 0 = some (il []) ∧ Mp.take (il [0, 2, 3]) 1 = some (il [0]) ∧ Mp.take (il [0, 2, 3]) 2 = some (il [0, 2]) ∧
    Mp.take (il [0, 2, 3]) 3 = some (il [0, 2, 3]) := ⟨rfl, rfl, rfl, rfl⟩

/-- test/tuples.cc:318-334. -/
example : complement [1] 0 = [] ∧ complement [1] 1 = [0] ∧ complement [1] 2 = [0] ∧ complement [1] 3 = [0, 2] ∧ complement [0, 1, 2] 3 = [] ∧
    complement [0, 1, 2] 6 = [3, 4, 5] ∧ complement [3, 4, 5] 6 = [0, 1, 2] ∧ complement [0] 0 = [] ∧ complement [0] 1 = [] ∧ complement [0] 2 = [1] := by
  decide

/-- test/tuples.cc:359-384. -/
example : complementList [1, 0] [2, 0, 1] [1, 0] = [2] ∧ complementList [2, 0] [2, 0, 1] [2, 0] = [1] ∧ complementList [2, 1] [2, 0, 1] [2, 1] = [0] := by
  decide

/-- test/tuples.cc:386-393. -/
example : mapcons 9 [[0, 1], [1, 2]] = [[9, 0, 1], [9, 1, 2]] := rfl

/-- test/tuples.cc:394-435. -/
example : combs ([] : List Nat) 0 = some [[]] ∧ combs [0, 1, 2] 1 = some [[0], [1], [2]] ∧ combs [0, 1, 2] 2 = some [[0, 1], [0, 2], [1, 2]] ∧
    combs [0, 1, 2, 3] 0 = some [[]] ∧ combs [0, 1, 2, 3] 1 = some [[0], [1], [2], [3]] ∧
    combs [0, 1, 2, 3] 2 = some [[0, 1], [0, 2], [0, 3], [1, 2], [1, 3], [2, 3]] ∧
    combs [0, 1, 2, 3] 3 = some [[0, 1, 2], [0, 1, 3], [0, 2, 3], [1, 2, 3]] ∧ combs [0, 1, 2, 3] 4 = some [[0, 1, 2, 3]] := by
  decide

/-- test/tuples.cc:461-488. -/
example : [[0, 1, 2], [0, 2, 1], [1, 2, 0], [2, 1, 0], [1, 0, 2], [2, 0, 1]].map (permsign [0, 1, 2]) = [1, -1, 1, -1, -1, 1] := by decide +kernel
example : [[0, 1, 2], [0, 2, 1], [1, 2, 0], [2, 1, 0], [1, 0, 2], [2, 0, 1]].map (permsign · [0, 1, 2]) = [1, -1, 1, -1, -1, 1] := by decide +kernel
example : permsign [0] [0] = 1 ∧ permsign ([] : List Nat) [] = 1 ∧ permsign [0] [1] = 0 ∧ permsign [0] [] = 0 ∧ permsign [] [0] = 0 := by decide +kernel

/-- test/tuples.cc:64. `inc`. -/
def mpInc (L : CType) (w : Int) : Option CType := do
  let v ← Mp.ref L [w]
  match v with
  | .ic v => Mp.append [← Mp.take L w, ← Mp.cons (.ic (v + 1)) (← Mp.drop L (w + 1))]
  | _ => none

/-- test/tuples.cc:490-497. -/
example : mpInc (il [7, 8, 2]) 0 = some (il [8, 8, 2]) ∧ mpInc (il [7, 8, 2]) 1 = some (il [7, 9, 2]) ∧ mpInc (il [7, 8, 2]) 2 = some (il [7, 8, 3]) :=
  ⟨rfl, rfl, rfl⟩

end Ra.Conform
