import Verif.Conform.Exprs
import Verif.Model.Wedge
import Verif.Model.Explode
import Verif.Model.Float
import Mathlib.Algebra.Order.Ring.Int
/-!
# Wedge products, the Hodge star, views of other types, and tests of the test recorder

test/wedge.cc, test/explode-0.cc, test/test.cc.
-/

namespace Ra.Conform

/-! ## test/wedge.cc -/

/-- wedge.cc:139-145. -/
example : binomW 64 0 0 = 1 ∧ binomW 32 31 14 = 265182525 ∧ binomW 64 31 14 = 265182525 ∧ binomW 64 63 28 = 629308289804197437 := by decide +kernel

def ca : List (List Nat) := (combs (mpIota 3 0) 2).getD []

/-- wedge.cc:146-160. -/
example : ([[0, 1], [1, 0], [0, 2], [2, 0], [1, 2], [2, 1], [0, 0], [1, 1], [2, 2], [3, 0]].map fun P => (findWhere P ca, findSign P ca)) =
    [(0, 1), (0, -1), (1, 1), (1, -1), (2, 1), (2, -1), (-1, 0), (-1, 0), (-1, 0), (-1, 0)] := by decide +kernel
/-- wedge.cc:161-165. -/
example : combs (mpIota 3 0) 3 = some [[0, 1, 2]] := by decide +kernel
/-- wedge.cc:166-176. -/
example : (combs (mpIota 3 0) 1).map (·.map (anticomb · 3)) = some [some [1, 2], some [2, 0], some [0, 1]] := by decide +kernel
/-- wedge.cc:178-201. -/
example : choose 3 1 = some [[0], [1], [2]] ∧ choose 3 2 = some [[1, 2], [2, 0], [0, 1]] ∧ choose 3 3 = some [[0, 1, 2]] ∧
    choose 1 0 = some [[]] ∧ choose 1 1 = some [[0]] := by decide +kernel

def garbage (n : Nat) : List Int := List.replicate n 99

/-- The product, and the Hodge star of it. -/
def wh (D Oa Ob : Nat) (a b : List Int) : Option (List Int × List Int) := do
  let r ← wedge D Oa Ob a b
  let h ← hodgex D (Oa + Ob) r (garbage (binom D (D - (Oa + Ob))))
  pure (r, h)

/-- wedge.cc:203-213. -/
example : wh 1 0 0 [1] [3] = some ([3], [3]) := by decide +kernel
/-- wedge.cc:214-234. -/
example : wh 3 1 1 [1, 0, 0] [0, 1, 0] = some ([0, 0, 1], [0, 0, 1]) ∧ wh 3 1 1 [0, 1, 0] [1, 0, 0] = some ([0, 0, -1], [0, 0, -1]) := by decide +kernel
/-- wedge.cc:246-266. -/
example : wh 3 1 1 [1, 0, 0] [0, 0, 2] = some ([0, -2, 0], [0, -2, 0]) ∧ wh 3 1 1 [1, 0, 2] [1, 0, 2] = some ([0, 0, 0], [0, 0, 0]) := by decide +kernel
/-- wedge.cc:267-282. -/
example : wh 3 1 2 [0, 1, 0] [0, -1, 0] = some ([-1], [-1]) ∧ hodgex 3 1 [0, -1, 0] (garbage 3) = some [0, -1, 0] ∧
    hodgex 3 2 [0, -1, 0] (garbage 3) = some [0, -1, 0] := by decide +kernel
/-- wedge.cc:283-302. -/
example : wh 4 1 1 [1, 0, 0, 0] [0, 0, 1, 0] = some ([0, 1, 0, 0, 0, 0], [0, 0, 0, 0, -1, 0]) ∧
    hodgex 4 2 [0, 0, 0, 0, -1, 0] (garbage 6) = some [0, 1, 0, 0, 0, 0] ∧
    wedge 4 1 1 [0, 0, 1, 0] [1, 0, 0, 0] = some ([0, -1, 0, 0, 0, 0] : List Int) := by decide +kernel
/-- wedge.cc:303-308. -/
example : hodgex 4 2 [1, 0, 0, 0, 0, 0] (garbage 6) = some [0, 0, 0, 0, 0, 1] := by decide +kernel
/-- wedge.cc:309-326. -/
example : wedge 4 2 2 [1, 0, 0, 0, 0, 0] [0, 0, 0, 0, 0, 1] = some ([1] : List Int) ∧ wedge 4 2 2 [0, 0, 0, 0, 0, 1] [1, 0, 0, 0, 0, 0] = some ([1] : List Int) ∧
    wedge 4 2 2 [1, 0, 0, 0, 0, 1] [1, 0, 0, 0, 0, 1] = some ([2] : List Int) := by decide +kernel
/-- wedge.cc:327-338. -/
example : wedge 2 1 1 [1, 0] [0, 1] = some ([1] : List Int) ∧ hodgex 2 1 [1, 2] (garbage 2) = some [-2, 1] := by decide +kernel
/-- wedge.cc:339-350, 432. -/
example : cross [1, 0] [0, 1] = some ([1] : List Int) ∧ cross [0, 1] [1, 0] = some ([-1] : List Int) ∧ cross [1, 0] [0 + 1, 1 + 1] = some ([2] : List Int) ∧
    cross [3 - 1, 4 - 2] [6 - 1, 5 - 2] = some ([-4] : List Int) := by decide +kernel
/-- wedge.cc:351-365. -/
example : ([([1, 0, 0], [0, 1, 0]), ([0, 1, 0], [0, 0, 1]), ([0, 0, 1], [1, 0, 0]), ([0, 1, 0], [1, 0, 0]), ([0, 0, 1], [0, 1, 0]),
    ([1, 0, 0], [0, 0, 1])].map fun x => cross x.1 x.2) =
      ([some [0, 0, 1], some [1, 0, 0], some [0, 1, 0], some [0, 0, -1], some [-1, 0, 0], some [0, -1, 0]] : List (Option (List Int))) := by decide +kernel
/-- wedge.cc:369-376. -/
example : wedge 3 1 2 [1, 2, 3] [3, 2, 1] = some ([10] : List Int) ∧ wedge 3 1 1 [1, 2, 3] [3, 2, 1] = cross ([1, 2, 3] : List Int) [3, 2, 1] := by
  decide +kernel
/-- wedge.cc:409-421. -/
example : wedge 2 0 1 [2] [3, 5] = some ([6, 10] : List Int) ∧ wedge 2 1 0 [3, 5] [2] = some ([6, 10] : List Int) ∧
    wedge 3 0 1 [2] [1, 3, 5] = some ([2, 6, 10] : List Int) ∧ wedge 3 1 0 [1, 3, 5] [2] = some ([2, 6, 10] : List Int) := by decide +kernel
/-- wedge.cc:390-408, 424. -/
example : wedgeScalar (2 : Int) 3 = 6 ∧ wedge 0 0 0 [2] [3] = some ([6] : List Int) ∧ wedge 1 0 0 [2] [3] = some ([6] : List Int) ∧
    wedge 1 0 1 [3] [2] = some ([6] : List Int) := by decide +kernel

/-- wedge.cc:39-86, one case: all the tests there, for dimension `N` and order `O`. -/
def hodgeTest (N O : Nat) : Bool :=
  let u : List Int := (List.range (binom N O)).map fun (i : Nat) => (i : Int) + 1
  let sign : Int := if O * (N - O) % 2 = 1 then -1 else 1
  let r : Option Bool := do
    let w ← hodge N O u (garbage (binom N (N - O)))
    let x ← hodgex N O u (garbage (binom N (N - O)))
    let uw ← wedge N O (N - O) u w
    let ux ← wedge N O (N - O) u x
    let b ← hodgex N (N - O) x (garbage (binom N O))
    let a ← hodge N (N - O) w (garbage (binom N O))
    let wu ← if O + 1 = N then wedge N (N - O) O u w else some []
    let t1 := if O = 1 then decide (uw = [(u.map fun x => x * x).sum])
      else if O + 1 = N then decide (wu = [sign * (w.map fun x => x * x).sum]) else true
    pure (t1 && (if 2 * O = N then decide (uw = ux) else true) && decide (b = u.map (sign * ·)) && decide (a = u.map (sign * ·)))
  r.getD false

/-- wedge.cc:386-389. -/
example : (List.range 7).all (fun N => (List.range (N + 1)).all fun O => hodgeTest N O) = true := by decide +kernel

/-! ## test/explode-0.cc

The elements of `Small<T, ...>` are of size `e` in bytes, and those of `complex` are two of `double`. -/

/-- `Small<T, s ...>` for elements of size `e`, in units of `e`. -/
def small (s : List Int) (e : Int := 1) : Ty := ⟨(big s).dims, e, e * dimvSize (big s).dims⟩

/-- The dims of a view. -/
def dimsOf (v : Except Fault View) : Except Fault (List Dim) := v.map View.dims

/-- explode-0.cc:24-37. -/
example : dimsOf ((big [2, 3]).explode (small [3]) 1) = .ok [⟨2, 1⟩] := by decide +kernel
/-- explode-0.cc:50-61. -/
example : dimsOf ((big [2, 3, 2]).explode (small [] 2) 1) = .ok [⟨2, 3⟩, ⟨3, 1⟩] := by decide +kernel
/-- explode-0.cc:149-162, 163-182. -/
example : dimsOf ((big [4, 2]).explode (small [2]) 1) = .ok [⟨4, 1⟩] ∧
    dimsOf ((big [4, 2]).explode (small [] 2) 1) = .ok [⟨4, 1⟩] := by decide +kernel
/-- explode-0.cc:183-197. -/
example : dimsOf ((big [4, 2, 2]).explode (small [2, 2]) 1) = .ok [⟨4, 1⟩] := by decide +kernel
/-- explode-0.cc:198-211. -/
example : dimsOf ((big [2, 3]).explode (small [3]) 1) = .ok [⟨2, 1⟩] := by decide +kernel
/-- explode-0.cc:212-224. -/
example : dimsOf ((big [3, 2]).explode (small [] 2) 1) = .ok [⟨3, 1⟩] := by decide +kernel
/-- explode-0.cc:225-239. -/
example : dimsOf ((big [2, 3, 2]).explode (small [3] 2) 1) = .ok [⟨2, 1⟩] := by decide +kernel
/-- explode-0.cc:240-247. -/
example : dimsOf ((big [1, 0]).explode (small [0]) 1) = .ok [⟨1, 0⟩] := by decide +kernel

/-- explode-0.cc:74-85. -/
example : dimsOf ((big [4, 4]).collapse (small []) (small [] 2)) = .ok [⟨4, 8⟩, ⟨4, 2⟩, ⟨2, 1⟩] := by decide +kernel
/-- explode-0.cc:86-98. -/
example : dimsOf ((big [4, 4]).collapse (small []) (small [2])) = .ok [⟨4, 8⟩, ⟨4, 2⟩, ⟨2, 1⟩] := by decide +kernel
/-- explode-0.cc:99-114. -/
example : dimsOf ((big [2, 2]).collapse (small []) (small [2, 3])) = .ok [⟨2, 12⟩, ⟨2, 6⟩, ⟨2, 3⟩, ⟨3, 1⟩] := by decide +kernel
/-- explode-0.cc:115-129. -/
example : dimsOf ((big [2, 2]).collapse (small [3]) (small [2, 3])) = .ok [⟨2, 4⟩, ⟨2, 2⟩, ⟨2, 1⟩] := by decide +kernel
/-- explode-0.cc:130-147. -/
example : dimsOf ((big [4, 4]).collapse (small []) (small [2, 2] 2)) = .ok [⟨4, 32⟩, ⟨4, 8⟩, ⟨2, 4⟩, ⟨2, 2⟩, ⟨2, 1⟩] := by decide +kernel

/-! ## test/test.cc -/

/-- A vector of values with NaN and so on. -/
def flv (xs : List (Fl Int)) : Iter (StateT (Fl Int) (Except Fault)) (Fl Int) :=
  .cell [⟨xs.length, 1⟩] 0 fun p => match xs[p.toNat]? with | some x => pure x | none => fault .ub

/-- A scalar. -/
def fls (x : Fl Int) : Iter (StateT (Fl Int) (Except Fault)) (Fl Int) := .scalar (pure x)

/-- `amax_strict`, by either kind of traversal. -/
def strictMax (a : Iter (StateT (Fl Int) (Except Fault)) (Fl Int)) : Except Fault (Fl Int) := do
  let x ← amaxStrict true [] a
  let y ← amaxStrict false [] a
  if x = y then pure x else .error .fuel

/-- test.cc:22-26. -/
example : strictMax (flv [.fin 1, .fin 9]) = .ok (.fin 9) ∧ strictMax (flv [.fin 9, .fin 1]) = .ok (.fin 9) := by decide +kernel
/-- test.cc:28-34. -/
example : strictMax (fls .nan) = .ok .nan ∧ strictMax (flv [.nan, .nan]) = .ok .nan ∧ strictMax (flv [.fin 1, .nan]) = .ok .nan ∧
    strictMax (flv [.nan, .fin 1]) = .ok .nan := by decide +kernel

/-- The difference. -/
def flsub : Fl Int → Fl Int → Fl Int
  | .fin x, .fin y => .fin (x - y)
  | .nan, _ => .nan
  | _, .nan => .nan
  | .pinf, .pinf => .nan
  | .ninf, .ninf => .nan
  | .pinf, _ => .pinf
  | .ninf, _ => .ninf
  | _, .pinf => .ninf
  | _, .ninf => .pinf

/-- `rel_error` (ra.hh:92-93), that is `|a-b|*2/(|a|+|b|)` or 0 if both are 0. The quotient is rounded up, which is enough to compare it with 0. -/
def flrel (a b : Fl Int) : Fl Int :=
  match a, b with
  | .fin x, .fin y => if x.natAbs + y.natAbs = 0 then .fin 0 else .fin (if x = y then 0 else 1)
  | _, _ => .nan

/-- If `test_abs` and `test_rel` pass (test.cc:46-49). -/
def passes (ref a err : Fl Int) : Except Fault (Bool × Bool) := do
  let x ← testAbs flsub true [] (fls ref) (fls a) err
  let y ← testRel flrel true [] (fls ref) (fls a) err
  pure (x.2, y.2)

/-- test.cc:35-44. -/
example : passes (.fin 0) .nan (.fin 0) = .ok (false, false) := by decide +kernel
/-- test.cc:52-57. -/
example : [Fl.nan, .pinf, .ninf].map (fun x => passes x x (.fin 0)) = List.replicate 3 (.ok (true, true)) := by decide +kernel
/-- test.cc:58-72, 80-83. -/
example : ([(.nan, .ninf), (.nan, .pinf), (.ninf, .nan), (.pinf, .nan), (.pinf, .ninf), (.ninf, .pinf), (.fin 3, .pinf), (.fin 3, .ninf), (.fin 3, .nan), (.pinf, .fin 3),
    (.ninf, .fin 3), (.nan, .fin 3)] : List (Fl Int × Fl Int)).map (fun x => passes x.1 x.2 (.fin 0)) = List.replicate 12 (.ok (false, false)) := by decide +kernel
/-- test.cc:73-78. -/
example : ((testAbs flsub true [] (flv [.fin 1, .fin 2, .fin 3]) (flv [.fin 1, .fin 2, .fin 3]) (.fin 0)).map Prod.snd : Except Fault Bool) = .ok true := by
  decide +kernel
/-- test.cc:35-44, 46-49: what's counted. -/
example : (Recorder.run (.start .errors) [.test false, .test false]).summary = 2 ∧
    (Recorder.run (.start .errors) [.expectfail true, .test false, .expectfail true, .test false]).summary = 0 := by decide +kernel

end Ra.Conform
