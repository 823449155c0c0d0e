import Verif.Conform.Base
import Verif.Model.DualIO
/-!
# Printing and reading

test/io.cc, test/tformat.cc, test/dual.cc.
-/

namespace Ra.Conform

/-- Print a tree of integers. -/
def printed (f : Format) (anysize anyrank : Bool) (a : Iter M Int) : Except Fault String :=
  match (format f showInt anysize anyrank a).run [] with
  | .ok (s, _) => .ok (String.ofList s)
  | .error e => .error e

/-- Print, and read again to an array. -/
def roundTrip (anyrank : Bool) (a : Iter M Int) : Except Fault (Option (List Int × List (Option Int)) × Bool) := do
  let s ← printed {} true anyrank a
  let r ← (Stream.mk s.toList true).readArray (if anyrank then none else some a.rank.toNat) readInt
  return (r.1, r.2.good)

/-- Print, and read again to an array of the same static size, that's printed without its shape (ply.hh:578-583). -/
def roundTripSmall (a : Iter M Int) (n : Nat) : Except Fault (List (Option Int) × Bool) := do
  let s ← printed {} false false a
  let r := (Stream.mk s.toList true).readEach readInt n
  return (r.1, r.2.good)

def f53 : List Int := fill [5, 3] fun i => i.getD 0 0 - i.getD 1 0
def f2222 : List Int := fill [2, 2, 2, 2] List.sum
def a2222 : Iter M Int := arr [2, 2, 2, 2] f2222

/-- io.cc:47-52. -/
example : roundTrip false (arr [5, 3] f53) = .ok (some ([5, 3], f53.map some), true) := by decide +kernel
/-- io.cc:53-57. -/
example : roundTrip false (vec [1]) = .ok (some ([1], [some 1]), true) := by decide +kernel
/-- io.cc:58-64. -/
example : printed { shape := .withshape, sep0 := ['|'], sepn := ['-'] } false false (arr [2, 2] [1, 2, 3, 4]) = .ok "2 2\n1|2-3|4" := by decide +kernel
/-- io.cc:65-71. -/
example : printed { shape := .noshape, sep0 := ['|'], sepn := ['-'] } true false (arr [2, 2] [1, 2, 3, 4]) = .ok "1|2-3|4" := by decide +kernel
/-- io.cc:75-90. -/
example : printed cstyle true false a2222 = .ok "{{{{0, 1},
   {1, 2}},
  {{1, 2},
   {2, 3}}},
 {{{1, 2},
   {2, 3}},
  {{2, 3},
   {3, 4}}}}" := by decide +kernel
/-- io.cc:91-109. -/
example : printed { cstyle with shape := .withshape } true false a2222 = .ok "2 2 2 2
{{{{0, 1},
   {1, 2}},
  {{1, 2},
   {2, 3}}},
 {{{1, 2},
   {2, 3}},
  {{2, 3},
   {3, 4}}}}" := by decide +kernel
/-- io.cc:110-130. -/
example : printed jstyle true false a2222 = .ok "2 2 2 2
0 1
1 2

1 2
2 3


1 2
2 3

2 3
3 4" := by decide +kernel
/-- io.cc:131-146. -/
example : printed lstyle true false a2222 = .ok "((((0 1)
   (1 2))
  ((1 2)
   (2 3)))
 (((1 2)
   (2 3))
  ((2 3)
   (3 4))))" := by decide +kernel
/-- io.cc:147-164. -/
example : printed { lstyle with align := false } true false a2222 = .ok "((((0 1)
(1 2))
((1 2)
(2 3)))
(((1 2)
(2 3))
((2 3)
(3 4))))" := by decide +kernel
/-- io.cc:165-184. -/
example : printed pstyle true false a2222 = .ok "[[[[0, 1],
   [1, 2]],

  [[1, 2],
   [2, 3]]],


 [[[1, 2],
   [2, 3]],

  [[2, 3],
   [3, 4]]]]" := by decide +kernel
/-- io.cc:186-194. -/
example : printed { jstyle with shape := .withshape } false false (arr [2, 2] [1, 2, 3, 4]) = .ok "2 2\n1 2\n3 4" := by decide +kernel
/-- io.cc:195-201. -/
example : printed nstyle true false (arr [2, 2] [1, 2, 3, 4]) = .ok "1 2\n3 4" := by decide +kernel
/-- io.cc:204-206. -/
example : roundTripSmall (op1 (- ·) (vec [0, 1, 2])) 3 = .ok ([some 0, some (-1), some (-2)], true) := by decide +kernel
/-- io.cc:207-209. -/
example : roundTripSmall (op1 (- ·) (arr [3, 2, 3] (fill [3, 2, 3] fun i => i.getD 0 0 - i.getD 1 0 + i.getD 2 0))) 18 =
    .ok ((fill [3, 2, 3] fun i => -(i.getD 0 0 - i.getD 1 0 + i.getD 2 0)).map some, true) := by decide +kernel
/-- io.cc:211-216. -/
example : roundTrip false (op1 (- ·) (arr [2, 3] [1, 2, 3, 4, 5, 6])) = .ok (some ([2, 3], [-1, -2, -3, -4, -5, -6].map some), true) := by
  decide +kernel
/-- io.cc:219-220. -/
example : roundTrip false (arr [3, 2] [1, 2, 3, 4, 5, 6]) = .ok (some ([3, 2], [1, 2, 3, 4, 5, 6].map some), true) := by decide +kernel
/-- io.cc:222-224. The rank isn't static. -/
example : (do roundTrip true (leaf (← (big [3, 2]).transpose [1, 0]) [1, 2, 3, 4, 5, 6])) = .ok (some ([2, 3], [1, 3, 5, 2, 4, 6].map some), true) := by
  decide +kernel
/-- io.cc:230-232. -/
example : (do roundTripSmall (leaf (← (big [3, 2]).transpose [1, 0]) [1, 2, 3, 4, 5, 6]) 6) = .ok ([1, 3, 5, 2, 4, 6].map some, true) := by
  decide +kernel
/-- io.cc:234-239. -/
example : roundTripSmall (op2 (fun i j => -i * j) (vec [0, 1, 2]) (tix 0)) 3 = .ok ([some 0, some (-1), some (-4)], true) := by decide +kernel
/-- io.cc:240-245. -/
example : roundTrip true (op2 (· + ·) (arr [2, 2] [1, 2, 3, 4]) (arr [2, 2] [1, 2, 3, 4])) = .ok (some ([2, 2], [2, 4, 6, 8].map some), true) := by
  decide +kernel
/-- io.cc:264-270. -/
example : printed cstyle true false (vec []) = .ok "{}" := by decide +kernel
/-- io.cc:271-277. -/
example : printed {} false false (arr [] [7]) = .ok "7" := by decide +kernel
/-- io.cc:278-283. -/
example : printed {} false false (sc 99) = .ok "99" := by decide +kernel

/-- checks.cc:188-195. An unbounded length can't be printed. -/
example : (do printed {} true true (leaf (← (big [10]).from [.insert 1, all]) (fill [10] fun _ => 0))) = .error .check := by decide +kernel

/-! ## test/tformat.cc -/

/-- The format for a specification without a format for the elements, as it's given to `parse`, that's followed by a closing bracket. -/
def spec (s : String) : Except ParseFault (Format × String) :=
  match parseFormat (fun u => .ok (u.dropWhile (· ≠ '}'))) {} (s.toList ++ ['}']) with
  | .ok (f, r) => .ok (f, String.ofList r)
  | .error e => .error e

/-- tformat.cc:59-61, 71-72. -/
example : spec "" = .ok ({}, "}") := by decide +kernel
/-- tformat.cc:73-76, 80. -/
example : [":", ":9", ":<9", ":7", ":5"].map spec = List.replicate 5 (.ok ({}, "}")) := by decide +kernel
/-- tformat.cc:77. -/
example : spec "s:7" = .ok ({ shape := .withshape }, "}") := by decide +kernel
/-- tformat.cc:78. -/
example : spec "p:5" = .ok (pstyle, "}") := by decide +kernel
/-- tformat.cc:79. -/
example : spec "pe:5" = .ok ({ pstyle with align := false }, "}") := by decide +kernel
/-- tformat.cc:81. -/
example : spec "cs:p:06.3f" = .ok ({ cstyle with shape := .withshape }, "}") := by decide +kernel
/-- tformat.cc:84. -/
example : spec "p:l" = .ok (pstyle, "}") := by decide +kernel

/-- tformat.cc:67. -/
example : (format (m := Except Fault) {} (fun i => "Yes".toList ++ showInt i) false false
    (.cell [⟨2, 1⟩] 0 fun i => pure (i + 1))).map String.ofList = .ok "Yes1 Yes2" := by decide +kernel

/-! ## test/dual.cc -/

/-- The parts that are read, and the state of the stream. -/
def readD (s : String) : Except Fault ((Option Int × Option Int) × Bool) := do
  let r ← (Stream.mk s.toList true).readDual readInt
  return (r.1, r.2.good)

/-- dual.cc:131-138. -/
example : readD "[2 7]" = .ok ((some 2, some 7), true) := by decide +kernel
/-- dual.cc:139-145. -/
example : readD (String.ofList (Dual.print showInt (⟨9, 3⟩ : Dual Int))) = .ok ((some 9, some 3), true) := by decide +kernel

end Ra.Conform
