import Verif.Model.Reduce
/-!
# The test recorder and the median of benchmarks

test.hh:33-234 and 253-260.

Simplifications:
* The text that's printed is only the kind of text, `Report`, for each test.
* `infos` (test.hh:57, 72-78, 109) isn't modelled.
* `double` is any ordered field.
-/

namespace Ra

/-- test.hh:48-50 `verbose_t`. -/
inductive Verbose where
  | quiet
  | errors
  | noisy
  deriving DecidableEq, Repr

/-- What's printed for a test (test.hh:91-108): nothing, or a line with the arguments of the test, or a line with less. -/
inductive Report where
  | nothing
  | full
  | min
  deriving DecidableEq, Repr

/-- test.hh:52-56, the state of `TestRecorder`. `bad` and `reports` are kept with the last first. -/
structure Recorder where
  verboseDefault : Verbose
  verbose : Verbose
  willskip : Bool
  willexpectfail : Bool
  willstrict : Bool
  total : Nat
  skipped : Nat
  passedGood : Nat
  passedBad : Nat
  failedGood : Nat
  failedBad : Nat
  bad : List Nat
  reports : List Report
  deriving DecidableEq, Repr

/-- test.hh:59-60, the constructor. -/
def Recorder.start (v : Verbose) : Recorder := ⟨v, v, false, false, false, 0, 0, 0, 0, 0, 0, [], []⟩

/-- test.hh:91-108, what's printed. -/
def Recorder.report (r : Recorder) (c : Bool) : Report :=
  match r.verbose with
  | .quiet => if !c then .full else .nothing
  | .noisy | .errors => if r.verbose == .noisy || c == r.willexpectfail then .full else .min

/-- test.hh:88-121 `test(c, ...)`, where `c` says if the test succeeded. -/
def Recorder.test (r : Recorder) (c : Bool) : Recorder :=
  let r := { r with reports := r.report c :: r.reports }
  let r := { r with verbose := r.verboseDefault }
  let r :=
    if !r.willskip then
      let r := if r.willexpectfail then (if c then { r with passedBad := r.passedBad + 1 } else { r with failedGood := r.failedGood + 1 })
        else (if c then { r with passedGood := r.passedGood + 1 } else { r with failedBad := r.failedBad + 1 })
      if c == r.willexpectfail then { r with bad := r.total :: r.bad } else r
    else { r with skipped := r.skipped + 1 }
  let r := { r with total := r.total + 1 }
  { r with willstrict := false, willskip := false, willexpectfail := false }

/-- The calls that a program makes: test.hh:79-83, 88-121, 139-176. -/
inductive RecorderOp where
  | skip (b : Bool)
  | strict (b : Bool)
  | expectfail (b : Bool)
  | verbose (v : Verbose)
  | test (c : Bool)
  /-- `test_eq(ref, a)`, or another comparison: if the shapes agree, if they're the same, and if all the elements compare. -/
  | compare (agree same all : Bool)
  deriving DecidableEq, Repr

/-- test.hh:139-164 `test_comp`, with test.hh:165-176. It gives the result of the test. -/
def Recorder.compare (r : Recorder) (agree same all : Bool) : Bool × Recorder :=
  if (if r.willstrict then same else agree) then (all, r.test all) else (false, r.test false)

/-- test.hh:142-150, the conditions in `test_comp`, with `strict` for `willstrict`. The result is that of the test, and `Recorder.compare` is what's done
with it. The comparison of shapes on line 145 (`rank(a)==rank(b) && every(shape(a)==shape(b))`) is an equality of lists. -/
def testComp {m : Type → Type} {α : Type} [Monad m] [MonadFault m] [Boolean α] [Optional α Bool] (dyn : Bool) (z : List Int) (strict : Bool)
    (comp : List α → m α) (a b : Iter m α) : m Bool :=
  if (if strict then a.rank == b.rank && a.shape == b.shape else agree [a, b]) then everyOf dyn z (.node (mapOp comp) [a, b]) else pure false

/-- test.hh:79-83 (the modifiers), 88-121, and 139-176. -/
def Recorder.step (r : Recorder) : RecorderOp → Recorder
  | .skip b => { r with willskip := b }
  | .strict b => { r with willstrict := b }
  | .expectfail b => { r with willexpectfail := b }
  | .verbose v => { r with verbose := v }
  | .test c => r.test c
  | .compare agree same all => (r.compare agree same all).2

/-- A sequence of calls of test.hh:79-83, 88-121, 139-176. -/
def Recorder.run (r : Recorder) (l : List RecorderOp) : Recorder := l.foldl Recorder.step r

/-- test.hh:218-233 `summary()`, the value. -/
def Recorder.summary (r : Recorder) : Nat := r.bad.length

section
variable {F : Type} [Add F] [Div F] [OfNat F 0] [OfNat F 2]

/-- test.hh:253-260 `median(t)`. `nth t n` is `std::ranges::nth_element(t, t.begin()+n)`, and an index out of range is undefined behaviour. -/
def median (nth : List F → Nat → List F) (t : List F) : Except Fault F :=
  if t.isEmpty then .ok 0
  else
    let n := t.length / 2
    let t := nth t n
    if t.length ^^^ 1 ≠ 0 then
      match t[n]? with
      | some x => .ok x
      | none => .error .ub
    else if n < 1 then .error .ub
    else
      let t := nth t (n - 1)
      match t[n]?, t[n - 1]? with
      | some x, some y => .ok ((x + y) / 2)
      | _, _ => .error .ub

end
end Ra
