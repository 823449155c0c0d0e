import Verif.Model.Test
/-!
# Benchmarks

test.hh:237-312.

Simplifications:
* The clock is any action that gives an integer. Seconds are numbers of a field, and what `duration` does with the clock's unit is a parameter.
* `report` and `info`, which make strings, aren't modelled.
* The function `g` given to `once_f` calls its argument once.
-/

namespace Ra

section
variable {F σ α : Type} [Add F] [_root_.Sub F] [Div F] [OfNat F 0] [OfNat F 2] [NatCast F]

/-- test.hh:246-251 `Benchmark::Value`. -/
structure BenchValue (F : Type) where
  name : String
  reps : Nat
  med : F
  mad : F

/-- test.hh:276-277. -/
structure Bench where
  reps : Nat := 1
  runs : Nat := 1
  name : String := ""

/-- test.hh:287 `reps`. -/
def Bench.setReps (b : Bench) (reps : Nat) : Bench := { b with reps := reps }

/-- test.hh:288 `runs`. -/
def Bench.setRuns (b : Bench) (runs : Nat) : Bench := { b with runs := runs }

/-- test.hh:289 `name`. -/
def Bench.setName (b : Bench) (name : String) : Bench := { b with name := name }

/-- test.hh:243 `lapse`. -/
def lapse (empty full : Int) : Int := if full > empty then full - empty else full

/-- The loop on test.hh:301. -/
def repeatN (f : StateM σ Unit) : Nat → StateM σ Unit
  | 0 => pure ()
  | n+1 => do
    f
    repeatN f n

/-- test.hh:299-303, with `g` given by what it does before the call, the function that it passes, and what it does after. -/
def Bench.sample (now : StateM σ Int) (b : Bench) (empty : Int) (pre : StateM σ α) (f post : α → StateM σ Unit) : StateM σ Int := do
  let x ← pre
  let t0 ← now
  repeatN (f x) b.reps
  let t1 ← now
  post x
  return lapse empty (t1 - t0)

/-- The loop on test.hh:298. -/
def Bench.samples (now : StateM σ Int) (b : Bench) (empty : Int) (pre : StateM σ α) (f post : α → StateM σ Unit) : Nat → StateM σ (List Int)
  | 0 => pure []
  | n+1 => do
    let x ← b.sample now empty pre f post
    let xs ← b.samples now empty pre f post n
    return x :: xs

/-- test.hh:305-307. The first `median` leaves the vector in the order of `nth_element` (lines 257-258). -/
def Bench.value (nth : List F → Nat → List F) (b : Bench) (secs : List F) : Except Fault (BenchValue F) := do
  let med ← median nth secs
  let secs := if secs.isEmpty then secs else nth secs (secs.length / 2)
  let secs := secs.map fun x => x - med
  let mad ← median nth secs
  return ⟨b.name, b.reps, med / (b.reps : F), mad / (b.reps : F)⟩

/-- test.hh:291-308 `once_f`. -/
def Bench.onceF (now : StateM σ Int) (toseconds : Int → F) (nth : List F → Nat → List F) (b : Bench) (pre : StateM σ α) (f post : α → StateM σ Unit) :
    StateM σ (Except Fault (BenchValue F)) := do
  let x ← pre
  let t0 ← now
  let t1 ← now
  post x
  let l ← b.samples now (t1 - t0) pre f post b.runs
  return b.value nth (l.map toseconds)

/-- test.hh:309 `once`. -/
def Bench.once (now : StateM σ Int) (toseconds : Int → F) (nth : List F → Nat → List F) (b : Bench) (f : StateM σ Unit) : StateM σ (Except Fault (BenchValue F)) :=
  b.onceF now toseconds nth (pure ()) (fun _ => f) (fun _ => pure ())

end
end Ra
