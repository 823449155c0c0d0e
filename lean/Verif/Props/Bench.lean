import Verif.Model.Bench
import Verif.Props.Test
/-!
# Benchmarks (C84)
-/

namespace Ra.Spec

/-- What happens in a benchmark: the clock is read, or the function is called. -/
inductive BenchEvent where
  | now
  | call
  deriving DecidableEq

/-- Two readings of the clock, and then, for each of the runs, as many calls as there are repetitions between two readings of the clock. -/
def schedule (reps runs : Nat) : List BenchEvent :=
  [.now, .now] ++ (List.replicate runs (.now :: (List.replicate reps .call ++ [.now]))).flatten

/-- The readings and the state after some events. -/
def play {σ : Type} (now : σ → Int × σ) (f : σ → σ) : List BenchEvent → σ → List Int × σ
  | [], s => ([], s)
  | .now :: l, s => ((now s).1 :: (play now f l (now s).2).1, (play now f l (now s).2).2)
  | .call :: l, s => play now f l (f s)

/-- The time of an interval, less the time that it takes to read the clock if that's known to be shorter. -/
def elapsed (empty full : Int) : Int := if empty < full then full - empty else full

/-- The time in each run. The first two readings of the clock give the time that it takes to read it. -/
def runTimes (runs : Nat) (r : List Int) : List Int :=
  (List.range runs).map fun k => elapsed (r.getD 1 0 - r.getD 0 0) (r.getD (2 * k + 3) 0 - r.getD (2 * k + 2) 0)

/-- The median of the distances to `m`. -/
def IsDeviation {F : Type} [LinearOrder F] [AddGroup F] [Div F] [OfNat F 2] (t : List F) (m x : F) : Prop := IsMedian (t.map fun y => |y - m|) x

end Ra.Spec

namespace Ra.Props
open Spec

section
variable {F σ α : Type} [Field F] [LinearOrder F] [IsStrictOrderedRing F]

theorem play_append (now : σ → Int × σ) (f : σ → σ) (l l' : List BenchEvent) (s : σ) :
    play now f (l ++ l') s = ((play now f l s).1 ++ (play now f l' (play now f l s).2).1, (play now f l' (play now f l s).2).2) := by
  induction l generalizing s with
  | nil => rfl
  | cons e l ih => cases e <;> simp [play, ih]

theorem play_calls (now : σ → Int × σ) (f : σ → σ) (n : Nat) (s : σ) : play now f (List.replicate n .call) s = ([], f^[n] s) := by
  induction n generalizing s with
  | zero => rfl
  | succ n ih => simp [List.replicate_succ, play, ih]

theorem repeatN_run (f : σ → σ) (n : Nat) (s : σ) : repeatN (fun s => ((), f s)) n s = ((), f^[n] s) := by
  induction n generalizing s with
  | zero => rfl
  | succ n ih => exact ih (f s)

/-- The readings in the runs. -/
def pairs (empty : Int) : List Int → List Int
  | a :: b :: l => elapsed empty (b - a) :: pairs empty l
  | _ => []

theorem samples_run (now : σ → Int × σ) (f : σ → σ) (b : Bench) (empty : Int) (n : Nat) (s : σ) :
    b.samples now empty (pure ()) (fun _ s => ((), f s)) (fun _ => pure ()) n s =
      (pairs empty (play now f (List.replicate n (.now :: (List.replicate b.reps .call ++ [.now]))).flatten s).1,
        (play now f (List.replicate n (.now :: (List.replicate b.reps .call ++ [.now]))).flatten s).2) ∧
    (play now f (List.replicate n (.now :: (List.replicate b.reps .call ++ [.now]))).flatten s).1.length = 2 * n := by
  induction n generalizing s with
  | zero => exact ⟨rfl, rfl⟩
  | succ n ih =>
    have hr := repeatN_run f b.reps (now s).2
    obtain ⟨h1, h2⟩ := ih (now (f^[b.reps] (now s).2)).2
    have hs : b.sample now empty (pure ()) (fun _ s => ((), f s)) (fun _ => pure ()) s =
        (elapsed empty ((now (f^[b.reps] (now s).2)).1 - (now s).1), (now (f^[b.reps] (now s).2)).2) := by
      show (let r := repeatN (fun s => ((), f s)) b.reps (now s).2; (lapse empty ((now r.2).1 - (now s).1), (now r.2).2)) = _
      rw [hr]
      rfl
    have hp : play now f (List.replicate (n + 1) (.now :: (List.replicate b.reps .call ++ [.now]))).flatten s =
        ((now s).1 :: (now (f^[b.reps] (now s).2)).1 :: (play now f (List.replicate n (.now :: (List.replicate b.reps .call ++ [.now]))).flatten (now (f^[b.reps] (now s).2)).2).1,
          (play now f (List.replicate n (.now :: (List.replicate b.reps .call ++ [.now]))).flatten (now (f^[b.reps] (now s).2)).2).2) := by
      rw [List.replicate_succ, List.flatten_cons, List.cons_append, play, List.append_assoc, play_append, play_calls]
      rfl
    refine ⟨?_, by rw [hp]; simp [h2]; omega⟩
    rw [hp]
    show (let r := b.sample now empty (pure ()) (fun _ s => ((), f s)) (fun _ => pure ()) s
      let q := b.samples now empty (pure ()) (fun _ s => ((), f s)) (fun _ => pure ()) n r.2
      (r.1 :: q.1, q.2)) = _
    rw [hs]
    simp only
    rw [h1]
    rfl

theorem pairs_eq (empty : Int) (n : Nat) (r : List Int) (h : r.length = 2 * n) :
    pairs empty r = (List.range n).map fun k => elapsed empty (r.getD (2 * k + 1) 0 - r.getD (2 * k) 0) := by
  induction n generalizing r with
  | zero => rw [List.length_eq_zero_iff.mp h]; rfl
  | succ n ih =>
    match r, h with
    | a :: b :: l, h =>
      rw [pairs, ih l (by simp at h; omega), List.range_succ_eq_map, List.map_cons, List.map_map]
      congr 1

omit [LinearOrder F] [IsStrictOrderedRing F] in
/-- C84. `once(f)`: the events are those in the schedule, in order, and the result depends on the times between the readings of the clock. -/
theorem C84_schedule (now : σ → Int × σ) (f : σ → σ) (toseconds : Int → F) (nth : List F → Nat → List F) (b : Bench) (s : σ) :
    b.once now toseconds nth (fun s => ((), f s)) s =
      (b.value nth ((runTimes b.runs (play now f (schedule b.reps b.runs) s).1).map toseconds), (play now f (schedule b.reps b.runs) s).2) := by
  obtain ⟨h1, h2⟩ := samples_run now f b ((now (now s).2).1 - (now s).1) b.runs (now (now s).2).2
  show (let q := b.samples now ((now (now s).2).1 - (now s).1) (pure ()) (fun _ s => ((), f s)) (fun _ => pure ()) b.runs (now (now s).2).2
    (b.value nth (q.1.map toseconds), q.2)) = _
  rw [h1]
  simp only
  rw [pairs_eq _ _ _ h2]
  rfl

theorem calls_repeat (calls : σ → Nat) (f : StateM σ Unit) (hf : ∀ s, calls (f s).2 = calls s + 1) (n : Nat) (s : σ) : calls (repeatN f n s).2 = calls s + n := by
  induction n generalizing s with
  | zero => rfl
  | succ n ih =>
    show calls (repeatN f n (f s).2).2 = _
    rw [ih, hf]; omega

omit [LinearOrder F] [IsStrictOrderedRing F] in
/-- C84. `once_f` calls the function as many times as there are repetitions in each run, and not for the time of an empty loop. `calls` is any count of the calls. -/
theorem C84_calls (now : StateM σ Int) (toseconds : Int → F) (nth : List F → Nat → List F) (b : Bench) (pre : StateM σ α) (f post : α → StateM σ Unit) (calls : σ → Nat)
    (hnow : ∀ s, calls (now s).2 = calls s) (hpre : ∀ s, calls (pre s).2 = calls s) (hpost : ∀ x s, calls (post x s).2 = calls s) (hf : ∀ x s, calls (f x s).2 = calls s + 1) (s : σ) :
    calls (b.onceF now toseconds nth pre f post s).2 = calls s + b.runs * b.reps := by
  have hsample : ∀ e s, calls (b.sample now e pre f post s).2 = calls s + b.reps := by
    intro e s
    show calls (post _ (now (repeatN (f (pre s).1) b.reps (now (pre s).2).2).2).2).2 = _
    rw [hpost, hnow, calls_repeat calls (f (pre s).1) (hf _), hnow, hpre]
  have hsamples : ∀ e n s, calls (b.samples now e pre f post n s).2 = calls s + n * b.reps := by
    intro e n
    induction n with
    | zero => intro s; simp [Bench.samples]; rfl
    | succ n ih =>
      intro s
      show calls (b.samples now e pre f post n (b.sample now e pre f post s).2).2 = _
      rw [ih, hsample, Nat.succ_mul]; omega
  show calls (b.samples now _ pre f post b.runs (post (pre s).1 (now (now (pre s).2).2).2).2).2 = _
  rw [hsamples, hpost, hnow, hnow, hpre]

theorem bench_value (nth : List F → Nat → List F) (hn : ∀ t n, n < t.length → NthElement t (nth t n) n) (b : Bench) (secs s : List F) (h2 : 2 ≤ secs.length)
    (hs : s.Perm secs) (hp : s.Pairwise (· ≤ ·)) :
    ∃ m, s[secs.length / 2]? = some m ∧ b.value nth secs = .ok ⟨b.name, b.reps, m / (b.reps : F), 0⟩ := by
  obtain ⟨m, h1, hm⟩ := C54_upper nth hn secs s h2 hs hp
  refine ⟨m, hm, ?_⟩
  have he : secs.isEmpty = false := by cases secs with
    | nil => simp at h2
    | cons => rfl
  have hnp := (hn secs (secs.length / 2) (by omega)).1
  have hl := hnp.length_eq
  obtain ⟨x, h3, h4⟩ := C54_upper nth hn ((nth secs (secs.length / 2)).map fun x => x - m) (s.map fun x => x - m) (by simp [hl, h2]) ((hs.trans hnp.symm).map _)
    (List.pairwise_map.mpr (hp.imp fun h => by simpa using h))
  have hx : x = 0 := by
    rw [List.length_map, hl, List.getElem?_map, hm] at h4
    simpa using h4.symm
  unfold Bench.value
  rw [h1]
  simp only [bind, Except.bind, he, Bool.false_eq_true, if_false]
  rw [h3, hx]
  simp [pure, Except.pure]

/-- C84. With an odd number of runs, other than one, the result has the median of the times of the runs, for one repetition. The full property is false of the code, see below. -/
theorem C84_partial (nth : List F → Nat → List F) (hn : ∀ t n, n < t.length → NthElement t (nth t n) n) (b : Bench) (secs : List F) (hodd : secs.length % 2 = 1) (h1 : secs.length ≠ 1) :
    ∃ v m, b.value nth secs = .ok v ∧ v.name = b.name ∧ v.reps = b.reps ∧ IsMedian secs m ∧ v.med = m / (b.reps : F) := by
  obtain ⟨x, hx, hmed⟩ := (C54_partial nth hn secs hodd h1).2
  have hp := List.pairwise_mergeSort (le := fun x y : F => decide (x ≤ y)) (fun _ _ _ => by simpa using le_trans) (fun x y => by simpa using le_total x y) secs
  obtain ⟨m, hm, hv⟩ := bench_value nth hn b secs _ (by omega) (List.mergeSort_perm secs (fun x y => decide (x ≤ y))) (by simpa using hp)
  refine ⟨_, x, hv, rfl, rfl, hmed, ?_⟩
  have := (hmed _ (List.mergeSort_perm secs (fun x y => decide (x ≤ y))) (by simpa using hp)).1 (by rw [List.length_mergeSort]; exact hodd)
  rw [List.length_mergeSort] at this
  rw [this] at hm
  injection hm with hm
  rw [hm]

/-- C84. False of the code. With two or more runs `mad` is zero, whatever the times are (B36). -/
theorem C84_mad_negation (nth : List F → Nat → List F) (hn : ∀ t n, n < t.length → NthElement t (nth t n) n) (b : Bench) (secs : List F) (h2 : 2 ≤ secs.length) :
    ∃ v, b.value nth secs = .ok v ∧ v.mad = 0 := by
  have hp := List.pairwise_mergeSort (le := fun x y : F => decide (x ≤ y)) (fun _ _ _ => by simpa using le_trans) (fun x y => by simpa using le_total x y) secs
  obtain ⟨m, -, hv⟩ := bench_value nth hn b secs _ h2 (List.mergeSort_perm secs (fun x y => decide (x ≤ y))) (by simpa using hp)
  exact ⟨_, hv, rfl⟩

omit [IsStrictOrderedRing F] in
/-- C84. False of the code. One run, which is the default, reads out of range (B10, B36). -/
theorem C84_one_negation (nth : List F → Nat → List F) (hn : ∀ t n, n < t.length → NthElement t (nth t n) n) (reps : Nat) (name : String) (x : F) :
    ({ reps := reps, name := name } : Bench).runs = 1 ∧ ({ reps := reps, name := name } : Bench).value nth [x] = .error .ub := by
  refine ⟨rfl, ?_⟩
  unfold Bench.value
  rw [C54_one_negation nth hn x]
  rfl

/-- C84. The time of an interval isn't negative, and isn't more than the interval. -/
theorem C84_lapse (empty full : Int) (he : 0 ≤ empty) (hf : 0 ≤ full) : lapse empty full = elapsed empty full ∧ 0 ≤ lapse empty full ∧ lapse empty full ≤ full := by
  refine ⟨rfl, ?_, ?_⟩ <;> unfold lapse <;> split <;> omega

/-- C84. False of the code. A longer interval can give a shorter time: when the interval isn't longer than the time that it takes to read the clock, that time isn't taken away (B38). -/
theorem C84_lapse_negation (empty : Int) (h : 1 < empty) : ¬ ∀ full full', full ≤ full' → lapse empty full ≤ lapse empty full' := by
  intro hm
  have := hm empty (empty + 1) (by omega)
  simp only [lapse, lt_irrefl, if_false] at this
  rw [if_pos (by omega)] at this
  omega

end

/-- Three runs of two repetitions, with a clock that reads 0, 1, 5, 15, 20, 22, 30, 39, …: the times are 9, 1 and 8, the median is 8 and the mean time 4; `mad` is 0, but the
median distance is 1. -/
example : schedule 2 3 = [.now, .now, .now, .call, .call, .now, .now, .call, .call, .now, .now, .call, .call, .now] ∧
    (play (fun s : Nat × Nat => (([0, 1, 5, 15, 20, 22, 30, 39].getD s.1 0 : Int), (s.1 + 1, s.2))) (fun s => (s.1, s.2 + 1)) (schedule 2 3) (0, 0)) =
      ([0, 1, 5, 15, 20, 22, 30, 39], (8, 6)) ∧ runTimes 3 [0, 1, 5, 15, 20, 22, 30, 39] = [9, 1, 8] := by
  decide +kernel

example : ∃ v, Bench.value sortNth { reps := 2, runs := 3, name := "x" } [9, 1, 8] = .ok v ∧ v.med = 4 ∧ v.mad = 0 ∧ IsDeviation ([9, 1, 8] : List ℚ) 8 1 := by
  obtain ⟨m, h1, h2⟩ := bench_value sortNth sortNth_nth { reps := 2, runs := 3, name := "x" } [9, 1, 8] [1, 8, 9] (by decide) (by decide) (by simp; norm_num)
  simp at h1
  subst h1
  refine ⟨_, h2, by norm_num, rfl, ?_⟩
  intro s hs hp
  have he : s = [0, 1, 7] := by
    refine List.Perm.eq_of_pairwise (fun x y _ _ h h' => le_antisymm h h') hp (by simp) (hs.trans ?_)
    have : ([9, 1, 8] : List ℚ).map (fun y => |y - 8|) = [1, 7, 0] := by norm_num [abs_of_nonneg, abs_of_nonpos]
    rw [this]
    decide
  subst he
  exact ⟨fun _ => rfl, fun h => by simp at h⟩

end Ra.Props
