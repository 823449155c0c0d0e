import Verif.Props.Array
import Verif.Props.Bench
/-!
# Histories that fail, C32, and the options of benchmarks, C84
-/

namespace Ra.Props
open Spec

section
variable {V : Type}

/-- C32. If some operations fail, then one of them has failed after the ones before it have been done, and none of the ones after it have been done. -/
theorem C32_history (ops : List (Op V)) (as as' : List Arr) (μ μ' : Mem V) (e : Fault) (h : steps ops as μ = (.error e, as', μ')) :
    ∃ before op after as₁ μ₁, ops = before ++ op :: after ∧ steps before as μ = (.ok (), as₁, μ₁) ∧ op.step as₁ μ₁ = (.error e, as', μ') := by
  induction ops generalizing as μ with
  | nil => simp [steps] at h
  | cons op ops ih =>
    rw [steps] at h
    rcases hs : op.step as μ with ⟨r, a1, m1⟩
    rw [hs] at h
    rcases r with e1 | u
    · simp only [Prod.mk.injEq, Except.error.injEq] at h
      obtain ⟨rfl, rfl, rfl⟩ := h
      exact ⟨[], op, ops, as, μ, rfl, rfl, hs⟩
    · obtain ⟨b, o, a, as1, μ1, h1, h2, h3⟩ := ih a1 m1 h
      refine ⟨op :: b, o, a, as1, μ1, by rw [h1]; rfl, ?_, h3⟩
      rw [steps, hs]
      exact h2

/-- C32. In that case nothing has happened to the arrays that the operation isn't for. The operation leaves as many arrays as there were. -/
theorem C32_others (op : Op V) (as as' : List Arr) (μ μ' : Mem V) (e : Fault) (h : op.step as μ = (.error e, as', μ')) :
    as'.length = as.length ∧ ∀ k, (∀ i o f n, op = .resize i o f n → k ≠ i) → (∀ i o f s, op = .resizeShape i o f s → k ≠ i) → (∀ i j o, op = .copy i j o → k ≠ i) →
      (∀ i o t, op = .pushBack i o t → k ≠ i) → (∀ i, op = .popBack i → k ≠ i) → (∀ i j, op = .swap i j → k ≠ i ∧ k ≠ j) → as'[k]? = as[k]? := by
  have on : ∀ (i : Nat) (f : Arr → Mem V → Except Fault Unit × Arr × Mem V) as', onArr i f as μ = (.error e, as', μ') → as'.length = as.length ∧ ∀ k, k ≠ i → as'[k]? = as[k]? := by
    intro i f as' h
    rw [onArr] at h
    split at h
    · simp only [Prod.mk.injEq] at h
      obtain ⟨_, rfl, _⟩ := h
      exact ⟨List.length_set .., fun k hk => List.getElem?_set_ne (Ne.symm hk)⟩
    · simp only [Prod.mk.injEq] at h
      obtain ⟨_, rfl, _⟩ := h
      exact ⟨rfl, fun _ _ => rfl⟩
  cases op with
  | default rk =>
    simp only [Op.step] at h
    split at h <;> simp only [Prod.mk.injEq, reduceCtorEq, false_and] at h
    obtain ⟨_, rfl, _⟩ := h
    exact ⟨rfl, fun _ _ _ _ _ _ _ => rfl⟩
  | create rk o fill s =>
    simp only [Op.step] at h
    split at h <;> simp only [Prod.mk.injEq, reduceCtorEq, false_and] at h
    obtain ⟨_, rfl, _⟩ := h
    exact ⟨rfl, fun _ _ _ _ _ _ _ => rfl⟩
  | resize i o fill n =>
    obtain ⟨h1, h2⟩ := on _ _ _ h
    exact ⟨h1, fun k a _ _ _ _ _ => h2 k (a _ _ _ _ rfl)⟩
  | resizeShape i o fill s =>
    obtain ⟨h1, h2⟩ := on _ _ _ h
    exact ⟨h1, fun k _ a _ _ _ _ => h2 k (a _ _ _ _ rfl)⟩
  | pushBack i o t =>
    obtain ⟨h1, h2⟩ := on _ _ _ h
    exact ⟨h1, fun k _ _ _ a _ _ => h2 k (a _ _ _ rfl)⟩
  | popBack i =>
    obtain ⟨h1, h2⟩ := on _ _ _ h
    exact ⟨h1, fun k _ _ _ _ a _ => h2 k (a _ rfl)⟩
  | copy i j o =>
    simp only [Op.step] at h
    split at h
    · split_ifs at h with hij
      · simp at h
      · obtain ⟨h1, h2⟩ := on _ _ _ h
        exact ⟨h1, fun k _ _ a _ _ _ => h2 k (a _ _ _ rfl)⟩
    · simp only [Prod.mk.injEq] at h
      obtain ⟨_, rfl, _⟩ := h
      exact ⟨rfl, fun _ _ _ _ _ _ _ => rfl⟩
  | swap i j =>
    simp only [Op.step] at h
    split at h
    · split_ifs at h with hij
      · simp at h
      · simp only [Prod.mk.injEq] at h
        obtain ⟨_, rfl, _⟩ := h
        exact ⟨by simp, fun k _ _ _ _ _ a => by rw [List.getElem?_set_ne (Ne.symm (a _ _ rfl).2), List.getElem?_set_ne (Ne.symm (a _ _ rfl).1)]⟩
    · simp only [Prod.mk.injEq] at h
      obtain ⟨_, rfl, _⟩ := h
      exact ⟨rfl, fun _ _ _ _ _ _ _ => rfl⟩
  | run p =>
    simp only [Op.step, Prod.mk.injEq] at h
    obtain ⟨_, rfl, _⟩ := h
    exact ⟨rfl, fun _ _ _ _ _ _ _ => rfl⟩

end

/-- Two arrays, and then a resize for which there isn't memory. The other array is as it was, and the one of the resize isn't. -/
example : ∃ as μ, steps [.create (some 1) (some 0) (fun _ => (7 : Int)) [2], .create (some 1) (some 9) (fun _ => 8) [3], .resize 1 none (fun _ => 0) 4, .popBack 0] [] (fun _ => none) = (.error .alloc, as, μ) ∧
    as.map Arr.dims = [[⟨2, 1⟩], [⟨4, 1⟩]] := ⟨_, _, rfl, by decide +kernel⟩

section
variable {F σ α : Type} [Field F] [LinearOrder F]

/-- C84. The options of a benchmark. Whatever they were before, and in any order, they are used as they were given: `Benchmark().reps(r).runs(k).name(s)` calls the function `r` times in each of `k` runs, and the result
has that name. -/
theorem C84_options (b : Bench) (r k : Nat) (s : String) (b' : Bench) (hb : b' ∈ [((b.setReps r).setRuns k).setName s, ((b.setReps r).setName s).setRuns k, ((b.setRuns k).setReps r).setName s,
      ((b.setRuns k).setName s).setReps r, ((b.setName s).setReps r).setRuns k, ((b.setName s).setRuns k).setReps r])
    (now : StateM σ Int) (toseconds : Int → F) (nth : List F → Nat → List F) (pre : StateM σ α) (f post : α → StateM σ Unit) (calls : σ → Nat)
    (hnow : ∀ s, calls (now s).2 = calls s) (hpre : ∀ s, calls (pre s).2 = calls s) (hpost : ∀ x s, calls (post x s).2 = calls s) (hf : ∀ x s, calls (f x s).2 = calls s + 1) (st : σ) :
    calls (b'.onceF now toseconds nth pre f post st).2 = calls st + k * r ∧ ∀ secs v, b'.value nth secs = .ok v → v.name = s ∧ v.reps = r := by
  have e : b' = ⟨r, k, s⟩ := by
    simp only [List.mem_cons, List.not_mem_nil, or_false] at hb
    rcases hb with rfl | rfl | rfl | rfl | rfl | rfl <;> rfl
  subst e
  refine ⟨C84_calls now toseconds nth _ pre f post calls hnow hpre hpost hf st, ?_⟩
  intro secs v h
  simp only [Bench.value, bind, Except.bind] at h
  split at h
  · simp at h
  · split at h
    · simp at h
    · simp only [pure, Except.pure, Except.ok.injEq] at h
      subst h
      exact ⟨rfl, rfl⟩

end
end Ra.Props
