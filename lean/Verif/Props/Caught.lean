import Verif.Model.Caught
import Verif.Props.Value
/-!
# C81: programs that go on after a failure
-/

namespace Ra.Spec
variable {V : Type}

/-- The operations that aren't about elements, but about arrays as a whole. -/
def aboutArrays : Cmd V → Bool
  | .op _ => true
  | _ => false

/-- Operations that change an array and its storage. -/
def restores : Cmd V → Bool
  | .op (.resize ..) => true
  | .op (.resizeShape ..) => true
  | .op (.copy ..) => true
  | _ => false

/-- The effect of some operations, given which of them succeeded. Those that fail have no effect. Assignments fail only if they aren't allowed. -/
def tries : List (Cmd V) → List Bool → List (Value V) → Option (List (Value V))
  | [], [], vs => some vs
  | c :: cs, true :: bs, vs =>
    match Cmd.effect vs c with
    | some vs' => tries cs bs vs'
    | none => none
  | c :: cs, false :: bs, vs =>
    if aboutArrays c || (Cmd.effect vs c).isNone then tries cs bs vs else none
  | _, _, _ => none

end Ra.Spec

namespace Ra.Props
open Spec

section
variable {V : Type}

theorem step_caught {μ0 μ μ' : Mem V} {as as' : List Arr} {vs : List (Value V)} (dyn : Bool) (z : List Int) (hz : ∀ i ∈ z, i = 0) (c : Cmd V) (hr : ∀ p, c ≠ .op (.run p))
    (h : Same μ0 as vs μ) {e : Fault} (hs : c.step dyn z as μ = (.error e, as', μ')) (hc : restores c = false) : as' = as ∧ μ' = μ ∧ (aboutArrays c = true ∨ Cmd.effect vs c = none) := by
  match c, hr, hs, hc with
  | .op (.default rk), _, hs, _ =>
    simp only [Cmd.step, Op.step] at hs
    split at hs
    · simp only [Prod.mk.injEq] at hs
      exact ⟨hs.2.1.symm, hs.2.2.symm, .inl rfl⟩
    · simp at hs
  | .op (.create rk o fill s), _, hs, _ =>
    simp only [Cmd.step, Op.step] at hs
    split at hs
    · simp at hs
    · next e' μ1 h1 =>
      simp only [Prod.mk.injEq, Except.error.injEq] at hs
      obtain ⟨rfl, rfl, rfl⟩ := hs
      refine ⟨rfl, ?_, .inl rfl⟩
      have := (C32_failed_partial o (V := V) (fill 0) fill 0 s rk (Arr.default (some 1)) μ [0] ⟨rfl, by simp [Arr.default, RowMajorSteps], rfl, by simp [Arr.default], by simp [Arr.default]⟩).2.2.1
      exact this e' _ h1
  | .op (.pushBack i o x), _, hs, _ =>
    simp only [Cmd.step, Op.step, onArr] at hs
    split at hs
    · next a ha =>
      simp only [Prod.mk.injEq] at hs
      obtain ⟨g1, rfl, rfl⟩ := hs
      obtain ⟨v, hv, hrv⟩ := h.get ha
      obtain ⟨h1, h2⟩ := (C32_failed_partial o x (fun _ => x) 0 [] none a μ _ hrv.1).1 e _ _ (by rw [← g1])
      obtain ⟨hi, he⟩ := List.getElem?_eq_some_iff.mp ha
      exact ⟨by rw [h1, ← he, List.set_getElem_self], h2, .inl rfl⟩
    · simp only [Prod.mk.injEq] at hs
      exact ⟨hs.2.1.symm, hs.2.2.symm, .inl rfl⟩
  | .op (.popBack i), _, hs, _ =>
    simp only [Cmd.step, Op.step, onArr] at hs
    split at hs
    · next a ha =>
      simp only [Prod.mk.injEq] at hs
      obtain ⟨g1, rfl, rfl⟩ := hs
      obtain ⟨v, hv, hrv⟩ := h.get ha
      obtain ⟨hi, he⟩ := List.getElem?_eq_some_iff.mp ha
      have key : (a.popBack μ).2.1 = a ∧ (a.popBack μ).2.2 = μ := by
        cases hp : a.popBack μ with
        | mk r q =>
          obtain ⟨a', μ'⟩ := q
          rw [hp] at g1
          simp only at g1
          subst g1
          unfold Arr.popBack at hp
          split at hp
          · next d hd =>
            split at hp
            · next hpos =>
              simp only at hp
              split at hp
              · next hn =>
                exfalso
                have hl := hrv.1.lens
                have hcnt := hrv.1.count
                rw [hd] at hl
                generalize v.shape = sh at hl hcnt
                obtain _ | ⟨m, _ | ⟨_, _⟩⟩ := sh
                · simp at hl
                · simp only [List.map_cons, List.map_nil, List.cons.injEq, and_true] at hl
                  simp only [size, Nat.mul_one] at hcnt
                  omega
                · simp at hl
              · simp at hp
            · simp only [Prod.mk.injEq] at hp
              exact ⟨hp.2.1.symm, hp.2.2.symm⟩
          · simp only [Prod.mk.injEq] at hp
            exact ⟨hp.2.1.symm, hp.2.2.symm⟩
      exact ⟨by rw [key.1, ← he, List.set_getElem_self], key.2, .inl rfl⟩
    · simp only [Prod.mk.injEq] at hs
      exact ⟨hs.2.1.symm, hs.2.2.symm, .inl rfl⟩
  | .op (.swap i j), _, hs, _ =>
    simp only [Cmd.step, Op.step] at hs
    split at hs
    · next a b ha hb =>
      split at hs
      · simp at hs
      · simp only [Prod.mk.injEq] at hs
        obtain ⟨g1, rfl, rfl⟩ := hs
        refine ⟨?_, rfl, .inl rfl⟩
        have key : (Arr.swap a b).2 = (a, b) := by
          unfold Arr.swap at g1 ⊢
          simp only at g1 ⊢
          split at g1
          · next he => simp only [he]
          · simp at g1
        obtain ⟨hi, he⟩ := List.getElem?_eq_some_iff.mp ha
        obtain ⟨hi', he'⟩ := List.getElem?_eq_some_iff.mp hb
        rw [key]
        simp only
        rw [← he, List.set_getElem_self, ← he', List.set_getElem_self]
    · simp only [Prod.mk.injEq] at hs
      exact ⟨hs.2.1.symm, hs.2.2.symm, .inl rfl⟩
  | .op (.resize ..), _, _, hc => cases hc
  | .op (.resizeShape ..), _, _, hc => cases hc
  | .op (.copy ..), _, _, hc => cases hc
  | .op (.run p), hr, _, _ => exact absurd rfl (hr p)
  | .set i j x, _, hs, _ => exact fails_same dyn z hz (.set i j x) (by simp) h hs
  | .assign i x, _, hs, _ => exact fails_same dyn z hz (.assign i x) (by simp) h hs
  | .update f i x, _, hs, _ => exact fails_same dyn z hz (.update f i x) (by simp) h hs

theorem caught_same {μ0 μ μ' : Mem V} {as as' : List Arr} {vs : List (Value V)} (dyn : Bool) (z : List Int) (hz : ∀ i ∈ z, i = 0) (cs : List (Cmd V)) (hr : ∀ p, Cmd.op (.run p) ∉ cs) (bs : List Bool)
    (h : Same μ0 as vs μ) (hs : caught dyn z cs as μ = (.ok bs, as', μ')) (hc : ∀ c, (c, false) ∈ cs.zip bs → restores c = false) : ∃ vs', tries cs bs vs = some vs' ∧ Same μ0 as' vs' μ' := by
  induction cs generalizing as vs μ bs with
  | nil =>
    simp only [caught, Prod.mk.injEq, Except.ok.injEq] at hs
    obtain ⟨rfl, rfl, rfl⟩ := hs
    exact ⟨vs, rfl, h⟩
  | cons c cs ih =>
    have hbad : ∀ {e : Fault} {as1 : List Arr} {μ1 : Mem V}, c.step dyn z as μ = (.error e, as1, μ1) → (caught dyn z cs as1 μ1).1.map (false :: ·) = .ok bs → (caught dyn z cs as1 μ1).2 = (as', μ') →
        ∃ vs', tries (c :: cs) bs vs = some vs' ∧ Same μ0 as' vs' μ' := by
      intro e as1 μ1 h1 h2 h3
      cases hx : caught dyn z cs as1 μ1 with
      | mk r q =>
        rw [hx] at h2 h3
        simp only at h2 h3
        subst h3
        cases r with
        | error _ => simp [Except.map] at h2
        | ok b =>
          simp only [Except.map, Except.ok.injEq] at h2
          subst h2
          obtain ⟨rfl, rfl, h4⟩ := step_caught dyn z hz c (fun p hp => hr p (by simp [hp])) h h1 (hc c (by simp))
          obtain ⟨vs', h5, h6⟩ := ih (fun p hp => hr p (by simp [hp])) b h hx (fun c' hc' => hc c' (by simp [hc']))
          refine ⟨vs', ?_, h6⟩
          simp only [tries]
          rw [if_pos (by rcases h4 with h4 | h4 <;> simp [h4])]
          exact h5
    simp only [caught] at hs
    split at hs
    · next as1 μ1 h1 =>
      obtain ⟨vs1, e1, h2⟩ := step_same dyn z hz c (fun p hp => hr p (by simp [hp])) h h1
      simp only [Prod.mk.injEq] at hs
      obtain ⟨g1, g2⟩ := hs
      cases hx : caught dyn z cs as1 μ1 with
      | mk r q =>
        rw [hx] at g1 g2
        simp only at g1 g2
        subst g2
        cases r with
        | error _ => simp [Except.map] at g1
        | ok b =>
          simp only [Except.map, Except.ok.injEq] at g1
          subst g1
          obtain ⟨vs', h5, h6⟩ := ih (fun p hp => hr p (by simp [hp])) b h2 hx (fun c' hc' => hc c' (by simp [hc']))
          exact ⟨vs', by simp only [tries, e1, h5], h6⟩
    · next as1 μ1 h1 =>
      simp only [Prod.mk.injEq] at hs
      exact hbad h1 hs.1 hs.2
    · next as1 μ1 h1 =>
      simp only [Prod.mk.injEq] at hs
      exact hbad h1 hs.1 hs.2
    · simp at hs

/-- C81 (part). After any operations, whether some of them failed or not, the arrays have the values that they'd have if they were values and the operations that failed hadn't been done; and assignments
only fail if they aren't allowed. What's missing, because it isn't true, is when a `resize` or a copy fails (`C81_negation`). -/
theorem C81_partial (dyn : Bool) (z : List Int) (hz : ∀ i ∈ z, i = 0) (cs : List (Cmd V)) (hr : ∀ p, Cmd.op (.run p) ∉ cs) (bs : List Bool) (as : List Arr) (μ0 μ : Mem V)
    (hs : caught dyn z cs [] μ0 = (.ok bs, as, μ)) (hc : ∀ c, (c, false) ∈ cs.zip bs → restores c = false) :
    ∃ vs, tries cs bs [] = some vs ∧ List.Forall₂ (Represents μ) as vs ∧ ∀ p, (μ0 p).isSome → μ p = μ0 p := by
  have h0 : Same μ0 [] [] μ0 := ⟨⟨by simp, by simp, fun p => by simp, by simp⟩, rfl, by simp, fun _ _ => rfl⟩
  obtain ⟨vs, h1, h2⟩ := caught_same dyn z hz cs hr bs h0 hs hc
  refine ⟨vs, h1, List.forall₂_iff_get.mpr ⟨h2.len, fun i hi hi' => ?_⟩, h2.rest⟩
  rw [rep_iff]
  exact h2.rep i _ _ (by simp) (by simp)

/-- C81 for copies (B35): when the store throws, the dims have been copied already and the elements haven't. If the numbers of elements are different then it isn't an array any more. -/
theorem C81_copy (a b : Arr) (μ : Mem V) (s t : List Nat) (ha : Container a μ s) (hb : Container b μ t) :
    ∃ a', Arr.copyFrom none a b μ = (.error .alloc, a', μ) ∧ a'.view = ⟨b.dims, a.base⟩ ∧ ((∃ u, Container a' μ u) → size s = size t) := by
  refine ⟨{ a with dims := b.dims }, rfl, rfl, ?_⟩
  rintro ⟨u, hu⟩
  have h1 : u = t := by
    have := hu.lens.symm.trans hb.lens
    have := congrArg (List.map Int.toNat) this
    rwa [toNat_cast, toNat_cast] at this
  rw [← ha.count, ← h1, ← hu.count]

end

/-- C81 is false of the code (B8, B35): after a resize or a copy that failed there's an array with more elements than storage, and the assignment to one of them is undefined. -/
theorem C81_negation :
    (∃ as μ, caught (V := Int) true [] [.op (.create (some 1) (some 0) (fun i => i) [2]), .op (.resize 0 none (fun _ => 0) 3), .set 0 [2] 7] [] (fun _ => none) = (.error .ub, as, μ)) ∧
    ∃ as μ, caught (V := Int) true [] [.op (.create (some 1) (some 0) (fun i => i) [2]), .op (.create (some 1) (some 10) (fun i => i) [3]), .op (.copy 0 1 none), .set 0 [2] 7] [] (fun _ => none) =
      (.error .ub, as, μ) := by
  exact ⟨⟨_, _, rfl⟩, _, _, rfl⟩

/-- Operations where some fail: out of range, shapes that don't agree, no memory. -/
def egCaught : List (Cmd Int) := [.op (.create (some 1) (some 0) (fun i => i) [2]), .op (.create none (some 10) (fun i => 10 * i) [2, 3]), .op (.create (some 1) none (fun i => i) [3]), .set 0 [5] 1,
  .assign 0 (.op (· + ·) (.arr 0) (.const 1)), .op (.pushBack 0 none 7), .op (.pushBack 0 (some 20) 7), .assign 1 (.arr 0), .op (.swap 0 1), .set 1 [1, 2] 5]
example : (caught true [] egCaught [] (fun _ => none)).1 = .ok [true, true, false, false, true, false, true, false, false, true] := by decide +kernel
example : tries egCaught [true, true, false, false, true, false, true, false, false, true] [] = some [⟨[3], [1, 2, 7]⟩, ⟨[2, 3], [0, 10, 20, 30, 40, 5]⟩] := by decide +kernel
example : ∀ c, (c, false) ∈ egCaught.zip [true, true, false, false, true, false, true, false, false, true] → restores c = false := by
  simp only [egCaught, List.zip_cons_cons, List.mem_cons, Prod.mk.injEq]
  rintro c (h | h | h | h | h | h | h | h | h | h | h) <;> first | (obtain ⟨rfl, _⟩ := h; rfl) | cases h

end Ra.Props
