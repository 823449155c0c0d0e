import Verif.Model.CaughtFull
import Verif.Props.Caught
import Verif.Props.FullProgram
/-!
# C81 for programs with any expressions
-/

namespace Ra.Spec
variable {V : Type}

/-- The expressions of the operation are such that they are in `FExp.Good`. It might still fail. -/
def FCmd.Good (vs : List (Value V)) : FCmd V → Prop
  | .cmd _ => True
  | .assign d e => FExp.Places d ∧ FExp.Good vs d ∧ FExp.Good vs e
  | .update _ d e => FExp.Places d ∧ FExp.Good vs d ∧ FExp.Good vs e
  | .make _ _ _ e => FExp.Good vs e

/-- The effect of an operation that fails. Those on containers may fail for lack of memory; the others only if they have no effect otherwise. Some elements may have been assigned. -/
def FCmd.Fails (vs : List (Value V)) : FCmd V → List (Value V) → Prop
  | .cmd c, vs' => ((∃ o, c = .op o) ∨ Cmd.effect vs c = none) ∧ vs' = vs
  | .assign d e, vs' => FFails (fun _ x => x) vs d e vs'
  | .update f d e, vs' => FFails f vs d e vs'
  | .make _ _ _ _, vs' => vs' = vs

/-- The effect of some operations, given which of them succeeded. -/
def FTries : List (FCmd V) → List Bool → List (Value V) → List (Value V) → Prop
  | [], [], vs, vs' => vs' = vs
  | c :: cs, true :: bs, vs, vs' => ∃ vs1, FCmd.Effect vs c vs1 ∧ FTries cs bs vs1 vs'
  | c :: cs, false :: bs, vs, vs' => ∃ vs1, FCmd.Fails vs c vs1 ∧ FTries cs bs vs1 vs'
  | _, _, _, _ => False

/-- Each operation is `Good`, given which of those before it succeeded. -/
def FGoods : List (FCmd V) → List Bool → List (Value V) → Prop
  | c :: cs, b :: bs, vs => FCmd.Good vs c ∧ ∀ vs1, (if b then FCmd.Effect vs c vs1 else FCmd.Fails vs c vs1) → FGoods cs bs vs1
  | _, _, _ => True

/-- As `restores`, for these operations. -/
def frestores : FCmd V → Bool
  | .cmd c => restores c
  | _ => false

end Ra.Spec

namespace Ra.Props
open Spec

section
variable {V : Type}

theorem create_free {rk : Option Nat} {o : Option Int} {fill : Nat → V} {s : List Nat} {a : Arr} {μ μ' : Mem V} (h : Arr.create rk o fill (s.map Nat.cast) μ = (.ok a, μ')) (hn : size s ≠ 0) :
    ∃ b, o = some b ∧ Free μ b (size s) := by
  unfold Arr.create at h
  split at h
  · simp at h
  · next n a1 hf =>
    obtain ⟨t, h1, h2, h3, h4, h5, h6, h7, h8⟩ := fill_ok hf
    simp only at h5 h6 h7
    have : t = s := (List.map_injective_iff.mpr Nat.cast_injective h1).symm
    subst this
    unfold storeResize at h
    split at h
    · rw [if_neg (by omega), if_neg (by omega)] at h
      cases o with
      | none => simp at h
      | some b =>
        refine ⟨b, rfl, ?_⟩
        simp only at h
        split at h
        · next hs =>
          split at hs
          · next hff =>
            intro i hi
            have := List.all_eq_true.mp hff i (by simp; omega)
            simp only [h7, Bool.or_eq_true, Option.isNone_iff_eq_none, Bool.and_eq_true, decide_eq_true_eq] at this
            rcases this with this | this
            · exact this
            · omega
          · simp at hs
        · simp at h
    · simp at h

theorem create_fails {rk : Option Nat} {o : Option Int} {fill : Nat → V} {s : List Int} {f : Fault} {μ μ' : Mem V} (h : Arr.create rk o fill s μ = (.error f, μ')) : μ' = μ := by
  unfold Arr.create at h
  split at h
  · simp only [Prod.mk.injEq] at h; exact h.2.symm
  · split at h
    · split at h
      · simp at h
      · simp only [Prod.mk.injEq] at h; exact h.2.symm
    · simp only [Prod.mk.injEq] at h; exact h.2.symm

/-- The expression can't be made into an array, or there's no memory; or it's made. -/
theorem make_any {μ0 μ : Mem V} {as : List Arr} {vs : List (Value V)} (h : Same μ0 as vs μ) (dyn : Bool) (z : List Int) (hz : ∀ i ∈ z, i = 0) (rk : Option Nat) (o : Option Int) (fill : Nat → V)
    (e : FExp V) (hg : FExp.Good vs e) :
    (∃ f, fmake dyn z as rk o fill e μ = (.error f, μ)) ∨ ∃ a μ' vs', fmake dyn z as rk o fill e μ = (.ok a, μ') ∧ FMakes vs rk e vs' ∧ Same μ0 (as ++ [a]) vs' μ' := by
  by_cases hn : ∃ vs', FMakes vs rk e vs'
  · obtain ⟨vs', e', s, xs, a1, a2, a3, a4, rfl⟩ := hn
    obtain ⟨g1, g2⟩ := same_make h dyn z hz rk o fill e e' s xs a1 a2 a4
    cases hc : Arr.create rk o fill (s.map Nat.cast) μ with
    | mk r μ1 =>
      cases r with
      | error f =>
        have := create_fails hc
        subst this
        exact .inl ⟨f, make_error h dyn z hz rk o fill e e' s a1 a2 f _ hc⟩
      | ok a =>
        obtain ⟨μ', hm⟩ := g2 a μ1 hc
        exact .inr ⟨a, μ', _, hm, ⟨e', s, xs, a1, a2, a3, a4, rfl⟩, g1 a μ' hm⟩
  · left
    by_cases hx : ∃ e', ∃ s : List Nat, FExp.Reduced vs e e' ∧ FExp.Shape vs e' (s.map some)
    · obtain ⟨e', s, h1, h2⟩ := hx
      cases hc : Arr.create rk o fill (s.map Nat.cast) μ with
      | mk r μ1 =>
        cases r with
        | error f =>
          have := create_fails hc
          subst this
          exact ⟨f, make_error h dyn z hz rk o fill e e' s h1 h2 f _ hc⟩
        | ok a =>
          refine ⟨.check, never_make h dyn z hz rk o fill e hg (fun e2 s2 k1 k2 hs => ?_) hn⟩
          have := reduced_unique e _ _ k1 h1
          subst this
          have hs' : s2 = s := (List.map_injective_iff.mpr fun a b h => by simpa using h) (shape_unique _ _ _ k2 h2)
          subst hs'
          exact create_free hc hs
    · exact ⟨.check, never_make h dyn z hz rk o fill e hg (fun e2 s2 k1 k2 _ => absurd ⟨e2, s2, k1, k2⟩ hx) hn⟩

theorem fassign_any {μ0 μ : Mem V} {as : List Arr} {vs : List (Value V)} (h : Same μ0 as vs μ) (dyn : Bool) (z : List Int) (hz : ∀ i ∈ z, i = 0) (f : V → V → V) (d e : FExp V) (hp : FExp.Places d)
    (hd : FExp.Good vs d) (he : FExp.Good vs e) (op : List (Lv V) → Act V (Lv V))
    (hop : ∀ (μ : Mem V) d x p v y, Refers μ d p → Reads μ x v → μ p = some y → mapOp op [d, x] μ = (.ok (.ref p), μ.upd p (f y v))) :
    ∃ μ' vs', Same μ0 as vs' μ' ∧ ((FAssigns f vs d e vs' ∧ fassign dyn z as op d e μ = (.ok (), μ')) ∨ (FFails f vs d e vs' ∧ fassign dyn z as op d e μ = (.error .check, μ'))) := by
  by_cases hn : ∃ d' e' s, Prepared vs d e d' e' s
  · obtain ⟨d', e', s, hpr⟩ := hn
    cases hl : floop f d' e' (rowMajor s) vs with
    | mk vs' b =>
      obtain ⟨μ', h1, h2⟩ := same_fassign dyn z hz f d e d' e' hp s op hop h hpr vs' b hl
      refine ⟨μ', vs', h2, ?_⟩
      cases b with
      | true => exact .inl ⟨⟨hp, d', e', s, hpr, hl⟩, h1⟩
      | false => exact .inr ⟨.inr ⟨d', e', s, hpr, hl⟩, h1⟩
  · exact ⟨μ, vs, h, .inr ⟨.inl ⟨hn, rfl⟩, never_fassign dyn z hz d e op h hd he hn⟩⟩

/-- What an operation does, whether it fails or not. -/
theorem fstep_any {μ0 μ μ' : Mem V} {as as' : List Arr} {vs : List (Value V)} (h : Same μ0 as vs μ) (dyn : Bool) (z : List Int) (hz : ∀ i ∈ z, i = 0) (c : FCmd V) (hr : ∀ p, c ≠ .cmd (.op (.run p)))
    (hg : FCmd.Good vs c) {r : Except Fault Unit} (hs : c.step dyn z as μ = (r, as', μ')) :
    (r = .ok () → ∃ vs', FCmd.Effect vs c vs' ∧ Same μ0 as' vs' μ') ∧ ((r = .error .check ∨ r = .error .alloc) → frestores c = false → ∃ vs', FCmd.Fails vs c vs' ∧ Same μ0 as' vs' μ') := by
  have hass : ∀ f d e op, FExp.Places d ∧ FExp.Good vs d ∧ FExp.Good vs e →
      (∀ (μ : Mem V) d x p v y, Refers μ d p → Reads μ x v → μ p = some y → mapOp op [d, x] μ = (.ok (.ref p), μ.upd p (f y v))) →
      ((fassign dyn z as op d e μ).1, as, (fassign dyn z as op d e μ).2) = (r, as', μ') →
      (r = .ok () → ∃ vs', FAssigns f vs d e vs' ∧ Same μ0 as' vs' μ') ∧ ((r = .error .check ∨ r = .error .alloc) → ∃ vs', FFails f vs d e vs' ∧ Same μ0 as' vs' μ') := by
    intro f d e op ⟨hp, hd, he⟩ hop heq
    obtain ⟨μ1, vs', h1, h2⟩ := fassign_any h dyn z hz f d e hp hd he op hop
    rcases h2 with ⟨h2, h3⟩ | ⟨h2, h3⟩ <;> rw [h3] at heq <;> simp only [Prod.mk.injEq] at heq <;> obtain ⟨rfl, rfl, rfl⟩ := heq
    · exact ⟨fun _ => ⟨vs', h2, h1⟩, by simp⟩
    · exact ⟨nofun, fun _ => ⟨vs', h2, h1⟩⟩
  cases c with
  | cmd c =>
    constructor
    · rintro rfl
      exact step_same dyn z hz c (fun p hp => hr p (by rw [hp])) h hs
    · intro he hc
      have : ∃ e, r = .error e := by rcases he with rfl | rfl <;> exact ⟨_, rfl⟩
      obtain ⟨e, rfl⟩ := this
      obtain ⟨rfl, rfl, h3⟩ := step_caught dyn z hz c (fun p hp => hr p (by rw [hp])) h hs hc
      refine ⟨vs, ⟨?_, rfl⟩, h⟩
      rcases h3 with h3 | h3
      · cases c with
        | op o => exact .inl ⟨o, rfl⟩
        | _ => simp [aboutArrays] at h3
      · exact .inr h3
  | assign d e =>
    obtain ⟨h1, h2⟩ := hass (fun _ x => x) d e setOp hg (fun μ d x p v y h1 h2 h3 => set_run h1 h2 (by simp [h3])) hs
    exact ⟨h1, fun hr _ => h2 hr⟩
  | update f d e =>
    obtain ⟨h1, h2⟩ := hass f d e (updOp f) hg (fun μ d x p v y h1 h2 h3 => upd_run f h1 h2 h3) hs
    exact ⟨h1, fun hr _ => h2 hr⟩
  | make rk o fill e =>
    simp only [FCmd.step] at hs
    rcases make_any h dyn z hz rk o fill e hg with ⟨f, h1⟩ | ⟨a, μ1, vs', h1, h2, h3⟩ <;> rw [h1] at hs <;> simp only [Prod.mk.injEq] at hs <;> obtain ⟨rfl, rfl, rfl⟩ := hs
    · exact ⟨nofun, fun _ _ => ⟨vs, rfl, h⟩⟩
    · exact ⟨fun _ => ⟨vs', h2, h3⟩, by simp⟩

theorem fcaught_same {μ0 μ μ' : Mem V} {as as' : List Arr} {vs : List (Value V)} (dyn : Bool) (z : List Int) (hz : ∀ i ∈ z, i = 0) (cs : List (FCmd V)) (hr : ∀ p, FCmd.cmd (.op (.run p)) ∉ cs)
    (bs : List Bool) (h : Same μ0 as vs μ) (hs : fcaught dyn z cs as μ = (.ok bs, as', μ')) (hc : ∀ c, (c, false) ∈ cs.zip bs → frestores c = false) (hg : FGoods cs bs vs) :
    ∃ vs', FTries cs bs vs vs' ∧ Same μ0 as' vs' μ' := by
  induction cs generalizing as vs μ bs with
  | nil =>
    simp only [fcaught, Prod.mk.injEq, Except.ok.injEq] at hs
    obtain ⟨rfl, rfl, rfl⟩ := hs
    exact ⟨vs, rfl, h⟩
  | cons c cs ih =>
    have hbad : ∀ {e : Fault} {as1 : List Arr} {μ1 : Mem V}, e = .check ∨ e = .alloc → c.step dyn z as μ = (.error e, as1, μ1) → (fcaught dyn z cs as1 μ1).1.map (false :: ·) = .ok bs →
        (fcaught dyn z cs as1 μ1).2 = (as', μ') → ∃ vs', FTries (c :: cs) bs vs vs' ∧ Same μ0 as' vs' μ' := by
      intro e as1 μ1 he h1 h2 h3
      cases hx : fcaught dyn z cs as1 μ1 with
      | mk r q =>
        rw [hx] at h2 h3
        simp only at h2 h3
        subst h3
        cases r with
        | error _ => simp [Except.map] at h2
        | ok b =>
          simp only [Except.map, Except.ok.injEq] at h2
          subst h2
          obtain ⟨vs1, h4, h5⟩ := (fstep_any h dyn z hz c (fun p hp => hr p (by simp [hp])) hg.1 h1).2 (by rcases he with rfl | rfl <;> simp) (hc c (by simp))
          obtain ⟨vs', h6, h7⟩ := ih (fun p hp => hr p (by simp [hp])) b h5 hx (fun c' hc' => hc c' (by simp [hc'])) (hg.2 vs1 h4)
          exact ⟨vs', ⟨vs1, h4, h6⟩, h7⟩
    simp only [fcaught] at hs
    split at hs
    · next as1 μ1 h1 =>
      simp only [Prod.mk.injEq] at hs
      obtain ⟨g1, g2⟩ := hs
      cases hx : fcaught dyn z cs as1 μ1 with
      | mk r q =>
        rw [hx] at g1 g2
        simp only at g1 g2
        subst g2
        cases r with
        | error _ => simp [Except.map] at g1
        | ok b =>
          simp only [Except.map, Except.ok.injEq] at g1
          subst g1
          obtain ⟨vs1, h4, h5⟩ := (fstep_any h dyn z hz c (fun p hp => hr p (by simp [hp])) hg.1 h1).1 rfl
          obtain ⟨vs', h6, h7⟩ := ih (fun p hp => hr p (by simp [hp])) b h5 hx (fun c' hc' => hc c' (by simp [hc'])) (hg.2 vs1 h4)
          exact ⟨vs', ⟨vs1, h4, h6⟩, h7⟩
    · next as1 μ1 h1 =>
      simp only [Prod.mk.injEq] at hs
      exact hbad (.inl rfl) h1 hs.1 hs.2
    · next as1 μ1 h1 =>
      simp only [Prod.mk.injEq] at hs
      exact hbad (.inr rfl) h1 hs.1 hs.2
    · simp at hs

/-- C81 for programs with any expressions. If none of the operations that failed is one that resizes or copies, then the arrays have the values that the operations give on values, where those that failed
have had no effect, other than that an assignment that failed because there was nothing to select, or because of an array subscript, has assigned the elements before that. Assignments only fail if they
have no effect otherwise. -/
theorem C81_full_partial (dyn : Bool) (z : List Int) (hz : ∀ i ∈ z, i = 0) (cs : List (FCmd V)) (hr : ∀ p, FCmd.cmd (.op (.run p)) ∉ cs) (bs : List Bool) (as : List Arr) (μ0 μ : Mem V)
    (hs : fcaught dyn z cs [] μ0 = (.ok bs, as, μ)) (hc : ∀ c, (c, false) ∈ cs.zip bs → frestores c = false) (hg : FGoods cs bs []) :
    ∃ vs, FTries cs bs [] vs ∧ List.Forall₂ (Represents μ) as vs ∧ ∀ p, (μ0 p).isSome → μ p = μ0 p := by
  obtain ⟨vs, h1, h2⟩ := fcaught_same dyn z hz cs hr bs (same_start μ0) hs hc hg
  exact ⟨vs, h1, same_represents h2⟩

theorem ffails_unique {f : V → V → V} {vs vs1 vs2 : List (Value V)} {d e : FExp V} (h1 : FFails f vs d e vs1) (h2 : FFails f vs d e vs2) : vs1 = vs2 := by
  rcases h1 with ⟨a1, rfl⟩ | ⟨d1, e1, s1, a1, b1⟩ <;> rcases h2 with ⟨a2, rfl⟩ | ⟨d2, e2, s2, a2, b2⟩
  · rfl
  · exact absurd ⟨_, _, _, a2⟩ a1
  · exact absurd ⟨_, _, _, a1⟩ a2
  · obtain ⟨rfl, rfl, rfl⟩ := prepared_unique a1 a2
    rw [b1] at b2
    exact (Prod.mk.inj b2).1

/-- C81. There's only one such effect. -/
theorem C81_full_unique (cs : List (FCmd V)) (bs : List Bool) (vs vs1 vs2 : List (Value V)) (h1 : FTries cs bs vs vs1) (h2 : FTries cs bs vs vs2) : vs1 = vs2 := by
  induction cs generalizing bs vs with
  | nil =>
    cases bs with
    | nil => rw [show vs1 = vs from h1, show vs2 = vs from h2]
    | cons b bs => cases h1
  | cons c cs ih =>
    match bs with
    | [] => cases h1
    | true :: bs =>
      obtain ⟨v1, a1, b1⟩ := h1
      obtain ⟨v2, a2, b2⟩ := h2
      have := (C92_unique [c] vs v1 v2 ⟨v1, a1, rfl⟩).1 ⟨v2, a2, rfl⟩
      subst this
      exact ih bs v1 b1 b2
    | false :: bs =>
      obtain ⟨v1, a1, b1⟩ := h1
      obtain ⟨v2, a2, b2⟩ := h2
      have : v1 = v2 := by
        cases c with
        | cmd c => rw [a1.2, a2.2]
        | assign d e => exact ffails_unique a1 a2
        | update f d e => exact ffails_unique a1 a2
        | make rk o fill e => rw [show v1 = vs from a1, show v2 = vs from a2]
      subst this
      exact ih bs v1 b1 b2

theorem fprogram_defined {μ0 μ μ' : Mem V} {as as' : List Arr} {vs : List (Value V)} (dyn : Bool) (z : List Int) (hz : ∀ i ∈ z, i = 0) (cs : List (FCmd V)) (hr : ∀ p, FCmd.cmd (.op (.run p)) ∉ cs)
    (h : Same μ0 as vs μ) (hs : fprogram dyn z cs as μ = (.ok (), as', μ')) (hg : FGoods cs (List.replicate cs.length true) vs) : ∃ vs', FEffects cs vs vs' ∧ Same μ0 as' vs' μ' := by
  induction cs generalizing as vs μ with
  | nil =>
    simp only [fprogram, Prod.mk.injEq, true_and] at hs
    obtain ⟨rfl, rfl⟩ := hs
    exact ⟨vs, rfl, h⟩
  | cons c cs ih =>
    simp only [fprogram] at hs
    split at hs
    · next as1 μ1 h1 =>
      obtain ⟨vs1, h4, h5⟩ := (fstep_any h dyn z hz c (fun p hp => hr p (by simp [hp])) hg.1 h1).1 rfl
      obtain ⟨vs', h6, h7⟩ := ih (fun p hp => hr p (by simp [hp])) h5 hs (hg.2 vs1 (by simpa using h4))
      exact ⟨vs', ⟨vs1, h4, h6⟩, h7⟩
    · simp at hs

/-- C92. If a program runs, then there's such a program on values. -/
theorem C92_defined (dyn : Bool) (z : List Int) (hz : ∀ i ∈ z, i = 0) (cs : List (FCmd V)) (hr : ∀ p, FCmd.cmd (.op (.run p)) ∉ cs) (as : List Arr)
    (μ0 μ : Mem V) (hs : fprogram dyn z cs [] μ0 = (.ok (), as, μ)) (hg : FGoods cs (List.replicate cs.length true) []) :
    ∃ vs, FEffects cs [] vs ∧ List.Forall₂ (Represents μ) as vs ∧ ∀ p, (μ0 p).isSome → μ p = μ0 p := by
  obtain ⟨vs, h1, h2⟩ := fprogram_defined dyn z hz cs hr (same_start μ0) hs hg
  exact ⟨vs, h1, same_represents h2⟩

end

/-- `a(3 - i)` -/
def egFd : FExp Int := .gather inferInstance 0 [] [true] [.map (fun x => 3 - x.getD 0 0) [] [.view 1 []]]

/-- `a` of shape (3, 4) and `i` of shape (2), with elements 2, 0; then `a(3 - i) = 7`, that fails when it gets to the second subscript; `Array(i)` without memory; and `d = a(i, all)`. -/
def egFCaught : List (FCmd Int) := [.cmd (.op (.create none (some 0) (fun i => i) [3, 4])), .cmd (.op (.create (some 1) (some 20) (fun i => 2 - 2 * i) [2])),
  .assign egFd (.const 7), .make none none (fun _ => 0) (.view 1 []), .make (some 2) (some 40) (fun _ => 0) (.gather inferInstance 0 [] [true, false] [.view 1 []])]

/-- The values of the arrays before the assignment, and after. -/
def egFs0 : List (Value Int) := [⟨[3, 4], [0, 1, 2, 3, 4, 5, 6, 7, 8, 9, 10, 11]⟩, ⟨[2], [2, 0]⟩]
def egFs1 : List (Value Int) := [⟨[3, 4], [0, 1, 2, 3, 7, 7, 7, 7, 8, 9, 10, 11]⟩, ⟨[2], [2, 0]⟩]

theorem egFails : FFails (fun _ x => x) egFs0 egFd (.const 7) egFs1 := by
  refine .inr ⟨_, _, [2, 4], ⟨⟨_, ⟨_, _, ⟨_, ⟨_, _, rfl, rfl, rfl⟩, rfl⟩, rfl, rfl⟩, rfl⟩, rfl, [some 2, some 4], [],
    ⟨by simp, _, [3, 4], _, rfl, rfl, ⟨_, _, rfl, ⟨[[some 2]], ⟨_, _, rfl, ⟨_, rfl, rfl⟩, rfl⟩, merge_one _⟩, rfl⟩, rfl⟩, rfl, ?_⟩, by decide +kernel⟩
  exact merge_subs (by simp)

example : (fcaught true [] egFCaught [] noMem).1 = .ok [true, true, false, false, true] := by decide +kernel
example : ∀ p, FCmd.cmd (.op (.run p)) ∉ egFCaught := by simp [egFCaught]
example : ∀ c, (c, false) ∈ egFCaught.zip [true, true, false, false, true] → frestores c = false := by
  simp only [egFCaught, List.zip_cons_cons, List.mem_cons, Prod.mk.injEq]
  rintro c (h | h | h | h | h | h) <;> first | (obtain ⟨rfl, _⟩ := h; rfl) | cases h
example : FGoods egFCaught [true, true, false, false, true] [] := by
  refine ⟨trivial, fun vs1 h1 => ⟨trivial, fun vs2 h2 => ?_⟩⟩
  simp only [if_pos, FCmd.Effect, Cmd.effect, Option.some.injEq] at h1 h2
  subst h1
  have : vs2 = egFs0 := by rw [← h2]; decide +kernel
  subst this
  refine ⟨⟨trivial, ⟨by simp, ⟨⟨by simp, ⟨⟨_, rfl, _, rfl⟩, trivial⟩, by simp [Fit]⟩, trivial⟩, rfl, _, [3, 4], rfl, rfl, by simp⟩, trivial⟩, fun vs3 h3 => ?_⟩
  have := ffails_unique (show FFails _ _ _ _ vs3 by simpa [FCmd.Fails] using h3) egFails
  subst this
  refine ⟨⟨_, rfl, _, rfl⟩, fun vs4 h4 => ?_⟩
  have : vs4 = egFs1 := by simpa [FCmd.Fails] using h4
  subst this
  exact ⟨⟨by simp, ⟨⟨_, rfl, _, rfl⟩, trivial⟩, rfl, _, [3, 4], rfl, rfl, by simp⟩, fun _ _ => trivial⟩
example : FTries egFCaught [true, true, false, false, true] [] (egFs1 ++ [⟨[2, 4], [8, 9, 10, 11, 0, 1, 2, 3]⟩]) := by
  refine ⟨[⟨[3, 4], [0, 1, 2, 3, 4, 5, 6, 7, 8, 9, 10, 11]⟩], by simp only [FCmd.Effect]; decide +kernel, egFs0, by simp only [FCmd.Effect]; decide +kernel, egFs1, egFails, egFs1, rfl, _, ?_, rfl⟩
  exact ⟨_, [2, 4], _, ⟨_, ⟨_, _, rfl, rfl, rfl⟩, rfl⟩, ⟨by simp, _, [3, 4], _, rfl, rfl, ⟨_, _, rfl, ⟨_, rfl, rfl⟩, rfl⟩, rfl⟩, by simp, by decide +kernel, rfl⟩

end Ra.Props
