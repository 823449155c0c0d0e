import Verif.Spec.Safe
/-!
# C98: programs don't have undefined behaviour
-/

namespace Ra.Props
open Spec

/-! Views that fail. -/

theorem accepts_inBounds {dims : List Dim} {s : List Length} (hv : List.Forall₂ DimLen dims s) (js : List Subscript) (hs : none ∉ s) (hl : axes js ≤ s.length) (h : Accepts dims js) :
    inBounds s js = true := by
  induction js generalizing dims s with
  | nil => cases s <;> simp [inBounds]
  | cons j js ih =>
    cases j with
    | «at» i =>
      cases hv with
      | nil => simp [axes] at hl
      | @cons d o ds s hd hv =>
        cases o with
        | none => simp at hs
        | some n =>
          have hd : d.len = n := hd
          simp only [Accepts] at h
          simp only [inBounds, Bool.and_eq_true, decide_eq_true_eq]
          refine ⟨?_, ih hv (by simp at hs; exact hs) (by simp [axes] at hl; omega) h.2⟩
          have := UNB_val
          omega
    | range m o st =>
      cases hv with
      | nil => simp [axes] at hl
      | @cons d l ds s hd hv =>
        cases l with
        | none => simp at hs
        | some n =>
          have hd : d.len = n := hd
          simp only [Accepts] at h
          simp only [inBounds, Bool.and_eq_true, List.all_eq_true, List.mem_range, decide_eq_true_eq]
          refine ⟨by rw [← hd]; exact h.1, ih hv (by simp at hs; exact hs) (by simp [axes] at hl; omega) h.2⟩
    | keep k =>
      simp only [axes] at hl
      have h : Accepts (dims.drop k) js := by cases dims <;> simpa [Accepts] using h
      have := ih (List.forall₂_drop k hv) (fun hm => hs (List.mem_of_mem_drop hm)) (by simp; omega) h
      simp only [inBounds, Bool.and_eq_true, decide_eq_true_eq]
      exact ⟨by omega, this⟩
    | new k =>
      have h : Accepts dims js := by cases dims <;> simpa [Accepts] using h
      have := ih hv hs (by simpa [axes] using hl) h
      cases s with
      | nil => simpa [inBounds] using this
      | cons a s => cases a <;> simpa [inBounds] using this

/-- An operation that isn't allowed fails the check. -/
theorem op_fails (v : View) (s : List Length) (hv : Shaped v s) (op : ViewOp) (h : OpFails s op) : op.run v = .error .check := by
  have hl := hv.length_eq
  cases op with
  | slice is =>
    obtain ⟨js, h1, h2, h3, h4⟩ := h
    simp only [ViewOp.run]
    rw [subscripts_some h1]
    refine C11_reject v s hv js h2 fun ha => ?_
    rw [accepts_inBounds hv js h3 h2 ha] at h4
    cases h4
  | reverse k =>
    obtain ⟨h1, h2⟩ := h
    simp only [ViewOp.run]
    have := C19_unbounded v s hv k.toNat h2
    rwa [Int.toNat_of_nonneg h1] at this
  | transpose ax =>
    obtain ⟨h1, h2⟩ := h
    simp only [ViewOp.run]
    have : ax = (ax.map Int.toNat).map Nat.cast := by
      rw [List.map_map]
      conv => lhs; rw [← List.map_id ax]
      exact List.map_congr_left fun a ha => by simp [h1 a ha]
    rw [this]
    exact C20_reject v _ (by simp; omega)
  | stencil lo hi =>
    simp only [ViewOp.run]
    apply C24_reject
    rcases h with h | h | h | h | ⟨k, n, h1, h2⟩
    · exact .inl h
    · exact .inr (.inl h)
    · exact .inr (.inr (.inl (by omega)))
    · exact .inr (.inr (.inr (.inl (by omega))))
    · by_cases h3 : lo.length = v.dims.length ∧ hi.length = v.dims.length
      · obtain ⟨hk, he⟩ := List.getElem?_eq_some_iff.mp h1
        have hd : DimLen v.dims[k] s[k] := (List.forall₂_iff_get.mp hv).2 k (by omega) hk
        rw [he] at hd
        have hd : v.dims[k].len = n := hd
        refine .inr (.inr (.inr (.inr ⟨k, by omega, by omega, by omega, ?_⟩)))
        have e1 : k < lo.length := by omega
        have e2 : k < hi.length := by omega
        simp [List.getD, e1, e2] at h2
        omega
      · by_cases h4 : lo.length = v.dims.length
        · exact .inr (.inr (.inr (.inl fun h5 => h3 ⟨h4, h5⟩)))
        · exact .inr (.inr (.inl h4))
  | reshape t =>
    obtain ⟨s', t', h1, h2, h3, h4, h5⟩ := h
    obtain ⟨rfl, _⟩ := finite_some h1
    obtain ⟨rfl, _⟩ := naturals_some h2
    simp only [ViewOp.run]
    exact C21_reject v s' t' hv h3 h4 (.inl h5)
  | ravel => cases h

theorem ops_fail (ops : List ViewOp) (v : View) (s : List Length) (hv : Shaped v s) (whole : Bool) (hw : whole = true → RowMajorSteps v.dims) (h : OpsFail whole s ops) :
    runOps ops v = .error .check := by
  induction ops generalizing v s whole with
  | nil => cases h
  | cons op ops ih =>
    rcases h with h | ⟨t, h1, h2⟩
    · simp only [runOps, List.foldlM_cons, bind, Except.bind, op_fails v s hv op h]
    · obtain ⟨w, g1, g2, g3, _⟩ := op_ok v s t hv whole hw op h1
      simp only [runOps, List.foldlM_cons, bind, Except.bind, g1]
      exact ih w t g2 _ g3 h2

section
variable {V : Type}

/-- C98. Operations on a view of an array where one of them isn't allowed by the shape fail the check. -/
theorem C98_views (a : Arr) (μ : Mem V) (s : List Nat) (hc : Container a μ s) (ops : List ViewOp) (h : OpsFail true (s.map some) ops) : runOps ops a.view = .error .check :=
  ops_fail ops a.view _ (C30_elements a μ s hc).1 true (fun _ => hc.steps) h

theorem viewOf_fails {μ0 μ : Mem V} {as : List Arr} {vs : List (Value V)} (h : Same μ0 as vs μ) {i : Nat} {v : Value V} (hi : vs[i]? = some v) {ops : List ViewOp}
    (ho : OpsFail true (v.shape.map some) ops) : viewOf as i ops = .error .check := by
  have hlt : i < as.length := by rw [h.len]; exact (List.getElem?_eq_some_iff.mp hi).1
  have ha : as[i]? = some as[i] := by simp [hlt]
  simp only [viewOf, ha]
  exact C98_views _ μ _ (h.rep i _ _ ha hi).1 ops ho

/-! Expressions. -/

/-- The iterator for the expression can't be made, because a check fails. -/
def IterFails (as : List Arr) (e : FExp V) : Prop :=
  ∀ (m : Type → Type) [Monad m] [LawfulMonad m] [MonadFault m] [MonadLiftT (Act V) m], Ra.FExp.iter (m := m) as e = .error .check

def ItersFail (as : List Arr) (t : List (FExp V)) : Prop :=
  ∀ (m : Type → Type) [Monad m] [LawfulMonad m] [MonadFault m] [MonadLiftT (Act V) m], Ra.FExp.iters (m := m) as t = .error .check

/-- What comes of the reductions of an expression. -/
def Comes (dyn : Bool) (z : List Int) (as : List Arr) (vs : List (Value V)) (μ : Mem V) (e : FExp V) : Prop :=
  Ra.FExp.eager dyn z as e μ = (.error .check, μ) ∨ ∃ e', Ra.FExp.eager dyn z as e μ = (.ok e', μ) ∧ ((FExp.Good vs e ∧ FExp.Reduced vs e e') ∨ IterFails as e')

def Comess (dyn : Bool) (z : List Int) (as : List Arr) (vs : List (Value V)) (μ : Mem V) (t : List (FExp V)) : Prop :=
  Ra.FExp.eagers dyn z as t μ = (.error .check, μ) ∨ ∃ t', Ra.FExp.eagers dyn z as t μ = (.ok t', μ) ∧ ((FExp.Goods vs t ∧ FExp.Reduceds vs t t') ∨ ItersFail as t')

theorem comes_good {μ0 μ : Mem V} {as : List Arr} {vs : List (Value V)} (h : Same μ0 as vs μ) (dyn : Bool) (z : List Int) (hz : ∀ i ∈ z, i = 0) (e : FExp V) (hg : FExp.Good vs e) :
    Comes dyn z as vs μ e := by
  by_cases hr : ∃ e', FExp.Reduced vs e e'
  · obtain ⟨e', hr⟩ := hr
    exact .inr ⟨e', reduced_eager h dyn z hz e e' hr, .inl ⟨hg, hr⟩⟩
  · exact .inl (not_reduced h dyn z hz e hg hr)

mutual
theorem comes {μ0 μ : Mem V} {as : List Arr} {vs : List (Value V)} (h : Same μ0 as vs μ) (dyn : Bool) (z : List Int) (hz : ∀ i ∈ z, i = 0) : (e : FExp V) → FExp.Known vs e → Comes dyn z as vs μ e
  | .const x, _ => comes_good h dyn z hz _ (by simp [FExp.Good])
  | .index w f, _ => comes_good h dyn z hz _ (by simp [FExp.Good])
  | .iota n o s f, _ => comes_good h dyn z hz _ (by simp [FExp.Good])
  | .view i ops, ⟨v, h1, h2⟩ => by
    rcases h2 with h2 | h2
    · exact comes_good h dyn z hz _ ⟨v, h1, h2⟩
    · refine .inr ⟨.view i ops, by simp only [Ra.FExp.eager]; rfl, .inr fun m _ _ _ _ => ?_⟩
      simp only [Ra.FExp.iter, viewOf_fails h h1 h2, bind, Except.bind]
  | .gather n i ops mk t, ⟨hn, hk, hc, v, h1, h2⟩ => by
    rcases comess h dyn z hz t hk with h3 | ⟨t', h3, h4⟩
    · exact .inl (by simp only [Ra.FExp.eager]; rw [act_bind, h3])
    · have h5 : Ra.FExp.eager dyn z as (.gather n i ops mk t) μ = (.ok (.gather n i ops mk t'), μ) := by
        simp only [Ra.FExp.eager]; rw [act_bind_ok h3]; rfl
      rcases h2 with ⟨b, h2, h6⟩ | h2
      · rcases h4 with ⟨h4, h7⟩ | h4
        · exact .inr ⟨_, h5, .inl ⟨⟨hn, h4, hc, v, b, h1, h2, h6⟩, t', h7, rfl⟩⟩
        · refine .inr ⟨_, h5, .inr fun m _ _ _ _ => ?_⟩
          obtain ⟨w, hw⟩ : ∃ w, viewOf as i ops = .ok w := by
            have hlt : i < as.length := by rw [h.len]; exact (List.getElem?_eq_some_iff.mp h1).1
            have ha : as[i]? = some as[i] := by simp [hlt]
            obtain ⟨w, hw, _⟩ := C78_views _ μ _ (h.rep i _ _ ha h1).1 ops _ h2
            exact ⟨w, by simp only [viewOf, ha]; exact hw⟩
          simp only [Ra.FExp.iter, hw, h4 m, bind, Except.bind]
      · refine .inr ⟨_, h5, .inr fun m _ _ _ _ => ?_⟩
        simp only [Ra.FExp.iter, viewOf_fails h h1 h2, bind, Except.bind]
  | .map f cranks t, ⟨hn, hk, hf⟩ => by
    rcases comess h dyn z hz t hk with h3 | ⟨t', h3, h4⟩
    · exact .inl (by simp only [Ra.FExp.eager]; rw [act_bind, h3])
    · refine .inr ⟨.map f cranks t', by simp only [Ra.FExp.eager]; rw [act_bind_ok h3]; rfl, ?_⟩
      rcases h4 with ⟨h4, h7⟩ | h4
      · exact .inl ⟨⟨hn, h4, hf h4⟩, t', h7, rfl⟩
      · exact .inr fun m _ _ _ _ => by simp only [Ra.FExp.iter, h4 m, bind, Except.bind]
  | .pick sel t, ⟨hn, hk⟩ => by
    rcases comess h dyn z hz t hk with h3 | ⟨t', h3, h4⟩
    · exact .inl (by simp only [Ra.FExp.eager]; rw [act_bind, h3])
    · refine .inr ⟨.pick sel t', by simp only [Ra.FExp.eager]; rw [act_bind_ok h3]; rfl, ?_⟩
      rcases h4 with ⟨h4, h7⟩ | h4
      · exact .inl ⟨⟨hn, h4⟩, t', h7, rfl⟩
      · exact .inr fun m _ _ _ _ => by simp only [Ra.FExp.iter, h4 m, bind, Except.bind]
  | .fold f x0 e, hk => by
    simp only [FExp.Known] at hk
    rcases comes h dyn z hz e hk with h3 | ⟨e', h3, h4⟩
    · exact .inl (by simp only [Ra.FExp.eager]; rw [act_bind, h3])
    · rcases h4 with ⟨h4, _⟩ | h4
      · exact comes_good h dyn z hz _ (by simpa [FExp.Good] using h4)
      · left
        simp only [Ra.FExp.eager]
        rw [act_bind_ok h3, act_bind, h4 (StateT V (Act V))]
        rfl
theorem comess {μ0 μ : Mem V} {as : List Arr} {vs : List (Value V)} (h : Same μ0 as vs μ) (dyn : Bool) (z : List Int) (hz : ∀ i ∈ z, i = 0) : (t : List (FExp V)) → FExp.Knowns vs t →
    Comess dyn z as vs μ t
  | [], _ => .inr ⟨[], by simp only [Ra.FExp.eagers]; rfl, .inl ⟨by simp [FExp.Goods], by simp [FExp.Reduceds]⟩⟩
  | e :: t, ⟨he, ht⟩ => by
    rcases comes h dyn z hz e he with h1 | ⟨e', h1, h2⟩
    · exact .inl (by simp only [Ra.FExp.eagers]; rw [act_bind, h1])
    · rcases comess h dyn z hz t ht with h3 | ⟨t', h3, h4⟩
      · exact .inl (by simp only [Ra.FExp.eagers]; rw [act_bind_ok h1, act_bind, h3])
      · refine .inr ⟨e' :: t', by simp only [Ra.FExp.eagers]; rw [act_bind_ok h1, act_bind_ok h3]; rfl, ?_⟩
        rcases h2 with ⟨h2, h5⟩ | h2
        · rcases h4 with ⟨h4, h6⟩ | h4
          · exact .inl ⟨⟨h2, h4⟩, e', t', h5, h6, rfl⟩
          · refine .inr fun m _ _ _ _ => ?_
            obtain ⟨g1, g2, _⟩ := reduced_good e e' h2 h5
            obtain ⟨u, hu, _⟩ := fexp_good (m := m) h e' g1 g2
            simp only [Ra.FExp.iters, hu, h4 m, bind, Except.bind]
        · exact .inr fun m _ _ _ _ => by simp only [Ra.FExp.iters, h2 m, bind, Except.bind]
end

/-! Operations. -/

theorem fassign_unknown {μ0 μ : Mem V} {as : List Arr} {vs : List (Value V)} (h : Same μ0 as vs μ) (dyn : Bool) (z : List Int) (hz : ∀ i ∈ z, i = 0) (op : List (Lv V) → Act V (Lv V)) (d e : FExp V)
    (hd : FExp.Known vs d) (he : FExp.Known vs e) (hn : ¬ (FExp.Good vs d ∧ FExp.Good vs e)) : fassign dyn z as op d e μ = (.error .check, μ) := by
  simp only [fassign]
  rcases comes h dyn z hz d hd with h1 | ⟨d', h1, h2⟩
  · rw [act_bind, h1]
  rw [act_bind_ok h1]
  rcases comes h dyn z hz e he with h3 | ⟨e', h3, h4⟩
  · rw [act_bind, h3]
  rw [act_bind_ok h3]
  rcases h2 with ⟨h2, h5⟩ | h2
  · obtain ⟨g1, g2, _⟩ := reduced_good d d' h2 h5
    obtain ⟨u, hu, _⟩ := fexp_good (m := Act V) h d' g1 g2
    rw [hu, act_bind_ok (x := Act.lift (.ok u)) (μ' := μ) (a := u) rfl]
    rcases h4 with ⟨h4, _⟩ | h4
    · exact absurd ⟨h2, h4⟩ hn
    · rw [h4 (Act V)]
      rfl
  · rw [h2 (Act V)]
    rfl

theorem fmake_unknown {μ0 μ : Mem V} {as : List Arr} {vs : List (Value V)} (h : Same μ0 as vs μ) (dyn : Bool) (z : List Int) (hz : ∀ i ∈ z, i = 0) (rk : Option Nat) (o : Option Int) (fill : Nat → V)
    (e : FExp V) (he : FExp.Known vs e) (hn : ¬ FExp.Good vs e) : fmake dyn z as rk o fill e μ = (.error .check, μ) := by
  unfold fmake
  rcases comes h dyn z hz e he with h3 | ⟨e', h3, h4⟩
  · rw [act_bind, h3]
  rw [act_bind_ok h3]
  rcases h4 with ⟨h4, _⟩ | h4
  · exact absurd h4 hn
  · rw [h4 (Act V)]
    rfl

theorem storeResize_kind {o : Option Int} {fill : Nat → V} {n : Int} {a a' : Arr} {μ μ' : Mem V} {f : Fault} (h : storeResize o fill n a μ = (.error f, a', μ')) : f = .alloc ∧ μ' = μ := by
  unfold storeResize at h
  split at h
  · simp only [Prod.mk.injEq, Except.error.injEq] at h; exact ⟨h.1.symm, h.2.2.symm⟩
  · split at h
    · simp at h
    · split at h
      · simp only [Prod.mk.injEq, Except.error.injEq] at h; exact ⟨h.1.symm, h.2.2.symm⟩
      · split at h
        · simp at h
        · simp only [Prod.mk.injEq, Except.error.injEq] at h; exact ⟨h.1.symm, h.2.2.symm⟩

theorem fill_kind {a a' : Arr} {s : List Int} {f : Fault} (h : a.fill s = (.error f, a')) : f = .check := by
  unfold Arr.fill at h
  split at h
  · simp only [Prod.mk.injEq, Except.error.injEq] at h; exact h.1.symm
  · simp only [Prod.mk.injEq] at h
    exact fillSteps_error (Prod.ext h.1 rfl)

theorem create_kind {rk : Option Nat} {o : Option Int} {fill : Nat → V} {s : List Int} {f : Fault} {μ μ' : Mem V} (h : Arr.create rk o fill s μ = (.error f, μ')) :
    (f = .check ∨ f = .alloc) ∧ μ' = μ := by
  refine ⟨?_, create_fails h⟩
  unfold Arr.create at h
  split at h
  · next e a he =>
    simp only [Prod.mk.injEq, Except.error.injEq] at h
    exact .inl (by rw [← h.1]; exact fill_kind he)
  · split at h
    · split at h
      · simp at h
      · next e a μ1 he =>
        simp only [Prod.mk.injEq, Except.error.injEq] at h
        exact .inr (by rw [← h.1]; exact (storeResize_kind he).1)
    · simp only [Prod.mk.injEq, Except.error.injEq] at h
      exact .inl h.1.symm

/-- As `make_any`, with how it fails. -/
theorem make_kind {μ0 μ : Mem V} {as : List Arr} {vs : List (Value V)} (h : Same μ0 as vs μ) (dyn : Bool) (z : List Int) (hz : ∀ i ∈ z, i = 0) (rk : Option Nat) (o : Option Int) (fill : Nat → V)
    (e : FExp V) (hg : FExp.Good vs e) {f : Fault} {μ' : Mem V} (hm : fmake dyn z as rk o fill e μ = (.error f, μ')) : (f = .check ∨ f = .alloc) ∧ μ' = μ := by
  by_cases hx : ∃ e', ∃ s : List Nat, FExp.Reduced vs e e' ∧ FExp.Shape vs e' (s.map some)
  · obtain ⟨e', s, h1, h2⟩ := hx
    cases hc : Arr.create rk o fill (s.map Nat.cast) μ with
    | mk r μ1 =>
      cases r with
      | error g =>
        rw [make_error h dyn z hz rk o fill e e' s h1 h2 g _ hc] at hm
        simp only [Prod.mk.injEq, Except.error.injEq] at hm
        obtain ⟨rfl, rfl⟩ := hm
        exact create_kind hc
      | ok a =>
        by_cases hn : ∃ vs', FMakes vs rk e vs'
        · obtain ⟨vs', e2, s2, xs, a1, a2, a3, a4, rfl⟩ := hn
          have := reduced_unique e _ _ a1 h1
          subst this
          have hs' : s2 = s := (List.map_injective_iff.mpr fun a b h => by simpa using h) (shape_unique _ _ _ a2 h2)
          subst hs'
          obtain ⟨_, g2⟩ := same_make h dyn z hz rk o fill e e2 s2 xs a1 a2 a4
          obtain ⟨μ2, hm2⟩ := g2 a μ1 hc
          rw [hm2] at hm
          simp at hm
        · rw [never_make h dyn z hz rk o fill e hg (fun e2 s2 k1 k2 hs => ?_) hn] at hm
          · simp only [Prod.mk.injEq, Except.error.injEq] at hm
            exact ⟨.inl hm.1.symm, hm.2.symm⟩
          · have := reduced_unique e _ _ k1 h1
            subst this
            have hs' : s2 = s := (List.map_injective_iff.mpr fun a b h => by simpa using h) (shape_unique _ _ _ k2 h2)
            subst hs'
            exact create_free hc hs
  · rw [never_make h dyn z hz rk o fill e hg (fun e2 s2 k1 k2 _ => absurd ⟨e2, s2, k1, k2⟩ hx)
      (fun ⟨_, e2, s2, _, k1, k2, _⟩ => hx ⟨e2, s2, k1, k2⟩)] at hm
    simp only [Prod.mk.injEq, Except.error.injEq] at hm
    exact ⟨.inl hm.1.symm, hm.2.symm⟩

/-- How an operation on containers fails. -/
theorem cmd_kind {μ0 μ μ' : Mem V} {as as' : List Arr} {vs : List (Value V)} (dyn : Bool) (z : List Int) (hz : ∀ i ∈ z, i = 0) (c : Cmd V) (hr : ∀ p, c ≠ .op (.run p))
    (h : Same μ0 as vs μ) {e : Fault} (hs : c.step dyn z as μ = (.error e, as', μ')) : (e = .check ∨ e = .alloc ∨ e = .abort) ∧ μ' = μ := by
  have hon : ∀ i (f : Arr → Mem V → Except Fault Unit × Arr × Mem V), onArr i f as μ = (.error e, as', μ') →
      (∀ a v, as[i]? = some a → Rep μ a v → ∀ g a1 μ1, f a μ = (.error g, a1, μ1) → (g = .check ∨ g = .alloc ∨ g = .abort) ∧ μ1 = μ) → (e = .check ∨ e = .alloc ∨ e = .abort) ∧ μ' = μ := by
    intro i f hf hk
    unfold onArr at hf
    split at hf
    · next a ha =>
      simp only [Prod.mk.injEq] at hf
      obtain ⟨v, hv, hrv⟩ := h.get ha
      exact hk a v ha hrv e _ _ (by rw [← hf.1, ← hf.2.2])
    · simp only [Prod.mk.injEq, Except.error.injEq] at hf
      exact ⟨.inr (.inr hf.1.symm), hf.2.2.symm⟩
  by_cases ho : ∀ o, c ≠ .op o
  · have := same_fails dyn z hz c ho h
    split at this
    · obtain ⟨μ1, h1⟩ := this
      rw [h1] at hs
      simp at hs
    · obtain ⟨f, h1, h2⟩ := this
      rw [h1] at hs
      simp only [Prod.mk.injEq, Except.error.injEq] at hs
      obtain ⟨rfl, _, rfl⟩ := hs
      exact ⟨by tauto, rfl⟩
  · push Not at ho
    obtain ⟨o, rfl⟩ := ho
    simp only [Cmd.step] at hs
    cases o with
    | default rk =>
      simp only [Op.step] at hs
      split at hs
      · simp only [Prod.mk.injEq, Except.error.injEq] at hs
        exact ⟨.inr (.inr hs.1.symm), hs.2.2.symm⟩
      · simp at hs
    | create rk o fill s =>
      simp only [Op.step] at hs
      split at hs
      · simp at hs
      · next e' μ1 h1 =>
        simp only [Prod.mk.injEq, Except.error.injEq] at hs
        obtain ⟨rfl, _, rfl⟩ := hs
        obtain ⟨k1, k2⟩ := create_kind h1
        exact ⟨by tauto, k2⟩
    | resize i o fill n =>
      refine hon i _ hs fun a v _ _ g a1 μ1 hf => ?_
      unfold Arr.resize at hf
      split at hf
      · simp only [Prod.mk.injEq, Except.error.injEq] at hf
        exact ⟨.inl hf.1.symm, hf.2.2.symm⟩
      · obtain ⟨k1, k2⟩ := storeResize_kind hf
        exact ⟨.inr (.inl k1), k2⟩
    | resizeShape i o fill s =>
      refine hon i _ hs fun a v _ _ g a1 μ1 hf => ?_
      unfold Arr.resizeShape at hf
      split at hf
      · next he =>
        simp only [Prod.mk.injEq, Except.error.injEq] at hf
        exact ⟨.inl (by rw [← hf.1]; exact fill_kind he), hf.2.2.symm⟩
      · obtain ⟨k1, k2⟩ := storeResize_kind hf
        exact ⟨.inr (.inl k1), k2⟩
    | pushBack i o t =>
      refine hon i _ hs fun a v _ _ g a1 μ1 hf => ?_
      unfold Arr.pushBack at hf
      split at hf
      · split at hf
        · simp at hf
        · next he =>
          simp only [Prod.mk.injEq, Except.error.injEq] at hf
          obtain ⟨k1, k2⟩ := storeResize_kind he
          exact ⟨.inr (.inl (by rw [← hf.1]; exact k1)), by rw [← hf.2.2]; exact k2⟩
      · simp only [Prod.mk.injEq, Except.error.injEq] at hf
        exact ⟨.inl hf.1.symm, hf.2.2.symm⟩
    | popBack i =>
      refine hon i _ hs fun a v _ hrv g a1 μ1 hf => ?_
      unfold Arr.popBack at hf
      split at hf
      · next d hd =>
        split at hf
        · next hpos =>
          simp only at hf
          split at hf
          · next hn =>
            exfalso
            have hl := hrv.1.lens
            have hcnt := hrv.1.count
            rw [hd] at hl
            generalize v.shape = sh at hl hcnt
            obtain _ | ⟨m, _ | ⟨_, _⟩⟩ := sh
            · simp at hl
            · simp only [List.map_cons, List.map_nil, List.cons.injEq, and_true] at hl
              simp only [size, Nat.mul_one] at hcnt
              omega
            · simp at hl
          · simp at hf
        · simp only [Prod.mk.injEq, Except.error.injEq] at hf
          exact ⟨.inl hf.1.symm, hf.2.2.symm⟩
      · simp only [Prod.mk.injEq, Except.error.injEq] at hf
        exact ⟨.inl hf.1.symm, hf.2.2.symm⟩
    | copy i j o =>
      simp only [Op.step] at hs
      split at hs
      · next b hb =>
        split at hs
        · simp at hs
        · refine hon i _ hs fun a v _ _ g a1 μ1 hf => ?_
          split at hf
          · unfold Arr.copyFrom at hf
            simp only at hf
            split at hf
            · simp only [Prod.mk.injEq, Except.error.injEq] at hf
              exact ⟨.inr (.inl hf.1.symm), hf.2.2.symm⟩
            · split at hf
              · simp at hf
              · simp only [Prod.mk.injEq, Except.error.injEq] at hf
                exact ⟨.inr (.inl hf.1.symm), hf.2.2.symm⟩
          · simp only [Prod.mk.injEq, Except.error.injEq] at hf
            exact ⟨.inr (.inr hf.1.symm), hf.2.2.symm⟩
      · simp only [Prod.mk.injEq, Except.error.injEq] at hs
        exact ⟨.inr (.inr hs.1.symm), hs.2.2.symm⟩
    | swap i j =>
      simp only [Op.step] at hs
      split at hs
      · next a b ha hb =>
        split at hs
        · simp at hs
        · simp only [Prod.mk.injEq] at hs
          refine ⟨?_, hs.2.2.symm⟩
          have hk := hs.1
          have hsd : ∀ x y g, swapDims x y = .error g → g = .check := by
            intro x y g hg
            simp only [swapDims] at hg
            split at hg
            · simpa using hg.symm
            · simp at hg
          simp only [Arr.swap] at hk
          split at hk
          · next g hg =>
            simp only [Except.error.injEq] at hk
            subst hk
            split at hg
            · split at hg
              · simp at hg
              · simp only [Except.error.injEq] at hg
                exact .inr (.inr hg.symm)
            · split at hg
              · simp only [Except.error.injEq] at hg
                exact .inl hg.symm
              · split at hg
                · exact .inl (hsd _ _ _ hg)
                · simp only [bind, Except.bind] at hg
                  split at hg
                  · next g' hg' =>
                    simp only [Except.error.injEq] at hg
                    subst hg
                    exact .inl (hsd _ _ _ hg')
                  · simp [pure, Except.pure] at hg
          · simp at hk
      · simp only [Prod.mk.injEq, Except.error.injEq] at hs
        exact ⟨.inr (.inr hs.1.symm), hs.2.2.symm⟩
    | run p => exact absurd rfl (hr p)

theorem fassign_known {μ0 μ : Mem V} {as : List Arr} {vs : List (Value V)} (h : Same μ0 as vs μ) (dyn : Bool) (z : List Int) (hz : ∀ i ∈ z, i = 0) (f : V → V → V) (d e : FExp V) (hp : FExp.Places d)
    (hd : FExp.Known vs d) (he : FExp.Known vs e) (op : List (Lv V) → Act V (Lv V))
    (hop : ∀ (μ : Mem V) d x p v y, Refers μ d p → Reads μ x v → μ p = some y → mapOp op [d, x] μ = (.ok (.ref p), μ.upd p (f y v))) :
    ∃ μ' vs', Same μ0 as vs' μ' ∧ ((FAssigns f vs d e vs' ∧ fassign dyn z as op d e μ = (.ok (), μ')) ∨ (FFails f vs d e vs' ∧ fassign dyn z as op d e μ = (.error .check, μ'))) := by
  by_cases hn : ∃ d' e' s, Prepared vs d e d' e' s
  · obtain ⟨d', e', s, hpr⟩ := hn
    cases hl : floop f d' e' (rowMajor s) vs with
    | mk vs' b =>
      obtain ⟨μ', h1, h2⟩ := same_fassign dyn z hz f d e d' e' hp s op hop h hpr vs' b hl
      refine ⟨μ', vs', h2, ?_⟩
      cases b with
      | true => exact .inl ⟨⟨hp, d', e', s, hpr, hl⟩, h1⟩
      | false => exact .inr ⟨.inr ⟨d', e', s, hpr, hl⟩, h1⟩
  · refine ⟨μ, vs, h, .inr ⟨.inl ⟨hn, rfl⟩, ?_⟩⟩
    by_cases hg : FExp.Good vs d ∧ FExp.Good vs e
    · exact never_fassign dyn z hz d e op h hg.1 hg.2 hn
    · exact fassign_unknown h dyn z hz op d e hd he hg

/-- What an operation does, when there may be views that aren't allowed. -/
theorem fstep_known {μ0 μ μ' : Mem V} {as as' : List Arr} {vs : List (Value V)} (h : Same μ0 as vs μ) (dyn : Bool) (z : List Int) (hz : ∀ i ∈ z, i = 0) (c : FCmd V) (hr : ∀ p, c ≠ .cmd (.op (.run p)))
    (hg : FCmd.Known vs c) {r : Except Fault Unit} (hs : c.step dyn z as μ = (r, as', μ')) :
    (r = .ok () ∧ ∃ vs', FCmd.Effect vs c vs' ∧ Same μ0 as' vs' μ') ∨
      ((r = .error .check ∨ r = .error .alloc ∨ r = .error .abort) ∧ (∀ p, (μ0 p).isSome → μ' p = μ0 p) ∧
        ((r = .error .check ∨ r = .error .alloc) → frestores c = false → ∃ vs', FCmd.Fails vs c vs' ∧ Same μ0 as' vs' μ')) := by
  have hass : ∀ f d e op, FExp.Places d ∧ FExp.Known vs d ∧ FExp.Known vs e →
      (∀ (μ : Mem V) d x p v y, Refers μ d p → Reads μ x v → μ p = some y → mapOp op [d, x] μ = (.ok (.ref p), μ.upd p (f y v))) →
      ((fassign dyn z as op d e μ).1, as, (fassign dyn z as op d e μ).2) = (r, as', μ') →
      (r = .ok () ∧ ∃ vs', FAssigns f vs d e vs' ∧ Same μ0 as' vs' μ') ∨ (r = .error .check ∧ ∃ vs', FFails f vs d e vs' ∧ Same μ0 as' vs' μ') := by
    intro f d e op ⟨hp, hd, he⟩ hop heq
    obtain ⟨μ1, vs', h1, h2⟩ := fassign_known h dyn z hz f d e hp hd he op hop
    rcases h2 with ⟨h2, h3⟩ | ⟨h2, h3⟩ <;> rw [h3] at heq <;> simp only [Prod.mk.injEq] at heq <;> obtain ⟨rfl, rfl, rfl⟩ := heq
    · exact .inl ⟨rfl, vs', h2, h1⟩
    · exact .inr ⟨rfl, vs', h2, h1⟩
  cases c with
  | cmd c =>
    have hr' : ∀ p, c ≠ .op (.run p) := fun p hp => hr p (by rw [hp])
    cases r with
    | ok _ => exact .inl ⟨rfl, step_same dyn z hz c hr' h hs⟩
    | error e =>
      obtain ⟨h1, rfl⟩ := cmd_kind dyn z hz c hr' h hs
      exact .inr ⟨by simpa using h1, h.rest, (fstep_any h dyn z hz (.cmd c) hr trivial hs).2⟩
  | assign d e =>
    rcases hass (fun _ x => x) d e setOp hg (fun μ d x p v y h1 h2 h3 => set_run h1 h2 (by simp [h3])) hs with h1 | ⟨rfl, vs', h1, h2⟩
    · exact .inl h1
    · exact .inr ⟨.inl rfl, h2.rest, fun _ _ => ⟨vs', h1, h2⟩⟩
  | update f d e =>
    rcases hass f d e (updOp f) hg (fun μ d x p v y h1 h2 h3 => upd_run f h1 h2 h3) hs with h1 | ⟨rfl, vs', h1, h2⟩
    · exact .inl h1
    · exact .inr ⟨.inl rfl, h2.rest, fun _ _ => ⟨vs', h1, h2⟩⟩
  | make rk o fill e =>
    simp only [FCmd.step] at hs
    by_cases hgd : FExp.Good vs e
    · rcases make_any h dyn z hz rk o fill e hgd with ⟨f, h1⟩ | ⟨a, μ1, vs', h1, h2, h3⟩
      · obtain ⟨k1, _⟩ := make_kind h dyn z hz rk o fill e hgd h1
        rw [h1] at hs
        simp only [Prod.mk.injEq] at hs
        obtain ⟨rfl, rfl, rfl⟩ := hs
        exact .inr ⟨by rcases k1 with rfl | rfl <;> simp, h.rest, fun _ _ => ⟨vs, rfl, h⟩⟩
      · rw [h1] at hs
        simp only [Prod.mk.injEq] at hs
        obtain ⟨rfl, rfl, rfl⟩ := hs
        exact .inl ⟨rfl, vs', h2, h3⟩
    · rw [fmake_unknown h dyn z hz rk o fill e hg hgd] at hs
      simp only [Prod.mk.injEq] at hs
      obtain ⟨rfl, rfl, rfl⟩ := hs
      exact .inr ⟨.inl rfl, h.rest, fun _ _ => ⟨vs, rfl, h⟩⟩

theorem fprogram_known {μ0 μ μ' : Mem V} {as as' : List Arr} {vs : List (Value V)} (dyn : Bool) (z : List Int) (hz : ∀ i ∈ z, i = 0) (cs : List (FCmd V)) (hr : ∀ p, FCmd.cmd (.op (.run p)) ∉ cs)
    (h : Same μ0 as vs μ) (hg : FKnowns cs vs) {r : Except Fault Unit} (hs : fprogram dyn z cs as μ = (r, as', μ')) :
    (r = .ok () ∧ ∃ vs', FEffects cs vs vs' ∧ Same μ0 as' vs' μ') ∨ ((r = .error .check ∨ r = .error .alloc ∨ r = .error .abort) ∧ ∀ p, (μ0 p).isSome → μ' p = μ0 p) := by
  induction cs generalizing as vs μ with
  | nil =>
    simp only [fprogram, Prod.mk.injEq] at hs
    obtain ⟨rfl, rfl, rfl⟩ := hs
    exact .inl ⟨rfl, vs, rfl, h⟩
  | cons c cs ih =>
    simp only [fprogram] at hs
    split at hs
    · next as1 μ1 h1 =>
      rcases fstep_known h dyn z hz c (fun p hp => hr p (by simp [hp])) hg.1 h1 with ⟨_, vs1, h4, h5⟩ | ⟨h4, _⟩
      · rcases ih (fun p hp => hr p (by simp [hp])) h5 (hg.2 vs1 h4) hs with ⟨h6, vs', h7, h8⟩ | h6
        · exact .inl ⟨h6, vs', ⟨vs1, h4, h7⟩, h8⟩
        · exact .inr h6
      · simp at h4
    · next e as1 μ1 h1 =>
      simp only [Prod.mk.injEq] at hs
      obtain ⟨rfl, rfl, rfl⟩ := hs
      rcases fstep_known h dyn z hz c (fun p hp => hr p (by simp [hp])) hg.1 h1 with ⟨h4, _⟩ | ⟨h4, h5, _⟩
      · cases h4
      · exact .inr ⟨h4, h5⟩

/-- C98, without the operations that aren't checked as they should be. A program either gives the values that the operations give on values, or a check fails, or there's no memory, or the program isn't one that compiles (`abort`). There's no undefined behaviour. The
memory that isn't of the arrays doesn't change in any case. What's missing are the views that aren't in `FExp.Known`, because some of them aren't caught (`C98_negation`). -/
theorem C98_safe_partial (dyn : Bool) (z : List Int) (hz : ∀ i ∈ z, i = 0) (cs : List (FCmd V)) (hr : ∀ p, FCmd.cmd (.op (.run p)) ∉ cs) (as : List Arr) (μ0 μ : Mem V) (r : Except Fault Unit)
    (hs : fprogram dyn z cs [] μ0 = (r, as, μ)) (hg : FKnowns cs []) :
    ((r = .ok () ∧ ∃ vs, FEffects cs [] vs ∧ List.Forall₂ (Represents μ) as vs) ∨ r = .error .check ∨ r = .error .alloc ∨ r = .error .abort) ∧ ∀ p, (μ0 p).isSome → μ p = μ0 p := by
  rcases fprogram_known dyn z hz cs hr (same_start μ0) hg hs with ⟨h1, vs, h2, h3⟩ | ⟨h1, h2⟩
  · obtain ⟨h4, h5⟩ := same_represents h3
    exact ⟨.inl ⟨h1, vs, h2, h4⟩, h5⟩
  · exact ⟨.inr h1, h2⟩

theorem fcaught_known {μ0 μ μ' : Mem V} {as as' : List Arr} {vs : List (Value V)} (dyn : Bool) (z : List Int) (hz : ∀ i ∈ z, i = 0) (cs : List (FCmd V)) (hr : ∀ p, FCmd.cmd (.op (.run p)) ∉ cs)
    (hc : ∀ c ∈ cs, frestores c = false) (h : Same μ0 as vs μ) (hg : FKnownsAny cs vs) {r : Except Fault (List Bool)} (hs : fcaught dyn z cs as μ = (r, as', μ')) :
    (∃ bs vs', r = .ok bs ∧ FTries cs bs vs vs' ∧ Same μ0 as' vs' μ') ∨ (r = .error .abort ∧ ∀ p, (μ0 p).isSome → μ' p = μ0 p) := by
  induction cs generalizing as vs μ r with
  | nil =>
    simp only [fcaught, Prod.mk.injEq] at hs
    obtain ⟨rfl, rfl, rfl⟩ := hs
    exact .inl ⟨[], vs, rfl, rfl, h⟩
  | cons c cs ih =>
    have hr1 : ∀ p, c ≠ .cmd (.op (.run p)) := fun p hp => hr p (by simp [hp])
    have hgo : ∀ (b : Bool) as1 μ1 vs1, (if b then FCmd.Effect vs c vs1 else FCmd.Fails vs c vs1) → Same μ0 as1 vs1 μ1 →
        ((fcaught dyn z cs as1 μ1).1.map (b :: ·), (fcaught dyn z cs as1 μ1).2) = (r, as', μ') →
        (∃ bs vs', r = .ok bs ∧ FTries (c :: cs) bs vs vs' ∧ Same μ0 as' vs' μ') ∨ (r = .error .abort ∧ ∀ p, (μ0 p).isSome → μ' p = μ0 p) := by
      intro b as1 μ1 vs1 h1 h2 h3
      cases hx : fcaught dyn z cs as1 μ1 with
      | mk r1 q =>
        obtain ⟨as2, μ2⟩ := q
        rw [hx] at h3
        simp only [Prod.mk.injEq] at h3
        obtain ⟨rfl, rfl, rfl⟩ := h3
        rcases ih (fun p hp => hr p (by simp [hp])) (fun c' hc' => hc c' (by simp [hc'])) h2 (hg.2 vs1 (by cases b <;> simp at h1 <;> tauto)) hx with ⟨bs, vs', rfl, h5, h6⟩ | ⟨rfl, h5⟩
        · refine .inl ⟨b :: bs, vs', rfl, ?_, h6⟩
          cases b
          · exact ⟨vs1, by simpa using h1, h5⟩
          · exact ⟨vs1, by simpa using h1, h5⟩
        · exact .inr ⟨rfl, h5⟩
    simp only [fcaught] at hs
    split at hs
    · next as1 μ1 h1 =>
      rcases fstep_known h dyn z hz c hr1 hg.1 h1 with ⟨_, vs1, h4, h5⟩ | ⟨h4, _⟩
      · exact hgo true as1 μ1 vs1 (by simpa using h4) h5 hs
      · simp at h4
    · next as1 μ1 h1 =>
      rcases fstep_known h dyn z hz c hr1 hg.1 h1 with ⟨h4, _⟩ | ⟨_, _, h6⟩
      · cases h4
      · obtain ⟨vs1, h7, h8⟩ := h6 (by simp) (hc c (by simp))
        exact hgo false as1 μ1 vs1 (by simpa using h7) h8 hs
    · next as1 μ1 h1 =>
      rcases fstep_known h dyn z hz c hr1 hg.1 h1 with ⟨h4, _⟩ | ⟨_, _, h6⟩
      · cases h4
      · obtain ⟨vs1, h7, h8⟩ := h6 (by simp) (hc c (by simp))
        exact hgo false as1 μ1 vs1 (by simpa using h7) h8 hs
    · next e as1 μ1 n1 n2 h1 =>
      simp only [Prod.mk.injEq] at hs
      obtain ⟨rfl, rfl, rfl⟩ := hs
      rcases fstep_known h dyn z hz c hr1 hg.1 h1 with ⟨h4, _⟩ | ⟨h4, h5, _⟩
      · cases h4
      · simp only [Except.error.injEq] at h4
        rcases h4 with rfl | rfl | rfl
        · exact absurd rfl n1
        · exact absurd rfl n2
        · exact .inr ⟨rfl, h5⟩

/-- C98 for programs that go on after a failure: the operations `cs` make the arrays, and the exceptions of the others are caught. Those aren't `resize` or copies, because they leave arrays that aren't
usable if they fail (see C32). There's no undefined behaviour after the failures either. What's missing is as in `C98_safe_partial`, and `resize` and copies. -/
theorem C98_caught_partial (dyn : Bool) (z : List Int) (hz : ∀ i ∈ z, i = 0) (cs ds : List (FCmd V)) (hr : ∀ p, FCmd.cmd (.op (.run p)) ∉ cs ++ ds) (hc : ∀ c ∈ ds, frestores c = false) (as as' : List Arr)
    (μ0 μ μ' : Mem V) (r : Except Fault (List Bool)) (hs : fprogram dyn z cs [] μ0 = (.ok (), as, μ)) (hd : fcaught dyn z ds as μ = (r, as', μ')) (hg : FKnowns cs [])
    (hk : ∀ vs, FEffects cs [] vs → FKnownsAny ds vs) :
    ((∃ bs vs vs', r = .ok bs ∧ FEffects cs [] vs ∧ FTries ds bs vs vs' ∧ List.Forall₂ (Represents μ') as' vs') ∨ r = .error .abort) ∧ ∀ p, (μ0 p).isSome → μ' p = μ0 p := by
  rcases fprogram_known dyn z hz cs (fun p hp => hr p (by simp [hp])) (same_start μ0) hg hs with ⟨_, vs, h2, h3⟩ | ⟨h1, _⟩
  · rcases fcaught_known dyn z hz ds (fun p hp => hr p (by simp [hp])) hc h3 (hk vs h2) hd with ⟨bs, vs', h4, h5, h6⟩ | ⟨h4, h5⟩
    · obtain ⟨h7, h8⟩ := same_represents h6
      exact ⟨.inl ⟨bs, vs, vs', h4, h2, h5, h7⟩, h8⟩
    · exact ⟨.inr h4, h5⟩
  · simp at h1

end

/-- `a` of shape (3, 4). -/
def egKnown0 : List (FCmd Int) := [.cmd (.op (.create none (some 0) (fun i => i) [3, 4]))]

/-- `Array(sum(a(iota(2))) + a(0))`; `reshape(a(all, 1), {5}) = 7`, that fails; and `a = 1`. -/
def egKnown1 : List (FCmd Int) := [.make none (some 40) (fun _ => 0)
    (.map List.sum [] [.fold (· + ·) 0 (.view 0 [.slice [.iota [(.const 2, .const 1)] (.const 0)]]), .view 0 [.slice [.scalar (.const 0)]]]),
  .assign (.view 0 [.slice [.dots (some 1), .scalar (.const 1)], .reshape [5]]) (.const 7), .assign (.view 0 []) (.const 1)]

theorem egKnown_make (vs : List (Value Int)) (xs : List Int) (h : vs[0]? = some ⟨[3, 4], xs⟩) :
    FCmd.Known vs (.make none (some 40) (fun _ => 0) (.map List.sum [] [.fold (· + ·) 0 (.view 0 [.slice [.iota [(.const 2, .const 1)] (.const 0)]]), .view 0 [.slice [.scalar (.const 0)]]])) :=
  ⟨by simp, ⟨⟨_, h, .inl ⟨_, rfl⟩⟩, ⟨_, h, .inl ⟨_, rfl⟩⟩, trivial⟩, fun _ => by simp [Fit]⟩

theorem egKnown_fails (vs : List (Value Int)) (xs : List Int) (h : vs[0]? = some ⟨[3, 4], xs⟩) :
    FCmd.Known vs (.assign (.view 0 [.slice [.dots (some 1), .scalar (.const 1)], .reshape [5]]) (.const 7)) := by
  refine ⟨trivial, ⟨_, h, .inr (.inr ⟨[some 3], show opShape true (List.map some [3, 4]) _ = some [some 3] by decide +kernel, .inl ⟨[3], [5], rfl, rfl, by decide, by decide, by decide⟩⟩)⟩, trivial⟩

theorem egKnown_effect (vs : List (Value Int)) (h : FEffects egKnown0 [] vs) : vs[0]? = some ⟨[3, 4], [0, 1, 2, 3, 4, 5, 6, 7, 8, 9, 10, 11]⟩ := by
  obtain ⟨vs1, h1, rfl⟩ := h
  simp only [FCmd.Effect, Cmd.effect, Option.some.injEq] at h1
  rw [← h1]
  decide +kernel

/-- In no case do these change the shapes of the arrays. -/
theorem egKnown_any (vs : List (Value Int)) (xs : List Int) (h : vs[0]? = some ⟨[3, 4], xs⟩) : FKnownsAny egKnown1 vs := by
  have hnot : ∀ ws : List (Value Int), ws[0]? = some ⟨[3, 4], xs⟩ → ∀ d' s, ¬ (FExp.Reduced ws (.view 0 [.slice [.dots (some 1), .scalar (.const 1)], .reshape [5]]) d' ∧ FExp.Shape ws d' s) := by
    rintro ws hw d' s ⟨h1, h2⟩
    simp only [FExp.Reduced] at h1
    subst h1
    obtain ⟨v, h3, h4⟩ := h2
    rw [hw, Option.some.injEq] at h3
    subst h3
    exact absurd h4 (by rw [show opsShape true (List.map some [3, 4]) [.slice [.dots (some 1), .scalar (.const 1)], .reshape [5]] = none by decide +kernel]; simp)
  refine ⟨egKnown_make vs xs h, fun vs1 h1 => ?_⟩
  have h2 : vs1[0]? = some ⟨[3, 4], xs⟩ := by
    rcases h1 with ⟨_, _, _, _, _, _, _, rfl⟩ | rfl
    · rw [List.getElem?_append_left (List.getElem?_eq_some_iff.mp h).1, h]
    · exact h
  refine ⟨egKnown_fails vs1 xs h2, fun vs3 h3 => ?_⟩
  have h4 : vs3 = vs1 := by
    rcases h3 with ⟨_, d', e', s, ⟨k1, _, sd, _, k2, _⟩, _⟩ | ⟨_, rfl⟩ | ⟨d', e', s, ⟨k1, _, sd, _, k2, _⟩, _⟩
    · exact absurd ⟨k1, k2⟩ (hnot vs1 h2 _ _)
    · rfl
    · exact absurd ⟨k1, k2⟩ (hnot vs1 h2 _ _)
  subst h4
  exact ⟨⟨trivial, ⟨_, h2, .inl ⟨_, rfl⟩⟩, trivial⟩, fun _ _ => trivial⟩

example : FKnowns egKnown0 [] := ⟨trivial, fun _ _ => trivial⟩
example : ∀ vs, FEffects egKnown0 [] vs → FKnownsAny egKnown1 vs := fun vs h => egKnown_any vs _ (egKnown_effect vs h)
example : ∀ c ∈ egKnown1, frestores c = false := by simp [egKnown1, frestores]
example : (fprogram true [] egKnown0 [] noMem).1 = .ok () := by decide +kernel
example : (fcaught true [] egKnown1 (fprogram true [] egKnown0 [] noMem).2.1 (fprogram true [] egKnown0 [] noMem).2.2).1 = .ok [true, false, true] := by decide +kernel
example : (fprogram true [] (egKnown0 ++ egKnown1) [] noMem).1 = .error .check := by decide +kernel
example : FKnowns (egKnown0 ++ egKnown1) [] := by
  refine ⟨trivial, fun vs1 h1 => ?_⟩
  have h := egKnown_any vs1 _ (egKnown_effect vs1 ⟨vs1, h1, rfl⟩)
  exact ⟨h.1, fun vs2 h2 => ⟨(h.2 vs2 (.inl h2)).1, fun vs3 h3 => ⟨((h.2 vs2 (.inl h2)).2 vs3 (.inl h3)).1, fun _ _ => trivial⟩⟩⟩

/-- B15, B16. C98 fails for programs with some views: with `a` of shape (3, 4), `reverse(a, 2)` and `transpose(a, {0, -1})` are out of range and aren't caught. -/
theorem C98_negation : (fprogram true [] (egKnown0 ++ [.assign (.view 0 [.reverse 2]) (.const 1)]) [] noMem).1 = .error .ub ∧
    (fprogram true [] (egKnown0 ++ [.assign (.view 0 [.transpose [0, -1]]) (.const 1)]) [] noMem).1 = .error .ub := by decide +kernel

end Ra.Props
