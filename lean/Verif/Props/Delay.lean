import Verif.Props.ViewProgram
import Verif.Props.Crash
import Verif.Spec.Delay
/-!
# C87: expressions that are kept to be used later
-/

namespace Ra.Props
open Spec

section
variable {V : Type}

theorem storeResize_rk (o : Option Int) (fill : Nat → V) (n : Int) (a : Arr) (μ : Mem V) : (storeResize o fill n a μ).2.1.rk = a.rk := by
  unfold storeResize
  split
  · rfl
  · split
    · rfl
    · split
      · rfl
      · split <;> rfl

theorem fill_rk (a : Arr) (s : List Int) : (a.fill s).2.rk = a.rk := by
  unfold Arr.fill
  split <;> rfl

theorem onArr_arrays {i : Nat} {f : Arr → Mem V → Except Fault Unit × Arr × Mem V} (hf : ∀ a μ, (f a μ).2.1.rk = a.rk) {as as' : List Arr} {μ μ' : Mem V} {r : Except Fault Unit}
    (h : onArr i f as μ = (r, as', μ')) : (∀ l, l ≠ i → as'[l]? = as[l]?) ∧ as'.map Arr.rk = as.map Arr.rk := by
  unfold onArr at h
  split at h
  · next a ha =>
    simp only [Prod.mk.injEq] at h
    obtain ⟨_, rfl, _⟩ := h
    refine ⟨fun l hl => by rw [List.getElem?_set, if_neg (Ne.symm hl)], ?_⟩
    apply List.ext_getElem?
    intro l
    simp only [List.getElem?_map, List.getElem?_set]
    split
    · next h =>
      subst h
      obtain ⟨hl, hv⟩ := List.getElem?_eq_some_iff.mp ha
      rw [if_pos hl, ha]
      simp [hf]
    · rfl
  · simp only [Prod.mk.injEq] at h
    obtain ⟨_, rfl, _⟩ := h
    exact ⟨fun _ _ => rfl, rfl⟩

theorem swapDims_rk {xa xb xa' xb' : Arr} (h : swapDims xa xb = .ok (xa', xb')) : xa'.rk = xa.rk ∧ xb'.rk = xb.rk := by
  unfold swapDims at h
  dsimp only at h
  split at h
  · cases h
  · simp only [Except.ok.injEq, Prod.mk.injEq] at h
    obtain ⟨rfl, rfl⟩ := h
    exact ⟨rfl, rfl⟩

theorem swap_rk (a b : Arr) : (Arr.swap a b).2.1.rk = a.rk ∧ (Arr.swap a b).2.2.rk = b.rk := by
  unfold Arr.swap
  simp only
  split
  · exact ⟨rfl, rfl⟩
  · next a' b' h =>
    split at h
    · split at h
      · simp only [Except.ok.injEq, Prod.mk.injEq] at h
        obtain ⟨rfl, rfl⟩ := h
        exact ⟨rfl, rfl⟩
      · cases h
    · split at h
      · cases h
      · split at h
        · exact swapDims_rk (xa' := a') (xb' := b') h
        · simp only [bind, Except.bind] at h
          split at h
          · cases h
          · next p hp =>
            simp only [pure, Except.pure, Except.ok.injEq, Prod.mk.injEq] at h
            obtain ⟨rfl, rfl⟩ := h
            have := swapDims_rk (xa := b) (xb := a) (xa' := p.1) (xb' := p.2) hp
            exact ⟨this.2, this.1⟩

/-- An operation leaves as they were all the arrays but those that it replaces, and all the ranks. -/
theorem step_arrays (dyn : Bool) (z : List Int) (c : VCmd V) {as as' : List Arr} {μ μ' : Mem V} (h : c.step dyn z as μ = (.ok (), as', μ')) :
    (∀ i, i < as.length → i ∉ replaced c → as'[i]? = as[i]?) ∧ as'.map Arr.rk = as.map Arr.rk ++ declared c := by
  have same : as' = as → replaced c = [] → declared c = [] → (∀ i, i < as.length → i ∉ replaced c → as'[i]? = as[i]?) ∧ as'.map Arr.rk = as.map Arr.rk ++ declared c := by
    rintro rfl h1 h2
    rw [h2]
    exact ⟨fun _ _ _ => rfl, by simp⟩
  have one : ∀ i f, onArr i f as μ = (.ok (), as', μ') → (∀ a μ, (f a μ).2.1.rk = a.rk) → replaced c = [i] → declared c = [] →
      (∀ i, i < as.length → i ∉ replaced c → as'[i]? = as[i]?) ∧ as'.map Arr.rk = as.map Arr.rk ++ declared c := by
    intro i f h1 h2 h3 h4
    obtain ⟨g1, g2⟩ := onArr_arrays h2 h1
    rw [h3, h4]
    exact ⟨fun l _ hl => g1 l (by simpa using hl), by simpa using g2⟩
  cases c with
  | assign i ops e =>
    refine same ?_ rfl rfl
    simp only [VCmd.step] at h
    split at h <;> simp at h <;> simp [h]
  | update f i ops e =>
    refine same ?_ rfl rfl
    simp only [VCmd.step] at h
    split at h <;> simp at h <;> simp [h]
  | cmd c =>
    cases c with
    | set i j x =>
      refine same ?_ rfl rfl
      simp only [VCmd.step, Cmd.step] at h
      split at h
      · split at h <;> simp at h <;> simp [h]
      · simp at h
    | assign i e =>
      refine same ?_ rfl rfl
      simp only [VCmd.step, Cmd.step] at h
      split at h <;> simp at h <;> simp [h]
    | update f i e =>
      refine same ?_ rfl rfl
      simp only [VCmd.step, Cmd.step] at h
      split at h <;> simp at h <;> simp [h]
    | op o =>
      simp only [VCmd.step, Cmd.step] at h
      cases o with
      | «default» rk =>
        simp only [Op.step] at h
        split at h
        · simp at h
        · simp only [Prod.mk.injEq, true_and] at h
          obtain ⟨rfl, _⟩ := h
          exact ⟨fun i hi _ => by rw [List.getElem?_append_left hi], by simp [declared, Arr.default]⟩
      | create rk o fill s =>
        simp only [Op.step] at h
        split at h
        · next a μ1 h1 =>
          simp only [Prod.mk.injEq, true_and] at h
          obtain ⟨rfl, _⟩ := h
          refine ⟨fun i hi _ => by rw [List.getElem?_append_left hi], ?_⟩
          have : a.rk = rk := by
            unfold Arr.create at h1
            have h0 := fill_rk ⟨rk, List.replicate (rk.getD 0) ⟨0, 0⟩, 0, 0⟩ s
            split at h1
            · simp at h1
            · next n b hb =>
              rw [hb] at h0
              split at h1
              · have h2 := storeResize_rk o fill n b μ
                split at h1
                · next a' μ2 h3 =>
                  simp only [Prod.mk.injEq, Except.ok.injEq] at h1
                  obtain ⟨rfl, _⟩ := h1
                  rw [h3] at h2
                  simpa using h2.trans h0
                · simp at h1
              · simp at h1
          simp [declared, this]
        · simp at h
      | resize i o fill n =>
        refine one i _ h (fun a μ => ?_) rfl rfl
        unfold Arr.resize
        split
        · rfl
        · exact storeResize_rk _ _ _ _ _
      | resizeShape i o fill s =>
        refine one i _ h (fun a μ => ?_) rfl rfl
        unfold Arr.resizeShape
        have h0 := fill_rk a s
        split
        · next e b hb => rw [hb] at h0; exact h0
        · next n b hb => rw [hb] at h0; rw [storeResize_rk]; exact h0
      | pushBack i o x =>
        refine one i _ h (fun a μ => ?_) rfl rfl
        unfold Arr.pushBack
        split
        · have h0 := storeResize_rk o (fun _ => x) (a.n + 1) a μ
          split
          · next h1 => rw [h1] at h0; exact h0
          · next h1 => rw [h1] at h0; exact h0
        · rfl
      | popBack i =>
        refine one i _ h (fun a μ => ?_) rfl rfl
        unfold Arr.popBack
        split
        · split
          · simp only
            split <;> rfl
          · rfl
        · rfl
      | copy i j o =>
        simp only [Op.step] at h
        split at h
        · next b hb =>
          split at h
          · simp only [Prod.mk.injEq, true_and] at h
            obtain ⟨rfl, _⟩ := h
            exact ⟨fun _ _ _ => rfl, by simp [declared]⟩
          · refine one i _ h (fun a μ => ?_) rfl rfl
            split
            · unfold Arr.copyFrom
              simp only
              split
              · rfl
              · split <;> rfl
            · rfl
        · simp at h
      | swap i j =>
        simp only [Op.step] at h
        split at h
        · next a b ha hb =>
          split at h
          · simp only [Prod.mk.injEq, true_and] at h
            obtain ⟨rfl, _⟩ := h
            exact ⟨fun _ _ _ => rfl, by simp [declared]⟩
          · next hij =>
            simp only [Prod.mk.injEq] at h
            obtain ⟨_, rfl, _⟩ := h
            obtain ⟨s1, s2⟩ := swap_rk a b
            refine ⟨fun l _ hl => ?_, ?_⟩
            · simp only [replaced, List.mem_cons, List.not_mem_nil, or_false, not_or] at hl
              rw [List.getElem?_set, if_neg (Ne.symm hl.2), List.getElem?_set, if_neg (Ne.symm hl.1)]
            · simp only [declared, List.append_nil]
              apply List.ext_getElem?
              intro l
              simp only [List.getElem?_map, List.getElem?_set, List.length_set]
              obtain ⟨hi, _⟩ := List.getElem?_eq_some_iff.mp ha
              obtain ⟨hj, _⟩ := List.getElem?_eq_some_iff.mp hb
              split
              · next h => subst h; rw [hb]; simp [s2]
              · split
                · next h => subst h; rw [ha]; simp [s1]
                · rfl
        · simp at h
      | run p =>
        simp only [Op.step, Prod.mk.injEq] at h
        obtain ⟨_, rfl, _⟩ := h
        exact ⟨fun _ _ _ => rfl, by simp [declared]⟩

/-- `x` is what's kept for the text `e`. -/
inductive KeptAs (as : List Arr) : Kept V → VExp V → Prop where
  | val (x : V) : KeptAs as (.val x) (.const x)
  | arr (i : Nat) (a : Arr) (h : as[i]? = some a) : KeptAs as (.arr i a.base) (.view i [])
  | view (i : Nat) (ops : List ViewOp) (w : View) (h : viewOf as i ops = .ok w) : KeptAs as (.view w) (.view i ops)
  | op (f : V → V → V) (a b : Kept V) (x y : VExp V) (ha : KeptAs as a x) (hb : KeptAs as b y) : KeptAs as (.op f a b) (.op f x y)

theorem KeptAs.iter {as : List Arr} {k : Kept V} {e : VExp V} (h : KeptAs as k e) : ∃ t, k.iter as = some t ∧ e.iter as = .ok t := by
  induction h with
  | val x => exact ⟨_, rfl, rfl⟩
  | arr i a h =>
    refine ⟨View.refs ⟨a.dims, a.base⟩, by simp [Kept.iter, h], ?_⟩
    simp [Ra.VExp.iter, viewOf, h, runOps, bind, Except.bind, pure, Except.pure, Arr.view]
  | view i ops w h => exact ⟨w.refs, rfl, by simp [Ra.VExp.iter, h, bind, Except.bind, pure, Except.pure]⟩
  | op f a b x y _ _ iha ihb =>
    obtain ⟨t, h1, h2⟩ := iha
    obtain ⟨u, h3, h4⟩ := ihb
    exact ⟨binaryOp f t u, by simp [Kept.iter, h1, h3], by simp [Ra.VExp.iter, h2, h4, bind, Except.bind, pure, Except.pure]⟩

theorem KeptAs.mono {as as' : List Arr} {k : Kept V} {e : VExp V} (h : KeptAs as k e) (hs : ∀ i ∈ VExp.arrays e, as'[i]? = as[i]?) : KeptAs as' k e := by
  induction h with
  | val x => exact .val x
  | arr i a h => exact .arr i a (by rw [hs i (by simp [VExp.arrays])]; exact h)
  | view i ops w h => exact .view i ops w (by simpa only [viewOf, hs i (by simp [VExp.arrays])] using h)
  | op f a b x y _ _ iha ihb =>
    exact .op f a b x y (iha fun i hi => hs i (by simp [VExp.arrays, hi])) (ihb fun i hi => hs i (by simp [VExp.arrays, hi]))

/-- The arrays in an expression exist. -/
theorem arrays_lt {vs : List (Value V)} {e : VExp V} {ss : List (List Length)} (h : VExp.shapes vs e = some ss) : ∀ i ∈ VExp.arrays e, i < vs.length := by
  induction e generalizing ss with
  | const x => simp [VExp.arrays]
  | view l ops =>
    simp only [VExp.shapes] at h
    split at h
    · next v hv =>
      simp only [VExp.arrays, List.mem_singleton]
      rintro i rfl
      exact (List.getElem?_eq_some_iff.mp hv).1
    · cases h
  | op f a b iha ihb =>
    simp only [VExp.shapes] at h
    split at h
    · next x y hx hy =>
      intro i hi
      simp only [VExp.arrays, List.mem_append] at hi
      rcases hi with hi | hi
      · exact iha hx i hi
      · exact ihb hy i hi
    · cases h

/-- Shapes of arguments depend only on the shapes of the arrays. -/
theorem shapes_congr {vs vs' : List (Value V)} {e : VExp V} (h : ∀ i ∈ VExp.arrays e, (vs'[i]?).map Value.shape = (vs[i]?).map Value.shape) : VExp.shapes vs' e = VExp.shapes vs e := by
  induction e with
  | const x => rfl
  | view i ops =>
    have h1 := h i (by simp [VExp.arrays])
    simp only [VExp.shapes]
    cases hv : vs[i]? with
    | none =>
      rw [hv] at h1
      cases hv' : vs'[i]? with
      | none => rfl
      | some v' => rw [hv'] at h1; simp at h1
    | some v =>
      rw [hv] at h1
      cases hv' : vs'[i]? with
      | none => rw [hv'] at h1; simp at h1
      | some v' =>
        rw [hv'] at h1
        simp only [Option.map_some, Option.some.injEq] at h1
        simp only [h1]
  | op f a b iha ihb =>
    simp only [VExp.shapes, iha fun i hi => h i (by simp [VExp.arrays, hi]), ihb fun i hi => h i (by simp [VExp.arrays, hi])]

theorem isNumber_congr {E E' : Env V} {e : VExp V} (h : ∀ i ∈ VExp.arrays e, (E'.vs[i]?).map Value.shape = (E.vs[i]?).map Value.shape)
    (hr : ∀ i ∈ VExp.arrays e, E'.rks[i]? = E.rks[i]?) : isNumber E' e = isNumber E e := by
  cases e with
  | const x => rfl
  | op f a b => rfl
  | view i ops =>
    have h1 := h i (by simp [VExp.arrays])
    simp only [isNumber, hr i (by simp [VExp.arrays])]
    cases hv : E.vs[i]? with
    | none =>
      rw [hv] at h1
      cases hv' : E'.vs[i]? with
      | none => rfl
      | some v' => rw [hv'] at h1; simp at h1
    | some v =>
      rw [hv] at h1
      cases hv' : E'.vs[i]? with
      | none => rw [hv'] at h1; simp at h1
      | some v' =>
        rw [hv'] at h1
        simp only [Option.map_some, Option.some.injEq] at h1
        cases E.rks[i]? with
        | none => rfl
        | some r => cases r <;> simp only [h1]

/-- The invariant. -/
structure SameLater (μ0 : Mem V) (as : List Arr) (ks : List (Kept V)) (μ : Mem V) (E : Env V) : Prop where
  same : Same μ0 as E.vs μ
  ranks : as.map Arr.rk = E.rks
  count : ks.length = E.ks.length
  kept : ∀ (k : Nat) x e, ks[k]? = some x → E.ks[k]? = some (e, true) → KeptAs as x e ∧ isNumber E e = x.rank0 ∧ ∃ ss, VExp.shapes E.vs e = some ss

theorem kept_read {μ0 μ : Mem V} {as : List Arr} {vs : List (Value V)} (h : Same μ0 as vs μ) {x : Kept V} {e : VExp V} (hk : KeptAs as x e) {ss : List (List Length)}
    (hs : VExp.shapes vs e = some ss) (h0 : ∀ s ∈ ss, s = []) : ∃ u, VExp.at vs [] e = some u ∧ x.read as μ = (.ok u, μ) := by
  obtain ⟨t, h1, h2⟩ := hk.iter
  obtain ⟨u, h3, h4⟩ := vexp_reads h (j := []) e ss hs (fun s hs => by rw [h0 s hs]; exact ⟨by simp, by simp⟩) t h2
  refine ⟨u, h3, ?_⟩
  have hd0 : disp [] = fun _ => 0 := by funext k; simp [disp]
  have h5 := Iter.deref_shift t []
  rw [hd0, Iter.shift_zero] at h5
  simp only [Kept.read, h1, h5]
  exact h4

/-- The arguments of a number have no axes. -/
theorem number_shapes {E : Env V} {e : VExp V} (h : isNumber E e = true) : VExp.shapes E.vs e = some [[]] := by
  cases e with
  | const x => rfl
  | op f a b => simp [isNumber] at h
  | view i ops =>
    simp only [isNumber] at h
    split at h
    · next v r hv hr =>
      simp only [decide_eq_true_eq] at h
      simp [VExp.shapes, hv, h]
    · cases h

theorem view_number {μ0 μ : Mem V} {as : List Arr} {ks : List (Kept V)} {E : Env V} (h : SameLater μ0 as ks μ E) {i : Nat} {v : Value V} (hv : E.vs[i]? = some v) {ops : List ViewOp}
    {t : List Length} (ht : opsShape true (v.shape.map some) ops = some t) : ∃ w, viewOf as i ops = .ok w ∧ viewRank0 as i w = isNumber E (.view i ops) := by
  obtain ⟨a, ha, hr⟩ := h.same.geta hv
  obtain ⟨w, h1, h2, _⟩ := place_ok hr ht
  refine ⟨w, by simp [viewOf, ha, h1], ?_⟩
  have hrk : E.rks[i]? = some a.rk := by rw [← h.ranks]; simp [ha]
  have hl : w.dims.length = t.length := h2.length_eq
  simp only [viewRank0, ha, isNumber, hv, hrk, ht, hl]
  cases a.rk with
  | none => simp
  | some r => cases t <;> simp [ht]

/-- Making an expression. -/
theorem keep_same {μ0 μ : Mem V} {as : List Arr} {ks : List (Kept V)} {E : Env V} (h : SameLater μ0 as ks μ E) (e : DExp V) {e' : VExp V} (he : meaning E e = some e') :
    ∃ x, e.keep as ks μ = (.ok (x, isNumber E e'), μ) ∧ KeptAs as x e' ∧ ∃ ss, VExp.shapes E.vs e' = some ss := by
  induction e generalizing e' with
  | const x =>
    simp only [meaning, Option.some.injEq] at he
    subst he
    exact ⟨.val x, rfl, .val x, _, rfl⟩
  | view i ops =>
    simp only [meaning] at he
    split at he
    · next v hv =>
      split at he
      · next ht =>
        simp only [Option.some.injEq] at he
        subst he
        obtain ⟨t, ht⟩ := Option.isSome_iff_exists.mp ht
        obtain ⟨w, h1, h2⟩ := view_number h hv ht
        obtain ⟨a, ha, _⟩ := h.same.geta hv
        cases ops with
        | nil =>
          refine ⟨.arr i a.base, ?_, .arr i a ha, [t], by simp only [VExp.shapes, hv, ht]⟩
          simp only [viewOf, ha, runOps, List.foldlM_nil, pure, Except.pure, Except.ok.injEq] at h1
          subst h1
          simp only [DExp.keep, ha, h2]
          rfl
        | cons o ops =>
          refine ⟨.view w, ?_, .view i _ w h1, [t], by simp only [VExp.shapes, hv, ht]⟩
          simp only [DExp.keep, h1]
          rw [act_bind_ok (show Act.lift (Except.ok w) μ = (.ok w, μ) from rfl), h2]
          rfl
      · cases he
    · cases he
  | kept k =>
    simp only [meaning] at he
    split at he
    · next e hk =>
      simp only [Option.some.injEq] at he
      subst he
      have hlt : k < ks.length := by rw [h.count]; exact (List.getElem?_eq_some_iff.mp hk).1
      have hx : ks[k]? = some ks[k] := by simp [hlt]
      obtain ⟨h1, h2, h3⟩ := h.kept k _ _ hx hk
      refine ⟨ks[k], ?_, h1, h3⟩
      simp only [DExp.keep, hx, h2]
      rfl
    · cases he
  | op f a b iha ihb =>
    simp only [meaning] at he
    split at he
    · next x y hx hy =>
      obtain ⟨p, p1, p2, s1, p3⟩ := iha hx
      obtain ⟨q, q1, q2, s2, q3⟩ := ihb hy
      simp only [DExp.keep]
      rw [act_bind_ok p1]
      dsimp only
      rw [act_bind_ok q1]
      dsimp only
      split at he
      · next hn =>
        rw [if_pos hn]
        simp only [Bool.and_eq_true] at hn
        split at he
        · next u v hu hv =>
          simp only [Option.some.injEq] at he
          subst he
          have hs : VExp.shapes E.vs (.op f x y) = some ([[]] ++ [[]]) := by simp only [VExp.shapes, number_shapes hn.1, number_shapes hn.2]
          obtain ⟨w, w1, w2⟩ := kept_read h.same (KeptAs.op f p q x y p2 q2) hs (by simp)
          simp only [VExp.at, hu, hv, Option.some.injEq] at w1
          subst w1
          rw [act_bind_ok w2]
          exact ⟨.val (f u v), rfl, .val _, _, rfl⟩
        · cases he
      · next hn =>
        rw [if_neg hn]
        simp only [Option.some.injEq] at he
        subst he
        exact ⟨.op f p q, rfl, .op f p q x y p2 q2, s1 ++ s2, by simp only [VExp.shapes, p3, q3]⟩
    · cases he

/-- Keeping it. -/
theorem hold_same {μ0 μ : Mem V} {as : List Arr} {ks : List (Kept V)} {E : Env V} (h : SameLater μ0 as ks μ E) (e : DExp V) {e' : VExp V} (he : keeps E e = some e') :
    ∃ x, e.hold as ks μ = (.ok x, μ) ∧ KeptAs as x e' ∧ isNumber E e' = x.rank0 ∧ ∃ ss, VExp.shapes E.vs e' = some ss := by
  simp only [keeps] at he
  split at he
  · next e1 h1 =>
    obtain ⟨x, x1, x2, ss, x3⟩ := keep_same h e h1
    simp only [DExp.hold]
    rw [act_bind_ok x1]
    dsimp only
    split at he
    · next hn =>
      rw [if_pos hn]
      split at he
      · next u hu =>
        simp only [Option.some.injEq] at he
        subst he
        obtain ⟨w, w1, w2⟩ := kept_read h.same x2 (number_shapes hn) (by simp)
        rw [hu] at w1
        cases w1
        rw [act_bind_ok w2]
        exact ⟨.val u, rfl, .val u, rfl, _, rfl⟩
      · cases he
    · next hn =>
      rw [if_neg hn]
      simp only [Option.some.injEq] at he
      subst he
      refine ⟨x, rfl, x2, ?_, ss, x3⟩
      cases x2 with
      | val x => exact absurd rfl hn
      | arr i a h => simpa [Kept.rank0] using hn
      | view i ops w h => simpa [Kept.rank0] using hn
      | op f a b x y ha hb => rfl
  · cases he

theorem put_shape_map {vs : List (Value V)} {i : Nat} {v w : Value V} (hv : vs[i]? = some v) (hw : w.shape = v.shape) (l : Nat) :
    ((vs.set i w)[l]?).map Value.shape = (vs[l]?).map Value.shape := by
  rw [List.getElem?_set]
  split
  · next h =>
    subst h
    rw [if_pos (List.getElem?_eq_some_iff.mp hv).1, hv]
    simp [hw]
  · rfl

theorem loop_shape {f : V → V → V} {i : Nat} {e : Exp V} {js : List (List Int)} {vs vs' : List (Value V)} (h : loop f i e js vs = some vs') (l : Nat) :
    (vs'[l]?).map Value.shape = (vs[l]?).map Value.shape := by
  induction js generalizing vs with
  | nil => simp only [loop, Option.some.injEq] at h; rw [h]
  | cons j js ih =>
    simp only [loop] at h
    split at h
    · next v x hv hx =>
      split at h
      · rw [ih h]
        exact put_shape_map hv (w := v.put _ _) rfl l
      · cases h
    · cases h

theorem vloop_shape {f : V → V → V} {i : Nat} {ops : List ViewOp} {e : VExp V} {js : List (List Int)} {vs vs' : List (Value V)} (h : vloop f i ops e js vs = some vs') (l : Nat) :
    (vs'[l]?).map Value.shape = (vs[l]?).map Value.shape := by
  induction js generalizing vs with
  | nil => simp only [vloop, Option.some.injEq] at h; rw [h]
  | cons j js ih =>
    simp only [vloop] at h
    split at h
    · next v x hv hx =>
      split at h
      · rw [ih h]
        exact put_shape_map hv (w := v.put _ _) rfl l
      · cases h
    · cases h

theorem assigns_shape {f : V → V → V} {vs vs' : List (Value V)} {i : Nat} {ops : List ViewOp} {e : VExp V} (h : Assigns f vs i ops e vs') (l : Nat) :
    (vs'[l]?).map Value.shape = (vs[l]?).map Value.shape := by
  obtain ⟨_, _, _, _, _, _, _, _, h⟩ := h
  exact vloop_shape h l

/-- The arrays that aren't replaced keep their shape. -/
theorem effect_shape {vs vs' : List (Value V)} {c : VCmd V} (h : VCmd.Effect vs c vs') (l : Nat) (hl : l < vs.length) (hr : l ∉ replaced c) :
    (vs'[l]?).map Value.shape = (vs[l]?).map Value.shape := by
  have app : ∀ x, vs' = vs ++ x → (vs'[l]?).map Value.shape = (vs[l]?).map Value.shape := by
    rintro x rfl
    rw [List.getElem?_append_left hl]
  have one : ∀ i w, vs' = vs.set i w → l ≠ i → (vs'[l]?).map Value.shape = (vs[l]?).map Value.shape := by
    rintro i w rfl hi
    rw [List.getElem?_set, if_neg (Ne.symm hi)]
  cases c with
  | assign i ops e => exact assigns_shape h l
  | update f i ops e => exact assigns_shape h l
  | cmd c =>
    simp only [VCmd.Effect] at h
    cases c with
    | set i j x =>
      simp only [Cmd.effect] at h
      split at h
      · next v hv =>
        split at h
        · simp only [Option.some.injEq] at h
          subst h
          exact put_shape_map hv (w := v.put j x) rfl l
        · cases h
      · cases h
    | assign i e =>
      simp only [Cmd.effect] at h
      split at h
      · split at h
        · exact loop_shape h l
        · cases h
      · cases h
    | update f i e =>
      simp only [Cmd.effect] at h
      split at h
      · split at h
        · exact loop_shape h l
        · cases h
      · cases h
    | op o =>
      cases o with
      | «default» rk => simp only [Cmd.effect, Option.some.injEq] at h; exact app _ h.symm
      | create rk o fill s => simp only [Cmd.effect, Option.some.injEq] at h; exact app _ h.symm
      | resize i o fill n =>
        simp only [Cmd.effect] at h
        split at h
        · simp only [Option.some.injEq] at h; exact one i _ h.symm (by simpa [replaced] using hr)
        · cases h
      | resizeShape i o fill s =>
        simp only [Cmd.effect] at h
        split at h
        · simp only [Option.some.injEq] at h; exact one i _ h.symm (by simpa [replaced] using hr)
        · cases h
      | pushBack i o x =>
        simp only [Cmd.effect] at h
        split at h
        · simp only [Option.some.injEq] at h; exact one i _ h.symm (by simpa [replaced] using hr)
        · cases h
      | popBack i =>
        simp only [Cmd.effect] at h
        split at h
        · simp only [Option.some.injEq] at h; exact one i _ h.symm (by simpa [replaced] using hr)
        · cases h
      | copy i j o =>
        simp only [Cmd.effect] at h
        split at h
        · simp only [Option.some.injEq] at h; exact one i _ h.symm (by simpa [replaced] using hr)
        · cases h
      | swap i j =>
        simp only [Cmd.effect] at h
        split at h
        · simp only [Option.some.injEq] at h
          subst h
          simp only [replaced, List.mem_cons, List.not_mem_nil, or_false, not_or] at hr
          rw [List.getElem?_set, if_neg (Ne.symm hr.2), List.getElem?_set, if_neg (Ne.symm hr.1)]
        · cases h
      | run p => simp [Cmd.effect] at h

theorem dassign_iter {μ0 μ : Mem V} {as : List Arr} {ks : List (Kept V)} {E : Env V} (h : SameLater μ0 as ks μ E) (dyn : Bool) (z : List Int) (i : Nat) (ops : List ViewOp) (e : DExp V)
    {x : VExp V} (he : meaning E e = some x) (f : V → V → V) :
    (∀ r as' μ', (VCmd.assign i ops x).step dyn z as μ = (r, as', μ') → (DCmd.assign i ops e).step dyn z as ks μ = (r, as', ks, μ')) ∧
    (∀ r as' μ', (VCmd.update f i ops x).step dyn z as μ = (r, as', μ') → (DCmd.update f i ops e).step dyn z as ks μ = (r, as', ks, μ')) := by
  obtain ⟨k, k1, k2, _⟩ := keep_same h e he
  obtain ⟨t, t1, t2⟩ := k2.iter
  constructor
  · intro r as' μ' hs
    simp only [VCmd.step, t2] at hs
    simp only [DCmd.step, k1]
    cases hw : viewOf as i ops with
    | error e =>
      rw [hw] at hs
      simp only [Prod.mk.injEq] at hs
      obtain ⟨rfl, rfl, rfl⟩ := hs
      rfl
    | ok w =>
      rw [hw] at hs
      simp only [Prod.mk.injEq] at hs
      obtain ⟨rfl, rfl, rfl⟩ := hs
      simp only [t1]
  · intro r as' μ' hs
    simp only [VCmd.step, t2] at hs
    simp only [DCmd.step, k1]
    cases hw : viewOf as i ops with
    | error e =>
      rw [hw] at hs
      simp only [Prod.mk.injEq] at hs
      obtain ⟨rfl, rfl, rfl⟩ := hs
      rfl
    | ok w =>
      rw [hw] at hs
      simp only [Prod.mk.injEq] at hs
      obtain ⟨rfl, rfl, rfl⟩ := hs
      simp only [t1]

theorem later_assign {μ0 μ μ' : Mem V} {as as' : List Arr} {ks : List (Kept V)} {E : Env V} {vs' : List (Value V)} (h : SameLater μ0 as ks μ E) (ha : as' = as)
    (hs : Same μ0 as' vs' μ') (hsh : ∀ l : Nat, (vs'[l]?).map Value.shape = (E.vs[l]?).map Value.shape) : SameLater μ0 as' ks μ' ⟨vs', E.rks, E.ks⟩ := by
  subst ha
  refine ⟨hs, h.ranks, h.count, fun k x e hk he => ?_⟩
  obtain ⟨h1, h2, ss, h3⟩ := h.kept k x e hk he
  refine ⟨h1, ?_, ss, ?_⟩
  · rw [← h2]
    exact isNumber_congr (E := E) (fun i _ => hsh i) (fun _ _ => rfl)
  · rw [← h3]
    exact shapes_congr fun i _ => hsh i

theorem dstep_same {μ0 μ μ' : Mem V} {as as' : List Arr} {ks ks' : List (Kept V)} {E E' : Env V} (dyn : Bool) (z : List Int) (hz : ∀ i ∈ z, i = 0) (c : DCmd V)
    (hr : ∀ p, c ≠ .cmd (.cmd (.op (.run p)))) (h : SameLater μ0 as ks μ E) (he : DCmd.Effect E c E') (hs : c.step dyn z as ks μ = (.ok (), as', ks', μ')) :
    SameLater μ0 as' ks' μ' E' := by
  cases he with
  | cmd c vs' he =>
    have hs' : c.step dyn z as μ = (.ok (), as', μ') ∧ ks' = ks := by
      simp only [DCmd.step, Prod.mk.injEq] at hs
      exact ⟨Prod.ext hs.1 (Prod.ext hs.2.1 hs.2.2.2), hs.2.2.1.symm⟩
    obtain ⟨hs', rfl⟩ := hs'
    obtain ⟨h1, h2⟩ := step_arrays dyn z c hs'
    refine ⟨vstep_same dyn z hz c (fun p hp => hr p (by rw [hp])) h.same he hs', by rw [h2, h.ranks], by simp [h.count], fun k x e hk hke => ?_⟩
    simp only [List.getElem?_map, Option.map_eq_some_iff, Prod.mk.injEq, Bool.and_eq_true, List.all_eq_true, decide_eq_true_eq] at hke
    obtain ⟨⟨e0, b⟩, hke, rfl, hb, hall⟩ := hke
    simp only at hb
    subst hb
    obtain ⟨k1, k2, ss, k3⟩ := h.kept k x e0 hk hke
    have hlt := arrays_lt k3
    have hlen : as.length = E.vs.length := h.same.len
    refine ⟨k1.mono fun i hi => h1 i (by rw [hlen]; exact hlt i hi) (hall i hi), ?_, ss, ?_⟩
    · rw [← k2]
      refine isNumber_congr (E := E) (fun i hi => effect_shape he i (hlt i hi) (hall i hi)) fun i hi => ?_
      rw [List.getElem?_append_left]
      rw [← h.ranks, List.length_map, hlen]
      exact hlt i hi
    · rw [← k3]
      exact shapes_congr fun i hi => effect_shape he i (hlt i hi) (hall i hi)
  | make e x he =>
    obtain ⟨y, y1, y2, y3, y4⟩ := hold_same h e he
    simp only [DCmd.step, y1, Prod.mk.injEq, true_and] at hs
    obtain ⟨rfl, rfl, rfl⟩ := hs
    refine ⟨h.same, h.ranks, by simp [h.count], fun k x' e' hk hke => ?_⟩
    by_cases hlt : k < ks.length
    · rw [List.getElem?_append_left hlt] at hk
      rw [List.getElem?_append_left (by rw [← h.count]; exact hlt)] at hke
      obtain ⟨k1, k2, k3⟩ := h.kept k x' e' hk hke
      exact ⟨k1, by rw [← k2]; exact isNumber_congr (E := E) (fun _ _ => rfl) fun _ _ => rfl, k3⟩
    · rw [List.getElem?_append_right (by omega)] at hk
      rw [List.getElem?_append_right (by rw [← h.count]; omega), ← h.count] at hke
      have hk0 : k - ks.length = 0 := by
        rcases Nat.eq_zero_or_pos (k - ks.length) with h | h
        · exact h
        · rw [List.getElem?_eq_none (by simp; omega)] at hk; cases hk
      rw [hk0] at hk hke
      simp only [List.getElem?_cons_zero, Option.some.injEq, Prod.mk.injEq, and_true] at hk hke
      subst hk hke
      exact ⟨y2, by rw [← y3]; exact isNumber_congr (E := E) (fun _ _ => rfl) fun _ _ => rfl, y4⟩
  | assign i ops e x vs' he ha =>
    cases hv : (VCmd.assign i ops x).step dyn z as μ with
    | mk r p =>
      obtain ⟨as1, μ1⟩ := p
      have hd := (dassign_iter h dyn z i ops e he (fun _ x => x)).1 r as1 μ1 hv
      rw [hd] at hs
      simp only [Prod.mk.injEq] at hs
      obtain ⟨rfl, rfl, rfl, rfl⟩ := hs
      have hsame := vstep_same dyn z hz (.assign i ops x) (by intro p hp; cases hp) h.same ha hv
      refine later_assign h ?_ hsame fun l => assigns_shape ha l
      simp only [VCmd.step] at hv
      split at hv <;> simp at hv <;> simp [hv]
  | update f i ops e x vs' he ha =>
    cases hv : (VCmd.update f i ops x).step dyn z as μ with
    | mk r p =>
      obtain ⟨as1, μ1⟩ := p
      have hd := (dassign_iter h dyn z i ops e he f).2 r as1 μ1 hv
      rw [hd] at hs
      simp only [Prod.mk.injEq] at hs
      obtain ⟨rfl, rfl, rfl, rfl⟩ := hs
      have hsame := vstep_same dyn z hz (.update f i ops x) (by intro p hp; cases hp) h.same ha hv
      refine later_assign h ?_ hsame fun l => assigns_shape ha l
      simp only [VCmd.step] at hv
      split at hv <;> simp at hv <;> simp [hv]

theorem dprogram_same {μ0 μ μ' : Mem V} {as as' : List Arr} {ks ks' : List (Kept V)} {E E' : Env V} (dyn : Bool) (z : List Int) (hz : ∀ i ∈ z, i = 0) (cs : List (DCmd V))
    (hr : ∀ p, DCmd.cmd (.cmd (.op (.run p))) ∉ cs) (h : SameLater μ0 as ks μ E) (he : DEffects cs E E') (hs : dprogram dyn z cs as ks μ = (.ok (), as', ks', μ')) :
    SameLater μ0 as' ks' μ' E' := by
  induction cs generalizing as ks μ E with
  | nil =>
    simp only [dprogram, Prod.mk.injEq, true_and] at hs
    obtain ⟨rfl, rfl, rfl⟩ := hs
    simp only [DEffects] at he
    subst he
    exact h
  | cons c cs ih =>
    simp only [dprogram] at hs
    obtain ⟨E1, e1, e2⟩ := he
    split at hs
    · next as1 ks1 μ1 h1 => exact ih (fun p hp => hr p (by simp [hp])) (dstep_same dyn z hz c (fun p hp => hr p (by simp [hp])) h e1 h1) e2 hs
    · simp at hs

theorem later_start (μ0 : Mem V) : SameLater μ0 [] [] μ0 ⟨[], [], []⟩ := ⟨same_start μ0, rfl, rfl, by simp⟩

/-- C87. In programs where expressions are kept to be used later, the arrays have the values that they'd have if what's kept were the texts of the expressions, with each use replaced by the text. -/
theorem C87_values (dyn : Bool) (z : List Int) (hz : ∀ i ∈ z, i = 0) (cs : List (DCmd V)) (hr : ∀ p, DCmd.cmd (.cmd (.op (.run p))) ∉ cs) (as : List Arr) (ks : List (Kept V)) (E : Env V)
    (μ0 μ : Mem V) (hs : dprogram dyn z cs [] [] μ0 = (.ok (), as, ks, μ)) (he : DEffects cs ⟨[], [], []⟩ E) :
    List.Forall₂ (Represents μ) as E.vs ∧ ∀ p, (μ0 p).isSome → μ p = μ0 p := by
  have h := (dprogram_same dyn z hz cs hr (later_start μ0) he hs).same
  refine ⟨List.forall₂_iff_get.mpr ⟨h.len, fun i hi hi' => ?_⟩, h.rest⟩
  rw [rep_iff]
  exact h.rep i _ _ (by simp) (by simp)

/-- C87. The operations on arrays and expressions that have an effect don't fail, other than those that change the sizes of arrays. -/
theorem C87_runs (dyn : Bool) (z : List Int) (hz : ∀ i ∈ z, i = 0) (cs : List (DCmd V)) (hr : ∀ p, DCmd.cmd (.cmd (.op (.run p))) ∉ cs) (as : List Arr) (ks : List (Kept V)) (E E' : Env V)
    (μ0 μ : Mem V) (hs : dprogram dyn z cs [] [] μ0 = (.ok (), as, ks, μ)) (he : DEffects cs ⟨[], [], []⟩ E) (c : DCmd V) (hc : ∀ c', c ≠ .cmd c') (h' : DCmd.Effect E c E') :
    ∃ ks' μ', c.step dyn z as ks μ = (.ok (), as, ks', μ') := by
  have h := dprogram_same dyn z hz cs hr (later_start μ0) he hs
  cases h' with
  | cmd c vs' he => exact absurd rfl (hc c)
  | make e x he =>
    obtain ⟨y, y1, _⟩ := hold_same h e he
    exact ⟨ks ++ [y], μ, by simp only [DCmd.step, y1]⟩
  | assign i ops e x vs' he ha =>
    obtain ⟨w, t, μ1, h1, h2, h3, _⟩ := same_vassign dyn z hz (fun _ x => x) i ops x setOp (fun μ d x p v y h1 h2 h3 => set_run h1 h2 (by simp [h3])) h.same ha
    rw [show (do let _ ← ply (β := Unit) dyn never z (.node (mapOp setOp) [w.refs, t]); pure () : Act V Unit) = Ra.assign dyn z w.refs t from rfl] at h3
    exact ⟨ks, μ1, (dassign_iter h dyn z i ops e he fun _ x => x).1 _ _ _ (by simp only [VCmd.step, h1, h2, h3])⟩
  | update f i ops e x vs' he ha =>
    obtain ⟨w, t, μ1, h1, h2, h3, _⟩ := same_vassign dyn z hz f i ops x (updOp f) (fun μ d x p v y h1 h2 h3 => upd_run f h1 h2 h3) h.same ha
    rw [show (do let _ ← ply (β := Unit) dyn never z (.node (mapOp (updOp f)) [w.refs, t]); pure () : Act V Unit) = Ra.update f dyn z w.refs t from rfl] at h3
    exact ⟨ks, μ1, (dassign_iter h dyn z i ops e he f).2 _ _ _ (by simp only [VCmd.step, h1, h2, h3])⟩

theorem kept_lasts {cs : List (DCmd V)} {E E' : Env V} (he : DEffects cs E E') {k : Nat} {x : VExp V} (hk : E.ks[k]? = some (x, true))
    (hc : ∀ c, DCmd.cmd c ∈ cs → ∀ i ∈ VExp.arrays x, i ∉ replaced c) : E'.ks[k]? = some (x, true) := by
  induction cs generalizing E with
  | nil =>
    simp only [DEffects] at he
    subst he
    exact hk
  | cons c cs ih =>
    obtain ⟨E1, e1, e2⟩ := he
    refine ih e2 ?_ fun c hcm => hc c (by simp [hcm])
    cases e1 with
    | cmd c vs' h =>
      simp only [List.getElem?_map, hk, Option.map_some, Option.some.injEq, Prod.mk.injEq, true_and, Bool.true_and, List.all_eq_true, decide_eq_true_eq]
      exact fun i hi => hc c (by simp) i hi
    | make e y h =>
      rw [List.getElem?_append_left (List.getElem?_eq_some_iff.mp hk).1]
      exact hk
    | assign i ops e y vs' h ha => exact hk
    | update f i ops e y vs' h ha => exact hk

/-- C87. Make an expression `e`, which is kept as the text `x`; then do anything that doesn't replace or resize the arrays in `x`; then assign what was kept to any view. This has the same result as to write `x` in that
place, and leaves the same memory. -/
theorem C87_later (dyn : Bool) (z : List Int) (hz : ∀ i ∈ z, i = 0) (cs cs' : List (DCmd V)) (e : DExp V) (hr : ∀ p, DCmd.cmd (.cmd (.op (.run p))) ∉ cs ++ .make e :: cs') (as : List Arr)
    (ks : List (Kept V)) (E E' : Env V) (μ0 μ : Mem V) (x : VExp V) (hs : dprogram dyn z (cs ++ .make e :: cs') [] [] μ0 = (.ok (), as, ks, μ)) (he : DEffects cs ⟨[], [], []⟩ E)
    (hx : keeps E e = some x) (he' : DEffects cs' ⟨E.vs, E.rks, E.ks ++ [(x, true)]⟩ E') (hc : ∀ c, DCmd.cmd c ∈ cs' → ∀ i ∈ VExp.arrays x, i ∉ replaced c) (f : V → V → V) (i : Nat)
    (ops : List ViewOp) (r : Except Fault Unit) (μ' : Mem V) :
    ((VCmd.assign i ops x).step dyn z as μ = (r, as, μ') → (DCmd.assign i ops (.kept E.ks.length)).step dyn z as ks μ = (r, as, ks, μ')) ∧
    ((VCmd.update f i ops x).step dyn z as μ = (r, as, μ') → (DCmd.update f i ops (.kept E.ks.length)).step dyn z as ks μ = (r, as, ks, μ')) := by
  have hall : DEffects (cs ++ .make e :: cs') ⟨[], [], []⟩ E' := by
    have key : ∀ (cs : List (DCmd V)) E0, DEffects cs E0 E → DEffects (cs ++ .make e :: cs') E0 E' := by
      intro cs
      induction cs with
      | nil =>
        intro E0 h
        simp only [DEffects] at h
        subst h
        exact ⟨_, .make _ e x hx, he'⟩
      | cons c cs ih =>
        rintro E0 ⟨E1, h1, h2⟩
        exact ⟨E1, h1, ih E1 h2⟩
    exact key cs _ he
  have h := dprogram_same dyn z hz _ hr (later_start μ0) hall hs
  have hk := kept_lasts he' (k := E.ks.length) (x := x) (by simp) hc
  have hm : meaning E' (.kept E.ks.length) = some x := by simp only [meaning, hk]
  have := dassign_iter h dyn z i ops (.kept E.ks.length) hm f
  exact ⟨this.1 r as μ', this.2 r as μ'⟩

theorem number_at {μ0 μ : Mem V} {as : List Arr} {vs : List (Value V)} {ks : List (Kept V)} {E : Env V} (h : SameLater μ0 as ks μ E) {e : VExp V} (hn : isNumber E e = true) (j : List Int) :
    VExp.at E.vs j e = VExp.at E.vs [] e := by
  cases e with
  | const x => rfl
  | op f a b => cases hn
  | view i ops =>
    simp only [isNumber] at hn
    split at hn
    · next v r hv hr =>
      simp only [decide_eq_true_eq] at hn
      obtain ⟨a, ha, hrv⟩ := h.same.geta hv
      obtain ⟨w, h1, h2, h3⟩ := place_ok hrv hn
      have hd : w.dims = [] := by simpa using h2.length_eq
      obtain ⟨_, k, y, f1, f2, f3, f4, f5⟩ := h3 j ⟨by simp, by simp⟩
      obtain ⟨_, k', y', g1, g2, g3, g4, g5⟩ := h3 [] ⟨by simp, by simp⟩
      have : address w j = address w [] := by simp [address, hd]
      rw [this, g3] at f3
      rw [← f3, g4] at f4
      cases f4
      simp only [VExp.at, hv, f5, g5]
    · cases hn

/-- C87. What an expression means when it's made has the elements that the expression has at that time. -/
theorem C87_now (dyn : Bool) (z : List Int) (hz : ∀ i ∈ z, i = 0) (cs : List (DCmd V)) (hr : ∀ p, DCmd.cmd (.cmd (.op (.run p))) ∉ cs) (as : List Arr) (ks : List (Kept V)) (E : Env V)
    (μ0 μ : Mem V) (hs : dprogram dyn z cs [] [] μ0 = (.ok (), as, ks, μ)) (he : DEffects cs ⟨[], [], []⟩ E) (e : DExp V) (x : VExp V) (j : List Int) :
    (meaning E e = some x → VExp.at E.vs j x = DExp.at E j e) ∧ (keeps E e = some x → VExp.at E.vs j x = DExp.at E j e) := by
  have h := dprogram_same dyn z hz cs hr (later_start μ0) he hs
  have key : ∀ (e : DExp V) x, meaning E e = some x → VExp.at E.vs j x = DExp.at E j e := by
    intro e
    induction e with
    | const x => intro x' hx; simp only [meaning, Option.some.injEq] at hx; subst hx; rfl
    | view i ops =>
      intro x' hx
      simp only [meaning] at hx
      split at hx
      · split at hx
        · simp only [Option.some.injEq] at hx; subst hx; rfl
        · cases hx
      · cases hx
    | kept k =>
      intro x' hx
      simp only [meaning] at hx
      split at hx
      · next e hk => simp only [Option.some.injEq] at hx; subst hx; simp only [DExp.at, hk]
      · cases hx
    | op f a b iha ihb =>
      intro x' hx
      simp only [meaning] at hx
      split at hx
      · next p q hp hq =>
        simp only [DExp.at, ← iha p hp, ← ihb q hq]
        split at hx
        · next hn =>
          simp only [Bool.and_eq_true] at hn
          split at hx
          · next u v hu hv =>
            simp only [Option.some.injEq] at hx
            subst hx
            rw [number_at (vs := E.vs) h hn.1, number_at (vs := E.vs) h hn.2, hu, hv]
            rfl
          · cases hx
        · simp only [Option.some.injEq] at hx
          subst hx
          rfl
      · cases hx
  refine ⟨key e x, fun hk => ?_⟩
  simp only [keeps] at hk
  split at hk
  · next y hy =>
    rw [← key e y hy]
    split at hk
    · next hn =>
      split at hk
      · next u hu =>
        simp only [Option.some.injEq] at hk
        subst hk
        rw [number_at (vs := E.vs) h hn, hu]
        rfl
      · cases hk
    · simp only [Option.some.injEq] at hk
      subst hk
      rfl
  · cases hk

theorem fails_left {μ : Mem V} {a b : Iter (Act V) (Lv V)} {j : List Int} {err : Fault} (f : V → V → V) (ha : Fails μ (elem a j) err)
    (hb : (∃ y, Reads μ (elem b j) y) ∨ Fails μ (elem b j) err) : Fails μ (elem (binaryOp f a b) j) err := by
  simp only [Fails, elem, elems, binaryOp, valOp]
  rw [mapM_two]
  simp only [bind_assoc, List.mapM_cons, List.mapM_nil, pure_bind]
  rcases fails_cases ha with h | ⟨r, h1, h2⟩
  · rw [act_bind, h]
  · rw [act_bind_ok h1]
    rcases hb with ⟨y, hy⟩ | hb
    · obtain ⟨t, h3, h4⟩ := reads_elim hy
      rw [act_bind_ok h3, act_bind, h2]
    · rcases fails_cases hb with h | ⟨t, h3, h4⟩
      · rw [act_bind, h]
      · rw [act_bind_ok h3, act_bind, h2]

theorem fails_right {μ : Mem V} {a b : Iter (Act V) (Lv V)} {j : List Int} {x : V} {err : Fault} (f : V → V → V) (ha : Reads μ (elem a j) x) (hb : Fails μ (elem b j) err) :
    Fails μ (elem (binaryOp f a b) j) err := by
  obtain ⟨r, h1, h2⟩ := reads_elim ha
  simp only [Fails, elem, elems, binaryOp, valOp]
  rw [mapM_two]
  simp only [bind_assoc, List.mapM_cons, List.mapM_nil, pure_bind]
  rw [act_bind_ok h1]
  rcases fails_cases hb with h | ⟨t, h3, h4⟩
  · rw [act_bind, h]
  · rw [act_bind_ok h3, act_bind_ok h2, act_bind, h4]

theorem read_or_ub (as : List Arr) (μ : Mem V) (j : List Int) (k : Kept V) (t : Iter (Act V) (Lv V)) (ht : k.iter as = some t) :
    (Dangling as μ j k → Fails μ (elem t j) .ub) ∧ (¬ Dangling as μ j k → ∃ x, Reads μ (elem t j) x) := by
  have leaf : ∀ w : View, (μ (address w j) = none → Fails μ (elem (w.refs : Iter (Act V) (Lv V)) j) .ub) ∧ (¬ μ (address w j) = none → ∃ x, Reads μ (elem (w.refs : Iter (Act V) (Lv V)) j) x) := by
    intro w
    refine ⟨fun h => ?_, fun h => ?_⟩
    · simp only [Fails, elem_refs, pure_bind, Lv.get, Act.read, h]
    · obtain ⟨x, hx⟩ := Option.ne_none_iff_exists'.mp h
      exact ⟨x, reads_refs hx⟩
  induction k generalizing t with
  | val x =>
    simp only [Kept.iter, Option.some.injEq] at ht
    subst ht
    exact ⟨fun h => h.elim, fun _ => ⟨x, rfl⟩⟩
  | arr i cp =>
    simp only [Kept.iter] at ht
    split at ht
    · next a ha =>
      simp only [Option.some.injEq] at ht
      subst ht
      refine ⟨fun h => ?_, fun h => (leaf _).2 fun hn => h ⟨a, ha, hn⟩⟩
      obtain ⟨a', ha', hn⟩ := h
      rw [ha] at ha'
      cases ha'
      exact (leaf _).1 hn
    · cases ht
  | view w =>
    simp only [Kept.iter, Option.some.injEq] at ht
    subst ht
    exact leaf w
  | op f a b iha ihb =>
    simp only [Kept.iter] at ht
    split at ht
    · next x y hx hy =>
      simp only [Option.some.injEq] at ht
      subst ht
      have ha := iha x hx
      have hb := ihb y hy
      by_cases da : Dangling as μ j a
      · refine ⟨fun _ => fails_left f (ha.1 da) ?_, fun h => absurd (Or.inl da) h⟩
        by_cases db : Dangling as μ j b
        · exact .inr (hb.1 db)
        · exact .inl (hb.2 db)
      · obtain ⟨u, hu⟩ := ha.2 da
        by_cases db : Dangling as μ j b
        · exact ⟨fun _ => fails_right f hu (hb.1 db), fun h => absurd (Or.inr db) h⟩
        · obtain ⟨v, hv⟩ := hb.2 db
          exact ⟨fun h => absurd h (by rintro (h | h); exact da h; exact db h), fun _ => ⟨f u v, reads_binary f hu hv⟩⟩
    · cases ht

theorem dangling_congr {as : List Arr} {μ μ' : Mem V} (h : ∀ p, μ' p = none ↔ μ p = none) (j : List Int) (k : Kept V) : Dangling as μ' j k ↔ Dangling as μ j k := by
  induction k with
  | val x => exact Iff.rfl
  | arr i cp => simp only [Dangling, h]
  | view w => simp only [Dangling, h]
  | op f a b iha ihb => simp only [Dangling, iha, ihb]

/-- If every step either is undefined behavior, for the indices in `D`, or doesn't change what's in use, for the others, then so is the whole. -/
theorem forAll_or_ub (F : List Int → Act V (Lv V)) (D : List Int → Prop) (μ0 : Mem V) (l : List (List Int))
    (h : ∀ j ∈ l, ∀ μ : Mem V, (∀ p, μ p = none ↔ μ0 p = none) → (D j → F j μ = (.error .ub, μ)) ∧ (¬ D j → ∃ r μ', F j μ = (.ok r, μ') ∧ ∀ p, μ' p = none ↔ μ0 p = none)) :
    ∀ μ : Mem V, (∀ p, μ p = none ↔ μ0 p = none) → ((∃ j ∈ l, D j) → (forAll F l μ).1 = .error .ub) ∧ ((∀ j ∈ l, ¬ D j) → (forAll F l μ).1 = .ok ()) := by
  induction l with
  | nil => exact fun μ _ => ⟨fun ⟨j, hj, _⟩ => by simp at hj, fun _ => rfl⟩
  | cons j l ih =>
    intro μ hμ
    obtain ⟨h1, h2⟩ := h j (by simp) μ hμ
    simp only [forAll]
    by_cases d : D j
    · refine ⟨fun _ => ?_, fun hn => absurd d (hn j (by simp))⟩
      rw [act_bind, h1 d]
    · obtain ⟨r, μ', e1, e2⟩ := h2 d
      rw [act_bind_ok e1]
      obtain ⟨i1, i2⟩ := ih (fun k hk => h k (by simp [hk])) μ' e2
      refine ⟨fun ⟨k, hk, dk⟩ => i1 ?_, fun hn => i2 fun k hk => hn k (by simp [hk])⟩
      rcases List.mem_cons.mp hk with rfl | hk
      · exact absurd dk d
      · exact ⟨k, hk, dk⟩

theorem upd_use {μ μ0 : Mem V} {p : Int} {x : V} (h : ∀ p, μ p = none ↔ μ0 p = none) (hp : (μ0 p).isSome) : ∀ q, (μ.upd p x) q = none ↔ μ0 q = none := by
  intro q
  simp only [Mem.upd]
  split
  · next e =>
    subst e
    constructor
    · intro h; cases h
    · intro h; rw [h] at hp; cases hp
  · exact h q

/-- C87. Use of what was kept, when the shapes agree and the destination is in use: undefined behavior if and only if some of the places that would be read isn't in use. -/
theorem C87_dangling (dyn : Bool) (z : List Int) (hz : ∀ i ∈ z, i = 0) (as : List Arr) (ks : List (Kept V)) (μ : Mem V) (k : Nat) (x : Kept V) (hk : ks[k]? = some x) (i : Nat) (ops : List ViewOp) (w : View)
    (hw : viewOf as i ops = .ok w) (t : Iter (Act V) (Lv V)) (ht : x.iter as = some t) (s : List Nat) (sx : List Length) (hs : Shaped w (s.map some)) (hx : HasShape t sx)
    (hm : Merge [s.map some, sx] (s.map some)) (hin : ∀ j, Valid s j → (μ (address w j)).isSome) (f : V → V → V) (c : DCmd V) (hc : c = .assign i ops (.kept k) ∨ c = .update f i ops (.kept k)) :
    ((∃ j, Valid s j ∧ Dangling as μ j x) → (c.step dyn z as ks μ).1 = .error .ub) ∧ ((∀ j, Valid s j → ¬ Dangling as μ j x) → (c.step dyn z as ks μ).1 = .ok ()) := by
  have key : ∀ F : List (Lv V) → Act V (Lv V), (∀ μ1 : Mem V, (∀ p, μ1 p = none ↔ μ p = none) → ∀ j, Valid s j →
      (Fails μ1 (elem t j) .ub → mapOp F [elem w.refs j, elem t j] μ1 = (.error .ub, μ1)) ∧
      ((∃ y, Reads μ1 (elem t j) y) → ∃ r μ', mapOp F [elem w.refs j, elem t j] μ1 = (.ok r, μ') ∧ ∀ p, μ' p = none ↔ μ p = none)) →
      ((∃ j, Valid s j ∧ Dangling as μ j x) → (forAll (fun j => mapOp F [elem w.refs j, elem t j]) (rowMajor s) μ).1 = .error .ub) ∧
      ((∀ j, Valid s j → ¬ Dangling as μ j x) → (forAll (fun j => mapOp F [elem w.refs j, elem t j]) (rowMajor s) μ).1 = .ok ()) := by
    intro F hF
    obtain ⟨h1, h2⟩ := forAll_or_ub (fun j => mapOp F [elem w.refs j, elem t j]) (fun j => Dangling as μ j x) μ (rowMajor s) (by
      intro j hj μ1 h1
      obtain ⟨f1, f2⟩ := hF μ1 h1 j (mem_rowMajor.mp hj)
      obtain ⟨r1, r2⟩ := read_or_ub as μ1 j x t ht
      rw [dangling_congr h1] at r1 r2
      exact ⟨fun d => f1 (r1 d), fun d => f2 (r2 d)⟩) μ (fun _ => Iff.rfl)
    exact ⟨fun ⟨j, h, d⟩ => h1 ⟨j, mem_rowMajor.mpr h, d⟩, fun h => h2 fun j hj => h j (mem_rowMajor.mp hj)⟩
  have hsome : ∀ {μ1 : Mem V}, (∀ p, μ1 p = none ↔ μ p = none) → ∀ j, Valid s j → ∃ y, μ1 (address w j) = some y := by
    intro μ1 h1 j hj
    cases e : μ1 (address w j) with
    | some y => exact ⟨y, rfl⟩
    | none =>
      have := hin j hj
      rw [(h1 _).mp e] at this
      cases this
  have hkeep : (DExp.kept k).keep as ks μ = (.ok (x, x.rank0), μ) := by
    simp only [DExp.keep, hk]
    rfl
  rcases hc with rfl | rfl
  · simp only [DCmd.step, hw, hkeep, ht]
    unfold assign
    rw [run_forAll dyn z hz _ w.refs t _ sx s (refs_shape hs) hx hm]
    refine key setOp fun μ1 h1 j hj => ⟨fun h => set_fail (refers_refs μ1 w j) h, fun ⟨y, hy⟩ => ?_⟩
    obtain ⟨u, hu⟩ := hsome h1 j hj
    exact ⟨_, _, set_run (refers_refs μ1 w j) hy (by simp [hu]), upd_use h1 (hin j hj)⟩
  · simp only [DCmd.step, hw, hkeep, ht]
    unfold update
    rw [run_forAll dyn z hz _ w.refs t _ sx s (refs_shape hs) hx hm]
    refine key (updOp f) fun μ1 h1 j hj => ⟨fun h => upd_fail f (refers_refs μ1 w j) h, fun ⟨y, hy⟩ => ?_⟩
    obtain ⟨u, hu⟩ := hsome h1 j hj
    exact ⟨_, _, upd_run f (refers_refs μ1 w j) hy hu, upd_use h1 (hin j hj)⟩

end
end Ra.Props
/-! Examples. -/
namespace Ra.Props
open Spec
/-- `a` is 0 1 2, `b` is 0 0 0, `n` is 5 and `c` is 0 0 0 0 0; `auto e = a + n*n; auto g = e + n; a += 100; n = 7; b = e; a(reversed) = g`. -/
def egDelay : List (DCmd Int) := [.cmd (.cmd (.op (.create (some 1) (some 0) (fun i => i) [3]))), .cmd (.cmd (.op (.create (some 1) (some 10) (fun _ => 0) [3]))),
  .cmd (.cmd (.op (.create (some 0) (some 20) (fun _ => 5) []))),
  .make (.op (· + ·) (.view 0 []) (.op (· * ·) (.view 2 []) (.view 2 []))), .make (.op (· + ·) (.kept 0) (.view 2 [])),
  .update (· + ·) 0 [] (.const 100), .assign 2 [] (.const 7), .assign 1 [] (.kept 0), .assign 1 [.reverse 0] (.kept 1)]

example : ∀ p, DCmd.cmd (.cmd (.op (.run p))) ∉ egDelay := by simp [egDelay]

example : (dprogram true [] egDelay [] [] noMem).1.isOk = true := by decide +kernel

example : (List.range 3).map (fun i => (dprogram true [] egDelay [] [] noMem).2.2.2 (10 + i)) = [some 134, some 133, some 132] := by decide +kernel

def egDelayEnv : Env Int := ⟨[⟨[3], [100, 101, 102]⟩, ⟨[3], [125, 126, 127]⟩, ⟨[], [7]⟩], [some 1, some 1, some 0],
  [(.op (· + ·) (.view 0 []) (.const 25), true), (.op (· + ·) (.op (· + ·) (.view 0 []) (.const 25)) (.view 2 []), true)]⟩

/-- The product `n*n` was done when `e` was made; the sum with `n` in `g` is for later. -/
theorem egDelay_made : DEffects (egDelay.take 4) ⟨[], [], []⟩ ⟨[⟨[3], [0, 1, 2]⟩, ⟨[3], [0, 0, 0]⟩, ⟨[], [5]⟩], [some 1, some 1, some 0], [(.op (· + ·) (.view 0 []) (.const 25), true)]⟩ :=
  ⟨_, .cmd _ _ [⟨[3], [0, 1, 2]⟩] (by simp only [VCmd.Effect]; decide +kernel), _, .cmd _ _ [⟨[3], [0, 1, 2]⟩, ⟨[3], [0, 0, 0]⟩] (by simp only [VCmd.Effect]; decide +kernel),
    _, .cmd _ _ [⟨[3], [0, 1, 2]⟩, ⟨[3], [0, 0, 0]⟩, ⟨[], [5]⟩] (by simp only [VCmd.Effect]; decide +kernel), _, .make _ _ _ rfl, rfl⟩

theorem egDelay_rest : DEffects ((egDelay.drop 4).take 4) ⟨[⟨[3], [0, 1, 2]⟩, ⟨[3], [0, 0, 0]⟩, ⟨[], [5]⟩], [some 1, some 1, some 0], [(.op (· + ·) (.view 0 []) (.const 25), true)]⟩ egDelayEnv := by
  refine ⟨_, .make _ _ _ rfl, _, .update _ _ _ _ _ _ [⟨[3], [100, 101, 102]⟩, ⟨[3], [0, 0, 0]⟩, ⟨[], [5]⟩] rfl ?_, _, .assign _ _ _ _ _ [⟨[3], [100, 101, 102]⟩, ⟨[3], [0, 0, 0]⟩, ⟨[], [7]⟩] rfl ?_,
    _, .assign _ _ _ _ _ [⟨[3], [100, 101, 102]⟩, ⟨[3], [125, 126, 127]⟩, ⟨[], [7]⟩] rfl ?_, rfl⟩
  · refine ⟨_, [some 3], [[]], [3], rfl, by decide +kernel, by decide +kernel, ⟨by simp, ⟨_, .head _, rfl⟩, fun k n => ?_⟩, by decide +kernel⟩
    simp
  · refine ⟨_, [], [[]], [], rfl, by decide +kernel, by decide +kernel, merge_same _, by decide +kernel⟩
  · refine ⟨_, [some 3], [[some 3], []], [3], rfl, by decide +kernel, by decide +kernel, ⟨by simp, ⟨_, .head _, rfl⟩, fun k n => ?_⟩, by decide +kernel⟩
    simp

/-- `auto e = a+1; a.resize(5); b = e`: the array has other memory, and the expression has its new lengths with the old pointer. -/
def egResized : List (DCmd Int) := [.cmd (.cmd (.op (.create (some 1) (some 0) (fun i => i) [3]))), .cmd (.cmd (.op (.create (some 1) (some 10) (fun _ => 0) [5]))),
  .make (.op (· + ·) (.view 0 []) (.const 1)), .cmd (.cmd (.op (.resize 0 (some 20) (fun _ => 0) 5)))]

example : (dprogram true [] egResized [] [] noMem).1.isOk = true := by decide +kernel
example : (dprogram true [] (egResized ++ [.assign 1 [] (.kept 0)]) [] [] noMem).1 = .error .ub := by decide +kernel

/-- `auto e = a+1; swap(a, b); c = e`, where `b` has 5 elements. -/
def egSwapped : List (DCmd Int) := [.cmd (.cmd (.op (.create (some 1) (some 0) (fun i => i) [3]))), .cmd (.cmd (.op (.create (some 1) (some 10) (fun _ => 0) [5]))),
  .cmd (.cmd (.op (.create (some 1) (some 20) (fun _ => 0) [5]))), .make (.op (· + ·) (.view 0 []) (.const 1)), .cmd (.cmd (.op (.swap 0 1)))]

example : (dprogram true [] egSwapped [] [] noMem).1.isOk = true := by decide +kernel
example : (dprogram true [] (egSwapped ++ [.assign 2 [] (.kept 0)]) [] [] noMem).1 = .error .ub := by decide +kernel

/-- The hypotheses of `C87_dangling` hold for `egResized`. -/
example : ∀ c : DCmd Int, c = .assign 1 [] (.kept 0) ∨ c = .update (· * ·) 1 [] (.kept 0) →
    (c.step true [] (dprogram true [] egResized [] [] noMem).2.1 (dprogram true [] egResized [] [] noMem).2.2.1 (dprogram true [] egResized [] [] noMem).2.2.2).1 = .error .ub := by
  intro c hc
  have h1 : (dprogram true [] egResized [] [] noMem).2.2.1 = [.op (· + ·) (.arr 0 0) (.val 1)] := by rfl
  have h2 : (dprogram true [] egResized [] [] noMem).2.1.map Arr.view = [⟨[⟨5, 1⟩], 20⟩, ⟨[⟨5, 1⟩], 10⟩] := by decide +kernel
  have h3 : ∀ k ∈ List.range 5, ((dprogram true [] egResized [] [] noMem).2.2.2 (10 + k)).isSome := by decide +kernel
  have h4 : (dprogram true [] egResized [] [] noMem).2.2.2 0 = none := by decide +kernel
  rw [h1]
  generalize (dprogram true [] egResized [] [] noMem).2.1 = as at *
  generalize (dprogram true [] egResized [] [] noMem).2.2.2 = μ at *
  obtain ⟨a, as, rfl, h5, h6⟩ := List.map_eq_cons_iff.mp h2
  obtain ⟨b, as, rfl, h7, h8⟩ := List.map_eq_cons_iff.mp h6
  simp only [Arr.view, View.mk.injEq] at h5 h7
  have sh : ∀ p, HasShape (View.refs ⟨[⟨5, 1⟩], p⟩ : Iter (Act Int) (Lv Int)) [some 5] := fun p => refs_shape (v := ⟨[⟨5, 1⟩], p⟩) (.cons rfl .nil)
  have hm : Merge [[some 5], ([] : List Length)] [some 5] := ⟨by simp, ⟨_, .head _, rfl⟩, fun k n => by simp⟩
  refine (C87_dangling true [] (by simp) (a :: b :: as) _ μ 0 (.op (· + ·) (.arr 0 0) (.val 1)) rfl 1 [] ⟨[⟨5, 1⟩], 10⟩ (by simp [viewOf, runOps, List.foldlM_nil, pure, Except.pure, Arr.view, h7.1, h7.2])
    (binaryOp (· + ·) (View.refs ⟨[⟨5, 1⟩], 0⟩) (.scalar (pure (.val 1)))) (by simp only [Kept.iter, List.getElem?_cons_zero, h5.1]) [5] [some 5] (.cons rfl .nil)
    (binary_shape _ (sh 0) rfl hm) (merge_same _) ?_ (· * ·) c hc).1 ⟨[0], by simp [Valid], .inl ⟨a, rfl, ?_⟩⟩
  · intro j hj
    match j, hj with
    | [k], hj =>
      simp only [Valid] at hj
      have := h3 k.toNat (by simp; omega)
      rw [Int.toNat_of_nonneg hj.1] at this
      simpa [address, dot] using this
  · simpa [h5.1, address, dot] using h4

end Ra.Props
