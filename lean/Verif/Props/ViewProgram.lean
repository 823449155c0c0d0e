import Verif.Props.Views
/-!
# C79: programs with arrays and views
-/

namespace Ra.Props
open Spec

section
variable {V : Type}

theorem inRange_of_merge {ss : List (List Length)} {s : List Nat} (h : Merge ss (s.map some)) {t : List Length} (ht : t ∈ ss) {j : List Int} (hj : Valid s j) : InRange t j := by
  refine ⟨by have := h.1 t ht; rw [hj.length]; simpa using this, fun k n hk => ?_⟩
  exact (inRange_of_valid hj).2 k n ((h.2.2 k n).mpr ⟨t, ht, hk⟩)

/-- An element of a view is an element of the array. -/
theorem place_ok {μ : Mem V} {a : Arr} {v : Value V} (h : Rep μ a v) {ops : List ViewOp} {t : List Length} (ht : opsShape true (v.shape.map some) ops = some t) :
    ∃ w, runOps ops a.view = .ok w ∧ Shaped w t ∧ ∀ j, InRange t j → Valid v.shape (place v ops j) ∧ ∃ (k : Nat) (y : V), position v.shape (place v ops j) = k ∧ k < a.n ∧
      address w j = a.base + k ∧ μ (a.base + k) = some y ∧ v.get (place v ops j) = some y := by
  obtain ⟨w, h1, h2, h3⟩ := C78_views a μ _ h.1 ops t ht
  refine ⟨w, h1, h2, fun j hj => ?_⟩
  obtain ⟨g1, g2⟩ := h3 j hj
  have hv : Valid v.shape (place v ops j) := inRange_valid g1
  obtain ⟨k, y, f1, f2, f3, f4, f5⟩ := rep_get h (List.prefix_refl _) hv
  rw [show (place v ops j).take v.shape.length = place v ops j by rw [← hv.length, List.take_length]] at f1 f5
  refine ⟨hv, k, y, f1, f2, ?_, f4, f5⟩
  rw [g2, address_cut]
  have : a.view.dims.length = v.shape.length := by simpa using (C30_elements a μ _ h.1).1.length_eq
  rw [this]
  exact f3

theorem Same.geta {μ0 μ : Mem V} {as : List Arr} {vs : List (Value V)} (h : Same μ0 as vs μ) {i : Nat} {v : Value V} (hi : vs[i]? = some v) : ∃ a, as[i]? = some a ∧ Rep μ a v := by
  have hlt : i < as.length := by rw [h.len]; exact (List.getElem?_eq_some_iff.mp hi).1
  exact ⟨as[i], by simp [hlt], h.rep i _ v (by simp [hlt]) hi⟩

theorem vexp_ok {μ0 μ : Mem V} {as : List Arr} {vs : List (Value V)} (h : Same μ0 as vs μ) (e : VExp V) (ss : List (List Length)) (hs : VExp.shapes vs e = some ss) :
    ∃ t, e.iter as = .ok t ∧ t.WF ∧ (∀ b ∈ leaves t, ∃ s ∈ ss, HasShape b s) ∧ ∀ s ∈ ss, ∃ b ∈ leaves t, HasShape b s := by
  induction e generalizing ss with
  | const x =>
    simp only [VExp.shapes, Option.some.injEq] at hs
    subst hs
    exact ⟨_, rfl, by simp [Iter.WF], by simp [leaves, HasShape], by simp [leaves, HasShape]⟩
  | view i ops =>
    simp only [VExp.shapes] at hs
    split at hs
    · next v hv =>
      split at hs
      · next t ht =>
        simp only [Option.some.injEq] at hs
        subst hs
        obtain ⟨a, ha, hr⟩ := h.geta hv
        obtain ⟨w, h1, h2, _⟩ := place_ok hr ht
        have hsh : HasShape (w.refs : Iter (Act V) (Lv V)) t := refs_shape h2
        refine ⟨w.refs, ?_, hsh.wf, ?_, ?_⟩
        · simp [Ra.VExp.iter, viewOf, ha, h1, bind, Except.bind, pure, Except.pure]
        · simp only [View.refs, leaves, List.mem_singleton, exists_eq_left]
          rintro b rfl
          exact hsh
        · simp only [View.refs, leaves, List.mem_singleton, exists_eq_left]
          rintro b rfl
          exact hsh
      · cases hs
    · cases hs
  | op f a b iha ihb =>
    simp only [VExp.shapes] at hs
    split at hs
    · next x y hx hy =>
      simp only [Option.some.injEq] at hs
      subst hs
      obtain ⟨t1, i1, a1, a2, a3⟩ := iha x hx
      obtain ⟨t2, i2, b1, b2, b3⟩ := ihb y hy
      refine ⟨binaryOp f t1 t2, by simp [Ra.VExp.iter, i1, i2, bind, Except.bind, pure, Except.pure], ⟨by simp, a1, b1, trivial⟩, ?_, ?_⟩
      · intro c hc
        simp only [binaryOp, leaves, leavesAll, List.append_nil, List.mem_append] at hc
        rcases hc with hc | hc
        · obtain ⟨s, hs, h⟩ := a2 c hc
          exact ⟨s, by simp [hs], h⟩
        · obtain ⟨s, hs, h⟩ := b2 c hc
          exact ⟨s, by simp [hs], h⟩
      · intro s hs
        simp only [List.mem_append] at hs
        rcases hs with hs | hs
        · obtain ⟨c, hc, h⟩ := a3 s hs
          exact ⟨c, by simp [binaryOp, leaves, leavesAll, hc], h⟩
        · obtain ⟨c, hc, h⟩ := b3 s hs
          exact ⟨c, by simp [binaryOp, leaves, leavesAll, hc], h⟩
    · cases hs

theorem vexp_reads {μ0 μ : Mem V} {as : List Arr} {vs : List (Value V)} (h : Same μ0 as vs μ) {j : List Int} (e : VExp V) (ss : List (List Length)) (hs : VExp.shapes vs e = some ss)
    (hj : ∀ s ∈ ss, InRange s j) (t : Iter (Act V) (Lv V)) (ht : e.iter as = .ok t) : ∃ x, VExp.at vs j e = some x ∧ Reads μ (elem t j) x := by
  induction e generalizing ss t with
  | const x =>
    simp only [Ra.VExp.iter, Except.ok.injEq] at ht
    subst ht
    exact ⟨x, rfl, reads_scalar μ x j⟩
  | view i ops =>
    simp only [VExp.shapes] at hs
    split at hs
    · next v hv =>
      split at hs
      · next s hsh =>
        simp only [Option.some.injEq] at hs
        subst hs
        obtain ⟨a, ha, hr⟩ := h.geta hv
        obtain ⟨w, h1, h2, h3⟩ := place_ok hr hsh
        simp only [Ra.VExp.iter, viewOf, ha, h1, bind, Except.bind, pure, Except.pure, Except.ok.injEq] at ht
        subst ht
        obtain ⟨_, k, y, _, _, f3, f4, f5⟩ := h3 j (hj s (by simp))
        exact ⟨y, by simp [VExp.at, hv, f5], reads_refs (by rw [f3]; exact f4)⟩
      · cases hs
    · cases hs
  | op f a b iha ihb =>
    simp only [VExp.shapes] at hs
    split at hs
    · next x y hx hy =>
      simp only [Option.some.injEq] at hs
      subst hs
      obtain ⟨t1, i1, _⟩ := vexp_ok h a x hx
      obtain ⟨t2, i2, _⟩ := vexp_ok h b y hy
      simp only [Ra.VExp.iter, i1, i2, bind, Except.bind, pure, Except.pure, Except.ok.injEq] at ht
      subst ht
      obtain ⟨x', e1, r1⟩ := iha x hx (fun u hu => hj u (by simp [hu])) t1 i1
      obtain ⟨y', e2, r2⟩ := ihb y hy (fun u hu => hj u (by simp [hu])) t2 i2
      exact ⟨f x' y', by simp [VExp.at, e1, e2], reads_binary f r1 r2⟩
    · cases hs

theorem put_vshapes {vs : List (Value V)} {i : Nat} {v w : Value V} (hv : vs[i]? = some v) (hw : w.shape = v.shape) (e : VExp V) : VExp.shapes (vs.set i w) e = VExp.shapes vs e := by
  induction e with
  | const x => rfl
  | view l ops =>
    simp only [VExp.shapes, List.getElem?_set]
    by_cases h : i = l
    · subst h
      rw [if_pos rfl, if_pos (List.getElem?_eq_some_iff.mp hv).1, hv]
      simp only [hw]
    · rw [if_neg h]
  | op f a b iha ihb => simp only [VExp.shapes, iha, ihb]

theorem same_vloop {μ0 : Mem V} {as : List Arr} (f : V → V → V) {i : Nat} {a : Arr} (ha : as[i]? = some a) (ops : List ViewOp) (w : View) (hw : runOps ops a.view = .ok w)
    (e : VExp V) (t : Iter (Act V) (Lv V)) (ht : e.iter as = .ok t) (op : List (Lv V) → Act V (Lv V))
    (hop : ∀ (μ : Mem V) d x p v y, Refers μ d p → Reads μ x v → μ p = some y → mapOp op [d, x] μ = (.ok (.ref p), μ.upd p (f y v)))
    (d : List Length) (ss : List (List Length)) (js : List (List Int)) (hjs : ∀ j ∈ js, ∀ s ∈ d :: ss, InRange s j) {vs : List (Value V)} {v : Value V} {μ : Mem V}
    (h : Same μ0 as vs μ) (hv : vs[i]? = some v) (hd : opsShape true (v.shape.map some) ops = some d) (hs : VExp.shapes vs e = some ss) :
    ∃ μ' vs', forAll (fun j => mapOp op [elem (w.refs : Iter (Act V) (Lv V)) j, elem t j]) js μ = (.ok (), μ') ∧ vloop f i ops e js vs = some vs' ∧ Same μ0 as vs' μ' := by
  induction js generalizing vs v μ with
  | nil => exact ⟨μ, vs, rfl, rfl, h⟩
  | cons j js ih =>
    have hj := hjs j (by simp)
    obtain ⟨x, hx, hrx⟩ := vexp_reads h e ss hs (fun s hs => hj s (by simp [hs])) t ht
    obtain ⟨w', h1, _, h3⟩ := place_ok (h.rep i a v ha hv) hd
    rw [hw] at h1
    cases h1
    obtain ⟨_, k, y, f1, f2, f3, f4, f5⟩ := h3 j (hj d (by simp))
    have hrun := hop μ (elem w.refs j) (elem t j) (a.base + k) x y (by rw [← f3]; exact refers_refs μ w j) hrx f4
    have hsame := same_put h ha hv f1 f2 (f y x)
    have hv' : (vs.set i (v.put (place v ops j) (f y x)))[i]? = some (v.put (place v ops j) (f y x)) := by
      rw [List.getElem?_set, if_pos rfl, if_pos (List.getElem?_eq_some_iff.mp hv).1]
    obtain ⟨μ', vs', g1, g2, g3⟩ := ih (fun k hk => hjs k (by simp [hk])) hsame hv' hd (by
      rw [put_vshapes (w := v.put (place v ops j) (f y x)) hv rfl]
      exact hs)
    refine ⟨μ', vs', ?_, ?_, g3⟩
    · simp only [forAll]
      rw [act_bind_ok hrun]
      exact g1
    · simp only [vloop, hv, hx, f5]
      exact g2

/-- Both kinds of assignment. -/
theorem same_vassign {μ0 : Mem V} {as : List Arr} (dyn : Bool) (z : List Int) (hz : ∀ i ∈ z, i = 0) (f : V → V → V) (i : Nat) (ops : List ViewOp) (e : VExp V)
    (op : List (Lv V) → Act V (Lv V))
    (hop : ∀ (μ : Mem V) d x p v y, Refers μ d p → Reads μ x v → μ p = some y → mapOp op [d, x] μ = (.ok (.ref p), μ.upd p (f y v)))
    {vs vs' : List (Value V)} {μ : Mem V} (h : Same μ0 as vs μ) (he : Assigns f vs i ops e vs') :
    ∃ w t μ', viewOf as i ops = .ok w ∧ e.iter as = .ok t ∧
      (do let _ ← ply (β := Unit) dyn never z (.node (mapOp op) [w.refs, t]); pure () : Act V Unit) μ = (.ok (), μ') ∧ Same μ0 as vs' μ' := by
  obtain ⟨v, d, ss, s, hv, hd, hss, hm, hloop⟩ := he
  obtain ⟨a, ha, hr⟩ := h.geta hv
  obtain ⟨w, h1, h2, _⟩ := place_ok hr hd
  obtain ⟨t, ht, hw, l1, l2⟩ := vexp_ok h e ss hss
  have hsh : HasShape (w.refs : Iter (Act V) (Lv V)) d := refs_shape h2
  have hS : HasShape (.node (mapOp op) [w.refs, t]) (s.map some) := by
    have hwn : (Iter.node (mapOp op) [w.refs, t]).WF := ⟨by simp, hsh.wf, hw, trivial⟩
    rw [hasShape_leaves _ hwn, Shapes]
    have hl : leaves (.node (mapOp op) [w.refs, t]) = w.refs :: leaves t := by simp [leaves, leavesAll, View.refs]
    have hP : ∀ x, (∃ b ∈ leaves (.node (mapOp op) [w.refs, t]), HasShape b x) ↔ x ∈ d :: ss := by
      intro x
      rw [hl]
      constructor
      · rintro ⟨b, hb, hx⟩
        rcases List.mem_cons.mp hb with rfl | hb
        · rw [hasShape_unique hx hsh]; simp
        · obtain ⟨s, hs, hb'⟩ := l1 b hb
          rw [hasShape_unique hx hb']; simp [hs]
      · intro hs
        rcases List.mem_cons.mp hs with rfl | hs
        · exact ⟨_, by simp, hsh⟩
        · obtain ⟨b, hb, hb'⟩ := l2 x hs
          exact ⟨b, by simp [hb], hb'⟩
    refine ⟨?_, ?_⟩
    · rw [hl]
      intro b hb
      rcases List.mem_cons.mp hb with rfl | hb
      · exact ⟨_, hsh⟩
      · obtain ⟨s, hs, hb'⟩ := l1 b hb
        exact ⟨_, hb'⟩
    · simp only [MergeP, hP]
      exact hm
  obtain ⟨μ', vs1, g1, g2, g3⟩ := same_vloop f ha ops w h1 e t ht op hop d ss (rowMajor s)
    (fun j hj x hx => inRange_of_merge hm hx (mem_rowMajor.mp hj)) h hv hd hss
  rw [hloop] at g2
  cases g2
  refine ⟨w, t, μ', by simp [viewOf, ha, h1], ht, ?_, g3⟩
  rw [ply_never dyn _ _ hS z hz]
  simp only [elem, elems, bind_assoc, pure_bind]
  rw [bind_pure_unit]
  exact g1

theorem vstep_same {μ0 μ : Mem V} {as : List Arr} {vs vs' : List (Value V)} (dyn : Bool) (z : List Int) (hz : ∀ i ∈ z, i = 0) (c : VCmd V) (hr : ∀ p, c ≠ .cmd (.op (.run p)))
    (h : Same μ0 as vs μ) (he : VCmd.Effect vs c vs') :
    ∀ {as' μ'}, c.step dyn z as μ = (.ok (), as', μ') → Same μ0 as' vs' μ' := by
  intro as' μ' hs
  cases c with
  | cmd c =>
    obtain ⟨vs1, e1, h1⟩ := step_same dyn z hz c (fun p hp => hr p (by rw [hp])) h hs
    simp only [VCmd.Effect] at he
    rw [he] at e1
    cases e1
    exact h1
  | assign i ops e =>
    obtain ⟨w, t, μ1, h1, h2, h3, h4⟩ := same_vassign dyn z hz (fun _ x => x) i ops e setOp (fun μ d x p v y h1 h2 h3 => set_run h1 h2 (by simp [h3])) h he
    rw [show (do let _ ← ply (β := Unit) dyn never z (.node (mapOp setOp) [w.refs, t]); pure () : Act V Unit) = Ra.assign dyn z w.refs t from rfl] at h3
    simp only [VCmd.step, h1, h2, h3, Prod.mk.injEq, true_and] at hs
    obtain ⟨rfl, rfl⟩ := hs
    exact h4
  | update f i ops e =>
    obtain ⟨w, t, μ1, h1, h2, h3, h4⟩ := same_vassign dyn z hz f i ops e (updOp f) (fun μ d x p v y h1 h2 h3 => upd_run f h1 h2 h3) h he
    rw [show (do let _ ← ply (β := Unit) dyn never z (.node (mapOp (updOp f)) [w.refs, t]); pure () : Act V Unit) = Ra.update f dyn z w.refs t from rfl] at h3
    simp only [VCmd.step, h1, h2, h3, Prod.mk.injEq, true_and] at hs
    obtain ⟨rfl, rfl⟩ := hs
    exact h4

theorem vprogram_same {μ0 μ μ' : Mem V} {as as' : List Arr} {vs vs' : List (Value V)} (dyn : Bool) (z : List Int) (hz : ∀ i ∈ z, i = 0) (cs : List (VCmd V))
    (hr : ∀ p, VCmd.cmd (.op (.run p)) ∉ cs) (h : Same μ0 as vs μ) (he : Effects cs vs vs') (hs : vprogram dyn z cs as μ = (.ok (), as', μ')) : Same μ0 as' vs' μ' := by
  induction cs generalizing as vs μ with
  | nil =>
    simp only [vprogram, Prod.mk.injEq, true_and] at hs
    obtain ⟨rfl, rfl⟩ := hs
    simp only [Effects] at he
    subst he
    exact h
  | cons c cs ih =>
    simp only [vprogram] at hs
    obtain ⟨vs1, e1, e2⟩ := he
    split at hs
    · next as1 μ1 h1 =>
      exact ih (fun p hp => hr p (by simp [hp])) (vstep_same dyn z hz c (fun p hp => hr p (by simp [hp])) h e1 h1) e2 hs
    · simp at hs

theorem same_start (μ0 : Mem V) : Same μ0 [] [] μ0 := ⟨⟨by simp, by simp, fun p => by simp, by simp⟩, rfl, by simp, fun _ _ => rfl⟩

/-- C79. After any operations, including assignments to views of views of views of ... from expressions of views, the arrays have the values that they'd have if they were
values, and the views just lists of indices; nothing else in memory changes. -/
theorem C79_values (dyn : Bool) (z : List Int) (hz : ∀ i ∈ z, i = 0) (cs : List (VCmd V)) (hr : ∀ p, VCmd.cmd (.op (.run p)) ∉ cs) (as : List Arr) (vs : List (Value V))
    (μ0 μ : Mem V) (hs : vprogram dyn z cs [] μ0 = (.ok (), as, μ)) (he : Effects cs [] vs) : List.Forall₂ (Represents μ) as vs ∧ ∀ p, (μ0 p).isSome → μ p = μ0 p := by
  have h := vprogram_same dyn z hz cs hr (same_start μ0) he hs
  refine ⟨List.forall₂_iff_get.mpr ⟨h.len, fun i hi hi' => ?_⟩, h.rest⟩
  rw [rep_iff]
  exact h.rep i _ _ (by simp) (by simp)

/-- C79. The assignments that have an effect don't fail. -/
theorem C79_runs (dyn : Bool) (z : List Int) (hz : ∀ i ∈ z, i = 0) (cs : List (VCmd V)) (hr : ∀ p, VCmd.cmd (.op (.run p)) ∉ cs) (as : List Arr) (vs vs' : List (Value V))
    (μ0 μ : Mem V) (hs : vprogram dyn z cs [] μ0 = (.ok (), as, μ)) (he : Effects cs [] vs) (c : VCmd V) (hc : ∀ o, c ≠ .cmd (.op o)) (h' : VCmd.Effect vs c vs') :
    ∃ μ', c.step dyn z as μ = (.ok (), as, μ') := by
  have h := vprogram_same dyn z hz cs hr (same_start μ0) he hs
  cases c with
  | cmd c =>
    cases c with
    | op o => exact absurd rfl (hc o)
    | set i j x =>
      simp only [VCmd.Effect, Cmd.effect] at h'
      split at h'
      · next v hv =>
        obtain ⟨a, ha, hrv⟩ := h.geta hv
        split at h'
        · next hj =>
          have hj := mem_rowMajor.mp hj
          have hla : a.dims.length = v.shape.length := by simpa using congrArg List.length hrv.1.lens
          obtain ⟨e1, _⟩ := elemAt_eq a.view v.shape (C30_elements a μ _ hrv.1).1 (fun p => (Act.write p x : Act V Unit)) j hj.length
          simp only [VCmd.step, Cmd.step, ha]
          rw [if_pos (by rw [hj.length, hla]), e1 (inRange_of_valid hj)]
          obtain ⟨k, y, f1, f2, f3, f4, f5⟩ := rep_get hrv (List.prefix_refl _) hj
          rw [f3]
          simp [Act.write, f4]
        · cases h'
      · cases h'
    | assign i e =>
      simp only [VCmd.Effect, Cmd.effect] at h'
      split at h'
      · next v hv =>
        obtain ⟨a, ha, hrv⟩ := h.geta hv
        split at h'
        · next hag =>
          obtain ⟨t, ht⟩ := exp_iter h.len e hag.1
          have := same_assign dyn z hz (fun _ x => x) ha e t ht setOp (fun μ d x p v y h1 h2 h3 => set_run h1 h2 (by simp [h3])) h hv
          simp only at this
          rw [if_pos hag.2] at this
          obtain ⟨μ1, _, g1, _, _⟩ := this
          refine ⟨μ1, ?_⟩
          rw [show (do let _ ← ply (β := Unit) dyn never z (.node (mapOp setOp) [a.view.refs, t]); pure () : Act V Unit) = Ra.assign dyn z a.view.refs t from rfl] at g1
          simp only [VCmd.step, Cmd.step, ha, ht, g1]
        · cases h'
      · cases h'
    | update f i e =>
      simp only [VCmd.Effect, Cmd.effect] at h'
      split at h'
      · next v hv =>
        obtain ⟨a, ha, hrv⟩ := h.geta hv
        split at h'
        · next hag =>
          obtain ⟨t, ht⟩ := exp_iter h.len e hag.1
          have := same_assign dyn z hz f ha e t ht (updOp f) (fun μ d x p v y h1 h2 h3 => upd_run f h1 h2 h3) h hv
          simp only at this
          rw [if_pos hag.2] at this
          obtain ⟨μ1, _, g1, _, _⟩ := this
          refine ⟨μ1, ?_⟩
          rw [show (do let _ ← ply (β := Unit) dyn never z (.node (mapOp (updOp f)) [a.view.refs, t]); pure () : Act V Unit) = Ra.update f dyn z a.view.refs t from rfl] at g1
          simp only [VCmd.step, Cmd.step, ha, ht, g1]
        · cases h'
      · cases h'
  | assign i ops e =>
    obtain ⟨w, t, μ1, h1, h2, h3, h4⟩ := same_vassign dyn z hz (fun _ x => x) i ops e setOp (fun μ d x p v y h1 h2 h3 => set_run h1 h2 (by simp [h3])) h h'
    rw [show (do let _ ← ply (β := Unit) dyn never z (.node (mapOp setOp) [w.refs, t]); pure () : Act V Unit) = Ra.assign dyn z w.refs t from rfl] at h3
    exact ⟨μ1, by simp only [VCmd.step, h1, h2, h3]⟩
  | update f i ops e =>
    obtain ⟨w, t, μ1, h1, h2, h3, h4⟩ := same_vassign dyn z hz f i ops e (updOp f) (fun μ d x p v y h1 h2 h3 => upd_run f h1 h2 h3) h h'
    rw [show (do let _ ← ply (β := Unit) dyn never z (.node (mapOp (updOp f)) [w.refs, t]); pure () : Act V Unit) = Ra.update f dyn z w.refs t from rfl] at h3
    exact ⟨μ1, by simp only [VCmd.step, h1, h2, h3]⟩

/-- C79. If the views are good and their shapes match, then the assignment has an effect (so it doesn't fail). -/
theorem C79_defined (dyn : Bool) (z : List Int) (hz : ∀ i ∈ z, i = 0) (cs : List (VCmd V)) (hr : ∀ p, VCmd.cmd (.op (.run p)) ∉ cs) (as : List Arr) (vs : List (Value V))
    (μ0 μ : Mem V) (hs : vprogram dyn z cs [] μ0 = (.ok (), as, μ)) (he : Effects cs [] vs) (f : V → V → V) (i : Nat) (ops : List ViewOp) (e : VExp V) (v : Value V) (d : List Length)
    (ss : List (List Length)) (s : List Nat) (hv : vs[i]? = some v) (hd : opsShape true (v.shape.map some) ops = some d) (hss : VExp.shapes vs e = some ss)
    (hm : Merge (d :: ss) (s.map some)) : ∃ vs', VCmd.Effect vs (.update f i ops e) vs' := by
  have h := vprogram_same dyn z hz cs hr (same_start μ0) he hs
  obtain ⟨a, ha, hrv⟩ := h.geta hv
  obtain ⟨w, h1, h2, _⟩ := place_ok hrv hd
  obtain ⟨t, ht, _⟩ := vexp_ok h e ss hss
  obtain ⟨μ', vs', g1, g2, g3⟩ := same_vloop f ha ops w h1 e t ht (updOp f) (fun μ d x p v y h1 h2 h3 => upd_run f h1 h2 h3) d ss (rowMajor s)
    (fun j hj x hx => inRange_of_merge hm hx (mem_rowMajor.mp hj)) h hv hd hss
  exact ⟨vs', v, d, ss, s, hv, hd, hss, hm, g2⟩

/-- C79. If the views are good, but their shapes don't match, then the assignment fails the check, and nothing changes. -/
theorem C79_fails (dyn : Bool) (z : List Int) (hz : ∀ i ∈ z, i = 0) (cs : List (VCmd V)) (hr : ∀ p, VCmd.cmd (.op (.run p)) ∉ cs) (as : List Arr) (vs : List (Value V))
    (μ0 μ : Mem V) (hs : vprogram dyn z cs [] μ0 = (.ok (), as, μ)) (he : Effects cs [] vs) (f : V → V → V) (i : Nat) (ops : List ViewOp) (e : VExp V) (v : Value V) (d : List Length)
    (ss : List (List Length)) (hv : vs[i]? = some v) (hd : opsShape true (v.shape.map some) ops = some d) (hss : VExp.shapes vs e = some ss)
    (hm : ¬ ∃ s : List Nat, Merge (d :: ss) (s.map some)) :
    (VCmd.assign i ops e).step dyn z as μ = (.error .check, as, μ) ∧ (VCmd.update f i ops e).step dyn z as μ = (.error .check, as, μ) := by
  have h := vprogram_same dyn z hz cs hr (same_start μ0) he hs
  obtain ⟨a, ha, hrv⟩ := h.geta hv
  obtain ⟨w, h1, h2, _⟩ := place_ok hrv hd
  obtain ⟨t, ht, hw, l1, l2⟩ := vexp_ok h e ss hss
  have hsh : HasShape (w.refs : Iter (Act V) (Lv V)) d := refs_shape h2
  have hview : viewOf as i ops = .ok w := by simp [viewOf, ha, h1]
  have key : ∀ op : List (Lv V) → Act V (Lv V), (do let _ ← ply (β := Unit) dyn never z (.node (mapOp op) [w.refs, t]); pure () : Act V Unit) μ = (.error .check, μ) := by
    intro op
    have hwn : (Iter.node (mapOp op) [w.refs, t]).WF := ⟨by simp, hsh.wf, hw, trivial⟩
    have hno : ¬ ∃ s : List Nat, HasShape (.node (mapOp op) [w.refs, t]) (s.map some) := by
      rintro ⟨s, hS⟩
      rw [hasShape_leaves _ hwn, Shapes] at hS
      have hl : leaves (.node (mapOp op) [w.refs, t]) = w.refs :: leaves t := by simp [leaves, leavesAll, View.refs]
      have hP : ∀ x, (∃ b ∈ leaves (.node (mapOp op) [w.refs, t]), HasShape b x) ↔ x ∈ d :: ss := by
        intro x
        rw [hl]
        constructor
        · rintro ⟨b, hb, hx⟩
          rcases List.mem_cons.mp hb with rfl | hb
          · rw [hasShape_unique hx hsh]; simp
          · obtain ⟨s, hs, hb'⟩ := l1 b hb
            rw [hasShape_unique hx hb']; simp [hs]
        · intro hs
          rcases List.mem_cons.mp hs with rfl | hs
          · exact ⟨_, by simp, hsh⟩
          · obtain ⟨b, hb, hb'⟩ := l2 x hs
            exact ⟨b, by simp [hb], hb'⟩
      have := hS.2
      simp only [MergeP, hP] at this
      exact hm ⟨s, this⟩
    rcases C03_tree (β := Unit) never (.node (mapOp op) [w.refs, t]) hwn z with hs | ⟨h1, h2, _⟩
    · exact absurd hs hno
    · cases dyn
      · simp only [ply, Bool.false_eq_true, if_false, h2]
        rfl
      · simp only [ply, if_true, h1]
        rfl
  constructor
  · have := key setOp
    rw [show (do let _ ← ply (β := Unit) dyn never z (.node (mapOp setOp) [w.refs, t]); pure () : Act V Unit) = Ra.assign dyn z w.refs t from rfl] at this
    simp only [VCmd.step, hview, ht, this]
  · have := key (updOp f)
    rw [show (do let _ ← ply (β := Unit) dyn never z (.node (mapOp (updOp f)) [w.refs, t]); pure () : Act V Unit) = Ra.update f dyn z w.refs t from rfl] at this
    simp only [VCmd.step, hview, ht, this]

/-- There's an array of any shape. -/
theorem some_container (s : List Nat) : ∃ a : Arr, Container a (fun _ => some ()) s := by
  obtain ⟨dv, h1, _, _⟩ := filldimv_ok s
  obtain ⟨g1, g2, _⟩ := rowMajor_fill s dv _ h1
  exact ⟨⟨none, dv.map fun d => ⟨d.len, d.step * 1⟩, 0, size s⟩, by simpa [Function.comp_def] using g2, g1, rfl, fun _ _ => rfl, by simp⟩

theorem place_valid {v : Value V} {ops : List ViewOp} {t : List Length} (ht : opsShape true (v.shape.map some) ops = some t) {j : List Int} (hj : InRange t j) :
    Valid v.shape (place v ops j) := by
  obtain ⟨a, ha⟩ := some_container v.shape
  obtain ⟨_, _, _, h3⟩ := C78_views a _ _ ha ops t ht
  exact inRange_valid (h3 j hj).1

theorem put_vat {vs : List (Value V)} {i : Nat} {v : Value V} (hv : vs[i]? = some v) (hl : v.elems.length = size v.shape) {d : List Length} {ops : List ViewOp} {s : List Nat}
    {j k : List Int} (hj : Valid s j) (hk : Valid s k) (hjk : j ≠ k) (hkv : Valid v.shape (place v ops k)) (x : V) (e : VExp V) (ss : List (List Length)) (hss : VExp.shapes vs e = some ss)
    (hin : ∀ u ∈ ss, InRange u j) (ha : Apart v i ops s e) : VExp.at (vs.set i (v.put (place v ops k) x)) j e = VExp.at vs j e := by
  induction e generalizing ss with
  | const x => rfl
  | view l ops' =>
    simp only [VExp.at, List.getElem?_set]
    by_cases h : i = l
    · subst h
      rw [if_pos rfl, if_pos (List.getElem?_eq_some_iff.mp hv).1, hv]
      simp only
      simp only [VExp.shapes, hv] at hss
      split at hss
      · next t ht =>
        simp only [Option.some.injEq] at hss
        subst hss
        have hpj := place_valid ht (hin t (by simp))
        rw [show place (v.put (place v ops k) x) ops' j = place v ops' j from rfl, put_get hl hpj hkv, if_neg]
        intro e
        exact hjk (ha rfl j k hj hk e)
      · cases hss
    · rw [if_neg h]
  | op f a b iha ihb =>
    simp only [VExp.shapes] at hss
    split at hss
    · next x' y' hx hy =>
      simp only [Option.some.injEq] at hss
      subst hss
      simp only [VExp.at]
      rw [iha x' hx (fun u hu => hin u (by simp [hu])) ha.1, ihb y' hy (fun u hu => hin u (by simp [hu])) ha.2]
    · cases hss

theorem apart_put {v : Value V} {i : Nat} {ops : List ViewOp} {s : List Nat} {e : VExp V} {v' : Value V} (hsh : v'.shape = v.shape) (h : Apart v i ops s e) : Apart v' i ops s e := by
  have hp : ∀ ops j, place v' ops j = place v ops j := fun ops j => by simp only [place, hsh]
  induction e with
  | const x => trivial
  | view l ops' => simp only [Apart, hp] at h ⊢; exact h
  | op f a b iha ihb => exact ⟨iha h.1, ihb h.2⟩

theorem vloop_once (f : V → V → V) (i : Nat) (ops : List ViewOp) (e : VExp V) (d : List Length) (ss : List (List Length)) (s : List Nat) (js : List (List Int)) (hn : js.Nodup)
    {vs vs' : List (Value V)} {v : Value V} (hv : vs[i]? = some v) (hl : v.elems.length = size v.shape) (hd : opsShape true (v.shape.map some) ops = some d)
    (hss : VExp.shapes vs e = some ss) (hm : Merge (d :: ss) (s.map some)) (hjs : ∀ j ∈ js, Valid s j)
    (hinj : ∀ j k, Valid s j → Valid s k → place v ops j = place v ops k → j = k) (hap : Apart v i ops s e) (h : vloop f i ops e js vs = some vs') :
    ∃ v', vs' = vs.set i v' ∧ v'.shape = v.shape ∧ v'.elems.length = size v'.shape ∧
      (∀ j ∈ js, ∃ x y, VExp.at vs j e = some x ∧ v.get (place v ops j) = some y ∧ v'.get (place v ops j) = some (f y x)) ∧
      ∀ p, Valid v.shape p → (∀ j ∈ js, place v ops j ≠ p) → v'.get p = v.get p := by
  induction js generalizing vs v with
  | nil =>
    simp only [vloop, Option.some.injEq] at h
    subst h
    refine ⟨v, ?_, rfl, hl, by simp, fun _ _ _ => rfl⟩
    obtain ⟨h1, rfl⟩ := List.getElem?_eq_some_iff.mp hv
    simp
  | cons k js ih =>
    have hk := hjs k (by simp)
    have hpk : ∀ j, Valid s j → Valid v.shape (place v ops j) := fun j hj => place_valid hd (inRange_of_merge hm (by simp) hj)
    simp only [vloop, hv] at h
    split at h
    · next v1 x hv1 hx =>
      simp only [Option.some.injEq] at hv1
      subst hv1
      split at h
      · next y hy =>
        have hil := (List.getElem?_eq_some_iff.mp hv).1
        obtain ⟨hnk, hn⟩ := List.nodup_cons.mp hn
        obtain ⟨v', rfl, h2, h3, h4, h5⟩ := ih hn (vs := vs.set i (v.put (place v ops k) (f y x))) (v := v.put (place v ops k) (f y x))
          (by rw [List.getElem?_set, if_pos rfl, if_pos hil])
          (by simp [Value.put, hl]) hd (by rw [put_vshapes (w := v.put (place v ops k) (f y x)) hv rfl]; exact hss) (fun j hj => hjs j (by simp [hj])) hinj (apart_put (v := v) rfl hap) h
        refine ⟨v', by simp, h2, h3, fun j hj => ?_, fun p hp hpj => ?_⟩
        · rcases List.mem_cons.mp hj with rfl | hj
          · refine ⟨x, y, hx, hy, ?_⟩
            have := h5 (place v ops j) (hpk j hk) (fun j' hj' e => hnk (by rw [hinj j j' hk (hjs j' (by simp [hj'])) e.symm]; exact hj'))
            rw [this, put_get hl (hpk j hk) (hpk j hk), if_pos rfl]
          · have hvj := hjs j (by simp [hj])
            have hjk : j ≠ k := fun e => hnk (e ▸ hj)
            obtain ⟨x', y', e1, e2, e3⟩ := h4 j hj
            rw [put_vat (d := d) hv hl hvj hk hjk (hpk k hk) _ e ss hss (fun u hu => inRange_of_merge hm (by simp [hu]) hvj) hap] at e1
            rw [show place (v.put (place v ops k) (f y x)) ops j = place v ops j from rfl, put_get hl (hpk j hvj) (hpk k hk), if_neg (fun e => hjk (hinj j k hvj hk e))] at e2
            exact ⟨x', y', e1, e2, e3⟩
        · have := h5 p hp (fun j hj => hpj j (by simp [hj]))
          rw [this, put_get hl hp (hpk k hk), if_neg (fun e => hpj k (by simp) e.symm)]
      · cases h
    · cases h

/-- C79. If the destination doesn't repeat elements, and where the expression reads elements of the destination it's at the same index, then each element of the destination gets `f`
of its value from before and of the expression, with the arrays as they were before; and nothing else changes. -/
theorem C79_elementwise (f : V → V → V) (i : Nat) (ops : List ViewOp) (e : VExp V) (vs vs' : List (Value V)) (v : Value V) (d : List Length) (ss : List (List Length)) (s : List Nat)
    (hv : vs[i]? = some v) (hl : v.elems.length = size v.shape) (hd : opsShape true (v.shape.map some) ops = some d) (hss : VExp.shapes vs e = some ss)
    (hm : Merge (d :: ss) (s.map some)) (hinj : ∀ j k, Valid s j → Valid s k → place v ops j = place v ops k → j = k) (hap : Apart v i ops s e)
    (h : VCmd.Effect vs (.update f i ops e) vs') :
    ∃ v', vs' = vs.set i v' ∧ v'.shape = v.shape ∧
      (∀ j, Valid s j → ∃ x y, VExp.at vs j e = some x ∧ v.get (place v ops j) = some y ∧ v'.get (place v ops j) = some (f y x)) ∧
      ∀ p, Valid v.shape p → (∀ j, Valid s j → place v ops j ≠ p) → v'.get p = v.get p := by
  obtain ⟨v1, d1, ss1, s1, e1, e2, e3, e4, hloop⟩ := h
  rw [hv] at e1
  cases e1
  rw [hd] at e2
  cases e2
  rw [hss] at e3
  cases e3
  have : s1 = s := (List.map_injective_iff.mpr fun a b h => by simpa using h) (C02_unique _ _ _ e4 hm)
  subst this
  obtain ⟨v', h1, h2, _, h4, h5⟩ := vloop_once f i ops e d ss s1 (rowMajor s1) (nodup_rowMajor s1) hv hl hd hss hm (fun j hj => mem_rowMajor.mp hj) hinj hap hloop
  exact ⟨v', h1, h2, fun j hj => h4 j (mem_rowMajor.mpr hj), fun p hp hj => h5 p hp fun j hjm => hj j (mem_rowMajor.mp hjm)⟩

/-- C79. There's only one effect. -/
theorem C79_unique (cs : List (VCmd V)) (vs vs1 vs2 : List (Value V)) (h1 : Effects cs vs vs1) (h2 : Effects cs vs vs2) : vs1 = vs2 := by
  have ha : ∀ f (vs : List (Value V)) i ops e vs1 vs2, Assigns f vs i ops e vs1 → Assigns f vs i ops e vs2 → vs1 = vs2 := by
    intro f vs i ops e vs1 vs2 ⟨v, d, ss, s, e1, e2, e3, e4, e5⟩ ⟨v', d', ss', s', e1', e2', e3', e4', e5'⟩
    rw [e1] at e1'
    cases e1'
    rw [e2] at e2'
    cases e2'
    rw [e3] at e3'
    cases e3'
    have : s = s' := (List.map_injective_iff.mpr fun a b h => by simpa using h) (C02_unique _ _ _ e4 e4')
    subst this
    rw [e5] at e5'
    exact Option.some.inj e5'
  induction cs generalizing vs with
  | nil => simp only [Effects] at h1 h2; rw [h1, h2]
  | cons c cs ih =>
    obtain ⟨u1, a1, b1⟩ := h1
    obtain ⟨u2, a2, b2⟩ := h2
    have : u1 = u2 := by
      cases c with
      | cmd c => simp only [VCmd.Effect] at a1 a2; rw [a1] at a2; exact Option.some.inj a2
      | assign i ops e => exact ha _ _ _ _ _ _ _ a1 a2
      | update f i ops e => exact ha _ _ _ _ _ _ _ a1 a2
    subst this
    exact ih u1 b1 b2

/-- `a` of shape (3, 4) and `b` of shape (3); then `a(all, iota(2, 1)) += reverse(b)` and `transpose(a)(0) = a(1, iota(3, 2, -1))`, which reads `a(1, 0)` after it has changed. -/
def egVCmds : List (VCmd Int) := [.cmd (.op (.create none (some 0) (fun i => i) [3, 4])), .cmd (.op (.create (some 1) (some 20) (fun i => 10 * i) [3])),
  .update (· + ·) 0 [.slice [.dots (some 1), .iota [(.const 2, .const 1)] (.const 1)]] (.view 1 [.reverse 0]),
  .assign 0 [.transpose [1, 0], .slice [.scalar (.const 0)]] (.view 0 [.slice [.scalar (.const 1), .iota [(.const 3, .const (-1))] (.const 2)]])]

example : (vprogram true [] egVCmds [] noMem).1.isOk = true := by decide +kernel
example : ∀ p, VCmd.cmd (.op (.run p)) ∉ egVCmds := by simp [egVCmds]
example : Effects egVCmds [] [⟨[3, 4], [16, 21, 22, 3, 15, 15, 16, 7, 15, 9, 10, 11]⟩, ⟨[3], [0, 10, 20]⟩] := by
  refine ⟨[⟨[3, 4], [0, 1, 2, 3, 4, 5, 6, 7, 8, 9, 10, 11]⟩], by simp only [VCmd.Effect]; decide +kernel, [⟨[3, 4], [0, 1, 2, 3, 4, 5, 6, 7, 8, 9, 10, 11]⟩, ⟨[3], [0, 10, 20]⟩], by simp only [VCmd.Effect]; decide +kernel,
    [⟨[3, 4], [0, 21, 22, 3, 4, 15, 16, 7, 8, 9, 10, 11]⟩, ⟨[3], [0, 10, 20]⟩], ?_, _, ?_, rfl⟩
  · refine ⟨_, [some 3, some 2], [[some 3]], [3, 2], rfl, by decide +kernel, by decide +kernel, ⟨by simp, ⟨_, .head _, rfl⟩, fun k n => ?_⟩, by decide +kernel⟩
    match k with
    | 0 => simp
    | 1 => simp
    | k + 2 => simp
  · refine ⟨_, [some 3], [[some 3]], [3], rfl, by decide +kernel, by decide +kernel, merge_same _, by decide +kernel⟩

end
end Ra.Props
