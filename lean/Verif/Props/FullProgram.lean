import Verif.Props.FullExp
import Verif.Props.Interrupt
/-!
# C92: programs with any expressions
-/

namespace Ra.Props
open Spec

section
variable {V : Type}

/-! ### Reductions -/

theorem fold_elem {μ : Mem V} (f : V → V → V) {x : StateT V (Act V) (Lv V)} {o : Option V} (h : Sem seesState μ x o) (c : V) :
    mapOp (fun xs => do
      let c ← get
      let c' ← (foldOp f c xs : Act V V)
      set c'
      pure default) [x] c μ = match (generalizing := false) o with
        | some v => (.ok (default, f c v), μ)
        | none => (.error .check, μ) := by
  simp only [mapOp, List.mapM_cons, List.mapM_nil, id, pure_bind, bind_assoc, foldOp]
  cases o with
  | none =>
    show (x c >>= _) μ = _
    rw [act_bind, h c]
  | some v =>
    obtain ⟨l, e1, e2⟩ := h
    show (x c >>= _) μ = _
    rw [act_bind_ok (e1 c)]
    show (((l.get >>= fun v => pure (f c v)) >>= fun c' => pure (c', c)) >>= _ : Act V _) μ = _
    rw [bind_assoc, bind_assoc, act_bind_ok e2]
    rfl

theorem fold_forAll {μ : Mem V} {vs : List (Value V)} (f : V → V → V) (e : FExp V) (g : List Int → StateT V (Act V) (Lv V))
    (js : List (List Int)) (hg : ∀ j ∈ js, ∀ c, g j c μ = match FExp.at vs e j with
        | some v => (.ok (default, f c v), μ)
        | none => (.error .check, μ)) (c : V) :
    forAll g js c μ = match folded vs f e js c with
      | some x => (.ok ((), x), μ)
      | none => (.error .check, μ) := by
  induction js generalizing c with
  | nil => rfl
  | cons j js ih =>
    have h1 := hg j (by simp) c
    simp only [forAll, folded]
    show (g j c >>= fun p => forAll g js p.2) μ = _
    cases ha : FExp.at vs e j with
    | none =>
      rw [ha] at h1
      rw [act_bind, h1]
    | some v =>
      rw [ha] at h1
      rw [act_bind_ok h1]
      exact ih (fun k hk => hg k (by simp [hk])) (f c v)

/-- The reduction of an expression without reductions. -/
theorem fold_run {μ0 μ : Mem V} {as : List Arr} {vs : List (Value V)} (h : Same μ0 as vs μ) (dyn : Bool) (z : List Int) (hz : ∀ i ∈ z, i = 0) (f : V → V → V) (x0 : V) (e : FExp V) (s : List Nat)
    (hs : FExp.Shape vs e (s.map some)) :
    ∃ t, Ra.FExp.iter (m := StateT V (Act V)) as e = .ok t ∧ forEachRef dyn z (foldOp f) x0 [t] μ = match folded vs f e (rowMajor s) x0 with
        | some x => (.ok x, μ)
        | none => (.error .check, μ) := by
  obtain ⟨t, h1, h2, h3, h4⟩ := fexp_good (m := StateT V (Act V)) h e (shape_good e _ hs).1 (shape_good e _ hs).2.1
  refine ⟨t, h1, ?_⟩
  have hsh := (h4 _).mpr hs
  have hn : ∀ op, HasShape (.node op [t]) (s.map some) := fun op => ⟨[s.map some], ⟨_, _, rfl, hsh, rfl⟩, merge_one _⟩
  unfold forEachRef
  rw [ply_never dyn _ s (hn _) z hz]
  have key := fold_forAll (μ := μ) (vs := vs) f e (elem (.node (mapOp fun xs => do
      let c ← get
      let c' ← (foldOp f c xs : Act V V)
      set c'
      pure default) [t])) (rowMajor s) (fun j hj c => by
        simp only [elem, elems]
        exact fold_elem f (fexp_sem seesState h e _ hs t h1 j (inRange_of_valid (mem_rowMajor.mp hj))) c) x0
  show (((forAll (m := StateT V (Act V)) (ι := List Int) (β := Lv V) _ (rowMajor s) x0 : Act V (Unit × V)) >>= fun p => (pure (none, p.2) : Act V (Option Unit × V))) >>= fun r => pure r.2 : Act V V) μ = _
  rw [bind_assoc]
  cases hf : folded vs f e (rowMajor s) x0 with
  | none =>
    rw [hf] at key
    rw [act_bind, key]
  | some x =>
    rw [hf] at key
    rw [act_bind_ok key]
    rfl

/-- If there's no finite shape the reduction isn't done. -/
theorem fold_never {μ0 μ : Mem V} {as : List Arr} {vs : List (Value V)} (h : Same μ0 as vs μ) (dyn : Bool) (z : List Int) (op : V → List (Lv V) → Act V V) (x0 : V) (e : FExp V)
    (hg : FExp.Good vs e) (hp : Plain e) (hs : ¬ ∃ s : List Nat, FExp.Shape vs e (s.map some)) :
    ∃ t, Ra.FExp.iter (m := StateT V (Act V)) as e = .ok t ∧ forEachRef dyn z op x0 [t] μ = (.error .check, μ) := by
  obtain ⟨t, h1, h2, h3, h4⟩ := fexp_good (m := StateT V (Act V)) h e hg hp
  refine ⟨t, h1, ?_⟩
  unfold forEachRef
  rcases C03_tree (β := Unit) never (.node (mapOp fun xs => do
    let c ← get
    let c' ← (op c xs : Act V V)
    set c'
    pure default) [t]) ⟨by simp, h2, trivial⟩ z with ⟨s, hs'⟩ | ⟨g1, g2, _⟩
  · obtain ⟨ss, ⟨s0, ss', rfl, e1, e2⟩, hm⟩ := hs'
    simp only [HasShapes] at e2
    subst e2
    rw [C02_unique _ _ _ (merge_one s0) hm] at e1
    exact absurd ⟨s, (h4 _).mp e1⟩ hs
  · cases dyn
    · simp only [ply, Bool.false_eq_true, if_false, g2]
      rfl
    · simp only [ply, if_true, g1]
      rfl

mutual
theorem shape_unique {vs : List (Value V)} : (e : FExp V) → (s1 s2 : List Length) → FExp.Shape vs e s1 → FExp.Shape vs e s2 → s1 = s2
  | .const x, s1, s2, h1, h2 => by simp only [FExp.Shape] at h1 h2; rw [h1, h2]
  | .index w f, s1, s2, h1, h2 => by simp only [FExp.Shape] at h1 h2; rw [h1, h2]
  | .iota n o s0 f, s1, s2, h1, h2 => by simp only [FExp.Shape] at h1 h2; rw [h1, h2]
  | .gather n i ops mk t, s1, s2, ⟨_, v1, b1, t1, a1, c1, d1, e1⟩, ⟨_, v2, b2, t2, a2, c2, d2, e2⟩ => by
    rw [a1] at a2
    cases a2
    rw [c1] at c2
    have : b1 = b2 := (List.map_injective_iff.mpr fun a b h => by simpa using h) (Option.some.inj c2)
    subst this
    rw [shapes_unique t t1 t2 d1 d2, e2] at e1
    exact (Option.some.inj e1).symm
  | .view i ops, s1, s2, ⟨v1, a1, b1⟩, ⟨v2, a2, b2⟩ => by
    rw [a1] at a2
    cases a2
    rw [b1] at b2
    exact Option.some.inj b2
  | .map f c t, s1, s2, ⟨t1, a1, b1⟩, ⟨t2, a2, b2⟩ => by
    rw [shapes_unique t t1 t2 a1 a2] at b1
    exact verbShape_unique b1 b2
  | .pick sel t, s1, s2, ⟨t1, a1, b1⟩, ⟨t2, a2, b2⟩ => by
    rw [shapes_unique t t1 t2 a1 a2] at b1
    exact C02_unique _ _ _ b1 b2
  | .fold f x0 e, s1, s2, h1, h2 => by simp [FExp.Shape] at h1
theorem shapes_unique {vs : List (Value V)} : (t : List (FExp V)) → (s1 s2 : List (List Length)) → FExp.Shapes vs t s1 → FExp.Shapes vs t s2 → s1 = s2
  | [], s1, s2, h1, h2 => by simp only [FExp.Shapes] at h1 h2; rw [h1, h2]
  | e :: t, s1, s2, ⟨u1, w1, a1, b1, c1⟩, ⟨u2, w2, a2, b2, c2⟩ => by
    rw [a1, a2, shape_unique e u1 u2 b1 b2, shapes_unique t w1 w2 c1 c2]
end

mutual
theorem reduced_unique {vs : List (Value V)} : (e : FExp V) → (e1 e2 : FExp V) → FExp.Reduced vs e e1 → FExp.Reduced vs e e2 → e1 = e2
  | .const x, e1, e2, h1, h2 => by simp only [FExp.Reduced] at h1 h2; rw [h1, h2]
  | .index w f, e1, e2, h1, h2 => by simp only [FExp.Reduced] at h1 h2; rw [h1, h2]
  | .iota n o s0 f, e1, e2, h1, h2 => by simp only [FExp.Reduced] at h1 h2; rw [h1, h2]
  | .gather n i ops mk t, e1, e2, ⟨t1, a1, b1⟩, ⟨t2, a2, b2⟩ => by rw [b1, b2, reduceds_unique t t1 t2 a1 a2]
  | .view i ops, e1, e2, h1, h2 => by simp only [FExp.Reduced] at h1 h2; rw [h1, h2]
  | .map f c t, e1, e2, ⟨t1, a1, b1⟩, ⟨t2, a2, b2⟩ => by rw [b1, b2, reduceds_unique t t1 t2 a1 a2]
  | .pick sel t, e1, e2, ⟨t1, a1, b1⟩, ⟨t2, a2, b2⟩ => by rw [b1, b2, reduceds_unique t t1 t2 a1 a2]
  | .fold f x0 e, e1, e2, ⟨u1, s1, x1, a1, b1, c1, d1⟩, ⟨u2, s2, x2, a2, b2, c2, d2⟩ => by
    have := reduced_unique e u1 u2 a1 a2
    subst this
    have hs : s1 = s2 := (List.map_injective_iff.mpr fun a b h => by simpa using h) (shape_unique u1 _ _ b1 b2)
    subst hs
    rw [c1] at c2
    cases c2
    rw [d1, d2]
theorem reduceds_unique {vs : List (Value V)} : (t : List (FExp V)) → (t1 t2 : List (FExp V)) → FExp.Reduceds vs t t1 → FExp.Reduceds vs t t2 → t1 = t2
  | [], t1, t2, h1, h2 => by simp only [FExp.Reduceds] at h1 h2; rw [h1, h2]
  | e :: t, t1, t2, ⟨u1, w1, a1, b1, c1⟩, ⟨u2, w2, a2, b2, c2⟩ => by
    rw [c1, c2, reduced_unique e u1 u2 a1 a2, reduceds_unique t w1 w2 b1 b2]
end

mutual
/-- The reductions that have a value are done. -/
theorem reduced_eager {μ0 μ : Mem V} {as : List Arr} {vs : List (Value V)} (h : Same μ0 as vs μ) (dyn : Bool) (z : List Int) (hz : ∀ i ∈ z, i = 0) : (e e' : FExp V) → FExp.Reduced vs e e' →
    Ra.FExp.eager dyn z as e μ = (.ok e', μ)
  | .const x, e', h1 => by simp only [FExp.Reduced] at h1; subst h1; simp only [Ra.FExp.eager]; rfl
  | .index w f, e', h1 => by simp only [FExp.Reduced] at h1; subst h1; simp only [Ra.FExp.eager]; rfl
  | .iota n o s0 f, e', h1 => by simp only [FExp.Reduced] at h1; subst h1; simp only [Ra.FExp.eager]; rfl
  | .gather n i ops mk t, e', ⟨t', h1, h2⟩ => by
    subst h2
    simp only [Ra.FExp.eager]
    rw [act_bind_ok (reduceds_eager h dyn z hz t t' h1)]
    rfl
  | .view i ops, e', h1 => by simp only [FExp.Reduced] at h1; subst h1; simp only [Ra.FExp.eager]; rfl
  | .map f c t, e', ⟨t', h1, h2⟩ => by
    subst h2
    simp only [Ra.FExp.eager]
    rw [act_bind_ok (reduceds_eager h dyn z hz t t' h1)]
    rfl
  | .pick sel t, e', ⟨t', h1, h2⟩ => by
    subst h2
    simp only [Ra.FExp.eager]
    rw [act_bind_ok (reduceds_eager h dyn z hz t t' h1)]
    rfl
  | .fold f x0 e, e', ⟨e1, s, x, h1, h2, h3, h4⟩ => by
    subst h4
    obtain ⟨t, g1, g2⟩ := fold_run h dyn z hz f x0 e1 s h2
    rw [h3] at g2
    simp only [Ra.FExp.eager]
    rw [act_bind_ok (reduced_eager h dyn z hz e e1 h1), act_bind_ok (a := t) (μ' := μ) (by rw [g1]; rfl), act_bind_ok g2]
    rfl
theorem reduceds_eager {μ0 μ : Mem V} {as : List Arr} {vs : List (Value V)} (h : Same μ0 as vs μ) (dyn : Bool) (z : List Int) (hz : ∀ i ∈ z, i = 0) : (t t' : List (FExp V)) →
    FExp.Reduceds vs t t' → Ra.FExp.eagers dyn z as t μ = (.ok t', μ)
  | [], t', h1 => by simp only [FExp.Reduceds] at h1; subst h1; simp only [Ra.FExp.eagers]; rfl
  | e :: t, t', ⟨e1, t1, h1, h2, h3⟩ => by
    subst h3
    simp only [Ra.FExp.eagers]
    rw [act_bind_ok (reduced_eager h dyn z hz e e1 h1), act_bind_ok (reduceds_eager h dyn z hz t t1 h2)]
    rfl
end

mutual
theorem reduced_good {vs : List (Value V)} : (e e' : FExp V) → FExp.Good vs e → FExp.Reduced vs e e' → FExp.Good vs e' ∧ Plain e' ∧ FExp.rank vs e' = FExp.rank vs e
  | .const x, e', hg, h1 => by simp only [FExp.Reduced] at h1; subst h1; simp [FExp.Good, Plain]
  | .index w f, e', hg, h1 => by simp only [FExp.Reduced] at h1; subst h1; simp [FExp.Good, Plain]
  | .iota n o s0 f, e', hg, h1 => by simp only [FExp.Reduced] at h1; subst h1; simp [FExp.Good, Plain]
  | .gather n i ops mk t, e', ⟨hn, hg, hc, hv⟩, ⟨t', h1, h2⟩ => by
    subst h2
    obtain ⟨g1, g2, g3, g4⟩ := reduceds_good t t' hg h1
    have hl : t'.length = t.length := by rw [← ranks_length vs, g3, ranks_length]
    exact ⟨⟨g4 hn, g1, by rw [hl]; exact hc, hv⟩, g2, by rw [FExp.rank, FExp.rank, g3]⟩
  | .view i ops, e', hg, h1 => by simp only [FExp.Reduced] at h1; subst h1; exact ⟨hg, by simp [Plain], rfl⟩
  | .map f c t, e', ⟨hn, hg, hf⟩, ⟨t', h1, h2⟩ => by
    subst h2
    obtain ⟨g1, g2, g3, g4⟩ := reduceds_good t t' hg h1
    exact ⟨⟨g4 hn, g1, by rw [g3]; exact hf⟩, g2, by rw [FExp.rank, FExp.rank, g3]⟩
  | .pick sel t, e', ⟨hn, hg⟩, ⟨t', h1, h2⟩ => by
    subst h2
    obtain ⟨g1, g2, g3, g4⟩ := reduceds_good t t' hg h1
    exact ⟨⟨g4 hn, g1⟩, g2, by rw [FExp.rank, FExp.rank, g3]⟩
  | .fold f x0 e, e', hg, ⟨e1, s, x, h1, h2, h3, h4⟩ => by
    subst h4
    simp [FExp.Good, Plain, FExp.rank]
theorem reduceds_good {vs : List (Value V)} : (t t' : List (FExp V)) → FExp.Goods vs t → FExp.Reduceds vs t t' → FExp.Goods vs t' ∧ AllPlain t' ∧ FExp.ranks vs t' = FExp.ranks vs t ∧ (t ≠ [] → t' ≠ [])
  | [], t', hg, h1 => by simp only [FExp.Reduceds] at h1; subst h1; simp [FExp.Goods, AllPlain]
  | e :: t, t', hg, ⟨e1, t1, h1, h2, h3⟩ => by
    subst h3
    obtain ⟨a1, a2, a3⟩ := reduced_good e e1 hg.1 h1
    obtain ⟨b1, b2, b3, _⟩ := reduceds_good t t1 hg.2 h2
    exact ⟨⟨a1, b1⟩, ⟨a2, b2⟩, by simp [FExp.ranks, a3, b3], by simp⟩
end

mutual
/-- If some reduction can't be done then the check fails. -/
theorem not_reduced {μ0 μ : Mem V} {as : List Arr} {vs : List (Value V)} (h : Same μ0 as vs μ) (dyn : Bool) (z : List Int) (hz : ∀ i ∈ z, i = 0) : (e : FExp V) → FExp.Good vs e →
    (¬ ∃ e', FExp.Reduced vs e e') → Ra.FExp.eager dyn z as e μ = (.error .check, μ)
  | .const x, _, h1 => absurd ⟨.const x, by simp only [FExp.Reduced]⟩ h1
  | .index w f, _, h1 => absurd ⟨.index w f, by simp only [FExp.Reduced]⟩ h1
  | .iota n o s0 f, _, h1 => absurd ⟨.iota n o s0 f, by simp only [FExp.Reduced]⟩ h1
  | .gather n i ops mk t, hg, h1 => by
    simp only [Ra.FExp.eager]
    rw [act_bind, not_reduceds h dyn z hz t hg.2.1 (fun ⟨t', ht⟩ => h1 ⟨.gather n i ops mk t', t', ht, rfl⟩)]
  | .view i ops, _, h1 => absurd ⟨.view i ops, by simp only [FExp.Reduced]⟩ h1
  | .map f c t, hg, h1 => by
    simp only [Ra.FExp.eager]
    rw [act_bind, not_reduceds h dyn z hz t hg.2.1 (fun ⟨t', ht⟩ => h1 ⟨.map f c t', t', ht, rfl⟩)]
  | .pick sel t, hg, h1 => by
    simp only [Ra.FExp.eager]
    rw [act_bind, not_reduceds h dyn z hz t hg.2 (fun ⟨t', ht⟩ => h1 ⟨.pick sel t', t', ht, rfl⟩)]
  | .fold f x0 e, hg, h1 => by
    simp only [Ra.FExp.eager]
    by_cases he : ∃ e1, FExp.Reduced vs e e1
    · obtain ⟨e1, he⟩ := he
      rw [act_bind_ok (reduced_eager h dyn z hz e e1 he)]
      obtain ⟨g1, g2, _⟩ := reduced_good e e1 hg he
      by_cases hs : ∃ s : List Nat, FExp.Shape vs e1 (s.map some)
      · obtain ⟨s, hs⟩ := hs
        obtain ⟨t, t1, t2⟩ := fold_run h dyn z hz f x0 e1 s hs
        rw [act_bind_ok (a := t) (μ' := μ) (by rw [t1]; rfl)]
        cases hf : folded vs f e1 (rowMajor s) x0 with
        | none =>
          rw [hf] at t2
          rw [act_bind, t2]
        | some x => exact absurd ⟨.const x, e1, s, x, he, hs, hf, rfl⟩ h1
      · obtain ⟨t, t1, t2⟩ := fold_never h dyn z (foldOp f) x0 e1 g1 g2 hs
        rw [act_bind_ok (a := t) (μ' := μ) (by rw [t1]; rfl), act_bind, t2]
    · rw [act_bind, not_reduced h dyn z hz e hg he]
theorem not_reduceds {μ0 μ : Mem V} {as : List Arr} {vs : List (Value V)} (h : Same μ0 as vs μ) (dyn : Bool) (z : List Int) (hz : ∀ i ∈ z, i = 0) : (t : List (FExp V)) → FExp.Goods vs t →
    (¬ ∃ t', FExp.Reduceds vs t t') → Ra.FExp.eagers dyn z as t μ = (.error .check, μ)
  | [], _, h1 => absurd ⟨[], by simp only [FExp.Reduceds]⟩ h1
  | e :: t, hg, h1 => by
    simp only [Ra.FExp.eagers]
    by_cases he : ∃ e1, FExp.Reduced vs e e1
    · obtain ⟨e1, he⟩ := he
      rw [act_bind_ok (reduced_eager h dyn z hz e e1 he), act_bind, not_reduceds h dyn z hz t hg.2 (fun ⟨t', ht⟩ => h1 ⟨e1 :: t', e1, t', he, ht, rfl⟩)]
    · rw [act_bind, not_reduced h dyn z hz e hg.1 he]
end

mutual
theorem reduced_places {vs : List (Value V)} : (e e' : FExp V) → FExp.Places e → FExp.Reduced vs e e' → FExp.Places e'
  | .const x, e', hp, _ => by simp [FExp.Places] at hp
  | .index w f, e', hp, _ => by simp [FExp.Places] at hp
  | .map f c t, e', hp, _ => by simp [FExp.Places] at hp
  | .fold f x0 e, e', hp, _ => by simp [FExp.Places] at hp
  | .iota n o s0 f, e', hp, _ => by simp [FExp.Places] at hp
  | .gather n i ops mk t, e', hp, ⟨t', _, h⟩ => by subst h; simp [FExp.Places]
  | .view i ops, e', hp, h => by simp only [FExp.Reduced] at h; subst h; exact hp
  | .pick sel [], e', hp, _ => by simp [FExp.Places] at hp
  | .pick sel (p :: ps), e', hp, ⟨t', ⟨p1, ps1, h1, h2, h3⟩, h4⟩ => by
    subst h4
    subst h3
    simp only [FExp.Places] at hp ⊢
    exact reduceds_places ps ps1 hp h2
theorem reduceds_places {vs : List (Value V)} : (t t' : List (FExp V)) → FExp.AllPlaces t → FExp.Reduceds vs t t' → FExp.AllPlaces t'
  | [], t', hg, h1 => by simp only [FExp.Reduceds] at h1; subst h1; simp [FExp.AllPlaces]
  | e :: t, t', hg, ⟨e1, t1, h1, h2, h3⟩ => by
    subst h3
    exact ⟨reduced_places e e1 hg.1 h1, reduceds_places t t1 hg.2 h2⟩
end

mutual
/-- The shape doesn't depend on the elements of the arrays. -/
theorem shape_put {vs : List (Value V)} {i : Nat} {v w : Value V} (hv : vs[i]? = some v) (hw : w.shape = v.shape) : (e : FExp V) → (s : List Length) → FExp.Shape vs e s →
    FExp.Shape (vs.set i w) e s
  | .const x, s, h => by simpa only [FExp.Shape] using h
  | .index w f, s, h => by simpa only [FExp.Shape] using h
  | .iota n o s0 f, s, h => by simpa only [FExp.Shape] using h
  | .gather n l ops mk t, s, ⟨hne, u, b, ss, h1, h2, h3, h4⟩ => by
    refine ⟨hne, ?_⟩
    by_cases hl : i = l
    · subst hl
      rw [hv] at h1
      cases h1
      exact ⟨w, b, ss, by rw [List.getElem?_set, if_pos rfl, if_pos (List.getElem?_eq_some_iff.mp hv).1], by rw [hw]; exact h2, shapes_put hv hw t ss h3, h4⟩
    · exact ⟨u, b, ss, by rw [List.getElem?_set, if_neg hl]; exact h1, h2, shapes_put hv hw t ss h3, h4⟩
  | .view l ops, s, ⟨u, h1, h2⟩ => by
    by_cases hl : i = l
    · subst hl
      rw [hv] at h1
      cases h1
      exact ⟨w, by rw [List.getElem?_set, if_pos rfl, if_pos (List.getElem?_eq_some_iff.mp hv).1], by rw [hw]; exact h2⟩
    · exact ⟨u, by rw [List.getElem?_set, if_neg hl]; exact h1, h2⟩
  | .map f c t, s, ⟨ss, h1, h2⟩ => ⟨ss, shapes_put hv hw t ss h1, h2⟩
  | .pick sel t, s, ⟨ss, h1, h2⟩ => ⟨ss, shapes_put hv hw t ss h1, h2⟩
  | .fold f x0 e, s, h => by simp [FExp.Shape] at h
theorem shapes_put {vs : List (Value V)} {i : Nat} {v w : Value V} (hv : vs[i]? = some v) (hw : w.shape = v.shape) : (t : List (FExp V)) → (ss : List (List Length)) → FExp.Shapes vs t ss →
    FExp.Shapes (vs.set i w) t ss
  | [], ss, h => by simpa only [FExp.Shapes] using h
  | e :: t, ss, ⟨s, ss', h1, h2, h3⟩ => ⟨s, ss', h1, shape_put hv hw e s h2, shapes_put hv hw t ss' h3⟩
end

/-! ### Assignments -/

theorem same_floop {μ0 : Mem V} {as : List Arr} (f : V → V → V) (d e : FExp V) (w t : Iter (Act V) (Lv V)) (hw : Ra.FExp.iter as d = .ok w) (ht : Ra.FExp.iter as e = .ok t) (hp : FExp.Places d)
    (op : List (Lv V) → Act V (Lv V))
    (hop : ∀ (μ : Mem V) d x p v y, Refers μ d p → Reads μ x v → μ p = some y → mapOp op [d, x] μ = (.ok (.ref p), μ.upd p (f y v)))
    (sd se : List Length) (js : List (List Int)) (hjs : ∀ j ∈ js, InRange sd j ∧ InRange se j) {vs : List (Value V)} {μ : Mem V} (h : Same μ0 as vs μ) (hd : FExp.Shape vs d sd)
    (he : FExp.Shape vs e se) (vs' : List (Value V)) (b : Bool) (hl : floop f d e js vs = (vs', b)) :
    ∃ μ', forAll (fun j => mapOp op [elem w j, elem t j]) js μ = (if b then .ok () else .error .check, μ') ∧ Same μ0 as vs' μ' := by
  induction js generalizing vs μ with
  | nil =>
    simp only [floop, Prod.mk.injEq] at hl
    obtain ⟨rfl, rfl⟩ := hl
    exact ⟨μ, rfl, h⟩
  | cons j js ih =>
    have hj := hjs j (by simp)
    have h1 := fexp_refers seesAct h d hp sd hd w hw j hj.1
    have h2 := fexp_sem seesAct h e se he t ht j hj.2
    simp only [forAll]
    simp only [floop] at hl
    cases hr : FExp.refers vs d j with
    | none =>
      rw [hr] at h1 hl
      simp only [Prod.mk.injEq] at hl
      obtain ⟨rfl, rfl⟩ := hl
      refine ⟨μ, ?_, h⟩
      have hb : mapOp op [elem w j, elem t j] μ = (.error .check, μ) := by
        rw [mapM_two]
        exact seesAct.bad_ h1
      rw [act_bind, hb]
      simp
    | some ip =>
      obtain ⟨i, p⟩ := ip
      rw [hr] at h1 hl
      obtain ⟨a, v, k, y, g1, g2, g3, g4, g5, g6, g7⟩ := h1
      cases ha : FExp.at vs e j with
      | none =>
        rw [ha] at h2 hl
        simp only [Prod.mk.injEq] at hl
        obtain ⟨rfl, rfl⟩ := hl
        refine ⟨μ, ?_, h⟩
        have hb : mapOp op [elem w j, elem t j] μ = (.error .check, μ) := by
          rw [mapM_two]
          exact seesAct.next_ g7 (seesAct.bad_ h2)
        rw [act_bind, hb]
        simp
      | some x =>
        rw [ha] at h2 hl
        simp only [g2, g6] at hl
        obtain ⟨l, e1, e2⟩ := h2
        have hrd : Reads μ (elem t j) x := by
          rw [reads_iff]
          exact ⟨l, μ, e1, e2⟩
        have hrun := hop μ (elem w j) (elem t j) (a.base + k) x y g7 hrd g5
        have hsame := same_put h g1 g2 g3 g4 (f y x)
        obtain ⟨μ', q1, q2⟩ := ih (fun k hk => hjs k (by simp [hk])) hsame (shape_put (w := v.put p (f y x)) g2 rfl d sd hd) (shape_put (w := v.put p (f y x)) g2 rfl e se he) hl
        refine ⟨μ', ?_, q2⟩
        rw [act_bind_ok hrun]
        exact q1

/-- Both kinds of assignment, if the reductions can be done and the shapes match. -/
theorem same_fassign {μ0 : Mem V} {as : List Arr} (dyn : Bool) (z : List Int) (hz : ∀ i ∈ z, i = 0) (f : V → V → V) (d e d' e' : FExp V) (hp : FExp.Places d) (s : List Nat)
    (op : List (Lv V) → Act V (Lv V))
    (hop : ∀ (μ : Mem V) d x p v y, Refers μ d p → Reads μ x v → μ p = some y → mapOp op [d, x] μ = (.ok (.ref p), μ.upd p (f y v)))
    {vs : List (Value V)} {μ : Mem V} (h : Same μ0 as vs μ) (hpr : Prepared vs d e d' e' s) (vs' : List (Value V)) (b : Bool) (hl : floop f d' e' (rowMajor s) vs = (vs', b)) :
    ∃ μ', fassign dyn z as op d e μ = (if b then .ok () else .error .check, μ') ∧ Same μ0 as vs' μ' := by
  obtain ⟨rd, re, sd, se, hd, he, hm⟩ := hpr
  obtain ⟨w, w1, w2, w3, w4⟩ := fexp_good (m := Act V) h d' (shape_good d' _ hd).1 (shape_good d' _ hd).2.1
  obtain ⟨t, t1, t2, t3, t4⟩ := fexp_good (m := Act V) h e' (shape_good e' _ he).1 (shape_good e' _ he).2.1
  have hS : HasShape (.node (mapOp op) [w, t]) (s.map some) := shape_two ((w4 _).mpr hd) ((t4 _).mpr he) hm
  obtain ⟨μ', g1, g2⟩ := same_floop f d' e' w t w1 t1 (reduced_places d d' hp rd) op hop sd se (rowMajor s)
    (fun j hj => ⟨inRange_of_merge hm (by simp) (mem_rowMajor.mp hj), inRange_of_merge hm (by simp) (mem_rowMajor.mp hj)⟩) h hd he vs' b hl
  refine ⟨μ', ?_, g2⟩
  simp only [fassign]
  rw [act_bind_ok (reduced_eager h dyn z hz d d' rd), act_bind_ok (reduced_eager h dyn z hz e e' re), act_bind_ok (a := w) (μ' := μ) (by rw [w1]; rfl),
    act_bind_ok (a := t) (μ' := μ) (by rw [t1]; rfl), ply_never dyn _ _ hS z hz]
  simp only [elem, elems, bind_assoc, pure_bind]
  rw [bind_pure_unit]
  exact g1

/-- If not, then nothing is done. -/
theorem never_fassign {μ0 : Mem V} {as : List Arr} (dyn : Bool) (z : List Int) (hz : ∀ i ∈ z, i = 0) (d e : FExp V) (op : List (Lv V) → Act V (Lv V))
    {vs : List (Value V)} {μ : Mem V} (h : Same μ0 as vs μ) (hd : FExp.Good vs d) (he : FExp.Good vs e) (hn : ¬ ∃ d' e' s, Prepared vs d e d' e' s) :
    fassign dyn z as op d e μ = (.error .check, μ) := by
  simp only [fassign]
  by_cases h1 : ∃ d', FExp.Reduced vs d d'
  · obtain ⟨d', h1⟩ := h1
    rw [act_bind_ok (reduced_eager h dyn z hz d d' h1)]
    by_cases h2 : ∃ e', FExp.Reduced vs e e'
    · obtain ⟨e', h2⟩ := h2
      rw [act_bind_ok (reduced_eager h dyn z hz e e' h2)]
      obtain ⟨d1, d2, _⟩ := reduced_good d d' hd h1
      obtain ⟨e1, e2, _⟩ := reduced_good e e' he h2
      obtain ⟨w, w1, w2, w3, w4⟩ := fexp_good (m := Act V) h d' d1 d2
      obtain ⟨t, t1, t2, t3, t4⟩ := fexp_good (m := Act V) h e' e1 e2
      rw [act_bind_ok (a := w) (μ' := μ) (by rw [w1]; rfl), act_bind_ok (a := t) (μ' := μ) (by rw [t1]; rfl)]
      rcases C03_tree (β := Unit) never (.node (mapOp op) [w, t]) ⟨by simp, w2, t2, trivial⟩ z with ⟨s, ss, ⟨sd, _, rfl, hs1, se, _, rfl, hs2, hs3⟩, hm⟩ | ⟨g1, g2, _⟩
      · simp only [HasShapes] at hs3
        subst hs3
        exact absurd ⟨d', e', s, h1, h2, sd, se, (w4 _).mp hs1, (t4 _).mp hs2, hm⟩ hn
      · cases dyn
        · simp only [ply, Bool.false_eq_true, if_false, g2]
          rfl
        · simp only [ply, if_true, g1]
          rfl
    · rw [act_bind, not_reduced h dyn z hz e he h2]
  · rw [act_bind, not_reduced h dyn z hz d hd h1]

/-! ### Arrays made from expressions -/

theorem same_other {μ0 μ μ' : Mem V} {as : List Arr} {vs : List (Value V)} (h : Same μ0 as vs μ) (hm : ∀ p, (μ p).isSome → μ' p = μ p) : ∃ μ1, Same μ1 as vs μ' := by
  classical
  refine ⟨fun p => if ∃ a ∈ as, Owns a p then none else μ' p, ⟨?_, h.sound.disj, ?_, ?_⟩, h.len, ?_, ?_⟩
  · intro a ha
    obtain ⟨s, hc⟩ := h.sound.cont a ha
    exact ⟨s, hc.lens, hc.steps, hc.count, fun i hi => by rw [hm _ (hc.alloc i hi)]; exact hc.alloc i hi, hc.rank⟩
  · intro p
    by_cases hp : ∃ a ∈ as, Owns a p
    · have := (h.sound.used p).mpr (.inr hp)
      simp only [if_pos hp, hm p this, this, hp, or_true]
    · simp [hp]
  · intro p hp a ha ho
    simp only [if_pos (show ∃ a ∈ as, Owns a p from ⟨a, ha, ho⟩)] at hp
    simp at hp
  · intro i a v ha hv
    obtain ⟨hc, h2, h3⟩ := h.rep i a v ha hv
    refine ⟨⟨hc.lens, hc.steps, hc.count, fun i hi => by rw [hm _ (hc.alloc i hi)]; exact hc.alloc i hi, hc.rank⟩, h2, fun k hk => by rw [hm _ (hc.alloc k hk)]; exact h3 k hk⟩
  · intro p hp
    split at hp
    · simp at hp
    · next hn => rw [if_neg hn]

theorem allOf_map {α : Type} {g : α → Option V} {l : List α} {xs : List V} (h : allOf (l.map g) = some xs) : xs.length = l.length ∧ ∀ (k : Nat) (a : α), l[k]? = some a → g a = xs[k]? := by
  induction l generalizing xs with
  | nil => simp [allOf] at h; subst h; simp
  | cons a l ih =>
    rw [List.map_cons, allOf_cons] at h
    cases hg : g a with
    | none => rw [hg] at h; simp at h
    | some x =>
      rw [hg] at h
      simp only [Option.bind_some, Option.map_eq_some_iff] at h
      obtain ⟨ys, h1, rfl⟩ := h
      obtain ⟨i1, i2⟩ := ih h1
      refine ⟨by simp [i1], fun k b hk => ?_⟩
      cases k with
      | zero => simp at hk; subst hk; simpa using hg
      | succ k => simpa using i2 k b (by simpa using hk)

theorem make_body {μ0 μ μ1 : Mem V} {as : List Arr} {vs : List (Value V)} (h : Same μ0 as vs μ) (dyn : Bool) (z : List Int) (hz : ∀ i ∈ z, i = 0) {rk : Option Nat} {o : Option Int} {fill : Nat → V}
    {e : FExp V} {s : List Nat} (hs : FExp.Shape vs e (s.map some)) {xs : List V} (hx : allOf ((rowMajor s).map (FExp.at vs e)) = some xs) {t : Iter (Act V) (Lv V)} (ht : Ra.FExp.iter as e = .ok t)
    {a : Arr} (hc : Arr.create rk o fill (s.map Nat.cast) μ = (.ok a, μ1)) :
    ∃ μ2, assign dyn z a.view.refs t μ1 = (.ok (), μ2) ∧ Same μ0 (as ++ [a]) (vs ++ [⟨s, xs⟩]) μ2 := by
  obtain ⟨s', h1, h2, h3, h4, _⟩ := create_ok hc
  have : s' = s := (List.map_injective_iff.mpr Nat.cast_injective h1).symm
  subst this
  obtain ⟨t', u1, _, _, u4⟩ := fexp_good (m := Act V) h e (shape_good e _ hs).1 (shape_good e _ hs).2.1
  rw [ht] at u1
  cases u1
  obtain ⟨x1, x2⟩ := allOf_map hx
  have hne : ∀ p, ¬ Owns ⟨rk, [], 0, 0⟩ p := fun p hp => by simp only [Owns] at hp; omega
  have hold : ∀ p, Owns a p → μ p = none := fun p hp => (h4.new p hp).resolve_left (hne p)
  have hget : ∀ j, Valid s' j → FExp.at vs e j = xs[(position s' j).toNat]? := fun j hj => x2 _ j (rowMajor_get hj)
  have hpos : ∀ j, Valid s' j → (position s' j).toNat < xs.length := by
    intro j hj
    rw [x1]
    exact (List.getElem?_eq_some_iff.mp (rowMajor_get hj)).1
  obtain ⟨μ2, r1, r2, r3⟩ := C27_view dyn z hz a.view s' (shaped_nat.mpr h2.lens) (container_distinct h2) t (s'.map some) ((u4 _).mpr hs) (merge_same _) μ1 (fun j hj => container_mem h2 hj)
    (fun j => (FExp.at vs e j).getD (fill 0)) (by
      intro j hj μ' hμ
      obtain ⟨μ3, hsame⟩ := same_other (μ' := μ') h (fun p hp => by
        have hno : ¬ Owns a p := fun ho => by rw [hold p ho] at hp; simp at hp
        rw [hμ p (fun hv => ?_), h4.out p (hne p) hno]
        obtain ⟨⟨k, hk, rfl⟩, _⟩ := hv
        exact hno (container_owns h2 hk))
      have hsem := fexp_sem seesAct hsame e _ hs t ht j (inRange_of_valid hj)
      rw [hget j hj, List.getElem?_eq_getElem (hpos j hj)] at hsem ⊢
      obtain ⟨l, l1, l2⟩ := hsem
      exact (reads_iff _ _ _).mpr ⟨l, μ', l1, l2⟩)
  refine ⟨μ2, r1, same_add (e := ⟨rk, [], 0, 0⟩) h rfl ⟨fun p hp hp' => ?_, h4.new, fun p hp => absurd hp (hne p)⟩ ?_⟩
  · rw [r3 p (fun ⟨k, hk, e⟩ => hp' (e ▸ container_owns h2 hk)), h4.out p hp hp']
  · rw [← rep_iff]
    refine ⟨⟨h2.lens, h2.steps, h2.count, fun i hi => ?_, h2.rank⟩, by rw [x1, length_rowMajor], fun j hj => ?_⟩
    · obtain ⟨j, hj, hp⟩ := container_inView h2 (p := a.base + i) (by simp only [Owns]; omega)
      rw [hp, r2 j hj]
      rfl
    · rw [r2 j hj, hget j hj, Value.get, List.getElem?_eq_getElem (hpos j hj)]
      rfl

theorem fmake_eq {μ0 μ : Mem V} {as : List Arr} {vs : List (Value V)} (h : Same μ0 as vs μ) (dyn : Bool) (z : List Int) (hz : ∀ i ∈ z, i = 0) (rk : Option Nat) (o : Option Int) (fill : Nat → V)
    (e e' : FExp V) (s : List Nat) (hr : FExp.Reduced vs e e') (hs : FExp.Shape vs e' (s.map some)) :
    ∃ t, Ra.FExp.iter (m := Act V) as e' = .ok t ∧ fmake dyn z as rk o fill e μ = Arr.andDo (Arr.create rk o fill (s.map Nat.cast) μ) fun a => assign dyn z a.view.refs t := by
  obtain ⟨t, u1, _, _, u4⟩ := fexp_good (m := Act V) h e' (shape_good e' _ hs).1 (shape_good e' _ hs).2.1
  refine ⟨t, u1, ?_⟩
  unfold fmake
  rw [act_bind_ok (reduced_eager h dyn z hz e e' hr), u1]
  show concreteBig rk o fill dyn z t μ = _
  rw [concreteBig, Arr.ofExpr, shape_cast ((u4 _).mpr hs)]

theorem make_error {μ0 μ : Mem V} {as : List Arr} {vs : List (Value V)} (h : Same μ0 as vs μ) (dyn : Bool) (z : List Int) (hz : ∀ i ∈ z, i = 0) (rk : Option Nat) (o : Option Int) (fill : Nat → V)
    (e e' : FExp V) (s : List Nat) (hr : FExp.Reduced vs e e') (hs : FExp.Shape vs e' (s.map some)) (f : Fault) (μ1 : Mem V) (hc : Arr.create rk o fill (s.map Nat.cast) μ = (.error f, μ1)) :
    fmake dyn z as rk o fill e μ = (.error f, μ1) := by
  obtain ⟨t, _, h1⟩ := fmake_eq h dyn z hz rk o fill e e' s hr hs
  rw [h1, hc]
  rfl

/-- The array is made, if there's memory. -/
theorem same_make {μ0 μ : Mem V} {as : List Arr} {vs : List (Value V)} (h : Same μ0 as vs μ) (dyn : Bool) (z : List Int) (hz : ∀ i ∈ z, i = 0) (rk : Option Nat) (o : Option Int) (fill : Nat → V)
    (e e' : FExp V) (s : List Nat) (xs : List V) (hr : FExp.Reduced vs e e') (hs : FExp.Shape vs e' (s.map some)) (hx : allOf ((rowMajor s).map (FExp.at vs e')) = some xs) :
    (∀ a μ', fmake dyn z as rk o fill e μ = (.ok a, μ') → Same μ0 (as ++ [a]) (vs ++ [⟨s, xs⟩]) μ') ∧
    ∀ a μ1, Arr.create rk o fill (s.map Nat.cast) μ = (.ok a, μ1) → ∃ μ', fmake dyn z as rk o fill e μ = (.ok a, μ') := by
  obtain ⟨t, u1, hrun⟩ := fmake_eq h dyn z hz rk o fill e e' s hr hs
  rw [hrun]
  constructor
  · intro a μ' he
    cases hc : Arr.create rk o fill (s.map Nat.cast) μ with
    | mk r μ1 =>
      rw [hc] at he
      cases r with
      | error f => simp [Arr.andDo] at he
      | ok a1 =>
        obtain ⟨μ2, g1, g2⟩ := make_body h dyn z hz hs hx u1 hc
        simp only [Arr.andDo, g1, Prod.mk.injEq, Except.ok.injEq] at he
        obtain ⟨rfl, rfl⟩ := he
        exact g2
  · intro a μ1 hc
    obtain ⟨μ2, g1, g2⟩ := make_body h dyn z hz hs hx u1 hc
    exact ⟨μ2, by simp only [hc, Arr.andDo, g1]⟩

theorem fmake_unique {vs vs1 vs2 : List (Value V)} {rk : Option Nat} {e : FExp V} (h1 : FMakes vs rk e vs1) (h2 : FMakes vs rk e vs2) : vs1 = vs2 := by
  obtain ⟨e1, s1, x1, a1, b1, c1, d1, rfl⟩ := h1
  obtain ⟨e2, s2, x2, a2, b2, c2, d2, rfl⟩ := h2
  have := reduced_unique e _ _ a1 a2
  subst this
  have hs : s1 = s2 := (List.map_injective_iff.mpr fun a b h => by simpa using h) (shape_unique e1 _ _ b1 b2)
  subst hs
  rw [d1] at d2
  cases d2
  rfl

/-- The array isn't made. -/
theorem never_make {μ0 μ : Mem V} {as : List Arr} {vs : List (Value V)} (h : Same μ0 as vs μ) (dyn : Bool) (z : List Int) (hz : ∀ i ∈ z, i = 0) (rk : Option Nat) (o : Option Int) (fill : Nat → V)
    (e : FExp V) (hg : FExp.Good vs e) (hf : ∀ e', ∀ s : List Nat, FExp.Reduced vs e e' → FExp.Shape vs e' (s.map some) → size s ≠ 0 → ∃ b, o = some b ∧ Free μ b (size s))
    (hn : ¬ ∃ vs', FMakes vs rk e vs') : fmake dyn z as rk o fill e μ = (.error .check, μ) := by
  unfold fmake
  by_cases hr : ∃ e', FExp.Reduced vs e e'
  · obtain ⟨e', hr⟩ := hr
    rw [act_bind_ok (reduced_eager h dyn z hz e e' hr)]
    obtain ⟨g1, g2, _⟩ := reduced_good e e' hg hr
    obtain ⟨t, u1, u2, _, u4⟩ := fexp_good (m := Act V) h e' g1 g2
    rw [u1]
    show concreteBig rk o fill dyn z t μ = _
    by_cases hs : ∃ s : List Nat, FExp.Shape vs e' (s.map some)
    · obtain ⟨s, hs⟩ := hs
      have hsh := (u4 _).mpr hs
      by_cases hk : ∀ r, rk = some r → s.length = r
      · cases hx : allOf ((rowMajor s).map (FExp.at vs e')) with
        | some xs => exact absurd ⟨_, e', s, xs, hr, hs, hk, hx, rfl⟩ hn
        | none =>
          have hex : ∃ j, (rowMajor s).find? (fun j => (FExp.at vs e' j).isNone) = some j := by
            rw [← Option.isSome_iff_exists, List.find?_isSome]
            by_contra hc
            push_neg at hc
            have : ∀ l : List (List Int), (∀ j ∈ l, ¬ (FExp.at vs e' j).isNone) → allOf (l.map (FExp.at vs e')) ≠ none := by
              intro l hl
              induction l with
              | nil => simp [allOf]
              | cons j l ih =>
                rw [List.map_cons, allOf_cons]
                have := hl j (by simp)
                cases hj : FExp.at vs e' j with
                | none => simp [hj] at this
                | some x => simpa using ih (fun k hk => hl k (by simp [hk]))
            exact this _ hc hx
          obtain ⟨j0, hj0⟩ := hex
          obtain ⟨f1, f2, f3⟩ := find_first hj0
          have hso : ∀ μ', SameOutside (fun p => μ p = none) μ μ' → ∃ μ3, Same μ3 as vs μ' := fun μ' hμ => same_other h (fun p hp => hμ p (fun e => by simp [e] at hp))
          obtain ⟨b, rfl, hfree⟩ := hf e' s hr hs (by
            intro h0
            have := mem_rowMajor.mpr f1
            rw [List.length_eq_zero_iff.mp ((length_rowMajor s).trans h0)] at this
            simp at this)
          exact C56_big_interrupted rk b fill dyn z hz t s hk hsh (fun j => (FExp.at vs e' j).getD (fill 0)) μ hfree j0 f1 .check (by
            intro j hj hb μ' hμ
            obtain ⟨μ3, hsame⟩ := hso μ' hμ
            have hsem := fexp_sem seesAct hsame e' _ hs t u1 j (inRange_of_valid hj)
            have hsome := f3 j hj hb
            cases ha : FExp.at vs e' j with
            | none => simp [ha] at hsome
            | some x =>
              rw [ha] at hsem
              obtain ⟨l, l1, l2⟩ := hsem
              exact (reads_iff _ _ _).mpr ⟨l, μ', l1, l2⟩) (by
            intro μ' hμ
            obtain ⟨μ3, hsame⟩ := hso μ' hμ
            have hsem := fexp_sem seesAct hsame e' _ hs t u1 j0 (inRange_of_valid f1)
            rw [Option.isNone_iff_eq_none.mp f2] at hsem
            have hsem : elem t j0 μ' = (.error .check, μ') := hsem
            simp only [Fails, act_bind, hsem])
      · unfold concreteBig Arr.ofExpr
        rw [shape_cast hsh, create_reject]
        · rfl
        · rintro ⟨t', ht', hr'⟩
          have : t' = s := (List.map_injective_iff.mpr Nat.cast_injective ht').symm
          subst this
          exact hk hr'
    · exact C56_big_reject rk o fill dyn z t u2 (fun ⟨s, hs'⟩ => hs ⟨s, (u4 _).mp hs'⟩) μ
  · rw [act_bind, not_reduced h dyn z hz e hg hr]

theorem fstep_same {μ0 μ : Mem V} {as : List Arr} {vs vs' : List (Value V)} (dyn : Bool) (z : List Int) (hz : ∀ i ∈ z, i = 0) (c : FCmd V) (hr : ∀ p, c ≠ .cmd (.op (.run p)))
    (h : Same μ0 as vs μ) (he : FCmd.Effect vs c vs') : ∀ {as' μ'}, c.step dyn z as μ = (.ok (), as', μ') → Same μ0 as' vs' μ' := by
  intro as' μ' hs
  cases c with
  | cmd c =>
    obtain ⟨vs1, e1, h1⟩ := step_same dyn z hz c (fun p hp => hr p (by rw [hp])) h hs
    simp only [FCmd.Effect] at he
    rw [he] at e1
    cases e1
    exact h1
  | assign d e =>
    obtain ⟨hp, d', e', s, hpr, hl⟩ := he
    obtain ⟨μ1, h1, h2⟩ := same_fassign dyn z hz (fun _ x => x) d e d' e' hp s setOp (fun μ d x p v y h1 h2 h3 => set_run h1 h2 (by simp [h3])) h hpr _ _ hl
    simp only [FCmd.step, h1, Prod.mk.injEq] at hs
    obtain ⟨_, rfl, rfl⟩ := hs
    exact h2
  | update f d e =>
    obtain ⟨hp, d', e', s, hpr, hl⟩ := he
    obtain ⟨μ1, h1, h2⟩ := same_fassign dyn z hz f d e d' e' hp s (updOp f) (fun μ d x p v y h1 h2 h3 => upd_run f h1 h2 h3) h hpr _ _ hl
    simp only [FCmd.step, h1, Prod.mk.injEq] at hs
    obtain ⟨_, rfl, rfl⟩ := hs
    exact h2
  | make rk o fill e =>
    obtain ⟨e', s, xs, a1, a2, _, a4, rfl⟩ := he
    obtain ⟨g1, _⟩ := same_make h dyn z hz rk o fill e e' s xs a1 a2 a4
    simp only [FCmd.step] at hs
    split at hs
    · next a μ1 hm =>
      simp only [Prod.mk.injEq, true_and] at hs
      obtain ⟨rfl, rfl⟩ := hs
      exact g1 a μ1 hm
    · simp at hs

theorem fprogram_same {μ0 μ μ' : Mem V} {as as' : List Arr} {vs vs' : List (Value V)} (dyn : Bool) (z : List Int) (hz : ∀ i ∈ z, i = 0) (cs : List (FCmd V))
    (hr : ∀ p, FCmd.cmd (.op (.run p)) ∉ cs) (h : Same μ0 as vs μ) (he : FEffects cs vs vs') (hs : fprogram dyn z cs as μ = (.ok (), as', μ')) : Same μ0 as' vs' μ' := by
  induction cs generalizing as vs μ with
  | nil =>
    simp only [fprogram, Prod.mk.injEq, true_and] at hs
    obtain ⟨rfl, rfl⟩ := hs
    simp only [FEffects] at he
    subst he
    exact h
  | cons c cs ih =>
    simp only [fprogram] at hs
    obtain ⟨vs1, e1, e2⟩ := he
    split at hs
    · next as1 μ1 h1 =>
      exact ih (fun p hp => hr p (by simp [hp])) (fstep_same dyn z hz c (fun p hp => hr p (by simp [hp])) h e1 h1) e2 hs
    · simp at hs

theorem same_represents {μ0 μ : Mem V} {as : List Arr} {vs : List (Value V)} (h : Same μ0 as vs μ) : List.Forall₂ (Represents μ) as vs ∧ ∀ p, (μ0 p).isSome → μ p = μ0 p := by
  refine ⟨List.forall₂_iff_get.mpr ⟨h.len, fun i hi hi' => ?_⟩, h.rest⟩
  rw [rep_iff]
  exact h.rep i _ _ (by simp) (by simp)

/-- C92. After any operations, including assignments to views, or to a choice among views, from expressions with rank conjunctions, choices, index placeholders and reductions, the arrays have the
values that they'd have if they were values; and nothing else in memory changes. -/
theorem C92_values (dyn : Bool) (z : List Int) (hz : ∀ i ∈ z, i = 0) (cs : List (FCmd V)) (hr : ∀ p, FCmd.cmd (.op (.run p)) ∉ cs) (as : List Arr) (vs : List (Value V))
    (μ0 μ : Mem V) (hs : fprogram dyn z cs [] μ0 = (.ok (), as, μ)) (he : FEffects cs [] vs) : List.Forall₂ (Represents μ) as vs ∧ ∀ p, (μ0 p).isSome → μ p = μ0 p :=
  same_represents (fprogram_same dyn z hz cs hr (same_start μ0) he hs)

/-- C92. The assignments that have an effect don't fail. -/
theorem C92_runs (dyn : Bool) (z : List Int) (hz : ∀ i ∈ z, i = 0) (cs : List (FCmd V)) (hr : ∀ p, FCmd.cmd (.op (.run p)) ∉ cs) (as : List Arr) (vs vs' : List (Value V))
    (μ0 μ : Mem V) (hs : fprogram dyn z cs [] μ0 = (.ok (), as, μ)) (he : FEffects cs [] vs) (f : V → V → V) (d e : FExp V) :
    (FCmd.Effect vs (.assign d e) vs' → ∃ μ', (FCmd.assign d e).step dyn z as μ = (.ok (), as, μ')) ∧
    (FCmd.Effect vs (.update f d e) vs' → ∃ μ', (FCmd.update f d e).step dyn z as μ = (.ok (), as, μ')) := by
  have h := fprogram_same dyn z hz cs hr (same_start μ0) he hs
  constructor
  · rintro ⟨hp, d', e', s, hpr, hl⟩
    obtain ⟨μ1, h1, h2⟩ := same_fassign dyn z hz (fun _ x => x) d e d' e' hp s setOp (fun μ d x p v y h1 h2 h3 => set_run h1 h2 (by simp [h3])) h hpr _ _ hl
    exact ⟨μ1, by simp only [FCmd.step, h1]; rfl⟩
  · rintro ⟨hp, d', e', s, hpr, hl⟩
    obtain ⟨μ1, h1, h2⟩ := same_fassign dyn z hz f d e d' e' hp s (updOp f) (fun μ d x p v y h1 h2 h3 => upd_run f h1 h2 h3) h hpr _ _ hl
    exact ⟨μ1, by simp only [FCmd.step, h1]; rfl⟩

/-- C92. An assignment either has an effect or fails, in the sense of `C92_runs` and `C92_fails`. -/
theorem C92_either (f : V → V → V) (vs : List (Value V)) (d e : FExp V) (hp : FExp.Places d) : ∃ vs', FAssigns f vs d e vs' ∨ FFails f vs d e vs' := by
  by_cases h : ∃ d' e' s, Prepared vs d e d' e' s
  · obtain ⟨d', e', s, h⟩ := h
    refine ⟨(floop f d' e' (rowMajor s) vs).1, ?_⟩
    cases hb : (floop f d' e' (rowMajor s) vs).2 with
    | true => exact .inl ⟨hp, d', e', s, h, by rw [← hb]⟩
    | false => exact .inr (.inr ⟨d', e', s, h, by rw [← hb]⟩)
  · exact ⟨vs, .inr (.inl ⟨h, rfl⟩)⟩

/-- C92. When an assignment fails it's a failed check. If the shapes don't match, or some reduction can't be done, then nothing has changed; otherwise the elements before the one where it fails
have been assigned and no others. -/
theorem C92_fails (dyn : Bool) (z : List Int) (hz : ∀ i ∈ z, i = 0) (cs : List (FCmd V)) (hr : ∀ p, FCmd.cmd (.op (.run p)) ∉ cs) (as : List Arr) (vs vs' : List (Value V))
    (μ0 μ : Mem V) (hs : fprogram dyn z cs [] μ0 = (.ok (), as, μ)) (he : FEffects cs [] vs) (f : V → V → V) (d e : FExp V) (hp : FExp.Places d) (hd : FExp.Good vs d) (hge : FExp.Good vs e) :
    (FFails (fun _ x => x) vs d e vs' → ∃ μ', (FCmd.assign d e).step dyn z as μ = (.error .check, as, μ') ∧ List.Forall₂ (Represents μ') as vs' ∧ ∀ p, (μ0 p).isSome → μ' p = μ0 p) ∧
    (FFails f vs d e vs' → ∃ μ', (FCmd.update f d e).step dyn z as μ = (.error .check, as, μ') ∧ List.Forall₂ (Represents μ') as vs' ∧ ∀ p, (μ0 p).isSome → μ' p = μ0 p) := by
  have h := fprogram_same dyn z hz cs hr (same_start μ0) he hs
  constructor
  · rintro (⟨hn, rfl⟩ | ⟨d', e', s, hpr, hl⟩)
    · exact ⟨μ, by simp only [FCmd.step, never_fassign dyn z hz d e setOp h hd hge hn], same_represents h⟩
    · obtain ⟨μ1, h1, h2⟩ := same_fassign dyn z hz (fun _ x => x) d e d' e' hp s setOp (fun μ d x p v y h1 h2 h3 => set_run h1 h2 (by simp [h3])) h hpr _ _ hl
      exact ⟨μ1, by simp only [FCmd.step, h1]; rfl, same_represents h2⟩
  · rintro (⟨hn, rfl⟩ | ⟨d', e', s, hpr, hl⟩)
    · exact ⟨μ, by simp only [FCmd.step, never_fassign dyn z hz d e (updOp f) h hd hge hn], same_represents h⟩
    · obtain ⟨μ1, h1, h2⟩ := same_fassign dyn z hz f d e d' e' hp s (updOp f) (fun μ d x p v y h1 h2 h3 => upd_run f h1 h2 h3) h hpr _ _ hl
      exact ⟨μ1, by simp only [FCmd.step, h1]; rfl, same_represents h2⟩

/-- C92. An array is made from an expression if that has a finite shape, of the rank that's wanted, and all its elements have values, and there's memory. -/
theorem C92_make (dyn : Bool) (z : List Int) (hz : ∀ i ∈ z, i = 0) (cs : List (FCmd V)) (hr : ∀ p, FCmd.cmd (.op (.run p)) ∉ cs) (as : List Arr) (vs vs' : List (Value V))
    (μ0 μ : Mem V) (hs : fprogram dyn z cs [] μ0 = (.ok (), as, μ)) (he : FEffects cs [] vs) (rk : Option Nat) (b : Int) (fill : Nat → V) (e : FExp V)
    (hm : FCmd.Effect vs (.make rk (some b) fill e) vs') (hf : ∀ v, vs'.getLast? = some v → Free μ b (size v.shape)) :
    ∃ a μ', (FCmd.make rk (some b) fill e).step dyn z as μ = (.ok (), as ++ [a], μ') := by
  have h := fprogram_same dyn z hz cs hr (same_start μ0) he hs
  obtain ⟨e', s, xs, a1, a2, a3, a4, rfl⟩ := hm
  obtain ⟨_, g2⟩ := same_make h dyn z hz rk (some b) fill e e' s xs a1 a2 a4
  obtain ⟨a, μ1, hc⟩ := create_runs rk b fill s a3 μ (hf ⟨s, xs⟩ (by simp))
  obtain ⟨μ', hμ⟩ := g2 a μ1 hc
  exact ⟨a, μ', by simp only [FCmd.step, hμ]⟩

/-- C92. Otherwise it's a failed check, no array is made, and the memory is as it was. -/
theorem C92_make_fails (dyn : Bool) (z : List Int) (hz : ∀ i ∈ z, i = 0) (cs : List (FCmd V)) (hr : ∀ p, FCmd.cmd (.op (.run p)) ∉ cs) (as : List Arr) (vs : List (Value V))
    (μ0 μ : Mem V) (hs : fprogram dyn z cs [] μ0 = (.ok (), as, μ)) (he : FEffects cs [] vs) (rk : Option Nat) (b : Int) (fill : Nat → V) (e : FExp V) (hg : FExp.Good vs e)
    (hf : ∀ e', ∀ s : List Nat, FExp.Reduced vs e e' → FExp.Shape vs e' (s.map some) → Free μ b (size s)) (hm : ¬ ∃ vs', FCmd.Effect vs (.make rk (some b) fill e) vs') :
    (FCmd.make rk (some b) fill e).step dyn z as μ = (.error .check, as, μ) := by
  have h := fprogram_same dyn z hz cs hr (same_start μ0) he hs
  simp only [FCmd.step, never_make h dyn z hz rk (some b) fill e hg (fun e' s h1 h2 _ => ⟨b, rfl, hf e' s h1 h2⟩) hm]

theorem prepared_unique {vs : List (Value V)} {d e d1 e1 d2 e2 : FExp V} {s1 s2 : List Nat} (h1 : Prepared vs d e d1 e1 s1) (h2 : Prepared vs d e d2 e2 s2) : d1 = d2 ∧ e1 = e2 ∧ s1 = s2 := by
  obtain ⟨a1, a2, x, y, a3, a4, a5⟩ := h1
  obtain ⟨b1, b2, x', y', b3, b4, b5⟩ := h2
  have e1 := reduced_unique d _ _ a1 b1
  have e2 := reduced_unique e _ _ a2 b2
  subst e1
  subst e2
  rw [shape_unique _ _ _ a3 b3, shape_unique _ _ _ a4 b4] at a5
  exact ⟨rfl, rfl, (List.map_injective_iff.mpr fun a b h => by simpa using h) (C02_unique _ _ _ a5 b5)⟩

/-- C92. There's only one effect; and an assignment that has an effect doesn't fail. -/
theorem C92_unique (cs : List (FCmd V)) (vs vs1 vs2 : List (Value V)) (h1 : FEffects cs vs vs1) :
    (FEffects cs vs vs2 → vs1 = vs2) ∧ ∀ f d e vs3 vs4, FAssigns f vs d e vs3 → ¬ FFails f vs d e vs4 := by
  constructor
  · intro h2
    have ha : ∀ f (vs : List (Value V)) d e vs1 vs2, FAssigns f vs d e vs1 → FAssigns f vs d e vs2 → vs1 = vs2 := by
      intro f vs d e vs1 vs2 ⟨_, d1, e1, s1, a1, b1⟩ ⟨_, d2, e2, s2, a2, b2⟩
      obtain ⟨rfl, rfl, rfl⟩ := prepared_unique a1 a2
      rw [b1] at b2
      exact (Prod.mk.inj b2).1
    induction cs generalizing vs with
    | nil => simp only [FEffects] at h1 h2; rw [h1, h2]
    | cons c cs ih =>
      obtain ⟨u1, a1, b1⟩ := h1
      obtain ⟨u2, a2, b2⟩ := h2
      have : u1 = u2 := by
        cases c with
        | cmd c => simp only [FCmd.Effect] at a1 a2; rw [a1] at a2; exact Option.some.inj a2
        | assign d e => exact ha _ _ _ _ _ _ a1 a2
        | update f d e => exact ha _ _ _ _ _ _ a1 a2
        | make rk o fill e => exact fmake_unique a1 a2
      subst this
      exact ih u1 b1 b2
  · rintro f d e vs3 vs4 ⟨_, d1, e1, s1, a1, b1⟩ (⟨hn, _⟩ | ⟨d2, e2, s2, a2, b2⟩)
    · exact hn ⟨d1, e1, s1, a1⟩
    · obtain ⟨rfl, rfl, rfl⟩ := prepared_unique a1 a2
      rw [b1] at b2
      simp at b2

/-! ### Assignments without overlap -/

theorem merge_inRange {ss : List (List Length)} {s : List Length} (h : Merge ss s) {t : List Length} (ht : t ∈ ss) {j : List Int} (hj : InRange s j) : InRange t j :=
  ⟨Nat.le_trans (h.1 _ ht) hj.1, fun k n hk => hj.2 k n ((h.2.2 k n).mpr ⟨_, ht, hk⟩)⟩

theorem gathered_long {toIdx : V → Int} {mk : List Bool} {b : List Nat} {ss : List (List Length)} {s : List Length} (h : gatherShape mk b ss = some s) {j : List Int} (hj : s.length ≤ j.length)
    {gs : List (List Int → Option V)} (hg : gs.length = ss.length) {x : List Int} (hx : gathered toIdx mk b.length (ss.map List.length) gs j = some x) : x.length = b.length := by
  induction mk generalizing b ss s j gs x with
  | nil =>
    cases ss with
    | nil =>
      simp only [gatherShape, Option.some.injEq] at h
      simp only [gathered, Option.some.injEq] at hx
      subst h
      subst hx
      simpa using hj
    | cons t ss => simp [gatherShape] at h
  | cons a mk ih =>
    cases b with
    | nil => cases a <;> simp [gatherShape] at h
    | cons n b =>
      cases a with
      | true =>
        cases ss with
        | nil => simp [gatherShape] at h
        | cons t ss =>
          cases gs with
          | nil => simp at hg
          | cons g gs =>
            simp only [gatherShape, Option.map_eq_some_iff] at h
            obtain ⟨s', h, rfl⟩ := h
            simp only [List.map_cons, gathered, List.length_cons, Nat.add_sub_cancel] at hx
            split at hx
            · next x1 i1 _ h2 =>
              cases hx
              simp only [List.length_cons]
              rw [ih h (by simp at hj ⊢; omega) (by simpa using hg) h2]
            · cases hx
      | false =>
        simp only [gatherShape, Option.map_eq_some_iff] at h
        obtain ⟨s', h, rfl⟩ := h
        simp only [gathered, List.length_cons, Nat.add_sub_cancel, Option.map_eq_some_iff] at hx
        obtain ⟨x', h2, rfl⟩ := hx
        simp only [List.length_cons] at hj ⊢
        rw [ih h (by simp; omega) hg h2]

theorem gatherAt_valid {v : Value V} {ops : List ViewOp} {b : List Nat} (h2 : opsShape true (v.shape.map some) ops = some (b.map some)) {mk : List Bool} {ss : List (List Length)} {s : List Length}
    (h4 : gatherShape mk b ss = some s) {j : List Int} (hj : InRange s j) {toIdx : V → Int} {gs : List (List Int → Option V)} (hg : gs.length = ss.length) {p : List Int}
    (h : gatherAt v ops toIdx mk (ss.map List.length) gs j = some p) : Valid v.shape p := by
  have hvs : viewShape v ops = b.map some := by simp [viewShape, h2]
  simp only [gatherAt, hvs, List.length_map] at h
  split at h
  · next x hx =>
    split at h
    · next hw =>
      cases h
      exact place_valid h2 ((within_iff b x (gathered_long h4 hj.1 hg hx)).mp hw)
    · cases h
  · cases h

mutual
theorem refers_valid {vs : List (Value V)} : (d : FExp V) → (s : List Length) → FExp.Shape vs d s → ∀ j, InRange s j → ∀ i p, FExp.refers vs d j = some (i, p) →
    ∃ v, vs[i]? = some v ∧ Valid v.shape p
  | .const x, s, hs, j, hj, i, p, h => by simp [FExp.refers] at h
  | .index w f, s, hs, j, hj, i, p, h => by simp [FExp.refers] at h
  | .map f c t, s, hs, j, hj, i, p, h => by simp [FExp.refers] at h
  | .fold f x0 e, s, hs, j, hj, i, p, h => by simp [FExp.refers] at h
  | .iota n o s0 f, s, hs, j, hj, i, p, h => by simp [FExp.refers] at h
  | .gather n l ops mk t, s, ⟨hne, v, b, ss, hv, h2, h3, h4⟩, j, hj, i, p, h => by
    simp only [FExp.refers, hv] at h
    split at h
    · next q hq =>
      simp only [Option.some.injEq, Prod.mk.injEq] at h
      obtain ⟨rfl, rfl⟩ := h
      exact ⟨v, hv, gatherAt_valid h2 h4 hj (by rw [(ats_length vs t).1, ← ranks_length vs, (shapes_good t ss h3).2.2, List.length_map]) (by rw [(shapes_good t ss h3).2.2] at hq; exact hq)⟩
    · cases h
  | .view l ops, s, ⟨v, hv, hs⟩, j, hj, i, p, h => by
    simp only [FExp.refers, hv, Option.some.injEq, Prod.mk.injEq] at h
    obtain ⟨rfl, rfl⟩ := h
    exact ⟨v, hv, place_valid hs hj⟩
  | .pick sel [], s, hs, j, hj, i, p, h => by simp [FExp.refers] at h
  | .pick sel (q :: ps), s, ⟨ss, ⟨s0, ss', hss, h1, h2⟩, hm⟩, j, hj, i, p, h => by
    simp only [FExp.refers] at h
    subst hss
    split at h
    · next x hx =>
      split at h
      · next g hg => exact referss_valid ps ss' h2 j (fun t ht => merge_inRange hm (by simp [ht]) hj) _ g hg i p h
      · cases h
    · cases h
theorem referss_valid {vs : List (Value V)} : (t : List (FExp V)) → (ss : List (List Length)) → FExp.Shapes vs t ss → ∀ j, (∀ s ∈ ss, InRange s j) → ∀ (n : Nat) g,
    (FExp.referss vs t)[n]? = some g → ∀ i p, g j = some (i, p) → ∃ v, vs[i]? = some v ∧ Valid v.shape p
  | [], ss, hs, j, hj, n, g, hg, i, p, h => by simp [FExp.referss] at hg
  | e :: t, ss, ⟨s, ss', hss, h1, h2⟩, j, hj, n, g, hg, i, p, h => by
    subst hss
    cases n with
    | zero =>
      simp only [FExp.referss, List.getElem?_cons_zero, Option.some.injEq] at hg
      subst hg
      exact refers_valid e s h1 j (hj s (by simp)) i p h
    | succ n =>
      simp only [FExp.referss, List.getElem?_cons_succ] at hg
      exact referss_valid t ss' h2 j (fun s hs => hj s (by simp [hs])) n g hg i p h
end

theorem sameBut_refl (P : Nat → List Int → Prop) (vs : List (Value V)) : SameBut P vs vs := ⟨rfl, fun i v hv => ⟨v, hv, rfl, rfl, fun _ _ _ => rfl⟩⟩

theorem sameBut_put {P : Nat → List Int → Prop} {vs vs1 : List (Value V)} (h : SameBut P vs vs1) (hl : ∀ v ∈ vs, v.elems.length = size v.shape) {i : Nat} {v : Value V} {p : List Int}
    (hv : vs[i]? = some v) (hp : Valid v.shape p) (x : V) :
    ∃ v1, vs1[i]? = some v1 ∧ SameBut (fun l q => P l q ∨ (l = i ∧ q = p)) vs (vs1.set i (v1.put p x)) ∧ (v1.put p x).get p = some x := by
  obtain ⟨v1, e1, e2, e3, e4⟩ := h.2 i v hv
  have hl1 : v1.elems.length = size v1.shape := by rw [e3, e2]; exact hl v (List.mem_of_getElem? hv)
  refine ⟨v1, e1, ⟨by simp [h.1], fun l u hu => ?_⟩, ?_⟩
  · by_cases hli : l = i
    · subst hli
      rw [hv] at hu
      cases hu
      refine ⟨v1.put p x, by rw [List.getElem?_set, if_pos rfl, if_pos (List.getElem?_eq_some_iff.mp e1).1], e2, by simp [Value.put, e3], fun q hq hn => ?_⟩
      rw [put_get hl1 (by rw [e2]; exact hq) (by rw [e2]; exact hp), if_neg (fun e => hn (.inr ⟨rfl, e⟩))]
      exact e4 q hq (fun hP => hn (.inl hP))
    · obtain ⟨u1, d1, d2, d3, d4⟩ := h.2 l u hu
      exact ⟨u1, by rw [List.getElem?_set, if_neg (fun e => hli e.symm)]; exact d1, d2, d3, fun q hq hn => d4 q hq (fun hP => hn (.inl hP))⟩
  · rw [put_get hl1 (by rw [e2]; exact hp) (by rw [e2]; exact hp), if_pos rfl]

theorem sameBut_mono {P Q : Nat → List Int → Prop} (hPQ : ∀ i p, P i p → Q i p) {vs vs1 : List (Value V)} (h : SameBut P vs vs1) : SameBut Q vs vs1 :=
  ⟨h.1, fun i v hv => by
    obtain ⟨v1, e1, e2, e3, e4⟩ := h.2 i v hv
    exact ⟨v1, e1, e2, e3, fun p hp hn => e4 p hp (fun hP => hn (hPQ i p hP))⟩⟩

theorem floop_once (f : V → V → V) (d e : FExp V) (sd : List Length) (s : List Nat) (vs : List (Value V)) (hl : ∀ v ∈ vs, v.elems.length = size v.shape) (hd : FExp.Shape vs d sd)
    (hin : ∀ j, Valid s j → InRange sd j) (ho : Once vs d s) (hi : Independent vs d e s) (pre js : List (List Int)) (hn : (pre ++ js).Nodup) (hv : ∀ j ∈ pre ++ js, Valid s j)
    (vs1 vs' : List (Value V)) (h1 : SameBut (fun i p => ∃ k ∈ pre, FExp.refers vs d k = some (i, p)) vs vs1)
    (h2 : ∀ j ∈ pre, ∃ i p v v1 x y, FExp.refers vs d j = some (i, p) ∧ vs[i]? = some v ∧ vs1[i]? = some v1 ∧ FExp.at vs e j = some x ∧ v.get p = some y ∧ v1.get p = some (f y x))
    (hf : floop f d e js vs1 = (vs', true)) :
    SameBut (fun i p => ∃ k ∈ pre ++ js, FExp.refers vs d k = some (i, p)) vs vs' ∧
      ∀ j ∈ pre ++ js, ∃ i p v v1 x y, FExp.refers vs d j = some (i, p) ∧ vs[i]? = some v ∧ vs'[i]? = some v1 ∧ FExp.at vs e j = some x ∧ v.get p = some y ∧ v1.get p = some (f y x) := by
  induction js generalizing pre vs1 with
  | nil =>
    simp only [floop, Prod.mk.injEq, and_true] at hf
    subst hf
    simp only [List.append_nil]
    exact ⟨h1, h2⟩
  | cons j js ih =>
    have hjv : Valid s j := hv j (by simp)
    have hjp : j ∉ pre := by
      intro hc
      have := (List.nodup_append.mp hn).2.2 j hc j (by simp)
      exact this rfl
    obtain ⟨a1, a2⟩ := hi j hjv vs1 (sameBut_mono (fun i p ⟨k, hk, hr⟩ => ⟨k, hv k (by simp [hk]), fun e => hjp (e ▸ hk), hr⟩) h1)
    simp only [floop] at hf
    rw [a1, a2] at hf
    cases hr : FExp.refers vs d j with
    | none => rw [hr] at hf; simp at hf
    | some ip =>
      obtain ⟨i, p⟩ := ip
      rw [hr] at hf
      cases ha : FExp.at vs e j with
      | none => rw [ha] at hf; simp at hf
      | some x =>
        rw [ha] at hf
        obtain ⟨v, hvi, hvp⟩ := refers_valid d sd hd j (hin j hjv) i p hr
        obtain ⟨v1, e1, e2, e3, e4⟩ := h1.2 i v hvi
        have hy : v1.get p = v.get p := e4 p hvp (fun ⟨k, hk, hrk⟩ => hjp (by rw [ho j k _ hjv (hv k (by simp [hk])) hr hrk]; exact hk))
        simp only [e1, hy] at hf
        cases hg : v.get p with
        | none => rw [hg] at hf; simp at hf
        | some y =>
          rw [hg] at hf
          simp only at hf
          obtain ⟨v2, b1, b2, b3⟩ := sameBut_put h1 hl hvi hvp (f y x)
          rw [e1] at b1
          cases b1
          have := ih (pre ++ [j]) (by simpa using hn) (by simpa using hv) (vs1.set i (v1.put p (f y x)))
            (sameBut_mono (fun l q h => by
              rcases h with ⟨k, hk, hrk⟩ | ⟨rfl, rfl⟩
              · exact ⟨k, by simp [hk], hrk⟩
              · exact ⟨j, by simp, hr⟩) b2)
            (fun k hk => by
              rcases List.mem_append.mp hk with hk | hk
              · obtain ⟨i', p', v', u', x', y', c1, c2, c3, c4, c5, c6⟩ := h2 k hk
                by_cases hii : i' = i
                · subst hii
                  rw [hvi] at c2
                  cases c2
                  rw [e1] at c3
                  cases c3
                  refine ⟨i', p', v, v1.put p (f y x), x', y', c1, hvi, by rw [List.getElem?_set, if_pos rfl, if_pos (List.getElem?_eq_some_iff.mp e1).1], c4, c5, ?_⟩
                  have hkv := hv k (by simp [hk])
                  obtain ⟨w, w1, w2⟩ := refers_valid d sd hd k (hin k hkv) i' p' c1
                  rw [hvi] at w1
                  cases w1
                  have hl1 : v1.elems.length = size v1.shape := by rw [e3, e2]; exact hl v (List.mem_of_getElem? hvi)
                  rw [put_get hl1 (by rw [e2]; exact w2) (by rw [e2]; exact hvp), if_neg]
                  · exact c6
                  · rintro rfl
                    exact hjp (by rw [ho j k _ hjv hkv hr c1]; exact hk)
                · exact ⟨i', p', v', u', x', y', c1, c2, by rw [List.getElem?_set, if_neg (fun e => hii e.symm)]; exact c3, c4, c5, c6⟩
              · simp only [List.mem_singleton] at hk
                subst hk
                exact ⟨i, p, v, v1.put p (f y x), x, y, hr, hvi, by rw [List.getElem?_set, if_pos rfl, if_pos (List.getElem?_eq_some_iff.mp e1).1], ha, hg, b3⟩) hf
          simpa using this

/-- C92. If no element is assigned more than once, and the values don't depend on the elements that are assigned for other indices, then each element gets `f` of its value from before and of the
expression, with the arrays as they were before; and nothing else changes. -/
theorem C92_elementwise (f : V → V → V) (vs vs' : List (Value V)) (hl : ∀ v ∈ vs, v.elems.length = size v.shape) (d e d' e' : FExp V) (s : List Nat) (hp : Prepared vs d e d' e' s)
    (ho : Once vs d' s) (hi : Independent vs d' e' s) (h : FAssigns f vs d e vs') :
    SameBut (fun i p => ∃ j, Valid s j ∧ FExp.refers vs d' j = some (i, p)) vs vs' ∧
      ∀ j, Valid s j → ∃ i p v v' x y, FExp.refers vs d' j = some (i, p) ∧ vs[i]? = some v ∧ vs'[i]? = some v' ∧ FExp.at vs e' j = some x ∧ v.get p = some y ∧ v'.get p = some (f y x) := by
  obtain ⟨_, d1, e1, s1, hp1, hf⟩ := h
  obtain ⟨rfl, rfl, rfl⟩ := prepared_unique hp hp1
  obtain ⟨_, _, sd, se, hd, _, hm⟩ := hp
  have := floop_once f d' e' sd s vs hl hd (fun j hj => inRange_of_merge hm (by simp) hj) ho hi [] (rowMajor s) (by simpa using nodup_rowMajor s) (fun j hj => mem_rowMajor.mp (by simpa using hj)) vs vs'
    (sameBut_mono (fun _ _ h => by simp at h) (sameBut_refl (fun _ _ => False) vs)) (by simp) hf
  simp only [List.nil_append] at this
  refine ⟨sameBut_mono (fun i p ⟨k, hk, hr⟩ => ⟨k, mem_rowMajor.mp hk, hr⟩) this.1, fun j hj => this.2 j (mem_rowMajor.mpr hj)⟩

/-- `a` of shape (3, 4), `b` of shape (3) and `c` of shape (4); then `a = from(minus, b, c)`, that is `map(wrank<0, 1>(minus), b, c)`; `b += a(all, 0) * _0 - sum(c)`; and
`pick(_0 % 2, b, c(iota(3))) = 100 + _0`. -/
def egFCmds : List (FCmd Int) := [.cmd (.op (.create none (some 0) (fun _ => 0) [3, 4])), .cmd (.op (.create (some 1) (some 20) (fun i => 10 * i) [3])),
  .cmd (.op (.create (some 1) (some 40) (fun i => i) [4])),
  .assign (.view 0 []) (.map (fun x => x.getD 0 0 - x.getD 1 0) [[0, 1]] [.view 1 [], .view 2 []]),
  .update (· + ·) (.view 1 []) (.map (fun x => x.getD 0 0 * x.getD 1 0 - x.getD 2 0) [] [.view 0 [.slice [.dots (some 1), .scalar (.const 0)]], .index 0 id, .fold (· + ·) 0 (.view 2 [])]),
  .assign (.pick (fun x => x.toNat % 2) [.index 0 id, .view 1 [], .view 2 [.slice [.iota [(.const 3, .const 1)] (.const 0)]]]) (.map (fun x => 100 + x.getD 0 0) [] [.index 0 id])]

example : (fprogram true [] egFCmds [] noMem).1.isOk = true := by decide +kernel
example : ∀ p, FCmd.cmd (.op (.run p)) ∉ egFCmds := by simp [egFCmds]

theorem merge_subs {s : List Length} {ss : List (List Length)} (h : ∀ x ∈ ss, x.length ≤ s.length ∧ ∀ (k n : Nat), x[k]? = some (some n) → s[k]? = some (some n)) : Merge (s :: ss) s := by
  refine ⟨?_, ⟨s, by simp, rfl⟩, fun k n => ⟨fun h => ⟨s, by simp, h⟩, ?_⟩⟩
  · intro x hx
    rcases List.mem_cons.mp hx with rfl | hx
    · omega
    · exact (h x hx).1
  · rintro ⟨x, hx, hk⟩
    rcases List.mem_cons.mp hx with rfl | hx
    · exact hk
    · exact (h x hx).2 k n hk

example : FEffects egFCmds [] [⟨[3, 4], [0, -1, -2, -3, 10, 9, 8, 7, 20, 19, 18, 17]⟩, ⟨[3], [100, 14, 102]⟩, ⟨[4], [0, 101, 2, 3]⟩] := by
  refine ⟨[⟨[3, 4], [0, 0, 0, 0, 0, 0, 0, 0, 0, 0, 0, 0]⟩], by simp only [FCmd.Effect]; decide +kernel, [⟨[3, 4], [0, 0, 0, 0, 0, 0, 0, 0, 0, 0, 0, 0]⟩, ⟨[3], [0, 10, 20]⟩], by simp only [FCmd.Effect]; decide +kernel,
    [⟨[3, 4], [0, 0, 0, 0, 0, 0, 0, 0, 0, 0, 0, 0]⟩, ⟨[3], [0, 10, 20]⟩, ⟨[4], [0, 1, 2, 3]⟩], by simp only [FCmd.Effect]; decide +kernel,
    [⟨[3, 4], [0, -1, -2, -3, 10, 9, 8, 7, 20, 19, 18, 17]⟩, ⟨[3], [0, 10, 20]⟩, ⟨[4], [0, 1, 2, 3]⟩], ?_,
    [⟨[3, 4], [0, -1, -2, -3, 10, 9, 8, 7, 20, 19, 18, 17]⟩, ⟨[3], [-6, 14, 54]⟩, ⟨[4], [0, 1, 2, 3]⟩], ?_, _, ?_, rfl⟩
  · refine ⟨by simp [FExp.Places], _, _, [3, 4], ⟨rfl, ⟨_, ⟨_, _, rfl, ⟨_, _, rfl, rfl, rfl⟩, rfl⟩, rfl⟩, [some 3, some 4], [some 3, some 4], ⟨_, rfl, by decide +kernel⟩,
      ⟨[[some 3], [some 4]], ⟨_, _, rfl, ⟨_, rfl, by decide +kernel⟩, _, _, rfl, ⟨_, rfl, by decide +kernel⟩, rfl⟩, ?_⟩, merge_same _⟩, by decide +kernel⟩
    refine ⟨by simp, [some 3], [some 4], rfl, merge_subs (by simp), ⟨by simp, ⟨_, .tail _ (.head _), rfl⟩, fun k n => ?_⟩⟩
    simp
  · refine ⟨by simp [FExp.Places], _, _, [3], ⟨rfl, ⟨_, ⟨_, _, rfl, ⟨_, _, rfl, ⟨_, _, ⟨_, [4], 6, rfl, ⟨_, rfl, by decide +kernel⟩, by decide +kernel, rfl⟩, rfl, rfl⟩, rfl⟩, rfl⟩, rfl⟩, [some 3], [some 3],
      ⟨_, rfl, by decide +kernel⟩, ⟨[[some 3], [none], []], ⟨_, _, rfl, ⟨_, rfl, by decide +kernel⟩, _, _, rfl, rfl, _, _, rfl, rfl, rfl⟩, ?_⟩, merge_same _⟩, by decide +kernel⟩
    refine merge_subs fun x hx => ?_
    simp only [List.mem_cons, List.not_mem_nil, or_false] at hx
    rcases hx with rfl | rfl
    · refine ⟨by simp, fun k n h => ?_⟩
      cases k <;> simp at h
    · simp
  · refine ⟨by simp [FExp.Places, FExp.AllPlaces], _, _, [3], ⟨⟨_, ⟨_, _, rfl, ⟨_, _, rfl, ⟨_, _, rfl, rfl, rfl⟩, rfl⟩, rfl⟩, rfl⟩, ⟨_, ⟨_, _, rfl, rfl, rfl⟩, rfl⟩, [some 3], [none],
      ⟨[[none], [some 3], [some 3]], ⟨_, _, rfl, rfl, _, _, rfl, ⟨_, rfl, by decide +kernel⟩, _, _, rfl, ⟨_, rfl, by decide +kernel⟩, rfl⟩, ?_⟩, ⟨[[none]], ⟨_, _, rfl, rfl, rfl⟩, merge_one _⟩, ?_⟩, by decide +kernel⟩
    · refine ⟨by simp, ⟨[some 3], by simp, rfl⟩, fun k n => ?_⟩
      cases k <;> simp
    · refine merge_subs fun x hx => ?_
      simp only [List.mem_cons, List.not_mem_nil, or_false] at hx
      subst hx
      refine ⟨by simp, fun k n h => ?_⟩
      cases k <;> simp at h

/-- The arrays that `egFCmds` makes, after the first assignment. -/
def egFs : List (Value Int) := [⟨[3, 4], [0, -1, -2, -3, 10, 9, 8, 7, 20, 19, 18, 17]⟩, ⟨[3], [0, 10, 20]⟩, ⟨[4], [0, 1, 2, 3]⟩]

/-- `a(all, 0) * _0 - 6` -/
def egF : FExp Int := .map (fun x => x.getD 0 0 * x.getD 1 0 - x.getD 2 0) [] [.view 0 [.slice [.dots (some 1), .scalar (.const 0)]], .index 0 id, .const 6]

theorem valid_3 {j : List Int} (h : Valid [3] j) : j = [0] ∨ j = [1] ∨ j = [2] := by
  match j, h with
  | [x], h =>
    have h1 : 0 ≤ x ∧ x < 3 := ⟨h.1, h.2.1⟩
    have : x = 0 ∨ x = 1 ∨ x = 2 := by omega
    simpa using this

example : ∀ v ∈ egFs, v.elems.length = size v.shape := by decide
example : Once egFs (.view 1 []) [3] := by
  intro j k q hj hk
  rcases valid_3 hj with rfl | rfl | rfl <;> rcases valid_3 hk with rfl | rfl | rfl <;> simp [FExp.refers, egFs, place, opsIndex] <;> rintro rfl <;> simp
example : Independent egFs (.view 1 []) egF [3] := by
  intro j hj vs' h
  obtain ⟨⟨s0, e0⟩, h1, h2, h3, h4⟩ := h.2 0 _ rfl
  obtain ⟨⟨s1, e1⟩, k1, k2, k3, k4⟩ := h.2 1 _ rfl
  simp only at h2 k2
  subst h2
  subst k2
  have hg : ∀ p, Valid [3, 4] p → (⟨[3, 4], e0⟩ : Value Int).get p = (⟨[3, 4], [0, -1, -2, -3, 10, 9, 8, 7, 20, 19, 18, 17]⟩ : Value Int).get p := fun p hp => h4 p hp (by
    rintro ⟨k, _, _, hr⟩
    simp [FExp.refers, egFs] at hr)
  refine ⟨?_, by simp only [FExp.refers, k1, egFs]; rfl⟩
  have hr : ∀ vs : List (Value Int), ∀ e, vs[0]? = some ⟨[3, 4], e⟩ → FExp.at vs egF j = verb (m := Option) (fun xs => (allOf xs).map fun x => x.getD 0 0 * x.getD 1 0 - x.getD 2 0) []
      ([1, 1, 0].zip [fun j => (⟨[3, 4], e⟩ : Value Int).get (place (⟨[3, 4], e⟩ : Value Int) [.slice [.dots (some 1), .scalar (.const 0)]] j), fun j => some (j.getD 0 0), fun _ => some 6]) j := by
    intro vs e he
    have : FExp.ranks vs [.view 0 [.slice [.dots (some 1), .scalar (.const 0)]], .index 0 id, .const 6] = [1, 1, 0] := by
      simp only [FExp.ranks, FExp.rank, he, viewShape]
      decide +kernel
    simp only [egF, FExp.at, this, FExp.ats, he]
    rfl
  rw [hr vs' e0 h1, hr egFs _ rfl]
  have hp : ∀ e, place (⟨[3, 4], e⟩ : Value Int) [.slice [.dots (some 1), .scalar (.const 0)]] j = [j.getD 0 0, 0] := by
    intro e
    simp only [place]
    rcases valid_3 hj with rfl | rfl | rfl <;> decide +kernel
  have ht : j.take 1 = j := by rcases valid_3 hj with rfl | rfl | rfl <;> rfl
  simp only [verb, List.zip, List.zipWith, List.map, ht, hp]
  rw [hg _ (by rcases valid_3 hj with rfl | rfl | rfl <;> simp [Valid])]

/-- `pick(_0, b, c(iota(3))) = 7` has nothing to select for the last index. The first ones have been assigned. -/
example : FFails (fun _ x => x) egFs (.pick Int.toNat [.index 0 id, .view 1 [], .view 2 [.slice [.iota [(.const 3, .const 1)] (.const 0)]]]) (.const 7)
    [⟨[3, 4], [0, -1, -2, -3, 10, 9, 8, 7, 20, 19, 18, 17]⟩, ⟨[3], [7, 10, 20]⟩, ⟨[4], [0, 7, 2, 3]⟩] := by
  refine .inr ⟨_, _, [3], ⟨⟨_, ⟨_, _, rfl, ⟨_, _, rfl, ⟨_, _, rfl, rfl, rfl⟩, rfl⟩, rfl⟩, rfl⟩, rfl, [some 3], [],
      ⟨[[none], [some 3], [some 3]], ⟨_, _, rfl, rfl, _, _, rfl, ⟨_, rfl, by decide +kernel⟩, _, _, rfl, ⟨_, rfl, by decide +kernel⟩, rfl⟩, ?_⟩, rfl, ?_⟩, by decide +kernel⟩
  · refine ⟨by simp, ⟨[some 3], by simp, rfl⟩, fun k n => ?_⟩
    cases k <;> simp
  · exact merge_subs (by simp)
example : FExp.Good egFs (.pick Int.toNat [.index 0 id, .view 1 [], .view 2 [.slice [.iota [(.const 3, .const 1)] (.const 0)]]]) :=
  ⟨by simp, trivial, ⟨_, rfl, ⟨_, rfl⟩⟩, ⟨_, rfl, [some 3], by decide +kernel⟩, trivial⟩

/-- `b = c` fails since the lengths don't match. -/
example : FFails (fun _ x => x) egFs (.view 1 []) (.view 2 []) egFs := by
  refine .inl ⟨?_, rfl⟩
  rintro ⟨d', e', s, rfl, rfl, sd, se, ⟨v, hv, h1⟩, ⟨w, hw, h2⟩, hm⟩
  cases hv
  cases hw
  cases h1
  cases h2
  have h3 := (hm.2.2 0 3).mpr ⟨[some 3], by simp, rfl⟩
  have h4 := (hm.2.2 0 4).mpr ⟨[some 4], by simp, rfl⟩
  rw [h3] at h4
  simp at h4

/-- `a` of shape (3, 4) and `i` of shape (2), with elements 2, 0; then `d = a(i, all)`, and `a(i, iota(2, 1, 2)) = 100 + _1`. -/
def egGCmds : List (FCmd Int) := [.cmd (.op (.create none (some 0) (fun i => i) [3, 4])), .cmd (.op (.create (some 1) (some 20) (fun i => 2 - 2 * i) [2])),
  .make (some 2) (some 40) (fun _ => 7) (.gather inferInstance 0 [] [true, false] [.view 1 []]),
  .assign (.gather inferInstance 0 [] [true, true] [.view 1 [], .iota 2 1 2 id]) (.map (fun x => 100 + x.getD 0 0) [] [.index 1 id])]

example : (fprogram true [] egGCmds [] noMem).1.isOk = true := by decide +kernel
example : ∀ p, FCmd.cmd (.op (.run p)) ∉ egGCmds := by simp [egGCmds]
example : FEffects egGCmds [] [⟨[3, 4], [0, 100, 2, 101, 4, 5, 6, 7, 8, 100, 10, 101]⟩, ⟨[2], [2, 0]⟩, ⟨[2, 4], [8, 9, 10, 11, 0, 1, 2, 3]⟩] := by
  refine ⟨[⟨[3, 4], [0, 1, 2, 3, 4, 5, 6, 7, 8, 9, 10, 11]⟩], by simp only [FCmd.Effect]; decide +kernel,
    [⟨[3, 4], [0, 1, 2, 3, 4, 5, 6, 7, 8, 9, 10, 11]⟩, ⟨[2], [2, 0]⟩], by simp only [FCmd.Effect]; decide +kernel,
    [⟨[3, 4], [0, 1, 2, 3, 4, 5, 6, 7, 8, 9, 10, 11]⟩, ⟨[2], [2, 0]⟩, ⟨[2, 4], [8, 9, 10, 11, 0, 1, 2, 3]⟩], ?_, _, ?_, rfl⟩
  · exact ⟨_, [2, 4], _, ⟨_, ⟨_, _, rfl, rfl, rfl⟩, rfl⟩, ⟨by simp, _, [3, 4], _, rfl, rfl, ⟨_, _, rfl, ⟨_, rfl, rfl⟩, rfl⟩, rfl⟩, by simp, by decide +kernel, rfl⟩
  · refine ⟨trivial, _, _, [2, 2], ⟨⟨_, ⟨_, _, rfl, ⟨_, _, rfl, rfl, rfl⟩, rfl⟩, rfl⟩, ⟨_, ⟨_, _, rfl, rfl, rfl⟩, rfl⟩, [some 2, some 2], [none, none],
      ⟨by simp, _, [3, 4], _, rfl, rfl, ⟨_, _, rfl, ⟨_, rfl, rfl⟩, _, _, rfl, rfl, rfl⟩, rfl⟩, ⟨[[none, none]], ⟨_, _, rfl, rfl, rfl⟩, merge_one _⟩, ?_⟩, by decide +kernel⟩
    refine merge_subs fun x hx => ?_
    simp only [List.mem_cons, List.not_mem_nil, or_false] at hx
    subst hx
    refine ⟨by simp, fun k n h => ?_⟩
    match k with
    | 0 => simp at h
    | 1 => simp at h
    | k + 2 => simp at h

/-- The arrays that `egGCmds` makes, before the assignment. -/
def egGs : List (Value Int) := [⟨[3, 4], [0, 1, 2, 3, 4, 5, 6, 7, 8, 9, 10, 11]⟩, ⟨[2], [2, 0]⟩]

/-- `a(i + 1)` has a subscript that's out of range: no array is made from it, -/
example : (¬ ∃ vs', FCmd.Effect egGs (.make none (some 40) (fun _ => 7) (.gather inferInstance 0 [] [true] [.map (fun x => x.getD 0 0 + 1) [] [.view 1 []]])) vs') := by
  rintro ⟨vs', e', s, xs, hr, hs, _, hx, _⟩
  have h1 := reduced_unique _ _ _ hr ⟨_, ⟨_, _, ⟨_, ⟨_, _, rfl, rfl, rfl⟩, rfl⟩, rfl, rfl⟩, rfl⟩
  subst h1
  have h2 := shape_unique _ _ ([2, 4].map some) hs ⟨by simp, _, [3, 4], _, rfl, rfl, ⟨_, _, rfl, ⟨[[some 2]], ⟨_, _, rfl, ⟨_, rfl, rfl⟩, rfl⟩, merge_one _⟩, rfl⟩, rfl⟩
  have h3 : s = [2, 4] := List.map_injective_iff.mpr (fun a b h => by simpa using h) h2
  subst h3
  revert hx
  generalize hq : allOf _ = q
  have : q = none := by rw [← hq]; decide +kernel
  simp [this]

/-- and nothing is assigned to it. -/
example : FFails (fun _ x => x) egGs (.gather inferInstance 0 [] [true] [.map (fun x => x.getD 0 0 + 1) [] [.view 1 []]]) (.const 7) egGs := by
  refine .inr ⟨_, _, [2, 4], ⟨⟨_, ⟨_, _, ⟨_, ⟨_, _, rfl, rfl, rfl⟩, rfl⟩, rfl, rfl⟩, rfl⟩, rfl, [some 2, some 4], [],
    ⟨by simp, _, [3, 4], _, rfl, rfl, ⟨_, _, rfl, ⟨[[some 2]], ⟨_, _, rfl, ⟨_, rfl, rfl⟩, rfl⟩, merge_one _⟩, rfl⟩, rfl⟩, rfl, ?_⟩, by decide +kernel⟩
  exact merge_subs (by simp)
example : FExp.Good egGs (.gather inferInstance 0 [] [true] [.map (fun x => x.getD 0 0 + 1) [] [.view 1 []]]) :=
  ⟨by simp, ⟨⟨by simp, ⟨⟨_, rfl, ⟨_, rfl⟩⟩, trivial⟩, by simp [Fit]⟩, trivial⟩, rfl, _, [3, 4], rfl, rfl, by simp⟩

end
end Ra.Props
