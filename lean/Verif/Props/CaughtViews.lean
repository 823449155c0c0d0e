import Verif.Model.CaughtViews
import Verif.Props.Caught
import Verif.Props.ViewProgram
/-!
# C81 for programs with views
-/

namespace Ra.Spec
variable {V : Type}

/-- The effect of some operations with views, given which of them succeeded. Those that fail have no effect. -/
def VTries : List (VCmd V) → List Bool → List (Value V) → List (Value V) → Prop
  | [], [], vs, vs' => vs' = vs
  | c :: cs, true :: bs, vs, vs' => ∃ vs1, VCmd.Effect vs c vs1 ∧ VTries cs bs vs1 vs'
  | _ :: cs, false :: bs, vs, vs' => VTries cs bs vs vs'
  | _, _, _, _ => False

/-- As `VTries`, and also the assignments, even to views, fail only if they aren't allowed. -/
def VFails : List (VCmd V) → List Bool → List (Value V) → Prop
  | [], [], _ => True
  | c :: cs, true :: bs, vs => ∀ vs1, VCmd.Effect vs c vs1 → VFails cs bs vs1
  | c :: cs, false :: bs, vs => ((∃ o, c = .cmd (.op o)) ∨ ¬ ∃ vs1, VCmd.Effect vs c vs1) ∧ VFails cs bs vs
  | _, _, _ => False

/-- As `restores`, for operations with views. -/
def vrestores : VCmd V → Bool
  | .cmd c => restores c
  | _ => false

end Ra.Spec

namespace Ra.Props
open Spec

section
variable {V : Type}

/-- An action that fails in no way that can be caught. -/
def Hush {α : Type} (x : Act V α) : Prop := ∀ μ, (x μ).1 ≠ .error .check ∧ (x μ).1 ≠ .error .alloc

theorem hush_pure {α : Type} (a : α) : Hush (pure a : Act V α) := fun _ => ⟨nofun, nofun⟩

theorem hush_bind {α β : Type} {x : Act V α} {f : α → Act V β} (hx : Hush x) (hf : ∀ a, Hush (f a)) : Hush (x >>= f) := by
  intro μ
  show (Act.andThen x f μ).1 ≠ _ ∧ (Act.andThen x f μ).1 ≠ _
  unfold Act.andThen
  have := hx μ
  split
  · next a μ' _ => exact hf a μ'
  · next e μ' h =>
    rw [h] at this
    exact ⟨fun h => this.1 (by simpa using h), fun h => this.2 (by simpa using h)⟩

theorem hush_fault {α : Type} (f : Fault) (h1 : f ≠ .check) (h2 : f ≠ .alloc) : Hush (fault f : Act V α) := fun _ =>
  ⟨fun h => h1 (by simpa [fault] using h), fun h => h2 (by simpa [fault] using h)⟩

theorem hush_read (p : Int) : Hush (Act.read p : Act V V) := by
  intro μ
  unfold Act.read
  split <;> exact ⟨nofun, nofun⟩

theorem hush_write (p : Int) (v : V) : Hush (Act.write p v) := by
  intro μ
  unfold Act.write
  split <;> exact ⟨nofun, nofun⟩

theorem hush_get (x : Lv V) : Hush x.get := by
  cases x
  · exact hush_pure _
  · exact hush_read _
  · exact hush_fault _ nofun nofun

theorem hush_mapM {α β : Type} (f : α → Act V β) (xs : List α) (h : ∀ x ∈ xs, Hush (f x)) : Hush (xs.mapM f) := by
  induction xs with
  | nil => exact hush_pure _
  | cons x xs ih =>
    rw [List.mapM_cons]
    exact hush_bind (h x (by simp)) fun _ => hush_bind (ih fun y hy => h y (by simp [hy])) fun _ => hush_pure _

theorem hush_mapOp {op : List (Lv V) → Act V (Lv V)} (h : ∀ l, Hush (op l)) (xs : List (Act V (Lv V))) (hx : ∀ x ∈ xs, Hush x) : Hush (mapOp op xs) :=
  hush_bind (hush_mapM _ _ hx) h

theorem hush_set (l : List (Lv V)) : Hush (setOp l) := by
  unfold setOp
  split
  · exact hush_bind (hush_get _) fun _ => hush_bind (hush_write _ _) fun _ => hush_pure _
  · exact hush_fault _ nofun nofun

theorem hush_upd (f : V → V → V) (l : List (Lv V)) : Hush (updOp f l) := by
  unfold updOp
  split
  · exact hush_bind (hush_get _) fun _ => hush_bind (hush_read _) fun _ => hush_bind (hush_write _ _) fun _ => hush_pure _
  · exact hush_fault _ nofun nofun

mutual
/-- The elements fail in no way that can be caught. -/
def Calm {α : Type} : Iter (Act V) α → Prop
  | .scalar c => Hush c
  | .cell _ _ rd => ∀ p, Hush (rd p)
  | .reframe _ a => Calm a
  | .node op t => (∀ xs, (∀ x ∈ xs, Hush x) → Hush (op xs)) ∧ CalmAll t
def CalmAll {α : Type} : List (Iter (Act V) α) → Prop
  | [] => True
  | a :: t => Calm a ∧ CalmAll t
end

mutual
theorem calm_adv {α : Type} : ∀ (a : Iter (Act V) α) (k : Nat) (d : Int), Calm a → Calm (a.adv k d)
  | .scalar c, _, _, h => by simpa only [Iter.adv] using h
  | .cell _ _ _, _, _, h => by simpa only [Iter.adv, Calm] using h
  | .reframe dest a, k, d, h => by
    simp only [Iter.adv]
    split
    · simp only [Calm] at h ⊢; exact calm_adv a _ d h
    · exact h
  | .node op t, k, d, h => by
    simp only [Iter.adv, Calm] at h ⊢
    exact ⟨h.1, calm_advs t k d h.2⟩
theorem calm_advs {α : Type} : ∀ (t : List (Iter (Act V) α)) (k : Nat) (d : Int), CalmAll t → CalmAll (advList t k d)
  | [], _, _, _ => trivial
  | a :: t, k, d, h => by
    simp only [advList, CalmAll] at h ⊢
    exact ⟨calm_adv a k d h.1, calm_advs t k d h.2⟩
end

mutual
theorem calm_mov {α : Type} : ∀ (a : Iter (Act V) α) (s : Tree), Calm a → Calm (a.mov s)
  | .scalar c, s, h => by cases s <;> simpa only [Iter.mov] using h
  | .cell _ _ _, .leaf _, h => by simpa only [Iter.mov, Calm] using h
  | .cell _ _ _, .node _, h => by simpa only [Iter.mov, Calm] using h
  | .reframe dest a, s, h => by
    simp only [Iter.mov, Calm] at h ⊢
    exact calm_mov a s h
  | .node op t, .node s, h => by
    simp only [Iter.mov, Calm] at h ⊢
    exact ⟨h.1, calm_movs t s h.2⟩
  | .node op t, .leaf _, h => by simpa only [Iter.mov] using h
theorem calm_movs {α : Type} : ∀ (t : List (Iter (Act V) α)) (s : List Tree), CalmAll t → CalmAll (movList t s)
  | [], s, _ => by cases s <;> simp [movList, CalmAll]
  | a :: t, [], h => by simpa only [movList] using h
  | a :: t, x :: s, h => by
    simp only [movList, CalmAll] at h ⊢
    exact ⟨calm_mov a x h.1, calm_movs t s h.2⟩
end

mutual
theorem calm_load {α : Type} : ∀ (a : Iter (Act V) α) (s : Tree), Calm a → Calm (a.load s)
  | .scalar c, s, h => by cases s <;> simpa only [Iter.load] using h
  | .cell _ _ _, .leaf _, h => by simpa only [Iter.load, Calm] using h
  | .cell _ _ _, .node _, h => by simpa only [Iter.load, Calm] using h
  | .reframe dest a, s, h => by
    simp only [Iter.load, Calm] at h ⊢
    exact calm_load a s h
  | .node op t, .node s, h => by
    simp only [Iter.load, Calm] at h ⊢
    exact ⟨h.1, calm_loads t s h.2⟩
  | .node op t, .leaf _, h => by simpa only [Iter.load] using h
theorem calm_loads {α : Type} : ∀ (t : List (Iter (Act V) α)) (s : List Tree), CalmAll t → CalmAll (loadList t s)
  | [], s, _ => by cases s <;> simp [loadList, CalmAll]
  | a :: t, [], h => by simpa only [loadList] using h
  | a :: t, x :: s, h => by
    simp only [loadList, CalmAll] at h ⊢
    exact ⟨calm_load a x h.1, calm_loads t s h.2⟩
end

mutual
theorem calm_deref {α : Type} : ∀ (a : Iter (Act V) α), Calm a → Hush a.deref
  | .scalar c, h => by simpa only [Iter.deref, Calm] using h
  | .cell _ p _, h => by simp only [Iter.deref, Calm] at h ⊢; exact h p
  | .reframe _ a, h => by simp only [Iter.deref, Calm] at h ⊢; exact calm_deref a h
  | .node op t, h => by simp only [Iter.deref, Calm] at h ⊢; exact h.1 _ (calm_derefs t h.2)
theorem calm_derefs {α : Type} : ∀ (t : List (Iter (Act V) α)), CalmAll t → ∀ x ∈ derefList t, Hush x
  | [], _ => by simp [derefList]
  | a :: t, h => by
    simp only [derefList, List.mem_cons, CalmAll] at h ⊢
    rintro x (rfl | hx)
    · exact calm_deref a h.1
    · exact calm_derefs t h.2 x hx
end

/-- As `Hush`, and any result has a property. -/
def HushP {α : Type} (P : α → Prop) (x : Act V α) : Prop := ∀ μ, (x μ).1 ≠ .error .check ∧ (x μ).1 ≠ .error .alloc ∧ ∀ a, (x μ).1 = .ok a → P a

theorem HushP.quiet {α : Type} {P : α → Prop} {x : Act V α} (h : HushP P x) : Hush x := fun μ => ⟨(h μ).1, (h μ).2.1⟩
theorem hushP_pure {α : Type} {P : α → Prop} {a : α} (h : P a) : HushP P (pure a : Act V α) := fun _ => ⟨nofun, nofun, fun _ e => by cases e; exact h⟩
theorem Hush.toP {α : Type} {x : Act V α} (h : Hush x) : HushP (fun _ => True) x := fun μ => ⟨(h μ).1, (h μ).2, fun _ _ => trivial⟩

theorem hushP_bind {α β : Type} {P : α → Prop} {Q : β → Prop} {x : Act V α} {f : α → Act V β} (hx : HushP P x) (hf : ∀ a, P a → HushP Q (f a)) : HushP Q (x >>= f) := by
  intro μ
  show (Act.andThen x f μ).1 ≠ _ ∧ (Act.andThen x f μ).1 ≠ _ ∧ ∀ a, (Act.andThen x f μ).1 = _ → _
  unfold Act.andThen
  have := hx μ
  split
  · next a μ' h =>
    rw [h] at this
    exact hf a (this.2.2 a rfl) μ'
  · next e μ' h =>
    rw [h] at this
    exact ⟨fun h => this.1 (by simpa using h), fun h => this.2.1 (by simpa using h), nofun⟩

theorem hush_inner {α β : Type} (stop : α → Option β) (ss : Tree) (n : Nat) (a : Iter (Act V) α) (h : Calm a) : HushP (fun r => Calm r.2) (inner stop ss n a) := by
  induction n generalizing a with
  | zero => exact hushP_pure h
  | succ n ih =>
    unfold inner
    refine hushP_bind (calm_deref a h).toP fun x _ => ?_
    split
    · exact hushP_pure h
    · exact ih _ (calm_mov a ss h)

theorem calm_carry {α : Type} (axes : List (Nat × Int)) (z : List Int) (a : Iter (Act V) α) (h : Calm a) : Calm (carry axes z a).2.2 := by
  induction axes generalizing z a with
  | nil => exact h
  | cons x axes ih =>
    obtain ⟨o, sha⟩ := x
    cases z with
    | nil => exact h
    | cons i z =>
      unfold carry
      split
      · exact calm_adv a _ _ h
      · exact ih _ _ (calm_adv a _ _ h)

theorem hush_ravelLoop {α β : Type} (stop : α → Option β) (ss : Int) (ss0 : Tree) (axes : List (Nat × Int)) (n : Nat) (z : List Int) (a : Iter (Act V) α) (h : Calm a) :
    Hush (ravelLoop stop ss ss0 axes n z a) := by
  induction n generalizing z a with
  | zero => exact hush_fault _ nofun nofun
  | succ n ih =>
    unfold ravelLoop
    refine (hushP_bind (hush_inner stop ss0 _ a h) fun r hr => Hush.toP ?_).quiet
    obtain ⟨o, a'⟩ := r
    cases o with
    | some b => exact hush_pure _
    | none =>
      dsimp only
      split
      · exact hush_pure _
      · exact ih _ _ (calm_carry _ _ _ (calm_load _ _ hr))

theorem hush_subplyLoop {α β : Type} (body : Iter (Act V) α → Act V (Option β × Iter (Act V) α)) (hb : ∀ a, Calm a → HushP (fun r => Calm r.2) (body a)) (o n : Nat) (a : Iter (Act V) α) (h : Calm a) :
    HushP (fun r => Calm r.2) (subplyLoop body o n a) := by
  induction n generalizing a with
  | zero => exact hushP_pure h
  | succ n ih =>
    unfold subplyLoop
    refine hushP_bind (hb a h) fun r hr => ?_
    obtain ⟨o', a'⟩ := r
    cases o' with
    | some b => exact hushP_pure hr
    | none => exact ih _ (calm_adv _ _ _ hr)

theorem hush_subply {α β : Type} (stop : α → Option β) (rank : Nat) (s : Int) (ss0 : Tree) (k : Nat) (a : Iter (Act V) α) (h : Calm a) :
    HushP (fun r => Calm r.2) (subply stop rank s ss0 k a) := by
  induction k generalizing a with
  | zero =>
    unfold subply
    refine hushP_bind (hush_inner stop ss0 _ a h) fun r hr => ?_
    obtain ⟨o', a'⟩ := r
    cases o' with
    | some b => exact hushP_pure hr
    | none => exact hushP_pure (calm_load _ _ hr)
  | succ k ih =>
    unfold subply
    refine hushP_bind (hush_subplyLoop _ (fun a ha => ih a ha) _ _ a h) fun r hr => ?_
    obtain ⟨o', a'⟩ := r
    cases o' with
    | some b => exact hushP_pure hr
    | none => exact hushP_pure (calm_adv _ _ _ hr)

/-- If the elements don't fail in ways that can be caught, then a traversal that fails so, fails before it gets to any element. -/
theorem ply_calm {α β : Type} (dyn : Bool) (stop : α → Option β) (z : List Int) (a : Iter (Act V) α) (h : Calm a) : Hush (ply dyn stop z a) ∨ ply dyn stop z a = fault .check := by
  by_cases hv : a.validate = true
  · left
    cases dyn
    · simp only [ply, Bool.false_eq_true, if_false]
      refine hush_bind ?_ fun _ => hush_pure _
      unfold plyFixed
      rw [if_pos hv]
      split
      · exact hush_bind (calm_deref a h) fun _ => hush_pure _
      · exact (hush_subply _ _ _ _ _ a h).quiet
    · simp only [ply, if_true]
      refine hush_bind ?_ fun _ => hush_pure _
      unfold plyRavel
      rw [if_pos hv]
      split
      · exact hush_bind (calm_deref a h) fun _ => hush_pure _
      · dsimp only
        split
        · exact hush_pure _
        · exact hush_ravelLoop _ _ _ _ _ _ a h
  · right
    cases dyn
    · simp only [ply, Bool.false_eq_true, if_false, plyFixed, hv]; rfl
    · simp only [ply, if_true, plyRavel, hv, Bool.false_eq_true, if_false]; rfl

theorem calm_vexp (as : List Arr) (e : VExp V) (t : Iter (Act V) (Lv V)) (h : e.iter as = .ok t) : Calm t := by
  induction e generalizing t with
  | const x =>
    simp only [VExp.iter, Except.ok.injEq] at h
    subst h
    exact hush_pure _
  | view i ops =>
    simp only [VExp.iter, bind, Except.bind] at h
    split at h
    · cases h
    · cases h
      exact fun _ => hush_pure _
  | op f a b iha ihb =>
    simp only [VExp.iter, bind, Except.bind] at h
    split at h
    · cases h
    · next x hx =>
      split at h
      · cases h
      · next y hy =>
        cases h
        refine ⟨fun xs hxs => hush_mapOp (fun l => ?_) xs hxs, iha x hx, ihb y hy, trivial⟩
        refine hush_bind (hush_mapM _ _ fun x _ => hush_get x) fun vs => hush_bind ?_ fun _ => hush_pure _
        dsimp only
        split
        · exact hush_pure _
        · exact hush_fault _ nofun nofun

theorem vassign_caught {as : List Arr} (dyn : Bool) (z : List Int) (op : List (Lv V) → Act V (Lv V)) (hop : ∀ l, Hush (op l)) (w : View) (e : VExp V) (t : Iter (Act V) (Lv V))
    (ht : e.iter as = .ok t) (μ μ' : Mem V) (f : Fault) (hf : f = .check ∨ f = .alloc)
    (h : (do let _ ← ply (β := Unit) dyn never z (.node (mapOp op) [w.refs, t]); pure () : Act V Unit) μ = (.error f, μ')) : μ' = μ := by
  have hc : Calm (.node (mapOp op) [w.refs, t]) := ⟨fun xs hx => hush_mapOp hop xs hx, fun _ => hush_pure _, calm_vexp as e t ht, trivial⟩
  rcases ply_calm dyn (never (β := Unit)) z _ hc with hq | hq
  · have := (hush_bind hq fun _ => hush_pure ()) μ
    rw [h] at this
    rcases hf with rfl | rfl
    · exact absurd rfl this.1
    · exact absurd rfl this.2
  · rw [hq] at h
    have h2 : ((.error .check, μ) : Except Fault Unit × Mem V) = (.error f, μ') := h
    simp only [Prod.mk.injEq] at h2
    exact h2.2.symm

theorem vstep_caught {μ0 μ μ' : Mem V} {as as' : List Arr} {vs : List (Value V)} (dyn : Bool) (z : List Int) (hz : ∀ i ∈ z, i = 0) (c : VCmd V) (hr : ∀ p, c ≠ .cmd (.op (.run p)))
    (h : Same μ0 as vs μ) {e : Fault} (he : e = .check ∨ e = .alloc) (hs : c.step dyn z as μ = (.error e, as', μ')) (hc : vrestores c = false) :
    as' = as ∧ μ' = μ ∧ ((∃ o, c = .cmd (.op o)) ∨ ¬ ∃ vs1, VCmd.Effect vs c vs1) := by
  cases c with
  | cmd c =>
    obtain ⟨h1, h2, h3⟩ := step_caught dyn z hz c (fun p hp => hr p (by rw [hp])) h hs hc
    refine ⟨h1, h2, ?_⟩
    rcases h3 with h3 | h3
    · cases c with
      | op o => exact .inl ⟨o, rfl⟩
      | _ => simp [aboutArrays] at h3
    · right
      rintro ⟨vs1, h4⟩
      simp [VCmd.Effect, h3] at h4
  | assign i ops x =>
    suffices hk : as' = as ∧ μ' = μ by
      refine ⟨hk.1, hk.2, .inr ?_⟩
      rintro ⟨vs1, h4⟩
      obtain ⟨w, t, μ1, h1, h2, h3, _⟩ := same_vassign dyn z hz (fun _ x => x) i ops x setOp (fun μ d x p v y h1 h2 h3 => set_run h1 h2 (by simp [h3])) h h4
      rw [show (do let _ ← ply (β := Unit) dyn never z (.node (mapOp setOp) [w.refs, t]); pure () : Act V Unit) = Ra.assign dyn z w.refs t from rfl] at h3
      simp [VCmd.step, h1, h2, h3] at hs
    · simp only [VCmd.step] at hs
      split at hs
      · next w t hw ht =>
        simp only [Prod.mk.injEq] at hs
        exact ⟨hs.2.1.symm, vassign_caught (as := as) dyn z setOp hush_set w x t ht μ μ' e he (Prod.ext hs.1 hs.2.2)⟩
      · simp only [Prod.mk.injEq] at hs
        exact ⟨hs.2.1.symm, hs.2.2.symm⟩
      · simp only [Prod.mk.injEq] at hs
        exact ⟨hs.2.1.symm, hs.2.2.symm⟩
  | update f i ops x =>
    suffices hk : as' = as ∧ μ' = μ by
      refine ⟨hk.1, hk.2, .inr ?_⟩
      rintro ⟨vs1, h4⟩
      obtain ⟨w, t, μ1, h1, h2, h3, _⟩ := same_vassign dyn z hz f i ops x (updOp f) (fun μ d x p v y h1 h2 h3 => upd_run f h1 h2 h3) h h4
      rw [show (do let _ ← ply (β := Unit) dyn never z (.node (mapOp (updOp f)) [w.refs, t]); pure () : Act V Unit) = Ra.update f dyn z w.refs t from rfl] at h3
      simp [VCmd.step, h1, h2, h3] at hs
    · simp only [VCmd.step] at hs
      split at hs
      · next w t hw ht =>
        simp only [Prod.mk.injEq] at hs
        exact ⟨hs.2.1.symm, vassign_caught (as := as) dyn z (updOp f) (hush_upd f) w x t ht μ μ' e he (Prod.ext hs.1 hs.2.2)⟩
      · simp only [Prod.mk.injEq] at hs
        exact ⟨hs.2.1.symm, hs.2.2.symm⟩
      · simp only [Prod.mk.injEq] at hs
        exact ⟨hs.2.1.symm, hs.2.2.symm⟩

theorem effect_unique {vs vs1 vs2 : List (Value V)} {c : VCmd V} (h1 : VCmd.Effect vs c vs1) (h2 : VCmd.Effect vs c vs2) : vs1 = vs2 :=
  C79_unique [c] vs vs1 vs2 ⟨vs1, h1, rfl⟩ ⟨vs2, h2, rfl⟩

theorem vcaught_same {μ0 μ μ' : Mem V} {as as' : List Arr} {vs vs' : List (Value V)} (dyn : Bool) (z : List Int) (hz : ∀ i ∈ z, i = 0) (cs : List (VCmd V))
    (hr : ∀ p, VCmd.cmd (.op (.run p)) ∉ cs) (bs : List Bool) (h : Same μ0 as vs μ) (hs : vcaught dyn z cs as μ = (.ok bs, as', μ'))
    (hc : ∀ c, (c, false) ∈ cs.zip bs → vrestores c = false) (he : VTries cs bs vs vs') : Same μ0 as' vs' μ' ∧ VFails cs bs vs := by
  induction cs generalizing as vs μ bs with
  | nil =>
    simp only [vcaught, Prod.mk.injEq, Except.ok.injEq] at hs
    obtain ⟨rfl, rfl, rfl⟩ := hs
    simp only [VTries] at he
    subst he
    exact ⟨h, trivial⟩
  | cons c cs ih =>
    have hbad : ∀ {e : Fault} {as1 : List Arr} {μ1 : Mem V}, (e = .check ∨ e = .alloc) → c.step dyn z as μ = (.error e, as1, μ1) → (vcaught dyn z cs as1 μ1).1.map (false :: ·) = .ok bs →
        (vcaught dyn z cs as1 μ1).2 = (as', μ') → Same μ0 as' vs' μ' ∧ VFails (c :: cs) bs vs := by
      intro e as1 μ1 h0 h1 h2 h3
      cases hx : vcaught dyn z cs as1 μ1 with
      | mk r q =>
        rw [hx] at h2 h3
        simp only at h2 h3
        subst h3
        cases r with
        | error _ => simp [Except.map] at h2
        | ok b =>
          simp only [Except.map, Except.ok.injEq] at h2
          subst h2
          obtain ⟨rfl, rfl, g3⟩ := vstep_caught dyn z hz c (fun p hp => hr p (by simp [hp])) h h0 h1 (hc c (by simp))
          obtain ⟨k1, k2⟩ := ih (fun p hp => hr p (by simp [hp])) b h hx (fun c hc' => hc c (by simp [hc'])) he
          exact ⟨k1, g3, k2⟩
    simp only [vcaught] at hs
    split at hs
    · next as1 μ1 h1 =>
      cases hx : vcaught dyn z cs as1 μ1 with
      | mk r q =>
        rw [hx] at hs
        cases r with
        | error _ => simp [Except.map] at hs
        | ok b =>
          simp only [Except.map, Prod.mk.injEq, Except.ok.injEq] at hs
          obtain ⟨rfl, rfl⟩ := hs
          obtain ⟨vs1, e1, e2⟩ := he
          have hn : ∀ p, VCmd.cmd (.op (.run p)) ∉ cs := fun p hp => hr p (by simp [hp])
          have key : ∀ vs2, VCmd.Effect vs c vs2 → VTries cs b vs2 vs' → Same μ0 as' vs' μ' ∧ VFails cs b vs2 := fun vs2 e3 e4 =>
            ih hn b (vstep_same dyn z hz c (fun p hp => hr p (by simp [hp])) h e3 h1) hx (fun c hc' => hc c (by simp [hc'])) e4
          refine ⟨(key vs1 e1 e2).1, fun vs2 e3 => ?_⟩
          rw [effect_unique e3 e1]
          exact (key vs1 e1 e2).2
    · next as1 μ1 h1 =>
      simp only [Prod.mk.injEq] at hs
      exact hbad (.inl rfl) h1 hs.1 hs.2
    · next as1 μ1 h1 =>
      simp only [Prod.mk.injEq] at hs
      exact hbad (.inr rfl) h1 hs.1 hs.2
    · simp at hs

/-- C81 for programs with views. If none of the operations that failed is one that resizes or copies, then the arrays have the values that the operations that succeeded give, as if those
that failed hadn't been there; and an assignment, even between views, fails only if it has no effect to speak of: some view isn't allowed, or the shapes don't match. -/
theorem C81_views_partial (dyn : Bool) (z : List Int) (hz : ∀ i ∈ z, i = 0) (cs : List (VCmd V)) (hr : ∀ p, VCmd.cmd (.op (.run p)) ∉ cs) (bs : List Bool) (as : List Arr)
    (vs : List (Value V)) (μ0 μ : Mem V) (hs : vcaught dyn z cs [] μ0 = (.ok bs, as, μ)) (hc : ∀ c, (c, false) ∈ cs.zip bs → vrestores c = false) (he : VTries cs bs [] vs) :
    List.Forall₂ (Represents μ) as vs ∧ (∀ p, (μ0 p).isSome → μ p = μ0 p) ∧ VFails cs bs [] := by
  obtain ⟨h, hf⟩ := vcaught_same dyn z hz cs hr bs (same_start μ0) hs hc he
  refine ⟨List.forall₂_iff_get.mpr ⟨h.len, fun i hi hi' => ?_⟩, h.rest, hf⟩
  rw [rep_iff]
  exact h.rep i _ _ (by simp) (by simp)

end

/-- As `egVCmds`, with operations that fail in between: `a(all, iota(5, 1)) += b` and `a(3) = 0` are out of range, `a += a(0)` doesn't match, and there's no memory for `b.push_back(1)`. -/
def egVCaught : List (VCmd Int) := [.cmd (.op (.create none (some 0) (fun i => i) [3, 4])), .cmd (.op (.create (some 1) (some 20) (fun i => 10 * i) [3])),
  .update (· + ·) 0 [.slice [.dots (some 1), .iota [(.const 5, .const 1)] (.const 1)]] (.view 1 []),
  .update (· + ·) 0 [.slice [.dots (some 1), .iota [(.const 2, .const 1)] (.const 1)]] (.view 1 [.reverse 0]),
  .assign 0 [.slice [.scalar (.const 3)]] (.const 0), .update (· + ·) 0 [] (.view 0 [.slice [.scalar (.const 0)]]), .cmd (.op (.pushBack 1 none 1)),
  .assign 0 [.transpose [1, 0], .slice [.scalar (.const 0)]] (.view 0 [.slice [.scalar (.const 1), .iota [(.const 3, .const (-1))] (.const 2)]])]

example : (vcaught true [] egVCaught [] noMem).1 = .ok [true, true, false, true, false, false, false, true] := by decide +kernel
example : ∀ p, VCmd.cmd (.op (.run p)) ∉ egVCaught := by simp [egVCaught]
example : ∀ c, (c, false) ∈ egVCaught.zip [true, true, false, true, false, false, false, true] → vrestores c = false := by
  simp only [egVCaught, List.zip_cons_cons, List.mem_cons, Prod.mk.injEq]
  rintro c (h | h | h | h | h | h | h | h | h) <;> first | (obtain ⟨rfl, _⟩ := h; rfl) | cases h
example : VTries egVCaught [true, true, false, true, false, false, false, true] [] [⟨[3, 4], [16, 21, 22, 3, 15, 15, 16, 7, 15, 9, 10, 11]⟩, ⟨[3], [0, 10, 20]⟩] := by
  refine ⟨[⟨[3, 4], [0, 1, 2, 3, 4, 5, 6, 7, 8, 9, 10, 11]⟩], by simp only [VCmd.Effect]; decide +kernel, [⟨[3, 4], [0, 1, 2, 3, 4, 5, 6, 7, 8, 9, 10, 11]⟩, ⟨[3], [0, 10, 20]⟩], by simp only [VCmd.Effect]; decide +kernel,
    [⟨[3, 4], [0, 21, 22, 3, 4, 15, 16, 7, 8, 9, 10, 11]⟩, ⟨[3], [0, 10, 20]⟩], ?_, _, ?_, rfl⟩
  · refine ⟨_, [some 3, some 2], [[some 3]], [3, 2], rfl, by decide +kernel, by decide +kernel, ⟨by simp, ⟨_, .head _, rfl⟩, fun k n => ?_⟩, by decide +kernel⟩
    match k with
    | 0 => simp
    | 1 => simp
    | k + 2 => simp
  · refine ⟨_, [some 3], [[some 3]], [3], rfl, by decide +kernel, by decide +kernel, merge_same _, by decide +kernel⟩

end Ra.Props
