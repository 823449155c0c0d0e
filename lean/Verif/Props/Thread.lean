import Mathlib.Data.List.Induction
import Verif.Spec.Thread
import Verif.Props.Assign
/-!
# C66: traversals in several threads
-/

namespace Ra.Props
open Spec

section
variable {V α β ι : Type} [DecidableEq ι]

theorem within_step {R W : Int → Prop} {x : Prog V α} {μ : Mem V} (h : Within R W x μ) : Within R W (x.step μ).1 (x.step μ).2 := by
  cases x with
  | ret a => exact h
  | fail e => exact h
  | read p k =>
    simp only [Prog.step]
    cases hp : μ p with
    | none => trivial
    | some v => exact h.2 v hp
  | write p v k =>
    simp only [Prog.step]
    cases hp : μ p with
    | none => trivial
    | some w => exact h.2 (by rw [hp]; rfl)

theorem within_alone {R W : Int → Prop} {x : Prog V α} {μ : Mem V} (h : Within R W x μ) (n : Nat) : Within R W (alone x μ n).1 (alone x μ n).2 := by
  induction n with
  | zero => exact h
  | succ n ih => exact within_step ih

theorem step_outside {R W : Int → Prop} {x : Prog V α} {μ : Mem V} (h : Within R W x μ) {p : Int} (hp : ¬ W p) : (x.step μ).2 p = μ p := by
  cases x with
  | ret a => rfl
  | fail e => rfl
  | read q k => simp only [Prog.step]; split <;> rfl
  | write q v k =>
    simp only [Prog.step]
    split
    · have : p ≠ q := fun e => hp (e ▸ h.1)
      simp [Mem.upd, this]
    · rfl

theorem alone_outside {R W : Int → Prop} {x : Prog V α} {μ : Mem V} (h : Within R W x μ) {p : Int} (hp : ¬ W p) (n : Nat) : (alone x μ n).2 p = μ p := by
  induction n with
  | zero => rfl
  | succ n ih => rw [alone, step_outside (within_alone h n) hp, ih]

/-- A step with another memory that is the same where it's used. -/
theorem step_agree {R W : Int → Prop} {x : Prog V α} {μ μ' : Mem V} (h : Within R W x μ) (hr : ∀ p, R p → μ' p = μ p) (hw : ∀ p, W p → μ' p = μ p) :
    (x.step μ').1 = (x.step μ).1 ∧ (∀ p, W p → (x.step μ').2 p = (x.step μ).2 p) ∧ (∀ p, ¬ W p → (x.step μ').2 p = μ' p) := by
  cases x with
  | ret a => exact ⟨rfl, hw, fun _ _ => rfl⟩
  | fail e => exact ⟨rfl, hw, fun _ _ => rfl⟩
  | read q k =>
    simp only [Prog.step, hr q h.1]
    cases μ q <;> exact ⟨rfl, hw, fun _ _ => rfl⟩
  | write q v k =>
    simp only [Prog.step, hw q h.1]
    cases μ q with
    | none => exact ⟨rfl, hw, fun _ _ => rfl⟩
    | some w =>
      refine ⟨rfl, fun p hp => ?_, fun p hp => ?_⟩
      · simp only [Mem.upd, hw p hp]
      · have : p ≠ q := fun e => hp (e ▸ h.1)
        simp [Mem.upd, this]

/-- C66. If no thread writes where another one reads or writes, then, at any time and for any schedule, each thread is where it'd be if it had done the same number of accesses
without other threads; the memory that it writes is the same as if it had been alone, and the memory that no thread writes is as it was. -/
theorem C66_threads (T : ι → Prog V α) (μ : Mem V) (R W : ι → Int → Prop) (hd : NoConflict R W) (hT : ∀ i, Within (R i) (W i) (T i) μ) (l : List ι) :
    (∀ i, (Threads.exec (T, μ) l).1 i = (alone (T i) μ (l.count i)).1) ∧
    (∀ i p, W i p → (Threads.exec (T, μ) l).2 p = (alone (T i) μ (l.count i)).2 p) ∧
    (∀ p, (∀ i, ¬ W i p) → (Threads.exec (T, μ) l).2 p = μ p) := by
  induction l using List.reverseRecOn with
  | nil => exact ⟨fun i => rfl, fun i p _ => rfl, fun p _ => rfl⟩
  | append_singleton l j ih =>
    obtain ⟨h1, h2, h3⟩ := ih
    have hex : Threads.exec (T, μ) (l ++ [j]) = (Threads.exec (T, μ) l).step j := by simp [Threads.exec, List.foldl_append]
    rw [hex]
    generalize Threads.exec (T, μ) l = t at h1 h2 h3 ⊢
    have hwj := within_alone (hT j) (l.count j)
    have hr : ∀ p, R j p → t.2 p = (alone (T j) μ (l.count j)).2 p := by
      intro p hp
      by_cases hw : W j p
      · exact h2 j p hw
      · rw [h3 p, alone_outside (hT j) hw]
        intro i hi
        by_cases e : i = j
        · exact hw (e ▸ hi)
        · exact (hd i j e p hi).1 hp
    obtain ⟨a1, a2, a3⟩ := step_agree hwj hr (fun p hp => h2 j p hp)
    simp only [Threads.step, h1 j]
    refine ⟨?_, ?_, ?_⟩
    · intro i
      by_cases e : i = j
      · subst e
        rw [if_pos rfl, a1, List.count_append]
        simp [alone]
      · have e' : ¬ j = i := fun h => e h.symm
        rw [if_neg e, h1 i, List.count_append]
        simp [e']
    · intro i p hp
      rw [List.count_append]
      by_cases e : i = j
      · subst e
        rw [a2 p hp]
        simp [alone]
      · have e' : ¬ j = i := fun h => e h.symm
        rw [a3 p (hd i j e p hp).2, h2 i p hp]
        simp [e']
    · intro p hp
      rw [a3 p (hp j), h3 p hp]

/-- The end of a computation. -/
def ended : Except Fault α → Prog V α
  | .ok a => .ret a
  | .error e => .fail e

theorem alone_shift (x : Prog V α) (μ : Mem V) (n : Nat) : alone x μ (n+1) = alone (x.step μ).1 (x.step μ).2 n := by
  induction n with
  | zero => rfl
  | succ n ih => rw [alone, ih]; rfl

theorem alone_ended (r : Except Fault α) (μ : Mem V) (n : Nat) : alone (ended r) μ n = (ended r, μ) := by
  induction n with
  | zero => rfl
  | succ n ih => rw [alone, ih]; cases r <;> rfl

/-- A computation without other threads ends as `run` says. -/
theorem alone_run (x : Prog V α) : ∀ μ : Mem V, ∃ N, ∀ n, N ≤ n → alone x μ n = (ended (x.run μ).1, (x.run μ).2) := by
  induction x with
  | ret a => intro μ; exact ⟨0, fun n _ => alone_ended (.ok a) μ n⟩
  | fail e => intro μ; exact ⟨0, fun n _ => alone_ended (.error e) μ n⟩
  | read p k ih =>
    intro μ
    cases hp : μ p with
    | none =>
      refine ⟨1, fun n hn => ?_⟩
      obtain ⟨n, rfl⟩ : ∃ k, n = k + 1 := ⟨n - 1, by omega⟩
      rw [alone_shift]
      simp only [Prog.step, Prog.run, hp]
      exact alone_ended (.error .ub) μ n
    | some v =>
      obtain ⟨N, hN⟩ := ih v μ
      refine ⟨N + 1, fun n hn => ?_⟩
      obtain ⟨n, rfl⟩ : ∃ k, n = k + 1 := ⟨n - 1, by omega⟩
      rw [alone_shift]
      simp only [Prog.step, Prog.run, hp]
      exact hN n (by omega)
  | write p v k ih =>
    intro μ
    cases hp : μ p with
    | none =>
      refine ⟨1, fun n hn => ?_⟩
      obtain ⟨n, rfl⟩ : ∃ k, n = k + 1 := ⟨n - 1, by omega⟩
      rw [alone_shift]
      simp only [Prog.step, Prog.run, hp]
      exact alone_ended (.error .ub) μ n
    | some w =>
      obtain ⟨N, hN⟩ := ih (μ.upd p v)
      refine ⟨N + 1, fun n hn => ?_⟩
      obtain ⟨n, rfl⟩ : ∃ k, n = k + 1 := ⟨n - 1, by omega⟩
      rw [alone_shift]
      simp only [Prog.step, Prog.run, hp]
      exact hN n (by omega)

theorem run_andThen (x : Prog V α) (f : α → Prog V β) (μ : Mem V) : (x >>= f).run μ = match x.run μ with
    | (.ok a, μ') => (f a).run μ'
    | (.error e, μ') => (.error e, μ') := by
  change (x.andThen f).run μ = _
  induction x generalizing μ with
  | ret a => rfl
  | fail e => rfl
  | read p k ih =>
    simp only [Prog.andThen, Prog.run]
    cases μ p with
    | none => rfl
    | some v => exact ih v μ
  | write p v k ih =>
    simp only [Prog.andThen, Prog.run]
    cases μ p with
    | none => rfl
    | some w => exact ih _

theorem run_andThen_ok {x : Prog V α} {f : α → Prog V β} {μ μ' : Mem V} {a : α} (h : x.run μ = (.ok a, μ')) : (x >>= f).run μ = (f a).run μ' := by
  rw [run_andThen, h]

theorem within_andThen {R W : Int → Prop} {x : Prog V α} {f : α → Prog V β} {μ : Mem V} (hx : Within R W x μ)
    (hf : ∀ a μ', x.run μ = (.ok a, μ') → Within R W (f a) μ') : Within R W (x >>= f) μ := by
  change Within R W (x.andThen f) μ
  induction x generalizing μ with
  | ret a => exact hf a μ rfl
  | fail e => trivial
  | read p k ih =>
    refine ⟨hx.1, fun v hv => ih v (hx.2 v hv) fun a μ' h => hf a μ' ?_⟩
    simp only [Prog.run, hv, h]
  | write p v k ih =>
    refine ⟨hx.1, fun hp => ih (hx.2 hp) fun a μ' h => hf a μ' ?_⟩
    obtain ⟨w, hw⟩ := Option.isSome_iff_exists.mp hp
    simp only [Prog.run, hw, h]

theorem within_mono {R R' W W' : Int → Prop} {x : Prog V α} {μ : Mem V} (hr : ∀ p, R p → R' p) (hw : ∀ p, W p → W' p) (h : Within R W x μ) : Within R' W' x μ := by
  induction x generalizing μ with
  | ret a => trivial
  | fail e => trivial
  | read p k ih => exact ⟨hr _ h.1, fun v hv => ih v (h.2 v hv)⟩
  | write p v k ih => exact ⟨hw _ h.1, fun hp => ih (h.2 hp)⟩

theorem readsIn_elim {R : Int → Prop} {μ : Mem V} {e : Prog V (Lv V)} {x : V} (h : ReadsIn R μ e x) :
    ∃ r, e.run μ = (.ok r, μ) ∧ r.fetch.run μ = (.ok x, μ) ∧ Within R (fun _ => False) e μ ∧ Within R (fun _ => False) r.fetch μ := by
  obtain ⟨h1, h2⟩ := h
  have hw : ∀ (e : Prog V (Lv V)) (μ : Mem V), Within R (fun _ => False) (do let r ← e; r.fetch) μ →
      Within R (fun _ => False) e μ ∧ (e.run μ).2 = μ ∧ ∀ r, e.run μ = (.ok r, μ) → Within R (fun _ => False) r.fetch μ := by
    intro e
    induction e with
    | ret a =>
      intro μ h
      refine ⟨trivial, rfl, fun r hr => ?_⟩
      simp only [Prog.run, Prod.mk.injEq, Except.ok.injEq, and_true] at hr
      subst hr; exact h
    | fail e => intro μ h; exact ⟨trivial, rfl, fun r hr => by simp [Prog.run] at hr⟩
    | read p k ih =>
      intro μ h
      refine ⟨⟨h.1, fun v hv => (ih v μ (h.2 v hv)).1⟩, ?_, ?_⟩
      · simp only [Prog.run]
        cases hp : μ p with
        | none => rfl
        | some v => exact (ih v μ (h.2 v hp)).2.1
      · intro r hr
        simp only [Prog.run] at hr
        cases hp : μ p with
        | none => simp [hp] at hr
        | some v => simp only [hp] at hr; exact (ih v μ (h.2 v hp)).2.2 r hr
    | write p v k ih => intro μ h; exact h.1.elim
  obtain ⟨w1, w2, w3⟩ := hw e μ h2
  rw [run_andThen] at h1
  rcases he : e.run μ with ⟨_ | r, μ'⟩
  · rw [he] at h1; simp at h1
  · rw [he] at h1 w2
    simp only at h1 w2
    subst w2
    exact ⟨r, rfl, h1, w1, w3 r he⟩

/-- What the body of an assignment operator does: the element at `p` becomes `g` of its old value and of the value of the other argument. -/
def Assigns (body : List (Lv V) → Prog V (Lv V)) (g : V → V → V) : Prop :=
  ∀ (R : Int → Prop) (μ : Mem V) (p : Int) (e : Prog V (Lv V)) (x y : V), ReadsIn R μ e x → μ p = some y →
    (mapOp body [pure (.ref p), e]).run μ = (.ok (.ref p), μ.upd p (g y x)) ∧ Within (fun q => R q ∨ q = p) (fun q => q = p) (mapOp body [pure (.ref p), e]) μ

theorem set_assigns : Assigns (V := V) setOpP fun _ x => x := by
  intro R μ p e x y he hp
  obtain ⟨r, e1, e2, e3, e4⟩ := readsIn_elim he
  rw [mapM_two, pure_bind]
  constructor
  · rw [run_andThen_ok e1, setOpP, run_andThen_ok e2]
    simp [bind, Prog.andThen, pure, Prog.store, Prog.run, hp]
  · refine within_andThen (within_mono (fun _ h => .inl h) (fun _ h => h.elim) e3) ?_
    intro a μ' h
    rw [e1] at h
    simp only [Prod.mk.injEq, Except.ok.injEq] at h
    obtain ⟨rfl, rfl⟩ := h
    refine within_andThen (within_mono (fun _ h => .inl h) (fun _ h => h.elim) e4) ?_
    intro b μ' h
    exact ⟨rfl, fun _ => trivial⟩

theorem upd_assigns (f : V → V → V) : Assigns (V := V) (updOpP f) f := by
  intro R μ p e x y he hp
  obtain ⟨r, e1, e2, e3, e4⟩ := readsIn_elim he
  rw [mapM_two, pure_bind]
  constructor
  · rw [run_andThen_ok e1, updOpP, run_andThen_ok e2]
    simp [bind, Prog.andThen, pure, Prog.store, Prog.load, Prog.run, hp]
  · refine within_andThen (within_mono (fun _ h => .inl h) (fun _ h => h.elim) e3) ?_
    intro a μ' h
    rw [e1] at h
    simp only [Prod.mk.injEq, Except.ok.injEq] at h
    obtain ⟨rfl, rfl⟩ := h
    refine within_andThen (within_mono (fun _ h => .inl h) (fun _ h => h.elim) e4) ?_
    intro b μ' h
    exact ⟨.inr rfl, fun _ _ => ⟨rfl, fun _ => trivial⟩⟩

/-- One thread. -/
theorem assign_within (body : List (Lv V) → Prog V (Lv V)) (g : V → V → V) (hb : Assigns body g) (v : View) (s : List Nat) (hd : Distinct v s) (x : Iter (Prog V) (Lv V))
    (μ : Mem V) (R : Int → Prop) (y f : List Int → V) (hmem : ∀ j, Valid s j → μ (address v j) = some (y j))
    (hf : ∀ j, Valid s j → ∀ μ', SameOutside (fun p => ∃ k, Valid s k ∧ k ≠ j ∧ p = address v k) μ μ' → ReadsIn R μ' (elem x j) (f j)) :
    Within (fun q => R q ∨ InView v s q) (InView v s) (forAll (fun j => mapOp body [elem v.places j, elem x j]) (rowMajor s)) μ ∧
    ∃ μ', (forAll (fun j => mapOp body [elem v.places j, elem x j]) (rowMajor s)).run μ = (.ok (), μ') ∧
      (∀ j, Valid s j → μ' (address v j) = some (g (y j) (f j))) ∧ SameOutside (InView v s) μ μ' := by
  have key : ∀ (l : List (List Int)), l.Nodup → (∀ j ∈ l, Valid s j) → ∀ μ1 : Mem V,
      (∀ j ∈ l, SameOutside (fun p => ∃ k, Valid s k ∧ k ≠ j ∧ p = address v k) μ μ1) →
      Within (fun q => R q ∨ InView v s q) (InView v s) (forAll (fun j => mapOp body [elem v.places j, elem x j]) l) μ1 ∧
      ∃ μ', (forAll (fun j => mapOp body [elem v.places j, elem x j]) l).run μ1 = (.ok (), μ') ∧ (∀ j ∈ l, μ' (address v j) = some (g (y j) (f j))) ∧
        SameOutside (fun p => ∃ j ∈ l, p = address v j) μ1 μ' := by
    intro l
    induction l with
    | nil => intro _ _ μ1 _; exact ⟨trivial, μ1, rfl, by simp, fun _ _ => rfl⟩
    | cons j l ih =>
      intro hn hv μ1 ho
      rw [List.nodup_cons] at hn
      have hj := hv j (by simp)
      have hy : μ1 (address v j) = some (y j) := by
        rw [ho j (by simp), hmem j hj]
        rintro ⟨k, hk, hne, e⟩
        exact hne (hd j k hj hk e).symm
      obtain ⟨hrun, hwith⟩ := hb R μ1 (address v j) (elem x j) (f j) (y j) (hf j hj μ1 (ho j (by simp))) hy
      have he : (elem v.places j : Prog V (Lv V)) = pure (.ref (address v j)) := rfl
      obtain ⟨w, μ', h1, h2, h3⟩ := ih hn.2 (fun k hk => hv k (by simp [hk])) (μ1.upd (address v j) (g (y j) (f j)))
        (by
          intro k hk p hp
          have hne : j ≠ k := fun h => hn.1 (h ▸ hk)
          have hpj : p ≠ address v j := fun h => hp ⟨j, hj, hne, h⟩
          simp only [Mem.upd, if_neg hpj]
          exact ho k (by simp [hk]) p hp)
      simp only [forAll]
      rw [he]
      refine ⟨?_, μ', ?_, ?_, ?_⟩
      · refine within_andThen (within_mono (fun q h => h.imp id fun e => ⟨j, hj, e⟩) (fun q e => ⟨j, hj, e⟩) hwith) ?_
        intro a μ2 h
        rw [hrun] at h
        simp only [Prod.mk.injEq, Except.ok.injEq] at h
        rw [← h.2]
        exact w
      · rw [run_andThen_ok hrun, h1]
      · intro k hk
        rcases List.mem_cons.mp hk with rfl | hk
        · by_cases h : ∃ i ∈ l, address v k = address v i
          · obtain ⟨i, hi, he⟩ := h
            exact absurd (hd k i hj (hv i (by simp [hi])) he ▸ hi) hn.1
          · rw [h3 _ h]; simp [Mem.upd]
        · exact h2 k hk
      · intro p hp
        rw [h3 p (fun ⟨i, hi, he⟩ => hp ⟨i, by simp [hi], he⟩)]
        have : p ≠ address v j := fun h => hp ⟨j, by simp, h⟩
        simp [Mem.upd, this]
  obtain ⟨w, μ', h1, h2, h3⟩ := key (rowMajor s) (nodup_rowMajor s) (fun j hj => mem_rowMajor.mp hj) μ (fun _ _ _ _ => rfl)
  exact ⟨w, μ', h1, fun j hj => h2 j (mem_rowMajor.mpr hj), fun p hp => h3 p fun ⟨j, hj, he⟩ => hp ⟨j, mem_rowMajor.mp hj, he⟩⟩

theorem run_forAllP {β : Type} (dyn : Bool) (z : List Int) (hz : ∀ i ∈ z, i = 0) (op : List (Prog V (Lv V)) → Prog V (Lv V))
    (dst x : Iter (Prog V) (Lv V)) (sd sx : List Length) (s : List Nat) (hd : HasShape dst sd) (hx : HasShape x sx) (hm : Merge [sd, sx] (s.map some)) :
    (do let _ ← ply (β := β) dyn never z (.node op [dst, x]); pure ()) = forAll (fun j => op [elem dst j, elem x j]) (rowMajor s) := by
  rw [ply_never dyn _ s (shape_two hd hx hm) z hz]
  simp only [elem, elems, bind_assoc, pure_bind]
  exact bind_pure_unit

theorem threads_assign (body : ι → List (Lv V) → Prog V (Lv V)) (g : ι → V → V → V) (hb : ∀ i, Assigns (body i) (g i)) (T : ι → Prog V Unit) (v : ι → View) (s : ι → List Nat)
    (hd : ∀ i, Distinct (v i) (s i)) (x : ι → Iter (Prog V) (Lv V)) (hT : ∀ i, T i = forAll (fun j => mapOp (body i) [elem (v i).places j, elem (x i) j]) (rowMajor (s i)))
    (μ : Mem V) (R : ι → Int → Prop) (y f : ι → List Int → V) (hmem : ∀ i j, Valid (s i) j → μ (address (v i) j) = some (y i j))
    (hf : ∀ i j, Valid (s i) j → ∀ μ', SameOutside (fun p => ∃ k, Valid (s i) k ∧ k ≠ j ∧ p = address (v i) k) μ μ' → ReadsIn (R i) μ' (elem (x i) j) (f i j))
    (hc : NoConflict R fun i => InView (v i) (s i)) :
    ∃ N : ι → Nat, ∀ l : List ι, (∀ i, N i ≤ l.count i) →
      (∀ i, (Threads.exec (T, μ) l).1 i = .ret ()) ∧
      (∀ i j, Valid (s i) j → (Threads.exec (T, μ) l).2 (address (v i) j) = some (g i (y i j) (f i j))) ∧
      SameOutside (fun p => ∃ i, InView (v i) (s i) p) μ (Threads.exec (T, μ) l).2 := by
  have h1 : ∀ i, Within (fun q => R i q ∨ InView (v i) (s i) q) (InView (v i) (s i)) (T i) μ ∧ ∃ μ', (T i).run μ = (.ok (), μ') ∧
      (∀ j, Valid (s i) j → μ' (address (v i) j) = some (g i (y i j) (f i j))) ∧ SameOutside (InView (v i) (s i)) μ μ' := by
    intro i
    rw [hT i]
    exact assign_within (body i) (g i) (hb i) (v i) (s i) (hd i) (x i) μ (R i) (y i) (f i) (hmem i) (hf i)
  have hc' : NoConflict (fun i q => R i q ∨ InView (v i) (s i) q) fun i => InView (v i) (s i) :=
    fun i j hij p hp => ⟨fun h => h.elim (hc i j hij p hp).1 (hc i j hij p hp).2, (hc i j hij p hp).2⟩
  choose N hN using fun i => alone_run (T i) μ
  refine ⟨N, fun l hl => ?_⟩
  obtain ⟨t1, t2, t3⟩ := C66_threads T μ _ _ hc' (fun i => (h1 i).1) l
  refine ⟨fun i => ?_, fun i j hj => ?_, fun p hp => t3 p fun i hi => hp ⟨i, hi⟩⟩
  · obtain ⟨_, μ', e1, _, _⟩ := h1 i
    rw [t1 i, hN i _ (hl i), e1]
    rfl
  · obtain ⟨_, μ', e1, e2, _⟩ := h1 i
    rw [t2 i _ ⟨j, hj, rfl⟩, hN i _ (hl i), e1]
    exact e2 j hj

/-- C66 for assignments. Each of several threads does `v = x`, where the elements of `v` are all different, the element of `x` at `j` depends at most on memory that isn't in `v` and
on the element of `v` at `j`, and no thread writes what another one reads or writes. Then for any schedule where each thread has enough turns, all of them complete;
each `v` has the values that its `x` had at the beginning; and the rest of the memory is as it was. -/
theorem C66_assign (dyn : ι → Bool) (z : ι → List Int) (hz : ∀ i, ∀ k ∈ z i, k = 0) (v : ι → View) (x : ι → Iter (Prog V) (Lv V)) (s : ι → List Nat) (sx : ι → List Length)
    (hv : ∀ i, Shaped (v i) ((s i).map some)) (hd : ∀ i, Distinct (v i) (s i)) (hx : ∀ i, HasShape (x i) (sx i))
    (hm : ∀ i, Merge [(s i).map some, sx i] ((s i).map some)) (μ : Mem V) (R : ι → Int → Prop) (f : ι → List Int → V)
    (hmem : ∀ i j, Valid (s i) j → (μ (address (v i) j)).isSome)
    (hf : ∀ i j, Valid (s i) j → ∀ μ', SameOutside (fun p => ∃ k, Valid (s i) k ∧ k ≠ j ∧ p = address (v i) k) μ μ' → ReadsIn (R i) μ' (elem (x i) j) (f i j))
    (hc : NoConflict R fun i => InView (v i) (s i)) :
    ∃ N : ι → Nat, ∀ l : List ι, (∀ i, N i ≤ l.count i) →
      (∀ i, (Threads.exec (fun i => assignP (dyn i) (z i) (v i).places (x i), μ) l).1 i = .ret ()) ∧
      (∀ i j, Valid (s i) j → (Threads.exec (fun i => assignP (dyn i) (z i) (v i).places (x i), μ) l).2 (address (v i) j) = some (f i j)) ∧
      SameOutside (fun p => ∃ i, InView (v i) (s i) p) μ (Threads.exec (fun i => assignP (dyn i) (z i) (v i).places (x i), μ) l).2 := by
  exact threads_assign (fun _ => setOpP) (fun _ _ x => x) (fun _ => set_assigns) _ v s hd x
    (fun i => run_forAllP (dyn i) (z i) (hz i) _ _ _ _ _ (s i) (hv i) (hx i) (hm i)) μ R
    (fun i j => (μ (address (v i) j)).getD (f i j)) f (fun i j h => by obtain ⟨w, hw⟩ := Option.isSome_iff_exists.mp (hmem i j h); simp [hw]) hf hc

/-- C66 for `v OP= x`, in the same way. -/
theorem C66_update (g : V → V → V) (dyn : ι → Bool) (z : ι → List Int) (hz : ∀ i, ∀ k ∈ z i, k = 0) (v : ι → View) (x : ι → Iter (Prog V) (Lv V)) (s : ι → List Nat) (sx : ι → List Length)
    (hv : ∀ i, Shaped (v i) ((s i).map some)) (hd : ∀ i, Distinct (v i) (s i)) (hx : ∀ i, HasShape (x i) (sx i))
    (hm : ∀ i, Merge [(s i).map some, sx i] ((s i).map some)) (μ : Mem V) (R : ι → Int → Prop) (y f : ι → List Int → V)
    (hmem : ∀ i j, Valid (s i) j → μ (address (v i) j) = some (y i j))
    (hf : ∀ i j, Valid (s i) j → ∀ μ', SameOutside (fun p => ∃ k, Valid (s i) k ∧ k ≠ j ∧ p = address (v i) k) μ μ' → ReadsIn (R i) μ' (elem (x i) j) (f i j))
    (hc : NoConflict R fun i => InView (v i) (s i)) :
    ∃ N : ι → Nat, ∀ l : List ι, (∀ i, N i ≤ l.count i) →
      (∀ i, (Threads.exec (fun i => updateP g (dyn i) (z i) (v i).places (x i), μ) l).1 i = .ret ()) ∧
      (∀ i j, Valid (s i) j → (Threads.exec (fun i => updateP g (dyn i) (z i) (v i).places (x i), μ) l).2 (address (v i) j) = some (g (y i j) (f i j))) ∧
      SameOutside (fun p => ∃ i, InView (v i) (s i) p) μ (Threads.exec (fun i => updateP g (dyn i) (z i) (v i).places (x i), μ) l).2 :=
  threads_assign (fun _ => updOpP g) (fun _ => g) (fun _ => upd_assigns g) _ v s hd x
    (fun i => run_forAllP (dyn i) (z i) (hz i) _ _ _ _ _ (s i) (hv i) (hx i) (hm i)) μ R y f hmem hf hc

theorem readsIn_places {μ : Mem V} {v : View} {j : List Int} {x : V} {R : Int → Prop} (hr : R (address v j)) (h : μ (address v j) = some x) : ReadsIn R μ (elem v.places j) x :=
  ⟨by
    have e : (do let r ← (elem v.places j : Prog V (Lv V)); r.fetch) = Prog.load (address v j) := rfl
    rw [e]
    simp only [Prog.load, Prog.run, h], hr, fun _ _ => trivial⟩

theorem readsIn_binary {μ : Mem V} {a b : Iter (Prog V) (Lv V)} {j : List Int} {x y : V} {R : Int → Prop} (f : V → V → V) (ha : ReadsIn R μ (elem a j) x)
    (hb : ReadsIn R μ (elem b j) y) : ReadsIn R μ (elem (binaryOpP f a b) j) (f x y) := by
  obtain ⟨r, a1, a2, a3, a4⟩ := readsIn_elim ha
  obtain ⟨t, b1, b2, b3, b4⟩ := readsIn_elim hb
  have e : elem (binaryOpP f a b) j = (do let u ← elem a j; let w ← elem b j; let u ← u.fetch; let v ← w.fetch; pure (.val (f u v))) := by
    simp [binaryOpP, elem, elems, mapM_two]
  rw [ReadsIn, e]
  simp only [bind_assoc]
  constructor
  · rw [run_andThen_ok a1, run_andThen_ok b1, run_andThen_ok a2, run_andThen_ok b2]
    rfl
  · refine within_andThen a3 fun u μ1 h1 => ?_
    rw [a1] at h1; simp only [Prod.mk.injEq, Except.ok.injEq] at h1; obtain ⟨rfl, rfl⟩ := h1
    refine within_andThen b3 fun u μ1 h1 => ?_
    rw [b1] at h1; simp only [Prod.mk.injEq, Except.ok.injEq] at h1; obtain ⟨rfl, rfl⟩ := h1
    refine within_andThen a4 fun u μ1 h1 => ?_
    rw [a2] at h1; simp only [Prod.mk.injEq, Except.ok.injEq] at h1; obtain ⟨rfl, rfl⟩ := h1
    refine within_andThen b4 fun u μ1 h1 => ?_
    trivial

/-! Two threads. The first one does `v += pairV` and the other one `w += pairV`, as `v = v + pairV` or as `v += pairV`. `v` is at 0 and 1, `w` is at 2 and 3, and `pairV` at 4 and 5. -/
def rowV (b : Bool) : View := ⟨[⟨2, 1⟩], if b then 2 else 0⟩

theorem rowV_distinct (b : Bool) : Distinct (rowV b) [2] := by
  intro j k hj hk h
  obtain ⟨a, rfl, _, _⟩ := pair_valid hj
  obtain ⟨c, rfl, _, _⟩ := pair_valid hk
  simp [address, dot, rowV] at h
  rw [h]

theorem rowV_at (b : Bool) (j : Int) : address (rowV b) [j] = (if b then 2 else 0) + j := by simp [address, dot, rowV]

theorem rowV_shape (b : Bool) : Shaped (rowV b) ([2].map some) := .cons rfl .nil

/-- What a thread reads. -/
def rowR (b : Bool) (p : Int) : Prop := (4 ≤ p ∧ p < 6) ∨ InView (rowV b) [2] p

theorem rowV_conflict : NoConflict rowR fun b => InView (rowV b) [2] := by
  intro i k hik p hp
  have hw : ¬ InView (rowV k) [2] p := by
    rintro ⟨c, hc, h2⟩
    obtain ⟨j, hj, h1⟩ := hp
    obtain ⟨a, rfl, _, _⟩ := pair_valid hj
    obtain ⟨c, rfl, _, _⟩ := pair_valid hc
    rw [rowV_at] at h1 h2
    cases i <;> cases k <;> simp_all <;> omega
  refine ⟨?_, hw⟩
  rintro (h | h)
  · obtain ⟨j, hj, h1⟩ := hp
    obtain ⟨a, rfl, _, _⟩ := pair_valid hj
    rw [rowV_at] at h1
    cases i <;> simp at h1 <;> omega
  · exact hw h

example : ∃ N : Bool → Nat, ∀ l : List Bool, (∀ b, N b ≤ l.count b) →
    (∀ b, (Threads.exec (fun b => assignP b [] (rowV b).places (binaryOpP (· + ·) (rowV b).places pairV.places), egMem) l).1 b = .ret ()) ∧
    (Threads.exec (fun b => assignP b [] (rowV b).places (binaryOpP (· + ·) (rowV b).places pairV.places), egMem) l).2 1 = some 6 ∧
    (Threads.exec (fun b => assignP b [] (rowV b).places (binaryOpP (· + ·) (rowV b).places pairV.places), egMem) l).2 2 = some 6 := by
  obtain ⟨N, hN⟩ := C66_assign (V := Int) (fun b => b) (fun _ => []) (by simp) rowV (fun b => binaryOpP (· + ·) (rowV b).places pairV.places) (fun _ => [2]) (fun _ => [some 2])
    rowV_shape rowV_distinct (fun b => shape_two (rowV_shape b) (show HasShape pairV.places [some 2] from .cons rfl .nil) (merge_same _))
    (fun b => merge_same _) egMem rowR (fun b j => (if b then 2 else 0) + j.headD 0 + (4 + j.headD 0))
    (by
      intro b j hj
      obtain ⟨a, rfl, _, _⟩ := pair_valid hj
      rw [rowV_at, egMem]
      rw [if_pos (by cases b <;> simp <;> omega)]; rfl)
    (by
      intro b j hj μ' hμ
      obtain ⟨a, rfl, h0, h1⟩ := pair_valid hj
      refine readsIn_binary (· + ·) (readsIn_places (.inr ⟨[a], hj, rfl⟩) ?_) (readsIn_places (.inl ?_) ?_)
      · rw [hμ]
        · rw [rowV_at, egMem, if_pos (by cases b <;> simp <;> omega)]; rfl
        · rintro ⟨k, hk, hne, e⟩
          exact hne (rowV_distinct b _ _ hj hk e).symm
      · simp [address, dot, pairV]; omega
      · have e : address pairV [a] = 4 + a := by simp [address, dot, pairV]
        rw [e, hμ]
        · rw [egMem, if_pos (by omega)]; rfl
        · rintro ⟨k, hk, hne, e⟩
          obtain ⟨c, rfl, _, _⟩ := pair_valid hk
          rw [rowV_at] at e
          cases b <;> simp at e <;> omega)
    rowV_conflict
  refine ⟨N, fun l hl => ?_⟩
  obtain ⟨h1, h2, _⟩ := hN l hl
  refine ⟨h1, ?_, ?_⟩
  · exact h2 false [1] (by simp [Valid])
  · exact h2 true [0] (by simp [Valid])

/-- Without the condition it's false: two threads that add 1 to the same element at 0, and one of the updates is lost. -/
example : ∃ l : List Bool, (∀ b, (Threads.exec (fun _ => updateP (· + ·) true [] (View.places ⟨[], 0⟩) (.scalar (pure (.val 1))), egMem) l).1 b = .ret ()) ∧
    (Threads.exec (fun _ => updateP (· + ·) true [] (View.places ⟨[], 0⟩) (.scalar (pure (.val 1))), egMem) l).2 0 = some 1 :=
  ⟨[true, false, true, false], by intro b; cases b <;> rfl, rfl⟩

end
end Ra.Props
