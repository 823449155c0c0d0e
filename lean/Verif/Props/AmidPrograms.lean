import Verif.Props.AmidArrays
/-!
# C104: one thread among others
-/

namespace Ra.Props
open Spec

section
variable {V : Type}

/-- Someone else changed memory that's shared, or that belongs to the thread. Until then the thread only changed memory of its own. -/
def Troubled (S O : Int → Prop) (μ : Mem V) (h : Steps V) : Prop := ∃ h1 e h2, h = h1 ++ e :: h2 ∧ Minds O h1 ∧ Spared S h1 ∧ ∃ p, (S p ∨ Belongs O h1 p) ∧ e.1 p ≠ memAfter μ h1 p

theorem spared_append {S : Int → Prop} {h h' : Steps V} (h1 : Spared S h) (h2 : Spared S h') : Spared S (h ++ h') := fun e he => (List.mem_append.mp he).elim (h1 e) (h2 e)

theorem troubled_left {S O : Int → Prop} {μ : Mem V} {h h' : Steps V} (hd : Troubled S O μ h) : Troubled S O μ (h ++ h') := by
  obtain ⟨h1, e, h2, rfl, hr⟩ := hd
  exact ⟨h1, e, h2 ++ h', by simp, hr⟩

theorem troubled_right {S O : Int → Prop} {μ : Mem V} {h h' : Steps V} (hm : Minds O h) (hs : Spared S h) (hd : Troubled S (Belongs O h) (memAfter μ h) h') : Troubled S O μ (h ++ h') := by
  obtain ⟨h1, e, h2, rfl, h3, h4, h5⟩ := hd
  exact ⟨h ++ h1, e, h2, by simp, (minds_append _ _ _).mpr ⟨hm, h3⟩, spared_append hs h4, by rwa [memAfter_append, belongs_append]⟩

/-- Memory that's empty. -/
def bareMem : Mem V := fun _ => none

/-- The thread has the arrays `as`, of which the first `k` are shared, and the memory is `μ`; if the thread was alone the memory would be `μo`. -/
structure AmidInv (S O : Int → Prop) (k : Nat) (as : List Arr) (μ μo : Mem V) : Prop where
  usable : Usable bareMem as μo
  inn : Inn μo μ
  mine : ∀ p, (μo p).isSome → S p ∨ O p
  shared : ∀ p, S p ↔ StorageOf (as.take k) p
  len : k ≤ as.length

/-- After some steps. The arrays may not have the right shapes. -/
structure AmidOut (S O : Int → Prop) (k : Nat) (μ : Mem V) (as' : List Arr) (μo' : Mem V) (h : Steps V) (μ' : Mem V) : Prop where
  inn : Inn μo' μ'
  minds : Minds O h
  spared : Spared S h
  mem : μ' = memAfter μ h
  mine : ∀ p, (μo' p).isSome → S p ∨ Belongs O h p
  shared : ∀ p, S p ↔ StorageOf (as'.take k) p
  len : k ≤ as'.length

variable {S O : Int → Prop} {k : Nat} {as : List Arr} {μ μo : Mem V}

theorem inv_of_out {h : Steps V} {as' : List Arr} {μo' μ' : Mem V} (ho : AmidOut S O k μ as' μo' h μ') (hu : Usable bareMem as' μo') : AmidInv S (Belongs O h) k as' μ' μo' :=
  ⟨hu, ho.inn, ho.mine, ho.shared, ho.len⟩

theorem out_append {h h' : Steps V} {as' as'' : List Arr} {μo' μ' μo'' μ'' : Mem V} (h1 : AmidOut S O k μ as' μo' h μ') (h2 : AmidOut S (Belongs O h) k μ' as'' μo'' h' μ'') : AmidOut S O k μ as'' μo'' (h ++ h') μ'' :=
  ⟨h2.inn, (minds_append _ _ _).mpr ⟨h1.minds, h2.minds⟩, spared_append h1.spared h2.spared, by rw [memAfter_append, ← h1.mem]; exact h2.mem, by rw [belongs_append]; exact h2.mine, h2.shared, h2.len⟩

theorem out_nil (hI : AmidInv S O k as μ μo) : AmidOut S O k μ as μo [] μ :=
  ⟨hI.inn, trivial, fun _ he => absurd he List.not_mem_nil, rfl, hI.mine, hI.shared, hI.len⟩

theorem inv_storage (hI : AmidInv S O k as μ μo) (p : Int) : (μo p).isSome ↔ StorageOf as p := by
  rw [hI.usable.1.used p]
  simp [bareMem, StorageOf]

theorem storage_split (as : List Arr) (k : Nat) (p : Int) : StorageOf as p ↔ StorageOf (as.take k) p ∨ StorageOf (as.drop k) p := by
  simp only [StorageOf]
  conv => lhs; rw [← List.take_append_drop k as]
  simp only [List.mem_append]
  constructor
  · rintro ⟨a, h | h, hp⟩
    · exact .inl ⟨a, h, hp⟩
    · exact .inr ⟨a, h, hp⟩
  · rintro (⟨a, h, hp⟩ | ⟨a, h, hp⟩)
    · exact ⟨a, .inl h, hp⟩
    · exact ⟨a, .inr h, hp⟩

theorem storage_apart {L : Int → Prop} (hs : Sound L as μo) (p : Int) : StorageOf (as.take k) p → ¬ StorageOf (as.drop k) p := by
  rintro ⟨a, ha, hp⟩ ⟨b, hb, hq⟩
  obtain ⟨i, hi, rfl⟩ := List.getElem_of_mem ha
  obtain ⟨j, hj, rfl⟩ := List.getElem_of_mem hb
  simp only [List.length_take] at hi
  simp only [List.length_drop] at hj
  exact hs.disj i (k + j) _ _ (by omega) (by simp) (by simp) p hp hq

theorem usable_keep {μ0 μ μ' : Mem V} {as : List Arr} (h : Usable μ0 as μ) (g1 : ∀ p, ¬ StorageOf as p → μ' p = μ p) (g2 : ∀ p, StorageOf as p → (μ' p).isSome) : Usable μ0 as μ' := by
  obtain ⟨h1, h2⟩ := h
  refine ⟨⟨fun a ha => ?_, h1.disj, fun p => ?_, h1.rest⟩, fun p hp => ?_⟩
  · obtain ⟨s, hc⟩ := h1.cont a ha
    exact ⟨s, hc.lens, hc.steps, hc.count, fun i hi => g2 _ ⟨a, ha, by simp only [Owns]; omega⟩, hc.rank⟩
  · by_cases hp : StorageOf as p
    · exact ⟨fun _ => .inr hp, fun _ => g2 p hp⟩
    · rw [g1 p hp]
      exact h1.used p
  · rw [g1 p fun ⟨a, ha, ho⟩ => h1.rest p hp a ha ho]
    exact h2 p hp

/-- Steps that are only about the elements of the arrays. -/
theorem inv_link (hI : AmidInv S O k as μ μo) {α : Type} {P : α → Prop} {x : Amid V α} {y : Act V α} (hx : AmidLink (StorageOf as) (StorageOf (as.drop k)) P x y) (others : Others V) (h : Steps V) :
    Troubled S O μ (x.run others h μ).2.1 ∨
      ((x.run others h μ).1 = (y μo).1 ∧ Ends P (y μo).1 ∧ Usable bareMem as (y μo).2 ∧ AmidOut S O k μ as (y μo).2 (x.run others h μ).2.1 (x.run others h μ).2.2) := by
  have hWA : ∀ p, StorageOf (as.drop k) p → StorageOf as p := fun p hp => (storage_split as k p).mpr (.inr hp)
  have hWS : ∀ p, S p → ¬ StorageOf (as.drop k) p := fun p hp => storage_apart hI.usable.1 p ((hI.shared p).mp hp)
  have hWO : ∀ p, StorageOf (as.drop k) p → O p := fun p hp => by
    rcases hI.mine p ((inv_storage hI p).mpr (hWA p hp)) with h | h
    · exact absurd hp (hWS p h)
    · exact h
  have hsp : ∀ {h' : Steps V}, Still (StorageOf as) (StorageOf (as.drop k)) h' → Spared S h' := fun hs e he p hp => (hs e he).1 p (hWS p hp)
  rcases hx.1 others h μ μo (fun p hp => hI.inn p ((inv_storage hI p).mpr hp)) (fun p hp => (inv_storage hI p).mpr hp) with ⟨h1, e, h2, r1, r2, p, r3, r4⟩ | ⟨r1, r2, r3, r4, r5, r6, r7⟩
  · refine .inl ⟨h1, e, h2, r1, still_minds r2 hWA hWO, hsp r2, p, ?_, r4⟩
    rw [still_belongs r2 r3]
    exact hI.mine p ((inv_storage hI p).mpr r3)
  · have hu : Usable bareMem as (y μo).2 := usable_keep hI.usable (fun p hp => r5 p fun hw => hp (hWA p hw)) r4
    have hs : ∀ p, ((y μo).2 p).isSome ↔ StorageOf as p := fun p => by
      rw [hu.1.used p]
      simp [bareMem, StorageOf]
    refine .inr ⟨r1, r2, hu, fun p hp => r3 p ((hs p).mp hp), still_minds r7 hWA hWO, hsp r7, r6, fun p hp => ?_, hI.shared, hI.len⟩
    rw [still_belongs r7 ((hs p).mp hp)]
    exact hI.mine p ((inv_storage hI p).mpr ((hs p).mp hp))

/-- One step that may get memory or leave it. -/
theorem inv_step (hI : AmidInv S O k as μ μo) {μ1 μ' μo' : Mem V} (hin : Inn μo μ1) (hf : Framed μo μo' μ1 μ') (hS : ∀ p, S p → μo' p = μo p) {as' : List Arr} (hs : ∀ p, S p ↔ StorageOf (as'.take k) p)
    (hl : k ≤ as'.length) : AmidOut S O k μ as' μo' [(μ1, μ')] μ' := by
  have hSome : ∀ p, S p → (μo p).isSome := fun p hp => (inv_storage hI p).mpr ((storage_split as k p).mpr (.inl ((hI.shared p).mp hp)))
  have hsp : ∀ p, S p → μ' p = μ1 p := fun p hp => by
    have h1 := hSome p hp
    rw [hin p h1, ← hS p hp]
    exact hf.inn p (by rw [hS p hp]; exact h1)
  refine ⟨hf.inn, ⟨fun p hp => ?_, trivial⟩, fun e he p hp => ?_, rfl, fun p hp => ?_, hs, hl⟩
  · cases hm : μo' p with
    | some v =>
      rcases hf.new p (by rw [hm]; rfl) with h1 | h1
      · rcases hI.mine p h1 with h2 | h2
        · exact absurd (hsp p h2) hp
        · exact .inl h2
      · exact .inr h1
    | none =>
      have h1 := hf.gone p hm
      by_cases h2 : (μo p).isSome
      · rcases hI.mine p h2 with h3 | h3
        · exact absurd (hsp p h3) hp
        · exact .inl h3
      · rw [if_neg h2] at h1
        exact absurd h1 hp
  · rw [List.mem_singleton] at he
    subst he
    exact hsp p hp
  · have h1 : (μ' p).isSome := by rw [hf.inn p hp]; exact hp
    rcases hf.new p hp with h2 | h2
    · rcases hI.mine p h2 with h3 | h3
      · exact .inl h3
      · exact .inr ⟨.inl h3, h1⟩
    · exact .inr ⟨.inr h2, h1⟩

/-- Before one step the others leave the thread's memory alone, or else. -/
theorem inv_others (hI : AmidInv S O k as μ μo) {α : Type} (x : Act V α) (others : Others V) (h : Steps V) : Troubled S O μ ((Amid.one x).run others h μ).2.1 ∨ Inn μo (others h μ) := by
  by_cases h0 : ∀ p, S p ∨ O p → others h μ p = μ p
  · exact .inr fun p hp => (h0 p (hI.mine p hp)).trans (hI.inn p hp)
  · left
    obtain ⟨p, hp⟩ := not_forall.mp h0
    rw [Classical.not_imp] at hp
    exact ⟨[], (others h μ, (x (others h μ)).2), [], rfl, trivial, fun _ he => absurd he List.not_mem_nil, p, hp.1, hp.2⟩

theorem amid_bind_ok {α β : Type} {x : Amid V α} {f : α → Amid V β} {others : Others V} {h : Steps V} {μ : Mem V} {a : α} (hx : (x.run others h μ).1 = .ok a) :
    (x >>= f).run others h μ = (((f a).run others (h ++ (x.run others h μ).2.1) (x.run others h μ).2.2).1, (x.run others h μ).2.1 ++ ((f a).run others (h ++ (x.run others h μ).2.1) (x.run others h μ).2.2).2.1,
      ((f a).run others (h ++ (x.run others h μ).2.1) (x.run others h μ).2.2).2.2) := by
  rw [run_bind]
  rcases hr : x.run others h μ with ⟨r, h', μ'⟩
  rw [hr] at hx
  cases hx
  rfl

theorem amid_bind_error {α β : Type} {x : Amid V α} {f : α → Amid V β} {others : Others V} {h : Steps V} {μ : Mem V} {e : Fault} (hx : (x.run others h μ).1 = .error e) :
    (x >>= f).run others h μ = (.error e, (x.run others h μ).2.1, (x.run others h μ).2.2) := by
  rw [run_bind]
  rcases hr : x.run others h μ with ⟨r, h', μ'⟩
  rw [hr] at hx
  cases hx
  rfl

theorem amid_bind_left {α β : Type} {x : Amid V α} {f : α → Amid V β} {others : Others V} {h : Steps V} {μ : Mem V} : ∃ h', ((x >>= f).run others h μ).2.1 = (x.run others h μ).2.1 ++ h' := by
  cases hx : (x.run others h μ).1 with
  | ok a => exact ⟨_, by rw [amid_bind_ok hx]⟩
  | error e => exact ⟨[], by rw [amid_bind_error hx]; simp⟩

theorem troubled_bind {α β : Type} {x : Amid V α} {f : α → Amid V β} {others : Others V} {h : Steps V} {S O : Int → Prop} {μ : Mem V} (hd : Troubled S O μ (x.run others h μ).2.1) : Troubled S O μ ((x >>= f).run others h μ).2.1 := by
  obtain ⟨h', he⟩ := amid_bind_left (x := x) (f := f) (others := others) (h := h) (μ := μ)
  rw [he]
  exact troubled_left hd

/-- One operation of the thread: it's what it does alone, unless there's no memory. -/
def Follows (S O : Int → Prop) (k : Nat) (μ μo : Mem V) (dyn : Bool) (z : List Int) (as : List Arr) (c : FCmd V) (R : Except Fault (Except Fault Unit × List Arr) × Steps V × Mem V) : Prop :=
  Troubled S O μ R.2.1 ∨ ∃ r as' c' μo', R.1 = .ok (r, as') ∧ (c' = c ∨ (c' = deny c ∧ r = .error .alloc)) ∧ c'.step dyn z as μo = (r, as', μo') ∧ AmidOut S O k μ as' μo' R.2.1 R.2.2

variable {others : Others V} {h : Steps V}

theorem follows_quiet (hI : AmidInv S O k as μ μo) {x : Amid V Unit} {y : Act V Unit} (hx : AmidLink (StorageOf as) (StorageOf (as.drop k)) (fun _ => True) x y) {dyn : Bool} {z : List Int} {c : FCmd V}
    (hc : (c.stepA dyn z as).run others h μ = (.ok ((x.run others h μ).1, as), (x.run others h μ).2)) (hc' : c.step dyn z as μo = ((y μo).1, as, (y μo).2)) : Follows S O k μ μo dyn z as c ((c.stepA dyn z as).run others h μ) := by
  rw [hc]
  rcases inv_link hI hx others h with h1 | ⟨h1, _, _, h3⟩
  · exact .inl h1
  · exact .inr ⟨_, _, c, _, rfl, .inl rfl, by rw [hc', h1], h3⟩

theorem outcome_pure {α β : Type} (x : Amid V α) (f : Except Fault α → β) : (do let r ← Amid.outcome x; pure (f r) : Amid V β).run others h μ = (.ok (f (x.run others h μ).1), (x.run others h μ).2) := by
  rw [run_bind, run_outcome]
  show (_, (x.run others h μ).2.1 ++ [], (x.run others h μ).2.2) = _
  rw [List.append_nil]
  rfl

theorem heldAt_drop {L : Int → Prop} (hs : Sound L as μo) {is : List Nat} (hk : ∀ i ∈ is, k ≤ i) : HeldAt (StorageOf (as.drop k)) as is := by
  intro i hi a ha
  have hm : a ∈ as.drop k := by
    rw [List.mem_iff_getElem?]
    refine ⟨i - k, ?_⟩
    rw [List.getElem?_drop, show k + (i - k) = i by have := hk i hi; omega, ha]
  have hs' : Sound (fun p => (μo p).isSome ∧ ¬ Owns a p) [a] μo := by
    refine ⟨fun b hb => ?_, fun i j a b hij h1 h2 => ?_, fun p => ?_, fun p hp b hb => ?_⟩
    · rw [List.mem_singleton] at hb
      subst hb
      exact hs.cont b (List.mem_of_mem_drop hm)
    · rw [List.getElem?_singleton] at h1 h2
      split at h1 <;> split at h2 <;> simp_all
    · by_cases ho : Owns a p
      · have : (μo p).isSome := (hs.used p).mpr (.inr ⟨a, List.mem_of_mem_drop hm, ho⟩)
        simp [ho, this]
      · simp [ho]
    · rw [List.mem_singleton] at hb
      subst hb
      exact hp.2
  obtain ⟨s, g1, g2⟩ := held_sound hs' a (by simp)
  refine ⟨s, g1, fun j hj => ?_⟩
  obtain ⟨b, hb, ho⟩ := g2 j hj
  rw [List.mem_singleton] at hb
  subst hb
  exact ⟨b, hm, ho⟩

theorem fault_amid {α : Type} (f : Fault) : (fault f : Amid V α).run others h μ = (.error f, [], μ) := rfl

/-- The operations of `Cmd`. -/
theorem follows_cmd (hI : AmidInv S O k as μ μo) (dyn : Bool) (z : List Int) (hz : ∀ i ∈ z, i = 0) (c : Cmd V) (hr : ∀ p, c ≠ .op (.run p)) (hk : Spares k (.cmd c)) :
    Follows S O k μ μo dyn z as (.cmd c) ((FCmd.stepA dyn z as (.cmd c)).run others h μ) := by
  have hH := held_sound hI.usable.1
  have hWA : ∀ p, StorageOf (as.drop k) p → StorageOf as p ∧ StorageOf (as.drop k) p := fun p hp => ⟨(storage_split as k p).mpr (.inr hp), hp⟩
  cases c with
  | op o =>
    simp only [FCmd.stepA, Cmd.stepA]
    have ho : OpSpares k o := hk
    rcases inv_others hI (fun μ => ((.ok ((o.step as μ).1, (o.step as μ).2.1) : Except Fault (Except Fault Unit × List Arr)), (o.step as μ).2.2)) others h with hin | hin
    · exact .inl hin
    obtain ⟨o', g1, g2, g3, g4⟩ := framed_op hI.usable.1 hin o fun p hp => hr p (by rw [hp])
    have ho' : OpSpares k o' := by
      rcases g1 with rfl | ⟨rfl, _⟩
      · exact ho
      · exact spares_deny ho
    obtain ⟨s1, s2, s3⟩ := spares_op hI.usable.1 hI.len o' ho'
    refine .inr ⟨_, _, .cmd (.op o'), (o'.step as μo).2.2, rfl, ?_, ?_, ?_⟩
    · rcases g1 with rfl | ⟨rfl, g⟩
      · exact .inl rfl
      · exact .inr ⟨rfl, g⟩
    · simp only [FCmd.step, Cmd.step]
      rw [g2, g3]
    · exact inv_step hI hin g4 (fun p hp => s3 p ((hI.shared p).mp hp)) (by rw [g3, s1]; exact hI.shared) (by rw [g3]; exact Nat.le_trans hI.len s2)
  | set i j x =>
    cases ha : as[i]? with
    | none =>
      refine .inr ⟨.error .abort, as, _, μo, by simp only [FCmd.stepA, Cmd.stepA, ha]; rfl, .inl rfl, by simp only [FCmd.step, Cmd.step, ha], ?_⟩
      simp only [FCmd.stepA, Cmd.stepA, ha]
      exact out_nil hI
    | some a =>
      by_cases hj : j.length = a.dims.length
      · obtain ⟨s, hs1, hs2⟩ := heldAt_drop (k := k) (is := [i]) hI.usable.1 (fun i' hi => by rw [List.mem_singleton] at hi; subst hi; exact hk) i (by simp) a ha
        refine follows_quiet hI (amid_elem hWA hs1 hs2 j hj x) ?_ ?_
        · simp only [FCmd.stepA, Cmd.stepA, ha, if_pos hj]
          exact outcome_pure _ _
        · simp only [FCmd.step, Cmd.step, ha, if_pos hj]
      · refine .inr ⟨.error .abort, as, _, μo, by simp only [FCmd.stepA, Cmd.stepA, ha, if_neg hj]; rfl, .inl rfl, by simp only [FCmd.step, Cmd.step, ha, if_neg hj], ?_⟩
        simp only [FCmd.stepA, Cmd.stepA, ha, if_neg hj]
        exact out_nil hI
  | assign i e =>
    refine follows_quiet hI (amid_whole hH dyn z hz (amid_set hWA) i e (heldAt_drop hI.usable.1 (fun i' hi => by rw [List.mem_singleton] at hi; subst hi; exact hk))) ?_ ?_
    · simp only [FCmd.stepA, Cmd.stepA]
      exact outcome_pure _ _
    · simp only [FCmd.step, Cmd.step]
      cases as[i]? <;> cases Ra.Exp.iter as e <;> rfl
  | update f i e =>
    refine follows_quiet hI (amid_whole hH dyn z hz (amid_upd hWA f) i e (heldAt_drop hI.usable.1 (fun i' hi => by rw [List.mem_singleton] at hi; subst hi; exact hk))) ?_ ?_
    · simp only [FCmd.stepA, Cmd.stepA]
      exact outcome_pure _ _
    · simp only [FCmd.step, Cmd.step]
      cases as[i]? <;> cases Ra.Exp.iter as e <;> rfl

theorem create_usable {μ0 μ μ' : Mem V} {as : List Arr} (h1 : Usable μ0 as μ) {rk : Option Nat} {o : Option Int} {fill : Nat → V} {s : List Int} {a : Arr} (hc : Arr.create rk o fill s μ = (.ok a, μ')) : Usable μ0 (as ++ [a]) μ' := by
  obtain ⟨s, _, k2, _, k4, _⟩ := create_ok hc
  refine ⟨add_sound h1.1 rfl k4 k2, fun p hp => ?_⟩
  have hne : ∀ q, ¬ Owns (⟨rk, [], 0, 0⟩ : Arr) q := by
    intro q hq
    simp only [Owns] at hq
    omega
  rw [k4.out p (hne p) fun ho => ?_]
  · exact h1.2 p hp
  · rcases k4.new p ho with h | h
    · exact hne p h
    · have := (h1.1.used p).mpr (.inl hp)
      rw [h] at this
      cases this

/-- The arrays after `Array(e)`. -/
def withNew (as : List Arr) : Except Fault Arr → List Arr
  | .ok a => as ++ [a]
  | .error _ => as

/-- What's said of `Array(e)`, or of part of it. -/
def Makes (S O : Int → Prop) (k : Nat) (as : List Arr) (μ μo : Mem V) (o : Option Int) (R : Except Fault Arr × Steps V × Mem V) (y : Option Int → Act V Arr) : Prop :=
  Troubled S O μ R.2.1 ∨ ∃ o' μo', (o' = o ∨ (o' = none ∧ R.1 = .error .alloc)) ∧ y o' μo = (R.1, μo') ∧ AmidOut S O k μ (withNew as R.1) μo' R.2.1 R.2.2

theorem makes_bind {α : Type} {P : α → Prop} (hI : AmidInv S O k as μ μo) {x : Amid V α} {y : Act V α} (hx : AmidLink (StorageOf as) (StorageOf (as.drop k)) P x y) {o : Option Int} {f : α → Amid V Arr} {g : Option Int → α → Act V Arr}
    (hf : ∀ a O h μ μo, P a → AmidInv S O k as μ μo → Makes S O k as μ μo o ((f a).run others h μ) (fun o => g o a)) : Makes S O k as μ μo o ((x >>= f).run others h μ) (fun o => y >>= g o) := by
  rcases inv_link hI hx others h with h1 | ⟨h1, h2, h3, h4⟩
  · exact .inl (troubled_bind h1)
  · rcases hy : y μo with ⟨r, μ1⟩
    rw [hy] at h1 h2 h3 h4
    have herr : ∀ e, r = .error e → Makes S O k as μ μo o ((x >>= f).run others h μ) (fun o => y >>= g o) := by
      rintro e rfl
      rw [amid_bind_error h1]
      refine .inr ⟨o, μ1, .inl rfl, ?_, h4⟩
      show (y >>= g o) μo = _
      rw [act_bind, hy]
    rcases h2 with h2 | h2 | ⟨a, h2, ha⟩
    · exact herr _ h2
    · exact herr _ h2
    · simp only at h2
      subst h2
      rw [amid_bind_ok h1]
      rcases hf a (Belongs O (x.run others h μ).2.1) (h ++ (x.run others h μ).2.1) (x.run others h μ).2.2 μ1 ha (inv_of_out h4 h3) with g1 | ⟨o', μo', g1, g2, g3⟩
      · left
        rw [h4.mem] at g1
        have := troubled_right h4.minds h4.spared g1
        rw [← h4.mem] at this
        exact this
      · refine .inr ⟨o', μo', g1, ?_, out_append h4 g3⟩
        show (y >>= g o') μo = _
        rw [act_bind, hy]
        exact g2

theorem makes_lift {α β : Type} {R : α → β → Prop} (hI : AmidInv S O k as μ μo) {x : Except Fault α} {y : Except Fault β} (hx : Both R x y) {o : Option Int} {f : α → Amid V Arr} {g : Option Int → β → Act V Arr}
    (hf : ∀ a b, x = .ok a → y = .ok b → R a b → Makes S O k as μ μo o ((f a).run others h μ) (fun o => g o b)) : Makes S O k as μ μo o ((Amid.lift x >>= f).run others h μ) (fun o => Act.lift y >>= g o) := by
  rcases hx with ⟨rfl, rfl⟩ | ⟨rfl, rfl⟩ | ⟨a, b, rfl, rfl, hr⟩
  · exact .inr ⟨o, μo, .inl rfl, rfl, out_nil hI⟩
  · exact .inr ⟨o, μo, .inl rfl, rfl, out_nil hI⟩
  · show Makes S O k as μ μo o ((f a).run others h μ) (fun o => g o b)
    exact hf a b rfl rfl hr

/-- The elements of the new array. -/
theorem makes_fill {a : Arr} (hI : AmidInv S O k (as ++ [a]) μ μo) (hk : k ≤ as.length) {β : Type} {x : Amid V β} {y : Act V β} (hx : AmidLink (StorageOf (as ++ [a])) (StorageOf ((as ++ [a]).drop k)) (fun _ => True) x y) (o : Option Int) :
    Makes S O k as μ μo o ((do
      let r ← Amid.outcome x
      a.finishA r).run others h μ) (fun _ μ => match y μ with
      | (.ok _, μ') => (.ok a, μ')
      | (.error e, μ') => (.error e, μ'.move a a.base 0 fun _ => none)) := by
  rcases inv_link hI hx others h with h1 | ⟨h1, h2, h3, h4⟩
  · exact .inl (troubled_bind (x := Amid.outcome x) (by rw [run_outcome]; exact h1))
  · rw [amid_bind_ok (a := (x.run others h μ).1) (by rw [run_outcome])]
    have e1 : ((Amid.outcome x).run others h μ).2 = (x.run others h μ).2 := by rw [run_outcome]
    rw [e1]
    rcases hy : y μo with ⟨r, μ1⟩
    rw [hy] at h1 h2 h3 h4
    simp only at h1 h2 h3 h4
    rw [h1]
    cases r with
    | ok u =>
      have := h4
      exact .inr ⟨o, μ1, .inl rfl, by simp only [hy]; rfl, by
        show AmidOut S O k μ (as ++ [a]) μ1 ((x.run others h μ).2.1 ++ []) (x.run others h μ).2.2
        rw [List.append_nil]; exact h4⟩
    | error f =>
      have hI' := inv_of_out h4 h3
      generalize x.run others h μ = X at *
      obtain ⟨_, hx, μx⟩ := X
      simp only at *
      rcases inv_others hI' (fun μ => ((.ok () : Except Fault Unit), μ.move a a.base 0 fun _ => none)) others (h ++ hx) with hin | hin
      · left
        show Troubled S O μ (hx ++ _)
        refine troubled_right h4.minds h4.spared ?_
        rw [← h4.mem]
        exact hin
      · have hfin : (a.finishA (Except.error f : Except Fault β)).run others (h ++ hx) μx = (.error f, [(others (h ++ hx) μx, (others (h ++ hx) μx).move a a.base 0 fun _ => none)], (others (h ++ hx) μx).move a a.base 0 fun _ => none) := rfl
        rw [hfin]
        refine .inr ⟨o, μ1.move a a.base 0 fun _ => none, .inl rfl, by simp only [hy], ?_⟩
        have hown : ∀ p, Owns a p → (μ1 p).isSome := fun p hp => (inv_storage hI' p).mpr ⟨a, by simp, hp⟩
        have hS : ∀ p, S p → ¬ Owns a p := fun p hp ho => storage_apart hI'.usable.1 p ((hI'.shared p).mp hp) ⟨a, by
          rw [List.drop_append_of_le_length hk]; simp, ho⟩
        have hst := inv_step hI' hin (framed_move hin hown (b := a.base) (n := 0) (fill := fun _ => none) (fun p hp => by omega) (fun hn => by omega)) (fun p hp => by
          have := hS p hp
          simp only [Owns] at this
          simp only [Mem.move]
          rw [if_neg (by omega), if_neg this]) (as' := as) (by
            have := hI'.shared
            rw [List.take_append_of_le_length hk] at this
            exact this) hk
        exact out_append h4 hst

/-- `Array(e)`. -/
theorem makes_array (hI : AmidInv S O k as μ μo) (dyn : Bool) (z : List Int) (hz : ∀ i ∈ z, i = 0) (rk : Option Nat) (o : Option Int) (fill : Nat → V) (e : FExp V) (he : FExp.Safe as e) :
    Makes S O k as μ μo o ((fmakeA dyn z as rk o fill e).run others h μ) (fun o => fmake dyn z as rk o fill e) := by
  unfold fmakeA fmake
  refine makes_bind hI (amid_eager (held_sound hI.usable.1) dyn z hz e he) (g := fun o e => do
    let t ← Act.lift (Ra.FExp.iter (m := Act V) as e)
    concreteBig rk o fill dyn z t) fun e' O h μ μo he' hI => ?_
  refine makes_lift hI (linked_exp (linkedAmid (StorageOf as) (StorageOf (as.drop k))) (held_sound hI.usable.1) (StorageOf as) e' he'.1 (held_held (held_sound hI.usable.1) _)) (g := fun o t => concreteBig rk o fill dyn z t) fun t t' ht ht' hw => ?_
  have hsh := twin_shape _ hw
  rcases inv_others hI (Arr.create rk o fill t.shape) others h with hin | hin
  · exact .inl (troubled_bind (x := Amid.one (Arr.create rk o fill t.shape)) hin)
  obtain ⟨o', c1, c2, c3⟩ := framed_create rk o fill t.shape hin
  have hone : ∀ p, S p → (Arr.create rk o' fill t.shape μo).2 p = μo p := fun p hp =>
    only_create rk o' fill t.shape μo p ((inv_storage hI p).mpr ((storage_split as k p).mpr (.inl ((hI.shared p).mp hp))))
  rcases hc : Arr.create rk o' fill t.shape μo with ⟨r, μ2⟩
  rw [hc] at c2 c3 hone
  cases r with
  | error f =>
    rw [amid_bind_error (x := Amid.one (Arr.create rk o fill t.shape)) c2]
    refine .inr ⟨o', μ2, ?_, ?_, inv_step hI hin c3 hone hI.shared hI.len⟩
    · rcases c1 with c1 | ⟨c1, c4⟩
      · exact .inl c1
      · refine .inr ⟨c1, ?_⟩
        rw [c2] at c4
        exact c4
    · simp only [concreteBig, Arr.ofExpr, Arr.andDo, ← hsh, hc]
  | ok a =>
    have ho : o' = o := by
      rcases c1 with c1 | ⟨_, c4⟩
      · exact c1
      · rw [c2] at c4
        cases c4
    subst ho
    rw [amid_bind_ok (x := Amid.one (Arr.create rk o' fill t.shape)) c2]
    have hu := create_usable hI.usable hc
    have hout : AmidOut S O k μ (as ++ [a]) μ2 _ _ := inv_step hI hin c3 hone (as' := as ++ [a]) (by rw [List.take_append_of_le_length hI.len]; exact hI.shared) (by simp; have := hI.len; omega)
    have hI2 := inv_of_out hout hu
    have hH2 := held_sound hu.1
    have hH3 : Held (StorageOf (as ++ [a])) as := held_mono hH2 (fun b hb => by simp [hb]) fun _ h => h
    have hw2 : Twin (linkedAmid (StorageOf (as ++ [a])) (StorageOf ((as ++ [a]).drop k))) (GoodLv (StorageOf (as ++ [a]))) t t' := by
      rcases linked_exp (linkedAmid (StorageOf (as ++ [a])) (StorageOf ((as ++ [a]).drop k))) hH3 (StorageOf (as ++ [a])) e' he'.1 (held_held hH3 _) with ⟨g, _⟩ | ⟨g, _⟩ | ⟨u, u', g, g', g2⟩
      · rw [ht] at g; cases g
      · rw [ht] at g; cases g
      · rw [ht] at g
        rw [ht'] at g'
        cases g
        cases g'
        exact g2
    have hWA : ∀ p, StorageOf ((as ++ [a]).drop k) p → StorageOf (as ++ [a]) p ∧ StorageOf ((as ++ [a]).drop k) p := fun p hp => ⟨(storage_split (as ++ [a]) k p).mpr (.inr hp), hp⟩
    have hl := amid_traverse dyn z hz (amid_set hWA) (twin_array (heldAt_drop (k := k) (is := [as.length]) hu.1 (fun i hi => by rw [List.mem_singleton] at hi; rw [hi]; exact hI.len)) (a := a) (by simp)) hw2
    rcases makes_fill hI2 hI.len hl o' (others := others) (h := h ++ [(others h μ, (Arr.create rk o' fill t.shape (others h μ)).2)]) with g | ⟨o'', μo', g1, g2, g3⟩
    · left
      have := troubled_right (μ := μ) hout.minds hout.spared g
      exact this
    · have g4 := out_append hout g3
      refine .inr ⟨o', μo', .inl rfl, ?_, g4⟩
      simp only [concreteBig, Arr.ofExpr, Arr.andDo, ← hsh, hc]
      refine Eq.trans ?_ g2
      simp only [Ra.assign, act_bind]
      rcases ply (β := Unit) dyn never z (.node (mapOp setOp) [a.view.refs, t']) μ2 with ⟨_ | _, _⟩ <;> rfl

theorem follows_step (hI : AmidInv S O k as μ μo) (dyn : Bool) (z : List Int) (hz : ∀ i ∈ z, i = 0) (c : FCmd V) (hr : ∀ p, c ≠ .cmd (.op (.run p))) (hg : FCmd.Safe as c) (hk : Spares k c) :
    Follows S O k μ μo dyn z as c ((c.stepA dyn z as).run others h μ) := by
  have hH := held_sound hI.usable.1
  have hWA : ∀ p, StorageOf (as.drop k) p → StorageOf as p ∧ StorageOf (as.drop k) p := fun p hp => ⟨(storage_split as k p).mpr (.inr hp), hp⟩
  cases c with
  | cmd c => exact follows_cmd hI dyn z hz c (fun p hp => hr p (by rw [hp])) hk
  | assign d e =>
    refine follows_quiet hI (amid_assign hH dyn z hz (amid_set hWA) d e hg.1 hg.2 (heldAt_drop hI.usable.1 hk)) ?_ ?_
    · simp only [FCmd.stepA]
      exact outcome_pure _ _
    · simp only [FCmd.step]
  | update f d e =>
    refine follows_quiet hI (amid_assign hH dyn z hz (amid_upd hWA f) d e hg.1 hg.2 (heldAt_drop hI.usable.1 hk)) ?_ ?_
    · simp only [FCmd.stepA]
      exact outcome_pure _ _
    · simp only [FCmd.step]
  | make rk o fill e =>
    have hst : (FCmd.stepA dyn z as (.make rk o fill e)).run others h μ = (.ok (match ((fmakeA dyn z as rk o fill e).run others h μ).1 with
        | .ok a => (.ok (), as ++ [a])
        | .error f => (.error f, as)), ((fmakeA dyn z as rk o fill e).run others h μ).2) := by
      simp only [FCmd.stepA]
      exact outcome_pure _ _
    rw [hst]
    rcases makes_array hI dyn z hz rk o fill e hg (others := others) (h := h) with g | ⟨o', μo', g1, g2, g3⟩
    · exact .inl g
    · generalize (fmakeA dyn z as rk o fill e).run others h μ = X at *
      obtain ⟨r, hx, μx⟩ := X
      cases r with
      | ok a =>
        refine .inr ⟨.ok (), as ++ [a], .make rk o' fill e, μo', rfl, ?_, ?_, g3⟩
        · rcases g1 with rfl | ⟨_, g1⟩
          · exact .inl rfl
          · cases g1
        · simp only [FCmd.step, g2]
      | error f =>
        refine .inr ⟨.error f, as, .make rk o' fill e, μo', rfl, ?_, ?_, g3⟩
        · rcases g1 with rfl | ⟨rfl, g1⟩
          · exact .inl rfl
          · cases g1
            exact .inr ⟨rfl, rfl⟩
        · simp only [FCmd.step, g2]

end
end Ra.Props
