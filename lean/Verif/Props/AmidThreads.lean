import Verif.Props.AmidPrograms
/-!
# C104: programs in several threads
-/

namespace Ra.Props
open Spec

section
variable {V : Type} {S O : Int → Prop} {k : Nat} {as : List Arr} {μ μo : Mem V} {others : Others V} {h : Steps V}

theorem granted_refl (cs : List (FCmd V)) : Granted cs cs := by
  induction cs with
  | nil => exact .nil
  | cons c cs ih => exact .cons (.inl rfl) ih

theorem deny_sane {c : FCmd V} (h : ∀ p, c ≠ .cmd (.op (.run p))) : ∀ p, deny c ≠ .cmd (.op (.run p)) := by
  intro p
  cases c with
  | cmd c =>
    cases c with
    | op o =>
      cases o with
      | run q => exact absurd rfl (h q)
      | _ => simp [deny, denyOp]
    | _ => simp [deny]
  | _ => simp [deny]

theorem deny_safe {c : FCmd V} (h : FCmd.Safe as c) : FCmd.Safe as (deny c) := by
  cases c with
  | cmd c => cases c <;> exact trivial
  | _ => exact h

/-- A program among other threads: it does what it does alone, if there's memory, and if the others leave its arrays alone. -/
theorem follows_program (dyn : Bool) (z : List Int) (hz : ∀ i ∈ z, i = 0) (cs : List (FCmd V)) (hr : ∀ p, FCmd.cmd (.op (.run p)) ∉ cs) (hk : ∀ c ∈ cs, Spares k c) (hI : AmidInv S O k as μ μo) (hg : FSafes dyn z cs as μo) :
    Troubled S O μ ((fprogramA dyn z cs as).run others h μ).2.1 ∨ ∃ r as' cs' μo', ((fprogramA dyn z cs as).run others h μ).1 = .ok (r, as') ∧ Granted cs cs' ∧ (cs' = cs ∨ r = .error .alloc) ∧ fprogram dyn z cs' as μo = (r, as', μo') ∧
      (r = .ok () ∨ r = .error .check ∨ r = .error .alloc ∨ r = .error .abort) ∧ AmidOut S O k μ as' μo' ((fprogramA dyn z cs as).run others h μ).2.1 ((fprogramA dyn z cs as).run others h μ).2.2 := by
  induction cs generalizing as μ μo O h with
  | nil => exact .inr ⟨.ok (), as, [], μo, rfl, .nil, .inl rfl, rfl, .inl rfl, out_nil hI⟩
  | cons c cs ih =>
    simp only [fprogramA]
    rcases follows_step hI dyn z hz c (fun p hp => hr p (by simp [hp])) hg.1 (hk c (by simp)) (others := others) (h := h) with h1 | ⟨r, as1, c', μ1, h1, h2, h3, h4⟩
    · exact .inl (troubled_bind h1)
    · rw [amid_bind_ok h1]
      have hsafe : FCmd.Safe as c' := by
        rcases h2 with rfl | ⟨rfl, _⟩
        · exact hg.1
        · exact deny_safe hg.1
      have hsane : ∀ p, c' ≠ .cmd (.op (.run p)) := by
        rcases h2 with rfl | ⟨rfl, _⟩
        · exact fun p hp => hr p (by simp [hp])
        · exact deny_sane fun p hp => hr p (by simp [hp])
      have hu := fstep_usable hI.usable dyn z hz c' hsane hsafe h3
      cases r with
      | ok u =>
        obtain rfl : c' = c := by
          rcases h2 with h2 | ⟨_, h2⟩
          · exact h2
          · cases h2
        rcases hu with ⟨_, hu⟩ | ⟨hu, _⟩
        · rcases ih (fun p hp => hr p (by simp [hp])) (fun c hc => hk c (by simp [hc])) (inv_of_out h4 hu) (hg.2 _ _ h3) (h := h ++ ((Ra.FCmd.stepA dyn z as c').run others h μ).2.1) with g | ⟨r, as', cs', μo', g1, g2, g3, g4, g5, g6⟩
          · left
            rw [h4.mem] at g
            have := troubled_right h4.minds h4.spared g
            rw [← h4.mem] at this
            exact this
          · refine .inr ⟨r, as', c' :: cs', μo', g1, .cons (.inl rfl) g2, ?_, ?_, g5, out_append h4 g6⟩
            · rcases g3 with g3 | g3
              · exact .inl (by rw [g3])
              · exact .inr g3
            · simp only [fprogram, h3]
              exact g4
        · simp at hu
      | error f =>
        have e1 : (pure ((.error f : Except Fault Unit), as1) : Amid V (Except Fault Unit × List Arr)).run others (h ++ ((Ra.FCmd.stepA dyn z as c).run others h μ).2.1) ((Ra.FCmd.stepA dyn z as c).run others h μ).2.2 = (.ok (.error f, as1), [], ((Ra.FCmd.stepA dyn z as c).run others h μ).2.2) := rfl
        refine .inr ⟨.error f, as1, c' :: cs, μ1, rfl, .cons (h2.imp id fun h => h.1) (granted_refl cs), ?_, ?_, ?_, ?_⟩
        · rcases h2 with rfl | ⟨_, h2⟩
          · exact .inl rfl
          · exact .inr h2
        · simp only [fprogram, h3]
        · rcases hu with ⟨hu, _⟩ | ⟨hu, _⟩
          · cases hu
          · exact .inr hu
        · simp only [e1, List.append_nil]
          exact h4

/-! The order of the steps. -/

theorem chained_append (μ : Mem V) (g : List (Nat × Mem V × Mem V)) (i : Nat) (b a : Mem V) : Chained μ (g ++ [(i, b, a)]) ↔ Chained μ g ∧ b = memAfter μ (g.map Prod.snd) := by
  induction g generalizing μ with
  | nil => simp [Chained, memAfter]
  | cons e g ih =>
    obtain ⟨j, b', a'⟩ := e
    simp only [List.cons_append, Chained, ih, List.map_cons, memAfter]
    tauto

theorem chained_prefix {μ : Mem V} {g g' : List (Nat × Mem V × Mem V)} (h : Chained μ (g ++ g')) : Chained μ g := by
  induction g generalizing μ with
  | nil => trivial
  | cons e g ih =>
    obtain ⟨j, b', a'⟩ := e
    exact ⟨h.1, ih h.2⟩

theorem stepsOf_append (i : Nat) (g g' : List (Nat × Mem V × Mem V)) : stepsOf i (g ++ g') = stepsOf i g ++ stepsOf i g' := by simp [stepsOf]

theorem stepsOf_same (i : Nat) (b a : Mem V) : stepsOf i [(i, b, a)] = [(b, a)] := by simp [stepsOf]

theorem stepsOf_other {i j : Nat} (h : j ≠ i) (b a : Mem V) : stepsOf i [(j, b, a)] = [] := by simp [stepsOf, h]

/-- What's true of the threads while none of them did anything wrong. `O i` is the memory of thread `i` at the beginning. -/
structure Orderly (S : Int → Prop) (O : Nat → Int → Prop) (μ0 : Mem V) (g : List (Nat × Mem V × Mem V)) : Prop where
  minds : ∀ i, Minds (O i) (stepsOf i g)
  spared : ∀ i, Spared S (stepsOf i g)
  alone : ∀ i h1 e h2, stepsOf i g = h1 ++ e :: h2 → ∀ p, S p ∨ Belongs (O i) h1 p → e.1 p = memAfter μ0 h1 p
  mapped : ∀ i p, Belongs (O i) (stepsOf i g) p → (memAfter μ0 (g.map Prod.snd) p).isSome
  apart : ∀ i j p, i ≠ j → Belongs (O i) (stepsOf i g) p → ¬ Belongs (O j) (stepsOf j g) p
  off : ∀ i p, Belongs (O i) (stepsOf i g) p → ¬ S p
  shared : ∀ p, S p → (memAfter μ0 (g.map Prod.snd) p).isSome
  agree : ∀ i p, S p ∨ Belongs (O i) (stepsOf i g) p → memAfter μ0 (g.map Prod.snd) p = memAfter μ0 (stepsOf i g) p

theorem orderly_step {S : Int → Prop} {O : Nat → Int → Prop} {μ0 : Mem V} {g : List (Nat × Mem V × Mem V)} (hO : Orderly S O μ0 g) (i : Nat) (b a : Mem V) (hb : b = memAfter μ0 (g.map Prod.snd))
    (hm : Minds (O i) (stepsOf i g ++ [(b, a)])) (hs : Spared S (stepsOf i g ++ [(b, a)])) : Orderly S O μ0 (g ++ [(i, b, a)]) := by
  have hm' := ((minds_append _ _ _).mp hm).2.1
  have hs' : ∀ p, S p → a p = b p := fun p hp => hs (b, a) (by simp) p hp
  have hmem : memAfter μ0 ((g ++ [(i, b, a)]).map Prod.snd) = a := by
    rw [List.map_append, memAfter_append]
    rfl
  have hsame : stepsOf i (g ++ [(i, b, a)]) = stepsOf i g ++ [(b, a)] := by rw [stepsOf_append, stepsOf_same]
  have hother : ∀ j, j ≠ i → stepsOf j (g ++ [(i, b, a)]) = stepsOf j g := fun j hj => by rw [stepsOf_append, stepsOf_other (Ne.symm hj), List.append_nil]
  have hbel : ∀ p, Belongs (O i) (stepsOf i g ++ [(b, a)]) p ↔ (Belongs (O i) (stepsOf i g) p ∨ b p = none) ∧ (a p).isSome := fun p => by rw [belongs_append]; rfl
  have hmap : ∀ j p, Belongs (O j) (stepsOf j g) p → (b p).isSome := fun j p hp => by rw [hb]; exact hO.mapped j p hp
  have hshm : ∀ p, S p → (b p).isSome := fun p hp => by rw [hb]; exact hO.shared p hp
  have hkeep : ∀ j p, j ≠ i → Belongs (O j) (stepsOf j g) p → a p = b p := by
    intro j p hj hp
    by_contra hne
    rcases hm' p hne with h1 | h1
    · exact hO.apart j i p hj hp h1
    · have := hmap j p hp
      rw [h1] at this
      cases this
  constructor
  · intro j
    by_cases hj : j = i
    · subst hj; rw [hsame]; exact hm
    · rw [hother j hj]; exact hO.minds j
  · intro j
    by_cases hj : j = i
    · subst hj; rw [hsame]; exact hs
    · rw [hother j hj]; exact hO.spared j
  · intro j h1 e h2 he p hp
    by_cases hj : j = i
    · subst hj
      rw [hsame] at he
      rcases List.eq_nil_or_concat h2 with rfl | ⟨h2', x, rfl⟩
      · obtain ⟨e1, e2⟩ := List.append_inj' he rfl
        cases e2
        rw [← e1] at hp ⊢
        rw [← hO.agree j p hp, ← hb]
      · refine hO.alone j h1 e h2' ?_ p hp
        rw [List.concat_eq_append, ← List.cons_append, ← List.append_assoc] at he
        exact (List.append_inj' he rfl).1
    · rw [hother j hj] at he
      exact hO.alone j h1 e h2 he p hp
  · intro j p hp
    rw [hmem]
    by_cases hj : j = i
    · subst hj
      rw [hsame, hbel] at hp
      exact hp.2
    · rw [hother j hj] at hp
      rw [hkeep j p hj hp]
      exact hmap j p hp
  · have key : ∀ j p, j ≠ i → Belongs (O i) (stepsOf i (g ++ [(i, b, a)])) p → ¬ Belongs (O j) (stepsOf j (g ++ [(i, b, a)])) p := by
      intro j p hj h1 h2
      rw [hsame, hbel] at h1
      rw [hother j hj] at h2
      rcases h1.1 with h3 | h3
      · exact hO.apart i j p (Ne.symm hj) h3 h2
      · have := hmap j p h2
        rw [h3] at this
        cases this
    intro j j' p hne h1 h2
    by_cases hj : j = i
    · subst hj
      exact key j' p (Ne.symm hne) h1 h2
    · by_cases hj' : j' = i
      · subst hj'
        exact key j p hj h2 h1
      · rw [hother j hj] at h1
        rw [hother j' hj'] at h2
        exact hO.apart j j' p hne h1 h2
  · intro j p hp hq
    by_cases hj : j = i
    · subst hj
      rw [hsame, hbel] at hp
      rcases hp.1 with h1 | h1
      · exact hO.off j p h1 hq
      · have := hshm p hq
        rw [h1] at this
        cases this
    · rw [hother j hj] at hp
      exact hO.off j p hp hq
  · intro p hp
    rw [hmem, hs' p hp]
    exact hshm p hp
  · intro j p hp
    rw [hmem]
    by_cases hj : j = i
    · subst hj
      rw [hsame, memAfter_append]
      rfl
    · rw [hother j hj] at hp ⊢
      have h1 : a p = b p := by
        rcases hp with hp | hp
        · exact hs' p hp
        · exact hkeep j p hj hp
      rw [h1, hb]
      exact hO.agree j p hp

/-- Each thread minds its own memory until another thread doesn't, so all of them always do. -/
theorem orderly_all {S : Int → Prop} {O : Nat → Int → Prop} {μ0 : Mem V} {g : List (Nat × Mem V × Mem V)} (hg : Chained μ0 g) (h0 : Orderly S O μ0 [])
    (ht : ∀ e ∈ g, ∃ h, stepsOf e.1 g <+: h ∧ (Troubled S (O e.1) μ0 h ∨ (Minds (O e.1) h ∧ Spared S h))) : ∀ g1 g2, g = g1 ++ g2 → Orderly S O μ0 g1 := by
  intro g1
  induction g1 using List.reverseRecOn with
  | nil => exact fun _ _ => h0
  | append_singleton g1 e ih =>
    obtain ⟨i, b, a⟩ := e
    intro g2 hg2
    have hO := ih ((i, b, a) :: g2) (by rw [hg2]; simp)
    have hc : b = memAfter μ0 (g1.map Prod.snd) := by
      rw [hg2] at hg
      exact ((chained_append _ _ _ _ _).mp (chained_prefix hg)).2
    obtain ⟨hs, ⟨l, he⟩, ht⟩ := ht (i, b, a) (by rw [hg2]; simp)
    have hpre : hs = stepsOf i g1 ++ (b, a) :: (stepsOf i g2 ++ l) := by
      rw [← he, hg2, stepsOf_append, stepsOf_append, stepsOf_same]
      simp
    generalize stepsOf i g2 ++ l = l' at hpre
    have key : Minds (O i) (stepsOf i g1 ++ [(b, a)]) ∧ Spared S (stepsOf i g1 ++ [(b, a)]) := by
      rcases ht with ⟨h1, e, h2, q1, q2, q3, p, q4, q5⟩ | ⟨q1, q2⟩
      · rw [hpre] at q1
        rw [List.append_eq_append_iff] at q1
        rcases q1 with ⟨m, q6, q7⟩ | ⟨m, q6, q7⟩
        · cases m with
          | nil =>
            simp only [List.append_nil, List.nil_append] at q6 q7
            cases q7
            subst q6
            refine absurd ?_ q5
            rw [← hO.agree i p q4, ← hc]
          | cons x m =>
            simp only [List.cons_append] at q7
            obtain ⟨rfl, _⟩ := List.cons.inj q7
            subst q6
            have e1 : stepsOf i g1 ++ (b, a) :: m = (stepsOf i g1 ++ [(b, a)]) ++ m := by simp
            rw [e1] at q2 q3
            exact ⟨((minds_append _ _ _).mp q2).1, fun e he => q3 e (by simp only [List.mem_append] at he ⊢; exact .inl he)⟩
        · cases m with
          | nil =>
            simp only [List.append_nil, List.nil_append] at q6 q7
            cases q7
            rw [← q6] at q4 q5
            refine absurd ?_ q5
            rw [← hO.agree i p q4, ← hc]
          | cons x m =>
            simp only [List.cons_append] at q7
            cases q7
            exact absurd (hO.alone i h1 e m q6 p q4) q5
      · rw [hpre, show stepsOf i g1 ++ (b, a) :: l' = (stepsOf i g1 ++ [(b, a)]) ++ l' by simp] at q1 q2
        exact ⟨((minds_append _ _ _).mp q1).1, fun e he => q2 e (by simp only [List.mem_append] at he ⊢; exact .inl he)⟩
    exact orderly_step hO i b a hc key.1 key.2

/-- Some of the arrays, with their memory and nothing else. -/
theorem usable_just {μ00 μ0 μa : Mem V} {as bs : List Arr} (h : Usable μ00 as μ0) (hb : bs.Sublist as) (hj : Just bs μ0 μa) : Usable bareMem bs μa := by
  have hsome : ∀ p, (μa p).isSome ↔ ∃ a ∈ bs, Owns a p := by
    intro p
    by_cases hp : ∃ a ∈ bs, Owns a p
    · rw [hj.here p hp, h.1.used p]
      obtain ⟨a, ha, ho⟩ := hp
      exact ⟨fun _ => ⟨a, ha, ho⟩, fun _ => .inr ⟨a, hb.subset ha, ho⟩⟩
    · rw [hj.rest p hp]
      exact ⟨fun h => (by cases h), fun h => absurd h hp⟩
  have hpw : bs.Pairwise fun a b => ∀ p, Owns a p → ¬ Owns b p := by
    refine List.Pairwise.sublist hb ?_
    rw [List.pairwise_iff_getElem]
    intro i j hi hj hij
    exact h.1.disj i j _ _ (by omega) (by simp [hi]) (by simp [hj])
  rw [List.pairwise_iff_getElem] at hpw
  refine ⟨⟨fun a ha => ?_, fun i j a b hij ha hb p h1 h2 => ?_, fun p => ?_, fun p hp => ?_⟩, fun p hp => ?_⟩
  · obtain ⟨s, hc⟩ := h.1.cont a (hb.subset ha)
    exact ⟨s, hc.lens, hc.steps, hc.count, fun i hi => (hsome _).mpr ⟨a, ha, by simp only [Owns]; omega⟩, hc.rank⟩
  · obtain ⟨hi, rfl⟩ := List.getElem?_eq_some_iff.mp ha
    obtain ⟨hj, rfl⟩ := List.getElem?_eq_some_iff.mp hb
    rcases Nat.lt_or_gt_of_ne hij with hlt | hlt
    · exact hpw i j hi hj hlt p h1 h2
    · exact hpw j i hj hi hlt p h2 h1
  · rw [hsome p]
    simp [bareMem]
  · simp [bareMem] at hp
  · simp [bareMem] at hp

theorem own_sublist {ts : List (Thread V)} {i : Nat} {t : Thread V} (ht : ts[i]? = some t) (shared : List Arr) : (shared ++ t.own).Sublist (shared ++ (ts.map Thread.own).flatten) :=
  List.Sublist.append_left (List.sublist_flatten_of_mem (List.mem_map.mpr ⟨t, List.mem_of_getElem? ht, rfl⟩)) shared

/-- The arrays of different threads. -/
theorem own_apart {L : Int → Prop} {shared : List Arr} {ts : List (Thread V)} {μ : Mem V} (h : Sound L (shared ++ (ts.map Thread.own).flatten) μ) :
    (∀ (i : Nat) (t : Thread V) p, ts[i]? = some t → StorageOf t.own p → ¬ StorageOf shared p) ∧ ∀ (i j : Nat) (t u : Thread V) p, i ≠ j → ts[i]? = some t → ts[j]? = some u → StorageOf t.own p → ¬ StorageOf u.own p := by
  have hpw : (shared ++ (ts.map Thread.own).flatten).Pairwise fun a b => ∀ p, Owns a p → ¬ Owns b p := by
    rw [List.pairwise_iff_getElem]
    intro i j hi hj hij
    exact h.disj i j _ _ (by omega) (by simp [hi]) (by simp [hj])
  rw [List.pairwise_append, List.pairwise_flatten] at hpw
  obtain ⟨_, ⟨_, h2⟩, h3⟩ := hpw
  refine ⟨?_, ?_⟩
  · rintro i t p ht ⟨a, ha, ho⟩ ⟨b, hb, ho'⟩
    exact h3 b hb a (List.mem_flatten.mpr ⟨_, List.mem_map.mpr ⟨t, List.mem_of_getElem? ht, rfl⟩, ha⟩) p ho' ho
  · rintro i j t u p hij ht hu ⟨a, ha, ho⟩ ⟨b, hb, ho'⟩
    rw [List.pairwise_map, List.pairwise_iff_getElem] at h2
    obtain ⟨hi, rfl⟩ := List.getElem?_eq_some_iff.mp ht
    obtain ⟨hj, rfl⟩ := List.getElem?_eq_some_iff.mp hu
    rcases Nat.lt_or_gt_of_ne hij with hlt | hlt
    · exact h2 i j hi hj hlt a ha b hb p ho ho'
    · exact h2 j i hj hi hlt b hb a ha p ho' ho

/-- The memory of thread `i` at the beginning. -/
def ownAt (ts : List (Thread V)) (i : Nat) (p : Int) : Prop := ∃ t, ts[i]? = some t ∧ StorageOf t.own p

theorem just_exists (as : List Arr) (μ : Mem V) : ∃ μa, Just as μ μa := by
  classical
  exact ⟨fun p => if ∃ a ∈ as, Owns a p then μ p else none, fun p hp => by simp [hp], fun p hp => by simp only [if_neg hp]⟩

theorem inv_start {μ00 μ0 μa : Mem V} {shared : List Arr} {ts : List (Thread V)} (h : Usable μ00 (shared ++ (ts.map Thread.own).flatten) μ0) {i : Nat} {t : Thread V} (ht : ts[i]? = some t) (hj : Just (shared ++ t.own) μ0 μa) :
    AmidInv (StorageOf shared) (ownAt ts i) shared.length (shared ++ t.own) μ0 μa := by
  have hu := usable_just h (own_sublist ht shared) hj
  have hsome : ∀ p, (μa p).isSome → StorageOf (shared ++ t.own) p := fun p hp => by
    have := (hu.1.used p).mp hp
    simpa [bareMem, StorageOf] using this
  refine ⟨hu, fun p hp => (hj.here p (hsome p hp)).symm, fun p hp => ?_, fun p => by rw [List.take_left], by simp⟩
  obtain ⟨a, ha, ho⟩ := hsome p hp
  rcases List.mem_append.mp ha with ha | ha
  · exact .inl ⟨a, ha, ho⟩
  · exact .inr ⟨t, ht, a, ha, ho⟩

theorem orderly_start {μ00 μ0 : Mem V} {shared : List Arr} {ts : List (Thread V)} (h : Usable μ00 (shared ++ (ts.map Thread.own).flatten) μ0) : Orderly (StorageOf shared) (ownAt ts) μ0 [] := by
  obtain ⟨h1, h2⟩ := own_apart h.1
  have hsome : ∀ p, StorageOf (shared ++ (ts.map Thread.own).flatten) p → (μ0 p).isSome := fun p hp => (h.1.used p).mpr (.inr hp)
  refine ⟨fun _ => trivial, fun _ _ he => absurd he List.not_mem_nil, fun i h1 e h2 he => ?_, fun i p hp => ?_, fun i j p hij hp hq => ?_, fun i p hp => ?_, fun p hp => ?_, fun _ _ _ => rfl⟩
  · simp [stepsOf] at he
  · obtain ⟨t, ht, hp⟩ := hp
    obtain ⟨a, ha, ho⟩ := hp
    exact hsome p ⟨a, (own_sublist ht shared).subset (by simp [ha]), ho⟩
  · obtain ⟨t, ht, hp⟩ := hp
    obtain ⟨u, hu, hq⟩ := hq
    exact h2 i j t u p hij ht hu hp hq
  · obtain ⟨t, ht, hp⟩ := hp
    exact h1 i t p ht hp
  · obtain ⟨a, ha, ho⟩ := hp
    exact hsome p ⟨a, by simp [ha], ho⟩

/-! Schedules. -/

/-- The steps that the threads do with a schedule. -/
def trace {α : Type} : Crowd V α → List Nat → List (Nat × Mem V × Mem V)
  | _, [] => []
  | t, i :: l => match t.1[i]? with
    | some (.step f _) => (i, t.2, f t.2) :: trace (t.step i) l
    | _ => trace (t.step i) l

theorem crowd_same {α : Type} {t : Crowd V α} {i : Nat} (h : ∀ f k, t.1[i]? ≠ some (.step f k)) : t.step i = t := by
  unfold Crowd.step
  cases hx : t.1[i]? with
  | none => rfl
  | some x =>
    cases x with
    | done r =>
      simp only [Amid.next]
      obtain ⟨hi, he⟩ := List.getElem?_eq_some_iff.mp hx
      rw [← he, List.set_getElem_self]
    | step f k => exact absurd hx (h f k)

theorem trace_mem {α : Type} (t : Crowd V α) (l : List Nat) : Chained t.2 (trace t l) ∧ (t.exec l).2 = memAfter t.2 ((trace t l).map Prod.snd) := by
  induction l generalizing t with
  | nil => exact ⟨trivial, rfl⟩
  | cons i l ih =>
    have h1 : t.exec (i :: l) = (t.step i).exec l := rfl
    rw [h1]
    unfold trace
    split
    · next f k hx =>
      have h2 : (t.step i).2 = f t.2 := by simp only [Crowd.step, hx, Amid.next]
      have := ih (t.step i)
      rw [h2] at this
      exact ⟨⟨rfl, this.1⟩, this.2⟩
    · next hx =>
      have := ih (t.step i)
      rw [crowd_same hx] at this ⊢
      exact this

/-- From one action to what's left of it after some steps. -/
def Leads {α : Type} : Amid V α → Steps V → Amid V α → Prop
  | x, [], y => x = y
  | x, (b, a) :: h, y => ∃ f k, x = .step f k ∧ a = f b ∧ Leads (k b) h y

theorem trace_leads {α : Type} (t : Crowd V α) (l : List Nat) {i : Nat} {x : Amid V α} (hx : t.1[i]? = some x) : ∃ y, (t.exec l).1[i]? = some y ∧ Leads x (stepsOf i (trace t l)) y := by
  induction l generalizing t x with
  | nil => exact ⟨x, hx, rfl⟩
  | cons j l ih =>
    have h1 : t.exec (j :: l) = (t.step j).exec l := rfl
    rw [h1]
    unfold trace
    split
    · next f k hj =>
      have h2 : t.step j = (t.1.set j (k t.2), f t.2) := by simp only [Crowd.step, hj, Amid.next]
      by_cases hij : j = i
      · subst hij
        rw [hx] at hj
        cases hj
        obtain ⟨y, h3, h4⟩ := ih (t.step j) (x := k t.2) (by
          obtain ⟨hi, _⟩ := List.getElem?_eq_some_iff.mp hx
          rw [h2, List.getElem?_set_self hi])
        refine ⟨y, h3, ?_⟩
        rw [show (j, t.2, f t.2) :: trace (t.step j) l = [(j, t.2, f t.2)] ++ trace (t.step j) l from rfl, stepsOf_append, stepsOf_same]
        exact ⟨f, k, rfl, rfl, h4⟩
      · obtain ⟨y, h3, h4⟩ := ih (t.step j) (x := x) (by rw [h2, List.getElem?_set_ne hij]; exact hx)
        refine ⟨y, h3, ?_⟩
        rw [show (j, t.2, f t.2) :: trace (t.step j) l = [(j, t.2, f t.2)] ++ trace (t.step j) l from rfl, stepsOf_append, stepsOf_other hij]
        exact h4
    · next hj =>
      rw [crowd_same hj]
      exact ih t hx

/-- The others, from the steps. -/
def othersOf (hs : Steps V) : Others V := fun h μ => match hs[h.length]? with
  | some e => e.1
  | none => μ

theorem leads_run {α : Type} (x y : Amid V α) (h hs : Steps V) (μ : Mem V) (hl : Leads x hs y) : hs <+: (x.run (othersOf (h ++ hs)) h μ).2.1 ∧
    ∀ r, y = .done r → x.run (othersOf (h ++ hs)) h μ = (r, hs, memAfter μ hs) := by
  induction hs generalizing x h μ with
  | nil =>
    cases hl
    refine ⟨List.nil_prefix, ?_⟩
    rintro r rfl
    rfl
  | cons e hs ih =>
    obtain ⟨b, a⟩ := e
    obtain ⟨f, k, rfl, rfl, hl⟩ := hl
    have hb : othersOf (h ++ (b, f b) :: hs) h μ = b := by simp [othersOf]
    obtain ⟨h1, h2⟩ := ih (k b) (h ++ [(b, f b)]) (f b) hl
    simp only [List.append_assoc, List.cons_append, List.nil_append] at h1 h2
    simp only [Amid.run, hb]
    refine ⟨by rw [List.cons_prefix_cons]; exact ⟨rfl, h1⟩, fun r hr => ?_⟩
    rw [h2 r hr]
    rfl

variable {μ00 μ0 : Mem V} {shared : List Arr} {ts : List (Thread V)}

/-- The threads at the beginning. -/
def crowdOf (shared : List Arr) (ts : List (Thread V)) (μ0 : Mem V) : Crowd V (Except Fault Unit × List Arr) := (ts.map fun t => t.todo shared, μ0)

theorem trace_index {α : Type} (t : Crowd V α) (l : List Nat) : ∀ e ∈ trace t l, e.1 < t.1.length := by
  induction l generalizing t with
  | nil => intro e he; cases he
  | cons i l ih =>
    have hlen : (t.step i).1.length = t.1.length := by
      unfold Crowd.step
      split <;> simp
    intro e he
    unfold trace at he
    split at he
    · next f k hx =>
      rcases List.mem_cons.mp he with rfl | he
      · exact (List.getElem?_eq_some_iff.mp hx).1
      · rw [← hlen]; exact ih _ e he
    · rw [← hlen]; exact ih _ e he

theorem threads_orderly (h : Usable μ00 (shared ++ (ts.map Thread.own).flatten) μ0) (hp : ∀ t ∈ ts, t.Polite shared μ0) (l : List Nat) :
    ∀ g1 g2, trace (crowdOf shared ts μ0) l = g1 ++ g2 → Orderly (StorageOf shared) (ownAt ts) μ0 g1 := by
  refine orderly_all (trace_mem (crowdOf shared ts μ0) l).1 (orderly_start h) fun e he => ?_
  have hi := trace_index _ _ e he
  simp only [crowdOf, List.length_map] at hi
  obtain ⟨y, _, hl⟩ := trace_leads (crowdOf shared ts μ0) l (i := e.1) (x := ts[e.1].todo shared) (by simp [crowdOf, hi])
  refine ⟨_, (leads_run _ y [] _ μ0 hl).1, ?_⟩
  obtain ⟨μa, hj⟩ := just_exists (shared ++ ts[e.1].own) μ0
  have hpt := hp ts[e.1] (by simp)
  rcases follows_program (others := othersOf ([] ++ stepsOf e.1 (trace (crowdOf shared ts μ0) l))) (h := []) ts[e.1].dyn ts[e.1].z hpt.start ts[e.1].cs hpt.sane hpt.spares (inv_start h (i := e.1) (by simp [hi]) hj) (hpt.safe μa hj) with h1 | ⟨_, _, _, _, _, _, _, _, _, h1⟩
  · exact .inl h1
  · exact .inr ⟨h1.minds, h1.spared⟩

/-- C104. Several threads share some arrays that none of them changes, and each has others of its own. Then whatever the order of their steps, a thread that's done has done what it would do alone, if its arrays were
the only ones, except that there may be no memory for one of the operations; and its arrays have the elements that they would have. Nothing is undefined. -/
theorem C104_threads {dyn : Bool} {z : List Int} (hz : ∀ i ∈ z, i = 0) {cs0 : List (FCmd V)} (hr : ∀ p, FCmd.cmd (.op (.run p)) ∉ cs0) (hs : FSafes dyn z cs0 [] μ00)
    (hm : fprogram dyn z cs0 [] μ00 = (.ok (), shared ++ (ts.map Thread.own).flatten, μ0)) (hp : ∀ t ∈ ts, t.Polite shared μ0) (l : List Nat) {i : Nat} {t : Thread V} (ht : ts[i]? = some t)
    {q : Except Fault (Except Fault Unit × List Arr)} (hq : (Crowd.exec (ts.map fun t => t.todo shared, μ0) l).1[i]? = some (.done q)) {μa : Mem V} (hj : Just (shared ++ t.own) μ0 μa) :
    ∃ r as' cs' μa', q = .ok (r, as') ∧ Granted t.cs cs' ∧ (cs' = t.cs ∨ r = .error .alloc) ∧ fprogram t.dyn t.z cs' (shared ++ t.own) μa = (r, as', μa') ∧
      (r = .ok () ∨ r = .error .check ∨ r = .error .alloc ∨ r = .error .abort) ∧ ∀ p, (μa' p).isSome → (Crowd.exec (ts.map fun t => t.todo shared, μ0) l).2 p = μa' p := by
  have h : Usable μ00 (shared ++ (ts.map Thread.own).flatten) μ0 := by
    rcases fprogram_usable dyn z hz cs0 hr (usable_start μ00) hs hm with ⟨_, h⟩ | ⟨h, _⟩
    · exact h
    · simp at h
  have hO := threads_orderly h hp l _ [] (List.append_nil _).symm
  have hpt := hp t (List.mem_of_getElem? ht)
  obtain ⟨y, hy, hl⟩ := trace_leads (crowdOf shared ts μ0) l (i := i) (x := t.todo shared) (by simp [crowdOf, ht])
  obtain rfl : y = .done q := by
    change (Crowd.exec (crowdOf shared ts μ0) l).1[i]? = _ at hq
    rw [hy] at hq
    exact Option.some.inj hq
  have hrun := (leads_run _ _ [] _ μ0 hl).2 q rfl
  have hmem := (trace_mem (crowdOf shared ts μ0) l).2
  change (Crowd.exec (crowdOf shared ts μ0) l).2 = memAfter μ0 _ at hmem
  rcases follows_program (others := othersOf ([] ++ stepsOf i (trace (crowdOf shared ts μ0) l))) (h := []) t.dyn t.z hpt.start t.cs hpt.sane hpt.spares (inv_start h ht hj) (hpt.safe μa hj) with ⟨h1, e, h2, q1, _, _, p, q4, q5⟩ | ⟨r, as', cs', μa', q1, q2, q3, q4, q5, q6⟩
  · refine absurd (hO.alone i h1 e h2 ?_ p q4) q5
    rw [← q1]
    exact (congrArg (fun x => x.2.1) hrun).symm
  · change (t.todo shared).run _ [] μ0 = _ at hrun
    change ((t.todo shared).run _ [] μ0).1 = _ at q1
    change AmidOut _ _ _ _ _ _ ((t.todo shared).run _ [] μ0).2.1 ((t.todo shared).run _ [] μ0).2.2 at q6
    rw [hrun] at q1 q6
    refine ⟨r, as', cs', μa', q1, q2, q3, q4, q5, fun p hp => ?_⟩
    have h1 := hO.agree i p (q6.mine p hp)
    change (Crowd.exec (crowdOf shared ts μ0) l).2 p = _
    rw [hmem, h1]
    exact q6.inn p hp

/-- C104. The arrays that the threads share are always as they were at the beginning. -/
theorem C104_shared {dyn : Bool} {z : List Int} (hz : ∀ i ∈ z, i = 0) {cs0 : List (FCmd V)} (hr : ∀ p, FCmd.cmd (.op (.run p)) ∉ cs0) (hs : FSafes dyn z cs0 [] μ00)
    (hm : fprogram dyn z cs0 [] μ00 = (.ok (), shared ++ (ts.map Thread.own).flatten, μ0)) (hp : ∀ t ∈ ts, t.Polite shared μ0) (l : List Nat) {a : Arr} (ha : a ∈ shared) {p : Int} (ho : Owns a p) :
    (Crowd.exec (ts.map fun t => t.todo shared, μ0) l).2 p = μ0 p := by
  have h : Usable μ00 (shared ++ (ts.map Thread.own).flatten) μ0 := by
    rcases fprogram_usable dyn z hz cs0 hr (usable_start μ00) hs hm with ⟨_, h⟩ | ⟨h, _⟩
    · exact h
    · simp at h
  have hO := threads_orderly h hp l _ [] (List.append_nil _).symm
  have hmem := (trace_mem (crowdOf shared ts μ0) l).2
  change (Crowd.exec (crowdOf shared ts μ0) l).2 = memAfter μ0 _ at hmem
  change (Crowd.exec (crowdOf shared ts μ0) l).2 p = _
  rw [hmem, hO.agree ts.length p (.inl ⟨a, ha, ho⟩)]
  have hnone : stepsOf ts.length (trace (crowdOf shared ts μ0) l) = [] := by
    have := trace_index (crowdOf shared ts μ0) l
    simp only [stepsOf, List.map_eq_nil_iff, List.filter_eq_nil_iff, decide_eq_true_eq]
    intro e he hi
    have := this e he
    simp only [crowdOf, List.length_map] at this
    omega
  rw [hnone]
  rfl

theorem exec_append {α : Type} (t : Crowd V α) (l l' : List Nat) : t.exec (l ++ l') = (t.exec l).exec l' := List.foldl_append

/-- C104. If a thread always gets another turn then it ends. -/
theorem C104_ends {α : Type} (t : Crowd V α) (turn : Nat → Nat) (i : Nat) (hi : i < t.1.length) (hf : ∀ n, ∃ m, n ≤ m ∧ turn m = i) : ∃ n q, (t.exec ((List.range n).map turn)).1[i]? = some (.done q) := by
  have hstep : ∀ n, t.exec ((List.range (n + 1)).map turn) = (t.exec ((List.range n).map turn)).step (turn n) := fun n => by
    rw [List.range_succ, List.map_append, exec_append]
    rfl
  have hwait : ∀ (x : Amid V α) n, (t.exec ((List.range n).map turn)).1[i]? = some x → ∃ m, (t.exec ((List.range m).map turn)).1[i]? = some x ∧ turn m = i := by
    intro x n hx
    obtain ⟨m, hm, ht⟩ := hf n
    obtain ⟨d, rfl⟩ := Nat.exists_eq_add_of_le hm
    clear hm
    induction d generalizing n with
    | zero => exact ⟨n, hx, ht⟩
    | succ d ih =>
      by_cases hn : turn n = i
      · exact ⟨n, hx, hn⟩
      · refine ih (n + 1) ?_ (by rw [← ht]; congr 1; omega)
        rw [hstep]
        unfold Crowd.step
        split
        · rw [List.getElem?_set_ne hn]; exact hx
        · exact hx
  have key : ∀ (x : Amid V α) n, (t.exec ((List.range n).map turn)).1[i]? = some x → ∃ n q, (t.exec ((List.range n).map turn)).1[i]? = some (.done q) := by
    intro x
    induction x with
    | done q => exact fun n hn => ⟨n, q, hn⟩
    | step f k ih =>
      intro n hn
      obtain ⟨m, hm, ht⟩ := hwait _ n hn
      refine ih (t.exec ((List.range m).map turn)).2 (m + 1) ?_
      rw [hstep, ht]
      unfold Crowd.step
      rw [hm]
      obtain ⟨hi, _⟩ := List.getElem?_eq_some_iff.mp hm
      exact List.getElem?_set_self hi
  exact key t.1[i] 0 (by simp [Crowd.exec, hi])

end
end Ra.Props

namespace Ra.Props
open Spec

theorem fsafes_any {V : Type} (dyn : Bool) (z : List Int) (cs : List (FCmd V)) (h : ∀ c ∈ cs, ∀ as, FCmd.Safe as c) (as : List Arr) (μ : Mem V) : FSafes dyn z cs as μ := by
  induction cs generalizing as μ with
  | nil => trivial
  | cons c cs ih => exact ⟨h c (by simp) as, fun as' μ' _ => ih (fun c hc => h c (by simp [hc])) as' μ'⟩

/-! There's an array that's shared, `a`, with shape `{2, 3}`, and one that belongs to each thread, `b`, with 3 and with 2 elements. One thread does `b += sum(a)` and then `b.push_back(7)`. The other does
`b = 10` and then makes an array like `a + 1`. -/

def egThreads0 : List (FCmd Int) := [.cmd (.op (.create none (some 0) (fun i => i) [2, 3])), .cmd (.op (.create (some 1) (some 20) (fun i => i) [3])), .cmd (.op (.create (some 1) (some 40) (fun _ => 0) [2]))]

def egThread1 : Thread Int := ⟨[⟨some 1, [⟨3, 1⟩], 20, 3⟩], true, [],
  [.update (· + ·) (.view 1 []) (.fold (· + ·) 0 (.view 0 [])), .cmd (.op (.pushBack 1 (some 70) 7))]⟩

def egThread2 : Thread Int := ⟨[⟨some 1, [⟨2, 1⟩], 40, 2⟩], true, [],
  [.assign (.view 1 []) (.const 10), .make none (some 60) (fun _ => 0) (.map (fun xs => xs.sum) [] [.view 0 [], .const 1])]⟩

def egThreadsShared : List Arr := [⟨none, [⟨2, 3⟩, ⟨3, 1⟩], 0, 6⟩]

theorem egThreads_main : (fprogram true [] egThreads0 [] noMem).1 = .ok () ∧ (fprogram true [] egThreads0 [] noMem).2.1 = egThreadsShared ++ ([egThread1, egThread2].map Thread.own).flatten := ⟨rfl, rfl⟩

example : ∀ p, FCmd.cmd (.op (.run p)) ∉ egThreads0 := by simp [egThreads0]
example : FSafes true [] egThreads0 [] noMem := fsafes_any _ _ _ (by simp [egThreads0, FCmd.Safe]) _ _

theorem egThreads_polite : ∀ t ∈ [egThread1, egThread2], t.Polite egThreadsShared (fprogram true [] egThreads0 [] noMem).2.2 := by
  intro t ht
  simp only [List.mem_cons, List.not_mem_nil, or_false] at ht
  rcases ht with rfl | rfl
  · exact ⟨by simp [egThread1], by simp [egThread1], by simp [egThread1, Spares, OpSpares, targets, egThreadsShared], fun _ _ => fsafes_any _ _ _ (by simp [egThread1, FCmd.Safe, FExp.Safe, OpsSafe]) _ _⟩
  · exact ⟨by simp [egThread2], by simp [egThread2], by simp [egThread2, Spares, targets, egThreadsShared], fun _ _ => fsafes_any _ _ _ (by simp [egThread2, FCmd.Safe, FExp.Safe, FExp.Safes, OpsSafe]) _ _⟩

/-- The elements of an array at `p` after the threads do their steps in turn, if they are done. -/
def egThreadsEnd (ts : List (Thread Int)) (p : Int) (n : Nat) : Option (List Bool × List (Option Int)) :=
  let c := Crowd.exec (ts.map fun t => t.todo egThreadsShared, (fprogram true [] egThreads0 [] noMem).2.2) ((List.range 100).map (· % 2))
  some (c.1.map fun x => match x with
    | .done (.ok (.ok (), _)) => true
    | _ => false, (List.range n).map fun i => c.2 (p + i))

example : egThreadsEnd [egThread1, egThread2] 70 4 = some ([true, true], [some 15, some 16, some 17, some 7]) := by decide +kernel
example : egThreadsEnd [egThread1, egThread2] 60 6 = some ([true, true], [some 1, some 2, some 3, some 4, some 5, some 6]) := by decide +kernel

/-- When two threads change the same array it's another matter: both do `b += 1`, and one of the two has no effect. -/
def egThread3 : Thread Int := ⟨[⟨some 1, [⟨3, 1⟩], 20, 3⟩], true, [], [.update (· + ·) (.view 1 []) (.const 1)]⟩

example : egThreadsEnd [egThread3, egThread3] 20 3 = some ([true, true], [some 1, some 2, some 3]) := by decide +kernel

end Ra.Props
