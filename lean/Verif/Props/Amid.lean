import Mathlib.Data.List.Forall2
import Verif.Spec.Amid
import Verif.Props.SafeViews
import Verif.Props.Manual
/-!
# C104: programs among other threads
-/

namespace Ra.Props
open Spec

section
variable {V : Type}

/-! Steps. -/

/-- The steps that a thread has done: the memory before and after each one. -/
abbrev Steps (V : Type) := List (Mem V × Mem V)

/-- What the other threads do to the memory before the next step of the thread, that may depend on the steps that it did. -/
abbrev Others (V : Type) := Steps V → Mem V → Mem V

/-- The memory that belongs to a thread after some steps, if `O` did before: it gets what it allocates, and loses what it frees. -/
def Belongs (O : Int → Prop) : Steps V → Int → Prop
  | [] => O
  | (b, a) :: h => Belongs (fun p => (O p ∨ b p = none) ∧ (a p).isSome) h

/-- The memory after some steps, if it was `μ` before. -/
def memAfter (μ : Mem V) : Steps V → Mem V
  | [] => μ
  | (_, a) :: h => memAfter a h

/-- The steps of several threads, with the number of each thread, in the order in which they were done. Each step goes on with the memory that the one before it left. -/
def Chained (μ : Mem V) : List (Nat × Mem V × Mem V) → Prop
  | [] => True
  | (_, b, a) :: g => b = μ ∧ Chained a g

/-- The steps of thread `i` among some steps. -/
def stepsOf (i : Nat) (g : List (Nat × Mem V × Mem V)) : Steps V := (g.filter fun e => e.1 = i).map Prod.snd

/-- In each of the steps the thread only changes memory that belongs to it at the time, or that was free. -/
def Minds (O : Int → Prop) : Steps V → Prop
  | [] => True
  | (b, a) :: h => (∀ p, a p ≠ b p → O p ∨ b p = none) ∧ Minds (fun p => (O p ∨ b p = none) ∧ (a p).isSome) h

/-- Each step leaves the memory in `S` as it was. -/
def Spared (S : Int → Prop) (h : Steps V) : Prop := ∀ e ∈ h, ∀ p, S p → e.2 p = e.1 p

/-- Do the steps of an action when there are others. Gives the result, the steps, and the memory after. -/
def _root_.Ra.Amid.run {α : Type} : Amid V α → Others V → Steps V → Mem V → Except Fault α × Steps V × Mem V
  | .done r, _, _, μ => (r, [], μ)
  | .step f k, others, h, μ =>
    let r := (k (others h μ)).run others (h ++ [(others h μ, f (others h μ))]) (f (others h μ))
    (r.1, (others h μ, f (others h μ)) :: r.2.1, r.2.2)

theorem run_bind {α β : Type} (x : Amid V α) (f : α → Amid V β) (others : Others V) (h : Steps V) (μ : Mem V) : (x >>= f).run others h μ = match x.run others h μ with
    | (.ok a, h', μ') => (((f a).run others (h ++ h') μ').1, h' ++ ((f a).run others (h ++ h') μ').2.1, ((f a).run others (h ++ h') μ').2.2)
    | (.error e, h', μ') => (.error e, h', μ') := by
  change (x.andThen f).run others h μ = _
  induction x generalizing h μ with
  | done r =>
    cases r with
    | error e => rfl
    | ok a =>
      simp only [Amid.andThen, Amid.run, List.append_nil, List.nil_append]
  | step g k ih =>
    simp only [Amid.andThen, Amid.run, ih]
    rcases (k (others h μ)).run others (h ++ [(others h μ, g (others h μ))]) (g (others h μ)) with ⟨_ | a, h', μ'⟩
    · rfl
    · simp

theorem run_outcome {α : Type} (x : Amid V α) (others : Others V) (h : Steps V) (μ : Mem V) : x.outcome.run others h μ = (.ok (x.run others h μ).1, (x.run others h μ).2) := by
  induction x generalizing h μ with
  | done r => rfl
  | step g k ih => simp only [Amid.outcome, Amid.run, ih]

theorem belongs_append (O : Int → Prop) (h h' : Steps V) : Belongs O (h ++ h') = Belongs (Belongs O h) h' := by
  induction h generalizing O with
  | nil => rfl
  | cons e h ih => exact ih _

theorem minds_append (O : Int → Prop) (h h' : Steps V) : Minds O (h ++ h') ↔ Minds O h ∧ Minds (Belongs O h) h' := by
  induction h generalizing O with
  | nil => simp [Minds, Belongs]
  | cons e h ih =>
    simp only [List.cons_append, Minds, ih, Belongs]
    exact and_assoc.symm

/-- Steps that only change what's in `W`, and where what's in `A` is there before and after. -/
def Still (A W : Int → Prop) (h : Steps V) : Prop := ∀ e ∈ h, (∀ p, ¬ W p → e.2 p = e.1 p) ∧ ∀ p, A p → (e.1 p).isSome ∧ (e.2 p).isSome

theorem still_append {A W : Int → Prop} {h h' : Steps V} (h1 : Still A W h) (h2 : Still A W h') : Still A W (h ++ h') := fun e he =>
  (List.mem_append.mp he).elim (h1 e) (h2 e)

theorem still_mono {A A' W W' : Int → Prop} {h : Steps V} (h1 : Still A W h) (hA : ∀ p, A' p → A p) (hW : ∀ p, W p → W' p) : Still A' W' h := fun e he =>
  ⟨fun p hp => (h1 e he).1 p fun hw => hp (hW p hw), fun p hp => (h1 e he).2 p (hA p hp)⟩

theorem still_belongs {A W O : Int → Prop} {h : Steps V} (hs : Still A W h) {p : Int} (ha : A p) : Belongs O h p ↔ O p := by
  induction h generalizing O with
  | nil => rfl
  | cons e h ih =>
    obtain ⟨h1, h2⟩ := (hs e (by simp)).2 p ha
    rw [Belongs, ih fun x hx => hs x (by simp [hx])]
    constructor
    · rintro ⟨h3 | h3, _⟩
      · exact h3
      · rw [h3] at h1
        cases h1
    · exact fun h3 => ⟨.inl h3, h2⟩

theorem still_minds {A W O : Int → Prop} {h : Steps V} (hs : Still A W h) (hW : ∀ p, W p → A p) (hO : ∀ p, W p → O p) : Minds O h := by
  induction h generalizing O with
  | nil => trivial
  | cons e h ih =>
    obtain ⟨h1, h2⟩ := hs e (by simp)
    refine ⟨fun p hp => .inl (hO p (by_contra fun hw => hp (h1 p hw))), ih (fun x hx => hs x (by simp [hx])) fun p hp => ?_⟩
    exact ⟨.inl (hO p hp), (h2 p (hW p hp)).2⟩

/-! Actions, with others and alone. -/

/-- There's a failure that isn't undefined behaviour, or a result with `P`. -/
def Ends {α : Type} (P : α → Prop) (r : Except Fault α) : Prop := r = .error .check ∨ r = .error .abort ∨ ∃ a, r = .ok a ∧ P a

/-- The action depends only on the memory in `A`, and changes only that in `W`. -/
def Loc {α : Type} (A W : Int → Prop) (P : α → Prop) (y : Act V α) : Prop :=
  ∀ μ μo : Mem V, (∀ p, A p → μ p = μo p) → (∀ p, A p → (μo p).isSome) →
    (y μ).1 = (y μo).1 ∧ Ends P (y μo).1 ∧ (∀ p, A p → (y μ).2 p = (y μo).2 p) ∧ (∀ p, A p → ((y μo).2 p).isSome) ∧ ∀ p, ¬ W p → (y μ).2 p = μ p

/-- Someone else changed the memory in `A` after some steps. -/
def Disturbed (A W : Int → Prop) (μ : Mem V) (h : Steps V) : Prop := ∃ h1 e h2, h = h1 ++ e :: h2 ∧ Still A W h1 ∧ ∃ p, A p ∧ e.1 p ≠ memAfter μ h1 p

/-- Each step, whatever the others do before it, depends only on the memory in `A` and changes only that in `W`. -/
def Local {α : Type} (A W : Int → Prop) (P : α → Prop) : Amid V α → Prop
  | .done r => ∀ a, r = .ok a → P a
  | .step f k => ∀ μ : Mem V, (∀ p, A p → (μ p).isSome) → (∀ p, A p → (f μ p).isSome) ∧ (∀ p, ¬ W p → f μ p = μ p) ∧ Local A W P (k μ) ∧
      ∀ μ' : Mem V, (∀ p, A p → μ' p = μ p) → k μ' = k μ ∧ ∀ p, A p → f μ' p = f μ p

theorem local_bind {α β : Type} {A W : Int → Prop} {P : α → Prop} {Q : β → Prop} {x : Amid V α} {f : α → Amid V β} (hx : Local A W P x) (hf : ∀ a, P a → Local A W Q (f a)) : Local A W Q (x >>= f) := by
  change Local A W Q (x.andThen f)
  induction x with
  | done r =>
    cases r with
    | error e => exact fun a h => by cases h
    | ok a => exact hf a (hx a rfl)
  | step g k ih =>
    intro μ hμ
    obtain ⟨h1, h2, h3, h4⟩ := hx μ hμ
    exact ⟨h1, h2, ih μ h3, fun μ' hm => ⟨by simp only [(h4 μ' hm).1], (h4 μ' hm).2⟩⟩

theorem local_one {α : Type} {A W : Int → Prop} {P : α → Prop} {y : Act V α} (hy : Loc A W P y) : Local A W P (Amid.one y) := by
  intro μ hμ
  obtain ⟨_, h2, _, h4, h5⟩ := hy μ μ (fun _ _ => rfl) hμ
  refine ⟨h4, h5, fun a ha => ?_, fun μ' hm => ?_⟩
  · rcases h2 with h2 | h2 | ⟨b, h2, hb⟩
    · rw [h2] at ha; cases ha
    · rw [h2] at ha; cases ha
    · rw [h2] at ha; cases ha; exact hb
  · obtain ⟨r1, _, r3, _⟩ := hy μ' μ hm hμ
    exact ⟨by simp only [r1], r3⟩

/-- Among others that don't change the memory in `A`, `x` does what `y` does alone. -/
def AmidLink {α : Type} (A W : Int → Prop) (P : α → Prop) (x : Amid V α) (y : Act V α) : Prop :=
  (∀ (others : Others V) (h : Steps V) (μ μo : Mem V), (∀ p, A p → μ p = μo p) → (∀ p, A p → (μo p).isSome) →
    Disturbed A W μ (x.run others h μ).2.1 ∨
    ((x.run others h μ).1 = (y μo).1 ∧ Ends P (y μo).1 ∧ (∀ p, A p → (x.run others h μ).2.2 p = (y μo).2 p) ∧ (∀ p, A p → ((y μo).2 p).isSome) ∧ (∀ p, ¬ W p → (y μo).2 p = μo p) ∧
      (x.run others h μ).2.2 = memAfter μ (x.run others h μ).2.1 ∧ Still A W (x.run others h μ).2.1)) ∧ Local A W P x

theorem memAfter_append (μ : Mem V) (h h' : Steps V) : memAfter μ (h ++ h') = memAfter (memAfter μ h) h' := by
  induction h generalizing μ with
  | nil => rfl
  | cons e h ih => exact ih _

theorem amid_pure {α : Type} {A W : Int → Prop} {P : α → Prop} {a : α} (h : P a) : AmidLink A W P (pure a : Amid V α) (pure a) :=
  ⟨fun _ _ _ _ h1 h2 => .inr ⟨rfl, .inr (.inr ⟨a, rfl, h⟩), h1, h2, fun _ _ => rfl, rfl, fun _ he => absurd he List.not_mem_nil⟩, fun _ ha => by cases ha; exact h⟩

theorem amid_fault {α : Type} {A W : Int → Prop} {P : α → Prop} {f : Fault} (h : f = .check ∨ f = .abort) : AmidLink A W P (fault f : Amid V α) (fault f) :=
  ⟨fun _ _ _ _ h1 h2 => .inr ⟨rfl, by rcases h with rfl | rfl; exact .inl rfl; exact .inr (.inl rfl), h1, h2, fun _ _ => rfl, rfl, fun _ he => absurd he List.not_mem_nil⟩, fun _ ha => by cases ha⟩

theorem disturbed_left {A W : Int → Prop} {μ : Mem V} {h h' : Steps V} (hd : Disturbed A W μ h) : Disturbed A W μ (h ++ h') := by
  obtain ⟨h1, e, h2, rfl, hr⟩ := hd
  exact ⟨h1, e, h2 ++ h', by simp, hr⟩

theorem disturbed_right {A W : Int → Prop} {μ : Mem V} {h h' : Steps V} (hs : Still A W h) (hd : Disturbed A W (memAfter μ h) h') : Disturbed A W μ (h ++ h') := by
  obtain ⟨h1, e, h2, rfl, h3, h4⟩ := hd
  exact ⟨h ++ h1, e, h2, by simp, still_append hs h3, by rwa [memAfter_append]⟩

theorem amid_bind {α β : Type} {A W : Int → Prop} {P : α → Prop} {Q : β → Prop} {x : Amid V α} {y : Act V α} {f : α → Amid V β} {g : α → Act V β} (hx : AmidLink A W P x y)
    (hf : ∀ a, P a → AmidLink A W Q (f a) (g a)) : AmidLink A W Q (x >>= f) (y >>= g) := by
  refine ⟨fun others h μ μo h1 h2 => ?_, local_bind hx.2 fun a ha => (hf a ha).2⟩
  have hx := hx.1 others h μ μo h1 h2
  rw [act_bind]
  rw [run_bind]
  rcases hx' : x.run others h μ with ⟨r, h', μ'⟩
  rcases hy : y μo with ⟨s, μo'⟩
  rw [hx', hy] at hx
  simp only at hx
  rcases hx with hx | ⟨rfl, r2, r3, r4, r5, rfl, r7⟩
  · left
    cases r with
    | error e => exact hx
    | ok a => exact disturbed_left hx
  cases r with
  | error e =>
    refine .inr ⟨rfl, ?_, r3, r4, r5, rfl, r7⟩
    rcases r2 with r2 | r2 | ⟨a, r2, _⟩
    · cases r2; exact .inl rfl
    · cases r2; exact .inr (.inl rfl)
    · cases r2
  | ok a =>
    have hP : P a := by
      rcases r2 with r2 | r2 | ⟨b, r2, h⟩
      · cases r2
      · cases r2
      · cases r2; exact h
    rcases (hf a hP).1 others (h ++ h') (memAfter μ h') μo' r3 r4 with hd | ⟨s1, s2, s3, s4, s5, s6, s7⟩
    · exact .inl (disturbed_right r7 hd)
    · exact .inr ⟨s1, s2, s3, s4, fun p hp => (s5 p hp).trans (r5 p hp), by rw [memAfter_append]; exact s6, still_append r7 s7⟩

theorem amid_one {α : Type} {A W : Int → Prop} {P : α → Prop} {y : Act V α} (hy : Loc A W P y) : AmidLink A W P (Amid.one y) y := by
  refine ⟨fun others h μ μo h1 h2 => ?_, local_one hy⟩
  by_cases h0 : ∀ p, A p → others h μ p = μ p
  · right
    have h3 : ∀ p, A p → others h μ p = μo p := fun p hp => (h0 p hp).trans (h1 p hp)
    obtain ⟨r1, r2, r3, r4, r5⟩ := hy (others h μ) μo h3 h2
    refine ⟨r1, r2, r3, r4, (hy μo μo (fun _ _ => rfl) h2).2.2.2.2, rfl, fun e he => ?_⟩
    rw [show ((Amid.one y).run others h μ).2.1 = [(others h μ, (y (others h μ)).2)] from rfl, List.mem_singleton] at he
    subst he
    exact ⟨r5, fun p hp => ⟨(congrArg Option.isSome (h3 p hp)).trans (h2 p hp), (congrArg Option.isSome (r3 p hp)).trans (r4 p hp)⟩⟩
  · left
    obtain ⟨p, hp⟩ := not_forall.mp h0
    rw [Classical.not_imp] at hp
    exact ⟨[], (others h μ, (y (others h μ)).2), [], rfl, fun _ he => absurd he List.not_mem_nil, p, hp.1, hp.2⟩

theorem loc_pure {α : Type} {A W : Int → Prop} {P : α → Prop} {a : α} (h : P a) : Loc A W P (pure a : Act V α) := fun _ _ h1 h2 =>
  ⟨rfl, .inr (.inr ⟨a, rfl, h⟩), h1, h2, fun _ _ => rfl⟩

theorem loc_read {A W : Int → Prop} {p : Int} (h : A p) : Loc A W (fun _ => True) (Act.read p : Act V V) := by
  intro μ μo h1 h2
  obtain ⟨v, hv⟩ := Option.isSome_iff_exists.mp (h2 p h)
  simp only [Act.read, h1 p h, hv]
  exact ⟨trivial, .inr (.inr ⟨v, rfl, trivial⟩), h1, h2, fun _ _ => trivial⟩

theorem loc_write {A W : Int → Prop} {p : Int} (hA : A p) (hW : W p) (v : V) : Loc A W (fun _ => True) (Act.write p v) := by
  intro μ μo h1 h2
  obtain ⟨w, hw⟩ := Option.isSome_iff_exists.mp (h2 p hA)
  simp only [Act.write, h1 p hA, hw, Mem.upd]
  refine ⟨trivial, .inr (.inr ⟨(), rfl, trivial⟩), fun q hq => ?_, fun q hq => ?_, fun q hq => ?_⟩
  · split
    · rfl
    · exact h1 q hq
  · split
    · rfl
    · exact h2 q hq
  · rw [if_neg]
    rintro rfl
    exact hq hW

theorem loc_get {A W : Int → Prop} {x : Lv V} (h : GoodLv A x) : Loc A W (fun _ => True) x.get := by
  cases x with
  | val v => exact loc_pure trivial
  | ref p => exact loc_read h
  | view v => cases h

/-! The same for traversals that have other effects. -/

/-- The same for the actions of `m` and `n`. -/
structure Linked (V : Type) (A W : Int → Prop) (m n : Type → Type) [Monad m] [MonadFault m] [MonadLiftT (Act V) m] [Monad n] [MonadFault n] [MonadLiftT (Act V) n] where
  T : {α : Type} → (α → Prop) → m α → n α → Prop
  pure : ∀ {α : Type} {P : α → Prop} {a : α}, P a → T P (Pure.pure a) (Pure.pure a)
  bind : ∀ {α β : Type} {P : α → Prop} {Q : β → Prop} {x : m α} {y : n α} {f : α → m β} {g : α → n β}, T P x y → (∀ a, P a → T Q (f a) (g a)) → T Q (x >>= f) (y >>= g)
  fault : ∀ {α : Type} {P : α → Prop} {f : Fault}, f = .check ∨ f = .abort → T P (Ra.fault f) (Ra.fault f)
  fails : ∀ {α β γ : Type} {P : α → Prop} {f : Fault} {g : β → m α} {g' : γ → n α}, f = .check ∨ f = .abort → T P (Ra.fault f >>= g) (Ra.fault f >>= g')
  lift : ∀ {α : Type} {P : α → Prop} {y : Act V α}, Loc A W P y → T P (liftM y) (liftM y)

def linkedAmid (A W : Int → Prop) : Linked V A W (Amid V) (Act V) := ⟨AmidLink A W, amid_pure, amid_bind, amid_fault, amid_fault, amid_one⟩

def linkedState (A W : Int → Prop) : Linked V A W (StateT V (Amid V)) (StateT V (Act V)) where
  T {α} P x y := ∀ c, AmidLink A W (fun r : α × V => P r.1) (x.run c) (y.run c)
  pure h := fun c => amid_pure h
  bind hx hf := fun c => amid_bind (hx c) fun r hr => hf r.1 hr r.2
  fault h := fun _ => amid_fault h
  fails h := fun _ => amid_fault h
  lift h := fun c => amid_bind (amid_one h) fun a ha => amid_pure ha

section
variable {m n : Type → Type} [Monad m] [LawfulMonad m] [MonadFault m] [MonadLiftT (Act V) m] [Monad n] [LawfulMonad n] [MonadFault n] [MonadLiftT (Act V) n] {A W : Int → Prop} (L : Linked V A W m n)

theorem linked_weaken {α : Type} {P Q : α → Prop} {x : m α} {y : n α} (hx : L.T P x y) (h : ∀ a, P a → Q a) : L.T Q x y := by
  have := L.bind hx (fun a ha => L.pure (h a ha))
  rwa [bind_pure, bind_pure] at this

theorem linked_mapM {α β : Type} {P : β → Prop} (f : α → m β) (g : α → n β) (xs : List α) (h : ∀ x ∈ xs, L.T P (f x) (g x)) :
    L.T (fun ys => ys.length = xs.length ∧ ∀ y ∈ ys, P y) (xs.mapM f) (xs.mapM g) := by
  induction xs with
  | nil => exact L.pure (by simp)
  | cons x xs ih =>
    rw [List.mapM_cons, List.mapM_cons]
    exact L.bind (h x (by simp)) fun y hy => L.bind (ih fun z hz => h z (by simp [hz])) fun ys hys => L.pure (by simp [hy, hys.1]; exact hys.2)

theorem linked_gets (xs : List (Lv V)) (h : ∀ x ∈ xs, GoodLv A x) : L.T (fun ys => ys.length = xs.length) (getAll xs) (getAll xs) :=
  linked_weaken L (linked_mapM L (P := fun _ => True) _ _ xs fun x hx => L.lift (loc_get (h x hx))) fun _ h => h.1

theorem linked_mapOp {P Q : Lv V → Prop} {op : List (Lv V) → m (Lv V)} {op' : List (Lv V) → n (Lv V)} (k : Nat) (h : ∀ l, l.length = k → (∀ x ∈ l, P x) → L.T Q (op l) (op' l))
    {xs : List (m (Lv V))} {ys : List (n (Lv V))} (hl : xs.length = k) (hx : List.Forall₂ (L.T P) xs ys) : L.T Q (mapOp op xs) (mapOp op' ys) := by
  have key : L.T (fun l => l.length = xs.length ∧ ∀ y ∈ l, P y) (xs.mapM id) (ys.mapM id) := by
    clear h hl
    induction hx with
    | nil => exact L.pure (by simp)
    | @cons x y xs ys h1 _ ih =>
      rw [List.mapM_cons, List.mapM_cons]
      exact L.bind h1 fun y hy => L.bind ih fun ys hys => L.pure (by simp [hy, hys.1]; exact hys.2)
  exact L.bind key fun l h1 => h l (by rw [h1.1, hl]) h1.2

/-- The same expression, with others and alone. -/
structure Twin (P : Lv V → Prop) (a : Iter m (Lv V)) (b : Iter n (Lv V)) : Prop where
  wf : a.WF
  wf' : b.WF
  rank : a.rank = b.rank
  len : ∀ k, a.len k = b.len k
  shape : ∀ s, HasShape a s ↔ HasShape b s
  elem : ∀ s, HasShape a s → ∀ j, InRange s j → L.T P (elem a j) (elem b j)

theorem twin_shape {P : Lv V → Prop} {a : Iter m (Lv V)} {b : Iter n (Lv V)} (h : Twin L P a b) : a.shape = b.shape := by
  simp only [Iter.shape, h.rank]
  exact List.map_congr_left fun k _ => h.len k

theorem twin_weaken {P Q : Lv V → Prop} {a : Iter m (Lv V)} {b : Iter n (Lv V)} (h : Twin L P a b) (hP : ∀ x, P x → Q x) : Twin L Q a b :=
  ⟨h.wf, h.wf', h.rank, h.len, h.shape, fun s hs j hj => linked_weaken L (h.elem s hs j hj) hP⟩

theorem twin_scalar {P : Lv V → Prop} {x : m (Lv V)} {y : n (Lv V)} (h : L.T P x y) : Twin L P (.scalar x) (.scalar y) :=
  ⟨by simp [Iter.WF], by simp [Iter.WF], rfl, fun _ => rfl, fun _ => Iff.rfl, fun s hs j hj => by simpa only [Spec.elem] using h⟩

theorem twin_cell {P : Lv V → Prop} {dims : List Dim} {cp : Int} {rd : Int → m (Lv V)} {rd' : Int → n (Lv V)} (hd : ∀ d ∈ dims, 0 ≤ d.len ∨ d.len = UNB)
    (h : ∀ s, List.Forall₂ DimLen dims s → ∀ j, InRange s j → L.T P (rd (cp + dot (dims.map Dim.step) j)) (rd' (cp + dot (dims.map Dim.step) j))) :
    Twin L P (.cell dims cp rd) (.cell dims cp rd') :=
  ⟨hd, hd, rfl, fun _ => rfl, fun _ => Iff.rfl, fun s hs j hj => by simp only [Spec.elem]; exact h s hs j hj⟩

theorem twin_reframe {P : Lv V → Prop} {a : Iter m (Lv V)} {b : Iter n (Lv V)} (h : Twin L P a b) (D : List Nat) (hD : D.Nodup) (hl : (D.length : Int) = a.rank) : Twin L P (reframe D a) (reframe D b) := by
  unfold reframe
  split
  · exact h
  · refine ⟨⟨hD, hl, h.wf⟩, ⟨hD, by rw [hl, h.rank], h.wf'⟩, rfl, fun k => ?_, fun s => ?_, fun s ⟨_, s0, hs, hr⟩ j hj => ?_⟩
    · simp only [Iter.len]
      split
      · exact h.len _
      · rfl
    · simp only [HasShape, h.shape]
    · simp only [Spec.elem]
      exact h.elem s0 hs _ ((inRange_reframed hr j hj.1).mp hj)

theorem linked_shapes {t : List (Iter m (Lv V))} {t' : List (Iter n (Lv V))} (ht : List.Forall₂ (fun a b => ∃ P, Twin L P a b) t t') (ss : List (List Length)) : HasShapes t ss ↔ HasShapes t' ss := by
  induction ht generalizing ss with
  | nil => rfl
  | cons h1 _ ih =>
    obtain ⟨P, h1⟩ := h1
    simp only [HasShapes, h1.shape, ih]

theorem linked_elems {P : Lv V → Prop} {t : List (Iter m (Lv V))} {t' : List (Iter n (Lv V))} (ht : List.Forall₂ (Twin L P) t t') (ss : List (List Length)) (hs : HasShapes t ss) (j : List Int) (hj : ∀ x ∈ ss, InRange x j) :
    (elems t j).length = t.length ∧ List.Forall₂ (L.T P) (elems t j) (elems t' j) := by
  induction ht generalizing ss with
  | nil => exact ⟨rfl, .nil⟩
  | cons h1 _ ih =>
    obtain ⟨s, ss', rfl, h3, h4⟩ := hs
    obtain ⟨g1, g2⟩ := ih ss' h4 fun x hx => hj x (by simp [hx])
    exact ⟨by simp [elems, g1], .cons (h1.elem s h3 j (hj s (by simp))) g2⟩

theorem twin_node {Q : Lv V → Prop} {op : List (m (Lv V)) → m (Lv V)} {op' : List (n (Lv V)) → n (Lv V)} {t : List (Iter m (Lv V))} {t' : List (Iter n (Lv V))} (hne : t ≠ [])
    (ht : List.Forall₂ (fun a b => ∃ P, Twin L P a b) t t') (h : ∀ ss, HasShapes t ss → ∀ j, (∀ x ∈ ss, InRange x j) → L.T Q (op (elems t j)) (op' (elems t' j))) : Twin L Q (.node op t) (.node op' t') := by
  have hw : WFList t ∧ WFList t' := by
    clear h hne
    induction ht with
    | nil => exact ⟨trivial, trivial⟩
    | cons h1 _ ih => obtain ⟨P, h1⟩ := h1; exact ⟨⟨h1.wf, ih.1⟩, h1.wf', ih.2⟩
  have hr : rankList t = rankList t' := by
    clear h hne hw
    induction ht with
    | nil => rfl
    | cons h1 _ ih => obtain ⟨P, h1⟩ := h1; simp only [rankList, h1.rank, ih]
  have hl : ∀ k, lenList t k = lenList t' k := by
    intro k
    clear h hne hw hr
    induction ht with
    | nil => rfl
    | cons h1 _ ih => obtain ⟨P, h1⟩ := h1; simp only [lenList, h1.rank, h1.len, ih]
  refine ⟨⟨hne, hw.1⟩, ⟨?_, hw.2⟩, by simp only [Iter.rank, hr], fun k => by simp only [Iter.len, hl], fun s => ?_, fun s ⟨ss, hs, hm⟩ j hj => ?_⟩
  · rintro rfl
    cases ht
    exact hne rfl
  · simp only [HasShape, linked_shapes L ht]
  · simp only [Spec.elem]
    exact h ss hs j fun x hx => (inRange_merge hm j).mp hj x hx

theorem twin_exists {P : Lv V → Prop} {t : List (Iter m (Lv V))} {t' : List (Iter n (Lv V))} (ht : List.Forall₂ (Twin L P) t t') : List.Forall₂ (fun a b => ∃ P, Twin L P a b) t t' :=
  ht.imp fun _ _ h => ⟨P, h⟩

theorem linked_forAll {α ι : Type} {P : α → Prop} (f : ι → m α) (g : ι → n α) (l : List ι) (h : ∀ i ∈ l, L.T P (f i) (g i)) : L.T (fun _ => True) (forAll f l) (forAll g l) := by
  induction l with
  | nil => exact L.pure trivial
  | cons i l ih =>
    simp only [forAll]
    exact L.bind (h i (by simp)) fun _ _ => ih fun k hk => h k (by simp [hk])

theorem linked_ply {β : Type} {P : Lv V → Prop} (dyn : Bool) (z : List Int) (hz : ∀ i ∈ z, i = 0) {a : Iter m (Lv V)} {b : Iter n (Lv V)} (h : Twin L P a b) :
    L.T (fun _ => True) (ply (β := β) dyn never z a) (ply (β := β) dyn never z b) := by
  rcases C03_tree (β := β) never a h.wf z with ⟨s, hs⟩ | ⟨h1, h2, _⟩
  · rw [ply_never dyn _ s hs z hz, ply_never dyn _ s ((h.shape (s.map some)).mp hs) z hz]
    exact L.bind (linked_forAll L (P := P) _ _ _ fun j hj => h.elem (s.map some) hs j (inRange_of_valid (mem_rowMajor.mp hj))) fun _ _ => L.pure trivial
  · rcases C03_tree (β := β) never b h.wf' z with ⟨s, hs⟩ | ⟨g1, g2, _⟩
    · have hs' := (h.shape (s.map some)).mpr hs
      rw [ply_never dyn _ s hs z hz, ply_never dyn _ s hs' z hz]
      exact L.bind (linked_forAll L (P := P) _ _ _ fun j hj => h.elem (s.map some) hs' j (inRange_of_valid (mem_rowMajor.mp hj))) fun _ _ => L.pure trivial
    cases dyn
    · simp only [ply, Bool.false_eq_true, if_false, h2, g2]
      exact L.fails (.inl rfl)
    · simp only [ply, if_true, h1, g1]
      exact L.fails (.inl rfl)

theorem linked_mapVerb {P Q : Lv V → Prop} {f : List (Lv V) → m (Lv V)} {g : List (Lv V) → n (Lv V)} {cranks : List (List Nat)} {t : List (Iter m (Lv V))} {t' : List (Iter n (Lv V))} (hne : t ≠ [])
    (ht : List.Forall₂ (Twin L P) t t') (hop : ∀ l, l.length = t.length → (∀ x ∈ l, P x) → L.T Q (f l) (g l)) :
    (mapVerb f cranks t = none ∧ mapVerb g cranks t' = none) ∨ ∃ e e', mapVerb f cranks t = some e ∧ mapVerb g cranks t' = some e' ∧ Twin L Q e e' := by
  have hr : (t'.map fun a => (a.rank.toNat, ([] : List Nat))) = t.map fun a => (a.rank.toNat, []) := by
    clear hop hne
    induction ht with
    | nil => rfl
    | cons h1 _ ih => simp only [List.map_cons, h1.rank, ih]
  simp only [mapVerb, hr]
  cases h1 : framematch cranks (t.map fun a => (a.rank.toNat, [])) 0 with
  | none => exact .inl ⟨rfl, rfl⟩
  | some dest =>
    refine .inr ⟨_, _, rfl, rfl, ?_⟩
    have hd := framematch_dest _ _ _ _ h1 (by
      intro a ha
      obtain ⟨x, _, rfl⟩ := List.mem_map.mp ha
      simp)
    rw [List.forall₂_map_left_iff] at hd
    have hz : List.Forall₂ (Twin L P) (List.zipWith reframe dest t) (List.zipWith reframe dest t') ∧ (List.zipWith reframe dest t).length = t.length := by
      clear hop hne hr h1
      induction hd generalizing t' with
      | nil => cases ht; exact ⟨.nil, rfl⟩
      | @cons a d t dest hd _ ih =>
        cases ht with
        | @cons _ b _ t' h1 h2 =>
          obtain ⟨g1, g2⟩ := ih h2
          have := Iter.rank_nonneg _ h1.wf
          exact ⟨.cons (twin_reframe L h1 d hd.1 (by have := hd.2; simp only at this; omega)) g1, by simp [g2]⟩
    refine twin_node L ?_ (twin_exists L hz.1) fun ss hs j hj => ?_
    · intro h
      have := hz.2
      rw [h] at this
      exact hne (List.eq_nil_of_length_eq_zero this.symm)
    · obtain ⟨k1, k2⟩ := linked_elems L hz.1 ss hs j hj
      exact linked_mapOp L t.length hop (k1.trans hz.2) k2

theorem linked_elemAt {α : Type} {B : Int → Prop} {Q : α → Prop} {rd : Int → m α} {rd' : Int → n α} (hr : ∀ p, B p → L.T Q (rd p) (rd' p)) {b : View} {s : List Length} (hb : Shaped b s)
    (hA : ∀ j, InRange s j → B (address b j)) (i : List Int) (hi : i.length = b.dims.length) : L.T Q (b.elemAt rd i) (b.elemAt rd' i) := by
  have hl := hb.length_eq
  have hax : ∀ i : List Int, axes (i.map .at) = i.length := by
    intro i
    induction i with
    | nil => rfl
    | cons x i ih => simp [axes, ih]; omega
  have hw : (i.map fun x => Sub.scalar (.const x)) = (i.map Subscript.at).map write := by simp [write]
  unfold View.elemAt
  rw [hw]
  by_cases ha : Accepts b.dims (i.map .at)
  · obtain ⟨c, h1, h2, h3⟩ := C13_slice b s hb (i.map .at) (by rw [hax]; omega) ha
    rw [h1]
    obtain ⟨h4, h5⟩ := h3 [] (by rw [sliceShape_at s i (by omega)]; exact ⟨by simp, by simp⟩)
    refine hr c.cp ?_
    have := hA _ h5
    rw [← h4] at this
    simpa [address, dot] using this
  · rw [C11_reject b s hb (i.map .at) (by rw [hax]; omega) ha]
    exact L.fault (.inl rfl)

theorem linked_iota [IndexLike (Lv V)] {P : Lv V → Prop} (hP : ∀ i : Int, P (ofIdx i)) (k : Int) (hk : 0 ≤ k) : Twin L P (.cell [⟨k, 1⟩] 0 fun i => pure (ofIdx i)) (.cell [⟨k, 1⟩] 0 fun i => pure (ofIdx i)) :=
  twin_cell L (fun d hd => .inl (by simp only [List.mem_singleton] at hd; rw [hd]; exact hk)) fun _ _ _ _ => L.pure (hP _)

theorem linked_spacer [IndexLike (Lv V)] {P : Lv V → Prop} (hP : ∀ i : Int, P (ofIdx i)) (dims : List Dim) (p q : Nat) :
    (spacer (m := m) (α := Lv V) dims p q = .error .check ∧ spacer (m := n) (α := Lv V) dims p q = .error .check) ∨
      ∃ sp sp', spacer (m := m) (α := Lv V) dims p q = .ok sp ∧ spacer (m := n) (α := Lv V) dims p q = .ok sp' ∧ sp.length = min q dims.length - p ∧ List.Forall₂ (Twin L P) sp sp' := by
  unfold spacer
  have hl : ((dims.take q).drop p).length = min q dims.length - p := by simp
  rw [← hl]
  generalize (dims.take q).drop p = l
  clear hl
  induction l with
  | nil => exact .inr ⟨[], [], rfl, rfl, rfl, .nil⟩
  | cons d l ih =>
    rw [List.mapM_cons, List.mapM_cons]
    by_cases hd : d.len < 0
    · exact .inl ⟨by rw [if_pos hd]; rfl, by rw [if_pos hd]; rfl⟩
    · rw [if_neg hd, if_neg hd]
      rcases ih with ⟨h, h'⟩ | ⟨sp, sp', h1, h1', h2, h3⟩
      · exact .inl ⟨by rw [h]; rfl, by rw [h']; rfl⟩
      · exact .inr ⟨_ :: sp, _ :: sp', by rw [h1]; rfl, by rw [h1']; rfl, by simp [h2], .cons (linked_iota L hP _ (by omega)) h3⟩

theorem linked_fromuArgs [IndexLike (Lv V)] {P : Lv V → Prop} (hP : ∀ i : Int, P (ofIdx i)) (dims : List Dim) (mk : List Bool) {ts : List (Iter m (Lv V))} {ts' : List (Iter n (Lv V))} (ht : List.Forall₂ (Twin L P) ts ts')
    (h : mk.count true = ts.length) (p bk : Nat) (hp : p ≤ bk) (hl : bk + mk.length ≤ dims.length) :
    (fromuArgs dims p ((dsOf bk (maskSubs mk ts)).zip ts) = .error .check ∧ fromuArgs dims p ((dsOf bk (maskSubs mk ts')).zip ts') = .error .check) ∨
      ∃ args args', fromuArgs dims p ((dsOf bk (maskSubs mk ts)).zip ts) = .ok args ∧ fromuArgs dims p ((dsOf bk (maskSubs mk ts')).zip ts') = .ok args' ∧ args.length = dims.length - p ∧
        List.Forall₂ (Twin L P) args args' := by
  induction mk generalizing ts ts' p bk with
  | nil =>
    have : ts = [] := List.eq_nil_of_length_eq_zero (by simpa using h.symm)
    subst this
    cases ht
    simp only [maskSubs, dsOf, List.zip_nil_left, fromuArgs]
    rcases linked_spacer L hP dims p dims.length with h | ⟨sp, sp', h1, h1', h2, h3⟩
    · exact .inl h
    · exact .inr ⟨sp, sp', h1, h1', by simpa using h2, h3⟩
  | cons b mk ih =>
    simp only [List.length_cons] at hl
    cases b with
    | false =>
      simp only [maskSubs, dsOf]
      exact ih ht (by simpa using h) p (bk + 1) (by omega) (by omega)
    | true =>
      cases ht with
      | nil => simp at h
      | @cons t t' ts ts' ht1 ht2 =>
        simp only [maskSubs, dsOf, List.zip_cons_cons, fromuArgs]
        rcases linked_spacer L hP dims p bk with ⟨h1, h1'⟩ | ⟨sp, sp', h1, h1', h2, h3⟩
        · exact .inl ⟨by rw [h1]; rfl, by rw [h1']; rfl⟩
        · rcases ih ht2 (by simpa using h) (bk + 1) (bk + 1) (Nat.le_refl _) (by omega) with ⟨h4, h4'⟩ | ⟨args, args', h4, h4', h5, h6⟩
          · exact .inl ⟨by rw [h1, h4]; rfl, by rw [h1', h4']; rfl⟩
          · exact .inr ⟨sp ++ t :: args, sp' ++ t' :: args', by rw [h1, h4]; rfl, by rw [h1', h4']; rfl, by simp [h2, h5]; omega, List.rel_append h3 (.cons ht1 h6)⟩

/-- A view with array subscripts. -/
theorem linked_gather {B : Int → Prop} (x : IndexLike V) {w : View} {s : List Length} (hw : Shaped w s) (hA : ∀ j, InRange s j → B (address w j)) (mk : List Bool) {ts : List (Iter m (Lv V))} {ts' : List (Iter n (Lv V))}
    (ht : List.Forall₂ (Twin L (GoodLv A)) ts ts') (h : mk.count true = ts.length) (hl : mk.length ≤ w.dims.length) (hne : ts ≠ []) :
    (w.gather x mk ts = .error .check ∧ w.gather x mk ts' = .error .check) ∨ (w.gather x mk ts = .ok none ∧ w.gather x mk ts' = .ok none) ∨
      ∃ e e', w.gather x mk ts = .ok (some e) ∧ w.gather x mk ts' = .ok (some e') ∧ Twin L (GoodLv B) e e' := by
  letI := lvIndex x
  have hlen := ht.length_eq
  unfold View.gather
  have hds : dsOf 0 (maskSubs mk ts') = dsOf 0 (maskSubs mk ts) := by
    have := (fromb_mask mk ts' (h.trans hlen) w.cp 0 w.dims hl).symm.trans (fromb_mask mk ts h w.cp 0 w.dims hl)
    simpa using this
  rw [fromb_mask mk ts h w.cp 0 w.dims hl]
  simp only [bind, Except.bind]
  have key := linked_fromuArgs L (P := GoodLv A) (fun i => show GoodLv A (Lv.val (x.ofIdx i)) from trivial) w.dims mk ht h 0 0 (Nat.le_refl _) (by omega)
  rw [hds] at key
  rcases key with ⟨h1, h1'⟩ | ⟨args, args', h1, h1', h2, h3⟩
  · exact .inl ⟨by rw [h1], by rw [h1']⟩
  rw [h1, h1']
  simp only [pure, Except.pure]
  have hpos := List.length_pos_of_ne_nil hne
  have hmk := List.count_le_length (a := true) (l := mk)
  have hr : (args'.map fun a => a.rank.toNat) = args.map fun a => a.rank.toNat := by
    clear h1 h1' h2
    induction h3 with
    | nil => rfl
    | cons h1 _ ih => simp only [List.map_cons, h1.rank, ih]
  have hne' : args ≠ [] := by
    rintro rfl
    simp at h2
    omega
  unfold fromOp
  rw [hr]
  rcases linked_mapVerb L (Q := GoodLv B) (f := gatherOp x ⟨w.dims, w.cp⟩) (g := gatherOp x ⟨w.dims, w.cp⟩) (cranks := fromuLoop (args.map fun a => a.rank.toNat) 1) hne' h3 (fun l hl hx => by
      unfold gatherOp
      refine L.bind (linked_gets L l hx) fun vs hvs => linked_elemAt L (B := B) (Q := GoodLv B) (rd := fun p => pure (.ref p)) (rd' := fun p => pure (.ref p)) (fun p hp => L.pure (show GoodLv B (.ref p) from hp)) hw hA _ ?_
      simp only [List.length_map]
      omega) with ⟨k1, k2⟩ | ⟨e, e', k1, k2, k3⟩
  · exact .inr (.inl ⟨by rw [k1], by rw [k2]⟩)
  · exact .inr (.inr ⟨e, e', by rw [k1], by rw [k2], k3⟩)

theorem linked_pickStar {P : Lv V → Prop} (i k : Nat) {xs : List (m (Lv V))} {ys : List (n (Lv V))} (h : List.Forall₂ (L.T P) xs ys) : L.T P (pickStar i k xs) (pickStar i k ys) := by
  induction h generalizing i with
  | nil => exact L.fault (.inl rfl)
  | cons h1 _ ih =>
    simp only [pickStar]
    split
    · exact h1
    · exact ih (i + 1)

/-- The elements of those arrays are at those addresses. -/
def HeldAt (B : Int → Prop) (as : List Arr) (is : List Nat) : Prop := ∀ i ∈ is, ∀ a, as[i]? = some a → ∃ s : List Nat, Shaped a.view (s.map some) ∧ ∀ j, InRange (s.map some) j → B (address a.view j)

theorem held_held {A : Int → Prop} {as : List Arr} (h : Held A as) (is : List Nat) : HeldAt A as is := fun _ _ a ha => h a (List.mem_of_getElem? ha)

theorem heldAt_view {B : Int → Prop} {as : List Arr} {i : Nat} (hB : HeldAt B as [i]) (ops : List ViewOp) (h : ∀ a, as[i]? = some a → OpsSafe ops a.view) :
    viewOf as i ops = .error .check ∨ viewOf as i ops = .error .abort ∨ ∃ a w s, as[i]? = some a ∧ runOps ops a.view = .ok w ∧ viewOf as i ops = .ok w ∧ Shaped w s ∧ ∀ j, InRange s j → B (address w j) := by
  unfold viewOf
  cases ha : as[i]? with
  | none => exact .inr (.inl rfl)
  | some a =>
    obtain ⟨s, h1, h2⟩ := hB i (by simp) a ha
    rcases C98_ops ops a.view _ h1 (h a ha) with h3 | ⟨w, t, h3, h4, h5⟩
    · exact .inl h3
    · refine .inr (.inr ⟨a, w, t, rfl, h3, h3, h4, fun j hj => ?_⟩)
      obtain ⟨k, hk, e⟩ := h5 j hj
      rw [e]
      exact h2 k hk

/-- Both fail in the same way, or there's one of each. -/
def Both {α β : Type} (R : α → β → Prop) (x : Except Fault α) (y : Except Fault β) : Prop :=
  (x = .error .check ∧ y = .error .check) ∨ (x = .error .abort ∧ y = .error .abort) ∨ ∃ a b, x = .ok a ∧ y = .ok b ∧ R a b

mutual
theorem linked_exp {as : List Arr} (hA : Held A as) (B : Int → Prop) : (e : FExp V) → FExp.Safe as e → HeldAt B as (targets e) →
    Both (Twin L (GoodLv B)) (Ra.FExp.iter (m := m) as e) (Ra.FExp.iter (m := n) as e)
  | .const x, _, _ => .inr (.inr ⟨.scalar (pure (.val x)), .scalar (pure (.val x)), by simp only [Ra.FExp.iter], by simp only [Ra.FExp.iter], twin_scalar L (L.pure trivial)⟩)
  | .index w f, _, _ => .inr (.inr ⟨reframe [w] (.cell [⟨UNB, 1⟩] 0 fun i => pure (.val (f i))), reframe [w] (.cell [⟨UNB, 1⟩] 0 fun i => pure (.val (f i))), by simp only [Ra.FExp.iter], by simp only [Ra.FExp.iter],
      twin_reframe L (twin_cell L (fun d hd => .inr (by simp only [List.mem_singleton] at hd; rw [hd])) fun _ _ _ _ => L.pure trivial) [w] (by simp) rfl⟩)
  | .iota k o s f, _, _ => .inr (.inr ⟨.cell [⟨k, s⟩] o fun i => pure (.val (f i)), .cell [⟨k, s⟩] o fun i => pure (.val (f i)), by simp only [Ra.FExp.iter], by simp only [Ra.FExp.iter],
      twin_cell L (fun d hd => .inl (by simp only [List.mem_singleton] at hd; rw [hd]; exact Int.natCast_nonneg _)) fun _ _ _ _ => L.pure trivial⟩)
  | .gather x i ops mk t, ⟨hne, ht, hc, hv⟩, hB => by
    simp only [Ra.FExp.iter]
    rcases heldAt_view hB ops fun a ha => (hv a ha).1 with h1 | h1 | ⟨a, w, s, h1, h2, h3, h4, h5⟩
    · exact .inl (by rw [h1]; exact ⟨rfl, rfl⟩)
    · exact .inr (.inl (by rw [h1]; exact ⟨rfl, rfl⟩))
    rcases linked_exps hA A t ht (held_held hA _) with ⟨g1, g1'⟩ | ⟨g1, g1'⟩ | ⟨ts, ts', g1, g1', g2, g3⟩
    · exact .inl (by rw [h3, g1, g1']; exact ⟨rfl, rfl⟩)
    · exact .inr (.inl (by rw [h3, g1, g1']; exact ⟨rfl, rfl⟩))
    rcases linked_gather L x h4 h5 mk g3 (by rw [hc, g2]) ((hv a h1).2 w h2) (fun e => hne (List.eq_nil_of_length_eq_zero (by rw [← g2, e]; rfl))) with ⟨k1, k1'⟩ | ⟨k1, k1'⟩ | ⟨e, e', k1, k1', k2⟩
    · exact .inl (by rw [h3, g1, g1']; simp only [bind, Except.bind]; rw [k1, k1']; exact ⟨rfl, rfl⟩)
    · exact .inr (.inl (by rw [h3, g1, g1']; simp only [bind, Except.bind]; rw [k1, k1']; exact ⟨rfl, rfl⟩))
    · exact .inr (.inr ⟨e, e', by rw [h3, g1]; simp only [bind, Except.bind]; rw [k1]; rfl, by rw [h3, g1']; simp only [bind, Except.bind]; rw [k1']; rfl, k2⟩)
  | .view i ops, hv, hB => by
    simp only [Ra.FExp.iter]
    rcases heldAt_view hB ops hv with h1 | h1 | ⟨a, w, s, h1, h2, h3, h4, h5⟩
    · exact .inl (by rw [h1]; exact ⟨rfl, rfl⟩)
    · exact .inr (.inl (by rw [h1]; exact ⟨rfl, rfl⟩))
    · have hsh : HasShape (.cell w.dims w.cp fun p => pure (.ref p) : Iter m (Lv V)) s := h4
      refine .inr (.inr ⟨.cell w.dims w.cp fun p => pure (.ref p), .cell w.dims w.cp fun p => pure (.ref p), by rw [h3]; rfl, by rw [h3]; rfl, twin_cell L hsh.wf fun s' hs' j hj => L.pure ?_⟩)
      have : s' = s := hasShape_unique (a := (.cell w.dims w.cp fun p => pure (.ref p) : Iter m (Lv V))) hs' hsh
      subst this
      exact h5 j hj
  | .map f cranks t, ⟨hne, ht⟩, _ => by
    simp only [Ra.FExp.iter]
    rcases linked_exps hA A t ht (held_held hA _) with ⟨g1, g1'⟩ | ⟨g1, g1'⟩ | ⟨ts, ts', g1, g1', g2, g3⟩
    · exact .inl (by rw [g1, g1']; exact ⟨rfl, rfl⟩)
    · exact .inr (.inl (by rw [g1, g1']; exact ⟨rfl, rfl⟩))
    rcases linked_mapVerb L (Q := GoodLv B) (f := valOpIn f) (g := valOpIn f) (cranks := cranks) (fun e => hne (List.eq_nil_of_length_eq_zero (by rw [← g2, e]; rfl))) g3 (fun l _ hx => by
        unfold valOpIn
        exact L.bind (linked_gets L l hx) fun vs _ => L.pure trivial) with ⟨k1, k1'⟩ | ⟨e, e', k1, k1', k2⟩
    · exact .inr (.inl (by rw [g1, g1']; simp only [bind, Except.bind]; rw [k1, k1']; exact ⟨rfl, rfl⟩))
    · exact .inr (.inr ⟨e, e', by rw [g1]; simp only [bind, Except.bind]; rw [k1]; rfl, by rw [g1']; simp only [bind, Except.bind]; rw [k1']; rfl, k2⟩)
  | .pick sel [], ⟨hne, _⟩, _ => absurd rfl hne
  | .pick sel (e :: t), ⟨_, he, ht⟩, hB => by
    simp only [Ra.FExp.iter, Ra.FExp.iters]
    rcases linked_exp hA A e he (held_held hA _) with ⟨g1, g1'⟩ | ⟨g1, g1'⟩ | ⟨p, p', g1, g1', g2⟩
    · exact .inl (by rw [g1, g1']; exact ⟨rfl, rfl⟩)
    · exact .inr (.inl (by rw [g1, g1']; exact ⟨rfl, rfl⟩))
    rcases linked_exps hA B t ht hB with ⟨k1, k1'⟩ | ⟨k1, k1'⟩ | ⟨ts, ts', k1, k1', k2, k3⟩
    · exact .inl (by rw [g1, g1', k1, k1']; exact ⟨rfl, rfl⟩)
    · exact .inr (.inl (by rw [g1, g1', k1, k1']; exact ⟨rfl, rfl⟩))
    refine .inr (.inr ⟨.node (pickIn sel) (p :: ts), .node (pickIn sel) (p' :: ts'), by rw [g1, k1]; rfl, by rw [g1', k1']; rfl,
      twin_node L (by simp) (.cons ⟨_, g2⟩ (twin_exists L k3)) fun ss hs j hj => ?_⟩)
    obtain ⟨s, ss', rfl, h3, h4⟩ := hs
    simp only [elems, pickIn]
    exact L.bind (g2.elem s h3 j (hj s (by simp))) fun l hl => L.bind (L.lift (loc_get hl)) fun x _ =>
      linked_pickStar L _ _ (linked_elems L k3 ss' h4 j fun x hx => hj x (by simp [hx])).2
  | .fold f x0 e, _, _ => .inr (.inl ⟨by simp only [Ra.FExp.iter], by simp only [Ra.FExp.iter]⟩)
theorem linked_exps {as : List Arr} (hA : Held A as) (B : Int → Prop) : (t : List (FExp V)) → FExp.Safes as t → HeldAt B as (targetsAll t) →
    Both (fun ts ts' => ts.length = t.length ∧ List.Forall₂ (Twin L (GoodLv B)) ts ts') (Ra.FExp.iters (m := m) as t) (Ra.FExp.iters (m := n) as t)
  | [], _, _ => .inr (.inr ⟨[], [], by simp only [Ra.FExp.iters], by simp only [Ra.FExp.iters], rfl, .nil⟩)
  | e :: t, ⟨h1, h2⟩, hB => by
    simp only [Ra.FExp.iters]
    rcases linked_exp hA B e h1 (fun i hi => hB i (by simp [targetsAll, hi])) with ⟨g1, g1'⟩ | ⟨g1, g1'⟩ | ⟨u, u', g1, g1', g2⟩
    · exact .inl (by rw [g1, g1']; exact ⟨rfl, rfl⟩)
    · exact .inr (.inl (by rw [g1, g1']; exact ⟨rfl, rfl⟩))
    rcases linked_exps hA B t h2 (fun i hi => hB i (by simp [targetsAll, hi])) with ⟨k1, k1'⟩ | ⟨k1, k1'⟩ | ⟨ts, ts', k1, k1', k2, k3⟩
    · exact .inl (by rw [g1, g1', k1, k1']; exact ⟨rfl, rfl⟩)
    · exact .inr (.inl (by rw [g1, g1', k1, k1']; exact ⟨rfl, rfl⟩))
    exact .inr (.inr ⟨u :: ts, u' :: ts', by rw [g1, k1]; rfl, by rw [g1', k1']; rfl, by simp [k2], .cons g2 k3⟩)
end

end
end
end Ra.Props
