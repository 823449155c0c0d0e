import Verif.Spec.Inside
import Verif.Props.Safe
import Verif.Props.At
import Verif.Props.Nested
/-!
# C98 for views: programs don't have undefined behaviour
-/

namespace Ra.Props
open Spec

/-! Views. -/

theorem covered_run (v : View) (s : List Length) (hv : Shaped v s) (op : ViewOp) (hc : Covered op v) (hk : ∀ k, op = .reverse k → 0 ≤ k ∧ k < v.dims.length) :
    op.run v = .error .check ∨ ∃ w t, op.run v = .ok w ∧ Shaped w t ∧ Inside v s w t := by
  have hl := hv.length_eq
  have key : (op.run v = .error .check ∨ ∃ w, op.run v = .ok w) → op.run v = .error .check ∨ ∃ w t, op.run v = .ok w ∧ Shaped w t ∧ Inside v s w t := by
    rintro (h | ⟨w, hw⟩)
    · exact .inl h
    · obtain ⟨t, h1, h2⟩ := C72_partial v s hv [op] w (by simp [runOps, hw, bind, Except.bind, pure, Except.pure]) ⟨hc, fun _ _ => trivial⟩
      exact .inr ⟨w, t, hw, h1, h2⟩
  apply key
  cases op with
  | slice is =>
    obtain ⟨js, rfl, hax⟩ := hc
    simp only [ViewOp.run]
    by_cases ha : Accepts v.dims js
    · obtain ⟨b, hb, _⟩ := C13_slice v s hv js (by omega) ha
      exact .inr ⟨b, hb⟩
    · exact .inl (C11_reject v s hv js (by omega) ha)
  | reverse k =>
    obtain ⟨h1, h2⟩ := hk k rfl
    obtain ⟨k, rfl⟩ : ∃ n : Nat, k = n := ⟨k.toNat, by omega⟩
    simp only [ViewOp.run]
    have hks : k < s.length := by omega
    cases hs : s[k] with
    | none => exact .inl (C19_unbounded v s hv k (by simp [hks, hs]))
    | some n =>
      obtain ⟨r, hr, _⟩ := C19_reverse v s hv k n (by simp [hks, hs])
      exact .inr ⟨r, hr⟩
  | transpose ax =>
    obtain ⟨ax, rfl⟩ := toNats ax hc.1
    simp only [ViewOp.run]
    by_cases hax : ax.length = v.dims.length
    · obtain ⟨n, r, _, h1, _⟩ := transpose_eq v ax hax
      exact .inr ⟨_, h1⟩
    · exact .inl (C20_reject v ax hax)
  | stencil lo hi =>
    simp only [ViewOp.run]
    by_cases hr : v.stencil lo hi = .error .check
    · exact .inl hr
    right
    have hr := mt (C24_reject v lo hi) hr
    push Not at hr
    obtain ⟨h1, h2, h3, h4, h5⟩ := hr
    obtain ⟨lo, rfl⟩ := toNats lo h1
    obtain ⟨hi, rfl⟩ := toNats hi h2
    simp only [List.length_map] at h3 h4
    obtain ⟨s, rfl⟩ := shaped_finite hv (by
      intro d hd
      obtain ⟨k, hk, rfl⟩ := List.mem_iff_getElem.mp hd
      have := h5 k (by simp; omega) (by simp; omega) hk
      simp at this
      have := UNB_val
      omega)
    simp only [List.length_map] at hl
    obtain ⟨r, e, _⟩ := C24_stencil v s hv lo hi (by omega) (by omega) (by
      intro k hk
      have := h5 k (by simp; omega) (by simp; omega) (by omega)
      simp at this
      have hd : DimLen v.dims[k] ((s.map some)[k]'(by simpa using hk)) := hv.get (by omega) (by simpa using hk)
      simp only [List.getElem_map] at hd
      have hd : v.dims[k].len = (s[k] : Int) := hd
      omega)
    exact ⟨r, e⟩
  | reshape t =>
    simp only [ViewOp.run]
    obtain ⟨h0, hu, hlast, _⟩ := hc
    obtain ⟨t, rfl⟩ := toNats t h0
    obtain ⟨s, rfl⟩ := shaped_finite hv hu
    by_cases h1 : t <:+ s
    · obtain ⟨p, rfl⟩ := h1
      obtain ⟨r, e, _⟩ := C21_suffix v p t hv
      exact .inr ⟨r, e⟩
    by_cases h2 : s <:+ t
    · obtain ⟨p, rfl⟩ := h2
      obtain ⟨r, e, _⟩ := C21_tile v s p hv
      exact .inr ⟨r, e⟩
    by_cases h3 : v.reshape (t.map Nat.cast) = .error .check
    · exact .inl h3
    have hr := mt (C21_reject v s t hv h1 h2) h3
    push Not at hr
    obtain ⟨hsz, hr⟩ := hr
    obtain ⟨c, hcE⟩ := hr (innerMoves_last hlast)
    obtain ⟨r, e, _⟩ := C21_partial v s t hv (evenly_last (shaped_nat.mp hv) hlast hcE) (by omega)
    exact .inr ⟨r, e⟩
  | ravel =>
    simp only [ViewOp.run]
    obtain ⟨s, rfl⟩ := shaped_finite hv hc.1
    rcases C22_partial v s hv hc.2 with ⟨h1, _⟩ | ⟨r, h1, _⟩
    · exact .inl h1
    · exact .inr ⟨r, h1⟩
theorem op_safe (v : View) (s : List Length) (hv : Shaped v s) (op : ViewOp) (h : OpSafe s v op) :
    op.run v = .error .check ∨ ∃ w t, op.run v = .ok w ∧ Shaped w t ∧ Inside v s w t := by
  rcases h with h | ⟨t, h⟩ | ⟨hw, t, h⟩ | ⟨h1, h2⟩
  · exact .inl (op_fails v s hv op h)
  · obtain ⟨w, h1, h2, _, h3⟩ := op_ok v s t hv false nofun op h
    exact .inr ⟨w, t, h1, h2, fun j hj => ⟨_, (h3 j hj).2, (h3 j hj).1⟩⟩
  · obtain ⟨w, h1, h2, _, h3⟩ := op_ok v s t hv true (fun _ => hw) op h
    exact .inr ⟨w, t, h1, h2, fun j hj => ⟨_, (h3 j hj).2, (h3 j hj).1⟩⟩
  · exact covered_run v s hv op h1 h2

/-- C98. Operations on views, of the kinds in `OpSafe`, either fail the check or give a view whose elements are all elements of the view. -/
theorem C98_ops (ops : List ViewOp) (v : View) (s : List Length) (hv : Shaped v s) (h : OpsSafe ops v) :
    runOps ops v = .error .check ∨ ∃ w t, runOps ops v = .ok w ∧ Shaped w t ∧ Inside v s w t := by
  induction ops generalizing v s with
  | nil => exact .inr ⟨v, s, rfl, hv, fun j hj => ⟨j, hj, rfl⟩⟩
  | cons op ops ih =>
    simp only [runOps, List.foldlM_cons, bind, Except.bind]
    rcases op_safe v s hv op (h.1 s hv) with h1 | ⟨w, t, h1, h2, h3⟩
    · exact .inl (by rw [h1])
    · rw [h1]
      rcases ih w t h2 (h.2 w h1) with h4 | ⟨u, r, h4, h5, h6⟩
      · exact .inl h4
      · exact .inr ⟨u, r, h4, h5, inside_trans h3 h6⟩

/-! Actions that use only some of the memory. -/

section
variable {V : Type}

/-- The action is defined if there's a value at each of the addresses `A`; then it writes only at those, and either gives a result with `P`, or there's a failure that isn't undefined behaviour. -/
def Tame {α : Type} (A : Int → Prop) (P : α → Prop) (x : Act V α) : Prop :=
  ∀ μ, (∀ p, A p → (μ p).isSome) → (∀ p, ¬ A p → (x μ).2 p = μ p) ∧ (∀ p, A p → ((x μ).2 p).isSome) ∧ ((x μ).1 = .error .check ∨ (x μ).1 = .error .abort ∨ ∃ a, (x μ).1 = .ok a ∧ P a)

theorem tame_pure {α : Type} {A : Int → Prop} {P : α → Prop} {a : α} (h : P a) : Tame A P (pure a : Act V α) := fun _ hμ => ⟨fun _ _ => rfl, hμ, .inr (.inr ⟨a, rfl, h⟩)⟩

theorem tame_fault {α : Type} {A : Int → Prop} {P : α → Prop} {f : Fault} (h : f = .check ∨ f = .abort) : Tame A P (fault f : Act V α) := fun _ hμ =>
  ⟨fun _ _ => rfl, hμ, by rcases h with rfl | rfl; exact .inl rfl; exact .inr (.inl rfl)⟩

theorem tame_bind {α β : Type} {A : Int → Prop} {P : α → Prop} {Q : β → Prop} {x : Act V α} {f : α → Act V β} (hx : Tame A P x) (hf : ∀ a, P a → Tame A Q (f a)) : Tame A Q (x >>= f) := by
  intro μ hμ
  obtain ⟨h1, h2, h3⟩ := hx μ hμ
  show (∀ p, ¬ A p → (Act.andThen x f μ).2 p = μ p) ∧ (∀ p, A p → ((Act.andThen x f μ).2 p).isSome) ∧ ((Act.andThen x f μ).1 = _ ∨ (Act.andThen x f μ).1 = _ ∨ ∃ a, (Act.andThen x f μ).1 = _ ∧ _)
  unfold Act.andThen
  split
  · next a μ' h =>
    rw [h] at h1 h2 h3
    rcases h3 with h3 | h3 | ⟨a', h3, h4⟩
    · cases h3
    · cases h3
    · cases h3
      obtain ⟨g1, g2, g3⟩ := hf a h4 μ' h2
      exact ⟨fun p hp => (g1 p hp).trans (h1 p hp), g2, g3⟩
  · next e μ' h =>
    rw [h] at h1 h2 h3
    refine ⟨h1, h2, ?_⟩
    rcases h3 with h3 | h3 | ⟨a', h3, h4⟩
    · exact .inl (by cases h3; rfl)
    · exact .inr (.inl (by cases h3; rfl))
    · cases h3

theorem tame_weaken {α : Type} {A : Int → Prop} {P Q : α → Prop} {x : Act V α} (hx : Tame A P x) (h : ∀ a, P a → Q a) : Tame A Q x := fun μ hμ =>
  ⟨(hx μ hμ).1, (hx μ hμ).2.1, by rcases (hx μ hμ).2.2 with h1 | h1 | ⟨a, h1, h2⟩; exact .inl h1; exact .inr (.inl h1); exact .inr (.inr ⟨a, h1, h a h2⟩)⟩

theorem tame_read {A : Int → Prop} {p : Int} (h : A p) : Tame A (fun _ => True) (Act.read p : Act V V) := by
  intro μ hμ
  obtain ⟨v, hv⟩ := Option.isSome_iff_exists.mp (hμ p h)
  simp only [Act.read, hv]
  exact ⟨fun _ _ => trivial, hμ, .inr (.inr ⟨v, rfl, trivial⟩)⟩

theorem tame_write {A : Int → Prop} {p : Int} (h : A p) (v : V) : Tame A (fun _ => True) (Act.write p v) := by
  intro μ hμ
  obtain ⟨w, hw⟩ := Option.isSome_iff_exists.mp (hμ p h)
  simp only [Act.write, hw]
  refine ⟨fun q hq => ?_, fun q hq => ?_, .inr (.inr ⟨(), trivial, trivial⟩)⟩
  · simp only [Mem.upd]
    rw [if_neg]
    rintro rfl
    exact hq h
  · simp only [Mem.upd]
    split
    · rfl
    · exact hμ q hq

/-- A value, or a reference to one of those addresses. -/
def GoodLv (A : Int → Prop) : Lv V → Prop
  | .val _ => True
  | .ref p => A p
  | .view _ => False

theorem tame_get {A : Int → Prop} {x : Lv V} (h : GoodLv A x) : Tame A (fun _ => True) x.get := by
  cases x with
  | val v => exact tame_pure trivial
  | ref p => exact tame_read h
  | view v => cases h

theorem tame_mapM {α β : Type} {A : Int → Prop} {P : β → Prop} (f : α → Act V β) (xs : List α) (h : ∀ x ∈ xs, Tame A P (f x)) : Tame A (fun ys => ys.length = xs.length ∧ ∀ y ∈ ys, P y) (xs.mapM f) := by
  induction xs with
  | nil => exact tame_pure (by simp)
  | cons x xs ih =>
    rw [List.mapM_cons]
    exact tame_bind (h x (by simp)) fun y hy => tame_bind (ih fun z hz => h z (by simp [hz])) fun ys hys => tame_pure (by simp [hy, hys.1]; exact hys.2)

theorem tame_gets {A : Int → Prop} (xs : List (Lv V)) (h : ∀ x ∈ xs, GoodLv A x) : Tame A (fun ys => ys.length = xs.length) (xs.mapM Lv.get : Act V (List V)) :=
  tame_weaken (tame_mapM Lv.get xs fun x hx => tame_get (h x hx)) fun _ h => h.1

theorem tame_set {A : Int → Prop} (xs : List (Lv V)) (h : ∀ x ∈ xs, GoodLv A x) : Tame A (fun _ => True) (setOp xs) := by
  unfold setOp
  split
  · next p x =>
    exact tame_bind (tame_get (h x (by simp))) fun v _ => tame_bind (tame_write (h (.ref p) (by simp)) v) fun _ _ => tame_pure trivial
  · exact tame_fault (.inr rfl)

theorem tame_upd {A : Int → Prop} (f : V → V → V) (xs : List (Lv V)) (h : ∀ x ∈ xs, GoodLv A x) : Tame A (fun _ => True) (updOp f xs) := by
  unfold updOp
  split
  · next p x =>
    exact tame_bind (tame_get (h x (by simp))) fun v _ => tame_bind (tame_read (h (.ref p) (by simp))) fun y _ =>
      tame_bind (tame_write (h (.ref p) (by simp)) _) fun _ _ => tame_pure trivial
  · exact tame_fault (.inr rfl)

/-! The same for traversals that have other effects. -/

/-- The same for the actions of `m`. -/
structure Tamed (V : Type) (A : Int → Prop) (m : Type → Type) [Monad m] [MonadFault m] [MonadLiftT (Act V) m] where
  T : {α : Type} → (α → Prop) → m α → Prop
  pure : ∀ {α : Type} {P : α → Prop} {a : α}, P a → T P (Pure.pure a)
  bind : ∀ {α β : Type} {P : α → Prop} {Q : β → Prop} {x : m α} {f : α → m β}, T P x → (∀ a, P a → T Q (f a)) → T Q (x >>= f)
  fault : ∀ {α : Type} {P : α → Prop} {f : Fault}, f = .check ∨ f = .abort → T P (Ra.fault f)
  lift : ∀ {α : Type} {P : α → Prop} {x : Act V α}, Tame A P x → T P (liftM x)

def tamedAct (A : Int → Prop) : Tamed V A (Act V) := ⟨Tame A, tame_pure, tame_bind, tame_fault, fun h => h⟩

def tamedState (A : Int → Prop) : Tamed V A (StateT V (Act V)) where
  T {α} P x := ∀ c, Tame A (fun r : α × V => P r.1) (x.run c)
  pure h := fun c => tame_pure h
  bind hx hf := fun c => tame_bind (hx c) fun r hr => hf r.1 hr r.2
  fault h := fun c => tame_fault h
  lift h := fun c => tame_bind h fun a ha => tame_pure ha

section
variable {m : Type → Type} [Monad m] [LawfulMonad m] [MonadFault m] [MonadLiftT (Act V) m] {A : Int → Prop} (L : Tamed V A m)

theorem tamed_weaken {α : Type} {P Q : α → Prop} {x : m α} (hx : L.T P x) (h : ∀ a, P a → Q a) : L.T Q x := by
  have := L.bind hx (fun a ha => L.pure (h a ha))
  rwa [bind_pure] at this

theorem tamed_mapM {α β : Type} {P : β → Prop} (f : α → m β) (xs : List α) (h : ∀ x ∈ xs, L.T P (f x)) : L.T (fun ys => ys.length = xs.length ∧ ∀ y ∈ ys, P y) (xs.mapM f) := by
  induction xs with
  | nil => exact L.pure (by simp)
  | cons x xs ih =>
    rw [List.mapM_cons]
    exact L.bind (h x (by simp)) fun y hy => L.bind (ih fun z hz => h z (by simp [hz])) fun ys hys => L.pure (by simp [hy, hys.1]; exact hys.2)

theorem tamed_gets (xs : List (Lv V)) (h : ∀ x ∈ xs, GoodLv A x) : L.T (fun ys => ys.length = xs.length) (getAll xs) :=
  tamed_weaken L (tamed_mapM L (P := fun _ => True) _ xs fun x hx => L.lift (tame_get (h x hx))) fun _ h => h.1

theorem tamed_mapOp {P Q : Lv V → Prop} {op : List (Lv V) → m (Lv V)} (n : Nat) (h : ∀ l, l.length = n → (∀ x ∈ l, P x) → L.T Q (op l)) (xs : List (m (Lv V))) (hl : xs.length = n) (hx : ∀ x ∈ xs, L.T P x) : L.T Q (mapOp op xs) :=
  L.bind (tamed_mapM L _ _ hx) fun l h1 => h l (by rw [h1.1, hl]) h1.2

mutual
/-- The elements are tame, where the indices are in range. -/
def Meek {α : Type} (P : α → Prop) : Iter m α → Prop
  | .scalar c => L.T P c
  | .cell dims cp rd => ∀ s, List.Forall₂ DimLen dims s → ∀ j, InRange s j → L.T P (rd (cp + dot (dims.map Dim.step) j))
  | .reframe _ a => Meek P a
  | .node op t => (∀ xs, xs.length = t.length → (∀ x ∈ xs, L.T P x) → L.T P (op xs)) ∧ MeekAll P t
def MeekAll {α : Type} (P : α → Prop) : List (Iter m α) → Prop
  | [] => True
  | a :: t => Meek P a ∧ MeekAll P t
end

theorem meekAll_iff {α : Type} {P : α → Prop} (t : List (Iter m α)) : MeekAll L P t ↔ ∀ a ∈ t, Meek L P a := by
  induction t with
  | nil => simp [MeekAll]
  | cons a t ih => simp [MeekAll, ih]

mutual
theorem meek_elem {α : Type} {P : α → Prop} : (a : Iter m α) → Meek L P a → (s : List Length) → HasShape a s → (j : List Int) → InRange s j → L.T P (elem a j)
  | .scalar c, h, s, _, j, _ => by simpa only [elem, Meek] using h
  | .cell dims cp rd, h, s, hs, j, hj => by
    simp only [elem]
    exact h s hs j hj
  | .reframe dest a, h, s, ⟨_, s0, hs, hr⟩, j, hj => by
    simp only [elem]
    exact meek_elem a h s0 hs _ ((inRange_reframed hr j hj.1).mp hj)
  | .node op t, ⟨h1, h2⟩, s, ⟨ss, hs, hm⟩, j, hj => by
    simp only [elem]
    obtain ⟨g1, g2⟩ := meek_elems t h2 ss hs j fun x hx => (inRange_merge hm j).mp hj x hx
    exact h1 _ g1 g2
theorem meek_elems {α : Type} {P : α → Prop} : (t : List (Iter m α)) → MeekAll L P t → (ss : List (List Length)) → HasShapes t ss → (j : List Int) → (∀ x ∈ ss, InRange x j) →
    (elems t j).length = t.length ∧ ∀ x ∈ elems t j, L.T P x
  | [], _, _, _, _, _ => by simp [elems]
  | a :: t, ⟨h1, h2⟩, ss, hs, j, hj => by
    obtain ⟨s, ss', rfl, h3, h4⟩ := hs
    obtain ⟨g1, g2⟩ := meek_elems t h2 ss' h4 j fun x hx => hj x (by simp [hx])
    simp only [elems, List.length_cons, g1, List.mem_cons, true_and]
    rintro x (rfl | hx)
    · exact meek_elem a h1 s h3 j (hj s (by simp))
    · exact g2 x hx
end

theorem meek_forAll {α ι : Type} {P : α → Prop} (f : ι → m α) (l : List ι) (h : ∀ i ∈ l, L.T P (f i)) : L.T (fun _ => True) (forAll f l) := by
  induction l with
  | nil => exact L.pure trivial
  | cons i l ih =>
    simp only [forAll]
    exact L.bind (h i (by simp)) fun _ _ => ih fun k hk => h k (by simp [hk])

theorem meek_ply {α β : Type} {P Q : α → Prop} (dyn : Bool) (z : List Int) (hz : ∀ i ∈ z, i = 0) (op : List (m α) → m α) (t : List (Iter m α)) (hne : t ≠ []) (hw : ∀ a ∈ t, a.WF) (h : ∀ a ∈ t, Meek L P a)
    (hop : ∀ xs, xs.length = t.length → (∀ x ∈ xs, L.T P x) → L.T Q (op xs)) : L.T (fun _ => True) (ply (β := β) dyn never z (.node op t)) := by
  rcases C03_tree (β := β) never (.node op t) ⟨hne, (WFList_iff t).mpr hw⟩ z with ⟨s, hs⟩ | ⟨h1, h2, _⟩
  · rw [ply_never dyn _ s hs z hz]
    refine L.bind (meek_forAll L (P := Q) _ _ fun j hj => ?_) fun _ _ => L.pure trivial
    obtain ⟨ss, h1, h2⟩ := hs
    have hj := (inRange_merge h2 j).mp (inRange_of_valid (mem_rowMajor.mp hj))
    obtain ⟨g1, g2⟩ := meek_elems L t ((meekAll_iff L t).mpr h) ss h1 j hj
    simp only [elem]
    exact hop _ g1 g2
  · cases dyn
    · simp only [ply, Bool.false_eq_true, if_false, h2]
      exact L.bind (P := fun _ => True) (L.fault (.inl rfl)) fun _ _ => L.pure trivial
    · simp only [ply, if_true, h1]
      exact L.bind (P := fun _ => True) (L.fault (.inl rfl)) fun _ _ => L.pure trivial

end

/-! Rank conjunctions. -/

theorem framematch_dest (cs : List (List Nat)) (args : List (Nat × List Nat)) (skip : Nat) (dest : List (List Nat)) (h : framematch cs args skip = some dest)
    (ha : ∀ a ∈ args, a.2.Nodup ∧ ∀ x ∈ a.2, x < skip) : List.Forall₂ (fun (a : Nat × List Nat) (d : List Nat) => d.Nodup ∧ d.length = a.1) args dest := by
  have hnd : ∀ (skip : Nat) (l : List Nat) (n : Nat), (l.Nodup ∧ ∀ x ∈ l, x < skip) → (l ++ List.range' skip n).Nodup ∧ ∀ x ∈ l ++ List.range' skip n, x < skip + n := by
    intro skip l n ⟨h1, h2⟩
    refine ⟨List.Nodup.append h1 List.nodup_range' fun x hx hx' => ?_, fun x hx => ?_⟩
    · have := h2 x hx
      simp at hx'
      omega
    · rcases List.mem_append.mp hx with hx | hx
      · have := h2 x hx
        omega
      · simp at hx
        omega
  induction cs generalizing args skip with
  | nil =>
    simp only [framematch] at h
    split at h
    · next hl =>
      simp only [Option.some.injEq] at h
      subst h
      rw [List.forall₂_map_right_iff, List.forall₂_same]
      intro a h1
      refine ⟨(hnd _ a.2 _ (ha a h1)).1, ?_⟩
      have := List.all_eq_true.mp hl a h1
      simp at this
      simp
      omega
    · simp at h
  | cons c cs ih =>
    simp only [framematch] at h
    split at h
    · next hl =>
      have h3 := ih _ _ h (by
        intro a h1
        obtain ⟨i, hi, rfl⟩ := List.getElem_of_mem h1
        simp only [List.length_zipWith] at hi
        simp only [List.getElem_zipWith]
        obtain ⟨g1, g2⟩ := hnd skip args[i].2 (args[i].1 - args[i].2.length - c[i]) (ha _ (List.getElem_mem _))
        refine ⟨g1, fun x hx => Nat.lt_of_lt_of_le (g2 x hx) (Nat.add_le_add_left ?_ _)⟩
        have hm : ∀ (l : List Nat) (b x : Nat), x ∈ l ∨ x ≤ b → x ≤ l.foldl max b := by
          intro l
          induction l with
          | nil => intro b x h; simpa using h
          | cons y l ih =>
            intro b x h
            rw [List.foldl_cons]
            apply ih
            rcases h with h | h
            · rcases List.mem_cons.mp h with rfl | h
              · right; omega
              · exact .inl h
            · right; omega
        refine hm _ _ _ (.inl (List.mem_iff_getElem.mpr ⟨i, by simp; omega, by simp⟩)))
      rw [List.forall₂_iff_get] at h3 ⊢
      obtain ⟨h4, h5⟩ := h3
      simp only [List.length_zipWith] at h4
      refine ⟨by omega, fun i h6 h7 => ?_⟩
      have := h5 i (by simp; omega) h7
      simpa using this
    · simp at h

section
variable {m : Type → Type} [Monad m] [LawfulMonad m] [MonadFault m] [MonadLiftT (Act V) m] {A : Int → Prop} (L : Tamed V A m)

theorem mapVerb_meek {f : List (Lv V) → m (Lv V)} {cranks : List (List Nat)} {t : List (Iter m (Lv V))} {e : Iter m (Lv V)} (h : mapVerb f cranks t = some e) (hne : t ≠ []) (hw : ∀ a ∈ t, a.WF)
    (hm : ∀ a ∈ t, Meek L (GoodLv A) a) (hop : ∀ l, l.length = t.length → (∀ x ∈ l, GoodLv A x) → L.T (GoodLv A) (f l)) : e.WF ∧ Meek L (GoodLv A) e := by
  simp only [mapVerb, Option.bind_eq_bind, Option.bind_eq_some_iff, Option.pure_def, Option.some.injEq] at h
  obtain ⟨dest, h1, rfl⟩ := h
  have hd := List.forall₂_iff_get.mp (framematch_dest _ _ _ _ h1 (by
    intro a ha
    obtain ⟨x, _, rfl⟩ := List.mem_map.mp ha
    simp))
  obtain ⟨h2, h3⟩ := hd
  simp only [List.length_map] at h2
  have hpos := List.length_pos_of_ne_nil hne
  have hall : ∀ a ∈ List.zipWith reframe dest t, a.WF ∧ Meek L (GoodLv A) a := by
    intro a ha
    obtain ⟨i, hi, rfl⟩ := List.getElem_of_mem ha
    simp only [List.length_zipWith] at hi
    simp only [List.getElem_zipWith]
    have g1 : t[i].WF := hw _ (List.getElem_mem _)
    have g2 : Meek L (GoodLv A) t[i] := hm _ (List.getElem_mem _)
    have g3 := h3 i (by simp; omega) (by omega)
    simp only [List.get_eq_getElem, List.getElem_map] at g3
    unfold reframe
    split
    · exact ⟨g1, g2⟩
    · refine ⟨⟨g3.1, ?_, g1⟩, g2⟩
      have := Iter.rank_nonneg _ g1
      omega
  refine ⟨⟨fun h => ?_, (WFList_iff _).mpr fun a ha => (hall a ha).1⟩, fun xs hl hx => tamed_mapOp L t.length hop xs ?_ hx, (meekAll_iff L _).mpr fun a ha => (hall a ha).2⟩
  · have := congrArg List.length h
    simp only [List.length_zipWith, List.length_nil] at this
    omega
  · rw [hl]
    simp only [List.length_zipWith]
    omega

/-! Array subscripts. -/

theorem spacer_cases [IndexLike (Lv V)] (dims : List Dim) (p q : Nat) : spacer (m := m) (α := Lv V) dims p q = .error .check ∨ ∃ sp, spacer (m := m) (α := Lv V) dims p q = .ok sp ∧ sp.length = min q dims.length - p ∧
    ∀ a ∈ sp, ∃ n : Int, 0 ≤ n ∧ a = .cell [⟨n, 1⟩] 0 fun i => pure (ofIdx i) := by
  unfold spacer
  have hl : ((dims.take q).drop p).length = min q dims.length - p := by simp
  rw [← hl]
  generalize (dims.take q).drop p = l
  clear hl
  induction l with
  | nil => exact .inr ⟨[], rfl, rfl, by simp⟩
  | cons d l ih =>
    rw [List.mapM_cons]
    by_cases hd : d.len < 0
    · exact .inl (by rw [if_pos hd]; rfl)
    · rw [if_neg hd]
      rcases ih with h | ⟨sp, h1, h2, h3⟩
      · exact .inl (by rw [h]; rfl)
      · refine .inr ⟨_ :: sp, by rw [h1]; rfl, by simp [h2], ?_⟩
        intro a ha
        rcases List.mem_cons.mp ha with rfl | ha
        · exact ⟨d.len, by omega, rfl⟩
        · exact h3 a ha

theorem fromuArgs_cases [IndexLike (Lv V)] (dims : List Dim) (mk : List Bool) (ts : List (Iter m (Lv V))) (h : mk.count true = ts.length) (p bk : Nat) (hp : p ≤ bk) (hl : bk + mk.length ≤ dims.length) :
    fromuArgs dims p ((dsOf bk (maskSubs mk ts)).zip ts) = .error .check ∨ ∃ args, fromuArgs dims p ((dsOf bk (maskSubs mk ts)).zip ts) = .ok args ∧ args.length = dims.length - p ∧
      ∀ a ∈ args, a ∈ ts ∨ ∃ n : Int, 0 ≤ n ∧ a = .cell [⟨n, 1⟩] 0 fun i => pure (ofIdx i) := by
  induction mk generalizing ts p bk with
  | nil =>
    have : ts = [] := List.eq_nil_of_length_eq_zero (by simpa using h.symm)
    subst this
    simp only [maskSubs, dsOf, List.zip_nil_left, fromuArgs]
    rcases spacer_cases (m := m) (V := V) dims p dims.length with h | ⟨sp, h1, h2, h3⟩
    · exact .inl h
    · exact .inr ⟨sp, h1, by simpa using h2, fun a ha => .inr (h3 a ha)⟩
  | cons b mk ih =>
    simp only [List.length_cons] at hl
    cases b with
    | false =>
      simp only [maskSubs, dsOf]
      exact ih ts (by simpa using h) p (bk + 1) (by omega) (by omega)
    | true =>
      cases ts with
      | nil => simp at h
      | cons t ts =>
        simp only [maskSubs, dsOf, List.zip_cons_cons, fromuArgs]
        rcases spacer_cases (m := m) (V := V) dims p bk with h1 | ⟨sp, h1, h2, h3⟩
        · exact .inl (by rw [h1]; rfl)
        · rcases ih ts (by simpa using h) (bk + 1) (bk + 1) (Nat.le_refl _) (by omega) with h4 | ⟨args, h4, h5, h6⟩
          · exact .inl (by rw [h1, h4]; rfl)
          · refine .inr ⟨sp ++ t :: args, by rw [h1, h4]; rfl, by simp [h2, h5]; omega, fun a ha => ?_⟩
            rcases List.mem_append.mp ha with ha | ha
            · exact .inr (h3 a ha)
            · rcases List.mem_cons.mp ha with rfl | ha
              · exact .inl (by simp)
              · rcases h6 a ha with h6 | h6
                · exact .inl (by simp [h6])
                · exact .inr h6

theorem sliceShape_at (s : List Length) (i : List Int) (h : i.length = s.length) : sliceShape s (i.map .at) = [] := by
  induction i generalizing s with
  | nil => simp only [List.map_nil, sliceShape]; exact List.eq_nil_of_length_eq_zero h.symm
  | cons x i ih =>
    cases s with
    | nil => simp at h
    | cons a s => simp only [List.map_cons, sliceShape, List.drop_one, List.tail_cons]; exact ih s (by simpa using h)

theorem elemAt_tamed {b : View} {s : List Length} (hb : Shaped b s) (hA : ∀ j, InRange s j → A (address b j)) (i : List Int) (hi : i.length = b.dims.length) :
    L.T (GoodLv (V := V) A) (b.elemAt (fun p => pure (.ref p)) i) := by
  have hl := hb.length_eq
  have hax : ∀ i : List Int, axes (i.map .at) = i.length := by
    intro i
    induction i with
    | nil => rfl
    | cons x i ih => simp [axes, ih]; omega
  have hw : (i.map fun x => Sub.scalar (.const x)) = (i.map Subscript.at).map write := by simp [write]
  unfold View.elemAt
  rw [hw]
  by_cases ha : Accepts b.dims (i.map .at)
  · obtain ⟨c, h1, h2, h3⟩ := C13_slice b s hb (i.map .at) (by rw [hax]; omega) ha
    rw [h1]
    obtain ⟨h4, h5⟩ := h3 [] (by rw [sliceShape_at s i (by omega)]; exact ⟨by simp, by simp⟩)
    refine L.pure ?_
    show A c.cp
    have := hA _ h5
    rw [← h4] at this
    simpa [address, dot] using this
  · rw [C11_reject b s hb (i.map .at) (by rw [hax]; omega) ha]
    exact L.fault (.inl rfl)

/-- A view with array subscripts. -/
theorem gather_meek (n : IndexLike V) {w : View} {s : List Length} (hw : Shaped w s) (hA : ∀ j, InRange s j → A (address w j)) (mk : List Bool) (ts : List (Iter m (Lv V))) (h : mk.count true = ts.length)
    (hl : mk.length ≤ w.dims.length) (hne : ts ≠ []) (ht : ∀ a ∈ ts, a.WF ∧ Meek L (GoodLv A) a) :
    w.gather n mk ts = .error .check ∨ w.gather n mk ts = .ok none ∨ ∃ e, w.gather n mk ts = .ok (some e) ∧ e.WF ∧ Meek L (GoodLv A) e := by
  letI := lvIndex n
  unfold View.gather
  rw [fromb_mask mk ts h w.cp 0 w.dims hl]
  simp only [bind, Except.bind]
  rcases fromuArgs_cases w.dims mk ts h 0 0 (Nat.le_refl _) (by omega) with h1 | ⟨args, h1, h2, h3⟩
  · exact .inl (by rw [h1])
  rw [h1]
  simp only [pure, Except.pure]
  have hpos := List.length_pos_of_ne_nil hne
  have hmk := List.count_le_length (a := true) (l := mk)
  have hall : ∀ a ∈ args, a.WF ∧ Meek L (GoodLv A) a := by
    intro a ha
    rcases h3 a ha with h4 | ⟨k, h4, rfl⟩
    · exact ht a h4
    · refine ⟨fun d hd => .inl ?_, fun s hs j hj => L.pure trivial⟩
      simp only [List.mem_singleton] at hd
      rw [hd]
      exact h4
  cases hf : fromOp (gatherOp n ⟨w.dims, w.cp⟩) args with
  | none => exact .inr (.inl rfl)
  | some e =>
    refine .inr (.inr ⟨e, rfl, mapVerb_meek L hf ?_ (fun a ha => (hall a ha).1) (fun a ha => (hall a ha).2) fun l hl hx => ?_⟩)
    · rintro rfl
      simp at h2
      omega
    · unfold gatherOp
      refine L.bind (tamed_gets L l hx) fun vs hvs => elemAt_tamed L hw hA _ ?_
      simp only [List.length_map]
      omega

theorem pickStar_tamed {P : Lv V → Prop} (i k : Nat) (xs : List (m (Lv V))) (h : ∀ x ∈ xs, L.T P x) : L.T P (pickStar i k xs) := by
  induction xs generalizing i with
  | nil => exact L.fault (.inl rfl)
  | cons x xs ih =>
    simp only [pickStar]
    split
    · exact h x (by simp)
    · exact ih (i + 1) fun y hy => h y (by simp [hy])

/-- The elements of the arrays are at those addresses. -/
def Held (A : Int → Prop) (as : List Arr) : Prop := ∀ a ∈ as, ∃ s : List Nat, Shaped a.view (s.map some) ∧ ∀ j, InRange (s.map some) j → A (address a.view j)

theorem viewOf_safe {as : List Arr} (hA : Held A as) (i : Nat) (ops : List ViewOp) (h : ∀ a, as[i]? = some a → OpsSafe ops a.view) :
    viewOf as i ops = .error .check ∨ viewOf as i ops = .error .abort ∨ ∃ a w s, as[i]? = some a ∧ runOps ops a.view = .ok w ∧ viewOf as i ops = .ok w ∧ Shaped w s ∧ ∀ j, InRange s j → A (address w j) := by
  unfold viewOf
  cases ha : as[i]? with
  | none => exact .inr (.inl rfl)
  | some a =>
    obtain ⟨s, h1, h2⟩ := hA a (List.mem_of_getElem? ha)
    rcases C98_ops ops a.view _ h1 (h a ha) with h3 | ⟨w, t, h3, h4, h5⟩
    · exact .inl h3
    · refine .inr (.inr ⟨a, w, t, rfl, h3, h3, h4, fun j hj => ?_⟩)
      obtain ⟨k, hk, e⟩ := h5 j hj
      rw [e]
      exact h2 k hk

mutual
theorem fexp_meek {as : List Arr} (hA : Held A as) : (e : FExp V) → FExp.Safe as e →
    Ra.FExp.iter (m := m) as e = .error .check ∨ Ra.FExp.iter (m := m) as e = .error .abort ∨ ∃ t : Iter m (Lv V), Ra.FExp.iter as e = .ok t ∧ t.WF ∧ Meek L (GoodLv A) t
  | .const x, _ => .inr (.inr ⟨.scalar (pure (.val x)), by simp only [Ra.FExp.iter], by simp [Iter.WF], L.pure trivial⟩)
  | .index w f, _ => by
    have hs := index_shape (m := m) w fun i => pure (Lv.val (f i))
    refine .inr (.inr ⟨_, by simp only [Ra.FExp.iter], hs.wf, ?_⟩)
    unfold reframe
    split
    · exact fun s _ j _ => L.pure trivial
    · exact fun s _ j _ => L.pure trivial
  | .iota n o s f, _ => by
    have hs : HasShape (.cell [⟨n, s⟩] o fun i => pure (.val (f i)) : Iter m (Lv V)) [some n] := List.Forall₂.cons (by simp [DimLen]) .nil
    exact .inr (.inr ⟨_, by simp only [Ra.FExp.iter], hs.wf, fun s _ j _ => L.pure trivial⟩)
  | .gather n i ops mk t, ⟨hne, ht, hc, hv⟩ => by
    simp only [Ra.FExp.iter]
    rcases viewOf_safe hA i ops fun a ha => (hv a ha).1 with h1 | h1 | ⟨a, w, s, h1, h2, h3, h4, h5⟩
    · exact .inl (by rw [h1]; rfl)
    · exact .inr (.inl (by rw [h1]; rfl))
    rcases fexps_meek hA t ht with g1 | g1 | ⟨ts, g1, g2, g3⟩
    · exact .inl (by rw [h3, g1]; rfl)
    · exact .inr (.inl (by rw [h3, g1]; rfl))
    rcases gather_meek L n h4 h5 mk ts (by rw [hc, g2]) ((hv a h1).2 w h2) (fun e => hne (List.eq_nil_of_length_eq_zero (by rw [← g2, e]; rfl))) g3 with k1 | k1 | ⟨e, k1, k2, k3⟩
    · exact .inl (by rw [h3, g1]; simp only [bind, Except.bind]; rw [k1])
    · exact .inr (.inl (by rw [h3, g1]; simp only [bind, Except.bind]; rw [k1]))
    · exact .inr (.inr ⟨e, by rw [h3, g1]; simp only [bind, Except.bind]; rw [k1]; rfl, k2, k3⟩)
  | .view i ops, hv => by
    simp only [Ra.FExp.iter]
    rcases viewOf_safe hA i ops hv with h1 | h1 | ⟨a, w, s, h1, h2, h3, h4, h5⟩
    · exact .inl (by rw [h1]; rfl)
    · exact .inr (.inl (by rw [h1]; rfl))
    · have hsh : HasShape (.cell w.dims w.cp fun p => pure (.ref p) : Iter m (Lv V)) s := h4
      refine .inr (.inr ⟨.cell w.dims w.cp fun p => pure (.ref p), by rw [h3]; rfl, hsh.wf, fun s' hs' j hj => L.pure ?_⟩)
      have : s' = s := hasShape_unique (a := (.cell w.dims w.cp fun p => pure (.ref p) : Iter m (Lv V))) hs' hsh
      subst this
      exact h5 j hj
  | .map f cranks t, ⟨hne, ht⟩ => by
    simp only [Ra.FExp.iter]
    rcases fexps_meek hA t ht with g1 | g1 | ⟨ts, g1, g2, g3⟩
    · exact .inl (by rw [g1]; rfl)
    · exact .inr (.inl (by rw [g1]; rfl))
    cases hm : mapVerb (valOpIn f) cranks ts with
    | none => exact .inr (.inl (by rw [g1]; simp only [bind, Except.bind]; rw [hm]))
    | some e =>
      refine .inr (.inr ⟨e, by rw [g1]; simp only [bind, Except.bind]; rw [hm]; rfl, ?_⟩)
      refine mapVerb_meek L hm (fun e => hne (List.eq_nil_of_length_eq_zero (by rw [← g2, e]; rfl))) (fun a ha => (g3 a ha).1) (fun a ha => (g3 a ha).2) fun l _ hx => ?_
      unfold valOpIn
      exact L.bind (tamed_gets L l hx) fun vs _ => L.pure trivial
  | .pick sel t, ⟨hne, ht⟩ => by
    simp only [Ra.FExp.iter]
    rcases fexps_meek hA t ht with g1 | g1 | ⟨ts, g1, g2, g3⟩
    · exact .inl (by rw [g1]; rfl)
    · exact .inr (.inl (by rw [g1]; rfl))
    refine .inr (.inr ⟨.node (pickIn sel) ts, by rw [g1]; rfl, ⟨fun e => hne (List.eq_nil_of_length_eq_zero (by rw [← g2, e]; rfl)), (WFList_iff _).mpr fun a ha => (g3 a ha).1⟩, fun xs _ hx => ?_,
      (meekAll_iff L _).mpr fun a ha => (g3 a ha).2⟩)
    unfold pickIn
    split
    · exact L.fault (.inr rfl)
    · next p ps _ =>
      exact L.bind (hx p (by simp)) fun l hl => L.bind (L.lift (tame_get hl)) fun x _ => pickStar_tamed L _ _ _ fun y hy => hx y (by simp [hy])
  | .fold f x0 e, _ => .inr (.inl (by simp only [Ra.FExp.iter]))
theorem fexps_meek {as : List Arr} (hA : Held A as) : (t : List (FExp V)) → FExp.Safes as t →
    Ra.FExp.iters (m := m) as t = .error .check ∨ Ra.FExp.iters (m := m) as t = .error .abort ∨
      ∃ ts : List (Iter m (Lv V)), Ra.FExp.iters as t = .ok ts ∧ ts.length = t.length ∧ ∀ a ∈ ts, a.WF ∧ Meek L (GoodLv A) a
  | [], _ => .inr (.inr ⟨[], by simp only [Ra.FExp.iters], rfl, by simp⟩)
  | e :: t, ⟨h1, h2⟩ => by
    simp only [Ra.FExp.iters]
    rcases fexp_meek hA e h1 with g1 | g1 | ⟨u, g1, g2⟩
    · exact .inl (by rw [g1]; rfl)
    · exact .inr (.inl (by rw [g1]; rfl))
    rcases fexps_meek hA t h2 with k1 | k1 | ⟨ts, k1, k2, k3⟩
    · exact .inl (by rw [g1, k1]; rfl)
    · exact .inr (.inl (by rw [g1, k1]; rfl))
    refine .inr (.inr ⟨u :: ts, by rw [g1, k1]; rfl, by simp [k2], fun a ha => ?_⟩)
    rcases List.mem_cons.mp ha with rfl | ha
    · exact g2
    · exact k3 a ha
end

end

/-! Reductions, assignments. -/

theorem tame_lift {α : Type} {A : Int → Prop} {P : α → Prop} {x : Except Fault α} (h : x = .error .check ∨ x = .error .abort ∨ ∃ a, x = .ok a ∧ P a) : Tame A P (Act.lift x : Act V α) := by
  rcases h with rfl | rfl | ⟨a, rfl, h⟩
  · exact tame_fault (.inl rfl)
  · exact tame_fault (.inr rfl)
  · exact tame_pure h

theorem tame_fold {A : Int → Prop} (f : V → V → V) (c : V) (xs : List (Lv V)) (h : ∀ x ∈ xs, GoodLv A x) : Tame A (fun _ => True) (foldOp f c xs) := by
  unfold foldOp
  split
  · next x => exact tame_bind (tame_get (h x (by simp))) fun v _ => tame_pure trivial
  · exact tame_fault (.inr rfl)

mutual
theorem eager_tame {A : Int → Prop} {as : List Arr} (hA : Held A as) (dyn : Bool) (z : List Int) (hz : ∀ i ∈ z, i = 0) : (e : FExp V) → FExp.Safe as e → Tame A (fun e' => FExp.Safe as e') (Ra.FExp.eager dyn z as e)
  | .const x, _ => by simp only [Ra.FExp.eager]; exact tame_pure trivial
  | .index w f, _ => by simp only [Ra.FExp.eager]; exact tame_pure trivial
  | .iota n o s f, _ => by simp only [Ra.FExp.eager]; exact tame_pure trivial
  | .view i ops, h => by simp only [Ra.FExp.eager]; exact tame_pure h
  | .gather n i ops mk t, ⟨h1, h2, h3, h4⟩ => by
    simp only [Ra.FExp.eager]
    exact tame_bind (eagers_tame hA dyn z hz t h2) fun t' ht => tame_pure ⟨fun e => h1 (List.eq_nil_of_length_eq_zero (by rw [← ht.1, e]; rfl)), ht.2, by rw [ht.1]; exact h3, h4⟩
  | .map f cranks t, ⟨h1, h2⟩ => by
    simp only [Ra.FExp.eager]
    exact tame_bind (eagers_tame hA dyn z hz t h2) fun t' ht => tame_pure ⟨fun e => h1 (List.eq_nil_of_length_eq_zero (by rw [← ht.1, e]; rfl)), ht.2⟩
  | .pick sel t, ⟨h1, h2⟩ => by
    simp only [Ra.FExp.eager]
    exact tame_bind (eagers_tame hA dyn z hz t h2) fun t' ht => tame_pure ⟨fun e => h1 (List.eq_nil_of_length_eq_zero (by rw [← ht.1, e]; rfl)), ht.2⟩
  | .fold f x0 e, h => by
    simp only [Ra.FExp.eager]
    refine tame_bind (eager_tame hA dyn z hz e h) fun e' he => tame_bind (P := fun t => t.WF ∧ Meek (tamedState A) (GoodLv A) t) (tame_lift (fexp_meek (tamedState A) hA e' he)) fun t ht => ?_
    refine tame_bind (P := fun _ => True) ?_ fun x _ => tame_pure trivial
    unfold forEachRef
    refine tame_bind (P := fun _ => True) ?_ fun r _ => tame_pure trivial
    refine tame_weaken (meek_ply (tamedState A) (P := GoodLv A) (Q := fun _ => True) dyn z hz _ [t] (by simp) (by simpa using ht.1) (by simpa using ht.2) (fun xs hl hx => ?_) x0) fun _ _ => trivial
    refine tamed_mapOp (tamedState A) 1 (fun l hl hx => ?_) xs hl hx
    exact (tamedState A).bind (P := fun _ => True) (fun c => tame_pure trivial) fun c _ => (tamedState A).bind ((tamedState A).lift (tame_fold f c l hx)) fun c' _ =>
      (tamedState A).bind (P := fun _ => True) (fun c => tame_pure trivial) fun _ _ => (tamedState A).pure trivial
theorem eagers_tame {A : Int → Prop} {as : List Arr} (hA : Held A as) (dyn : Bool) (z : List Int) (hz : ∀ i ∈ z, i = 0) : (t : List (FExp V)) → FExp.Safes as t →
    Tame A (fun t' => t'.length = t.length ∧ FExp.Safes as t') (Ra.FExp.eagers dyn z as t)
  | [], _ => by simp only [Ra.FExp.eagers]; exact tame_pure ⟨rfl, trivial⟩
  | e :: t, ⟨h1, h2⟩ => by
    simp only [Ra.FExp.eagers]
    exact tame_bind (eager_tame hA dyn z hz e h1) fun e' he => tame_bind (eagers_tame hA dyn z hz t h2) fun t' ht => tame_pure ⟨by simp [ht.1], he, ht.2⟩
end

theorem traverse_tame {A : Int → Prop} (dyn : Bool) (z : List Int) (hz : ∀ i ∈ z, i = 0) {op : List (Lv V) → Act V (Lv V)} (hop : ∀ xs, (∀ x ∈ xs, GoodLv A x) → Tame A (fun _ => True) (op xs))
    {w t : Iter (Act V) (Lv V)} (hw : w.WF ∧ Meek (tamedAct A) (GoodLv A) w) (ht : t.WF ∧ Meek (tamedAct A) (GoodLv A) t) : Tame A (fun _ => True) (ply (β := Unit) dyn never z (.node (mapOp op) [w, t])) :=
  meek_ply (tamedAct A) (P := GoodLv A) (Q := fun _ => True) dyn z hz _ [w, t] (by simp) (by simp [hw.1, ht.1]) (by simp [hw.2, ht.2]) fun xs hl hx => tamed_mapOp (tamedAct A) 2 (fun l _ hx => hop l hx) xs hl hx

theorem fassign_tame {A : Int → Prop} {as : List Arr} (hA : Held A as) (dyn : Bool) (z : List Int) (hz : ∀ i ∈ z, i = 0) {op : List (Lv V) → Act V (Lv V)}
    (hop : ∀ xs, (∀ x ∈ xs, GoodLv A x) → Tame A (fun _ => True) (op xs)) (d e : FExp V) (hd : FExp.Safe as d) (he : FExp.Safe as e) : Tame A (fun _ => True) (fassign dyn z as op d e) := by
  unfold fassign
  exact tame_bind (eager_tame hA dyn z hz d hd) fun d' hd => tame_bind (eager_tame hA dyn z hz e he) fun e' he => tame_bind (P := fun t => t.WF ∧ Meek (tamedAct A) (GoodLv A) t) (tame_lift (fexp_meek (tamedAct A) hA d' hd))
    fun w hw => tame_bind (P := fun t => t.WF ∧ Meek (tamedAct A) (GoodLv A) t) (tame_lift (fexp_meek (tamedAct A) hA e' he)) fun t ht => tame_bind (traverse_tame dyn z hz hop hw ht) fun _ _ => tame_pure trivial

/-! Programs. -/

/-- The storage of the arrays. -/
def StorageOf (as : List Arr) (p : Int) : Prop := ∃ a ∈ as, Owns a p

theorem held_sound {L : Int → Prop} {as : List Arr} {μ : Mem V} (h : Sound L as μ) : Held (StorageOf as) as := by
  intro a ha
  obtain ⟨s, hc⟩ := h.cont a ha
  have hv := (C30_elements a μ s hc).1
  refine ⟨s, hv, fun j hj => ⟨a, ha, ?_⟩⟩
  have h1 := container_owns hc (inRange_valid hj)
  have h2 : address a.view j = address a.view (j.take s.length) := by
    have hl := hv.length_eq
    simp only [List.length_map] at hl
    simp only [address, dot]
    congr 2
    rw [← hl, ← List.length_map (f := Dim.step), List.zipWith_eq_zipWith_take_min]
    conv => rhs; rw [List.zipWith_eq_zipWith_take_min]
    simp only [List.take_take, List.length_take]
    congr 2 <;> omega
  rw [h2]
  exact h1

theorem held_mono {A B : Int → Prop} {as bs : List Arr} (h : Held A as) (hb : ∀ a ∈ bs, a ∈ as) (hA : ∀ p, A p → B p) : Held B bs := fun a ha =>
  (h a (hb a ha)).imp fun _ hs => ⟨hs.1, fun j hj => hA _ (hs.2 j hj)⟩

/-- The memory has the arrays, and it's as it was elsewhere. -/
def Usable (μ0 : Mem V) (as : List Arr) (μ : Mem V) : Prop := Sound (fun p => (μ0 p).isSome) as μ ∧ ∀ p, (μ0 p).isSome → μ p = μ0 p

theorem usable_tame {μ0 μ : Mem V} {as : List Arr} (h : Usable μ0 as μ) {α : Type} {P : α → Prop} {x : Act V α} (hx : Tame (StorageOf as) P x) :
    Usable μ0 as (x μ).2 ∧ ((x μ).1 = .error .check ∨ (x μ).1 = .error .abort ∨ ∃ a, (x μ).1 = .ok a ∧ P a) := by
  obtain ⟨h1, h2⟩ := h
  obtain ⟨g1, g2, g3⟩ := hx μ fun p ⟨a, ha, hp⟩ => (h1.used p).mpr (.inr ⟨a, ha, hp⟩)
  refine ⟨⟨⟨fun a ha => ?_, h1.disj, fun p => ?_, h1.rest⟩, fun p hp => ?_⟩, g3⟩
  · obtain ⟨s, hc⟩ := h1.cont a ha
    exact ⟨s, hc.lens, hc.steps, hc.count, fun i hi => g2 _ ⟨a, ha, by simp only [Owns]; omega⟩, hc.rank⟩
  · by_cases hp : StorageOf as p
    · exact ⟨fun _ => .inr hp, fun _ => g2 p hp⟩
    · rw [g1 p hp]
      exact h1.used p
  · rw [g1 p fun ⟨a, ha, ho⟩ => h1.rest p hp a ha ho]
    exact h2 p hp

/-- The values are whatever is in memory. -/
theorem usable_same {μ0 μ : Mem V} {as : List Arr} (h : Usable μ0 as μ) : ∃ vs, Same μ0 as vs μ := by
  obtain ⟨h1, h2⟩ := h
  have key : ∀ bs : List Arr, (∀ a ∈ bs, a ∈ as) → ∃ vs, List.Forall₂ (Rep μ) bs vs := by
    intro bs hb
    induction bs with
    | nil => exact ⟨[], .nil⟩
    | cons a bs ih =>
      obtain ⟨vs, hvs⟩ := ih fun b h => hb b (by simp [h])
      obtain ⟨s, hc⟩ := h1.cont a (hb a (by simp))
      have hx : ∃ xs : List V, xs.length = a.n ∧ ∀ k : Nat, k < a.n → μ (a.base + k) = xs[k]? := by
        have := hc.alloc
        generalize a.n = n at this
        induction n with
        | zero => exact ⟨[], rfl, by simp⟩
        | succ n ih =>
          obtain ⟨xs, k1, k2⟩ := ih fun i hi => this i (by omega)
          obtain ⟨x, hx⟩ := Option.isSome_iff_exists.mp (this n (by omega))
          refine ⟨xs ++ [x], by simp [k1], fun k hk => ?_⟩
          by_cases hkn : k < n
          · rw [List.getElem?_append_left (by omega)]
            exact k2 k hkn
          · rw [show k = n by omega, hx, List.getElem?_append_right (by omega), k1]
            simp
      obtain ⟨xs, k1, k2⟩ := hx
      exact ⟨⟨s, xs⟩ :: vs, .cons ⟨hc, by simpa [hc.count] using k1, k2⟩ hvs⟩
  obtain ⟨vs, hvs⟩ := key as fun _ h => h
  obtain ⟨k1, k2⟩ := List.forall₂_iff_get.mp hvs
  refine ⟨vs, h1, k1, fun i a v ha hv => ?_, h2⟩
  obtain ⟨hi, rfl⟩ := List.getElem?_eq_some_iff.mp ha
  obtain ⟨hi', rfl⟩ := List.getElem?_eq_some_iff.mp hv
  exact k2 i hi hi'

theorem same_usable {μ0 μ : Mem V} {as : List Arr} {vs : List (Value V)} (h : Same μ0 as vs μ) : Usable μ0 as μ := ⟨h.sound, h.rest⟩

/-- `Array(e)`. -/
theorem fmake_usable {μ0 μ : Mem V} {as : List Arr} (h : Usable μ0 as μ) (dyn : Bool) (z : List Int) (hz : ∀ i ∈ z, i = 0) (rk : Option Nat) (o : Option Int) (fill : Nat → V) (e : FExp V) (he : FExp.Safe as e)
    {r : Except Fault Arr} {μ' : Mem V} (hm : fmake dyn z as rk o fill e μ = (r, μ')) :
    (∃ a, r = .ok a ∧ Usable μ0 (as ++ [a]) μ') ∨ ((r = .error .check ∨ r = .error .alloc ∨ r = .error .abort) ∧ Usable μ0 as μ') := by
  have hH := held_sound h.1
  unfold fmake at hm
  rw [act_bind] at hm
  have h1 := usable_tame h (eager_tame hH dyn z hz e he)
  cases hx : Ra.FExp.eager dyn z as e μ with
  | mk r1 μ1 =>
  rw [hx] at hm h1
  obtain ⟨h1, h2⟩ := h1
  simp only at h1 h2 hm
  rcases h2 with rfl | rfl | ⟨e', rfl, he'⟩
  · simp only [Prod.mk.injEq] at hm
    obtain ⟨rfl, rfl⟩ := hm
    exact .inr ⟨.inl rfl, h1⟩
  · simp only [Prod.mk.injEq] at hm
    obtain ⟨rfl, rfl⟩ := hm
    exact .inr ⟨.inr (.inr rfl), h1⟩
  simp only at hm
  -- the iterator may use the storage of the new array too
  rcases fexp_meek (m := Act V) (tamedAct (StorageOf as)) hH e' he' with g1 | g1 | ⟨t, g1, g2, _⟩
  · rw [g1] at hm
    replace hm : ((.error .check : Except Fault Arr), μ1) = (r, μ') := hm
    simp only [Prod.mk.injEq] at hm
    obtain ⟨rfl, rfl⟩ := hm
    exact .inr ⟨.inl rfl, h1⟩
  · rw [g1] at hm
    replace hm : ((.error .abort : Except Fault Arr), μ1) = (r, μ') := hm
    simp only [Prod.mk.injEq] at hm
    obtain ⟨rfl, rfl⟩ := hm
    exact .inr ⟨.inr (.inr rfl), h1⟩
  rw [g1] at hm
  replace hm : concreteBig rk o fill dyn z t μ1 = (r, μ') := hm
  unfold concreteBig Arr.ofExpr Arr.andDo at hm
  cases hc : Arr.create rk o fill t.shape μ1 with
  | mk r2 μ2 =>
  rw [hc] at hm
  cases r2 with
  | error f =>
    obtain ⟨k1, rfl⟩ := create_kind hc
    replace hm : ((.error f : Except Fault Arr), μ2) = (r, μ') := hm
    simp only [Prod.mk.injEq] at hm
    obtain ⟨rfl, rfl⟩ := hm
    refine .inr ⟨?_, h1⟩
    rcases k1 with rfl | rfl
    · exact .inl rfl
    · exact .inr (.inl rfl)
  | ok a =>
    obtain ⟨s, _, k2, _, k4, _⟩ := create_ok hc
    have hu : Usable μ0 (as ++ [a]) μ2 := by
      refine ⟨add_sound h1.1 rfl k4 k2, fun p hp => ?_⟩
      have hne : ∀ q, ¬ Owns (⟨rk, [], 0, 0⟩ : Arr) q := by
        intro q hq
        simp only [Owns] at hq
        omega
      rw [k4.out p (hne p) fun ho => ?_]
      · exact h1.2 p hp
      · rcases k4.new p ho with h | h
        · exact hne p h
        · have := (h1.1.used p).mpr (.inl hp)
          rw [h] at this
          cases this
    have hH2 := held_sound hu.1
    have hH3 : Held (StorageOf (as ++ [a])) as := held_mono hH2 (fun b hb => by simp [hb]) fun _ h => h
    obtain ⟨t', j1, j2⟩ : ∃ t' : Iter (Act V) (Lv V), Ra.FExp.iter as e' = .ok t' ∧ t'.WF ∧ Meek (tamedAct (StorageOf (as ++ [a]))) (GoodLv (StorageOf (as ++ [a]))) t' := by
      rcases fexp_meek (m := Act V) (tamedAct (StorageOf (as ++ [a]))) hH3 e' he' with g | g | g
      · rw [g1] at g; cases g
      · rw [g1] at g; cases g
      · exact g
    rw [g1] at j1
    cases j1
    obtain ⟨s', v1, v2⟩ := hH2 a (by simp)
    have hv : HasShape (a.view.refs : Iter (Act V) (Lv V)) (s'.map some) := v1
    have hb : Tame (StorageOf (as ++ [a])) (fun _ => True) (assign dyn z a.view.refs t) := by
      unfold assign
      refine tame_bind (traverse_tame dyn z hz tame_set ⟨hv.wf, fun s'' hs j hj => tame_pure ?_⟩ j2) fun _ _ => tame_pure trivial
      have : s'' = s'.map some := hasShape_unique (a := (a.view.refs : Iter (Act V) (Lv V))) hs hv
      subst this
      exact v2 j hj
    have hb := usable_tame hu hb
    cases ha : assign dyn z a.view.refs t μ2 with
    | mk r3 μ3 =>
    rw [ha] at hb
    simp only [ha] at hm hb
    obtain ⟨b1, b2⟩ := hb
    have hgone : Usable μ0 as (μ3.move a a.base 0 fun _ => none) := by
      have hout : ∀ p, ¬ Owns a p → (μ3.move a a.base 0 fun _ => none) p = μ3 p := by
        intro p hp
        simp only [Owns] at hp
        simp only [Mem.move]
        rw [if_neg (by omega), if_neg hp]
      have hin : ∀ p, Owns a p → (μ3.move a a.base 0 fun _ => none) p = none := by
        intro p hp
        simp only [Owns] at hp
        simp only [Mem.move]
        rw [if_neg (by omega), if_pos hp]
      have hdis : ∀ b ∈ as, ∀ p, Owns b p → ¬ Owns a p := by
        intro b hb p hp
        obtain ⟨i, hi, rfl⟩ := List.getElem_of_mem hb
        exact b1.1.disj i as.length _ a (by omega) (by rw [List.getElem?_append_left hi]; simp [hi]) (by simp) p hp
      refine ⟨⟨fun b hb => ?_, h1.1.disj, fun p => ?_, h1.1.rest⟩, fun p hp => ?_⟩
      · obtain ⟨s, hc⟩ := b1.1.cont b (by simp [hb])
        exact ⟨s, hc.lens, hc.steps, hc.count, fun i hi => by rw [hout _ (hdis b hb _ (by simp only [Owns]; omega))]; exact hc.alloc i hi, hc.rank⟩
      · by_cases hp : Owns a p
        · rw [hin p hp]
          constructor
          · intro h; cases h
          · rintro (h | ⟨b, hb, h⟩)
            · exact absurd hp (b1.1.rest p h a (by simp))
            · exact absurd hp (hdis b hb p h)
        · rw [hout p hp, b1.1.used p]
          refine or_congr_right ⟨?_, ?_⟩
          · rintro ⟨b, hb, h⟩
            rcases List.mem_append.mp hb with hb | hb
            · exact ⟨b, hb, h⟩
            · simp only [List.mem_singleton] at hb
              subst hb
              exact absurd h hp
          · rintro ⟨b, hb, h⟩
            exact ⟨b, by simp [hb], h⟩
      · rw [hout p fun ho => b1.1.rest p hp a (by simp) ho]
        exact b1.2 p hp
    rcases b2 with rfl | rfl | ⟨u, rfl, _⟩
    · simp only [Prod.mk.injEq] at hm
      obtain ⟨rfl, rfl⟩ := hm
      exact .inr ⟨.inl rfl, hgone⟩
    · simp only [Prod.mk.injEq] at hm
      obtain ⟨rfl, rfl⟩ := hm
      exact .inr ⟨.inr (.inr rfl), hgone⟩
    · simp only [Prod.mk.injEq] at hm
      obtain ⟨rfl, rfl⟩ := hm
      exact .inl ⟨a, rfl, b1⟩

/-- One operation. -/
theorem fstep_usable {μ0 μ : Mem V} {as : List Arr} (h : Usable μ0 as μ) (dyn : Bool) (z : List Int) (hz : ∀ i ∈ z, i = 0) (c : FCmd V) (hr : ∀ p, c ≠ .cmd (.op (.run p))) (hg : FCmd.Safe as c)
    {r : Except Fault Unit} {as' : List Arr} {μ' : Mem V} (hs : c.step dyn z as μ = (r, as', μ')) :
    (r = .ok () ∧ Usable μ0 as' μ') ∨ ((r = .error .check ∨ r = .error .alloc ∨ r = .error .abort) ∧ (∀ p, (μ0 p).isSome → μ' p = μ0 p) ∧ (frestores c = false → as' = as ∧ Usable μ0 as' μ')) := by
  have hassign : ∀ (op : List (Lv V) → Act V (Lv V)) d e, (∀ xs, (∀ x ∈ xs, GoodLv (StorageOf as) x) → Tame (StorageOf as) (fun _ => True) (op xs)) → FExp.Safe as d → FExp.Safe as e →
      ((fassign dyn z as op d e μ).1, as, (fassign dyn z as op d e μ).2) = (r, as', μ') →
      (r = .ok () ∧ Usable μ0 as' μ') ∨ ((r = .error .check ∨ r = .error .alloc ∨ r = .error .abort) ∧ (∀ p, (μ0 p).isSome → μ' p = μ0 p) ∧ (frestores c = false → as' = as ∧ Usable μ0 as' μ')) := by
    intro op d e hop hd he hx
    simp only [Prod.mk.injEq] at hx
    obtain ⟨rfl, rfl, rfl⟩ := hx
    obtain ⟨g1, g2⟩ := usable_tame h (fassign_tame (held_sound h.1) dyn z hz hop d e hd he)
    rcases g2 with g2 | g2 | ⟨u, g2, _⟩
    · exact .inr ⟨.inl g2, g1.2, fun _ => ⟨rfl, g1⟩⟩
    · exact .inr ⟨.inr (.inr g2), g1.2, fun _ => ⟨rfl, g1⟩⟩
    · exact .inl ⟨g2, g1⟩
  cases c with
  | cmd c =>
    obtain ⟨vs, hv⟩ := usable_same h
    have hr' : ∀ p, c ≠ .op (.run p) := fun p hp => hr p (by rw [hp])
    simp only [FCmd.step] at hs
    cases r with
    | ok u =>
      obtain ⟨vs', _, h2⟩ := step_same dyn z hz c hr' hv hs
      exact .inl ⟨rfl, same_usable h2⟩
    | error f =>
      obtain ⟨k1, k2⟩ := cmd_kind dyn z hz c hr' hv hs
      refine .inr ⟨by rcases k1 with rfl | rfl | rfl <;> simp, by rw [k2]; exact h.2, fun hf => ?_⟩
      obtain ⟨k3, k4, _⟩ := step_caught dyn z hz c hr' hv hs hf
      exact ⟨k3, by rw [k3, k4]; exact h⟩
  | assign d e => exact hassign setOp d e tame_set hg.1 hg.2 hs
  | update f d e => exact hassign (updOp f) d e (tame_upd f) hg.1 hg.2 hs
  | make rk o fill e =>
    simp only [FCmd.step] at hs
    cases hm : fmake dyn z as rk o fill e μ with
    | mk r1 μ1 =>
    rw [hm] at hs
    rcases fmake_usable h dyn z hz rk o fill e hg hm with ⟨a, rfl, g⟩ | ⟨g1, g2⟩
    · simp only [Prod.mk.injEq] at hs
      obtain ⟨rfl, rfl, rfl⟩ := hs
      exact .inl ⟨rfl, g⟩
    · rcases g1 with rfl | rfl | rfl
      all_goals
        simp only [Prod.mk.injEq] at hs
        obtain ⟨rfl, rfl, rfl⟩ := hs
        exact .inr ⟨by simp, g2.2, fun _ => ⟨rfl, g2⟩⟩

theorem usable_start (μ0 : Mem V) : Usable μ0 [] μ0 := same_usable (same_start μ0)

theorem fprogram_usable {μ0 μ μ' : Mem V} {as as' : List Arr} (dyn : Bool) (z : List Int) (hz : ∀ i ∈ z, i = 0) (cs : List (FCmd V)) (hr : ∀ p, FCmd.cmd (.op (.run p)) ∉ cs) (h : Usable μ0 as μ)
    (hg : FSafes dyn z cs as μ) {r : Except Fault Unit} (hs : fprogram dyn z cs as μ = (r, as', μ')) :
    (r = .ok () ∧ Usable μ0 as' μ') ∨ ((r = .error .check ∨ r = .error .alloc ∨ r = .error .abort) ∧ ∀ p, (μ0 p).isSome → μ' p = μ0 p) := by
  induction cs generalizing as μ with
  | nil =>
    simp only [fprogram, Prod.mk.injEq] at hs
    obtain ⟨rfl, rfl, rfl⟩ := hs
    exact .inl ⟨rfl, h⟩
  | cons c cs ih =>
    simp only [fprogram] at hs
    split at hs
    · next as1 μ1 h1 =>
      rcases fstep_usable h dyn z hz c (fun p hp => hr p (by simp [hp])) hg.1 h1 with ⟨_, h2⟩ | ⟨h2, _⟩
      · exact ih (fun p hp => hr p (by simp [hp])) h2 (hg.2 _ _ h1) hs
      · simp at h2
    · next e as1 μ1 h1 =>
      simp only [Prod.mk.injEq] at hs
      obtain ⟨rfl, rfl, rfl⟩ := hs
      rcases fstep_usable h dyn z hz c (fun p hp => hr p (by simp [hp])) hg.1 h1 with ⟨h2, _⟩ | ⟨h2, h3, _⟩
      · cases h2
      · exact .inr ⟨h2, h3⟩

/-- C98 for more views. In a program where the operations on views are of the kinds in `OpSafe`, nothing is undefined: it either succeeds, and then the arrays are arrays of some shape with storage of their own,
or a check, an allocation or a conversion fails. In no case does anything change that was in memory before. What's missing is operations on views of other kinds, see `C98_negation`; and there's no claim about the values. -/
theorem C98_inside_partial (dyn : Bool) (z : List Int) (hz : ∀ i ∈ z, i = 0) (cs : List (FCmd V)) (hr : ∀ p, FCmd.cmd (.op (.run p)) ∉ cs) (as : List Arr) (μ0 μ : Mem V) (r : Except Fault Unit)
    (hs : fprogram dyn z cs [] μ0 = (r, as, μ)) (hg : FSafes dyn z cs [] μ0) :
    ((r = .ok () ∧ (∀ a ∈ as, ∃ s, Container a μ s) ∧ ∀ (i j : Nat) a b, i ≠ j → as[i]? = some a → as[j]? = some b → ∀ p, Owns a p → ¬ Owns b p) ∨
      r = .error .check ∨ r = .error .alloc ∨ r = .error .abort) ∧ ∀ p, (μ0 p).isSome → μ p = μ0 p := by
  rcases fprogram_usable dyn z hz cs hr (usable_start μ0) hg hs with ⟨h1, h2⟩ | ⟨h1, h2⟩
  · exact ⟨.inl ⟨h1, h2.1.cont, h2.1.disj⟩, h2.2⟩
  · exact ⟨.inr h1, h2⟩

theorem fcaught_usable {μ0 μ μ' : Mem V} {as as' : List Arr} (dyn : Bool) (z : List Int) (hz : ∀ i ∈ z, i = 0) (cs : List (FCmd V)) (hr : ∀ p, FCmd.cmd (.op (.run p)) ∉ cs) (hc : ∀ c ∈ cs, frestores c = false)
    (h : Usable μ0 as μ) (hg : FSafesAny dyn z cs as μ) {r : Except Fault (List Bool)} (hs : fcaught dyn z cs as μ = (r, as', μ')) :
    (∃ bs, r = .ok bs ∧ Usable μ0 as' μ') ∨ (r = .error .abort ∧ ∀ p, (μ0 p).isSome → μ' p = μ0 p) := by
  induction cs generalizing as μ r with
  | nil =>
    simp only [fcaught, Prod.mk.injEq] at hs
    obtain ⟨rfl, rfl, rfl⟩ := hs
    exact .inl ⟨[], rfl, h⟩
  | cons c cs ih =>
    have hr1 : ∀ p, c ≠ .cmd (.op (.run p)) := fun p hp => hr p (by simp [hp])
    have hgo : ∀ (b : Bool) as1 μ1, Usable μ0 as1 μ1 → FSafesAny dyn z cs as1 μ1 → ((fcaught dyn z cs as1 μ1).1.map (b :: ·), (fcaught dyn z cs as1 μ1).2) = (r, as', μ') →
        (∃ bs, r = .ok bs ∧ Usable μ0 as' μ') ∨ (r = .error .abort ∧ ∀ p, (μ0 p).isSome → μ' p = μ0 p) := by
      intro b as1 μ1 h2 h4 h3
      cases hx : fcaught dyn z cs as1 μ1 with
      | mk r1 q =>
        obtain ⟨as2, μ2⟩ := q
        rw [hx] at h3
        simp only [Prod.mk.injEq] at h3
        obtain ⟨rfl, rfl, rfl⟩ := h3
        rcases ih (fun p hp => hr p (by simp [hp])) (fun c' hc' => hc c' (by simp [hc'])) h2 h4 hx with ⟨bs, rfl, h6⟩ | ⟨rfl, h5⟩
        · exact .inl ⟨b :: bs, rfl, h6⟩
        · exact .inr ⟨rfl, h5⟩
    simp only [fcaught] at hs
    split at hs
    · next as1 μ1 h1 =>
      rcases fstep_usable h dyn z hz c hr1 hg.1 h1 with ⟨_, h5⟩ | ⟨h4, _⟩
      · exact hgo true as1 μ1 h5 (hg.2 _ _ _ h1) hs
      · simp at h4
    · next as1 μ1 h1 =>
      rcases fstep_usable h dyn z hz c hr1 hg.1 h1 with ⟨h4, _⟩ | ⟨_, _, h6⟩
      · cases h4
      · exact hgo false as1 μ1 (h6 (hc c (by simp))).2 (hg.2 _ _ _ h1) hs
    · next as1 μ1 h1 =>
      rcases fstep_usable h dyn z hz c hr1 hg.1 h1 with ⟨h4, _⟩ | ⟨_, _, h6⟩
      · cases h4
      · exact hgo false as1 μ1 (h6 (hc c (by simp))).2 (hg.2 _ _ _ h1) hs
    · next e as1 μ1 n1 n2 h1 =>
      simp only [Prod.mk.injEq] at hs
      obtain ⟨rfl, rfl, rfl⟩ := hs
      rcases fstep_usable h dyn z hz c hr1 hg.1 h1 with ⟨h4, _⟩ | ⟨h4, h5, _⟩
      · cases h4
      · simp only [Except.error.injEq] at h4
        rcases h4 with rfl | rfl | rfl
        · exact absurd rfl n1
        · exact absurd rfl n2
        · exact .inr ⟨rfl, h5⟩

/-- The same for programs that go on after a failure, as in `C98_caught_partial`. -/
theorem C98_inside_caught_partial (dyn : Bool) (z : List Int) (hz : ∀ i ∈ z, i = 0) (cs ds : List (FCmd V)) (hr : ∀ p, FCmd.cmd (.op (.run p)) ∉ cs ++ ds) (hc : ∀ c ∈ ds, frestores c = false) (as as' : List Arr)
    (μ0 μ μ' : Mem V) (r : Except Fault (List Bool)) (hs : fprogram dyn z cs [] μ0 = (.ok (), as, μ)) (hd : fcaught dyn z ds as μ = (r, as', μ')) (hg : FSafes dyn z cs [] μ0) (hk : FSafesAny dyn z ds as μ) :
    ((∃ bs, r = .ok bs ∧ (∀ a ∈ as', ∃ s, Container a μ' s) ∧ ∀ (i j : Nat) a b, i ≠ j → as'[i]? = some a → as'[j]? = some b → ∀ p, Owns a p → ¬ Owns b p) ∨ r = .error .abort) ∧
      ∀ p, (μ0 p).isSome → μ' p = μ0 p := by
  rcases fprogram_usable dyn z hz cs (fun p hp => hr p (by simp [hp])) (usable_start μ0) hg hs with ⟨_, h1⟩ | ⟨h1, _⟩
  · rcases fcaught_usable dyn z hz ds (fun p hp => hr p (by simp [hp])) hc h1 hk hd with ⟨bs, h4, h6⟩ | ⟨h4, h5⟩
    · exact ⟨.inl ⟨bs, h4, h6.1.cont, h6.1.disj⟩, h6.2⟩
    · exact ⟨.inr h4, h5⟩
  · simp at h1

end

/-- With `a` of shape (3, 4), `ravel_free(a(all, iota(2, 0, 2))) += a(0, 1)`, of every second element; `ravel_free(a(all, iota(3))) = 7`, that can't be done with one step and fails; and
`a(iota(1, 5)) = a(0, insert<1>)`, that fails because of the subscript. -/
def egSafe1 : List (FCmd Int) := [
  .update (· + ·) (.view 0 [.slice [.dots (some 1), .iota [(.const 2, .const 2)] (.const 0)], .ravel]) (.view 0 [.slice [.scalar (.const 0), .scalar (.const 1)]]),
  .assign (.view 0 [.slice [.dots (some 1), .iota [(.const 3, .const 1)] (.const 0)], .ravel]) (.const 7),
  .assign (.view 0 [.slice [.iota [(.const 1, .const 1)] (.const 5)]]) (.view 0 [.slice [.scalar (.const 0), .insert 1]])]

theorem egSafe_expr (as : List Arr) (h : as[0]? = some ⟨none, [⟨3, 4⟩, ⟨4, 1⟩], 0, 12⟩) (c : FCmd Int) (hc : c ∈ egSafe1) : FCmd.Safe as c := by
  have hsl : ∀ (js : List Subscript), axes js ≤ 2 → ∀ s, OpSafe s (Arr.view ⟨none, [⟨3, 4⟩, ⟨4, 1⟩], 0, 12⟩) (.slice (js.map write)) := fun js hj s =>
    .inr (.inr (.inr ⟨⟨js, rfl, hj⟩, fun k hk => by cases hk⟩))
  have hrav : ∀ w : View, (∀ d ∈ w.dims, d.len ≠ UNB ∧ d.step ≠ 0) → OpsSafe [.ravel] w := fun w hw => ⟨fun s _ => .inr (.inr (.inr ⟨⟨fun d hd => (hw d hd).1, fun p d q e _ _ => (hw d (by simp [e])).2⟩,
    fun k hk => by cases hk⟩)), fun _ _ => trivial⟩
  have hrun : ∀ {is : List Sub} {w : View}, (ViewOp.slice is).run (Arr.view ⟨none, [⟨3, 4⟩, ⟨4, 1⟩], 0, 12⟩) = .ok w → ∀ u, (ViewOp.slice is).run (Arr.view ⟨none, [⟨3, 4⟩, ⟨4, 1⟩], 0, 12⟩) = .ok u → w = u := by
    intro is w h1 u h2
    rw [h1] at h2
    cases h2
    rfl
  simp only [egSafe1, List.mem_cons, List.not_mem_nil, or_false] at hc
  have hget : ∀ {P : Arr → Prop}, P ⟨none, [⟨3, 4⟩, ⟨4, 1⟩], 0, 12⟩ → ∀ a, as[0]? = some a → P a := by
    intro P hp a ha
    rw [h] at ha
    cases ha
    exact hp
  rcases hc with rfl | rfl | rfl
  · refine ⟨hget ⟨fun s _ => hsl [.keep 1, .range 2 0 2] (by decide) s, fun w hw => ?_⟩, hget ⟨fun s _ => hsl [.at 0, .at 1] (by decide) s, fun _ _ => trivial⟩⟩
    rw [hrun hw ⟨[⟨3, 4⟩, ⟨2, 2⟩], 0⟩ (by decide +kernel)]
    exact hrav _ (by decide)
  · refine ⟨hget ⟨fun s _ => hsl [.keep 1, .range 3 0 1] (by decide) s, fun w hw => ?_⟩, trivial⟩
    rw [hrun hw ⟨[⟨3, 4⟩, ⟨3, 1⟩], 0⟩ (by decide +kernel)]
    exact hrav _ (by decide)
  · exact ⟨hget ⟨fun s _ => hsl [.range 1 5 1] (by decide) s, fun _ _ => trivial⟩, hget ⟨fun s _ => hsl [.at 0, .new 1] (by decide) s, fun _ _ => trivial⟩⟩

theorem egSafe_any (as : List Arr) (h : as[0]? = some ⟨none, [⟨3, 4⟩, ⟨4, 1⟩], 0, 12⟩) (cs : List (FCmd Int)) (hc : ∀ c ∈ cs, c ∈ egSafe1) (μ : Mem Int) : FSafesAny true [] cs as μ ∧ FSafes true [] cs as μ := by
  induction cs generalizing as μ with
  | nil => exact ⟨trivial, trivial⟩
  | cons c cs ih =>
    have hkeep : ∀ r as' μ', c.step true [] as μ = (r, as', μ') → as' = as := by
      intro r as' μ' hs
      have := hc c (by simp)
      simp only [egSafe1, List.mem_cons, List.not_mem_nil, or_false] at this
      rcases this with rfl | rfl | rfl
      all_goals
        simp only [FCmd.step, Prod.mk.injEq] at hs
        exact hs.2.1.symm
    have h1 := egSafe_expr as h c (hc c (by simp))
    exact ⟨⟨h1, fun r as' μ' hs => by rw [hkeep r as' μ' hs]; exact (ih as h (fun d hd => hc d (by simp [hd])) μ').1⟩,
      ⟨h1, fun as' μ' hs => by rw [hkeep _ as' μ' hs]; exact (ih as h (fun d hd => hc d (by simp [hd])) μ').2⟩⟩

theorem egSafe_start : (fprogram true [] egKnown0 [] noMem).2.1[0]? = some ⟨none, [⟨3, 4⟩, ⟨4, 1⟩], 0, 12⟩ := rfl

example : FSafes true [] (egKnown0 ++ egSafe1) [] noMem := ⟨trivial, fun as' μ' hs => (egSafe_any as' (by
  have := egSafe_start
  simp only [egKnown0, fprogram, hs] at this
  exact this) egSafe1 (fun _ h => h) μ').2⟩
example : FSafesAny true [] egSafe1 (fprogram true [] egKnown0 [] noMem).2.1 (fprogram true [] egKnown0 [] noMem).2.2 := (egSafe_any _ egSafe_start egSafe1 (fun _ h => h) _).1
example : ∀ c ∈ egSafe1, frestores c = false := by simp [egSafe1, frestores]
example : (fprogram true [] (egKnown0 ++ egSafe1.take 1) [] noMem).1 = .ok () := by decide +kernel
example : (fprogram true [] (egKnown0 ++ egSafe1) [] noMem).1 = .error .check := by decide +kernel
example : (fcaught true [] egSafe1 (fprogram true [] egKnown0 [] noMem).2.1 (fprogram true [] egKnown0 [] noMem).2.2).1 = .ok [true, false, false] := by decide +kernel

end Ra.Props
