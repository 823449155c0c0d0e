import Verif.Spec.Shared
import Verif.Props.Value
import Verif.Props.Access
/-!
# C80: arrays with shared storage
-/

namespace Ra.Props
open Spec

section
variable {V : Type}

/-- How many of the arrays use control block `k`. -/
def inUse (as : List (Option SArr)) (k : Nat) : Nat := as.countP fun o => o.bind SArr.ctl == some k

theorem inUse_append (as : List (Option SArr)) (o : Option SArr) (k : Nat) : inUse (as ++ [o]) k = inUse as k + if o.bind SArr.ctl = some k then 1 else 0 := by
  simp [inUse, List.countP_append, List.countP_cons]

theorem inUse_set {as : List (Option SArr)} {i : Nat} {o : Option SArr} (h : as[i]? = some o) (o' : Option SArr) (k : Nat) :
    inUse (as.set i o') k + (if o.bind SArr.ctl = some k then 1 else 0) = inUse as k + if o'.bind SArr.ctl = some k then 1 else 0 := by
  obtain ⟨hi, he⟩ := List.getElem?_eq_some_iff.mp h
  have hp : (if o.bind SArr.ctl = some k then 1 else 0) ≤ inUse as k := by
    split
    · next hk =>
      exact List.countP_pos_iff.mpr ⟨o, List.mem_of_getElem? h, by simp [hk]⟩
    · omega
  have := List.countP_set (p := fun o : Option SArr => o.bind SArr.ctl == some k) (l := as) (i := i) (a := o') hi
  rw [he] at this
  simp only [beq_iff_eq] at this
  simp only [inUse] at hp ⊢
  omega

theorem inUse_pos {as : List (Option SArr)} {k : Nat} : 0 < inUse as k ↔ ∃ (i : Nat) (a : SArr), as[i]? = some (some a) ∧ a.ctl = some k := by
  unfold inUse
  rw [List.countP_pos_iff]
  constructor
  · rintro ⟨o, ho, h⟩
    obtain ⟨i, hi⟩ := List.getElem?_of_mem ho
    cases o with
    | none => simp at h
    | some a => exact ⟨i, a, hi, by simpa using h⟩
  · rintro ⟨i, a, h, hk⟩
    exact ⟨some a, List.mem_of_getElem? h, by simpa using hk⟩

/-- Everything about an array that doesn't depend on the memory. -/
structure Ties (μ0 : Mem V) (cs : List Ctl) (objs : List (Object V)) (a : SArr) (h : Handle) : Prop where
  fixed : h.fixed = a.arr.rk.isSome
  shaped : Shaped a.arr.view (h.shape.map some)
  same : h.obj = a.ctl
  block : ∀ k, a.ctl = some k → ∃ c, cs[k]? = some c ∧
    ((c.own = true ∧ c.n = size h.shape ∧ ∀ j, Valid h.shape j → address a.arr.view j = c.base + position h.shape j) ∨
     (c.own = false ∧ ∃ v, objs[k]? = some (.borrowed v) ∧ ∀ j, Valid h.shape j → address a.arr.view j = address v j ∧ (μ0 (address v j)).isSome))

def Slot (μ0 : Mem V) (cs : List Ctl) (objs : List (Object V)) : Option SArr → Option Handle → Prop
  | none, none => True
  | some a, some h => Ties μ0 cs objs a h
  | _, _ => False

structure SInv (μ0 : Mem V) (st : SState V) (w : World V) : Prop where
  len : st.as.length = w.handles.length
  olen : st.ctls.length = w.objects.length
  slot : ∀ (i : Nat) o o', st.as[i]? = some o → w.handles[i]? = some o' → Slot μ0 st.ctls w.objects o o'
  uses : ∀ (k : Nat) c, st.ctls[k]? = some c → c.uses = inUse st.as k
  made : ∀ (k : Nat) c, st.ctls[k]? = some c → c.own = true → ∃ xs, w.objects[k]? = some (.made xs) ∧ xs.length = c.n ∧
    (0 < c.uses → ∀ i : Nat, i < c.n → st.μ (c.base + i) = xs[i]? ∧ μ0 (c.base + i) = none)
  apart : ∀ (k l : Nat) c d, k ≠ l → st.ctls[k]? = some c → st.ctls[l]? = some d → c.own = true → d.own = true → 0 < c.uses → 0 < d.uses →
    ∀ p, c.base ≤ p → p < c.base + c.n → ¬ (d.base ≤ p ∧ p < d.base + d.n)
  rest : ∀ p, (μ0 p).isSome → st.μ p = w.memory p ∧ (w.memory p).isSome
  only : ∀ p, μ0 p = none → (st.μ p).isSome → ∃ (k : Nat) (c : Ctl), st.ctls[k]? = some c ∧ c.own = true ∧ 0 < c.uses ∧ c.base ≤ p ∧ p < c.base + c.n

theorem SInv.get {μ0 : Mem V} {st : SState V} {w : World V} (h : SInv μ0 st w) {i : Nat} {a : SArr} (ha : st.as[i]? = some (some a)) :
    ∃ g, w.handles[i]? = some (some g) ∧ Ties μ0 st.ctls w.objects a g := by
  have hi : i < w.handles.length := by rw [← h.len]; exact (List.getElem?_eq_some_iff.mp ha).1
  have := h.slot i _ _ ha (List.getElem?_eq_getElem hi)
  cases hg : w.handles[i] with
  | none => rw [hg] at this; exact this.elim
  | some g => rw [hg] at this; exact ⟨g, by rw [List.getElem?_eq_getElem hi, hg], this⟩

/-- The control blocks differ only in the number of pointers. -/
def SameCtl (cs cs' : List Ctl) : Prop := cs.map (fun c => (c.base, c.n, c.own)) = cs'.map fun c => (c.base, c.n, c.own)

theorem SameCtl.get {cs cs' : List Ctl} (h : SameCtl cs cs') {k : Nat} {c : Ctl} (hk : cs[k]? = some c) : ∃ c', cs'[k]? = some c' ∧ c'.base = c.base ∧ c'.n = c.n ∧ c'.own = c.own := by
  have := congrArg (fun l => l[k]?) h
  simp only [List.getElem?_map, hk, Option.map_some] at this
  cases hc : cs'[k]? with
  | none => simp [hc] at this
  | some c' =>
    simp only [hc, Option.map_some, Option.some.injEq, Prod.mk.injEq] at this
    exact ⟨c', rfl, this.1.symm, this.2.1.symm, this.2.2.symm⟩

theorem Ties.other {μ0 : Mem V} {cs cs' : List Ctl} {objs : List (Object V)} {a : SArr} {g : Handle} (h : Ties μ0 cs objs a g) (hc : SameCtl cs cs') : Ties μ0 cs' objs a g := by
  refine ⟨h.fixed, h.shaped, h.same, fun k hk => ?_⟩
  obtain ⟨c, h1, h2⟩ := h.block k hk
  obtain ⟨c', g1, g2, g3, g4⟩ := hc.get h1
  exact ⟨c', g1, by rw [g2, g3, g4]; exact h2⟩

theorem Slot.other {μ0 : Mem V} {cs cs' : List Ctl} {objs : List (Object V)} {o : Option SArr} {o' : Option Handle} (h : Slot μ0 cs objs o o') (hc : SameCtl cs cs') : Slot μ0 cs' objs o o' := by
  match o, o', h with
  | none, none, _ => trivial
  | some _, some _, h => exact Ties.other h hc

theorem acquire_same (k : Option Nat) (cs : List Ctl) : SameCtl cs (acquire k cs) := by
  cases k with
  | none => rfl
  | some k =>
    unfold SameCtl acquire
    apply List.ext_getElem?
    intro i
    simp only [List.getElem?_map, List.getElem?_modify]
    cases cs[i]? with
    | none => simp
    | some c => by_cases h : k = i <;> simp [h]

theorem acquire_uses {k : Option Nat} {cs : List Ctl} {l : Nat} {c : Ctl} (h : (acquire k cs)[l]? = some c) : ∃ c0, cs[l]? = some c0 ∧ c.uses = c0.uses + if k = some l then 1 else 0 := by
  cases k with
  | none => exact ⟨c, h, by simp⟩
  | some k =>
    simp only [acquire, List.getElem?_modify] at h
    cases hc : cs[l]? with
    | none => simp [hc] at h
    | some c0 =>
      refine ⟨c0, rfl, ?_⟩
      by_cases hk : k = l
      · simp [hc, hk] at h; simp [← h, hk]
      · simp [hc, hk] at h; simp [← h, hk]

/-- The variables change, some pointers among them are lost or copied, and then one pointer is released. -/
theorem settle {μ0 : Mem V} {st : SState V} {w : World V} (hI : SInv μ0 st w) (as' : List (Option SArr)) (hs' : List (Option Handle)) (cs : List Ctl) (k0 : Option Nat)
    (hl : as'.length = hs'.length) (hc : SameCtl st.ctls cs) (ht : ∀ (i : Nat) o o', as'[i]? = some o → hs'[i]? = some o' → Slot μ0 st.ctls w.objects o o')
    (hu : ∀ (k : Nat) c, cs[k]? = some c → c.uses = inUse as' k + if k0 = some k then 1 else 0)
    (hlive : ∀ k, 0 < inUse as' k → 0 < inUse st.as k) (hlost : ∀ k, 0 < inUse st.as k → 0 < inUse as' k ∨ k0 = some k) (hk0 : ∀ k, k0 = some k → 0 < inUse st.as k) :
    SInv μ0 ⟨as', (release k0 cs st.μ).1, (release k0 cs st.μ).2⟩ { w with handles := hs' } := by
  obtain ⟨cs', μ', hr, hs1, hu', hμ, hfree⟩ : ∃ cs' μ', release k0 cs st.μ = (cs', μ') ∧ SameCtl st.ctls cs' ∧ (∀ (k : Nat) c, cs'[k]? = some c → c.uses = inUse as' k) ∧
      (∀ p, μ' p = st.μ p ∨ ∃ (k : Nat) (c : Ctl), k0 = some k ∧ st.ctls[k]? = some c ∧ c.own = true ∧ c.base ≤ p ∧ p < c.base + c.n ∧ inUse as' k = 0) ∧
      ∀ (k : Nat) (c : Ctl) p, k0 = some k → st.ctls[k]? = some c → c.own = true → inUse as' k = 0 → c.base ≤ p → p < c.base + c.n → μ' p = none := by
    cases k0 with
    | none => exact ⟨cs, st.μ, rfl, hc, fun k c h => by simpa using hu k c h, fun p => .inl rfl, by simp⟩
    | some k =>
      cases hk : cs[k]? with
      | none =>
        refine ⟨cs, st.μ, by simp [release, hk], hc, fun l c h => ?_, fun p => .inl rfl, ?_⟩
        · rw [hu l c h, if_neg]
          · rfl
          · rintro e; simp only [Option.some.injEq] at e; subst e; rw [hk] at h; cases h
        · intro l c p e h1
          simp only [Option.some.injEq] at e
          subst e
          obtain ⟨c', h2, _⟩ := hc.get h1
          rw [hk] at h2; cases h2
      | some c =>
        have hcu := hu k c hk
        rw [if_pos rfl] at hcu
        have hsame : SameCtl cs (cs.set k { c with uses := c.uses - 1 }) := by
          unfold SameCtl
          apply List.ext_getElem?
          intro i
          simp only [List.getElem?_map, List.getElem?_set]
          by_cases hi : k = i
          · subst hi
            simp only [if_true, hk]
            rw [if_pos (List.getElem?_eq_some_iff.mp hk).1]
            simp
          · simp [hi]
        have hsc : SameCtl st.ctls (cs.set k { c with uses := c.uses - 1 }) := hc.trans hsame
        refine ⟨cs.set k { c with uses := c.uses - 1 }, if c.uses - 1 = 0 ∧ c.own then fun p => if c.base ≤ p ∧ p < c.base + c.n then none else st.μ p else st.μ,
          by simp only [release, hk], hsc, ?_, ?_, ?_⟩
        · intro l d hd
          rw [List.getElem?_set] at hd
          split at hd
          · next e =>
            subst e
            split at hd
            · simp only [Option.some.injEq] at hd
              subst hd
              simp only
              omega
            · cases hd
          · next e =>
            rw [hu l d hd, if_neg (by simpa using e)]
            rfl
        · intro p
          split
          · next h =>
            by_cases hp : c.base ≤ p ∧ p < c.base + c.n
            · right
              obtain ⟨c0, h1, h2, h3, h4⟩ := SameCtl.get hc.symm hk
              exact ⟨k, c0, rfl, h1, by rw [h4]; exact h.2, by omega, by omega, by omega⟩
            · left
              simp only [if_neg hp]
          · exact .inl rfl
        · intro l d p e h1 h2 h3 h4 h5
          simp only [Option.some.injEq] at e
          subst e
          obtain ⟨c', g1, g2, g3, g4⟩ := hc.get h1
          rw [hk] at g1
          obtain rfl := Option.some.inj g1
          rw [if_pos ⟨by omega, by rw [g4]; exact h2⟩, if_pos (by omega)]
  rw [hr]
  have hold : ∀ (k : Nat) c, st.ctls[k]? = some c → 0 < inUse as' k → 0 < c.uses := fun k c h h1 => by rw [hI.uses k c h]; exact hlive k h1
  refine ⟨hl, ?_, ?_, hu', ?_, ?_, ?_, ?_⟩
  · have := congrArg List.length hs1
    simp only [List.length_map] at this
    simp only [← this, hI.olen]
  · intro i o o' h1 h2
    exact (ht i o o' h1 h2).other hs1
  · intro k c hk ho
    obtain ⟨c0, h1, h2, h3, h4⟩ := SameCtl.get hs1.symm hk
    obtain ⟨xs, g1, g2, g3⟩ := hI.made k c0 h1 (by rw [h4, ho])
    refine ⟨xs, g1, by omega, fun hpos i hi => ?_⟩
    have hp' : 0 < inUse as' k := by rw [← hu' k c hk]; exact hpos
    obtain ⟨g4, g5⟩ := g3 (hold k c0 h1 hp') i (by omega)
    rw [h2] at g4 g5
    refine ⟨?_, g5⟩
    simp only
    rcases hμ (c.base + i) with h | ⟨l, d, e1, e2, e3, e4, e5, e6⟩
    · rw [h]; exact g4
    · exfalso
      have hne : k ≠ l := by rintro rfl; omega
      exact hI.apart k l c0 d hne h1 e2 (by rw [h4, ho]) e3 (hold k c0 h1 hp') (by rw [hI.uses l d e2]; exact hk0 l e1) (c.base + i) (by omega) (by omega) ⟨e4, e5⟩
  · intro k l c d hne h1 h2 h3 h4 h5 h6 p h7 h8
    obtain ⟨c0, a1, a2, a3, a4⟩ := SameCtl.get hs1.symm h1
    obtain ⟨d0, b1, b2, b3, b4⟩ := SameCtl.get hs1.symm h2
    have := hI.apart k l c0 d0 hne a1 b1 (by rw [a4, h3]) (by rw [b4, h4]) (hold k c0 a1 (by rw [← hu' k c h1]; exact h5)) (hold l d0 b1 (by rw [← hu' l d h2]; exact h6)) p (by omega) (by omega)
    rwa [b2, b3] at this
  · intro p hp
    obtain ⟨g1, g2⟩ := hI.rest p hp
    refine ⟨?_, g2⟩
    simp only
    rcases hμ p with h | ⟨l, d, e1, e2, e3, e4, e5, e6⟩
    · rw [h]; exact g1
    · exfalso
      obtain ⟨xs, _, _, g⟩ := hI.made l d e2 e3
      have := (g (by rw [hI.uses l d e2]; exact hk0 l e1) (p - d.base).toNat (by omega)).2
      rw [show d.base + ((p - d.base).toNat : Int) = p by omega] at this
      simp [this] at hp
  · intro p hp h
    simp only at h
    have hsome : (st.μ p).isSome := by
      rcases hμ p with g | ⟨l, d, e1, e2, e3, e4, e5, e6⟩
      · rwa [g] at h
      · rw [hfree l d p e1 e2 e3 e6 e4 e5] at h; cases h
    obtain ⟨k, c, a1, a2, a3, a4, a5⟩ := hI.only p hp hsome
    obtain ⟨c', b1, b2, b3, b4⟩ := hs1.get a1
    refine ⟨k, c', b1, by rw [b4, a2], ?_, by omega, by omega⟩
    rw [hu' k c' b1]
    rcases hlost k (by rw [← hI.uses k c a1]; exact a3) with g | g
    · exact g
    · by_contra hn
      rw [hfree k c p g a1 a2 (by omega) a4 a5] at h
      cases h

theorem ties_null {μ0 : Mem V} {cs : List Ctl} {objs : List (Object V)} {a : SArr} {g : Handle} (h1 : g.fixed = a.arr.rk.isSome) (h2 : Shaped a.arr.view (g.shape.map some))
    (h3 : a.ctl = none) (h4 : g.obj = none) : Ties μ0 cs objs a g := ⟨h1, h2, by rw [h3, h4], fun k hk => by rw [h3] at hk; cases hk⟩

theorem Ties.moved {μ0 : Mem V} {cs : List Ctl} {objs : List (Object V)} {a : SArr} {g : Handle} (h : Ties μ0 cs objs a g) : Ties μ0 cs objs a.moved g.moved := by
  refine ties_null h.fixed ?_ rfl rfl
  have hs := h.shaped
  have hf := h.fixed
  cases hr : a.arr.rk.isSome
  · rw [hr] at hf
    simp only [SArr.moved, Arr.moveOut, Arr.view, hr, Handle.moved, hf, Bool.false_eq_true, if_false]
    exact .nil
  · rw [hr] at hf
    simpa only [SArr.moved, Arr.moveOut, Arr.view, hr, Handle.moved, hf, if_true] using hs

theorem slot_set {μ0 : Mem V} {cs : List Ctl} {objs : List (Object V)} {as : List (Option SArr)} {hs : List (Option Handle)} (hl : as.length = hs.length)
    (h : ∀ (i : Nat) o o', as[i]? = some o → hs[i]? = some o' → Slot μ0 cs objs o o') (i : Nat) (o : Option SArr) (o' : Option Handle) (ho : Slot μ0 cs objs o o') :
    (as.set i o).length = (hs.set i o').length ∧ ∀ (k : Nat) x x', (as.set i o)[k]? = some x → (hs.set i o')[k]? = some x' → Slot μ0 cs objs x x' := by
  refine ⟨by simpa using hl, fun k x x' h1 h2 => ?_⟩
  rw [List.getElem?_set] at h1 h2
  split at h1
  · next e =>
    subst e
    rw [if_pos rfl] at h2
    split at h1
    · rw [if_pos (by omega)] at h2
      obtain rfl := Option.some.inj h1
      obtain rfl := Option.some.inj h2
      exact ho
    · cases h1
  · next e =>
    rw [if_neg e] at h2
    exact h k x x' h1 h2

theorem slot_append {μ0 : Mem V} {cs : List Ctl} {objs : List (Object V)} {as : List (Option SArr)} {hs : List (Option Handle)} (hl : as.length = hs.length)
    (h : ∀ (i : Nat) o o', as[i]? = some o → hs[i]? = some o' → Slot μ0 cs objs o o') (o : Option SArr) (o' : Option Handle) (ho : Slot μ0 cs objs o o') :
    (as ++ [o]).length = (hs ++ [o']).length ∧ ∀ (k : Nat) x x', (as ++ [o])[k]? = some x → (hs ++ [o'])[k]? = some x' → Slot μ0 cs objs x x' := by
  refine ⟨by simpa using hl, fun k x x' h1 h2 => ?_⟩
  rcases lt_trichotomy k as.length with hk | hk | hk
  · rw [List.getElem?_append_left hk] at h1
    rw [List.getElem?_append_left (by omega)] at h2
    exact h k x x' h1 h2
  · rw [hk, List.getElem?_concat_length] at h1
    rw [hk, hl, List.getElem?_concat_length] at h2
    obtain rfl := Option.some.inj h1
    obtain rfl := Option.some.inj h2
    exact ho
  · rw [List.getElem?_eq_none (by simp; omega)] at h1
    cases h1

/-- A new object, with its control block, that's used by a new array. -/
theorem enter {μ0 : Mem V} {st : SState V} {w : World V} (hI : SInv μ0 st w) (a : SArr) (g : Handle) (c : Ctl) (ob : Object V) (μ' : Mem V) (ha : a.ctl = some st.ctls.length) (hc : c.uses = 1)
    (ht : Ties μ0 (st.ctls ++ [c]) (w.objects ++ [ob]) a g)
    (hm : c.own = true → ∃ xs, ob = .made xs ∧ xs.length = c.n ∧ ∀ i : Nat, i < c.n → μ' (c.base + i) = xs[i]? ∧ μ0 (c.base + i) = none ∧ st.μ (c.base + i) = none)
    (hsame : ∀ p, μ' p = st.μ p ∨ (c.own = true ∧ c.base ≤ p ∧ p < c.base + c.n)) :
    SInv μ0 ⟨st.as ++ [some a], st.ctls ++ [c], μ'⟩ { w with handles := w.handles ++ [some g], objects := w.objects ++ [ob] } := by
  have hnew : inUse st.as st.ctls.length = 0 := by
    by_contra hn
    obtain ⟨i, b, hi, hk⟩ := inUse_pos.mp (Nat.pos_of_ne_zero hn)
    obtain ⟨g, _, t⟩ := hI.get hi
    obtain ⟨d, hd, _⟩ := t.block _ hk
    simp at hd
  have hget : ∀ (k : Nat) d, (st.ctls ++ [c])[k]? = some d → (k < st.ctls.length ∧ st.ctls[k]? = some d) ∨ (k = st.ctls.length ∧ d = c) := by
    intro k d hd
    rcases lt_trichotomy k st.ctls.length with hk | hk | hk
    · rw [List.getElem?_append_left hk] at hd
      exact .inl ⟨hk, hd⟩
    · rw [hk, List.getElem?_concat_length] at hd
      exact .inr ⟨hk, (Option.some.inj hd).symm⟩
    · rw [List.getElem?_eq_none (by simp; omega)] at hd
      cases hd
  have hleft : ∀ (k : Nat) d, st.ctls[k]? = some d → (st.ctls ++ [c])[k]? = some d := fun k d hd => by
    rw [List.getElem?_append_left (List.getElem?_eq_some_iff.mp hd).1, hd]
  have hlefto : ∀ (k : Nat) o, w.objects[k]? = some o → (w.objects ++ [ob])[k]? = some o := fun k d hd => by
    rw [List.getElem?_append_left (List.getElem?_eq_some_iff.mp hd).1, hd]
  have hslot : ∀ (i : Nat) o o', st.as[i]? = some o → w.handles[i]? = some o' → Slot μ0 (st.ctls ++ [c]) (w.objects ++ [ob]) o o' := by
    intro i o o' h1 h2
    match o, o', hI.slot i o o' h1 h2 with
    | none, none, _ => trivial
    | some b, some g', (t : Ties _ _ _ _ _) =>
      refine ⟨t.fixed, t.shaped, t.same, fun k hk => ?_⟩
      obtain ⟨d, h3, h4⟩ := t.block k hk
      refine ⟨d, hleft k d h3, ?_⟩
      rcases h4 with h4 | ⟨h4, v, h5, h6⟩
      · exact .inl h4
      · exact .inr ⟨h4, v, hlefto k _ h5, h6⟩
  obtain ⟨e1, e2⟩ := slot_append hI.len hslot (some a) (some g) ht
  have huses : ∀ (k : Nat) d, (st.ctls ++ [c])[k]? = some d → d.uses = inUse (st.as ++ [some a]) k := by
    intro k d hd
    rw [inUse_append]
    simp only [Option.bind_some, ha, Option.some.injEq]
    rcases hget k d hd with ⟨hk, hd⟩ | ⟨rfl, rfl⟩
    · rw [if_neg (by omega), hI.uses k d hd]; rfl
    · rw [if_pos rfl, hc, hnew]
  have hold : ∀ (k : Nat) d (i : Nat), st.ctls[k]? = some d → d.own = true → 0 < d.uses → i < d.n → (st.μ (d.base + i)).isSome := by
    intro k d i h1 h2 h3 h4
    obtain ⟨xs, _, g2, g3⟩ := hI.made k d h1 h2
    rw [(g3 h3 i h4).1]
    simp; omega
  have hsep : ∀ (k : Nat) d p, st.ctls[k]? = some d → d.own = true → 0 < d.uses → d.base ≤ p → p < d.base + d.n → c.own = true → ¬ (c.base ≤ p ∧ p < c.base + c.n) := by
    intro k d p h1 h2 h3 h4 h5 h6 h7
    obtain ⟨xs, _, _, g⟩ := hm h6
    have g1 := (g (p - c.base).toNat (by omega)).2.2
    have g2 := hold k d (p - d.base).toNat h1 h2 h3 (by omega)
    rw [show c.base + ((p - c.base).toNat : Int) = p by omega] at g1
    rw [show d.base + ((p - d.base).toNat : Int) = p by omega] at g2
    simp [g1] at g2
  refine ⟨e1, by simp [hI.olen], e2, huses, ?_, ?_, ?_, ?_⟩
  · intro k d hd ho
    rcases hget k d hd with ⟨hk, hd⟩ | ⟨rfl, rfl⟩
    · obtain ⟨xs, g1, g2, g3⟩ := hI.made k d hd ho
      refine ⟨xs, hlefto k _ g1, g2, fun hp i hi => ⟨?_, (g3 hp i hi).2⟩⟩
      rcases hsame (d.base + i) with h | ⟨h1, h2, h3⟩
      · exact h.trans (g3 hp i hi).1
      · exact absurd ⟨h2, h3⟩ (hsep k d _ hd ho hp (by omega) (by omega) h1)
    · obtain ⟨xs, rfl, g2, g3⟩ := hm ho
      exact ⟨xs, by rw [hI.olen]; simp, g2, fun _ i hi => ⟨(g3 i hi).1, (g3 i hi).2.1⟩⟩
  · intro k l x y hne hx hy h1 h2 h3 h4 p h5 h6
    rcases hget k x hx with ⟨_, hx'⟩ | ⟨rfl, rfl⟩
    · rcases hget l y hy with ⟨_, hy'⟩ | ⟨rfl, rfl⟩
      · exact hI.apart k l x y hne hx' hy' h1 h2 h3 h4 p h5 h6
      · exact hsep k x p hx' h1 h3 h5 h6 h2
    · rcases hget l y hy with ⟨_, hy'⟩ | ⟨rfl, rfl⟩
      · intro h7
        exact hsep l y p hy' h2 h4 h7.1 h7.2 h1 ⟨h5, h6⟩
      · exact absurd rfl hne
  · intro p hp
    obtain ⟨g1, g2⟩ := hI.rest p hp
    refine ⟨?_, g2⟩
    rcases hsame p with h | ⟨h1, h2, h3⟩
    · exact h.trans g1
    · exfalso
      obtain ⟨xs, _, _, g⟩ := hm h1
      have := (g (p - c.base).toNat (by omega)).2.1
      rw [show c.base + ((p - c.base).toNat : Int) = p by omega] at this
      simp [this] at hp
  · intro p hp h
    simp only at h
    rcases hsame p with h1 | ⟨h1, h2, h3⟩
    · rw [h1] at h
      obtain ⟨k, d, g1, g2⟩ := hI.only p hp h
      exact ⟨k, d, hleft k d g1, g2⟩
    · exact ⟨st.ctls.length, c, by simp, h1, by omega, h2, h3⟩

/-- An element of an object changes. -/
theorem poke_made {μ0 : Mem V} {st : SState V} {w : World V} (hI : SInv μ0 st w) {k : Nat} {c : Ctl} {xs : List V} (hc : st.ctls[k]? = some c) (ho : c.own = true) (hu : 0 < c.uses)
    (hx : w.objects[k]? = some (.made xs)) (i : Nat) (hi : i < c.n) (x : V) :
    SInv μ0 { st with μ := st.μ.upd (c.base + i) x } { w with objects := w.objects.set k (.made (xs.set i x)) } := by
  obtain ⟨xs', g1, g2, g3⟩ := hI.made k c hc ho
  rw [hx] at g1
  simp only [Option.some.injEq, Object.made.injEq] at g1
  subst g1
  have hk : k < w.objects.length := (List.getElem?_eq_some_iff.mp hx).1
  have hp0 := (g3 hu i hi).2
  refine ⟨hI.len, by simpa using hI.olen, ?_, hI.uses, ?_, hI.apart, ?_, ?_⟩
  · intro n o o' h1 h2
    match o, o', hI.slot n o o' h1 h2 with
    | none, none, _ => trivial
    | some b, some g', (t : Ties _ _ _ _ _) =>
      refine ⟨t.fixed, t.shaped, t.same, fun l hl => ?_⟩
      obtain ⟨d, h3, h4⟩ := t.block l hl
      refine ⟨d, h3, h4.imp_right ?_⟩
      rintro ⟨h5, v, h6, h7⟩
      refine ⟨h5, v, ?_, h7⟩
      rw [List.getElem?_set_ne, h6]
      rintro rfl
      rw [hx] at h6
      cases h6
  · intro l d hd hdo
    simp only at hd ⊢
    by_cases e : k = l
    · subst e
      rw [hc] at hd
      obtain rfl := Option.some.inj hd
      refine ⟨xs.set i x, by rw [List.getElem?_set, if_pos rfl, if_pos hk], by simpa using g2, fun hp n hn => ?_⟩
      refine ⟨?_, (g3 hp n hn).2⟩
      rw [List.getElem?_set]
      by_cases e : i = n
      · subst e
        rw [if_pos rfl, if_pos (by omega), Mem.upd, if_pos rfl]
      · rw [if_neg e, Mem.upd, if_neg (by omega)]
        exact (g3 hp n hn).1
    · obtain ⟨ys, f1, f2, f3⟩ := hI.made l d hd hdo
      refine ⟨ys, by rw [List.getElem?_set_ne e, f1], f2, fun hp n hn => ?_⟩
      refine ⟨?_, (f3 hp n hn).2⟩
      rw [Mem.upd, if_neg]
      · exact (f3 hp n hn).1
      · intro e2
        exact hI.apart k l c d e hc hd ho hdo hu hp (c.base + i) (by omega) (by omega) ⟨by omega, by omega⟩
  · intro p hp
    have hne : p ≠ c.base + i := by rintro rfl; simp [hp0] at hp
    simp only [Mem.upd, if_neg hne]
    exact hI.rest p hp
  · intro p hp h
    simp only [Mem.upd] at h
    split at h
    · next e =>
      exact ⟨k, c, hc, ho, hu, by omega, by omega⟩
    · exact hI.only p hp h

/-- An element of other memory changes. -/
theorem poke_outside {μ0 : Mem V} {st : SState V} {w : World V} (hI : SInv μ0 st w) (q : Int) (hq : (μ0 q).isSome) (x : V) :
    SInv μ0 { st with μ := st.μ.upd q x } { w with memory := fun p => if p = q then some x else w.memory p } := by
  refine ⟨hI.len, hI.olen, hI.slot, hI.uses, ?_, hI.apart, ?_, ?_⟩
  · intro l d hd hdo
    obtain ⟨ys, f1, f2, f3⟩ := hI.made l d hd hdo
    refine ⟨ys, f1, f2, fun hp n hn => ?_⟩
    have := (f3 hp n hn).2
    refine ⟨?_, this⟩
    simp only [Mem.upd]
    rw [if_neg]
    · exact (f3 hp n hn).1
    · rintro rfl; simp [this] at hq
  · intro p hp
    simp only [Mem.upd]
    split
    · simp
    · exact hI.rest p hp
  · intro p hp h
    simp only [Mem.upd] at h
    split at h
    · next e => subst e; simp [hp] at hq
    · exact hI.only p hp h

theorem swap_views {a b a' b' : Arr} (h : Arr.swap a b = (.ok (), a', b')) : a'.rk = a.rk ∧ b'.rk = b.rk ∧ a'.view = b.view ∧ b'.view = a.view := by
  unfold Arr.swap at h
  simp only at h
  split at h
  · simp at h
  · next x y hd =>
    simp only [Prod.mk.injEq, true_and] at h
    obtain ⟨rfl, rfl⟩ := h
    split at hd
    · split at hd
      · simp only [Except.ok.injEq, Prod.mk.injEq] at hd
        obtain ⟨rfl, rfl⟩ := hd
        exact ⟨rfl, rfl, rfl, rfl⟩
      · cases hd
    · split at hd
      · cases hd
      · split at hd
        · simp only [swapDims] at hd
          split at hd
          · cases hd
          · simp only [Except.ok.injEq, Prod.mk.injEq] at hd
            obtain ⟨rfl, rfl⟩ := hd
            exact ⟨rfl, rfl, rfl, rfl⟩
        · simp only [swapDims, bind, Except.bind, pure, Except.pure] at hd
          split at hd
          · cases hd
          · next r hr =>
            split at hr
            · cases hr
            · simp only [Except.ok.injEq] at hr
              subst hr
              simp only [Except.ok.injEq, Prod.mk.injEq] at hd
              obtain ⟨rfl, rfl⟩ := hd
              exact ⟨rfl, rfl, rfl, rfl⟩

theorem Ties.swapped {μ0 : Mem V} {cs : List Ctl} {objs : List (Object V)} {b : SArr} {g : Handle} (h : Ties μ0 cs objs b g) {a' : Arr} (hv : a'.view = b.arr.view) {fx : Bool} (hf : fx = a'.rk.isSome) :
    Ties μ0 cs objs ⟨a', b.ctl⟩ { g with fixed := fx } := by
  refine ⟨hf, by simp only [hv]; exact h.shaped, h.same, fun k hk => ?_⟩
  obtain ⟨c, h1, h2⟩ := h.block k hk
  exact ⟨c, h1, by simp only [hv]; exact h2⟩

theorem sstep {μ0 : Mem V} {uniq : Bool} {st st' : SState V} {w : World V} (hI : SInv μ0 st w) (op : SOp V)
    (hb : ∀ rk v, op = .borrow rk v → ∃ s : List Nat, Shaped v (s.map some) ∧ ∀ j, Valid s j → (μ0 (address v j)).isSome)
    (h : op.step uniq st = (.ok (), st')) : ∃ w', SOp.effect w op = some w' ∧ SInv μ0 st' w' := by
  match op, hb, h with
  | .default rk, _, h =>
    simp only [SOp.step] at h
    split at h
    · simp at h
    · simp only [Prod.mk.injEq, true_and] at h
      subst h
      refine ⟨_, rfl, ?_⟩
      obtain ⟨e1, e2⟩ := slot_append hI.len hI.slot (some ⟨Arr.default rk, none⟩) (some ⟨rk.isSome, List.replicate (rk.getD 1) 0, none⟩)
        (ties_null rfl (by
          have : List.Forall₂ DimLen (List.replicate (rk.getD 1) ⟨0, 1⟩) (List.replicate (rk.getD 1) (some 0)) := by
            induction rk.getD 1 with
            | zero => exact .nil
            | succ n ih => exact .cons rfl ih
          simpa [Shaped, Arr.view, Arr.default] using this) rfl rfl)
      exact settle hI _ _ st.ctls none e1 rfl e2 (fun k c hk => by rw [inUse_append]; simpa using hI.uses k c hk) (fun k hk => by simpa [inUse_append] using hk)
        (fun k hk => by simp [inUse_append, hk]) (by simp)
  | .create rk o fill s, _, h =>
    simp only [SOp.step] at h
    split at h
    · next a μ' hc =>
      simp only [Prod.mk.injEq, true_and] at h
      subst h
      obtain ⟨t, rfl, h1, h2, h3, h4⟩ := create_ok hc
      have hts : (t.map (Nat.cast : Nat → Int)).map Int.toNat = t := by simp [Function.comp_def]
      refine ⟨{ w with handles := w.handles ++ [some ⟨rk.isSome, t, some w.objects.length⟩], objects := w.objects ++ [.made (fit [] fill (size t))] },
        by simp only [SOp.effect, hts], ?_⟩
      have hown : ∀ p, ¬ Owns ⟨rk, [], 0, 0⟩ p := by intro p; simp [Owns]
      refine enter hI ⟨a, some st.ctls.length⟩ ⟨rk.isSome, t, some w.objects.length⟩ ⟨a.base, a.n, true, 1⟩ (.made (fit [] fill (size t))) μ' rfl rfl ?_ ?_ ?_
      · refine ⟨by simp [h2], shaped_nat.mpr h1.lens, by rw [hI.olen], fun k hk => ?_⟩
        simp only [Option.some.injEq] at hk
        subst hk
        refine ⟨_, List.getElem?_concat_length, .inl ⟨rfl, h1.count, fun j hj => ?_⟩⟩
        simp only [address, Arr.view]
        rw [container_address h1.lens h1.steps hj]
      · intro _
        refine ⟨_, rfl, by rw [fit_length]; exact h1.count.symm, fun i hi => ?_⟩
        simp only at hi ⊢
        rw [fit_get _ _ _ _ (by rw [← h1.count]; exact hi), h4 i hi]
        have hfree : st.μ (a.base + i) = none := (h3.new (a.base + i) (by simp [Owns]; omega)).resolve_left (hown _)
        refine ⟨by simp, ?_, hfree⟩
        by_contra hn
        obtain ⟨g1, g2⟩ := hI.rest _ (Option.isSome_iff_ne_none.mpr hn)
        rw [← g1, hfree] at g2
        cases g2
      · intro p
        by_cases hp : Owns a p
        · exact .inr ⟨rfl, hp.1, hp.2⟩
        · exact .inl (h3.out p (hown p) hp)
    · simp at h
  | .borrow rk v, hb, h =>
    simp only [SOp.step] at h
    split at h
    · simp at h
    · split at h
      · next a hc =>
        simp only [Prod.mk.injEq, true_and] at h
        subst h
        obtain ⟨s, hs, hin⟩ := hb rk v rfl
        obtain ⟨h1, h2, h3⟩ := C76_borrow rk v s hs a hc
        have hsh : v.dims.map (fun d => d.len.toNat) = s := by
          have := congrArg (List.map Int.toNat) (shaped_nat.mp hs)
          simpa [Function.comp_def] using this
        refine ⟨{ w with handles := w.handles ++ [some ⟨rk.isSome, s, some w.objects.length⟩], objects := w.objects ++ [.borrowed v] },
          by simp only [SOp.effect, hsh], ?_⟩
        refine enter hI ⟨a, some st.ctls.length⟩ ⟨rk.isSome, s, some w.objects.length⟩ ⟨a.base, a.n, false, 1⟩ (.borrowed v) st.μ rfl rfl ?_ (by simp) (fun p => .inl rfl)
        refine ⟨by simp [h2], by simp only [h1]; exact hs, by rw [hI.olen], fun k hk => ?_⟩
        simp only [Option.some.injEq] at hk
        subst hk
        exact ⟨_, List.getElem?_concat_length, .inr ⟨rfl, v, by rw [hI.olen]; simp, fun j hj => ⟨by simp only [h1], hin j hj⟩⟩⟩
      · simp at h
  | .copyNew j, _, h =>
    simp only [SOp.step] at h
    split at h
    · next b hj =>
      split at h
      · simp at h
      · simp only [Prod.mk.injEq, true_and] at h
        subst h
        obtain ⟨g, hg, ht⟩ := hI.get hj
        refine ⟨{ w with handles := w.handles ++ [some g] }, by simp [SOp.effect, hg], ?_⟩
        obtain ⟨e1, e2⟩ := slot_append hI.len hI.slot (some b) (some g) ht
        refine settle hI _ _ (acquire b.ctl st.ctls) none e1 (acquire_same _ _) e2 ?_ ?_ ?_ (by simp)
        · intro k c hk
          obtain ⟨c0, h1, h2⟩ := acquire_uses hk
          rw [inUse_append, h2, hI.uses k c0 h1]
          simp
        · intro k hk
          rw [inUse_append] at hk
          by_cases e : b.ctl = some k
          · exact inUse_pos.mpr ⟨j, b, hj, e⟩
          · simpa [e] using hk
        · intro k hk
          rw [inUse_append]
          omega
    · simp at h
  | .moveNew j, _, h =>
    simp only [SOp.step] at h
    split at h
    · next b hj =>
      simp only [Prod.mk.injEq, true_and] at h
      subst h
      obtain ⟨g, hg, ht⟩ := hI.get hj
      refine ⟨{ w with handles := w.handles.set j (some g.moved) ++ [some g] }, by simp [SOp.effect, hg], ?_⟩
      obtain ⟨d1, d2⟩ := slot_set hI.len hI.slot j (some b.moved) (some g.moved) ht.moved
      obtain ⟨e1, e2⟩ := slot_append d1 d2 (some b) (some g) ht
      have key : ∀ k, inUse (st.as.set j (some b.moved) ++ [some b]) k = inUse st.as k := by
        intro k
        have := inUse_set hj (some b.moved) k
        rw [inUse_append]
        simpa [SArr.moved] using this
      exact settle hI _ _ st.ctls none e1 rfl e2 (fun k c hk => by rw [key]; simpa using hI.uses k c hk) (fun k hk => by rwa [key] at hk) (fun k hk => by rw [key]; exact .inl hk) (by simp)
    · simp at h
  | .copy i j, _, h =>
    simp only [SOp.step] at h
    split at h
    · next a b hi hj =>
      split at h
      · simp at h
      · simp only [Prod.mk.injEq, true_and] at h
        subst h
        obtain ⟨g, hg, ht⟩ := hI.get hj
        refine ⟨{ w with handles := w.handles.set i (some g) }, by simp [SOp.effect, hg], ?_⟩
        obtain ⟨e1, e2⟩ := slot_set hI.len hI.slot i (some b) (some g) ht
        have key := inUse_set hi (some b)
        simp only [Option.bind_some] at key
        refine settle hI _ _ (acquire b.ctl st.ctls) a.ctl e1 (acquire_same _ _) e2 ?_ ?_ ?_ ?_
        · intro k c hk
          obtain ⟨c0, h1, h2⟩ := acquire_uses hk
          rw [h2, hI.uses k c0 h1, key k]
        · intro k hk
          by_cases e : b.ctl = some k
          · exact inUse_pos.mpr ⟨j, b, hj, e⟩
          · have := key k
            rw [if_neg e] at this
            omega
        · intro k hk
          by_cases e : a.ctl = some k
          · exact .inr e
          · have := key k
            rw [if_neg e] at this
            left; omega
        · intro k hk
          exact inUse_pos.mpr ⟨i, a, hi, hk⟩
    · simp at h
  | .move i j, _, h =>
    simp only [SOp.step] at h
    split at h
    · next a b hi hj =>
      split at h
      · simp at h
      · next hne =>
        simp only [not_or, not_not] at hne
        simp only [Prod.mk.injEq, true_and] at h
        subst h
        obtain ⟨g, hg, ht⟩ := hI.get hj
        refine ⟨{ w with handles := (w.handles.set j (some g.moved)).set i (some g) }, by simp [SOp.effect, hg], ?_⟩
        obtain ⟨d1, d2⟩ := slot_set hI.len hI.slot j (some b.moved) (some g.moved) ht.moved
        obtain ⟨e1, e2⟩ := slot_set d1 d2 i (some b) (some g) ht
        have key : ∀ k, inUse ((st.as.set j (some b.moved)).set i (some b)) k + (if a.ctl = some k then 1 else 0) = inUse st.as k := by
          intro k
          have h1 := inUse_set hj (some b.moved) k
          have h2 := inUse_set (as := st.as.set j (some b.moved)) (i := i) (o := some a) (by rw [List.getElem?_set_ne (Ne.symm hne.1), hi]) (some b) k
          simp only [Option.bind_some, SArr.moved] at h1 h2 ⊢
          simp only [reduceCtorEq, if_false] at h1
          omega
        refine settle hI _ _ st.ctls a.ctl e1 rfl e2 ?_ ?_ ?_ ?_
        · intro k c hk
          rw [hI.uses k c hk, key k]
        · intro k hk
          have := key k
          omega
        · intro k hk
          by_cases e : a.ctl = some k
          · exact .inr e
          · have := key k
            rw [if_neg e] at this
            left; omega
        · intro k hk
          exact inUse_pos.mpr ⟨i, a, hi, hk⟩
    · simp at h
  | .swap i j, _, h =>
    simp only [SOp.step] at h
    split at h
    · next a b hi hj =>
      obtain ⟨f, hf, hta⟩ := hI.get hi
      obtain ⟨g, hg, htb⟩ := hI.get hj
      split at h
      · next e =>
        subst e
        rw [hi] at hj
        rw [hf] at hg
        simp only [Option.some.injEq] at hj hg
        subst hj
        subst hg
        simp only [Prod.mk.injEq, true_and] at h
        subst h
        refine ⟨w, ?_, hI⟩
        simp only [SOp.effect, hf, List.set_set]
        congr
        obtain ⟨h1, h2⟩ := List.getElem?_eq_some_iff.mp hf
        rw [← h2, List.set_getElem_self]
      · next hne =>
        split at h
        · next a' b' hs =>
          simp only [Prod.mk.injEq, true_and] at h
          subst h
          obtain ⟨s1, s2, s3, s4⟩ := swap_views hs
          refine ⟨{ w with handles := (w.handles.set i (some { g with fixed := f.fixed })).set j (some { f with fixed := g.fixed }) }, by simp only [SOp.effect, hf, hg], ?_⟩
          obtain ⟨d1, d2⟩ := slot_set hI.len hI.slot i (some ⟨a', b.ctl⟩) (some { g with fixed := f.fixed }) (htb.swapped s3 (by rw [hta.fixed, s1]))
          obtain ⟨e1, e2⟩ := slot_set d1 d2 j (some ⟨b', a.ctl⟩) (some { f with fixed := g.fixed }) (hta.swapped s4 (by rw [htb.fixed, s2]))
          have key : ∀ k, inUse ((st.as.set i (some ⟨a', b.ctl⟩)).set j (some ⟨b', a.ctl⟩)) k = inUse st.as k := by
            intro k
            have h1 := inUse_set hi (some ⟨a', b.ctl⟩) k
            have h2 := inUse_set (as := st.as.set i (some ⟨a', b.ctl⟩)) (i := j) (o := some b) (by rw [List.getElem?_set_ne hne, hj]) (some ⟨b', a.ctl⟩) k
            simp only [Option.bind_some] at h1 h2
            omega
          exact settle hI _ _ st.ctls none e1 rfl e2 (fun k c hk => by rw [key]; simpa using hI.uses k c hk) (fun k hk => by rwa [key] at hk) (fun k hk => by rw [key]; exact .inl hk) (by simp)
        · simp at h
    · simp at h
  | .destroy i, _, h =>
    simp only [SOp.step] at h
    split at h
    · next a hi =>
      simp only [Prod.mk.injEq, true_and] at h
      subst h
      refine ⟨_, rfl, ?_⟩
      obtain ⟨e1, e2⟩ := slot_set hI.len hI.slot i none none trivial
      have key : ∀ k, inUse (st.as.set i none) k + (if a.ctl = some k then 1 else 0) = inUse st.as k := by
        intro k
        have := inUse_set hi none k
        simpa using this
      refine settle hI _ _ st.ctls a.ctl e1 rfl e2 ?_ ?_ ?_ ?_
      · intro k c hk
        rw [hI.uses k c hk, key k]
      · intro k hk
        have := key k
        omega
      · intro k hk
        by_cases e : a.ctl = some k
        · exact .inr e
        · have := key k
          rw [if_neg e] at this
          left; omega
      · intro k hk
        exact inUse_pos.mpr ⟨i, a, hi, hk⟩
    · simp at h
  | .set i j x, _, h =>
    simp only [SOp.step] at h
    split at h
    · next a hi =>
      obtain ⟨g, hg, ht⟩ := hI.get hi
      have hla : a.arr.dims.length = g.shape.length := by simpa [Arr.view] using ht.shaped.length_eq
      split at h
      · next hl =>
        simp only [Prod.mk.injEq] at h
        obtain ⟨h1, rfl⟩ := h
        obtain ⟨e1, e2⟩ := elemAt_eq a.arr.view g.shape ht.shaped (fun p => if a.ctl = none then fault .ub else (Act.write p x : Act V Unit)) j (by omega)
        by_cases hin : InRange (g.shape.map some) j
        · have hj : Valid g.shape j := valid_of_inRange (by omega) hin
          rw [e1 hin] at h1 ⊢
          cases hk : a.ctl with
          | none => simp only [hk, if_true] at h1; cases h1
          | some k =>
            simp only [hk, reduceCtorEq, if_false] at h1 ⊢
            have hu : 0 < inUse st.as k := inUse_pos.mpr ⟨i, a, hi, hk⟩
            obtain ⟨c, hc, hcase⟩ := ht.block k hk
            have hgo : g.obj = some k := by rw [ht.same, hk]
            have hcu : 0 < c.uses := by rw [hI.uses k c hc]; exact hu
            rcases hcase with ⟨ho, hn, had⟩ | ⟨ho, v, hv, had⟩
            · obtain ⟨xs, g1, g2, g3⟩ := hI.made k c hc ho
              obtain ⟨b1, b2⟩ := position_bounds hj
              have hq := g3 hcu (position g.shape j).toNat (by omega)
              have hpa : address a.arr.view j = c.base + ((position g.shape j).toNat : Int) := by rw [had j hj]; omega
              refine ⟨{ w with objects := w.objects.set k (.made (xs.set (position g.shape j).toNat x)) }, ?_, ?_⟩
              · simp only [SOp.effect, hg, if_pos (mem_rowMajor.mpr hj), World.write, hgo, g1]
              · have hsome : ∃ y, st.μ (address a.arr.view j) = some y := by
                  rw [hpa, hq.1]; exact ⟨_, List.getElem?_eq_getElem (by omega)⟩
                obtain ⟨y, hy⟩ := hsome
                simp only [Act.write, hy]
                rw [hpa]
                exact poke_made hI hc ho hcu g1 _ (by omega) x
            · obtain ⟨q1, q2⟩ := had j hj
              refine ⟨{ w with memory := fun p => if p = address v j then some x else w.memory p }, ?_, ?_⟩
              · simp only [SOp.effect, hg, if_pos (mem_rowMajor.mpr hj), World.write, hgo, hv]
              · obtain ⟨r1, r2⟩ := hI.rest _ q2
                obtain ⟨y, hy⟩ := Option.isSome_iff_exists.mp r2
                rw [← r1, ← q1] at hy
                simp only [Act.write, hy]
                rw [q1]
                exact poke_outside hI _ q2 x
        · rw [e2 hin] at h1
          cases h1
      · simp at h
    · simp at h

theorem srun {μ0 : Mem V} {uniq : Bool} {w : World V} {st st' : SState V} (hI : SInv μ0 st w) (ops : List (SOp V))
    (hb : ∀ rk v, SOp.borrow rk v ∈ ops → ∃ s : List Nat, Shaped v (s.map some) ∧ ∀ j, Valid s j → (μ0 (address v j)).isSome)
    (h : sprogram uniq ops st = (.ok (), st')) : ∃ w', sharedEffects ops w = some w' ∧ SInv μ0 st' w' := by
  induction ops generalizing st w with
  | nil =>
    simp only [sprogram, Prod.mk.injEq, true_and] at h
    subst h
    exact ⟨w, rfl, hI⟩
  | cons op ops ih =>
    simp only [sprogram] at h
    split at h
    · next st1 h1 =>
      obtain ⟨w1, e1, e2⟩ := sstep hI op (fun rk v e => hb rk v (by simp [e])) h1
      obtain ⟨w', e3, e4⟩ := ih e2 (fun rk v e => hb rk v (List.mem_cons_of_mem _ e)) h
      exact ⟨w', by simp only [sharedEffects, e1, e3], e4⟩
    · simp at h

theorem sinv_nil (μ0 : Mem V) : SInv μ0 ⟨[], [], μ0⟩ ⟨[], [], μ0⟩ :=
  ⟨rfl, rfl, by simp, by simp, by simp, by simp, fun p h => ⟨rfl, h⟩, fun p h1 h2 => by simp [h1] at h2⟩

/-- C80. After any operations that succeed, each array has the shape and the elements that it has if variables are references to objects that are never destroyed. Memory that isn't of the arrays
changes only by assignment to borrowed arrays, and memory that's allocated for the elements is in use if and only if there's an array that refers to them. -/
theorem C80_sharing (uniq : Bool) (ops : List (SOp V)) (μ0 : Mem V) (hb : ∀ rk v, SOp.borrow rk v ∈ ops → ∃ s : List Nat, Shaped v (s.map some) ∧ ∀ j, Valid s j → (μ0 (address v j)).isSome)
    (st : SState V) (h : sprogram uniq ops ⟨[], [], μ0⟩ = (.ok (), st)) :
    ∃ w, sharedEffects ops ⟨[], [], μ0⟩ = some w ∧ List.Forall₂ (Stands st.μ w) st.as w.handles ∧ (∀ p, (μ0 p).isSome → st.μ p = w.memory p) ∧
      ∀ p, μ0 p = none → ((st.μ p).isSome ↔ ∃ (i : Nat) (a : SArr) (g : Handle) (j : List Int), st.as[i]? = some (some a) ∧ w.handles[i]? = some (some g) ∧ g.obj ≠ none ∧ Valid g.shape j ∧
        p = address a.arr.view j) := by
  obtain ⟨w, h1, hI⟩ := srun (sinv_nil μ0) ops hb h
  have hst : ∀ (i : Nat) (a : SArr) (g : Handle), st.as[i]? = some (some a) → w.handles[i]? = some (some g) → Ties μ0 st.ctls w.objects a g := fun i a g h1 h2 => hI.slot i _ _ h1 h2
  have hel : ∀ (i : Nat) (a : SArr) (g : Handle) (j : List Int), st.as[i]? = some (some a) → w.handles[i]? = some (some g) → g.obj ≠ none → Valid g.shape j →
      ∃ x, w.read g j = some x ∧ st.μ (address a.arr.view j) = some x := by
    intro i a g j ha hg ho hj
    have t := hst i a g ha hg
    obtain ⟨k, hk⟩ := Option.ne_none_iff_exists'.mp ho
    obtain ⟨c, hc, hcase⟩ := t.block k (by rw [← t.same, hk])
    have hcu : 0 < c.uses := by rw [hI.uses k c hc]; exact inUse_pos.mpr ⟨i, a, ha, by rw [← t.same, hk]⟩
    simp only [World.read, hk]
    rcases hcase with ⟨hown, hn, had⟩ | ⟨hown, v, hv, had⟩
    · obtain ⟨xs, g1, g2, g3⟩ := hI.made k c hc hown
      obtain ⟨b1, b2⟩ := position_bounds hj
      have hq := (g3 hcu (position g.shape j).toNat (by omega)).1
      have hlt : (position g.shape j).toNat < xs.length := by omega
      simp only [g1]
      refine ⟨xs[(position g.shape j).toNat], List.getElem?_eq_getElem hlt, ?_⟩
      rw [had j hj, ← List.getElem?_eq_getElem hlt, ← hq]
      congr 1; omega
    · obtain ⟨q1, q2⟩ := had j hj
      obtain ⟨r1, r2⟩ := hI.rest _ q2
      obtain ⟨y, hy⟩ := Option.isSome_iff_exists.mp r2
      simp only [hv]
      exact ⟨y, hy, by rw [q1, r1, hy]⟩
  refine ⟨w, h1, List.forall₂_iff_get.mpr ⟨hI.len, fun i hi hi' => ?_⟩, fun p hp => (hI.rest p hp).1, fun p hp => ⟨fun hs => ?_, ?_⟩⟩
  · have ha : st.as[i]? = some st.as[i] := List.getElem?_eq_getElem hi
    have hg : w.handles[i]? = some w.handles[i] := List.getElem?_eq_getElem hi'
    have := hI.slot i _ _ ha hg
    simp only [List.get_eq_getElem]
    revert ha hg this
    generalize st.as[i] = o
    generalize w.handles[i] = o'
    intro ha hg this
    match o, o', this with
    | none, none, _ => trivial
    | some a, some g, (t : Ties _ _ _ _ _) => exact ⟨t.shaped, fun ho j hj => hel i a g j ha hg ho hj⟩
  · obtain ⟨k, c, g1, g2, g3, g4, g5⟩ := hI.only p hp hs
    rw [hI.uses k c g1] at g3
    obtain ⟨i, a, ha, hk⟩ := inUse_pos.mp g3
    obtain ⟨g, hg, t⟩ := hI.get ha
    obtain ⟨c', hc', hcase⟩ := t.block k hk
    rw [g1] at hc'
    obtain rfl := Option.some.inj hc'
    rcases hcase with ⟨_, hn, had⟩ | ⟨hown, _⟩
    · obtain ⟨j, hj, hpj⟩ := position_surj g.shape (p - c.base) (by omega) (by omega)
      exact ⟨i, a, g, j, ha, hg, by rw [t.same, hk]; simp, hj, by rw [had j hj]; omega⟩
    · rw [g2] at hown; cases hown
  · rintro ⟨i, a, g, j, ha, hg, ho, hj, rfl⟩
    obtain ⟨x, _, hx⟩ := hel i a g j ha hg ho hj
    simp [hx]

/-- C80. After all the arrays are destroyed, no memory has been lost. -/
theorem C80_no_leak (uniq : Bool) (ops : List (SOp V)) (μ0 : Mem V) (hb : ∀ rk v, SOp.borrow rk v ∈ ops → ∃ s : List Nat, Shaped v (s.map some) ∧ ∀ j, Valid s j → (μ0 (address v j)).isSome)
    (st : SState V) (h : sprogram uniq ops ⟨[], [], μ0⟩ = (.ok (), st)) (hd : ∀ o ∈ st.as, o = none) (p : Int) : (st.μ p).isSome = (μ0 p).isSome := by
  obtain ⟨w, h1, hI⟩ := srun (sinv_nil μ0) ops hb h
  obtain ⟨_, _, _, _, h2⟩ := C80_sharing uniq ops μ0 hb st h
  cases hp : μ0 p with
  | some x =>
    obtain ⟨g1, g2⟩ := hI.rest p (by simp [hp])
    rw [g1]; simpa using g2
  | none =>
    have hn : ¬ (st.μ p).isSome = true := by
      rw [h2 p hp]
      rintro ⟨i, a, _, _, ha, _⟩
      exact absurd (hd _ (List.mem_of_getElem? ha)) (by simp)
    simpa using hn

/-- C80. Assignment to an element succeeds if and only if the variable exists, the index is valid and there are elements. If the index isn't valid then the check fails. -/
theorem C80_set (uniq : Bool) (ops : List (SOp V)) (μ0 : Mem V) (hb : ∀ rk v, SOp.borrow rk v ∈ ops → ∃ s : List Nat, Shaped v (s.map some) ∧ ∀ j, Valid s j → (μ0 (address v j)).isSome)
    (st : SState V) (w : World V) (h : sprogram uniq ops ⟨[], [], μ0⟩ = (.ok (), st)) (hw : sharedEffects ops ⟨[], [], μ0⟩ = some w) (i : Nat) (g : Handle) (hg : w.handles[i]? = some (some g))
    (j : List Int) (hj : j.length = g.shape.length) (x : V) :
    ((∃ st', SOp.step uniq st (.set i j x) = (.ok (), st')) ↔ Valid g.shape j ∧ g.obj ≠ none) ∧ (¬ Valid g.shape j → SOp.step uniq st (.set i j x) = (.error .check, st)) := by
  obtain ⟨w', h1, hI⟩ := srun (sinv_nil μ0) ops hb h
  obtain rfl : w' = w := Option.some.inj (h1.symm.trans hw)
  have hi : i < st.as.length := by rw [hI.len]; exact (List.getElem?_eq_some_iff.mp hg).1
  have ha0 : st.as[i]? = some st.as[i] := List.getElem?_eq_getElem hi
  have hs := hI.slot i _ _ ha0 hg
  obtain ⟨a, ha, t⟩ : ∃ a, st.as[i]? = some (some a) ∧ Ties μ0 st.ctls w'.objects a g := by
    revert ha0 hs
    generalize st.as[i] = o
    intro ha0 hs
    match o, hs with
    | some a, hs => exact ⟨a, ha0, hs⟩
  have hla : a.arr.dims.length = g.shape.length := by simpa [Arr.view] using t.shaped.length_eq
  obtain ⟨e1, e2⟩ := elemAt_eq a.arr.view g.shape t.shaped (fun p => if a.ctl = none then fault .ub else (Act.write p x : Act V Unit)) j hj
  have hiff : InRange (g.shape.map some) j ↔ Valid g.shape j := ⟨valid_of_inRange hj, fun h => inRange_of_valid h⟩
  simp only [SOp.step, ha, if_pos (hj.trans hla.symm)]
  rw [hiff] at e1 e2
  refine ⟨⟨?_, ?_⟩, fun hn => by rw [e2 hn]; rfl⟩
  · rintro ⟨st', hst⟩
    by_cases hv : Valid g.shape j
    · refine ⟨hv, fun ho => ?_⟩
      rw [e1 hv, if_pos (by rw [← t.same, ho])] at hst
      simp only [Prod.mk.injEq] at hst
      cases hst.1
    · rw [e2 hv] at hst
      simp only [Prod.mk.injEq] at hst
      cases hst.1
  · rintro ⟨hv, ho⟩
    obtain ⟨w2, e3, hF, _, _⟩ := C80_sharing uniq ops μ0 hb st h
    obtain rfl : w2 = w' := Option.some.inj (e3.symm.trans hw)
    have hS := (List.forall₂_iff_get.mp hF).2 i hi (List.getElem?_eq_some_iff.mp hg).1
    simp only [List.get_eq_getElem, (List.getElem?_eq_some_iff.mp ha).2, (List.getElem?_eq_some_iff.mp hg).2] at hS
    obtain ⟨y, _, hy⟩ := hS.2 ho j hv
    rw [e1 hv, if_neg (by rw [← t.same]; exact ho)]
    simp only [Act.write, hy]
    exact ⟨_, rfl⟩

/-- C80. Arrays that refer to the same object have the same elements, so an assignment to one is an assignment to the other; and it isn't an assignment to an array that refers to another object that was
made for it. -/
theorem C80_alias (w w' : World V) (g h : Handle) (j k : List Int) (x : V) (hj : Valid g.shape j) (hw : w.write g j x = some w') (hk : Valid h.shape k) :
    (h.obj = g.obj → h.shape = g.shape → (∀ xs, w.objects[g.obj.getD 0]? = some (.made xs) → xs.length = size g.shape) →
      (∀ v, w.objects[g.obj.getD 0]? = some (.borrowed v) → ∀ i i', Valid g.shape i → Valid g.shape i' → address v i = address v i' → i = i') → w'.read h k = if k = j then some x else w.read h k) ∧
    (h.obj ≠ g.obj → (∃ l xs, h.obj = some l ∧ w.objects[l]? = some (.made xs)) → w'.read h k = w.read h k) := by
  unfold World.write at hw
  split at hw
  · cases hw
  · next n hn =>
    constructor
    · intro ho hs h1 h2
      simp only [hn, Option.getD_some] at h1 h2
      rw [hs] at hk
      simp only [World.read, ho, hn]
      split at hw
      · next xs hx =>
        obtain rfl := Option.some.inj hw
        have hl : n < w.objects.length := (List.getElem?_eq_some_iff.mp hx).1
        simp only [List.getElem?_set, if_true, hl, hx, hs]
        obtain ⟨b1, b2⟩ := position_bounds hj
        obtain ⟨c1, c2⟩ := position_bounds hk
        have := h1 xs hx
        by_cases e : k = j
        · subst e
          rw [if_pos rfl, if_pos rfl, if_pos (by omega)]
        · rw [if_neg e, if_neg]
          intro e2
          exact e (position_inj hk hj (by omega))
      · next v hx =>
        obtain rfl := Option.some.inj hw
        simp only [hx]
        by_cases e : k = j
        · subst e; simp
        · rw [if_neg e, if_neg]
          intro e2
          exact e (h2 v hx k j hk hj e2)
      · cases hw
    · rintro hne ⟨l, xs, hl, hx⟩
      rw [hn, hl] at hne
      have hln : n ≠ l := fun e => hne (by rw [e])
      simp only [World.read, hl, hx]
      split at hw
      · obtain rfl := Option.some.inj hw
        simp only [List.getElem?_set_ne hln, hx]
      · obtain rfl := Option.some.inj hw
        simp only [hx]
      · cases hw

end

/-- Make `a`, `b = a`, write to `b`, make `c` and move `b` to it, destroy `a`. The element is still there, and it's 7. -/
def egShared : List (SOp Int) := [.create (some 1) (some 100) (fun i => i) [2], .copyNew 0, .set 1 [1] 7, .default (some 1), .move 2 1, .destroy 0]
example : (sprogram false egShared ⟨[], [], fun _ => none⟩).1 = .ok () := by decide +kernel
example : (sprogram false egShared ⟨[], [], fun _ => none⟩).2.μ 101 = some 7 := by decide +kernel
example : (sharedEffects egShared ⟨[], [], fun _ => none⟩).map (fun w => w.handles.map (Option.map Handle.obj)) = some [none, some none, some (some 0)] := by decide +kernel
/-- Borrow a matrix, and destroy it. The memory isn't released. -/
example : (sprogram false [.borrow (some 2) ⟨[⟨2, 3⟩, ⟨3, 1⟩], 0⟩, .set 0 [1, 2] 9, .destroy 0] ⟨[], [], fun p => if 0 ≤ p ∧ p < 6 then some p else none⟩).2.μ 5 = some 9 := by decide +kernel
/-- When the last copy is destroyed the memory is released. -/
example : (sprogram false (egShared ++ [.destroy 2]) ⟨[], [], fun _ => none⟩).2.μ 101 = none := by decide +kernel

end Ra.Props
