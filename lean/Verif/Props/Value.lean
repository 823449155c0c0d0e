import Verif.Spec.Value
import Verif.Props.Array
import Verif.Props.Chain
import Verif.Props.Nest
/-!
# C75: arrays are values
-/

namespace Ra.Props
open Spec

section
variable {V : Type}

/-- `Represents`, by the place of each element in the storage. -/
def Rep (μ : Mem V) (a : Arr) (v : Value V) : Prop :=
  Container a μ v.shape ∧ v.elems.length = size v.shape ∧ ∀ k : Nat, k < a.n → μ (a.base + k) = v.elems[k]?

theorem rep_iff (μ : Mem V) (a : Arr) (v : Value V) : Represents μ a v ↔ Rep μ a v := by
  refine and_congr_right fun hc => and_congr_right fun hl => ⟨fun h k hk => ?_, fun h j hj => ?_⟩
  · obtain ⟨j, hj, hp⟩ := position_surj v.shape k (by omega) (by have := hc.count; omega)
    have := h j hj
    rw [addr_of hc hj, hp] at this
    rw [this, Value.get, hp, Int.toNat_natCast]
  · rw [addr_of hc hj, Value.get]
    obtain ⟨k, hk, hlt⟩ := position_of hj
    rw [hk, h k (by have := hc.count; omega), Int.toNat_natCast]

/-! Changes of one array. -/

theorem rep_other {a a' b : Arr} {v : Value V} {μ μ' : Mem V} (hm : Moved a a' μ μ') (hb : Rep μ b v) (hd : ∀ p, Owns b p → ¬ Owns a p) : Rep μ' b v := by
  obtain ⟨h1, h2⟩ := keep_other hm hb.1 hd
  refine ⟨h1, hb.2.1, fun k hk => ?_⟩
  have ho : Owns b (b.base + k) := by simp only [Owns]; omega
  rw [hm.out _ (hd _ ho) (h2 _ ho)]
  exact hb.2.2 k hk

/-- The invariant. `μ0` is the memory at first. -/
structure Same (μ0 : Mem V) (as : List Arr) (vs : List (Value V)) (μ : Mem V) : Prop where
  sound : Sound (fun p => (μ0 p).isSome) as μ
  len : as.length = vs.length
  rep : ∀ (i : Nat) a v, as[i]? = some a → vs[i]? = some v → Rep μ a v
  rest : ∀ p, (μ0 p).isSome → μ p = μ0 p

theorem Same.get {μ0 μ : Mem V} {as : List Arr} {vs : List (Value V)} (h : Same μ0 as vs μ) {i : Nat} {a : Arr} (hi : as[i]? = some a) : ∃ v, vs[i]? = some v ∧ Rep μ a v := by
  have hlt : i < vs.length := by rw [← h.len]; exact (List.getElem?_eq_some_iff.mp hi).1
  exact ⟨vs[i], by simp [hlt], h.rep i a _ hi (by simp [hlt])⟩

theorem rest_moved {μ0 μ μ' : Mem V} {as : List Arr} {vs : List (Value V)} {a a' : Arr} (h : Same μ0 as vs μ) (ha : ∀ p, (μ0 p).isSome → ¬ Owns a p) (hm : Moved a a' μ μ')
    (p : Int) (hp : (μ0 p).isSome) : μ' p = μ0 p := by
  rw [hm.out p (ha p hp), h.rest p hp]
  intro ho
  rcases hm.new p ho with h1 | h1
  · exact ha p hp h1
  · rw [h.rest p hp] at h1
    simp [h1] at hp

theorem same_set {μ0 μ μ' : Mem V} {as : List Arr} {vs : List (Value V)} {i : Nat} {a a' : Arr} {v' : Value V} (h : Same μ0 as vs μ) (hi : as[i]? = some a)
    (hm : Moved a a' μ μ') (hr : Rep μ' a' v') : Same μ0 (as.set i a') (vs.set i v') μ' := by
  refine ⟨set_sound h.sound hi hm hr.1, by simp [h.len], ?_, fun p hp => rest_moved h (fun q hq => h.sound.rest q hq a (List.mem_of_getElem? hi)) hm p hp⟩
  intro k b w hb hw
  rw [List.getElem?_set] at hb hw
  split at hb
  · next hk =>
    subst hk
    simp only [if_true] at hw
    split at hb
    · next hlt =>
      rw [if_pos (by rw [← h.len]; exact hlt)] at hw
      simp only [Option.some.injEq] at hb hw
      subst hb hw
      exact hr
    · cases hb
  · next hk =>
    rw [if_neg hk] at hw
    exact rep_other hm (h.rep k b w hb hw) fun p hp => h.sound.disj k i b a (Ne.symm hk) hb hi p hp

theorem same_add {μ0 μ μ' : Mem V} {as : List Arr} {vs : List (Value V)} {e a : Arr} {v : Value V} (h : Same μ0 as vs μ) (he : e.n = 0)
    (hm : Moved e a μ μ') (hr : Rep μ' a v) : Same μ0 (as ++ [a]) (vs ++ [v]) μ' := by
  have hne : ∀ p, ¬ Owns e p := by
    intro p hp
    simp only [Owns] at hp
    omega
  refine ⟨add_sound h.sound he hm hr.1, by simp [h.len], ?_, fun p hp => rest_moved h (fun q _ => hne q) hm p hp⟩
  intro k b w hb hw
  rw [List.getElem?_append] at hb hw
  rw [← h.len] at hw
  split at hb
  · next hk =>
    rw [if_pos hk] at hw
    exact rep_other hm (h.rep k b w hb hw) fun p _ => hne p
  · next hk =>
    rw [if_neg hk] at hw
    obtain ⟨h1, rfl⟩ := List.getElem?_eq_some_iff.mp hb
    obtain ⟨h2, rfl⟩ := List.getElem?_eq_some_iff.mp hw
    simpa using hr

theorem fit_length (l : List V) (fill : Nat → V) (n : Nat) : (fit l fill n).length = n := by simp [fit]

theorem fit_get (l : List V) (fill : Nat → V) (n k : Nat) (hk : k < n) : (fit l fill n)[k]? = some (l.getD k (fill k)) := by simp [fit, hk]

/-- The array after a change of size. -/
theorem rep_fit {a a' : Arr} {v : Value V} {μ μ' : Mem V} {t : List Nat} {fill : Nat → V} {n : Nat} (h : Rep μ a v) (hc : Container a' μ' t) (hn : n = size t)
    (h1 : ∀ i : Nat, i < a'.n → i < a.n → μ' (a'.base + i) = μ (a.base + i)) (h2 : ∀ i : Nat, i < a'.n → a.n ≤ i → μ' (a'.base + i) = some (fill i)) :
    Rep μ' a' ⟨t, fit v.elems fill n⟩ := by
  refine ⟨hc, by rw [fit_length]; exact hn, fun k hk => ?_⟩
  have e1 := h.1.count
  have e2 := hc.count
  have e3 := h.2.1
  show _ = (fit v.elems fill n)[k]?
  rw [fit_get _ _ _ _ (by omega)]
  by_cases hka : k < a.n
  · rw [h1 k hk hka, h.2.2 k hka, List.getD_eq_getElem?_getD, List.getElem?_eq_getElem (by omega)]
    rfl
  · rw [h2 k hk (by omega), List.getD_eq_getElem?_getD, List.getElem?_eq_none (by omega)]
    rfl

/-! Shapes. -/

theorem longest_length (ss : List (List Nat)) : ∀ s ∈ ss, s.length ≤ (longest ss).length := by
  induction ss with
  | nil => simp
  | cons t ss ih =>
    intro s hs
    simp only [longest]
    rcases List.mem_cons.mp hs with rfl | hs
    · split <;> omega
    · have := ih s hs
      split <;> omega

theorem longest_mem (ss : List (List Nat)) (h : ss ≠ []) : longest ss ∈ ss := by
  induction ss with
  | nil => simp at h
  | cons t ss ih =>
    simp only [longest]
    split
    · simp
    · next hlt =>
      by_cases hs : ss = []
      · subst hs
        simp [longest] at hlt
      · exact List.mem_cons_of_mem _ (ih hs)

theorem agreed_iff (ss : List (List Nat)) : agreed ss = true ↔ ∀ s ∈ ss, s <+: longest ss := by
  simp [agreed]

theorem prefix_get {s t : List Nat} (h : s <+: t) (k : Nat) (hk : k < s.length) : t[k]? = s[k]? := by
  obtain ⟨u, rfl⟩ := h
  rw [List.getElem?_append_left hk]

/-- Finite shapes match if each one is a prefix of the longest. -/
theorem mergeP_finite (ss : List (List Nat)) (hss : ss ≠ []) (S : List Length) :
    MergeP (fun x => ∃ s ∈ ss, x = s.map some) S ↔ S = (longest ss).map some ∧ ∀ s ∈ ss, s <+: longest ss := by
  have hm := longest_mem ss hss
  have hl := longest_length ss
  constructor
  · rintro ⟨h1, ⟨_, ⟨s0, hs0, rfl⟩, h2⟩, h3⟩
    have hlen : S.length = (longest ss).length := by
      have a1 := h1 _ ⟨_, hm, rfl⟩
      have a2 := hl _ hs0
      simp at a1 h2
      omega
    have hS : S = (longest ss).map some := by
      refine List.ext_getElem (by simpa using hlen) fun k hk1 hk2 => ?_
      have := (h3 k ((longest ss)[k]'(by simpa using hk2))).mpr ⟨_, ⟨_, hm, rfl⟩, by simp at hk2; simp [hk2]⟩
      rw [List.getElem?_eq_getElem hk1, Option.some.injEq] at this
      simpa using this
    refine ⟨hS, fun s hs => ?_⟩
    rw [List.prefix_iff_eq_take]
    refine List.ext_getElem (by have := hl s hs; simp; omega) fun k hk1 hk2 => ?_
    have := (h3 k s[k]).mpr ⟨_, ⟨s, hs, rfl⟩, by simp [hk1]⟩
    rw [hS] at this
    simp only [List.getElem?_map, Option.map_eq_some_iff, Option.some.injEq, exists_eq_right] at this
    obtain ⟨h5, h6⟩ := List.getElem?_eq_some_iff.mp this
    simp [h6]
  · rintro ⟨rfl, h⟩
    refine ⟨?_, ⟨_, ⟨_, hm, rfl⟩, rfl⟩, fun k n => ⟨fun hk => ⟨_, ⟨_, hm, rfl⟩, hk⟩, ?_⟩⟩
    · rintro _ ⟨s, hs, rfl⟩
      simpa using hl s hs
    · rintro ⟨_, ⟨s, hs, rfl⟩, hk⟩
      obtain ⟨hk1, hk2⟩ := List.getElem?_eq_some_iff.mp hk
      simp only [List.length_map] at hk1
      rw [List.getElem?_map, prefix_get (h s hs) k hk1, ← List.getElem?_map]
      exact hk

/-- Every argument has the shape it should, and so the checks are those of `agreed`. -/
theorem exp_leaves {μ0 μ : Mem V} {as : List Arr} {vs : List (Value V)} (h : Same μ0 as vs μ) (e : Exp V) (t : Iter (Act V) (Lv V)) (ht : e.iter as = some t) :
    t.WF ∧ Exp.has vs e = true ∧ (∀ b ∈ leaves t, ∃ s ∈ Exp.shapes vs e, HasShape b (s.map some)) ∧ ∀ s ∈ Exp.shapes vs e, ∃ b ∈ leaves t, HasShape b (s.map some) := by
  induction e generalizing t with
  | const x =>
    simp only [Ra.Exp.iter, Option.some.injEq] at ht
    subst ht
    simp [leaves, Exp.shapes, HasShape, Iter.WF, Exp.has]
  | arr i =>
    simp only [Ra.Exp.iter] at ht
    split at ht
    · next a ha =>
      simp only [Option.some.injEq] at ht
      subst ht
      obtain ⟨v, hv, hr⟩ := h.get ha
      have hsh : HasShape (a.view.refs : Iter (Act V) (Lv V)) (v.shape.map some) := refs_shape (C30_elements a μ _ hr.1).1
      refine ⟨hsh.wf, by simp [Exp.has, hv], ?_, ?_⟩
      · simp only [View.refs, leaves, List.mem_singleton, Exp.shapes, hv, exists_eq_left]
        rintro b rfl
        exact hsh
      · simp only [View.refs, leaves, List.mem_singleton, Exp.shapes, hv, exists_eq_left]
        rintro b rfl
        exact hsh
    · cases ht
  | op f a b iha ihb =>
    simp only [Ra.Exp.iter] at ht
    split at ht
    · next x y hx hy =>
      simp only [Option.some.injEq] at ht
      subst ht
      obtain ⟨a1, a0, a2, a3⟩ := iha x hx
      obtain ⟨b1, b0, b2, b3⟩ := ihb y hy
      refine ⟨⟨by simp, a1, b1, trivial⟩, by simp [Exp.has, a0, b0], ?_, ?_⟩
      · intro c hc
        simp only [binaryOp, leaves, leavesAll, List.append_nil, List.mem_append] at hc
        rcases hc with hc | hc
        · obtain ⟨s, hs, h⟩ := a2 c hc
          exact ⟨s, by simp [Exp.shapes, hs], h⟩
        · obtain ⟨s, hs, h⟩ := b2 c hc
          exact ⟨s, by simp [Exp.shapes, hs], h⟩
      · intro s hs
        simp only [Exp.shapes, List.mem_append] at hs
        rcases hs with hs | hs
        · obtain ⟨c, hc, h⟩ := a3 s hs
          exact ⟨c, by simp [binaryOp, leaves, leavesAll, hc], h⟩
        · obtain ⟨c, hc, h⟩ := b3 s hs
          exact ⟨c, by simp [binaryOp, leaves, leavesAll, hc], h⟩
    · cases ht

theorem exp_iter {as : List Arr} {vs : List (Value V)} (h : as.length = vs.length) (e : Exp V) (he : Exp.has vs e = true) : ∃ t, e.iter as = some t := by
  induction e with
  | const x => exact ⟨_, rfl⟩
  | arr i =>
    simp only [Exp.has] at he
    obtain ⟨v, hv⟩ := Option.isSome_iff_exists.mp he
    have : i < as.length := by rw [h]; exact (List.getElem?_eq_some_iff.mp hv).1
    exact ⟨as[i].view.refs, by simp [Ra.Exp.iter, this]⟩
  | op f a b iha ihb =>
    simp only [Exp.has, Bool.and_eq_true] at he
    obtain ⟨x, hx⟩ := iha he.1
    obtain ⟨y, hy⟩ := ihb he.2
    exact ⟨binaryOp f x y, by simp [Ra.Exp.iter, hx, hy]⟩

theorem assign_shape {μ0 μ : Mem V} {as : List Arr} {vs : List (Value V)} (h : Same μ0 as vs μ) {i : Nat} {a : Arr} {v : Value V} (ha : as[i]? = some a) (hv : vs[i]? = some v)
    (e : Exp V) (t : Iter (Act V) (Lv V)) (ht : e.iter as = some t) (op : List (Act V (Lv V)) → Act V (Lv V)) (S : List Length) :
    HasShape (.node op [a.view.refs, t]) S ↔ S = (longest (v.shape :: Exp.shapes vs e)).map some ∧ agreed (v.shape :: Exp.shapes vs e) = true := by
  obtain ⟨hw, _, h2, h3⟩ := exp_leaves h e t ht
  have hr := h.rep i a v ha hv
  have hsh : HasShape (a.view.refs : Iter (Act V) (Lv V)) (v.shape.map some) := refs_shape (C30_elements a μ _ hr.1).1
  have hwn : (Iter.node op [a.view.refs, t]).WF := ⟨by simp, hsh.wf, hw, trivial⟩
  rw [hasShape_leaves _ hwn, agreed_iff, ← mergeP_finite _ (by simp), Shapes]
  have hl : leaves (.node op [a.view.refs, t]) = a.view.refs :: leaves t := by simp [leaves, leavesAll, View.refs]
  have hP : ∀ x, (∃ b ∈ leaves (.node op [a.view.refs, t]), HasShape b x) ↔ ∃ s ∈ v.shape :: Exp.shapes vs e, x = s.map some := by
    intro x
    rw [hl]
    constructor
    · rintro ⟨b, hb, hx⟩
      rcases List.mem_cons.mp hb with rfl | hb
      · exact ⟨v.shape, by simp, hasShape_unique hx hsh⟩
      · obtain ⟨s, hs, hb'⟩ := h2 b hb
        exact ⟨s, by simp [hs], hasShape_unique hx hb'⟩
    · rintro ⟨s, hs, rfl⟩
      rcases List.mem_cons.mp hs with rfl | hs
      · exact ⟨_, by simp, hsh⟩
      · obtain ⟨b, hb, hb'⟩ := h3 s hs
        exact ⟨b, by simp [hb], hb'⟩
  have h1 : ∀ b ∈ leaves (.node op [a.view.refs, t]), ∃ x, HasShape b x := by
    rw [hl]
    intro b hb
    rcases List.mem_cons.mp hb with rfl | hb
    · exact ⟨_, hsh⟩
    · obtain ⟨s, hs, hb'⟩ := h2 b hb
      exact ⟨_, hb'⟩
  simp only [MergeP, hP, and_iff_right h1]

/-! Elements. -/

theorem valid_take {s t : List Nat} (h : s <+: t) {j : List Int} (hj : Valid t j) : Valid s (j.take s.length) := by
  obtain ⟨u, rfl⟩ := h
  obtain ⟨i, k, rfl, hi, hk⟩ := valid_split hj
  rw [← hi.length, List.take_left]
  exact hi

theorem rep_get {μ : Mem V} {a : Arr} {v : Value V} (h : Rep μ a v) {s : List Nat} (hs : v.shape <+: s) {j : List Int} (hj : Valid s j) :
    ∃ (k : Nat) (y : V), position v.shape (j.take v.shape.length) = k ∧ k < a.n ∧ address a.view j = a.base + k ∧ μ (a.base + k) = some y ∧ v.get (j.take v.shape.length) = some y := by
  have hv := valid_take hs hj
  obtain ⟨k, hk, hlt⟩ := position_of hv
  have hc := h.1.count
  have hsh := (C30_elements a μ _ h.1).1
  have hka : k < a.n := by omega
  have hkl : k < v.elems.length := by rw [h.2.1]; exact hlt
  refine ⟨k, v.elems[k], hk, hka, ?_, by rw [h.2.2 k hka]; simp [hkl], ?_⟩
  · rw [address_take hsh]
    simp only [List.length_map]
    rw [addr_of h.1 hv, hk]
  · rw [Value.get, hk]
    simp [hkl]

theorem exp_reads {μ0 μ : Mem V} {as : List Arr} {vs : List (Value V)} (h : Same μ0 as vs μ) {s : List Nat} {j : List Int} (hj : Valid s j) (e : Exp V) (t : Iter (Act V) (Lv V))
    (ht : e.iter as = some t) (hs : ∀ u ∈ Exp.shapes vs e, u <+: s) : ∃ x, Exp.at vs j e = some x ∧ Reads μ (elem t j) x := by
  induction e generalizing t with
  | const x =>
    simp only [Ra.Exp.iter, Option.some.injEq] at ht
    subst ht
    exact ⟨x, rfl, reads_scalar μ x j⟩
  | arr i =>
    simp only [Ra.Exp.iter] at ht
    split at ht
    · next a ha =>
      simp only [Option.some.injEq] at ht
      subst ht
      obtain ⟨v, hv, hr⟩ := h.get ha
      obtain ⟨k, y, h1, h2, h3, h4, h5⟩ := rep_get hr (hs v.shape (by simp [Exp.shapes, hv])) hj
      exact ⟨y, by simp [Exp.at, hv, h5], reads_refs (by rw [h3]; exact h4)⟩
    · cases ht
  | op f a b iha ihb =>
    simp only [Ra.Exp.iter] at ht
    split at ht
    · next x y hx hy =>
      simp only [Option.some.injEq] at ht
      subst ht
      obtain ⟨x', e1, r1⟩ := iha x hx fun u hu => hs u (by simp [Exp.shapes, hu])
      obtain ⟨y', e2, r2⟩ := ihb y hy fun u hu => hs u (by simp [Exp.shapes, hu])
      exact ⟨f x' y', by simp [Exp.at, e1, e2], reads_binary f r1 r2⟩
    · cases ht

/-- One element of one array changes. -/
theorem same_put {μ0 μ : Mem V} {as : List Arr} {vs : List (Value V)} (h : Same μ0 as vs μ) {i : Nat} {a : Arr} {v : Value V} (ha : as[i]? = some a) (hv : vs[i]? = some v)
    {j : List Int} {k : Nat} (hk : position v.shape j = k) (hka : k < a.n) (x : V) : Same μ0 as (vs.set i (v.put j x)) (μ.upd (a.base + k) x) := by
  have hr := h.rep i a v ha hv
  have ho : Owns a (a.base + k) := by simp only [Owns]; omega
  have hm : Moved a a μ (μ.upd (a.base + k) x) := by
    refine ⟨fun p h1 _ => ?_, fun p hp => .inl hp, fun p h1 h2 => absurd h1 h2⟩
    simp only [Mem.upd]
    rw [if_neg]
    rintro rfl
    exact h1 ho
  have := same_set (a' := a) (v' := v.put j x) h ha hm (by
    refine ⟨⟨hr.1.lens, hr.1.steps, hr.1.count, fun q hq => ?_, hr.1.rank⟩, by simp [Value.put, hr.2.1], fun q hq => ?_⟩
    · simp only [Mem.upd]
      split
      · rfl
      · exact hr.1.alloc q hq
    · have := hr.2.1
      have := hr.1.count
      simp only [Mem.upd, Value.put, hk, Int.toNat_natCast, List.getElem?_set]
      by_cases hqk : k = q
      · subst hqk
        rw [if_pos rfl, if_pos rfl, if_pos (by omega)]
      · rw [if_neg (by omega), if_neg hqk]
        exact hr.2.2 q hq)
  have hself : as.set i a = as := by
    refine List.ext_getElem? fun k => ?_
    rw [List.getElem?_set]
    split
    · next hk =>
      subst hk
      rw [if_pos (List.getElem?_eq_some_iff.mp ha).1, ha]
    · rfl
  rwa [hself] at this

theorem put_shapes {vs : List (Value V)} {i : Nat} {v w : Value V} (hv : vs[i]? = some v) (hw : w.shape = v.shape) (e : Exp V) : Exp.shapes (vs.set i w) e = Exp.shapes vs e := by
  induction e with
  | const x => rfl
  | arr k =>
    simp only [Exp.shapes, List.getElem?_set]
    by_cases hk : i = k
    · subst hk
      rw [if_pos rfl, if_pos (List.getElem?_eq_some_iff.mp hv).1, hv]
      simp [hw]
    · rw [if_neg hk]
  | op f a b iha ihb => simp only [Exp.shapes, iha, ihb]

/-- The traversal does what `loop` does. -/
theorem same_loop {μ0 : Mem V} {as : List Arr} (f : V → V → V) {i : Nat} {a : Arr} (ha : as[i]? = some a) (e : Exp V) (t : Iter (Act V) (Lv V))
    (ht : e.iter as = some t) (op : List (Lv V) → Act V (Lv V))
    (hop : ∀ (μ : Mem V) d x p v y, Refers μ d p → Reads μ x v → μ p = some y → mapOp op [d, x] μ = (.ok (.ref p), μ.upd p (f y v)))
    (s : List Nat) (js : List (List Int)) (hjs : ∀ j ∈ js, Valid s j) {vs : List (Value V)} {v : Value V} {μ : Mem V} (h : Same μ0 as vs μ) (hv : vs[i]? = some v)
    (hs : ∀ u ∈ v.shape :: Exp.shapes vs e, u <+: s) :
    ∃ μ' vs', forAll (fun j => mapOp op [elem (a.view.refs : Iter (Act V) (Lv V)) j, elem t j]) js μ = (.ok (), μ') ∧ loop f i e js vs = some vs' ∧ Same μ0 as vs' μ' := by
  induction js generalizing vs v μ with
  | nil => exact ⟨μ, vs, rfl, rfl, h⟩
  | cons j js ih =>
    have hj := hjs j (by simp)
    obtain ⟨x, hx, hrx⟩ := exp_reads h hj e t ht fun u hu => hs u (by simp [hu])
    obtain ⟨k, y, h1, h2, h3, h4, h5⟩ := rep_get (h.rep i a v ha hv) (hs v.shape (by simp)) hj
    have hrun := hop μ (elem a.view.refs j) (elem t j) (a.base + k) x y (by rw [← h3]; exact refers_refs μ a.view j) hrx h4
    have hsame := same_put h ha hv h1 h2 (f y x)
    have hv' : (vs.set i (v.put (j.take v.shape.length) (f y x)))[i]? = some (v.put (j.take v.shape.length) (f y x)) := by
      rw [List.getElem?_set, if_pos rfl, if_pos (List.getElem?_eq_some_iff.mp hv).1]
    obtain ⟨μ', vs', g1, g2, g3⟩ := ih (fun k hk => hjs k (by simp [hk])) hsame hv' (by
      rw [put_shapes (w := v.put (j.take v.shape.length) (f y x)) hv rfl]
      exact hs)
    refine ⟨μ', vs', ?_, ?_, g3⟩
    · simp only [forAll]
      rw [act_bind_ok hrun]
      exact g1
    · simp only [loop, hv, hx, h5]
      exact g2

/-- Both kinds of assignment. -/
theorem same_assign {μ0 : Mem V} {as : List Arr} (dyn : Bool) (z : List Int) (hz : ∀ i ∈ z, i = 0) (f : V → V → V) {i : Nat} {a : Arr} (ha : as[i]? = some a) (e : Exp V)
    (t : Iter (Act V) (Lv V)) (ht : e.iter as = some t) (op : List (Lv V) → Act V (Lv V))
    (hop : ∀ (μ : Mem V) d x p v y, Refers μ d p → Reads μ x v → μ p = some y → mapOp op [d, x] μ = (.ok (.ref p), μ.upd p (f y v)))
    {vs : List (Value V)} {v : Value V} {μ : Mem V} (h : Same μ0 as vs μ) (hv : vs[i]? = some v) :
    let run := (do let _ ← ply (β := Unit) dyn never z (.node (mapOp op) [a.view.refs, t]); pure () : Act V Unit) μ
    if agreed (v.shape :: Exp.shapes vs e) = true then
      ∃ μ' vs', run = (.ok (), μ') ∧ loop f i e (rowMajor (longest (v.shape :: Exp.shapes vs e))) vs = some vs' ∧ Same μ0 as vs' μ'
    else run = (.error .check, μ) := by
  intro run
  have hsh := assign_shape h ha hv e t ht (mapOp op)
  obtain ⟨hw, _⟩ := exp_leaves h e t ht
  have hw0 : (a.view.refs : Iter (Act V) (Lv V)).WF := (refs_shape (C30_elements a μ _ (h.rep i a v ha hv).1).1 : HasShape (a.view.refs : Iter (Act V) (Lv V)) _).wf
  split
  · next hag =>
    have hS := (hsh _).mpr ⟨rfl, hag⟩
    have hrun : run = forAll (fun j => mapOp op [elem (a.view.refs : Iter (Act V) (Lv V)) j, elem t j]) (rowMajor (longest (v.shape :: Exp.shapes vs e))) μ := by
      show (do let _ ← ply (β := Unit) dyn never z (.node (mapOp op) [a.view.refs, t]); pure () : Act V Unit) μ = _
      rw [ply_never dyn _ _ hS z hz]
      simp only [elem, elems, bind_assoc, pure_bind]
      rw [bind_pure_unit]
    rw [hrun]
    exact same_loop f ha e t ht op hop _ _ (fun j hj => mem_rowMajor.mp hj) h hv ((agreed_iff _).mp hag)
  · next hag =>
    have hno : ¬ ∃ s : List Nat, HasShape (.node (mapOp op) [a.view.refs, t]) (s.map some) := by
      rintro ⟨s, hs⟩
      exact hag ((hsh _).mp hs).2
    rcases C03_tree (β := Unit) never (.node (mapOp op) [a.view.refs, t]) ⟨by simp, hw0, hw, trivial⟩ z with hs | ⟨h1, h2, _⟩
    · exact absurd hs hno
    · show (do let _ ← ply (β := Unit) dyn never z (.node (mapOp op) [a.view.refs, t]); pure () : Act V Unit) μ = _
      cases dyn
      · simp only [ply, Bool.false_eq_true, if_false, h2]
        rfl
      · simp only [ply, if_true, h1]
        rfl

/-! Operations. -/

theorem toNat_cast (t : List Nat) : (t.map (Nat.cast : Nat → Int)).map Int.toNat = t := by
  induction t with
  | nil => rfl
  | cons n t ih => simp [ih]

theorem onArr_same {μ0 μ μ' : Mem V} {as as' : List Arr} {vs : List (Value V)} {i : Nat} {f : Arr → Mem V → Except Fault Unit × Arr × Mem V} (h : Same μ0 as vs μ)
    (g : Value V → Option (Value V)) (hf : ∀ a v a' μ', as[i]? = some a → vs[i]? = some v → Rep μ a v → f a μ = (.ok (), a', μ') → ∃ v', g v = some v' ∧ Moved a a' μ μ' ∧ Rep μ' a' v')
    (hs : onArr i f as μ = (.ok (), as', μ')) : ∃ v v', vs[i]? = some v ∧ g v = some v' ∧ Same μ0 as' (vs.set i v') μ' := by
  unfold onArr at hs
  split at hs
  · next a ha =>
    simp only [Prod.mk.injEq] at hs
    obtain ⟨h1, rfl, rfl⟩ := hs
    obtain ⟨v, hv, hr⟩ := h.get ha
    obtain ⟨v', hg, hm, hr'⟩ := hf a v (f a μ).2.1 (f a μ).2.2 ha hv hr (by rw [← h1])
    exact ⟨v, v', hv, hg, same_set h ha hm hr'⟩
  · simp at hs

theorem step_same {μ0 μ μ' : Mem V} {as as' : List Arr} {vs : List (Value V)} (dyn : Bool) (z : List Int) (hz : ∀ i ∈ z, i = 0) (c : Cmd V) (hr : ∀ p, c ≠ .op (.run p))
    (h : Same μ0 as vs μ) (hs : c.step dyn z as μ = (.ok (), as', μ')) : ∃ vs', Cmd.effect vs c = some vs' ∧ Same μ0 as' vs' μ' := by
  match c, hr, hs with
  | .op (.default rk), _, hs =>
    have hs0 := step_sound (op := .default rk) (fun p hp => by cases hp) h.sound hs
    simp only [Cmd.step, Op.step] at hs
    split at hs
    · simp at hs
    · next h0 =>
      simp only [Prod.mk.injEq, true_and] at hs
      obtain ⟨rfl, rfl⟩ := hs
      refine ⟨_, rfl, ?_⟩
      have hm : Moved (Arr.default rk) (Arr.default rk) μ μ := ⟨fun _ _ _ => rfl, fun p hp => .inl hp, fun p hp hp' => absurd hp hp'⟩
      refine same_add (e := Arr.default rk) h rfl hm ?_
      obtain ⟨s, hc⟩ := hs0.cont (Arr.default rk) (by simp)
      have e1 : s = List.replicate (rk.getD 1) 0 := by
        have := hc.lens
        simp only [Arr.default, List.map_replicate] at this
        have h2 := congrArg (List.map Int.toNat) this
        rw [toNat_cast] at h2
        simpa using h2.symm
      subst e1
      refine ⟨hc, ?_, fun k hk => ?_⟩
      · have := hc.count
        simp only [Arr.default] at this
        simp [← this]
      · simp [Arr.default] at hk
  | .op (.create rk o fill s), _, hs =>
    simp only [Cmd.step, Op.step] at hs
    split at hs
    · next a μ1 hc =>
      simp only [Prod.mk.injEq, true_and] at hs
      obtain ⟨rfl, rfl⟩ := hs
      obtain ⟨t, rfl, h2, _, h4, h5⟩ := create_ok hc
      refine ⟨_, rfl, same_add (e := ⟨rk, [], 0, 0⟩) h rfl h4 ?_⟩
      rw [toNat_cast]
      refine ⟨h2, by simp [fit_length], fun k hk => ?_⟩
      have := h2.count
      show _ = (fit _ _ _)[k]?
      rw [h5 k hk, fit_get _ _ _ _ (by omega)]
      simp
    · simp at hs
  | .op (.resize i o fill n), _, hs =>
    obtain ⟨v, v', hv, hg, h2⟩ := onArr_same h (fun v => match v with
      | ⟨_ :: t, l⟩ => some ⟨n.toNat :: t, fit l fill (n.toNat * size t)⟩
      | _ => none) (by
        intro a v a' μ' _ _ hr hf
        obtain ⟨n0, m, s1, h1, rfl, h3, h4, h5, h6⟩ := resize_ok hr.1 hf
        obtain ⟨sh, l⟩ := v
        simp only at h1
        subst h1
        exact ⟨_, rfl, h4, rep_fit hr h3 (by simp [size]) h5 h6⟩) hs
    refine ⟨_, ?_, h2⟩
    obtain ⟨sh, l⟩ := v
    cases sh with
    | nil => simp at hg
    | cons q t =>
      simp only [Option.some.injEq] at hg
      subst hg
      simp only [Cmd.effect, hv]
  | .op (.resizeShape i o fill s), _, hs =>
    obtain ⟨v, v', hv, hg, h2⟩ := onArr_same h (fun v => some ⟨s.map Int.toNat, fit v.elems fill (size (s.map Int.toNat))⟩) (by
        intro a v a' μ' _ _ hr hf
        obtain ⟨t, rfl, h3, h4, h5, h6⟩ := resizeShape_ok hr.1 hf
        refine ⟨_, rfl, h4, ?_⟩
        rw [toNat_cast]
        exact rep_fit hr h3 rfl h5 h6) hs
    refine ⟨_, ?_, h2⟩
    simp only [Option.some.injEq] at hg
    subst hg
    simp only [Cmd.effect, hv]
  | .op (.pushBack i o x), _, hs =>
    obtain ⟨v, v', hv, hg, h2⟩ := onArr_same h (fun v => match v with
      | ⟨[n], l⟩ => some ⟨[n + 1], l ++ [x]⟩
      | _ => none) (by
        intro a v a' μ' _ _ hr hf
        obtain ⟨n, h1, h3, h4, h5, h6, h7⟩ := pushBack_ok hr.1 hf
        obtain ⟨sh, l⟩ := v
        simp only at h1
        subst h1
        have e1 := hr.1.count
        have e2 := hr.2.1
        refine ⟨_, rfl, h4, h3, by simpa [size] using e2, fun k hk => ?_⟩
        show _ = (l ++ [x])[k]?
        simp only at e1 e2
        by_cases hka : k < a.n
        · rw [h6 k hka, hr.2.2 k hka, List.getElem?_append_left (by omega)]
        · have : k = a.n := by omega
          subst this
          rw [h7, List.getElem?_append_right (by omega)]
          simp [e1, e2]) hs
    refine ⟨_, ?_, h2⟩
    obtain ⟨sh, l⟩ := v
    split at hg
    · next heq =>
      simp only [Value.mk.injEq] at heq
      obtain ⟨rfl, rfl⟩ := heq
      simp only [Option.some.injEq] at hg
      subst hg
      simp only [Cmd.effect, hv]
    · cases hg
  | .op (.popBack i), _, hs =>
    obtain ⟨v, v', hv, hg, h2⟩ := onArr_same h (fun v => match v with
      | ⟨[n + 1], l⟩ => some ⟨[n], l.dropLast⟩
      | _ => none) (by
        intro a v a' μ' _ _ hr hf
        obtain ⟨n, h1, h3, h4, h5, h6, h7, h8⟩ := popBack_ok hr.1 hf
        obtain ⟨sh, l⟩ := v
        simp only at h1
        subst h1
        have e2 := hr.2.1
        simp only [size, Nat.mul_one] at e2
        refine ⟨_, rfl, h4, h3, by simp [size, e2], fun k hk => ?_⟩
        show _ = l.dropLast[k]?
        rw [h8 k (by omega), hr.2.2 k (by omega), List.getElem?_dropLast, if_pos (by omega)]) hs
    refine ⟨_, ?_, h2⟩
    obtain ⟨sh, l⟩ := v
    split at hg
    · next heq =>
      simp only [Value.mk.injEq] at heq
      obtain ⟨rfl, rfl⟩ := heq
      simp only [Option.some.injEq] at hg
      subst hg
      simp only [Cmd.effect, hv]
    · cases hg
  | .op (.copy i j o), _, hs =>
    simp only [Cmd.step, Op.step] at hs
    split at hs
    · next b hb =>
      obtain ⟨w, hw, hrw⟩ := h.get hb
      simp only [Cmd.effect, hw]
      split at hs
      · next hij =>
        simp only [Prod.mk.injEq, true_and] at hs
        obtain ⟨rfl, rfl⟩ := hs
        refine ⟨_, rfl, ?_⟩
        subst hij
        have : vs.set i w = vs := by
          obtain ⟨h1, rfl⟩ := List.getElem?_eq_some_iff.mp hw
          simp
        rw [this]
        exact h
      · obtain ⟨v, v', hv, hg, h2⟩ := onArr_same h (fun _ => some w) (by
          intro a v a' μ' _ _ hr hf
          split at hf
          · next hrk =>
            obtain ⟨h3, h4, h5⟩ := copyFrom_ok hrw.1 hrk hf
            refine ⟨_, rfl, h4, h3, hrw.2.1, fun k hk => ?_⟩
            have e1 := hrw.1.count
            have e2 := h3.count
            rw [h5 k (by omega), hrw.2.2 k (by omega)]
          · simp at hf) hs
        simp only [Option.some.injEq] at hg
        subst hg
        exact ⟨_, rfl, h2⟩
    · simp at hs
  | .op (.swap i j), _, hs =>
    have hs0 := step_sound (op := .swap i j) (fun p hp => by cases hp) h.sound hs
    simp only [Cmd.step, Op.step] at hs
    split at hs
    · next a b ha hb =>
      obtain ⟨v, hv, hrv⟩ := h.get ha
      obtain ⟨w, hw, hrw⟩ := h.get hb
      simp only [Cmd.effect, hv, hw]
      split at hs
      · next hij =>
        simp only [Prod.mk.injEq, true_and] at hs
        obtain ⟨rfl, rfl⟩ := hs
        refine ⟨_, rfl, ?_⟩
        subst hij
        have : (vs.set i w).set i v = vs := by
          obtain ⟨h1, rfl⟩ := List.getElem?_eq_some_iff.mp hv
          simp
        rw [this]
        exact h
      · next hij =>
        simp only [Prod.mk.injEq] at hs
        obtain ⟨h1, rfl, rfl⟩ := hs
        refine ⟨_, rfl, hs0, by simp [h.len], ?_, h.rest⟩
        have hil : i < as.length := (List.getElem?_eq_some_iff.mp ha).1
        have hjl : j < as.length := (List.getElem?_eq_some_iff.mp hb).1
        have hok : v.shape.length = w.shape.length ∨ a.rk = b.rk := by
          have hla : a.dims.length = v.shape.length := by simpa using congrArg List.length hrv.1.lens
          have hlb : b.dims.length = w.shape.length := by simpa using congrArg List.length hrw.1.lens
          by_contra hne
          simp only [not_or] at hne
          by_cases hk : a.rk.isNone = b.rk.isNone
          · unfold Arr.swap at h1
            simp only [if_pos hk, if_neg hne.2] at h1
            simp at h1
          · rw [C33_reject a b hk (by omega)] at h1
            simp at h1
        obtain ⟨a', b', g1, _, _, g2, g3, g4, g5⟩ := C33_swap a b μ v.shape w.shape hrv.1 hrw.1 hok
        rw [g1]
        have ra : Rep μ a' w := by
          refine ⟨g4, hrw.2.1, fun k hk => ?_⟩
          have e1 := g4.count
          have e2 := hrw.1.count
          have e4 : a'.base = b.base := congrArg View.cp g2
          rw [e4]
          exact hrw.2.2 k (by omega)
        have rb : Rep μ b' v := by
          refine ⟨g5, hrv.2.1, fun k hk => ?_⟩
          have e1 := g5.count
          have e2 := hrv.1.count
          have e4 : b'.base = a.base := congrArg View.cp g3
          rw [e4]
          exact hrv.2.2 k (by omega)
        intro k c u hc hu
        rw [List.getElem?_set, List.getElem?_set] at hc hu
        have hil' : i < vs.length := by rw [← h.len]; exact hil
        have hjl' : j < vs.length := by rw [← h.len]; exact hjl
        by_cases hkj : j = k
        · subst hkj
          simp only [List.length_set, hjl, hjl', if_true, Option.some.injEq] at hc hu
          subst hc hu
          exact rb
        · rw [if_neg hkj] at hc hu
          by_cases hki : i = k
          · subst hki
            simp only [hil, hil', if_true, Option.some.injEq] at hc hu
            subst hc hu
            exact ra
          · rw [if_neg hki] at hc hu
            exact h.rep k c u hc hu
    · simp at hs
  | .op (.run p), hr, _ => exact absurd rfl (hr p)
  | .set i j x, _, hs =>
    simp only [Cmd.step] at hs
    split at hs
    · next a ha =>
      obtain ⟨v, hv, hrv⟩ := h.get ha
      have hla : a.dims.length = v.shape.length := by simpa using congrArg List.length hrv.1.lens
      split at hs
      · next hl =>
        simp only [Prod.mk.injEq] at hs
        obtain ⟨h1, rfl, rfl⟩ := hs
        obtain ⟨e1, e2⟩ := elemAt_eq a.view v.shape (C30_elements a μ _ hrv.1).1 (fun p => (Act.write p x : Act V Unit)) j (by omega)
        by_cases hin : InRange (v.shape.map some) j
        · have hj : Valid v.shape j := valid_of_inRange (by omega) hin
          rw [e1 hin] at h1 ⊢
          obtain ⟨k, y, f1, f2, f3, f4, f5⟩ := rep_get hrv (List.prefix_refl _) hj
          rw [← hj.length, List.take_length] at f1
          refine ⟨vs.set i (v.put j x), ?_, ?_⟩
          · simp only [Cmd.effect, hv]
            rw [if_pos (mem_rowMajor.mpr hj)]
          · rw [f3]
            simp only [Act.write, f4]
            exact same_put h ha hv f1 f2 x
        · rw [e2 hin] at h1
          cases h1
      · simp at hs
    · simp at hs
  | .assign i e, _, hs =>
    simp only [Cmd.step] at hs
    split at hs
    · next a t ha ht =>
      obtain ⟨v, hv, hrv⟩ := h.get ha
      simp only [Prod.mk.injEq] at hs
      obtain ⟨h1, rfl, rfl⟩ := hs
      have := same_assign dyn z hz (fun _ x => x) ha e t ht setOp (fun μ d x p v y h1 h2 h3 => set_run h1 h2 (by simp [h3])) h hv
      simp only at this
      rw [show (do let _ ← ply (β := Unit) dyn never z (.node (mapOp setOp) [a.view.refs, t]); pure () : Act V Unit) = Ra.assign dyn z a.view.refs t from rfl] at this
      split at this
      · next hag =>
        obtain ⟨μ1, vs', g1, g2, g3⟩ := this
        rw [g1]
        refine ⟨vs', ?_, g3⟩
        simp only [Cmd.effect, hv]
        rw [if_pos ⟨(exp_leaves h e t ht).2.1, hag⟩]
        exact g2
      · rw [this] at h1
        cases h1
    · simp at hs
  | .update f i e, _, hs =>
    simp only [Cmd.step] at hs
    split at hs
    · next a t ha ht =>
      obtain ⟨v, hv, hrv⟩ := h.get ha
      simp only [Prod.mk.injEq] at hs
      obtain ⟨h1, rfl, rfl⟩ := hs
      have := same_assign dyn z hz f ha e t ht (updOp f) (fun μ d x p v y h1 h2 h3 => upd_run f h1 h2 h3) h hv
      simp only at this
      rw [show (do let _ ← ply (β := Unit) dyn never z (.node (mapOp (updOp f)) [a.view.refs, t]); pure () : Act V Unit) = Ra.update f dyn z a.view.refs t from rfl] at this
      split at this
      · next hag =>
        obtain ⟨μ1, vs', g1, g2, g3⟩ := this
        rw [g1]
        refine ⟨vs', ?_, g3⟩
        simp only [Cmd.effect, hv]
        rw [if_pos ⟨(exp_leaves h e t ht).2.1, hag⟩]
        exact g2
      · rw [this] at h1
        cases h1
    · simp at hs

theorem program_same {μ0 μ μ' : Mem V} {as as' : List Arr} {vs : List (Value V)} (dyn : Bool) (z : List Int) (hz : ∀ i ∈ z, i = 0) (cs : List (Cmd V))
    (hr : ∀ p, Cmd.op (.run p) ∉ cs) (h : Same μ0 as vs μ) (hs : program dyn z cs as μ = (.ok (), as', μ')) : ∃ vs', effects cs vs = some vs' ∧ Same μ0 as' vs' μ' := by
  induction cs generalizing as vs μ with
  | nil =>
    simp only [program, Prod.mk.injEq, true_and] at hs
    obtain ⟨rfl, rfl⟩ := hs
    exact ⟨vs, rfl, h⟩
  | cons c cs ih =>
    simp only [program] at hs
    split at hs
    · next as1 μ1 h1 =>
      obtain ⟨vs1, e1, h2⟩ := step_same dyn z hz c (fun p hp => hr p (by simp [hp])) h h1
      obtain ⟨vs2, e2, h3⟩ := ih (fun p hp => hr p (by simp [hp])) h2 hs
      exact ⟨vs2, by simp only [effects, e1, e2], h3⟩
    · simp at hs

/-- C75. After any operations that don't fail, the arrays have the values that they'd have if they were values: each operation changes only the arrays it's about, in the way
that `effects` gives, and nothing else in memory changes. -/
theorem C75_values (dyn : Bool) (z : List Int) (hz : ∀ i ∈ z, i = 0) (cs : List (Cmd V)) (hr : ∀ p, Cmd.op (.run p) ∉ cs) (as : List Arr) (μ0 μ : Mem V)
    (hs : program dyn z cs [] μ0 = (.ok (), as, μ)) : ∃ vs, effects cs [] = some vs ∧ List.Forall₂ (Represents μ) as vs ∧ ∀ p, (μ0 p).isSome → μ p = μ0 p := by
  have h0 : Same μ0 [] [] μ0 := ⟨⟨by simp, by simp, fun p => by simp, by simp⟩, rfl, by simp, fun _ _ => rfl⟩
  obtain ⟨vs, h1, h2⟩ := program_same dyn z hz cs hr h0 hs
  refine ⟨vs, h1, List.forall₂_iff_get.mpr ⟨h2.len, fun i hi hi' => ?_⟩, h2.rest⟩
  rw [rep_iff]
  exact h2.rep i _ _ (by simp) (by simp)

theorem same_fails {μ0 μ : Mem V} {as : List Arr} {vs : List (Value V)} (dyn : Bool) (z : List Int) (hz : ∀ i ∈ z, i = 0) (c : Cmd V) (hc : ∀ o, c ≠ .op o) (h : Same μ0 as vs μ) :
    match Cmd.effect vs c with
    | some _ => ∃ μ', c.step dyn z as μ = (.ok (), as, μ')
    | none => ∃ e, c.step dyn z as μ = (.error e, as, μ) ∧ (e = .check ∨ e = .abort) := by
  have hget : ∀ (i : Nat), as[i]? = none → vs[i]? = none := by
    intro i hi
    rw [List.getElem?_eq_none_iff] at hi ⊢
    have := h.len
    omega
  match c, hc with
  | .op o, hc => exact absurd rfl (hc o)
  | .set i j x, _ =>
    cases ha : as[i]? with
    | none => simp [Cmd.effect, Cmd.step, ha, hget i ha]
    | some a =>
      obtain ⟨v, hv, hrv⟩ := h.get ha
      have hla : a.dims.length = v.shape.length := by simpa using congrArg List.length hrv.1.lens
      simp only [Cmd.effect, Cmd.step, ha, hv]
      by_cases hl : j.length = a.dims.length
      · obtain ⟨e1, e2⟩ := elemAt_eq a.view v.shape (C30_elements a μ _ hrv.1).1 (fun p => (Act.write p x : Act V Unit)) j (by omega)
        rw [if_pos hl]
        by_cases hj : Valid v.shape j
        · rw [if_pos (mem_rowMajor.mpr hj), e1 (inRange_of_valid hj)]
          obtain ⟨k, y, f1, f2, f3, f4, f5⟩ := rep_get hrv (List.prefix_refl _) hj
          rw [f3]
          simp [Act.write, f4]
        · rw [if_neg (fun h => hj (mem_rowMajor.mp h)), e2 (fun h => hj (valid_of_inRange (by omega) h))]
          exact ⟨.check, rfl, .inl rfl⟩
      · rw [if_neg hl, if_neg (fun h => hl (by rw [hla]; exact (mem_rowMajor.mp h).length))]
        exact ⟨.abort, rfl, .inr rfl⟩
  | .assign i e, _ =>
    cases ha : as[i]? with
    | none => simp [Cmd.effect, Cmd.step, ha, hget i ha]
    | some a =>
      obtain ⟨v, hv, hrv⟩ := h.get ha
      simp only [Cmd.effect, Cmd.step, ha, hv]
      cases ht : e.iter as with
      | none =>
        have : Exp.has vs e ≠ true := by
          intro he
          obtain ⟨t, h3⟩ := exp_iter h.len e he
          rw [ht] at h3
          cases h3
        rw [if_neg (fun h => this h.1)]
        exact ⟨.abort, rfl, .inr rfl⟩
      | some t =>
        have := same_assign dyn z hz (fun _ x => x) ha e t ht setOp (fun μ d x p v y h1 h2 h3 => set_run h1 h2 (by simp [h3])) h hv
        simp only at this
        rw [show (do let _ ← ply (β := Unit) dyn never z (.node (mapOp setOp) [a.view.refs, t]); pure () : Act V Unit) = Ra.assign dyn z a.view.refs t from rfl] at this
        split at this
        · next hag =>
          obtain ⟨μ1, vs', g1, g2, g3⟩ := this
          rw [if_pos ⟨(exp_leaves h e t ht).2.1, hag⟩, g2]
          simp only [g1]
          exact ⟨μ1, rfl⟩
        · next hag =>
          rw [if_neg (fun h => hag h.2)]
          simp only [this]
          exact ⟨.check, rfl, .inl rfl⟩
  | .update f i e, _ =>
    cases ha : as[i]? with
    | none => simp [Cmd.effect, Cmd.step, ha, hget i ha]
    | some a =>
      obtain ⟨v, hv, hrv⟩ := h.get ha
      simp only [Cmd.effect, Cmd.step, ha, hv]
      cases ht : e.iter as with
      | none =>
        have : Exp.has vs e ≠ true := by
          intro he
          obtain ⟨t, h3⟩ := exp_iter h.len e he
          rw [ht] at h3
          cases h3
        rw [if_neg (fun h => this h.1)]
        exact ⟨.abort, rfl, .inr rfl⟩
      | some t =>
        have := same_assign dyn z hz f ha e t ht (updOp f) (fun μ d x p v y h1 h2 h3 => upd_run f h1 h2 h3) h hv
        simp only at this
        rw [show (do let _ ← ply (β := Unit) dyn never z (.node (mapOp (updOp f)) [a.view.refs, t]); pure () : Act V Unit) = Ra.update f dyn z a.view.refs t from rfl] at this
        split at this
        · next hag =>
          obtain ⟨μ1, vs', g1, g2, g3⟩ := this
          rw [if_pos ⟨(exp_leaves h e t ht).2.1, hag⟩, g2]
          simp only [g1]
          exact ⟨μ1, rfl⟩
        · next hag =>
          rw [if_neg (fun h => hag h.2)]
          simp only [this]
          exact ⟨.check, rfl, .inl rfl⟩

theorem fails_same {μ0 μ μ' : Mem V} {as as' : List Arr} {vs : List (Value V)} (dyn : Bool) (z : List Int) (hz : ∀ i ∈ z, i = 0) (c : Cmd V) (hc : ∀ o, c ≠ .op o) (h : Same μ0 as vs μ)
    {e : Fault} {p : Prop} (hs : c.step dyn z as μ = (.error e, as', μ')) : as' = as ∧ μ' = μ ∧ (p ∨ Cmd.effect vs c = none) := by
  have := same_fails dyn z hz c hc h
  split at this
  · obtain ⟨μ1, h1⟩ := this
    rw [h1] at hs
    simp at hs
  · next hn =>
    obtain ⟨e', h1, _⟩ := this
    rw [h1] at hs
    simp only [Prod.mk.injEq] at hs
    exact ⟨hs.2.1.symm, hs.2.2.symm, .inr hn⟩

/-- C75. Assignments to an element, or to all the elements of an array, fail if and only if the index is out of range, or the shapes don't agree; then nothing changes.
(`abort` is for what doesn't compile: arrays that don't exist or the wrong number of subscripts.) -/
theorem C75_fails (dyn : Bool) (z : List Int) (hz : ∀ i ∈ z, i = 0) (cs : List (Cmd V)) (hr : ∀ p, Cmd.op (.run p) ∉ cs) (as : List Arr) (vs : List (Value V)) (μ0 μ : Mem V)
    (hs : program dyn z cs [] μ0 = (.ok (), as, μ)) (hv : effects cs [] = some vs) (c : Cmd V) (hc : ∀ o, c ≠ .op o) :
    match Cmd.effect vs c with
    | some _ => ∃ μ', c.step dyn z as μ = (.ok (), as, μ')
    | none => ∃ e, c.step dyn z as μ = (.error e, as, μ) ∧ (e = .check ∨ e = .abort) := by
  have h0 : Same μ0 [] [] μ0 := ⟨⟨by simp, by simp, fun p => by simp, by simp⟩, rfl, by simp, fun _ _ => rfl⟩
  obtain ⟨vs1, h1, h⟩ := program_same dyn z hz cs hr h0 hs
  obtain rfl : vs1 = vs := Option.some.inj (h1.symm.trans hv)
  exact same_fails dyn z hz c hc h

/-! When the expression doesn't have more axes than the destination, `loop` gives all the elements at once. -/

theorem put_get {v : Value V} (hl : v.elems.length = size v.shape) {j k : List Int} (hj : Valid v.shape j) (hk : Valid v.shape k) (x : V) :
    (v.put k x).get j = if j = k then some x else v.get j := by
  obtain ⟨p, hp, hpl⟩ := position_of hj
  obtain ⟨q, hq, hql⟩ := position_of hk
  simp only [Value.get, Value.put, hp, hq, Int.toNat_natCast, List.getElem?_set]
  by_cases h : j = k
  · subst h
    have : p = q := by omega
    subst this
    rw [if_pos rfl, if_pos rfl, if_pos (by omega)]
  · rw [if_neg h, if_neg]
    rintro rfl
    exact h (position_inj hj hk (by omega))

theorem put_at {vs : List (Value V)} {i : Nat} {v : Value V} (hv : vs[i]? = some v) (hl : v.elems.length = size v.shape) {j k : List Int} (hj : Valid v.shape j) (hk : Valid v.shape k)
    (hjk : j ≠ k) (x : V) (e : Exp V) : Exp.at (vs.set i (v.put k x)) j e = Exp.at vs j e := by
  induction e with
  | const x => rfl
  | arr l =>
    simp only [Exp.at, List.getElem?_set]
    by_cases h : i = l
    · subst h
      rw [if_pos rfl, if_pos (List.getElem?_eq_some_iff.mp hv).1, hv]
      simp only
      rw [show (v.put k x).shape = v.shape from rfl, ← hj.length, List.take_length, put_get hl hj hk, if_neg hjk]
    · rw [if_neg h]
  | op f a b iha ihb => simp only [Exp.at, iha, ihb]

theorem loop_once (f : V → V → V) (i : Nat) (e : Exp V) (js : List (List Int)) (hn : js.Nodup) {vs vs' : List (Value V)} {v : Value V} (hv : vs[i]? = some v)
    (hl : v.elems.length = size v.shape) (hjs : ∀ j ∈ js, Valid v.shape j) (h : loop f i e js vs = some vs') :
    ∃ v', vs' = vs.set i v' ∧ v'.shape = v.shape ∧ v'.elems.length = size v'.shape ∧ ∀ j, Valid v.shape j →
      (j ∈ js → ∃ x y, Exp.at vs j e = some x ∧ v.get j = some y ∧ v'.get j = some (f y x)) ∧ (j ∉ js → v'.get j = v.get j) := by
  induction js generalizing vs v with
  | nil =>
    simp only [loop, Option.some.injEq] at h
    subst h
    refine ⟨v, ?_, rfl, hl, fun j _ => ⟨by simp, fun _ => rfl⟩⟩
    obtain ⟨h1, rfl⟩ := List.getElem?_eq_some_iff.mp hv
    simp
  | cons k js ih =>
    have hk := hjs k (by simp)
    simp only [loop, hv] at h
    split at h
    · next v1 x hv1 hx =>
      simp only [Option.some.injEq] at hv1
      subst hv1
      split at h
      · next y hy =>
        rw [← hk.length, List.take_length] at hy h
        have hil := (List.getElem?_eq_some_iff.mp hv).1
        obtain ⟨hnk, hn⟩ := List.nodup_cons.mp hn
        obtain ⟨v', rfl, h2, h3, h4⟩ := ih hn (vs := vs.set i (v.put k (f y x))) (v := v.put k (f y x)) (by rw [List.getElem?_set, if_pos rfl, if_pos hil])
          (by simp [Value.put, hl]) (fun j hj => hjs j (by simp [hj])) h
        refine ⟨v', by simp, h2, h3, fun j hj => ?_⟩
        obtain ⟨g1, g2⟩ := h4 j hj
        have hpg := put_get hl hj hk (f y x)
        refine ⟨fun hm => ?_, fun hm => ?_⟩
        · by_cases hjk : j = k
          · subst hjk
            refine ⟨x, y, hx, hy, ?_⟩
            rw [g2 hnk, hpg, if_pos rfl]
          · obtain ⟨x', y', e1, e2, e3⟩ := g1 (by rcases List.mem_cons.mp hm with h | h; exact absurd h hjk; exact h)
            rw [put_at hv hl hj hk hjk] at e1
            rw [hpg, if_neg hjk] at e2
            exact ⟨x', y', e1, e2, e3⟩
        · simp only [List.mem_cons, not_or] at hm
          rw [g2 hm.2, hpg, if_neg hm.1]
      · cases h
    · cases h

/-- C75. If the expression doesn't have more axes than the array it's assigned to, then each element of that array gets `f` of its value from before and of the expression, with
the arrays as they were before; even if that array is in the expression. -/
theorem C75_elementwise (f : V → V → V) (i : Nat) (e : Exp V) (vs vs' : List (Value V)) (v : Value V) (hv : vs[i]? = some v) (hl : v.elems.length = size v.shape)
    (hs : ∀ s ∈ Exp.shapes vs e, s.length ≤ v.shape.length) (h : Cmd.effect vs (.update f i e) = some vs') :
    ∃ v', vs' = vs.set i v' ∧ v'.shape = v.shape ∧ ∀ j, Valid v.shape j → ∃ x y, Exp.at vs j e = some x ∧ v.get j = some y ∧ v'.get j = some (f y x) := by
  have hlo : longest (v.shape :: Exp.shapes vs e) = v.shape := by
    simp only [longest]
    rw [if_pos]
    by_cases hne : Exp.shapes vs e = []
    · simp [hne, longest]
    · exact hs _ (longest_mem _ hne)
  simp only [Cmd.effect, hv, hlo] at h
  split at h
  · obtain ⟨v', h1, h2, _, h4⟩ := loop_once f i e _ (nodup_rowMajor v.shape) hv hl (fun j hj => mem_rowMajor.mp hj) h
    exact ⟨v', h1, h2, fun j hj => (h4 j hj).1 (mem_rowMajor.mpr hj)⟩
  · cases h

/-- Two arrays; the second is assigned an expression that has both, then one of its elements is changed, and it's copied to a third one, that grows. -/
def egCmds : List (Cmd Int) := [.op (.create (some 1) (some 0) (fun i => i) [2]), .op (.create none (some 10) (fun i => 10 * i) [2, 3]),
  .update (· + ·) 1 (.op (· * ·) (.arr 0) (.arr 1)), .set 1 [1, 2] 7, .op (.create none (some 20) (fun _ => 0) []), .op (.copy 2 1 (some 30)), .op (.resize 2 (some 50) (fun _ => 9) 3),
  .assign 0 (.arr 2)]

example : effects (egCmds.take 7) [] = some [⟨[2], [0, 1]⟩, ⟨[2, 3], [0, 10, 20, 60, 80, 7]⟩, ⟨[3, 3], [0, 10, 20, 60, 80, 7, 9, 9, 9]⟩] := by decide +kernel
example : (program true [] (egCmds.take 7) [] noMem).1.isOk = true := by decide +kernel
/-- The last one fails because the shapes don't agree. -/
example : effects egCmds [] = none := by decide +kernel
example : (program false [] egCmds [] noMem).1 = .error .check := by decide +kernel
example : ∀ p, Cmd.op (.run p) ∉ egCmds := by
  intro p hp
  simp [egCmds] at hp

end
end Ra.Props
