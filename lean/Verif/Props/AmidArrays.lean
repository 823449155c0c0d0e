import Verif.Props.AmidSteps
/-!
# C104: containers among other threads
-/

namespace Ra.Props
open Spec

section
variable {V : Type}

/-- The memory `μ` has all that's in `μo`. -/
def Inn (μo μ : Mem V) : Prop := ∀ p, (μo p).isSome → μ p = μo p

/-- When `μo` becomes `μo'` then `μ`, that has more, becomes `μ'`. What's new was free. -/
structure Framed (μo μo' μ μ' : Mem V) : Prop where
  inn : Inn μo' μ'
  gone : ∀ p, μo' p = none → μ' p = if (μo p).isSome then none else μ p
  new : ∀ p, (μo' p).isSome → (μo p).isSome ∨ μ p = none

theorem framed_refl {μo μ : Mem V} (h : Inn μo μ) : Framed μo μo μ μ :=
  ⟨h, fun p hp => by rw [if_neg]; simp [hp], fun _ hp => .inl hp⟩

theorem freeFor_inn {μo μ : Mem V} (h : Inn μo μ) {a : Arr} {b : Int} {n : Nat} (hf : freeFor μ a b n) : freeFor μo a b n := by
  simp only [freeFor, List.all_eq_true, List.mem_range, Bool.or_eq_true] at hf ⊢
  intro i hi
  rcases hf i hi with h1 | h1
  · left
    cases hm : μo (b + i) with
    | none => rfl
    | some v =>
      have := h (b + i) (by rw [hm]; rfl)
      rw [this, hm] at h1
      cases h1
  · exact .inr h1

theorem freeFor_owns {μ : Mem V} {a : Arr} {b : Int} {n : Nat} (hf : freeFor μ a b n) {p : Int} (hp : b ≤ p ∧ p < b + n) : μ p = none ∨ Owns a p := by
  simp only [freeFor, List.all_eq_true, List.mem_range, Bool.or_eq_true, Bool.and_eq_true, decide_eq_true_eq] at hf
  have := hf (p - b).toNat (by omega)
  rw [show b + ((p - b).toNat : Int) = p by omega] at this
  rcases this with h | h
  · exact .inl (by simpa using h)
  · exact .inr h

theorem framed_move {μo μ : Mem V} (h : Inn μo μ) {a : Arr} (ha : ∀ p, Owns a p → (μo p).isSome) {b : Int} {n : Nat} {fill : Nat → Option V} (hf : ∀ p, b ≤ p ∧ p < b + n → μ p = none ∨ Owns a p)
    (hfill : a.n < n → ∀ i, (fill i).isSome) : Framed μo (μo.move a b n fill) μ (μ.move a b n fill) := by
  have key : ∀ p, b ≤ p ∧ p < b + n → μ.move a b n fill p = μo.move a b n fill p ∧ (μo.move a b n fill p).isSome := by
    intro p hp
    simp only [Mem.move, if_pos hp]
    split
    · next h1 =>
      have := ha (a.base + (p - b)) (by simp only [Owns]; omega)
      exact ⟨h _ this, this⟩
    · exact ⟨rfl, hfill (by omega) _⟩
  constructor
  · intro p hp
    by_cases h1 : b ≤ p ∧ p < b + n
    · exact (key p h1).1
    · simp only [Mem.move, if_neg h1] at hp ⊢
      split at hp
      · cases hp
      · next h2 => rw [if_neg h2, if_neg h2]; exact h p hp
  · intro p hp
    have h1 : ¬ (b ≤ p ∧ p < b + n) := fun h1 => by
      have := (key p h1).2
      rw [hp] at this
      cases this
    simp only [Mem.move, if_neg h1] at hp ⊢
    split at hp
    · next h2 =>
      rw [if_pos h2, if_pos (ha p h2)]
    · next h2 => rw [if_neg h2, if_neg (by simp [hp])]
  · intro p hp
    by_cases h1 : b ≤ p ∧ p < b + n
    · rcases hf p h1 with h2 | h2
      · exact .inr h2
      · exact .inl (ha p h2)
    · simp only [Mem.move, if_neg h1] at hp
      split at hp
      · cases hp
      · exact .inl hp

/-- An operation on one array. With others, it does what it does alone, or what it does alone when there's no memory. -/
theorem framed_store (o : Option Int) (fill : Nat → V) (k : Int) (a : Arr) {μo μ : Mem V} (h : Inn μo μ) (ha : ∀ p, Owns a p → (μo p).isSome) :
    ∃ o', (o' = o ∨ (o' = none ∧ (storeResize o fill k a μ).1 = .error .alloc)) ∧ (storeResize o fill k a μ).1 = (storeResize o' fill k a μo).1 ∧ (storeResize o fill k a μ).2.1 = (storeResize o' fill k a μo).2.1 ∧
      Framed μo (storeResize o' fill k a μo).2.2 μ (storeResize o fill k a μ).2.2 := by
  by_cases h1 : k < 0
  · exact ⟨o, .inl rfl, by simp only [storeResize, if_pos h1], by simp only [storeResize, if_pos h1], by simp only [storeResize, if_pos h1]; exact framed_refl h⟩
  by_cases h2 : k ≤ a.n
  · refine ⟨o, .inl rfl, by simp only [storeResize, if_neg h1, if_pos h2], by simp only [storeResize, if_neg h1, if_pos h2], ?_⟩
    simp only [storeResize, if_neg h1, if_pos h2]
    exact framed_move h ha (fun p hp => .inr (by simp only [Owns]; omega)) fun _ _ => rfl
  cases o with
  | none => exact ⟨none, .inl rfl, by simp only [storeResize, if_neg h1, if_neg h2], by simp only [storeResize, if_neg h1, if_neg h2], by simp only [storeResize, if_neg h1, if_neg h2]; exact framed_refl h⟩
  | some b =>
    by_cases h3 : freeFor μ a b k.toNat = true
    · have h4 := freeFor_inn h h3
      refine ⟨some b, .inl rfl, by simp only [storeResize, if_neg h1, if_neg h2, if_pos h3, if_pos h4], by simp only [storeResize, if_neg h1, if_neg h2, if_pos h3, if_pos h4], ?_⟩
      simp only [storeResize, if_neg h1, if_neg h2, if_pos h3, if_pos h4]
      exact framed_move h ha (fun p hp => freeFor_owns h3 hp) fun _ _ => rfl
    · refine ⟨none, .inr ⟨rfl, by simp only [storeResize, if_neg h1, if_neg h2, if_neg h3]⟩, by simp only [storeResize, if_neg h1, if_neg h2, if_neg h3], by simp only [storeResize, if_neg h1, if_neg h2, if_neg h3], ?_⟩
      simp only [storeResize, if_neg h1, if_neg h2, if_neg h3]
      exact framed_refl h

/-- The same when the operation gives an array. -/
def FramedOp (μo μ : Mem V) {α : Type} (f : Option Int → Mem V → Except Fault Unit × α × Mem V) (o : Option Int) : Prop :=
  ∃ o', (o' = o ∨ (o' = none ∧ (f o μ).1 = .error .alloc)) ∧ (f o μ).1 = (f o' μo).1 ∧ (f o μ).2.1 = (f o' μo).2.1 ∧ Framed μo (f o' μo).2.2 μ (f o μ).2.2

theorem framed_resize (o : Option Int) (fill : Nat → V) (k : Int) (a : Arr) {μo μ : Mem V} (h : Inn μo μ) (ha : ∀ p, Owns a p → (μo p).isSome) : FramedOp μo μ (fun o => Arr.resize o fill k a) o := by
  unfold FramedOp Arr.resize
  cases a.dims with
  | nil => exact ⟨o, .inl rfl, rfl, rfl, framed_refl h⟩
  | cons d ds => exact framed_store o fill _ _ h ha

theorem framed_resizeShape (o : Option Int) (fill : Nat → V) (s : List Int) (a : Arr) {μo μ : Mem V} (h : Inn μo μ) (ha : ∀ p, Owns a p → (μo p).isSome) : FramedOp μo μ (fun o => Arr.resizeShape o fill s a) o := by
  unfold FramedOp Arr.resizeShape
  have hb : (a.fill s).2.base = a.base ∧ (a.fill s).2.n = a.n := by
    unfold Arr.fill
    split <;> exact ⟨rfl, rfl⟩
  rcases hf : a.fill s with ⟨r, a'⟩
  rw [hf] at hb
  cases r with
  | error e => exact ⟨o, .inl rfl, rfl, rfl, framed_refl h⟩
  | ok n => exact framed_store o fill _ _ h fun p hp => ha p (by simp only [Owns] at hp ⊢; rw [← hb.1, ← hb.2]; exact hp)

theorem framed_pushBack (o : Option Int) (t : V) (a : Arr) {μo μ : Mem V} (h : Inn μo μ) (ha : ∀ p, Owns a p → (μo p).isSome) : FramedOp μo μ (fun o => Arr.pushBack o t a) o := by
  unfold FramedOp Arr.pushBack
  cases a.dims with
  | nil => exact ⟨o, .inl rfl, rfl, rfl, framed_refl h⟩
  | cons d ds =>
    cases ds with
    | cons _ _ => exact ⟨o, .inl rfl, rfl, rfl, framed_refl h⟩
    | nil =>
      obtain ⟨o', h1, h2, h3, h4⟩ := framed_store o (fun _ => t) (a.n + 1) a h ha
      refine ⟨o', ?_⟩
      rcases hx : storeResize o (fun _ => t) (a.n + 1) a μ with ⟨r, a1, μ1⟩
      rcases hy : storeResize o' (fun _ => t) (a.n + 1) a μo with ⟨s, a2, μ2⟩
      rw [hx, hy] at h2 h3 h4
      rw [hx] at h1
      simp only at h1 h2 h3 h4 ⊢
      subst h2 h3
      rw [hx, hy]
      cases r <;> exact ⟨h1, rfl, rfl, h4⟩

theorem framed_popBack (a : Arr) {μo μ : Mem V} (h : Inn μo μ) (ha : ∀ p, Owns a p → (μo p).isSome) : FramedOp μo μ (fun _ => Arr.popBack a) none := by
  refine ⟨none, .inl rfl, ?_⟩
  unfold Arr.popBack
  cases a.dims with
  | nil => exact ⟨rfl, rfl, framed_refl h⟩
  | cons d ds =>
    cases ds with
    | cons _ _ => exact ⟨rfl, rfl, framed_refl h⟩
    | nil =>
      simp only
      split
      · split
        · exact ⟨rfl, rfl, framed_refl h⟩
        · exact ⟨rfl, rfl, framed_move (b := a.base) (n := a.n - 1) (fill := fun _ => none) h ha (fun p hp => .inr (by simp only [Owns]; omega)) fun h => by omega⟩
      · exact ⟨rfl, rfl, framed_refl h⟩

theorem framed_copy (o : Option Int) (a b : Arr) {μo μ : Mem V} (h : Inn μo μ) (ha : ∀ p, Owns a p → (μo p).isSome) (hb : ∀ p, Owns b p → (μo p).isSome) : FramedOp μo μ (fun o => Arr.copyFrom o a b) o := by
  unfold FramedOp Arr.copyFrom
  cases o with
  | none => exact ⟨none, .inl rfl, rfl, rfl, framed_refl h⟩
  | some c =>
    by_cases h3 : freeFor μ a c b.n = true
    · have h4 := freeFor_inn h h3
      refine ⟨some c, .inl rfl, by simp only [if_pos h3, if_pos h4], by simp only [if_pos h3, if_pos h4], ?_⟩
      simp only [if_pos h3, if_pos h4]
      have key : ∀ p, c ≤ p ∧ p < c + b.n → (μo (b.base + (p - c))).isSome := fun p hp => hb _ (by simp only [Owns]; omega)
      constructor
      · intro p hp
        by_cases h1 : c ≤ p ∧ p < c + b.n
        · simp only [if_pos h1]
          exact h _ (key p h1)
        · simp only [if_neg h1] at hp ⊢
          split at hp
          · cases hp
          · next h2 => rw [if_neg h2, if_neg h2]; exact h p hp
      · intro p hp
        have h1 : ¬ (c ≤ p ∧ p < c + b.n) := fun h1 => by
          have := key p h1
          simp only [if_pos h1] at hp
          rw [hp] at this
          cases this
        simp only [if_neg h1] at hp ⊢
        split at hp
        · next h2 => rw [if_pos h2, if_pos (ha p h2)]
        · next h2 => rw [if_neg h2, if_neg (by simp [hp])]
      · intro p hp
        by_cases h1 : c ≤ p ∧ p < c + b.n
        · rcases freeFor_owns h3 h1 with h2 | h2
          · exact .inr h2
          · exact .inl (ha p h2)
        · simp only [if_neg h1] at hp
          split at hp
          · cases hp
          · exact .inl hp
    · exact ⟨none, .inr ⟨rfl, by simp only [if_neg h3]⟩, by simp only [if_neg h3], by simp only [if_neg h3], by simp only [if_neg h3]; exact framed_refl h⟩

/-- `Array(s, none)`. -/
theorem framed_create (rk : Option Nat) (o : Option Int) (fill : Nat → V) (s : List Int) {μo μ : Mem V} (h : Inn μo μ) :
    ∃ o', (o' = o ∨ (o' = none ∧ (Arr.create rk o fill s μ).1 = .error .alloc)) ∧ (Arr.create rk o fill s μ).1 = (Arr.create rk o' fill s μo).1 ∧ Framed μo (Arr.create rk o' fill s μo).2 μ (Arr.create rk o fill s μ).2 := by
  unfold Arr.create
  have hb : (Arr.fill ⟨rk, List.replicate (rk.getD 0) ⟨0, 0⟩, 0, 0⟩ s).2.n = 0 := by
    unfold Arr.fill
    split <;> rfl
  rcases hf : Arr.fill ⟨rk, List.replicate (rk.getD 0) ⟨0, 0⟩, 0, 0⟩ s with ⟨r, a⟩
  rw [hf] at hb
  simp only at hb
  cases r with
  | error e => exact ⟨o, .inl rfl, rfl, framed_refl h⟩
  | ok n =>
    simp only
    split
    · obtain ⟨o', h1, h2, h3, h4⟩ := framed_store o fill n a h fun p hp => by simp only [Owns, hb] at hp; omega
      refine ⟨o', ?_⟩
      rcases hx : storeResize o fill n a μ with ⟨r, a1, μ1⟩
      rcases hy : storeResize o' fill n a μo with ⟨s, a2, μ2⟩
      rw [hx, hy] at h2 h3 h4
      rw [hx] at h1
      simp only at h1 h2 h3 h4 ⊢
      subst h2 h3
      cases r with
      | ok u =>
        refine ⟨?_, rfl, h4⟩
        rcases h1 with h1 | ⟨_, h1⟩
        · exact .inl h1
        · cases h1
      | error e =>
        obtain ⟨rfl, _⟩ := storeResize_kind hx
        exact ⟨h1.imp_right fun h => ⟨h.1, rfl⟩, rfl, framed_refl h⟩
    · exact ⟨o, .inl rfl, rfl, framed_refl h⟩

/-! What isn't theirs. -/

/-- Only what `a` has, and what's free, may change. -/
def OnlyOf (a : Arr) (μ μ' : Mem V) : Prop := ∀ p, (μ p).isSome → ¬ Owns a p → μ' p = μ p

theorem only_move {μ : Mem V} {a : Arr} {b : Int} {n : Nat} {fill : Nat → Option V} (hf : ∀ p, b ≤ p ∧ p < b + n → μ p = none ∨ Owns a p) : OnlyOf a μ (μ.move a b n fill) := by
  intro p hp ha
  have h1 : ¬ (b ≤ p ∧ p < b + n) := fun h1 => by
    rcases hf p h1 with h | h
    · rw [h] at hp
      cases hp
    · exact ha h
  simp only [Owns] at ha
  simp only [Mem.move, if_neg h1, if_neg ha]

theorem only_store (o : Option Int) (fill : Nat → V) (k : Int) (a : Arr) (μ : Mem V) : OnlyOf a μ (storeResize o fill k a μ).2.2 := by
  unfold storeResize
  split
  · exact fun _ _ _ => rfl
  split
  · dsimp only
    exact only_move fun p hp => .inr (by simp only [Owns]; omega)
  split
  · exact fun _ _ _ => rfl
  split
  · next h =>
    dsimp only
    exact only_move (μ := μ) fun p hp => freeFor_owns h hp
  · exact fun _ _ _ => rfl

theorem only_resize (o : Option Int) (fill : Nat → V) (k : Int) (a : Arr) (μ : Mem V) : OnlyOf a μ (Arr.resize o fill k a μ).2.2 := by
  unfold Arr.resize
  cases a.dims with
  | nil => exact fun _ _ _ => rfl
  | cons d ds => exact fun p hp ha => only_store o fill _ { a with dims := ⟨k, d.step⟩ :: ds } μ p hp ha

theorem only_resizeShape (o : Option Int) (fill : Nat → V) (s : List Int) (a : Arr) (μ : Mem V) : OnlyOf a μ (Arr.resizeShape o fill s a μ).2.2 := by
  unfold Arr.resizeShape
  have hb : (a.fill s).2.base = a.base ∧ (a.fill s).2.n = a.n := by
    unfold Arr.fill
    split <;> exact ⟨rfl, rfl⟩
  rcases hf : a.fill s with ⟨r, a'⟩
  rw [hf] at hb
  cases r with
  | error e => exact fun _ _ _ => rfl
  | ok n => exact fun p hp ha => only_store o fill _ a' μ p hp (by simp only [Owns] at ha ⊢; rw [hb.1, hb.2]; exact ha)

theorem only_pushBack (o : Option Int) (t : V) (a : Arr) (μ : Mem V) : OnlyOf a μ (Arr.pushBack o t a μ).2.2 := by
  unfold Arr.pushBack
  have key := only_store o (fun _ => t) (a.n + 1) a μ
  rcases hx : storeResize o (fun _ => t) (a.n + 1) a μ with ⟨r, a1, μ1⟩
  rw [hx] at key
  split
  · rcases r with _ | _
    · exact key
    · exact key
  · exact fun _ _ _ => rfl

theorem only_popBack (a : Arr) (μ : Mem V) : OnlyOf a μ (Arr.popBack a μ).2.2 := by
  unfold Arr.popBack
  split
  · split
    · dsimp only
      split
      · exact fun _ _ _ => rfl
      · dsimp only
        exact only_move fun p hp => .inr (by simp only [Owns]; omega)
    · exact fun _ _ _ => rfl
  · exact fun _ _ _ => rfl

theorem only_copy (o : Option Int) (a b : Arr) (μ : Mem V) : OnlyOf a μ (Arr.copyFrom o a b μ).2.2 := by
  unfold Arr.copyFrom
  cases o with
  | none => exact fun _ _ _ => rfl
  | some c =>
    dsimp only
    split
    · next hf =>
      intro p hp ha
      have h1 : ¬ (c ≤ p ∧ p < c + b.n) := fun h1 => by
        rcases freeFor_owns hf h1 with h | h
        · rw [h] at hp
          cases hp
        · exact ha h
      simp only [Owns] at ha
      simp only [if_neg h1, if_neg ha]
    · exact fun _ _ _ => rfl

theorem only_create (rk : Option Nat) (o : Option Int) (fill : Nat → V) (s : List Int) (μ : Mem V) : ∀ p, (μ p).isSome → (Arr.create rk o fill s μ).2 p = μ p := by
  unfold Arr.create
  have hb : (Arr.fill ⟨rk, List.replicate (rk.getD 0) ⟨0, 0⟩, 0, 0⟩ s).2.n = 0 := by
    unfold Arr.fill
    split <;> rfl
  rcases hf : Arr.fill ⟨rk, List.replicate (rk.getD 0) ⟨0, 0⟩, 0, 0⟩ s with ⟨r, a⟩
  rw [hf] at hb
  simp only at hb
  cases r with
  | error e => exact fun _ _ => rfl
  | ok n =>
    simp only
    split
    · have key := only_store o fill n a μ
      rcases hx : storeResize o fill n a μ with ⟨r, a1, μ1⟩
      rw [hx] at key
      cases r with
      | error e => exact fun _ _ => rfl
      | ok u => exact fun p hp => key p hp (by simp only [Owns, hb]; omega)
    · exact fun _ _ => rfl

/-! Operations on a list of arrays. -/

theorem framed_on {L : Int → Prop} {as : List Arr} {μo μ : Mem V} (hs : Sound L as μo) (h : Inn μo μ) (i : Nat) (f : Option Int → Arr → Mem V → Except Fault Unit × Arr × Mem V) (o : Option Int)
    (hf : ∀ a, as[i]? = some a → (∀ p, Owns a p → (μo p).isSome) → FramedOp μo μ (fun o => f o a) o) : FramedOp μo μ (fun o => onArr i (f o) as) o := by
  unfold FramedOp onArr
  cases ha : as[i]? with
  | none => exact ⟨o, .inl rfl, rfl, rfl, framed_refl h⟩
  | some a =>
    obtain ⟨s, hc⟩ := hs.cont a (List.mem_of_getElem? ha)
    obtain ⟨o', h1, h2, h3, h4⟩ := hf a ha fun p hp => owns_alloc hc hp
    exact ⟨o', h1, h2, by simp only [h3], h4⟩

theorem framed_op {L : Int → Prop} {as : List Arr} {μo μ : Mem V} (hs : Sound L as μo) (h : Inn μo μ) (o : Op V) (hr : ∀ p, o ≠ .run p) :
    ∃ o', (o' = o ∨ (o' = denyOp o ∧ (o.step as μ).1 = .error .alloc)) ∧ (o.step as μ).1 = (o'.step as μo).1 ∧ (o.step as μ).2.1 = (o'.step as μo).2.1 ∧ Framed μo (o'.step as μo).2.2 μ (o.step as μ).2.2 := by
  cases o with
  | default rk =>
    refine ⟨_, .inl rfl, ?_⟩
    simp only [Op.step]
    split <;> exact ⟨rfl, rfl, framed_refl h⟩
  | create rk o fill s =>
    obtain ⟨o', h1, h2, h3⟩ := framed_create rk o fill s h
    refine ⟨.create rk o' fill s, ?_⟩
    simp only [Op.step]
    rcases hx : Arr.create rk o fill s μ with ⟨r, μ1⟩
    rcases hy : Arr.create rk o' fill s μo with ⟨q, μ2⟩
    rw [hx, hy] at h2 h3
    rw [hx] at h1
    simp only at h1 h2 h3
    subst h2
    cases r with
    | ok a =>
      refine ⟨.inl ?_, rfl, rfl, h3⟩
      rcases h1 with rfl | ⟨_, h1⟩
      · rfl
      · cases h1
    | error e =>
      refine ⟨?_, rfl, rfl, h3⟩
      rcases h1 with rfl | ⟨rfl, h1⟩
      · exact .inl rfl
      · cases h1
        exact .inr ⟨rfl, rfl⟩
  | resize i o fill n =>
    obtain ⟨o', h1, h2⟩ := framed_on hs h i (fun o => Arr.resize o fill n) o fun a _ ha => framed_resize o fill n a h ha
    exact ⟨.resize i o' fill n, by rcases h1 with rfl | ⟨rfl, h1⟩; exact .inl rfl; exact .inr ⟨rfl, h1⟩, h2⟩
  | resizeShape i o fill s =>
    obtain ⟨o', h1, h2⟩ := framed_on hs h i (fun o => Arr.resizeShape o fill s) o fun a _ ha => framed_resizeShape o fill s a h ha
    exact ⟨.resizeShape i o' fill s, by rcases h1 with rfl | ⟨rfl, h1⟩; exact .inl rfl; exact .inr ⟨rfl, h1⟩, h2⟩
  | pushBack i o t =>
    obtain ⟨o', h1, h2⟩ := framed_on hs h i (fun o => Arr.pushBack o t) o fun a _ ha => framed_pushBack o t a h ha
    exact ⟨.pushBack i o' t, by rcases h1 with rfl | ⟨rfl, h1⟩; exact .inl rfl; exact .inr ⟨rfl, h1⟩, h2⟩
  | popBack i =>
    obtain ⟨o', h1, h2⟩ := framed_on hs h i (fun _ => Arr.popBack) none fun a _ ha => framed_popBack a h ha
    exact ⟨.popBack i, .inl rfl, h2⟩
  | copy i j o =>
    simp only [Op.step]
    cases hb : as[j]? with
    | none => exact ⟨.copy i j o, .inl rfl, by simp only [hb], by simp only [hb], by simp only [hb]; exact framed_refl h⟩
    | some b =>
      simp only [hb]
      by_cases hij : i = j
      · exact ⟨.copy i j o, .inl rfl, by simp only [hb, if_pos hij], by simp only [hb, if_pos hij], by simp only [hb, if_pos hij]; exact framed_refl h⟩
      · obtain ⟨t, hct⟩ := hs.cont b (List.mem_of_getElem? hb)
        obtain ⟨o', h1, h2⟩ := framed_on hs h i (fun o a => if a.rk = b.rk then Arr.copyFrom o a b else fun μ => (.error .abort, a, μ)) o fun a _ ha => by
          by_cases hrk : a.rk = b.rk
          · simp only [if_pos hrk]
            exact framed_copy o a b h ha fun p hp => owns_alloc hct hp
          · simp only [if_neg hrk]
            exact ⟨o, .inl rfl, rfl, rfl, framed_refl h⟩
        refine ⟨.copy i j o', ?_⟩
        simp only [hb, if_neg hij]
        exact ⟨by rcases h1 with rfl | ⟨rfl, h1⟩; exact .inl rfl; exact .inr ⟨rfl, h1⟩, h2⟩
  | swap i j =>
    refine ⟨.swap i j, .inl rfl, ?_⟩
    simp only [Op.step]
    split
    · split <;> exact ⟨rfl, rfl, framed_refl h⟩
    · exact ⟨rfl, rfl, framed_refl h⟩
  | run p => exact absurd rfl (hr p)

theorem spares_on {L : Int → Prop} {as : List Arr} {μ : Mem V} (hs : Sound L as μ) {k i : Nat} (hk : k ≤ i) (f : Arr → Mem V → Except Fault Unit × Arr × Mem V) (hf : ∀ a, OnlyOf a μ (f a μ).2.2) :
    (onArr i f as μ).2.1.take k = as.take k ∧ as.length ≤ (onArr i f as μ).2.1.length ∧ ∀ p, StorageOf (as.take k) p → (onArr i f as μ).2.2 p = μ p := by
  unfold onArr
  cases ha : as[i]? with
  | none => exact ⟨rfl, Nat.le_refl _, fun _ _ => rfl⟩
  | some a =>
    refine ⟨?_, by simp, fun p ⟨b, hb, hp⟩ => hf a p ?_ ?_⟩
    · simp only [List.take_set]
      rw [List.set_eq_of_length_le (by simp; omega)]
    · obtain ⟨s, hc⟩ := hs.cont b (List.mem_of_mem_take hb)
      exact owns_alloc hc hp
    · obtain ⟨j, hj, rfl⟩ := List.getElem_of_mem hb
      simp only [List.length_take] at hj
      exact hs.disj j i _ a (by omega) (by simp) ha p hp

/-- The operation doesn't change any of the first arrays. -/
theorem spares_op {L : Int → Prop} {as : List Arr} {μ : Mem V} (hs : Sound L as μ) {k : Nat} (hl : k ≤ as.length) (o : Op V) (ho : OpSpares k o) :
    (o.step as μ).2.1.take k = as.take k ∧ as.length ≤ (o.step as μ).2.1.length ∧ ∀ p, StorageOf (as.take k) p → (o.step as μ).2.2 p = μ p := by
  cases o with
  | default rk =>
    simp only [Op.step]
    split
    · exact ⟨rfl, Nat.le_refl _, fun _ _ => rfl⟩
    · exact ⟨List.take_append_of_le_length hl, by simp, fun _ _ => rfl⟩
  | create rk o fill s =>
    simp only [Op.step]
    have key := only_create rk o fill s μ
    have hp : ∀ p, StorageOf (as.take k) p → (μ p).isSome := fun p ⟨b, hb, hp⟩ => by
      obtain ⟨s, hc⟩ := hs.cont b (List.mem_of_mem_take hb)
      exact owns_alloc hc hp
    rcases hx : Arr.create rk o fill s μ with ⟨r, μ1⟩
    rw [hx] at key
    cases r with
    | ok a => exact ⟨List.take_append_of_le_length hl, by simp, fun p h => key p (hp p h)⟩
    | error e => exact ⟨rfl, Nat.le_refl _, fun p h => key p (hp p h)⟩
  | resize i o fill n => exact spares_on hs ho _ fun a => only_resize o fill n a μ
  | resizeShape i o fill s => exact spares_on hs ho _ fun a => only_resizeShape o fill s a μ
  | pushBack i o t => exact spares_on hs ho _ fun a => only_pushBack o t a μ
  | popBack i => exact spares_on hs ho _ fun a => only_popBack a μ
  | copy i j o =>
    simp only [Op.step]
    split
    · split
      · exact ⟨rfl, Nat.le_refl _, fun _ _ => rfl⟩
      · refine spares_on hs ho _ fun a => ?_
        split
        · exact only_copy o a _ μ
        · exact fun _ _ _ => rfl
    · exact ⟨rfl, Nat.le_refl _, fun _ _ => rfl⟩
  | swap i j =>
    simp only [Op.step]
    split
    · split
      · exact ⟨rfl, Nat.le_refl _, fun _ _ => rfl⟩
      · refine ⟨?_, by simp, fun _ _ => rfl⟩
        have h1 := ho.1
        have h2 := ho.2
        simp only [List.take_set]
        rw [List.set_eq_of_length_le (by simp; omega), List.set_eq_of_length_le (by simp; omega)]
    · exact ⟨rfl, Nat.le_refl _, fun _ _ => rfl⟩
  | run p => cases ho

theorem spares_deny {k : Nat} {o : Op V} (h : OpSpares k o) : OpSpares k (denyOp o) := by
  cases o <;> exact h

end
end Ra.Props
