import Verif.Model.Reduce
import Verif.Props.Expr
import Mathlib.Order.Lattice
import Mathlib.Tactic.Order
import Mathlib.Algebra.BigOperators.Group.List.Basic
/-!
# Reductions: C35, C36, C37, C38, C39
-/
set_option linter.unusedSectionVars false

namespace Ra.Spec

variable {m : Type → Type} {α : Type} [Monad m]

/-- `a` is an expression of shape `s` whose elements are the values `f j`. -/
def Holds (a : Iter m α) (s : List Nat) (f : List Int → α) : Prop :=
  HasShape a (s.map some) ∧ ∀ j, Valid s j → elem a j = pure (f j)

/-- `j` comes before `k` in row-major order, in the shape `s`. -/
def Before (s : List Nat) (j k : List Int) : Prop := position s j < position s k

end Ra.Spec

namespace Ra.Props
open Spec

section
variable {m : Type → Type} {α β : Type} [Monad m] [LawfulMonad m] [MonadFault m]

theorem ply_never (dyn : Bool) (a : Iter m α) (s : List Nat) (h : HasShape a (s.map some)) (z : List Int) (hz : ∀ i ∈ z, i = 0) :
    ply (β := β) dyn never z a = (do forAll (elem a) (rowMajor s); pure none) := by
  have := Spec.search_none (β := β) (elem a) (rowMajor s)
  cases dyn
  · simp only [ply, plyFixed_eq _ a h.wf h.bounded, h.natShape, evalAt_elem]
    simp only [never] at this ⊢
    rw [this]
    simp
  · simp only [ply, plyRavel_eq _ a h.wf h.bounded z hz, h.natShape, evalAt_elem]
    simp only [never] at this ⊢
    rw [this]
    simp

omit [Monad m] [LawfulMonad m] [MonadFault m] in
theorem merge_one (s : List Length) : Merge [s] s := by
  refine ⟨by simp, ⟨s, by simp, rfl⟩, by simp⟩

omit [Monad m] [LawfulMonad m] [MonadFault m] in
theorem shape_one {op : List (m α) → m α} {a : Iter m α} {s : List Length} (h : HasShape a s) : HasShape (.node op [a]) s :=
  ⟨[s], ⟨s, [], rfl, h, rfl⟩, merge_one s⟩

omit [Monad m] [LawfulMonad m] [MonadFault m] in
theorem shape_two {op : List (m α) → m α} {a b : Iter m α} {sa sb s : List Length} (ha : HasShape a sa) (hb : HasShape b sb) (hm : Merge [sa, sb] s) :
    HasShape (.node op [a, b]) s :=
  ⟨[sa, sb], ⟨sa, [sb], rfl, ha, sb, [], rfl, hb, rfl⟩, hm⟩

omit [Monad m] [LawfulMonad m] [MonadFault m] in
theorem merge_same (s : List Length) : Merge [s, s] s := by
  refine ⟨by simp, ⟨s, by simp, rfl⟩, by simp⟩

/-! Order of the row-major indices. -/

theorem pairwise_before (s : List Nat) : (rowMajor s).Pairwise (Before s) := by
  have h : ((rowMajor s).map (position s)).Pairwise (· < ·) := by
    rw [map_position, List.pairwise_map]
    exact List.pairwise_lt_range.imp (by intros; omega)
  rwa [List.pairwise_map] at h

/-- The first index that satisfies `p`. -/
theorem find_first {s : List Nat} {p : List Int → Bool} {j : List Int} (h : (rowMajor s).find? p = some j) :
    Valid s j ∧ p j = true ∧ ∀ k, Valid s k → Before s k j → p k = false := by
  obtain ⟨hp, l1, l2, hl, hn⟩ := List.find?_eq_some_iff_append.mp h
  refine ⟨mem_rowMajor.mp (by rw [hl]; simp), hp, ?_⟩
  intro k hk hb
  have hk' : k ∈ l1 ++ j :: l2 := by rw [← hl]; exact mem_rowMajor.mpr hk
  have hpw := pairwise_before s
  rw [hl, List.pairwise_append] at hpw
  rcases List.mem_append.mp hk' with h1 | h1
  · simpa using hn k h1
  · rcases List.mem_cons.mp h1 with rfl | h1
    · simp [Before] at hb
    · have := List.rel_of_pairwise_cons hpw.2.1 h1
      simp only [Before] at this hb
      omega

/-- There's only one first index. -/
theorem first_unique {s : List Nat} {p : List Int → Bool} {j k : List Int} (hj : Valid s j) (hk : Valid s k) (h1 : p j = true) (h2 : p k = true)
    (h3 : ∀ i, Valid s i → Before s i j → p i = false) (h4 : ∀ i, Valid s i → Before s i k → p i = false) : j = k := by
  apply position_inj hj hk
  rcases lt_trichotomy (position s j) (position s k) with h | h | h
  · rw [h4 j hj h] at h1; simp at h1
  · exact h
  · rw [h3 k hk h] at h2; simp at h2

theorem early_pure (dyn : Bool) (stop : α → Option β) (a : Iter m α) (s : List Nat) (h : HasShape a (s.map some)) (dft : β)
    (z : List Int) (hz : ∀ i ∈ z, i = 0) (g : List Int → Option β)
    (hg : ∀ j, Valid s j → (do let x ← elem a j; pure (stop x)) = pure (g j)) :
    earlyOf dyn stop z a dft = pure ((((rowMajor s).find? fun j => (g j).isSome).bind g).getD dft) := by
  rw [C08_early dyn stop a s h dft z hz, search_congr (fun j hj => hg j (mem_rowMajor.mp hj)), search_pure]
  simp only [pure_bind]
  cases hf : (rowMajor s).find? fun j => (g j).isSome with
  | none => rfl
  | some j =>
    have := List.find?_some hf
    cases hgj : g j with
    | none => rw [hgj] at this; simp at this
    | some b => simp [hgj]

/-! ## C35 -/

omit [LawfulMonad m] [MonadFault m] in
theorem iotaU_shape [Integer α] : HasShape (iotaU : Iter m α) [none] := .cons rfl .nil

section
variable [Boolean α]

theorem elem_any [Optional α Bool] (a : Iter m α) (j : List Int) (x : α) (h : elem a j = pure x) (f : List α → m α) (y : α) (hf : f [x] = pure y) :
    elem (.node (mapOp f) [a]) j = pure y := by
  simp [elem, elems, mapOp, h, hf]

/-- C35. `any(a)` is true if and only if some element is true. -/
theorem C35_any [Optional α Bool] (dyn : Bool) (z : List Int) (hz : ∀ i ∈ z, i = 0) (a : Iter m α) (s : List Nat) (f : List Int → α) (h : Holds a s f) :
    ∃ b : Bool, anyOf dyn z a = pure b ∧ (b = true ↔ ∃ j, Valid s j ∧ toBool (f j) = true) := by
  unfold anyOf
  rw [early_pure dyn _ _ s (shape_one h.1) false z hz (fun j => if toBool (f j) then some true else none) (by
    intro j hj
    simp [elem, elems, mapOp, h.2 j hj, Optional.get_put])]
  refine ⟨_, rfl, ?_⟩
  cases hf : (rowMajor s).find? fun j => (if toBool (f j) then some true else none : Option Bool).isSome with
  | none =>
    rw [List.find?_eq_none] at hf
    simp only [Option.bind_none, Option.getD_none, Bool.false_eq_true, false_iff]
    rintro ⟨j, hj, hjt⟩
    have := hf j (mem_rowMajor.mpr hj)
    simp [hjt] at this
  | some j =>
    obtain ⟨h1, h2, _⟩ := find_first hf
    have hjt : toBool (f j) = true := by
      by_contra hn
      simp [hn] at h2
    simp only [Option.bind_some, hjt, if_true, Option.getD_some, true_iff]
    exact ⟨j, h1, hjt⟩

/-- C35. `every(a)` is true if and only if all the elements are true. -/
theorem C35_every [Optional α Bool] (dyn : Bool) (z : List Int) (hz : ∀ i ∈ z, i = 0) (a : Iter m α) (s : List Nat) (f : List Int → α) (h : Holds a s f) :
    ∃ b : Bool, everyOf dyn z a = pure b ∧ (b = true ↔ ∀ j, Valid s j → toBool (f j) = true) := by
  unfold everyOf
  rw [early_pure dyn _ _ s (shape_one h.1) true z hz (fun j => if !toBool (f j) then some false else none) (by
    intro j hj
    simp [elem, elems, mapOp, h.2 j hj, Optional.get_put])]
  refine ⟨_, rfl, ?_⟩
  cases hf : (rowMajor s).find? fun j => (if !toBool (f j) then some false else none : Option Bool).isSome with
  | none =>
    rw [List.find?_eq_none] at hf
    simp only [Option.bind_none, Option.getD_none, true_iff]
    intro j hj
    have := hf j (mem_rowMajor.mpr hj)
    by_contra hn
    simp [hn] at this
  | some j =>
    obtain ⟨h1, h2, _⟩ := find_first hf
    have hjt : toBool (f j) = false := by
      by_contra hn
      simp [hn] at h2
    simp only [Option.bind_some, hjt, Bool.not_false, if_true, Option.getD_some, Bool.false_eq_true, false_iff]
    intro hall
    rw [hall j h1] at hjt
    simp at hjt

/-- C35. `index(a)` is the index on the first axis of the first element that is true. -/
theorem C35_index_found [Integer α] [Optional α Int] (dyn : Bool) (z : List Int) (hz : ∀ i ∈ z, i = 0) (a : Iter m α) (n : Nat) (s : List Nat)
    (f : List Int → α) (h : Holds a (n :: s) f) (i : Int) (j : List Int) (hj : Valid (n :: s) (i :: j)) (ht : toBool (f (i :: j)) = true)
    (hfirst : ∀ k, Valid (n :: s) k → Before (n :: s) k (i :: j) → toBool (f k) = false) : indexOf dyn z a = pure i := by
  have hm : Merge [(n :: s).map some, [none]] ((n :: s).map some) := by
    refine ⟨by simp, ⟨_, by simp, rfl⟩, ?_⟩
    intro k x
    constructor
    · intro hk; exact ⟨_, by simp, hk⟩
    · rintro ⟨y, hy, hk⟩
      simp only [List.mem_cons, List.not_mem_nil, or_false] at hy
      rcases hy with rfl | rfl
      · exact hk
      · rcases k with _ | k <;> simp at hk
  unfold indexOf
  rw [early_pure dyn _ _ (n :: s) (shape_two h.1 iotaU_shape hm) (-1) z hz (fun j => if toBool (f j) then some (j.headD 0) else none) (by
    intro j hj
    cases j with
    | nil => simp [Valid] at hj
    | cons i j =>
      simp [elem, elems, mapOp, iotaU, h.2 _ hj, Optional.get_put, dot, Integer.toInt_ofInt])]
  cases hf : (rowMajor (n :: s)).find? fun j => (if toBool (f j) then some (j.headD 0) else none : Option Int).isSome with
  | none =>
    rw [List.find?_eq_none] at hf
    have := hf _ (mem_rowMajor.mpr hj)
    simp [ht] at this
  | some k =>
    obtain ⟨h1, h2, h3⟩ := find_first hf
    have hp : ∀ k, (if toBool (f k) then some (k.headD 0) else none : Option Int).isSome = toBool (f k) := by
      intro k; cases toBool (f k) <;> rfl
    rw [hp] at h2
    simp only [hp] at h3
    have : k = i :: j := first_unique (p := fun k => toBool (f k)) h1 hj h2 ht h3 hfirst
    subst this
    simp [ht]

/-- C35. `index(a)` is -1 if no element is true. -/
theorem C35_index_none [Integer α] [Optional α Int] (dyn : Bool) (z : List Int) (hz : ∀ i ∈ z, i = 0) (a : Iter m α) (n : Nat) (s : List Nat)
    (f : List Int → α) (h : Holds a (n :: s) f) (hn : ∀ k, Valid (n :: s) k → toBool (f k) = false) : indexOf dyn z a = pure (-1) := by
  have hm : Merge [(n :: s).map some, [none]] ((n :: s).map some) := by
    refine ⟨by simp, ⟨_, by simp, rfl⟩, ?_⟩
    intro k x
    constructor
    · intro hk; exact ⟨_, by simp, hk⟩
    · rintro ⟨y, hy, hk⟩
      simp only [List.mem_cons, List.not_mem_nil, or_false] at hy
      rcases hy with rfl | rfl
      · exact hk
      · rcases k with _ | k <;> simp at hk
  unfold indexOf
  rw [early_pure dyn _ _ (n :: s) (shape_two h.1 iotaU_shape hm) (-1) z hz (fun j => if toBool (f j) then some (j.headD 0) else none) (by
    intro j hj
    cases j with
    | nil => simp [Valid] at hj
    | cons i j =>
      simp [elem, elems, mapOp, iotaU, h.2 _ hj, Optional.get_put, dot, Integer.toInt_ofInt])]
  have : (rowMajor (n :: s)).find? (fun j => (if toBool (f j) then some (j.headD 0) else none : Option Int).isSome) = none := by
    rw [List.find?_eq_none]
    intro k hk
    simp [hn k (mem_rowMajor.mp hk)]
  rw [this]; rfl

end

/-! ## C36 -/

section
variable [LinearOrder α] [Optional α Bool]

/-- What `lexical_compare` should give. -/
def LexLess (s : List Nat) (f g : List Int → α) : Prop :=
  ∃ j, Valid s j ∧ f j < g j ∧ ∀ k, Valid s k → Before s k j → f k = g k

/-- C36. `lexical_compare(a, b)` is true if and only if, at the first position where they differ, the element of `a` is less. -/
theorem C36_lexical (dyn : Bool) (z : List Int) (hz : ∀ i ∈ z, i = 0) (a b : Iter m α) (s : List Nat) (f g : List Int → α) (ha : Holds a s f)
    (hb : Holds b s g) : ∃ r : Bool, lexicalCompare dyn z a b = pure r ∧ (r = true ↔ LexLess s f g) := by
  unfold lexicalCompare
  rw [early_pure dyn _ _ s (shape_two ha.1 hb.1 (merge_same _)) false z hz (fun j => if f j = g j then none else some (decide (f j < g j))) (by
    intro j hj
    simp [elem, elems, mapOp, ha.2 j hj, hb.2 j hj, Optional.get_put])]
  refine ⟨_, rfl, ?_⟩
  have hp : ∀ k, (if f k = g k then none else some (decide (f k < g k)) : Option Bool).isSome = decide (f k ≠ g k) := by
    intro k; by_cases h : f k = g k <;> simp [h]
  cases hf : (rowMajor s).find? fun j => (if f j = g j then none else some (decide (f j < g j)) : Option Bool).isSome with
  | none =>
    rw [List.find?_eq_none] at hf
    simp only [Option.bind_none, Option.getD_none, Bool.false_eq_true, false_iff]
    rintro ⟨j, hj, hl, _⟩
    have := hf j (mem_rowMajor.mpr hj)
    rw [hp] at this
    exact this (by simp [hl.ne])
  | some j =>
    obtain ⟨h1, h2, h3⟩ := find_first hf
    simp only [hp, decide_eq_true_eq, decide_eq_false_iff_not, not_not] at h2 h3
    simp only [Option.bind_some]
    rw [if_neg h2]
    simp only [Option.getD_some, decide_eq_true_eq]
    constructor
    · intro hl; exact ⟨j, h1, hl, h3⟩
    · rintro ⟨k, hk, hl, hfirst⟩
      have : j = k := first_unique (p := fun k => decide (f k ≠ g k)) h1 hk (by simpa using h2) (by simp [hl.ne])
        (by intro i hi hb; simp [h3 i hi hb]) (by intro i hi hb; simp [hfirst i hi hb])
      subst this
      exact hl

/-- C36. It is irreflexive. -/
theorem C36_irrefl (dyn : Bool) (z : List Int) (hz : ∀ i ∈ z, i = 0) (a : Iter m α) (s : List Nat) (f : List Int → α) (ha : Holds a s f) :
    lexicalCompare dyn z a a = pure false := by
  obtain ⟨r, h1, h2⟩ := C36_lexical dyn z hz a a s f f ha ha
  rw [h1]
  cases r with
  | false => rfl
  | true =>
    obtain ⟨j, _, hl, _⟩ := h2.mp rfl
    exact absurd hl (lt_irrefl _)

omit [Optional α Bool] in
theorem LexLess.trans {s : List Nat} {f g h : List Int → α} (h1 : LexLess s f g) (h2 : LexLess s g h) : LexLess s f h := by
  obtain ⟨j, hj, hl, he⟩ := h1
  obtain ⟨k, hk, hl', he'⟩ := h2
  rcases lt_trichotomy (position s j) (position s k) with hlt | heq | hlt
  · refine ⟨j, hj, by rw [← he' j hj hlt]; exact hl, fun i hi hb => ?_⟩
    rw [he i hi hb, he' i hi (lt_trans hb hlt)]
  · have := position_inj hj hk heq
    subst this
    exact ⟨j, hj, lt_trans hl hl', fun i hi hb => by rw [he i hi hb, he' i hi hb]⟩
  · refine ⟨k, hk, by rw [he k hk hlt]; exact hl', fun i hi hb => ?_⟩
    rw [he i hi (lt_trans hb hlt), he' i hi hb]

/-- C36. It is transitive. -/
theorem C36_trans (dyn : Bool) (z : List Int) (hz : ∀ i ∈ z, i = 0) (a b c : Iter (Except Fault) α) (s : List Nat) (f g h : List Int → α)
    (ha : Holds a s f) (hb : Holds b s g) (hc : Holds c s h) (h1 : lexicalCompare dyn z a b = .ok true) (h2 : lexicalCompare dyn z b c = .ok true) :
    lexicalCompare dyn z a c = .ok true := by
  obtain ⟨r1, e1, i1⟩ := C36_lexical dyn z hz a b s f g ha hb
  obtain ⟨r2, e2, i2⟩ := C36_lexical dyn z hz b c s g h hb hc
  obtain ⟨r3, e3, i3⟩ := C36_lexical dyn z hz a c s f h ha hc
  rw [h1] at e1; rw [h2] at e2
  injection e1 with e1; injection e2 with e2
  have := i3.mpr ((i1.mp e1.symm).trans (i2.mp e2.symm))
  rw [e3, this]; rfl

/-- C36. It is total: if neither is less, then all the elements are the same. -/
theorem C36_total (dyn : Bool) (z : List Int) (hz : ∀ i ∈ z, i = 0) (a b : Iter (Except Fault) α) (s : List Nat) (f g : List Int → α)
    (ha : Holds a s f) (hb : Holds b s g) (h1 : lexicalCompare dyn z a b = .ok false) (h2 : lexicalCompare dyn z b a = .ok false) (j : List Int)
    (hj : Valid s j) : f j = g j := by
  obtain ⟨r1, e1, i1⟩ := C36_lexical dyn z hz a b s f g ha hb
  obtain ⟨r2, e2, i2⟩ := C36_lexical dyn z hz b a s g f hb ha
  rw [h1] at e1; rw [h2] at e2
  injection e1 with e1; injection e2 with e2
  subst e1 e2
  simp only [Bool.false_eq_true, false_iff] at i1 i2
  by_contra hne
  cases hf : (rowMajor s).find? fun j => decide (f j ≠ g j) with
  | none =>
    rw [List.find?_eq_none] at hf
    exact hf j (mem_rowMajor.mpr hj) (by simpa using hne)
  | some k =>
    obtain ⟨k1, k2, k3⟩ := find_first hf
    simp only [decide_eq_true_eq, decide_eq_false_iff_not, not_not] at k2 k3
    rcases lt_or_gt_of_ne k2 with hlt | hlt
    · exact i1 ⟨k, k1, hlt, k3⟩
    · exact i2 ⟨k, k1, hlt, fun i hi hb => (k3 i hi hb).symm⟩

end
end

/-! ## C37 -/

section
variable {n : Type → Type} {α γ : Type} [Monad n] [LawfulMonad n] [MonadFault n] [Inhabited α]

theorem forAll_state {ι β : Type} (f : γ → ι → γ) (b : β) (l : List ι) (c : γ) :
    (forAll (m := StateT γ n) (fun i => do let c ← get; set (f c i); pure b) l).run c = pure ((), l.foldl f c) := by
  induction l generalizing c with
  | nil => simp [forAll]
  | cons i l ih =>
    simp only [forAll, List.foldl_cons]
    simp [← ih]

/-- A `for_each` that accumulates is a fold over the elements in row-major order. -/
theorem forEachRef_eq (dyn : Bool) (z : List Int) (hz : ∀ i ∈ z, i = 0) (op : γ → List α → n γ) (c : γ) (t : List (Iter (StateT γ n) α))
    (s : List Nat) (ss : List (List Length)) (hss : HasShapes t ss) (hm : Merge ss (s.map some)) (g : List Int → List α)
    (hg : ∀ j, Valid s j → elems t j = (g j).map pure) (f : γ → List Int → γ) (hf : ∀ c j, Valid s j → op c (g j) = pure (f c j)) :
    forEachRef dyn z op c t = pure ((rowMajor s).foldl f c) := by
  unfold forEachRef
  have hsh : ∀ op : List (StateT γ n α) → StateT γ n α, HasShape (Iter.node op t) (s.map some) := fun op => ⟨ss, hss, hm⟩
  rw [ply_never dyn _ s (hsh _) z hz]
  have : ∀ j ∈ rowMajor s, elem (.node (mapOp fun xs => (do
      let c ← get
      let c' ← (op c xs : n γ)
      set c'
      pure default : StateT γ n α)) t) j = (do let c ← get; set (f c j); pure default) := by
    intro j hj
    have hj := mem_rowMajor.mp hj
    simp only [elem, hg j hj, mapOp]
    have hmap : ∀ l : List α, (l.map pure : List (StateT γ n α)).mapM id = pure l := by
      intro l
      induction l with
      | nil => rfl
      | cons x l ih => simp [ih]
    rw [hmap]
    simp only [pure_bind]
    congr 1; funext c
    rw [hf c j hj]
    simp
  rw [forAll_congr this, StateT.run_bind, forAll_state]
  simp

theorem elems_one {m : Type → Type} [Monad m] {a : Iter m α} {s : List Nat} {f : List Int → α} (h : Holds a s f) (j : List Int) (hj : Valid s j) : elems [a] j = [f j].map pure := by
  simp [elems, h.2 j hj]

theorem forEachRef_one (dyn : Bool) (z : List Int) (hz : ∀ i ∈ z, i = 0) (op : γ → List α → n γ) (c : γ) (a : Iter (StateT γ n) α) (s : List Nat)
    (v : List Int → α) (h : Holds a s v) (f : γ → α → γ) (hf : ∀ c x, op c [x] = pure (f c x)) :
    forEachRef dyn z op c [a] = pure (((rowMajor s).map v).foldl f c) := by
  rw [forEachRef_eq dyn z hz op c [a] s [s.map some] ⟨_, [], rfl, h.1, rfl⟩ (merge_one _) (fun j => [v j]) (fun j hj => elems_one h j hj)
    (fun c j => f c (v j)) (fun c j _ => hf c (v j)), List.foldl_map]

theorem forEachRef_two (dyn : Bool) (z : List Int) (hz : ∀ i ∈ z, i = 0) (op : γ → List α → n γ) (c : γ) (a b : Iter (StateT γ n) α) (sa sb : List Length)
    (s : List Nat) (v w : List Int → α) (ha : HasShape a sa) (hb : HasShape b sb) (hm : Merge [sa, sb] (s.map some))
    (hv : ∀ j, Valid s j → elem a j = pure (v j)) (hw : ∀ j, Valid s j → elem b j = pure (w j)) (f : γ → α → α → γ)
    (hf : ∀ c x y, op c [x, y] = pure (f c x y)) :
    forEachRef dyn z op c [a, b] = pure ((rowMajor s).foldl (fun c j => f c (v j) (w j)) c) := by
  rw [forEachRef_eq dyn z hz op c [a, b] s [sa, sb] ⟨_, _, rfl, ha, _, [], rfl, hb, rfl⟩ hm (fun j => [v j, w j])
    (fun j hj => by simp [elems, hv j hj, hw j hj]) (fun c j => f c (v j) (w j)) (fun c j _ => hf c (v j) (w j))]

section
variable [LinearOrder α]

/-- C37. `amin(a)` is not over any element, and it is an element, or if there are none, it is the greatest value. -/
theorem C37_amin (hi : α) (hhi : ∀ x, x ≤ hi) (dyn : Bool) (z : List Int) (hz : ∀ i ∈ z, i = 0) (a : Iter (StateT α n) α) (s : List Nat)
    (f : List Int → α) (h : Holds a s f) :
    ∃ c, amin hi dyn z a = pure c ∧ (∀ j, Valid s j → c ≤ f j) ∧ (∀ j, Valid s j → ∃ k, Valid s k ∧ f k = c) ∧ ((¬ ∃ j, Valid s j) → c = hi) := by
  have key : ∀ (l : List (List Int)) (c : α), (∀ j ∈ l, (l.map f).foldl (fun c x => if x < c then x else c) c ≤ f j) ∧
      ((l.map f).foldl (fun c x => if x < c then x else c) c = c ∨ ∃ k ∈ l, f k = (l.map f).foldl (fun c x => if x < c then x else c) c) ∧
      (l.map f).foldl (fun c x => if x < c then x else c) c ≤ c := by
    intro l
    induction l with
    | nil => simp
    | cons j l ih =>
      intro c
      obtain ⟨h1, h2, h3⟩ := ih (if f j < c then f j else c)
      simp only [List.map_cons, List.foldl_cons]
      have hle : (if f j < c then f j else c) ≤ f j ∧ (if f j < c then f j else c) ≤ c := by
        split
        · exact ⟨le_refl _, by order⟩
        · exact ⟨by order, le_refl _⟩
      refine ⟨?_, ?_, by order⟩
      · intro k hk
        rcases List.mem_cons.mp hk with rfl | hk
        · order
        · exact h1 k hk
      · rcases h2 with h2 | ⟨k, hk, h2⟩
        · rw [h2]
          split
          · right; exact ⟨j, by simp, rfl⟩
          · left; rfl
        · right; exact ⟨k, by simp [hk], h2⟩
  obtain ⟨k1, k2, k3⟩ := key (rowMajor s) hi
  refine ⟨_, forEachRef_one dyn z hz _ hi a s f h (fun c x => if x < c then x else c) (fun c x => rfl), ?_, ?_, ?_⟩
  · exact fun j hj => k1 j (mem_rowMajor.mpr hj)
  · intro j hj
    rcases k2 with k2 | ⟨k, hk, k2⟩
    · refine ⟨j, hj, ?_⟩
      have := k1 j (mem_rowMajor.mpr hj)
      have := hhi (f j)
      rw [k2] at *
      order
    · exact ⟨k, mem_rowMajor.mp hk, k2⟩
  · intro hne
    have : rowMajor s = [] := by
      rw [List.eq_nil_iff_forall_not_mem]
      exact fun j hj => hne ⟨j, mem_rowMajor.mp hj⟩
    rw [this]; rfl

/-- C37. `amax(a)` is not under any element, and it is an element, or if there are none, it is the least value. -/
theorem C37_amax (lo : α) (hlo : ∀ x, lo ≤ x) (dyn : Bool) (z : List Int) (hz : ∀ i ∈ z, i = 0) (a : Iter (StateT α n) α) (s : List Nat)
    (f : List Int → α) (h : Holds a s f) :
    ∃ c, amax lo dyn z a = pure c ∧ (∀ j, Valid s j → f j ≤ c) ∧ (∀ j, Valid s j → ∃ k, Valid s k ∧ f k = c) ∧ ((¬ ∃ j, Valid s j) → c = lo) := by
  have key : ∀ (l : List (List Int)) (c : α), (∀ j ∈ l, f j ≤ (l.map f).foldl (fun c x => if c < x then x else c) c) ∧
      ((l.map f).foldl (fun c x => if c < x then x else c) c = c ∨ ∃ k ∈ l, f k = (l.map f).foldl (fun c x => if c < x then x else c) c) ∧
      c ≤ (l.map f).foldl (fun c x => if c < x then x else c) c := by
    intro l
    induction l with
    | nil => simp
    | cons j l ih =>
      intro c
      obtain ⟨h1, h2, h3⟩ := ih (if c < f j then f j else c)
      simp only [List.map_cons, List.foldl_cons]
      have hle : f j ≤ (if c < f j then f j else c) ∧ c ≤ (if c < f j then f j else c) := by
        split
        · exact ⟨le_refl _, by order⟩
        · exact ⟨by order, le_refl _⟩
      refine ⟨?_, ?_, by order⟩
      · intro k hk
        rcases List.mem_cons.mp hk with rfl | hk
        · order
        · exact h1 k hk
      · rcases h2 with h2 | ⟨k, hk, h2⟩
        · rw [h2]
          split
          · right; exact ⟨j, by simp, rfl⟩
          · left; rfl
        · right; exact ⟨k, by simp [hk], h2⟩
  obtain ⟨k1, k2, k3⟩ := key (rowMajor s) lo
  refine ⟨_, forEachRef_one dyn z hz _ lo a s f h (fun c x => if c < x then x else c) (fun c x => rfl), ?_, ?_, ?_⟩
  · exact fun j hj => k1 j (mem_rowMajor.mpr hj)
  · intro j hj
    rcases k2 with k2 | ⟨k, hk, k2⟩
    · refine ⟨j, hj, ?_⟩
      have := k1 j (mem_rowMajor.mpr hj)
      have := hlo (f j)
      rw [k2] at *
      order
    · exact ⟨k, mem_rowMajor.mp hk, k2⟩
  · intro hne
    have : rowMajor s = [] := by
      rw [List.eq_nil_iff_forall_not_mem]
      exact fun j hj => hne ⟨j, mem_rowMajor.mp hj⟩
    rw [this]; rfl

end

/-! ## C38 -/

/-- A strict weak order. -/
structure StrictWeak {V : Type} (less : V → V → Bool) : Prop where
  irrefl : ∀ x, less x x = false
  trans : ∀ x y z, less x y = true → less y z = true → less x z = true
  incomp : ∀ x y z, less x y = false → less y x = false → less y z = false → less z y = false → less x z = false

theorem StrictWeak.neg {V : Type} {less : V → V → Bool} (h : StrictWeak less) {x y z : V} (h1 : less x y = false) (h2 : less y z = false) : less x z = false := by
  by_contra hc
  rw [Bool.not_eq_false] at hc
  -- y isn't less than x nor z than y, else x < z would go against h1 or h2
  have h3 : less y x = false := by
    by_contra hn
    rw [Bool.not_eq_false] at hn
    rw [h.trans y x z hn hc] at h2
    simp at h2
  have h4 : less z y = false := by
    by_contra hn
    rw [Bool.not_eq_false] at hn
    rw [h.trans x z y hc hn] at h1
    simp at h1
  rw [h.incomp x y z h1 h3 h2 h4] at hc
  simp at hc

/-- The running element of `refmin`. -/
theorem fold_first {V ι : Type} {less : V → V → Bool} (h : StrictWeak less) (val : ι → V) (l : List ι) (p : ι) :
    ∃ l1 q l2, p :: l = l1 ++ q :: l2 ∧ l.foldl (fun p x => if less (val x) (val p) then x else p) p = q ∧
      (∀ x ∈ l1, less (val q) (val x) = true) ∧ ∀ x ∈ p :: l, less (val x) (val q) = false := by
  induction l generalizing p with
  | nil => exact ⟨[], p, [], rfl, rfl, by simp, by simp [h.irrefl]⟩
  | cons x l ih =>
    simp only [List.foldl_cons]
    by_cases hx : less (val x) (val p) = true
    · rw [if_pos hx]
      obtain ⟨l1, q, l2, h1, h2, h3, h4⟩ := ih x
      have hqp : less (val q) (val p) = true := by
        by_contra hn
        rw [Bool.not_eq_true] at hn
        have := h.neg (h4 x (by simp)) hn
        rw [this] at hx; simp at hx
      refine ⟨p :: l1, q, l2, by rw [h1]; rfl, h2, ?_, ?_⟩
      · intro y hy
        rcases List.mem_cons.mp hy with rfl | hy
        · exact hqp
        · exact h3 y hy
      · intro y hy
        rcases List.mem_cons.mp hy with rfl | hy
        · by_contra hn
          rw [Bool.not_eq_false] at hn
          have := h.trans _ _ _ hn hqp
          rw [h.irrefl] at this; simp at this
        · exact h4 y hy
    · rw [if_neg hx]
      rw [Bool.not_eq_true] at hx
      obtain ⟨l1, q, l2, h1, h2, h3, h4⟩ := ih p
      cases l1 with
      | nil =>
        simp only [List.nil_append, List.cons.injEq] at h1
        obtain ⟨rfl, rfl⟩ := h1
        refine ⟨[], p, x :: l, rfl, h2, by simp, ?_⟩
        intro y hy
        rcases List.mem_cons.mp hy with rfl | hy
        · exact h.irrefl _
        · rcases List.mem_cons.mp hy with rfl | hy
          · exact hx
          · exact h4 y (by simp [hy])
      | cons p' l1 =>
        simp only [List.cons_append, List.cons.injEq] at h1
        obtain ⟨rfl, rfl⟩ := h1
        refine ⟨p :: x :: l1, q, l2, rfl, h2, ?_, ?_⟩
        · intro y hy
          rcases List.mem_cons.mp hy with rfl | hy
          · exact h3 y (by simp)
          · rcases List.mem_cons.mp hy with rfl | hy
            · -- q < p and not x < p, so q < x
              by_contra hn
              rw [Bool.not_eq_true] at hn
              have := h.neg hn hx
              rw [h3 p (by simp)] at this; simp at this
            · exact h3 y (by simp [hy])
        · intro y hy
          rcases List.mem_cons.mp hy with rfl | hy
          · exact h4 y (by simp)
          · rcases List.mem_cons.mp hy with rfl | hy
            · exact h.neg hx (h4 p (by simp))
            · exact h4 y (by simp [hy])

theorem size_pos_iff (a : Iter (StateT γ n) α) (s : List Nat) (h : HasShape a (s.map some)) : a.size > 0 ↔ ∃ j l, rowMajor s = j :: l := by
  have hsz : a.size = size s := by rw [size_eq h.bounded, h.natShape]
  rw [hsz, ← length_rowMajor]
  cases rowMajor s <;> simp

/-- The first element is the one at the origin. -/
theorem first_zero {s : List Nat} {j : List Int} {l : List (List Int)} (h : rowMajor s = j :: l) : ∀ i ∈ j, i = 0 := by
  have hv : Valid s j := mem_rowMajor.mp (by simp [h])
  have hp : position s j = 0 := by
    have := map_position s
    rw [h] at this
    cases hs : size s with
    | zero => rw [hs] at this; simp at this
    | succ k => rw [hs, List.range_succ_eq_map] at this; simp at this; exact this.1
  clear h
  induction s generalizing j with
  | nil => cases j <;> simp_all [Valid]
  | cons k s ih =>
    cases j with
    | nil => simp
    | cons i j =>
      simp only [Valid] at hv
      simp only [position] at hp
      have h0 := position_nonneg hv.2.2
      have h1 := position_lt hv.2.2
      have h2 : 0 ≤ i * (size s : Int) := Int.mul_nonneg hv.1 (by omega)
      have hi : i = 0 := by
        by_contra hne
        have : (1 : Int) * size s ≤ i * size s := Int.mul_le_mul_of_nonneg_right (by omega) (by omega)
        omega
      intro x hx
      rcases List.mem_cons.mp hx with rfl | hx
      · exact hi
      · exact ih hv.2.2 (by omega) x hx

theorem elem_zero {m : Type → Type} (a : Iter m α) (j : List Int) (h : ∀ i ∈ j, i = 0) : elem a j = a.deref := by
  have : disp j = fun _ => 0 := by
    funext k
    simp only [disp, List.getD_eq_getElem?_getD]
    cases hk : j[k]? with
    | none => rfl
    | some x => exact h x (List.mem_of_getElem? hk)
  rw [← a.deref_shift, this, a.shift_zero]

theorem fold_map {ι V : Type} (less : V → V → Bool) (val : α → V) (f : ι → α) (l : List ι) (j : ι) :
    (l.map f).foldl (fun p x => if less (val x) (val p) then x else p) (f j) =
    f (l.foldl (fun p x => if less (val (f x)) (val (f p)) then x else p) j) := by
  induction l generalizing j with
  | nil => rfl
  | cons x l ih =>
    simp only [List.map_cons, List.foldl_cons]
    split
    · exact ih x
    · exact ih j

theorem refmin_core {V : Type} {less : V → V → Bool} (h : StrictWeak less) (val : α → V) {s : List Nat} (f : List Int → α) (j0 : List Int) (l : List (List Int))
    (hl : rowMajor s = j0 :: l) :
    ∃ j, Valid s j ∧ ((rowMajor s).map f).foldl (fun p x => if less (val x) (val p) then x else p) (f j0) = f j ∧
      (∀ k, Valid s k → less (val (f k)) (val (f j)) = false) ∧ ∀ k, Valid s k → Before s k j → less (val (f j)) (val (f k)) = true := by
  obtain ⟨l1, q, l2, h1, h2, h3, h4⟩ := fold_first h (fun j => val (f j)) l j0
  refine ⟨q, mem_rowMajor.mp (by rw [hl, h1]; simp), ?_, ?_, ?_⟩
  · rw [hl, List.map_cons, List.foldl_cons]
    rw [if_neg (by rw [h.irrefl]; simp), fold_map, h2]
  · intro k hk
    exact h4 k (by rw [← hl]; exact mem_rowMajor.mpr hk)
  · intro k hk hb
    have hk' := mem_rowMajor.mpr hk
    have hpw := pairwise_before s
    rw [hl, h1] at hk' hpw
    rw [List.pairwise_append] at hpw
    rcases List.mem_append.mp hk' with hk1 | hk1
    · exact h3 k hk1
    · rcases List.mem_cons.mp hk1 with rfl | hk1
      · simp [Before] at hb
      · have := List.rel_of_pairwise_cons hpw.2.1 hk1
        simp only [Before] at this hb
        omega

/-- C38. `refmin(a, less)` refers to the first element of `a` that no element precedes. -/
theorem C38_refmin {V : Type} (less : V → V → Bool) (hw : StrictWeak less) (val : α → V) (dyn : Bool) (z : List Int) (hz : ∀ i ∈ z, i = 0)
    (a : Iter (StateT α n) α) (s : List Nat) (f : List Int → α) (h : Holds a s f) (hne : ∃ j, Valid s j) :
    ∃ j, Valid s j ∧ refmin less val dyn z a = pure (f j) ∧ (∀ k, Valid s k → less (val (f k)) (val (f j)) = false) ∧
      ∀ k, Valid s k → Before s k j → ∃ k', Valid s k' ∧ less (val (f k')) (val (f k)) = true := by
  obtain ⟨j0, l, hl⟩ : ∃ j l, rowMajor s = j :: l := by
    obtain ⟨j, hj⟩ := hne
    have := mem_rowMajor.mpr hj
    cases hr : rowMajor s with
    | nil => rw [hr] at this; simp at this
    | cons j0 l => exact ⟨j0, l, rfl⟩
  have hj0 : Valid s j0 := mem_rowMajor.mp (by simp [hl])
  have hd : a.deref = pure (f j0) := by rw [← elem_zero a j0 (first_zero hl), h.2 j0 hj0]
  obtain ⟨j, h1, h2, h3, h4⟩ := refmin_core hw val f j0 l hl
  refine ⟨j, h1, ?_, h3, fun k hk hb => ⟨j, h1, h4 k hk hb⟩⟩
  unfold refmin
  rw [if_pos ((size_pos_iff a s h.1).mpr ⟨j0, l, hl⟩), hd]
  simp only [StateT.run_pure, pure_bind]
  rw [forEachRef_one dyn z hz _ (f j0) a s f h (fun p x => if less (val x) (val p) then x else p) (fun c x => rfl), h2]

/-- C38. `refmax(a, less)` refers to the first element of `a` that doesn't precede any. -/
theorem C38_refmax {V : Type} (less : V → V → Bool) (hw : StrictWeak less) (val : α → V) (dyn : Bool) (z : List Int) (hz : ∀ i ∈ z, i = 0)
    (a : Iter (StateT α n) α) (s : List Nat) (f : List Int → α) (h : Holds a s f) (hne : ∃ j, Valid s j) :
    ∃ j, Valid s j ∧ refmax less val dyn z a = pure (f j) ∧ (∀ k, Valid s k → less (val (f j)) (val (f k)) = false) ∧
      ∀ k, Valid s k → Before s k j → ∃ k', Valid s k' ∧ less (val (f k)) (val (f k')) = true := by
  have hw' : StrictWeak (fun x y => less y x) :=
    ⟨hw.irrefl, fun x y z h1 h2 => hw.trans z y x h2 h1, fun x y z h1 h2 h3 h4 => hw.incomp z y x h3 h4 h1 h2⟩
  obtain ⟨j0, l, hl⟩ : ∃ j l, rowMajor s = j :: l := by
    obtain ⟨j, hj⟩ := hne
    have := mem_rowMajor.mpr hj
    cases hr : rowMajor s with
    | nil => rw [hr] at this; simp at this
    | cons j0 l => exact ⟨j0, l, rfl⟩
  have hj0 : Valid s j0 := mem_rowMajor.mp (by simp [hl])
  have hd : a.deref = pure (f j0) := by rw [← elem_zero a j0 (first_zero hl), h.2 j0 hj0]
  obtain ⟨j, h1, h2, h3, h4⟩ := refmin_core hw' val f j0 l hl
  refine ⟨j, h1, ?_, h3, fun k hk hb => ⟨j, h1, h4 k hk hb⟩⟩
  unfold refmax
  rw [if_pos ((size_pos_iff a s h.1).mpr ⟨j0, l, hl⟩), hd]
  simp only [StateT.run_pure, pure_bind]
  rw [forEachRef_one dyn z hz _ (f j0) a s f h (fun p x => if less (val p) (val x) then x else p) (fun c x => rfl)]
  exact congrArg pure h2

/-- C38. Without elements, `refmin` and `refmax` fail the check. -/
theorem C38_empty {V : Type} (less : V → V → Bool) (val : α → V) (dyn : Bool) (z : List Int) (a : Iter (StateT α n) α) (s : List Nat)
    (h : HasShape a (s.map some)) (hne : ¬ ∃ j, Valid s j) : refmin less val dyn z a = fault .check ∧ refmax less val dyn z a = fault .check := by
  have : ¬ a.size > 0 := by
    rw [size_pos_iff a s h]
    rintro ⟨j, l, hl⟩
    exact hne ⟨j, mem_rowMajor.mp (by simp [hl])⟩
  simp [refmin, refmax, this]

/-! ## C39 -/

/-- C39. `sum(a)` adds the elements in row-major order, starting from 0. -/
theorem C39_sum_fold [Zero α] [Add α] (dyn : Bool) (z : List Int) (hz : ∀ i ∈ z, i = 0) (a : Iter (StateT α n) α) (s : List Nat) (f : List Int → α)
    (h : Holds a s f) : sumOf dyn z a = pure (((rowMajor s).map f).foldl (· + ·) 0) :=
  forEachRef_one dyn z hz _ 0 a s f h (· + ·) (fun _ _ => rfl)

/-- C39. `prod(a)` multiplies the elements in row-major order, starting from 1. -/
theorem C39_prod_fold [One α] [Mul α] (dyn : Bool) (z : List Int) (hz : ∀ i ∈ z, i = 0) (a : Iter (StateT α n) α) (s : List Nat) (f : List Int → α)
    (h : Holds a s f) : prodOf dyn z a = pure (((rowMajor s).map f).foldl (· * ·) 1) :=
  forEachRef_one dyn z hz _ 1 a s f h (· * ·) (fun _ _ => rfl)

/-- C39. `dot(a, b)` adds the products of matching elements in row-major order. -/
theorem C39_dot_fold [Zero α] [Add α] [Mul α] (dyn : Bool) (z : List Int) (hz : ∀ i ∈ z, i = 0) (a b : Iter (StateT α n) α) (sa sb : List Length)
    (s : List Nat) (f g : List Int → α) (ha : HasShape a sa) (hb : HasShape b sb) (hm : Merge [sa, sb] (s.map some))
    (hf : ∀ j, Valid s j → elem a j = pure (f j)) (hg : ∀ j, Valid s j → elem b j = pure (g j)) : dotOf dyn z a b = pure ((rowMajor s).foldl (fun c j => c + f j * g j) 0) :=
  forEachRef_two dyn z hz _ 0 a b sa sb s f g ha hb hm hf hg (fun c x y => c + x * y) (fun _ _ _ => rfl)

theorem foldl_add [AddMonoid α] {ι : Type} (f : ι → α) (l : List ι) (c : α) : l.foldl (fun c j => c + f j) c = c + (l.map f).sum := by
  induction l generalizing c with
  | nil => simp
  | cons x l ih => simp [ih, add_assoc]

theorem foldl_mul [Monoid α] {ι : Type} (f : ι → α) (l : List ι) (c : α) : l.foldl (fun c j => c * f j) c = c * (l.map f).prod := by
  induction l generalizing c with
  | nil => simp
  | cons x l ih => simp [ih, mul_assoc]

/-- C39. `sum(a)` and `prod(a)` are the sum and the product of the elements, taken in any order `l` if the operation commutes. -/
theorem C39_sum [AddCommMonoid α] (dyn : Bool) (z : List Int) (hz : ∀ i ∈ z, i = 0) (a : Iter (StateT α n) α) (s : List Nat) (f : List Int → α)
    (h : Holds a s f) (l : List (List Int)) (hl : l.Nodup) (hv : ∀ j, j ∈ l ↔ Valid s j) : sumOf dyn z a = pure (l.map f).sum := by
  rw [C39_sum_fold dyn z hz a s f h]
  have hp : l.Perm (rowMajor s) := (List.perm_ext_iff_of_nodup hl (nodup_rowMajor s)).mpr fun j => by rw [hv, mem_rowMajor]
  rw [List.foldl_map, foldl_add, zero_add, (hp.map f).sum_eq]

theorem C39_prod [CommMonoid α] (dyn : Bool) (z : List Int) (hz : ∀ i ∈ z, i = 0) (a : Iter (StateT α n) α) (s : List Nat) (f : List Int → α)
    (h : Holds a s f) (l : List (List Int)) (hl : l.Nodup) (hv : ∀ j, j ∈ l ↔ Valid s j) : prodOf dyn z a = pure (l.map f).prod := by
  rw [C39_prod_fold dyn z hz a s f h]
  have hp : l.Perm (rowMajor s) := (List.perm_ext_iff_of_nodup hl (nodup_rowMajor s)).mpr fun j => by rw [hv, mem_rowMajor]
  rw [List.foldl_map, foldl_mul, one_mul, (hp.map f).prod_eq]

/-- C39. `dot(a, b)` is the sum of the products of matching elements, in any order. -/
theorem C39_dot [NonUnitalNonAssocSemiring α] (dyn : Bool) (z : List Int) (hz : ∀ i ∈ z, i = 0) (a b : Iter (StateT α n) α) (sa sb : List Length)
    (s : List Nat) (f g : List Int → α) (ha : HasShape a sa) (hb : HasShape b sb) (hm : Merge [sa, sb] (s.map some))
    (hf : ∀ j, Valid s j → elem a j = pure (f j)) (hg : ∀ j, Valid s j → elem b j = pure (g j)) (l : List (List Int)) (hl : l.Nodup) (hv : ∀ j, j ∈ l ↔ Valid s j) :
    dotOf dyn z a b = pure (l.map fun j => f j * g j).sum := by
  rw [C39_dot_fold dyn z hz a b sa sb s f g ha hb hm hf hg]
  have hp : l.Perm (rowMajor s) := (List.perm_ext_iff_of_nodup hl (nodup_rowMajor s)).mpr fun j => by rw [hv, mem_rowMajor]
  rw [foldl_add (fun j => f j * g j), zero_add, (hp.map _).sum_eq]

/-- C39. `cdot(a, b)` has the first argument conjugated, and `reduce_sqrm(a)` is the sum of the square norms. -/
theorem C39_cdot [NonUnitalNonAssocSemiring α] (conj : α → α) (dyn : Bool) (z : List Int) (hz : ∀ i ∈ z, i = 0) (a b : Iter (StateT α n) α) (sa sb : List Length)
    (s : List Nat) (f g : List Int → α) (ha : HasShape a sa) (hb : HasShape b sb) (hm : Merge [sa, sb] (s.map some))
    (hf : ∀ j, Valid s j → elem a j = pure (f j)) (hg : ∀ j, Valid s j → elem b j = pure (g j)) (l : List (List Int)) (hl : l.Nodup) (hv : ∀ j, j ∈ l ↔ Valid s j) :
    cdotOf conj dyn z a b = pure (l.map fun j => conj (f j) * g j).sum := by
  have : cdotOf conj dyn z a b = _ := forEachRef_two dyn z hz _ 0 a b sa sb s f g ha hb hm hf hg (fun c x y => c + conj x * y) (fun _ _ _ => rfl)
  rw [this]
  have hp : l.Perm (rowMajor s) := (List.perm_ext_iff_of_nodup hl (nodup_rowMajor s)).mpr fun j => by rw [hv, mem_rowMajor]
  rw [foldl_add (fun j => conj (f j) * g j), zero_add, (hp.map _).sum_eq]

theorem C39_sqrm [AddCommMonoid α] (sqrm : α → α) (dyn : Bool) (z : List Int) (hz : ∀ i ∈ z, i = 0) (a : Iter (StateT α n) α) (s : List Nat) (f : List Int → α)
    (h : Holds a s f) (l : List (List Int)) (hl : l.Nodup) (hv : ∀ j, j ∈ l ↔ Valid s j) : reduceSqrm sqrm dyn z a = pure (l.map fun j => sqrm (f j)).sum := by
  have : reduceSqrm sqrm dyn z a = _ := forEachRef_one dyn z hz _ 0 a s f h (fun c x => c + sqrm x) (fun _ _ => rfl)
  rw [this]
  have hp : l.Perm (rowMajor s) := (List.perm_ext_iff_of_nodup hl (nodup_rowMajor s)).mpr fun j => by rw [hv, mem_rowMajor]
  rw [List.foldl_map, foldl_add (fun j => sqrm (f j)), zero_add, (hp.map _).sum_eq]

end

/-- C39. `dot` on arguments that don't match fails the check. -/
theorem C39_mismatch {α : Type} [Inhabited α] [Zero α] [Add α] [Mul α] (dyn : Bool) (z : List Int) (a b : Iter (StateT α (Except Fault)) α) (sa sb : List Length)
    (ha : HasShape a sa) (hb : HasShape b sb) (hm : ¬ ∃ s : List Nat, Merge [sa, sb] (s.map some)) : dotOf dyn z a b = .error .check := by
  have h := fun op => C03_rejects (β := Unit) (m := StateT α (Except Fault)) never op [a, b] [sa, sb] ⟨_, _, rfl, ha, _, [], rfl, hb, rfl⟩ (by simp) hm z
  unfold dotOf forEachRef
  cases dyn
  · simp only [ply, Bool.false_eq_true, if_false, (h _).2.1]; rfl
  · simp only [ply, if_true, (h _).1]; rfl

/-! ## Cases that meet the hypotheses -/

/-- Values to try: integers, that also hold bools and optionals. -/
instance : Boolean Int := ⟨fun x => decide (x ≠ 0), fun b => if b then 1 else 0, by intro b; cases b <;> rfl⟩
instance : Integer Int := ⟨id, id, fun _ => rfl⟩
instance : Optional Int Bool := ⟨fun x => if x = 0 then none else some (x = 1), fun o => match o with | none => 0 | some true => 1 | some false => 2,
  by intro o; rcases o with _ | _ | _ <;> rfl⟩

/-- 2x2 in column order with a gap, negative step; the elements are 10, 7, 11, 8. -/
def exRed {m : Type → Type} [Monad m] : Iter m Int := .cell [⟨2, 1⟩, ⟨2, -3⟩] 10 pure

theorem exRed_holds {m : Type → Type} [Monad m] : Holds (exRed : Iter m Int) [2, 2] (fun j => 10 + dot [1, -3] j) :=
  ⟨.cons rfl (.cons rfl .nil), fun _ _ => rfl⟩

example := C35_any (m := Except Fault) true [0, 0, 0, 0] (by simp) _ _ _ exRed_holds
example := C35_every (m := Except Fault) false [] (by simp) _ _ _ exRed_holds
example : anyOf (m := Except Fault) true [0, 0, 0, 0] exRed = .ok true := by rfl
example : everyOf (m := Except Fault) true [0, 0, 0, 0] exRed = .ok true := by rfl
example : lexicalCompare (m := Except Fault) true [0, 0, 0, 0] exRed (.cell [⟨2, 2⟩, ⟨2, 1⟩] 10 pure) = .ok true := by rfl
example := C36_lexical (m := Except Fault) true [0, 0, 0, 0] (by simp) _ _ _ _ _ exRed_holds exRed_holds
example : amin (n := Except Fault) 1000 true [0, 0, 0, 0] exRed = .ok 7 := by rfl
example : amax (n := Except Fault) (-1000) true [0, 0, 0, 0] exRed = .ok 11 := by rfl
example : refmin (n := Except Fault) (fun x y : Int => decide (x < y)) id true [0, 0, 0, 0] exRed = .ok 7 := by rfl
/-- Two elements with the same value (mod 3); `refmin` gives the first one, which is 10 and not 7. -/
example : refmin (n := Except Fault) (fun x y : Int => decide (x < y)) (· % 3) true [0, 0, 0, 0] exRed = .ok 10 := by rfl
example : StrictWeak (fun x y : Int => decide (x % 3 < y % 3)) := ⟨by simp, by simp; omega, by simp; omega⟩
example := C38_refmin (n := Except Fault) (fun x y : Int => decide (x < y)) ⟨by simp, by simp; omega, by simp; omega⟩ (· % 3) true [0, 0, 0, 0] (by simp)
  _ _ _ exRed_holds ⟨[0, 0], by simp [Valid]⟩
example : ¬ ∃ j, Valid [2, 0] j := by
  rintro ⟨j, hj⟩
  rcases j with _ | ⟨a, _ | ⟨b, j⟩⟩ <;> simp [Valid] at hj
  omega
example : sumOf (n := Except Fault) true [0, 0, 0, 0] (exRed : Iter _ Int) = .ok 36 := by rfl
example : dotOf (n := Except Fault) true [0, 0, 0, 0] (exRed : Iter _ Int) exRed = .ok (100+49+121+64) := by rfl
/-- `dot` of 2x2 and 2. -/
example : dotOf (n := Except Fault) true [0, 0, 0, 0] (exRed : Iter _ Int) (.cell [⟨2, 1⟩] 1 pure) = .ok (10+7+2*11+2*8) := by rfl
example : Merge [[some 2, some 2], [some 2]] ([2, 2].map some) := by
  refine ⟨by simp, ⟨[some 2, some 2], by simp, rfl⟩, ?_⟩
  intro k n
  rcases k with _ | _ | k <;> simp
example := C39_sum (n := Except Fault) true [0, 0, 0, 0] (by simp) _ _ _ (exRed_holds) [[1, 0], [0, 1], [0, 0], [1, 1]] (by decide) (by
  intro j
  rw [← mem_rowMajor]
  have : rowMajor [2, 2] = [[0, 0], [0, 1], [1, 0], [1, 1]] := by rfl
  rw [this]
  simp only [List.mem_cons, List.not_mem_nil, or_false]
  tauto)
instance exOptInt : Optional (Int × Int) Int := ⟨fun x => if x.1 = 0 then none else some x.2, fun o => match o with | none => (0, 0) | some i => (1, i), by intro o; cases o <;> rfl⟩
instance exBool2 : Boolean (Int × Int) := ⟨fun x => decide (x.2 ≥ 11), fun b => if b then (0, 11) else (0, 0), by intro b; cases b <;> rfl⟩
instance exInt2 : Integer (Int × Int) := ⟨Prod.snd, fun i => (0, i), fun _ => rfl⟩
/-- The first element over 10 is in row 1. -/
example : indexOf (m := Except Fault) true [0, 0, 0, 0] (.cell [⟨2, 1⟩, ⟨2, -3⟩] 10 (fun i => pure (0, i)) : Iter _ (Int × Int)) = .ok 1 := by rfl
example : indexOf (m := Except Fault) true [0, 0, 0, 0] (.cell [⟨2, 1⟩, ⟨2, -3⟩] 9 (fun i => pure (0, i)) : Iter _ (Int × Int)) = .ok (-1) := by rfl

end Ra.Props
