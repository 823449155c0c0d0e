import Verif.Model.Dispatch
import Verif.Props.Expr
/-!
# C86: operators on scalars, arguments of rank 0 and arrays
-/

namespace Ra.Spec

section
variable {m : Type → Type} {α : Type} [Monad m]

mutual
/-- The expression where all the operations are left for later. -/
def delayed : OTree m α → Iter m α
  | .leaf _ a => a
  | .op f t => .node (mapOp f) (delayeds t)
def delayeds : List (OTree m α) → List (Iter m α)
  | [] => []
  | a :: t => delayed a :: delayeds t
end

mutual
/-- The arguments of nested operators. -/
def operands : OTree m α → List (Kind × Iter m α)
  | .leaf k a => [(k, a)]
  | .op _ t => leavess t
def leavess : List (OTree m α) → List (Kind × Iter m α)
  | [] => []
  | a :: t => operands a ++ leavess t
end

/-- The rank that a type says: 0 for scalars, 1 for standard containers, and for `ra::` objects it's part of the type, or isn't known until run time. -/
def rankOf : Kind → Option Nat
  | .scalar => some 0
  | .fov => some 1
  | .ra r _ => r
  | _ => none

/-- The type of an argument says its rank. -/
def TypeOf (k : Kind) (a : Iter m α) : Prop := ∀ n, rankOf k = some n → ∀ s, HasShape a s → s.length = n

/-- A number, or an object of rank 0, and not an expression with `ra::len`. -/
def IsValue (k : Kind) : Prop := k = .scalar ∨ k = .ra (some 0) false

end
end Ra.Spec

namespace Ra.Props
open Spec

theorem rankS_eq (k : Kind) : k.rankS = rankOf k := by cases k <;> rfl

theorem rankS_fun : Kind.rankS = rankOf := funext rankS_eq

/-- C86. The overload for arrays and the overload for rank 0 never apply at the same time. -/
theorem C86_exclusive (a : List Kind) : ¬ (tomap a = true ∧ toreduce a = true) := by
  rintro ⟨h1, h2⟩
  simp only [tomap, toreduce, Bool.and_eq_true, List.any_eq_true, List.all_eq_true] at h1 h2
  obtain ⟨⟨k, hk, h⟩, _⟩ := h1
  have := h2.2 k hk
  cases k with
  | scalar => simp [Kind.isRaPos, Kind.isSpecial] at h
  | ra r l =>
    simp only [Kind.isRaPos, Kind.isSpecial, Kind.isRa0, Bool.or_eq_true, bne_iff_ne, ne_eq, beq_iff_eq, Bool.not_eq_true'] at h this
    rcases h with h | h
    · exact h this.1
    · rw [h] at this; simp at this
  | fov => simp [Kind.isRa0] at this
  | builtin => simp [Kind.isRa0] at this
  | other l => simp [Kind.isRa0] at this

/-- C86. The overload that is used for arguments that are scalars or `ra::` objects. -/
theorem C86_chosen (a : List Kind) (h : ∀ k ∈ a, k.isRa = true ∨ k = .scalar) :
    ((∀ k ∈ a, k = .scalar) → chosen a = .builtin) ∧
    ((∀ k ∈ a, IsValue k) → (∃ k ∈ a, k ≠ .scalar) → chosen a = .reduce) ∧
    ((∃ k ∈ a, ¬ IsValue k) → chosen a = .map) := by
  have hmap : tomap a = true ↔ ∃ k ∈ a, ¬ IsValue k := by
    simp only [tomap, Bool.and_eq_true, List.any_eq_true, List.all_eq_true]
    constructor
    · rintro ⟨⟨k, hk, h1⟩, _⟩
      refine ⟨k, hk, ?_⟩
      rintro (rfl | rfl) <;> simp [Kind.isRaPos, Kind.isSpecial] at h1
    · rintro ⟨k, hk, h1⟩
      refine ⟨⟨k, hk, ?_⟩, ?_⟩
      · rcases h k hk with h2 | h2
        · cases k with
          | ra r l =>
            simp only [Kind.isRaPos, Kind.isSpecial, Bool.or_eq_true, bne_iff_ne, ne_eq]
            by_contra hc
            simp only [not_or, not_not, Bool.not_eq_true] at hc
            exact h1 (.inr (by rw [hc.1, hc.2]))
          | _ => simp [Kind.isRa] at h2
        · exact absurd (.inl h2) h1
      · intro x hx
        rcases h x hx with h2 | h2
        · simp [h2]
        · subst h2; simp [Kind.isScalar]
  have hred : toreduce a = true ↔ (∀ k ∈ a, IsValue k) ∧ ∃ k ∈ a, k ≠ .scalar := by
    simp only [toreduce, Bool.and_eq_true, List.any_eq_true, List.all_eq_true]
    constructor
    · rintro ⟨⟨k, hk, h1⟩, h2⟩
      refine ⟨fun x hx => ?_, k, hk, ?_⟩
      · have := h2 x hx
        cases x with
        | scalar => exact .inl rfl
        | ra r l =>
          simp only [Kind.isRa0, Kind.isSpecial, beq_iff_eq, Bool.not_eq_true'] at this
          exact .inr (by rw [this.1, this.2])
        | _ => simp [Kind.isRa0] at this
      · rintro rfl; simp [Kind.isScalar] at h1
    · rintro ⟨h1, k, hk, h2⟩
      refine ⟨⟨k, hk, ?_⟩, fun x hx => ?_⟩
      · cases k <;> simp_all [Kind.isScalar]
      · rcases h1 x hx with rfl | rfl <;> simp [Kind.isRa0, Kind.isSpecial]
  refine ⟨fun h1 => ?_, fun h1 h2 => ?_, fun h1 => ?_⟩
  · have e1 : tomap a = false := by
      rw [Bool.eq_false_iff]; intro e
      obtain ⟨k, hk, h2⟩ := hmap.mp e
      exact h2 (.inl (h1 k hk))
    have e2 : toreduce a = false := by
      rw [Bool.eq_false_iff]; intro e
      obtain ⟨_, k, hk, h2⟩ := hred.mp e
      exact h2 (h1 k hk)
    have e3 : a.all Kind.isScalar = true := by
      rw [List.all_eq_true]; intro k hk; rw [h1 k hk]; rfl
    simp [chosen, candidates, e1, e2, e3]
  · have e1 : tomap a = false := by
      rw [Bool.eq_false_iff]; intro e
      obtain ⟨k, hk, h2⟩ := hmap.mp e
      exact h2 (h1 k hk)
    simp [chosen, candidates, e1, hred.mpr ⟨h1, h2⟩]
  · have e2 : toreduce a = false := by
      rw [Bool.eq_false_iff]; intro e
      exact C86_exclusive a ⟨hmap.mpr h1, e⟩
    simp [chosen, candidates, e2, hmap.mpr h1]

/-- C86. The order of the arguments doesn't matter. -/
theorem C86_order (a b : List Kind) (h : a.Perm b) : chosen a = chosen b := by
  have h1 : ∀ p : Kind → Bool, a.any p = b.any p := fun p => by
    rw [Bool.eq_iff_iff]; simp only [List.any_eq_true]; exact exists_congr fun k => and_congr_left fun _ => h.mem_iff
  have h2 : ∀ p : Kind → Bool, a.all p = b.all p := fun p => by
    rw [Bool.eq_iff_iff]; simp only [List.all_eq_true]; exact forall_congr' fun k => imp_congr_left h.mem_iff
  have ht : tomap a = tomap b := by simp only [tomap, h1, h2]
  have hr : toreduce a = toreduce b := by simp only [toreduce, h1, h2]
  have h3 : candidates a = candidates b := by rw [candidates, candidates, ht, hr]
  rw [chosen, chosen, h3, h2]

/-- C86. When the condition of `where` is `bool` there's always exactly one overload that applies, whatever the types of the other arguments. -/
theorem C86_where (t f : Kind) : ∃ c, whereCandidates t f = [c] := by
  have h := C86_exclusive [t, f]
  have hm : tomap [.scalar, t, f] = tomap [t, f] := by simp [tomap, Kind.isRaPos, Kind.isSpecial, Kind.isScalar]
  simp only [whereCandidates, hm]
  cases h1 : tomap [t, f] <;> cases h2 : toreduce [t, f] <;> simp [h1, h2] at h ⊢

/-- C86. A sequence of another type isn't an argument of the operators of `ra::` unless there's an array (or `ra::len`) among the others. -/
theorem C86_foreign (a : List Kind) (h : .fov ∈ a ∨ .builtin ∈ a) (h1 : ∀ k ∈ a, k.isRaPos = false ∧ k.isSpecial = false) : chosen a = .none := by
  have e1 : tomap a = false := by
    rw [Bool.eq_false_iff]
    simp only [tomap, Bool.and_eq_true, List.any_eq_true, ne_eq, not_and]
    rintro ⟨k, hk, h2⟩
    have := h1 k hk
    simp [this.1, this.2] at h2
  have e2 : toreduce a = false := by
    rw [Bool.eq_false_iff]
    simp only [toreduce, Bool.and_eq_true, List.all_eq_true, ne_eq, not_and]
    intro _ h2
    rcases h with h | h
    · have := h2 _ h; simp [Kind.isRa0] at this
    · have := h2 _ h; simp [Kind.isRa0] at this
  have e3 : a.all Kind.isScalar = false := by
    rw [Bool.eq_false_iff]
    simp only [List.all_eq_true, ne_eq]
    intro h2
    rcases h with h | h
    · have := h2 _ h; simp [Kind.isScalar] at this
    · have := h2 _ h; simp [Kind.isScalar] at this
  simp [chosen, candidates, e1, e2, e3]

theorem rankMax_append (l l' : List (Option Nat)) : rankMax (l ++ l') = match rankMax l, rankMax l' with
    | some n, some k => some (max n k)
    | _, _ => none := by
  induction l with
  | nil => simp only [List.nil_append, rankMax]; cases rankMax l' <;> simp
  | cons r l ih =>
    simp only [List.cons_append, rankMax, ih]
    cases r <;> cases rankMax l <;> cases rankMax l' <;> simp [Nat.max_assoc]

theorem value_rank {k : Kind} (h : IsValue k) : k.rankS = some 0 ∧ k.isSpecial = false := by
  rcases h with rfl | rfl <;> exact ⟨rfl, rfl⟩

theorem rankMax_zero {l : List (Option Nat)} (h : ∀ r ∈ l, r = some 0) : rankMax l = some 0 := by
  induction l with
  | nil => rfl
  | cons r l ih =>
    have h1 := h r (by simp)
    subst h1
    simp [rankMax, ih fun x hx => h x (List.mem_cons_of_mem _ hx)]

section
variable {m : Type → Type} {α : Type}

/-- What the type of some nested operators has to do with those of its arguments. -/
def WellTyped (k : Kind) (l : List (Kind × Iter m α)) : Prop :=
  (k.isRa = true ∨ k = .scalar) ∧ (IsValue k ↔ ∀ x ∈ l, IsValue x.1) ∧ k.rankS = rankMax (l.map fun x => x.1.rankS) ∧ k.isSpecial = l.any fun x => x.1.isSpecial

/-- The same for many. -/
def Sounds (ks : List Kind) (l : List (Kind × Iter m α)) : Prop :=
  (∀ k ∈ ks, k.isRa = true ∨ k = .scalar) ∧ ((∀ k ∈ ks, IsValue k) ↔ ∀ x ∈ l, IsValue x.1) ∧ rankMax (ks.map Kind.rankS) = rankMax (l.map fun x => x.1.rankS) ∧
    ks.any Kind.isSpecial = l.any fun x => x.1.isSpecial

theorem sound_op {f : List α → m α} {t : List (OTree m α)} {ks : List Kind} (hk : kinds t = some ks) {l : List (Kind × Iter m α)} (h : Sounds ks l) :
    ∃ k, (OTree.op f t).kind = some k ∧ WellTyped k l := by
  obtain ⟨h1, h2, h3, h4⟩ := h
  obtain ⟨c1, c2, c3⟩ := C86_chosen ks h1
  by_cases hv : ∀ k ∈ ks, IsValue k
  · have hs : (OTree.op f t).kind = some .scalar := by
      simp only [OTree.kind, hk]
      by_cases hsc : ∀ k ∈ ks, k = .scalar
      · rw [c1 hsc]
      · rw [c2 hv (by simpa using hsc)]
    refine ⟨_, hs, .inr rfl, ?_, ?_, ?_⟩
    · rw [← h2]; exact ⟨fun _ => hv, fun _ => .inl rfl⟩
    · rw [← h3]
      refine (rankMax_zero ?_).symm
      intro r hr
      obtain ⟨k, hk', rfl⟩ := List.mem_map.mp hr
      exact (value_rank (hv k hk')).1
    · rw [← h4]
      symm
      show _ = false
      rw [List.any_eq_false]
      intro k hk'
      simp [(value_rank (hv k hk')).2]
  · have hs : (OTree.op f t).kind = some (.ra (rankMax (ks.map Kind.rankS)) (ks.any Kind.isSpecial)) := by
      simp only [OTree.kind, hk]
      rw [c3 (by simpa using hv)]
    refine ⟨_, hs, .inl rfl, ?_, h3, h4⟩
    rw [← h2]
    refine ⟨fun h => ?_, fun h => absurd h hv⟩
    exfalso
    -- some argument has a positive rank or is special
    apply hv
    intro k hk'
    rcases h with h | h
    · cases h
    · simp only [Kind.ra.injEq] at h
      have hsp : k.isSpecial = false := by
        have := (List.any_eq_false.mp h.2) k hk'
        simpa using this
      have hr : ∀ (l : List (Option Nat)), rankMax l = some 0 → ∀ r ∈ l, r = some 0 := by
        intro l
        induction l with
        | nil => intro _ r hr; simp at hr
        | cons r l ih =>
          intro e x hx
          simp only [rankMax] at e
          cases hr : r with
          | none => simp [hr] at e
          | some n =>
            cases hm : rankMax l with
            | none => simp [hr, hm] at e
            | some q =>
              simp only [hr, hm, Option.some.injEq] at e
              rcases List.mem_cons.mp hx with rfl | hx
              · rw [hr]; congr 1; omega
              · exact ih (by rw [hm]; congr 1; omega) x hx
      have hk0 := hr _ h.1 _ (List.mem_map.mpr ⟨k, hk', rfl⟩)
      rcases h1 k hk' with h5 | h5
      · cases k with
        | ra r l =>
          simp only [Kind.rankS] at hk0
          simp only [Kind.isSpecial] at hsp
          exact .inr (by rw [hk0, hsp])
        | _ => simp [Kind.isRa] at h5
      · exact .inl h5

mutual
theorem sound_tree (t : OTree m α) (h : ∀ x ∈ operands t, x.1.isRa = true ∨ x.1 = .scalar) : ∃ k, t.kind = some k ∧ WellTyped k (operands t) := by
  cases t with
  | leaf k a =>
    refine ⟨k, rfl, h (k, a) (by simp [operands]), by simp [operands], ?_, by simp [operands]⟩
    simp only [operands, List.map_cons, List.map_nil, rankMax]
    cases k.rankS <;> simp
  | op f t =>
    obtain ⟨ks, h1, h2⟩ := sound_trees t h
    exact sound_op h1 h2
theorem sound_trees (t : List (OTree m α)) (h : ∀ x ∈ leavess t, x.1.isRa = true ∨ x.1 = .scalar) : ∃ ks, kinds t = some ks ∧ Sounds ks (leavess t) := by
  cases t with
  | nil => exact ⟨[], rfl, by simp, by simp [leavess], rfl, rfl⟩
  | cons a t =>
    obtain ⟨k, h1, h2, h3, h4, h5⟩ := sound_tree a fun x hx => h x (by simp [leavess, hx])
    obtain ⟨ks, g1, g2, g3, g4, g5⟩ := sound_trees t fun x hx => h x (by simp [leavess, hx])
    refine ⟨k :: ks, by simp [kinds, h1, g1], ?_, ?_, ?_, ?_⟩
    · intro x hx
      rcases List.mem_cons.mp hx with rfl | hx
      · exact h2
      · exact g2 x hx
    · simp only [List.forall_mem_cons, leavess, List.forall_mem_append, h3, g3]
    · simp only [List.map_cons, rankMax, leavess, List.map_append, rankMax_append, h4, g4]
      rfl
    · simp [leavess, h5, g5]
end

/-- C86. The type of the result of nested operators on scalars and `ra::` objects. There's always an overload. If all the arguments have rank 0 then the result is a scalar. Otherwise it's an
expression, its rank is that of the argument of highest rank (ANY if that isn't known for some argument), and it has to be given a value for `ra::len` if and only if some argument has to. -/
theorem C86_type (f : List α → m α) (t : List (OTree m α)) (h : ∀ x ∈ leavess t, x.1.isRa = true ∨ x.1 = .scalar) :
    ((∀ x ∈ leavess t, IsValue x.1) → (OTree.op f t).kind = some .scalar) ∧
    ((∃ x ∈ leavess t, ¬ IsValue x.1) → (OTree.op f t).kind = some (.ra (rankMax ((leavess t).map fun x => rankOf x.1)) ((leavess t).any fun x => x.1.isSpecial))) := by
  simp only [← rankS_eq]
  obtain ⟨ks, h1, h2, h3, h4, h5⟩ := sound_trees t h
  obtain ⟨c1, c2, c3⟩ := C86_chosen ks h2
  refine ⟨fun hv => ?_, fun hv => ?_⟩
  · have hv := h3.mpr hv
    simp only [OTree.kind, h1]
    by_cases hsc : ∀ k ∈ ks, k = .scalar
    · rw [c1 hsc]
    · rw [c2 hv (by simpa using hsc)]
  · have : ¬ ∀ k ∈ ks, IsValue k := fun g => by
      obtain ⟨x, hx, h6⟩ := hv
      exact h6 (h3.mp g x hx)
    simp only [OTree.kind, h1]
    rw [c3 (by simpa using this), h4, h5]

theorem rankMax_spec (l : List (Option Nat)) : (∀ n, rankMax l = some n → (∀ r ∈ l, ∃ k, r = some k ∧ k ≤ n) ∧ (l ≠ [] → some n ∈ l)) ∧ (rankMax l = none → none ∈ l) := by
  induction l with
  | nil => simp [rankMax]
  | cons r l ih =>
    cases r with
    | none => simp [rankMax]
    | some k =>
      cases hl : rankMax l with
      | none => simp [rankMax, hl, ih.2 hl]
      | some q =>
        obtain ⟨h1, h2⟩ := ih.1 q hl
        refine ⟨fun n hn => ?_, by simp [rankMax, hl]⟩
        simp only [rankMax, hl, Option.some.injEq] at hn
        subst hn
        refine ⟨fun r hr => ?_, fun _ => ?_⟩
        · rcases List.mem_cons.mp hr with rfl | hr
          · exact ⟨k, rfl, by omega⟩
          · obtain ⟨k', rfl, hk⟩ := h1 r hr
            exact ⟨k', rfl, by omega⟩
        · by_cases hkq : q ≤ k
          · simp [Nat.max_eq_left hkq]
          · have hne : l ≠ [] := by
              rintro rfl
              simp [rankMax] at hl
              omega
            rw [Nat.max_eq_right (by omega)]
            exact List.mem_cons_of_mem _ (h2 hne)

/-- C86. An operator on a list of arguments that are scalars, `ra::` objects and standard containers, when there's some `ra::` object that isn't of rank 0 among them, makes an expression. Its rank is the
largest of the ranks, if they're known, and standard containers have rank 1. -/
theorem C86_mixed (f : List α → m α) (a : List (Kind × Iter m α)) (h : ∀ x ∈ a, x.1.isRa = true ∨ x.1 = .scalar ∨ x.1 = .fov) (hp : ∃ x ∈ a, x.1.isRa = true ∧ rankOf x.1 ≠ some 0) :
    ∃ r l, (OTree.op f (a.map fun x => OTree.leaf x.1 x.2)).kind = some (.ra r l) ∧
      (∀ n, r = some n → (∀ x ∈ a, ∃ k, rankOf x.1 = some k ∧ k ≤ n) ∧ ∃ x ∈ a, rankOf x.1 = some n) ∧ (r = none → ∃ x ∈ a, rankOf x.1 = none) := by
  have hk : kinds (a.map fun x => OTree.leaf x.1 x.2) = some (a.map Prod.fst) := by
    clear h hp
    induction a with
    | nil => simp [kinds]
    | cons x a ih => simp [kinds, OTree.kind, ih]
  have hm : tomap (a.map Prod.fst) = true := by
    simp only [tomap, Bool.and_eq_true, List.any_eq_true, List.all_eq_true, List.mem_map, forall_exists_index, and_imp, forall_apply_eq_imp_iff₂]
    obtain ⟨⟨k, i⟩, hx, h1, h2⟩ := hp
    refine ⟨⟨_, ⟨_, hx, rfl⟩, ?_⟩, fun x hx => ?_⟩
    · cases k <;> simp [Kind.isRa, rankOf, Kind.isRaPos] at h1 h2 ⊢
      exact .inl h2
    · rcases h x hx with h1 | h1 | h1 <;> simp [h1, Kind.isScalar, Kind.isFov]
  have hc : chosen (a.map Prod.fst) = .map := by
    have hr : toreduce (a.map Prod.fst) ≠ true := fun hr => C86_exclusive _ ⟨hm, hr⟩
    simp [chosen, candidates, hm, hr]
  refine ⟨rankMax ((a.map Prod.fst).map Kind.rankS), (a.map Prod.fst).any Kind.isSpecial, ?_, ?_, ?_⟩
  · simp only [OTree.kind, hk, hc]
  · intro n hn
    obtain ⟨h1, h2⟩ := (rankMax_spec _).1 n hn
    rw [rankS_fun, List.map_map] at h1 h2
    refine ⟨fun x hx => h1 _ (List.mem_map.mpr ⟨x, hx, rfl⟩), ?_⟩
    obtain ⟨x, hx, _⟩ := hp
    obtain ⟨y, hy, he⟩ := List.mem_map.mp (h2 (by simpa using List.ne_nil_of_mem hx))
    exact ⟨y, hy, he⟩
  · intro hn
    have h1 := (rankMax_spec _).2 hn
    rw [rankS_fun, List.map_map] at h1
    obtain ⟨y, hy, he⟩ := List.mem_map.mp h1
    exact ⟨y, hy, he⟩

end

section
variable {α : Type}

theorem elem_rank0 (a : Iter (Except Fault) α) (h : HasShape a []) (j : List Int) : elem a j = a.deref := by
  rw [← elem_take a [] h j]
  have := Iter.deref_shift a []
  have hd0 : disp [] = fun _ => 0 := by funext k; simp [disp]
  rw [hd0, Iter.shift_zero] at this
  simpa using this.symm

/-- Expressions with the same shape and elements. -/
def Alike (a b : Iter (Except Fault) α) : Prop := ∀ s, HasShape b s → HasShape a s ∧ ∀ j, elem a j = elem b j

mutual
theorem build_alike (t : OTree (Except Fault) α) (h : ∀ x ∈ operands t, x.1.isRa = true ∨ x.1 = .scalar) (ht : ∀ x ∈ operands t, TypeOf x.1 x.2) (it : Iter (Except Fault) α)
    (hb : t.build = .ok it) : Alike it (delayed t) ∧ ∀ k, t.kind = some k → TypeOf k (delayed t) := by
  cases t with
  | leaf k a =>
    simp only [OTree.build, pure, Except.pure, Except.ok.injEq] at hb
    subst hb
    refine ⟨fun s hs => ⟨hs, fun j => rfl⟩, ?_⟩
    intro k' hk'
    simp only [OTree.kind, Option.some.injEq] at hk'
    subst hk'
    exact ht (k, a) (by simp [operands])
  | op f t =>
    obtain ⟨ks, h1, h2, h3, h4, h5⟩ := sound_trees t h
    simp only [OTree.build, bind, Except.bind, h1] at hb
    split at hb
    · exact absurd hb (by simp)
    · rename_i its hits
      obtain ⟨g1, g2, g3⟩ := builds_alike t h ht its hits ks h1
      obtain ⟨c1, c2, c3⟩ := C86_chosen ks h2
      have htype : ∀ n, rankMax (ks.map Kind.rankS) = some n → ∀ s, HasShape (delayed (.op f t)) s → s.length = n := by
        rintro n hn s ⟨ss, hss, hm⟩
        obtain ⟨k1, k2⟩ := g3 n hn ss hss
        obtain ⟨x, hx, hx'⟩ := hm.2.1
        have h1 := k1 x hx
        rcases k2 with h0 | ⟨y, hy, hy'⟩
        · omega
        · have := hm.1 y hy; omega
      refine ⟨?_, ?_⟩
      · rintro s ⟨ss, hss, hm⟩
        obtain ⟨e1, e2⟩ := g1 ss hss
        by_cases hv : ∀ k ∈ ks, IsValue k
        · have hn : rankMax (ks.map Kind.rankS) = some 0 := rankMax_zero (by
            intro r hr
            obtain ⟨k, hk', rfl⟩ := List.mem_map.mp hr
            exact (value_rank (hv k hk')).1)
          have hs : s = [] := List.eq_nil_of_length_eq_zero (htype 0 hn s ⟨ss, hss, hm⟩)
          subst hs
          have hb' : (mapOp f (its.map Iter.deref)).bind (fun x => .ok (.scalar (pure x))) = .ok it := by
            by_cases hsc : ∀ k ∈ ks, k = .scalar
            · rw [c1 hsc] at hb; exact hb
            · rw [c2 hv (by simpa using hsc)] at hb; exact hb
          cases hx : mapOp f (its.map Iter.deref) with
          | error e => rw [hx] at hb'; cases hb'
          | ok x =>
            rw [hx] at hb'
            simp only [Except.bind, Except.ok.injEq] at hb'
            subst hb'
            refine ⟨rfl, fun j => ?_⟩
            simp only [elem, delayed]
            rw [← e2 j]
            have h0 : ∀ y ∈ ss, y = [] := fun y hy => List.eq_nil_of_length_eq_zero (Nat.le_zero.mp (hm.1 y hy))
            have : elems its j = its.map Iter.deref := by
              clear hits g1 g2 g3 e2 hx hb
              have : ∀ (its : List (Iter (Except Fault) α)) (ss : List (List Length)), HasShapes its ss → (∀ y ∈ ss, y = []) → elems its j = its.map Iter.deref := by
                intro its
                induction its with
                | nil => intro _ _ _; rfl
                | cons a its ih =>
                  rintro ss ⟨s, ss', rfl, q1, q2⟩ h0
                  have := h0 s (by simp)
                  subst this
                  simp only [elems, List.map_cons]
                  rw [elem_rank0 a q1 j, ih ss' q2 fun y hy => h0 y (List.mem_cons_of_mem _ hy)]
              exact this its ss e1 h0
            rw [this, hx]
            rfl
        · rw [c3 (by simpa using hv)] at hb
          simp only [pure, Except.pure, Except.ok.injEq] at hb
          subst hb
          refine ⟨⟨ss, e1, hm⟩, fun j => ?_⟩
          simp only [elem, delayed]
          rw [e2 j]
      · intro k hk n hn s hs
        obtain ⟨k', hk', _, _, h8, _⟩ := sound_op (f := f) h1 (l := leavess t) ⟨h2, h3, h4, h5⟩
        rw [hk] at hk'
        simp only [Option.some.injEq] at hk'
        subst hk'
        rw [← rankS_eq, h8, ← h4] at hn
        exact htype n hn s hs
theorem builds_alike (t : List (OTree (Except Fault) α)) (h : ∀ x ∈ leavess t, x.1.isRa = true ∨ x.1 = .scalar) (ht : ∀ x ∈ leavess t, TypeOf x.1 x.2)
    (its : List (Iter (Except Fault) α)) (hb : builds t = .ok its) (ks : List Kind) (hk : kinds t = some ks) :
    (∀ ss, HasShapes (delayeds t) ss → HasShapes its ss ∧ ∀ j, elems its j = elems (delayeds t) j) ∧ its.length = t.length ∧
    ∀ n, rankMax (ks.map Kind.rankS) = some n → ∀ ss, HasShapes (delayeds t) ss → ((∀ x ∈ ss, x.length ≤ n) ∧ (n = 0 ∨ ∃ x ∈ ss, x.length = n)) := by
  cases t with
  | nil =>
    simp only [builds, pure, Except.pure, Except.ok.injEq] at hb
    simp only [kinds, Option.some.injEq] at hk
    subst hb hk
    refine ⟨fun ss hs => ⟨hs, fun j => rfl⟩, rfl, ?_⟩
    intro n hn ss hs
    simp only [List.map_nil, rankMax, Option.some.injEq] at hn
    simp only [delayeds, HasShapes] at hs
    subst hn hs
    simp
  | cons a t =>
    simp only [builds, bind, Except.bind] at hb
    split at hb
    · exact absurd hb (by simp)
    · rename_i it hit
      split at hb
      · exact absurd hb (by simp)
      · rename_i its' hits
        simp only [pure, Except.pure, Except.ok.injEq] at hb
        subst hb
        simp only [kinds] at hk
        split at hk
        · rename_i k ks' hk1 hk2
          simp only [Option.some.injEq] at hk
          subst hk
          obtain ⟨a1, a2⟩ := build_alike a (fun x hx => h x (by simp [leavess, hx])) (fun x hx => ht x (by simp [leavess, hx])) it hit
          obtain ⟨b1, b2, b3⟩ := builds_alike t (fun x hx => h x (by simp [leavess, hx])) (fun x hx => ht x (by simp [leavess, hx])) its' hits ks' hk2
          refine ⟨?_, by simp [b2], ?_⟩
          · rintro ss ⟨s, ss', rfl, q1, q2⟩
            obtain ⟨d1, d2⟩ := a1 s q1
            obtain ⟨d3, d4⟩ := b1 ss' q2
            exact ⟨⟨s, ss', rfl, d1, d3⟩, fun j => by simp only [elems, delayeds, d2 j, d4 j]⟩
          · rintro n hn ss ⟨s, ss', rfl, q1, q2⟩
            simp only [List.map_cons, rankMax] at hn
            cases hr : k.rankS with
            | none => simp [hr] at hn
            | some p =>
              cases hq : rankMax (ks'.map Kind.rankS) with
              | none => simp [hr, hq] at hn
              | some q =>
                simp only [hr, hq, Option.some.injEq] at hn
                have hp := a2 k hk1 p (by rw [← rankS_eq]; exact hr) s q1
                obtain ⟨hq1, hq2⟩ := b3 q hq ss' q2
                refine ⟨?_, ?_⟩
                · intro x hx
                  rcases List.mem_cons.mp hx with rfl | hx
                  · omega
                  · have := hq1 x hx; clear hq2; omega
                · by_cases hpq : p ≤ q
                  · rcases hq2 with h0 | ⟨x, hx, hx'⟩
                    · exact .inl (by omega)
                    · exact .inr ⟨x, List.mem_cons_of_mem _ hx, by omega⟩
                  · clear hq2
                    exact .inr ⟨s, by simp, by omega⟩
        · exact absurd hk (by simp)
end

/-- C86. The operators on arguments of rank 0 are evaluated at once, but that doesn't change the result: if it can be done, then the result has the shape and the elements of the expression where
all the operations are left for later. The arguments are scalars and `ra::` objects. -/
theorem C86_value (t : OTree (Except Fault) α) (h : ∀ x ∈ operands t, x.1.isRa = true ∨ x.1 = .scalar) (ht : ∀ x ∈ operands t, TypeOf x.1 x.2) (it : Iter (Except Fault) α)
    (hb : t.build = .ok it) (s : List Length) (hs : HasShape (delayed t) s) : HasShape it s ∧ ∀ j, elem it j = elem (delayed t) j :=
  (build_alike t h ht it hb).1 s hs

/-- C86. If all the arguments have rank 0, then the result is a number, and it's the only element of the expression where all the operations are left for later. -/
theorem C86_scalar (f : List α → Except Fault α) (t : List (OTree (Except Fault) α)) (h : ∀ x ∈ leavess t, IsValue x.1) (ht : ∀ x ∈ leavess t, TypeOf x.1 x.2) (it : Iter (Except Fault) α)
    (hb : (OTree.op f t).build = .ok it) (s : List Length) (hs : HasShape (delayed (.op f t)) s) :
    s = [] ∧ ∃ x, it = .scalar (.ok x) ∧ elem (delayed (.op f t)) [] = .ok x := by
  have hra : ∀ x ∈ leavess t, x.1.isRa = true ∨ x.1 = .scalar := fun x hx => by
    rcases h x hx with h | h
    · exact .inr h
    · exact .inl (by rw [h]; rfl)
  have hk := (C86_type f t hra).1 h
  have h0 := (build_alike (.op f t) hra ht it hb).2 _ hk 0 rfl s hs
  have hs0 : s = [] := List.eq_nil_of_length_eq_zero h0
  refine ⟨hs0, ?_⟩
  obtain ⟨g1, g2⟩ := C86_value (.op f t) hra ht it hb s hs
  obtain ⟨ks, h1, h2, h3, _, _⟩ := sound_trees t hra
  obtain ⟨c1, c2, c3⟩ := C86_chosen ks h2
  have hv := h3.mpr h
  simp only [OTree.build, bind, Except.bind, h1] at hb
  split at hb
  · exact absurd hb (by simp)
  · rename_i its hits
    have hb' : (mapOp f (its.map Iter.deref)).bind (fun x => .ok (.scalar (pure x))) = .ok it := by
      by_cases hsc : ∀ k ∈ ks, k = .scalar
      · rw [c1 hsc] at hb; exact hb
      · rw [c2 hv (by simpa using hsc)] at hb; exact hb
    cases hx : mapOp f (its.map Iter.deref) with
    | error e => rw [hx] at hb'; cases hb'
    | ok x =>
      rw [hx] at hb'
      simp only [Except.bind, Except.ok.injEq] at hb'
      subst hb'
      exact ⟨x, rfl, (g2 []).symm⟩

/-- `(a + 1) * b`, where `a` has rank 0 and `b` is a vector of 3. -/
def treeEg : OTree (Except Fault) Int :=
  .op (fun xs => pure xs.prod) [.op (fun xs => pure xs.sum) [.leaf (.ra (some 0) false) (.cell [] 40 pure), .leaf .scalar (.scalar (pure 1))],
    .leaf (.ra (some 1) false) (.cell [⟨3, 1⟩] 10 pure)]

theorem treeEg_ok : (∀ x ∈ operands treeEg, x.1.isRa = true ∨ x.1 = .scalar) ∧ ∀ x ∈ operands treeEg, TypeOf x.1 x.2 := by
  have e : operands treeEg = [(.ra (some 0) false, .cell [] 40 pure), (.scalar, .scalar (pure 1)), (.ra (some 1) false, .cell [⟨3, 1⟩] 10 pure)] := rfl
  rw [e]
  simp only [List.forall_mem_cons, List.not_mem_nil, false_implies, implies_true, and_true]
  refine ⟨by simp [Kind.isRa], ?_, ?_, ?_⟩
  · intro n hn s hs
    have hn' : 0 = n := by simpa [rankOf] using hn
    have := List.Forall₂.length_eq hs
    simpa [← hn'] using this.symm
  · intro n hn s hs
    have hn' : 0 = n := by simpa [rankOf] using hn
    have : s = [] := hs
    simp [this, ← hn']
  · intro n hn s hs
    have hn' : 1 = n := by simpa [rankOf] using hn
    have := List.Forall₂.length_eq hs
    simpa [← hn'] using this.symm

example : treeEg.kind = some (.ra (some 1) false) := by decide
example : ∃ it, treeEg.build = .ok it ∧ HasShape it [some 3] ∧ elem it [2] = .ok 492 := by
  refine ⟨.node (mapOp fun xs => pure xs.prod) [.scalar (pure 41), .cell [⟨3, 1⟩] 10 pure], rfl, ?_⟩
  have hs : HasShape (delayed treeEg) [some 3] := by
    refine ⟨[[], [some 3]], ⟨_, _, rfl, ⟨[[], []], ⟨_, _, rfl, .nil, _, _, rfl, rfl, rfl⟩, by simp, ⟨[], by simp, rfl⟩, by simp⟩, _, _, rfl, .cons rfl .nil, rfl⟩, by simp, ⟨[some 3], by simp, rfl⟩, by simp⟩
  obtain ⟨h1, h2⟩ := C86_value treeEg treeEg_ok.1 treeEg_ok.2 _ rfl _ hs
  exact ⟨h1, (h2 [2]).trans rfl⟩

-- a rank 0 object and a std::vector don't have an operator, but with a view of rank 1 they do
example : chosen [.ra (some 0) false, .fov] = .none := by decide
example : chosen [.ra (some 1) false, .fov] = .map := by decide
example : (OTree.op (m := Except Fault) (α := Int) (fun _ => .ok 0) [.leaf (.ra (some 2) false) (.scalar (.ok 0)), .leaf .fov (.scalar (.ok 0))]).kind = some (.ra (some 2) false) := by decide
example : chosen [.scalar, .ra (some 0) true] = .map := by decide
example : chosen [.scalar, .ra (some 0) false] = .reduce := by decide
example : whereCandidates .scalar (.ra none false) = [.map] := by decide
example : whereCandidates .scalar .scalar = [.plain] := by decide

end

end Ra.Props
