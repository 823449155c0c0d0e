import Verif.Props.Nested
import Verif.Props.Frame
/-!
# C74: nesting of expressions
-/

namespace Ra.Spec

section
variable {m : Type → Type} {α : Type}

mutual
/-- The arguments of an expression: what its operations are applied to in the end. -/
def leaves : Iter m α → List (Iter m α)
  | .scalar c => [.scalar c]
  | .cell dims cp rd => [.cell dims cp rd]
  | .reframe dest a => [.reframe dest a]
  | .node _ t => leavesAll t
def leavesAll : List (Iter m α) → List (Iter m α)
  | [] => []
  | a :: t => leaves a ++ leavesAll t
end

end
end Ra.Spec

namespace Ra.Props
open Spec

section
variable {m : Type → Type} {α β : Type} [Monad m] [LawfulMonad m] [MonadFault m]

/-- `Merge` of the shapes in `P`. -/
def MergeP (P : List Length → Prop) (s : List Length) : Prop :=
  (∀ x, P x → x.length ≤ s.length) ∧ (∃ x, P x ∧ x.length = s.length) ∧ ∀ (k n : Nat), s[k]? = some (some n) ↔ ∃ x, P x ∧ x[k]? = some (some n)

open Classical in
theorem mergeP_sub {P Q : List Length → Prop} {s : List Length} (h : MergeP Q s) (hP : ∃ x, P x) (hs : ∀ x, P x → Q x) : ∃ x, MergeP P x := by
  obtain ⟨h1, _, h3⟩ := h
  obtain ⟨y0, hy0⟩ := hP
  obtain ⟨L, ⟨yL, hyL, eL⟩, hmax⟩ : ∃ L, (∃ y, P y ∧ y.length = L) ∧ ∀ y, P y → y.length ≤ L := by
    refine ⟨Nat.findGreatest (fun L => ∃ y, P y ∧ y.length = L) s.length, ?_, ?_⟩
    · exact Nat.findGreatest_spec (P := fun L => ∃ y, P y ∧ y.length = L) (h1 _ (hs _ hy0)) ⟨y0, hy0, rfl⟩
    · intro y hy
      exact Nat.le_findGreatest (P := fun L => ∃ y, P y ∧ y.length = L) (h1 _ (hs _ hy)) ⟨y, hy, rfl⟩
  refine ⟨(List.range L).map fun k => if ∃ y, P y ∧ ∃ n, y[k]? = some (some n) then s[k]?.join else none, ?_, ⟨yL, hyL, by simpa using eL⟩, ?_⟩
  · intro x hx; simpa using hmax x hx
  · intro k n
    constructor
    · intro h
      simp only [List.getElem?_map, List.getElem?_range, Option.map_eq_some_iff] at h
      obtain ⟨k', hk, h⟩ := h
      obtain ⟨_, rfl⟩ : k < L ∧ k' = k := by
        rcases Nat.lt_or_ge k L with hkL | hkL
        · rw [List.getElem?_range hkL] at hk; exact ⟨hkL, (Option.some.inj hk).symm⟩
        · rw [List.getElem?_eq_none (by simpa using hkL)] at hk; cases hk
      split at h
      · next hc =>
        obtain ⟨y, hy, n', hn⟩ := hc
        have := (h3 k' n').mpr ⟨y, hs y hy, hn⟩
        rw [this] at h
        simp at h
        subst h
        exact ⟨y, hy, hn⟩
      · cases h
    · rintro ⟨y, hy, hn⟩
      have hk : k < L := by
        have := hmax y hy
        obtain ⟨h, _⟩ := List.getElem?_eq_some_iff.mp hn
        omega
      have hsk := (h3 k n).mpr ⟨y, hs y hy, hn⟩
      simp only [List.getElem?_map, List.getElem?_range hk, Option.map_some]
      rw [if_pos ⟨y, hy, n, hn⟩, hsk]
      rfl

/-- The arguments in a list have shapes, and these match. -/
def Shapes (L : List (Iter m α)) (s : List Length) : Prop := (∀ a ∈ L, ∃ x, HasShape a x) ∧ MergeP (fun x => ∃ a ∈ L, HasShape a x) s

theorem forall2_shapes {L : List (Iter m α)} (h : ∀ a ∈ L, ∃ x, HasShape a x) : ∃ ss, List.Forall₂ HasShape L ss := by
  induction L with
  | nil => exact ⟨[], .nil⟩
  | cons a L ih =>
    obtain ⟨x, hx⟩ := h a (by simp)
    obtain ⟨ss, hss⟩ := ih fun a ha => h a (by simp [ha])
    exact ⟨x :: ss, .cons hx hss⟩

theorem forall2_mem {L : List (Iter m α)} {ss : List (List Length)} (h : List.Forall₂ HasShape L ss) (x : List Length) : x ∈ ss ↔ ∃ a ∈ L, HasShape a x := by
  induction h with
  | nil => simp
  | @cons a y L ss hy _ ih =>
    simp only [List.mem_cons, ih, exists_eq_or_imp]
    constructor
    · rintro (rfl | h)
      · exact .inl hy
      · exact .inr h
    · rintro (h | h)
      · exact .inl (hasShape_unique h hy)
      · exact .inr h

theorem merge_iff_mergeP (ss : List (List Length)) (s : List Length) : Merge ss s ↔ MergeP (· ∈ ss) s := Iff.rfl

theorem node_iff_shapes (op : List (m α) → m α) (t : List (Iter m α)) (s : List Length) : HasShape (.node op t) s ↔ Shapes t s := by
  simp only [HasShape, hasShapes_iff]
  constructor
  · rintro ⟨ss, h1, h2⟩
    have hm := forall2_mem h1
    refine ⟨fun a ha => ?_, ?_⟩
    · obtain ⟨i, hi, rfl⟩ := List.mem_iff_getElem.mp ha
      exact ⟨_, h1.get hi (by rw [← h1.length_eq]; exact hi)⟩
    · rw [merge_iff_mergeP] at h2
      simpa only [MergeP, hm] using h2
  · rintro ⟨h1, h2⟩
    obtain ⟨ss, hss⟩ := forall2_shapes h1
    have hm := forall2_mem hss
    refine ⟨ss, hss, ?_⟩
    rw [merge_iff_mergeP]
    simpa only [MergeP, hm] using h2

theorem leavesAll_mem (t : List (Iter m α)) (b : Iter m α) : b ∈ leavesAll t ↔ ∃ a ∈ t, b ∈ leaves a := by
  induction t with
  | nil => simp [leavesAll]
  | cons a t ih => simp [leavesAll, ih]

theorem wflist_mem (t : List (Iter m α)) : WFList t ↔ ∀ a ∈ t, a.WF := by
  induction t with
  | nil => simp [WFList]
  | cons a t ih => simp [WFList, ih]

theorem shapes_one (a : Iter m α) (s : List Length) : HasShape a s ↔ Shapes [a] s := by
  constructor
  · intro h
    refine ⟨by simpa using ⟨s, h⟩, ?_, ⟨s, ⟨a, by simp, h⟩, rfl⟩, ?_⟩
    · rintro x ⟨b, hb, hx⟩
      simp at hb; subst hb
      rw [hasShape_unique hx h]
    · intro k n
      constructor
      · intro hk; exact ⟨s, ⟨a, by simp, h⟩, hk⟩
      · rintro ⟨x, ⟨b, hb, hx⟩, hk⟩
        simp at hb; subst hb
        rwa [hasShape_unique hx h] at hk
  · rintro ⟨_, h1, ⟨x, ⟨b, hb, hx⟩, hl⟩, h3⟩
    simp at hb; subst hb
    have : s = x := by
      refine List.ext_getElem (by omega) fun k h1 h2 => ?_
      have e : ∀ n : Nat, s[k] = some n ↔ x[k] = some n := by
        intro n
        have := h3 k n
        simp only [List.getElem?_eq_getElem h1, Option.some.injEq] at this
        rw [this]
        constructor
        · rintro ⟨y, ⟨c, hc, hy⟩, hk⟩
          simp at hc; subst hc
          rw [hasShape_unique hy hx] at hk
          simpa [h2] using hk
        · intro h; exact ⟨x, ⟨b, by simp, hx⟩, by simpa [h2] using h⟩
      cases hs : s[k] with
      | none =>
        cases hx' : x[k] with
        | none => rfl
        | some n => rw [(e n).mpr hx'] at hs; cases hs
      | some n => exact ((e n).mp hs).symm
    rw [this]; exact hx

/-- Sets of arguments can be matched in groups. -/
theorem shapes_groups (t : List (Iter m α)) (f : Iter m α → List (Iter m α)) (hne : ∀ a ∈ t, f a ≠ []) (h : ∀ a ∈ t, ∀ x, HasShape a x ↔ Shapes (f a) x) (L : List (Iter m α))
    (hL : ∀ b, b ∈ L ↔ ∃ a ∈ t, b ∈ f a) (s : List Length) : Shapes t s ↔ Shapes L s := by
  constructor
  · rintro ⟨h1, h2, ⟨x, ⟨a, ha, hx⟩, hl⟩, h4⟩
    refine ⟨?_, ?_, ?_, ?_⟩
    · intro b hb
      obtain ⟨a, ha, hb⟩ := (hL b).mp hb
      obtain ⟨x, hx⟩ := h1 a ha
      exact ((h a ha x).mp hx).1 b hb
    · rintro y ⟨b, hb, hy⟩
      obtain ⟨a, ha, hb⟩ := (hL b).mp hb
      obtain ⟨x, hx⟩ := h1 a ha
      exact le_trans (((h a ha x).mp hx).2.1 y ⟨b, hb, hy⟩) (h2 x ⟨a, ha, hx⟩)
    · obtain ⟨y, ⟨b, hb, hy⟩, hyl⟩ := ((h a ha x).mp hx).2.2.1
      exact ⟨y, ⟨b, (hL b).mpr ⟨a, ha, hb⟩, hy⟩, by omega⟩
    · intro k n
      rw [h4]
      constructor
      · rintro ⟨x, ⟨a, ha, hx⟩, hk⟩
        obtain ⟨y, ⟨b, hb, hy⟩, hyk⟩ := (((h a ha x).mp hx).2.2.2 k n).mp hk
        exact ⟨y, ⟨b, (hL b).mpr ⟨a, ha, hb⟩, hy⟩, hyk⟩
      · rintro ⟨y, ⟨b, hb, hy⟩, hyk⟩
        obtain ⟨a, ha, hb⟩ := (hL b).mp hb
        obtain ⟨x, hx⟩ := h1 a ha
        exact ⟨x, ⟨a, ha, hx⟩, (((h a ha x).mp hx).2.2.2 k n).mpr ⟨y, ⟨b, hb, hy⟩, hyk⟩⟩
  · rintro ⟨h1, h2⟩
    have hex : ∀ a ∈ t, ∃ x, HasShape a x := by
      intro a ha
      obtain ⟨x, hx⟩ := mergeP_sub (P := fun x => ∃ b ∈ f a, HasShape b x) h2 (by
        obtain ⟨b, hb⟩ := List.exists_mem_of_ne_nil _ (hne a ha)
        obtain ⟨x, hx⟩ := h1 b ((hL b).mpr ⟨a, ha, hb⟩)
        exact ⟨x, b, hb, hx⟩) (by
        rintro x ⟨b, hb, hx⟩
        exact ⟨b, (hL b).mpr ⟨a, ha, hb⟩, hx⟩)
      exact ⟨x, (h a ha x).mpr ⟨fun b hb => h1 b ((hL b).mpr ⟨a, ha, hb⟩), hx⟩⟩
    obtain ⟨h3, ⟨y, ⟨b, hb, hy⟩, hyl⟩, h4⟩ := h2
    have hle : ∀ x, (∃ a ∈ t, HasShape a x) → x.length ≤ s.length := by
      rintro x ⟨a, ha, hx⟩
      obtain ⟨y, ⟨b, hb, hy⟩, hyl⟩ := ((h a ha x).mp hx).2.2.1
      have := h3 y ⟨b, (hL b).mpr ⟨a, ha, hb⟩, hy⟩
      omega
    refine ⟨hex, hle, ?_, ?_⟩
    · obtain ⟨a, ha, hb⟩ := (hL b).mp hb
      obtain ⟨x, hx⟩ := hex a ha
      refine ⟨x, ⟨a, ha, hx⟩, le_antisymm (hle x ⟨a, ha, hx⟩) ?_⟩
      rw [← hyl]
      exact ((h a ha x).mp hx).2.1 y ⟨b, hb, hy⟩
    · intro k n
      rw [h4]
      constructor
      · rintro ⟨y, ⟨b, hb, hy⟩, hyk⟩
        obtain ⟨a, ha, hb⟩ := (hL b).mp hb
        obtain ⟨x, hx⟩ := hex a ha
        exact ⟨x, ⟨a, ha, hx⟩, (((h a ha x).mp hx).2.2.2 k n).mpr ⟨y, ⟨b, hb, hy⟩, hyk⟩⟩
      · rintro ⟨x, ⟨a, ha, hx⟩, hk⟩
        obtain ⟨y, ⟨b, hb, hy⟩, hyk⟩ := (((h a ha x).mp hx).2.2.2 k n).mp hk
        exact ⟨y, ⟨b, (hL b).mpr ⟨a, ha, hb⟩, hy⟩, hyk⟩

theorem leaves_ne (a : Iter m α) (h : a.WF) : leaves a ≠ [] := by
  match a, h with
  | .scalar _, _ => simp [leaves]
  | .cell _ _ _, _ => simp [leaves]
  | .reframe _ _, _ => simp [leaves]
  | .node _ (a :: t), h =>
    have := leaves_ne a h.2.1
    simp [leaves, leavesAll, this]
termination_by sizeOf a

theorem hasShape_leaves (a : Iter m α) (h : a.WF) (s : List Length) : HasShape a s ↔ Shapes (leaves a) s := by
  match a, h with
  | .scalar c, _ => simpa only [leaves] using shapes_one _ _
  | .cell _ _ _, _ => simpa only [leaves] using shapes_one _ _
  | .reframe _ _, _ => simpa only [leaves] using shapes_one _ _
  | .node op t, h =>
    have hw := (wflist_mem t).mp h.2
    rw [node_iff_shapes]
    refine shapes_groups t leaves (fun a ha => leaves_ne a (hw a ha)) (fun a ha x => ?_) _ (fun b => ?_) s
    · have := List.sizeOf_lt_of_mem ha
      exact hasShape_leaves a (hw a ha) x
    · simp only [leaves]
      exact leavesAll_mem t b
termination_by sizeOf a
decreasing_by
  simp only [Iter.node.sizeOf_spec]
  omega

/-- C74. The shape of an expression depends on its arguments, and not on how they are nested, in what order they are, or if there are any more than once. -/
theorem C74_shape (a b : Iter m α) (ha : a.WF) (hb : b.WF) (h : ∀ x, x ∈ leaves a ↔ x ∈ leaves b) (s : List Length) : HasShape a s ↔ HasShape b s := by
  rw [hasShape_leaves a ha, hasShape_leaves b hb]
  simp only [Shapes, h]

/-- C74. If one of them passes the checks then so do the others, with the same shape; otherwise all fail the check before any element is evaluated. -/
theorem C74_check (a b : Iter m α) (ha : a.WF) (hb : b.WF) (h : ∀ x, x ∈ leaves a ↔ x ∈ leaves b) (stop : α → Option β) (z : List Int) :
    (∃ s : List Nat, HasShape a (s.map some) ∧ HasShape b (s.map some)) ∨
    (plyRavel stop z a = fault .check ∧ plyFixed stop a = fault .check ∧ plyRavel stop z b = fault .check ∧ plyFixed stop b = fault .check) := by
  rcases C03_tree stop a ha z with ⟨s, hs⟩ | ⟨h1, h2, _⟩
  · exact .inl ⟨s, hs, (C74_shape a b ha hb h _).mp hs⟩
  · rcases C03_tree stop b hb z with ⟨s, hs⟩ | ⟨h3, h4, _⟩
    · exact .inl ⟨s, (C74_shape a b ha hb h _).mpr hs, hs⟩
    · exact .inr ⟨h1, h2, h3, h4⟩

/-- C74. For an associative operation, `(a+b)+c` and `a+(b+c)` have the same shape and the same elements, with the same effects in the same order. -/
theorem C74_assoc (f : α → α → α) (hf : ∀ x y z, f (f x y) z = f x (f y z)) (a b c : Iter m α) (ha : a.WF) (hb : b.WF) (hc : c.WF) :
    let op : Iter m α → Iter m α → Iter m α := fun x y => .node (mapOp fun xs => match xs with | [x, y] => pure (f x y) | _ => fault .abort) [x, y]
    (∀ s, HasShape (op (op a b) c) s ↔ HasShape (op a (op b c)) s) ∧ ∀ j, elem (op (op a b) c) j = elem (op a (op b c)) j := by
  intro op
  refine ⟨fun s => C74_shape _ _ ?_ ?_ ?_ s, ?_⟩
  · exact ⟨by simp, ⟨by simp, ha, hb, trivial⟩, hc, trivial⟩
  · exact ⟨by simp, ha, ⟨by simp, hb, hc, trivial⟩, trivial⟩
  · intro x
    simp [op, leaves, leavesAll]
  · intro j
    simp [op, elem, elems, mapOp, hf]

/-- `a + (b + c)` for a vector, a matrix and a scalar; the shape is that of the matrix in any order. -/
example : ∀ s, HasShape (.node (mapOp fun _ => .ok 0) [.scalar (.ok 1), .node (mapOp fun _ => .ok 0) [.cell [⟨2, 1⟩] 0 .ok, .cell [⟨2, 3⟩, ⟨3, 1⟩] 0 .ok]] : Iter (Except Fault) Int) s ↔
    HasShape (.node (mapOp fun _ => .ok 0) [.cell [⟨2, 3⟩, ⟨3, 1⟩] 0 .ok, .cell [⟨2, 1⟩] 0 .ok, .scalar (.ok 1)] : Iter (Except Fault) Int) s := by
  intro s
  refine C74_shape _ _ ?_ ?_ ?_ s
  · exact ⟨by simp, trivial, ⟨by simp, by simp [Iter.WF], by simp [Iter.WF], trivial⟩, trivial⟩
  · exact ⟨by simp, by simp [Iter.WF], by simp [Iter.WF], trivial, trivial⟩
  intro x
  simp only [leaves, leavesAll, List.append_nil, List.mem_append, List.mem_cons, List.not_mem_nil, or_false]
  tauto

end
end Ra.Props
