import Verif.Props.Expr
/-!
# Checks of nested expressions: C03
-/
set_option linter.unusedSectionVars false

namespace Ra.Props
open Spec

section
variable {m : Type → Type} {α β : Type} [Monad m] [LawfulMonad m] [MonadFault m]

/-- A length of the model as in the specification. -/
def lengthOf (x : Int) : Length := if x = UNB then none else some x.toNat

/-- The shape of an expression without mismatches. -/
def lengthsOf (a : Iter m α) : List Length := (List.range a.rank.toNat).map fun k => lengthOf (a.len k)

theorem length_lengthsOf (a : Iter m α) : (lengthsOf a).length = a.rank.toNat := by simp [lengthsOf]

theorem lengthsOf_get (a : Iter m α) {k : Nat} (hk : k < a.rank.toNat) : (lengthsOf a)[k]? = some (lengthOf (a.len k)) := by
  simp [lengthsOf, hk]

theorem lengthsOf_some (a : Iter m α) (hwf : a.WF) (hn : ∀ k : Nat, (k : Int) < a.rank → a.len k ≠ MIS) (k n : Nat) :
    (lengthsOf a)[k]? = some (some n) ↔ (k : Int) < a.rank ∧ a.len k = n := by
  have hU := UNB_val
  have hr := a.rank_nonneg hwf
  constructor
  · intro h
    have hk : k < a.rank.toNat := by
      have := (List.getElem?_eq_some_iff.mp h).1
      rwa [length_lengthsOf] at this
    rw [lengthsOf_get a hk] at h
    have hv := a.len_val hwf k (by omega)
    have := hn k (by omega)
    simp only [lengthOf, Option.some.injEq] at h
    split at h
    · simp at h
    · simp only [Option.some.injEq] at h
      unfold LenVal at hv
      omega
  · rintro ⟨hk, hl⟩
    rw [lengthsOf_get a (by omega)]
    simp only [lengthOf, Option.some.injEq]
    rw [if_neg (by omega)]
    simp [hl]

theorem rank_node_mem {op : List (m α) → m α} {t : List (Iter m α)} (h : (Iter.node op t).WF) : ∃ a ∈ t, a.rank = (Iter.node op t).rank := by
  rw [rank_node_eq h, rankList_eq]
  rcases foldl_max_mem (t.map Iter.rank) 0 with h0 | h0
  · obtain ⟨a, ha⟩ := List.exists_mem_of_ne_nil t h.1
    have h1 := (foldl_max_ge (t.map Iter.rank) 0).2 a.rank (List.mem_map.mpr ⟨a, ha, rfl⟩)
    have h2 := a.rank_nonneg ((WFList_iff t).mp h.2 a ha)
    exact ⟨a, ha, by omega⟩
  · obtain ⟨a, ha, hr⟩ := List.mem_map.mp h0
    exact ⟨a, ha, hr⟩

/-- A mismatch in an argument is a mismatch in the whole. -/
theorem child_noMis {op : List (m α) → m α} {t : List (Iter m α)} (h : (Iter.node op t).WF)
    (hn : ∀ k : Nat, (k : Int) < (Iter.node op t).rank → (Iter.node op t).len k ≠ MIS) {a : Iter m α} (ha : a ∈ t) (k : Nat)
    (hk : (k : Int) < a.rank) : a.len k ≠ MIS := by
  intro hm
  have hU := UNB_val
  have hM := MIS_val
  have hk' : (k : Int) < (Iter.node op t).rank := lt_of_lt_of_le hk (rank_child_le h ha)
  have hv := lenList_val t h.2 k
  have hmem : some MIS ∈ lenList t k := (mem_lenList_iff t k MIS).mpr ⟨a, ha, hk, hm⟩
  have := hn k hk'
  simp only [Iter.len] at this
  have hc := colens_val (s := UNB) (Or.inr rfl) hv
  rcases hc with hc | hc | hc
  · have := ((colens_finite_iff (Or.inr rfl) hv hc).mp rfl).2.1 _ hmem
    omega
  · have := ((colens_unb_iff (Or.inr rfl) hv).mp hc).2 _ hmem
    omega
  · exact this hc

theorem hasShapes_of_forall (t : List (Iter m α)) (f : Iter m α → List Length) (h : ∀ a ∈ t, HasShape a (f a)) : HasShapes t (t.map f) := by
  induction t with
  | nil => rfl
  | cons a t ih => exact ⟨f a, t.map f, rfl, h a (by simp), ih fun b hb => h b (by simp [hb])⟩

/-- A tree without mismatches has a shape. -/
theorem hasShape_of_noMis (a : Iter m α) (hwf : a.WF) (hn : ∀ k : Nat, (k : Int) < a.rank → a.len k ≠ MIS) : HasShape a (lengthsOf a) := by
  have hU := UNB_val
  have hM := MIS_val
  match a with
  | .scalar c => simp [HasShape, lengthsOf, Iter.rank]
  | .cell dims cp rd =>
    simp only [HasShape]
    rw [List.forall₂_iff_get]
    refine ⟨by simp [lengthsOf, Iter.rank], ?_⟩
    intro k h1 h2
    have hd := hwf dims[k] (List.getElem_mem h1)
    simp only [List.get_eq_getElem, lengthsOf, List.getElem_map, List.getElem_range, Iter.len, lenOf, List.getElem?_eq_getElem h1, Option.map_some,
      Option.getD_some, lengthOf]
    split
    · next h => exact h
    · next h =>
      simp only [DimLen]
      omega
  | .reframe dest a =>
    obtain ⟨hd, hl, hwa⟩ := hwf
    have hna : ∀ k : Nat, (k : Int) < a.rank → a.len k ≠ MIS := by
      intro l hla
      have hl' : l < dest.length := by omega
      have hg : dest[l]? = some dest[l] := List.getElem?_eq_getElem hl'
      have := hn dest[l] (reframeRank_gt (List.getElem_mem hl'))
      simpa only [Iter.len, orig_of_nodup hd hg] using this
    refine ⟨hd, lengthsOf a, hasShape_of_noMis a hwa hna, ?_⟩
    have hrk : (lengthsOf (Iter.reframe dest a)).length = (reframeRank dest).toNat := by rw [length_lengthsOf]; rfl
    have hr0 := reframeRank_nonneg dest
    refine ⟨by rw [length_lengthsOf]; omega, ?_, ?_, ?_, ?_⟩
    · intro d hd'
      have := reframeRank_gt hd'
      omega
    · intro hne
      have hpos := List.length_pos_of_ne_nil hne
      rw [hrk] at hpos ⊢
      have hdne : dest ≠ [] := by rintro rfl; simp [reframeRank] at hpos
      have hmem : ∀ (l : List Nat) (r : Nat), l.foldl max r = r ∨ l.foldl max r ∈ l := by
        intro l
        induction l with
        | nil => simp
        | cons x l ih =>
          intro r
          rcases ih (max r x) with h | h
          · simp only [List.foldl_cons, h, List.mem_cons]
            rcases le_total r x with h' | h'
            · right; left; omega
            · left; omega
          · right; exact List.mem_cons_of_mem _ h
      have : (reframeRank dest).toNat - 1 = dest.foldl max 0 := by
        simp only [reframeRank, if_neg hdne]; omega
      rw [this]
      rcases hmem dest 0 with h | h
      · rw [h]
        obtain ⟨x, hx⟩ := List.exists_mem_of_ne_nil dest hdne
        have hb : ∀ (l : List Nat) (r : Nat), r ≤ l.foldl max r ∧ ∀ y ∈ l, y ≤ l.foldl max r := by
          intro l
          induction l with
          | nil => simp
          | cons a l ih =>
            intro r
            obtain ⟨h1, h2⟩ := ih (max r a)
            refine ⟨by simp only [List.foldl_cons]; omega, ?_⟩
            intro y hy
            rcases List.mem_cons.mp hy with rfl | hy
            · simp only [List.foldl_cons]; omega
            · exact h2 y hy
        have := (hb dest 0).2 x hx
        rw [h] at this
        have : x = 0 := by omega
        exact this ▸ hx
      · exact h
    · intro l k hlk
      have hl' := (List.getElem?_eq_some_iff.mp hlk).1
      have hkr := reframeRank_gt (List.mem_of_getElem? hlk)
      rw [lengthsOf_get _ (show k < (Iter.reframe dest a).rank.toNat by simp only [Iter.rank]; omega), lengthsOf_get a (by omega)]
      simp only [Iter.len, orig_of_nodup hd hlk]
    · intro k hk hnot
      rw [hrk] at hk
      rw [lengthsOf_get _ (show k < (Iter.reframe dest a).rank.toNat from hk)]
      have : orig dest k = none := by
        cases ho : orig dest k with
        | none => rfl
        | some l => exact absurd (List.mem_of_getElem? (orig_some ho)) hnot
      simp only [Iter.len, this, lengthOf, if_true]
  | .node op t =>
    have hch : ∀ a ∈ t, HasShape a (lengthsOf a) := fun a ha =>
      hasShape_of_noMis a ((WFList_iff t).mp hwf.2 a ha) (child_noMis hwf hn ha)
    refine ⟨t.map lengthsOf, hasShapes_of_forall t lengthsOf hch, ?_, ?_, ?_⟩
    · intro x hx
      obtain ⟨a, ha, rfl⟩ := List.mem_map.mp hx
      have := rank_child_le hwf ha
      rw [length_lengthsOf, length_lengthsOf]
      omega
    · obtain ⟨a, ha, hr⟩ := rank_node_mem hwf
      exact ⟨_, List.mem_map.mpr ⟨a, ha, rfl⟩, by rw [length_lengthsOf, length_lengthsOf, hr]⟩
    · intro k n
      rw [lengthsOf_some _ hwf hn]
      have hv := lenList_val t hwf.2 k
      constructor
      · rintro ⟨hk, hl⟩
        have hfin := (colens_finite_iff (s := UNB) (Or.inr rfl) hv (n := n) (by omega)).mp hl
        rcases hfin.2.2 with h | h
        · omega
        · obtain ⟨a, ha, hka, hla⟩ := (mem_lenList_iff t k n).mp h
          exact ⟨_, List.mem_map.mpr ⟨a, ha, rfl⟩,
            (lengthsOf_some a ((WFList_iff t).mp hwf.2 a ha) (child_noMis hwf hn ha) k n).mpr ⟨hka, hla⟩⟩
      · rintro ⟨x, hx, hxk⟩
        obtain ⟨a, ha, rfl⟩ := List.mem_map.mp hx
        obtain ⟨hka, hla⟩ := (lengthsOf_some a ((WFList_iff t).mp hwf.2 a ha) (child_noMis hwf hn ha) k n).mp hxk
        have hk := lt_of_lt_of_le hka (rank_child_le hwf ha)
        refine ⟨hk, ?_⟩
        have hmem : some (n : Int) ∈ lenList t k := (mem_lenList_iff t k n).mpr ⟨a, ha, hka, hla⟩
        have hne := hn k hk
        simp only [Iter.len] at hne ⊢
        rcases colens_val (s := UNB) (Or.inr rfl) hv with hc | hc | hc
        · have := ((colens_finite_iff (Or.inr rfl) hv hc).mp rfl).2.1 _ hmem
          omega
        · have := ((colens_unb_iff (Or.inr rfl) hv).mp hc).2 _ hmem
          omega
        · exact absurd hc hne
termination_by sizeOf a
decreasing_by
  all_goals simp_wf
  · have := List.sizeOf_lt_of_mem ha
    omega

/-- An expression has one shape. -/
theorem hasShape_unique {a : Iter m α} {s s' : List Length} (h : HasShape a s) (h' : HasShape a s') : s = s' := by
  have hf := h.fits
  have hf' := h'.fits
  have hl : s.length = s'.length := by have := hf.1; have := hf'.1; omega
  refine List.ext_getElem hl fun k hk hk' => lenVal_inj ?_
  rw [← hf.len (List.getElem?_eq_getElem hk), ← hf'.len (List.getElem?_eq_getElem hk')]

/-- An expression whose lengths are all finite has a shape. -/
theorem hasShape_of_bounded {a : Iter m α} (hwf : a.WF) (hb : a.Bounded) : ∃ s : List Nat, HasShape a (s.map some) := by
  have hM := MIS_val
  have hU := UNB_val
  have h := hasShape_of_noMis a hwf fun k hk => by have := hb k hk; omega
  refine ⟨(List.range a.rank.toNat).map fun k => (a.len k).toNat, ?_⟩
  have : lengthsOf a = ((List.range a.rank.toNat).map fun k => (a.len k).toNat).map some := by
    rw [lengthsOf, List.map_map]
    refine List.map_congr_left fun k hk => ?_
    have := hb k (by have := List.mem_range.mp hk; omega)
    simp only [lengthOf, Function.comp]
    rw [if_neg (by omega)]
  rwa [← this]

/-- C03. A tree of any depth passes the check of a traversal exactly when it has a finite shape, that is, every match in it, at any depth, is of shapes that
agree. Otherwise the traversal fails the check before any element is evaluated. -/
theorem C03_tree (stop : α → Option β) (a : Iter m α) (hwf : a.WF) (z : List Int) :
    (∃ s : List Nat, HasShape a (s.map some)) ∨
    (plyRavel stop z a = fault .check ∧ plyFixed stop a = fault .check ∧ ∀ f : α → m β, stlFor f a = fault .check) := by
  by_cases hb : a.Bounded
  · exact .inl (hasShape_of_bounded hwf hb)
  · right
    have hv : a.validate = false := by
      cases h : a.validate with
      | false => rfl
      | true => exact absurd ((validate_iff a).mp h) hb
    refine ⟨?_, ?_, fun f => ?_⟩
    · simp [plyRavel, hv]
    · simp [plyFixed, hv]
    · simp [stlFor, Stl.begin, hv]

/-- `a + (b + c)` where `b` and `c` don't match. -/
example (op : List (m α) → m α) (rd : Int → m α) :
    plyFixed (β := Unit) never (.node op [.cell [⟨2, 1⟩] 0 rd, .node op [.cell [⟨2, 1⟩, ⟨4, 2⟩] 0 rd, .cell [⟨2, 1⟩, ⟨3, 2⟩] 0 rd]]) = fault .check := by
  refine ((C03_tree never _ ?_ []).resolve_left ?_).2.1
  · simp [Iter.WF, WFList]
  · rintro ⟨s, ss, ⟨_, _, rfl, _, _, _, rfl, ⟨ss', ⟨s1, _, rfl, h1, s2, _, rfl, h2, rfl⟩, hm⟩, rfl⟩, _⟩
    have e1 : s1 = [some 2, some 4] := hasShape_unique h1 (.cons rfl (.cons rfl .nil))
    have e2 : s2 = [some 2, some 3] := hasShape_unique h2 (.cons rfl (.cons rfl .nil))
    subst e1 e2
    have h3 := (hm.2.2 1 4).mpr ⟨_, List.mem_cons_self, rfl⟩
    have h4 := (hm.2.2 1 3).mpr ⟨[some 2, some 3], by simp, rfl⟩
    rw [h3] at h4
    simp at h4

end
end Ra.Props
