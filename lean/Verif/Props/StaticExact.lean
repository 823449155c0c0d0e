import Verif.Props.Static
import Verif.Props.Nested
/-!
# C04: exactly when the compile time check is right
-/

namespace Ra.Props
open Spec

section
variable {m : Type → Type} {α : Type} [Monad m] [LawfulMonad m] [MonadFault m]

theorem shapes_of_hasShapes (t : List (Iter m α)) (ss : List (List Length)) (h : HasShapes t ss) : ∀ a ∈ t, ∃ s, HasShape a s := by
  induction t generalizing ss with
  | nil => simp
  | cons b t ih =>
    obtain ⟨s, ss', rfl, h1, h2⟩ := h
    intro a ha
    rcases List.mem_cons.mp ha with rfl | ha
    · exact ⟨s, h1⟩
    · exact ih ss' h2 a ha

theorem says_shaped (d : STree) (a : Iter m α) (h : Inst d a) (s : List Length) (hs : HasShape a s) (c : Bool) (k : Nat) : SaysO true (scontrib d c k) (contrib a k) := by
  have h1 := says_contrib d a h c k
  rcases h2 : contrib a k with _ | n
  · rw [h2] at h1
    rcases h3 : scontrib d c k with _ | l
    · trivial
    · rw [h3] at h1; exact h1
  · rw [h2] at h1
    rcases h3 : scontrib d c k with _ | l
    · rw [h3] at h1; exact h1
    · rw [h3] at h1
      have hn : n ≠ MIS := by
        unfold contrib at h2
        split_ifs at h2 with hk
        obtain rfl := Option.some.inj h2
        have hk' : k < s.length := by have := hs.fits.1; omega
        rw [hs.fits.len (List.getElem?_eq_getElem hk')]
        exact lenVal_ne_mis _
      have h1' := says_false.mp h1
      refine says_true.mpr ?_
      omega

theorem says_shapeds (ds : List STree) (t : List (Iter m α)) (h : Insts ds t) (hs : ∀ a ∈ t, ∃ s, HasShape a s) (k : Nat) :
    List.Forall₂ (SaysO true) (slenList ds true k) (lenList t k) := by
  induction ds generalizing t with
  | nil =>
    cases t with
    | nil => exact .nil
    | cons a t => simp [Insts] at h
  | cons d ds ih =>
    cases t with
    | nil => simp [Insts] at h
    | cons a t =>
      simp only [Insts] at h
      obtain ⟨s, h1⟩ := hs a (by simp)
      exact .cons (says_shaped d a h.1 s h1 true k) (ih t h.2 fun b hb => hs b (by simp [hb]))

/-- C04. For any types, the arguments agree exactly when they pass the check, either when compiling or when running, and each of them by itself has a shape. So the only way for the check to be wrong is that of `C04_negation`,
an argument that doesn't match in itself. -/
theorem C04_exact (ds : List STree) (t : List (Iter m α)) (hi : Insts ds t) : agree t = true ↔ fullCheck ds t = true ∧ ∀ a ∈ t, ∃ s, HasShape a s := by
  have hU := UNB_val; have hM := MIS_val; have hA := ANY_val
  have hle : checkS ds ≤ 2 := by
    unfold checkS
    split
    · omega
    · exact checkLoop_le _ _ _
  constructor
  · intro h
    refine ⟨?_, ?_⟩
    · unfold fullCheck
      split
      · exact h
      · by_cases h0 : checkS ds = 0
        · rw [C04_reject ds t hi h0] at h; exact absurd h (by decide)
        · simp [h0]
    · by_cases hne : t = []
      · subst hne; simp
      · have hb := (agree_iff_bounded (fun l => l.headD (t.head hne).deref) t).mp h
        have hw : (Iter.node (fun l => l.headD (t.head hne).deref) t).WF := ⟨hne, insts_wf ds t hi⟩
        obtain ⟨s, ss, h1, h2⟩ := hasShape_of_bounded hw hb
        exact shapes_of_hasShapes t ss h1
  · rintro ⟨h, hs⟩
    unfold fullCheck at h
    split at h
    · exact h
    · have h2 : checkS ds = 2 := by have : checkS ds ≠ 0 := by simpa using h
                                    omega
      unfold checkS at h2
      split_ifs at h2 with hr
      · omega
      have hl := (checkLoop_two _ _ _ h2).2
      have hr' : (STree.node ds).rank = coranks UNB (rankList t) := by
        simp only [STree.rank] at hr ⊢
        rw [srankList_eq ds t hi (coranks_any hr).2]
      simp only [agree, matchCheck, List.all_eq_true, List.mem_range, decide_eq_true_eq]
      intro k hk
      have hl := hl k (by rw [List.mem_range, hr']; exact hk)
      have hs := scolens_says true true UNB UNB _ _ (says_shapeds ds t hi hs k) (.inr (.inr (.inl ⟨rfl, rfl⟩))) (by omega) (by omega) (by simp)
      simp only [STree.len] at hl
      rw [says_true] at hs
      omega

/-- In the types of `C04_negation`, with an argument that does match. -/
example : Insts [.cell (some [2]), .reframe [1] (.node [.cell (some [ANY]), .cell (some [3])])] [vecN 2, .reframe [1] (.node (fun l => l.headD (.ok 0)) [vecN 3, vecN 3])] ∧
    agree [vecN 2, .reframe [1] (.node (fun l => l.headD (.ok 0)) [vecN 3, vecN 3])] = true ∧ ¬ Plains [.cell (some [2]), .reframe [1] (.node [.cell (some [ANY]), .cell (some [3])])] := by
  refine ⟨?_, by decide +kernel, by simp [Plains, Plain, Leaf]⟩
  simp [Insts, Inst, InstLen, vecN, Iter.rank, rankList, coranks, corank, UNB, ANY]

end
end Ra.Props
