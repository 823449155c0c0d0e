import Verif.Spec.Elem
import Verif.Lemmas.Ply
/-!
# The shape and elements of the model are those of the specification
-/
set_option linter.unusedSectionVars false

namespace Ra
open Spec (HasShape HasShapes Merge Reframed DimLen Length)

/-- A length as the code has it. -/
def lenVal : Length → Int
  | none => UNB
  | some n => n

theorem lenVal_inj {a b : Length} (h : lenVal a = lenVal b) : a = b := by
  have := UNB_val
  cases a <;> cases b <;> simp_all [lenVal]

section
variable {m : Type → Type} {α : Type}

theorem offset_disp (dims : List Dim) (j : List Int) : offset dims (disp j) = Spec.dot (dims.map Dim.step) j := by
  induction dims generalizing j with
  | nil => simp [offset, Spec.dot]
  | cons d ds ih =>
    cases j with
    | nil =>
      have : disp [] = fun _ => 0 := by funext k; simp [disp]
      rw [this, offset_zero]; simp [Spec.dot]
    | cons i j =>
      simp only [offset, disp_cons, ih, Spec.dot, List.map_cons, List.zipWith_cons_cons, List.sum_cons]
      simp [disp]

mutual
theorem Iter.deref_shift (a : Iter m α) (j : List Int) : (a.shift (disp j)).deref = Spec.elem a j := by
  cases a with
  | scalar c => rfl
  | cell dims cp rd => simp only [Iter.shift, Iter.deref, Spec.elem, offset_disp]
  | reframe dest a => simp only [Iter.shift, Iter.deref, Spec.elem, ← disp_reframe, a.deref_shift]
  | node op t => simp only [Iter.shift, Iter.deref, Spec.elem, derefList_shift t j]
theorem derefList_shift (t : List (Iter m α)) (j : List Int) : derefList (shiftList t (disp j)) = Spec.elems t j := by
  cases t with
  | nil => rfl
  | cons a t => simp only [shiftList, derefList, Spec.elems, a.deref_shift, derefList_shift t]
end

/-- What `HasShape` says about the model. -/
def Fits (a : Iter m α) (s : List Length) : Prop :=
  a.rank = s.length ∧ ∀ k, k < s.length → s[k]?.map lenVal = some (a.len k)

theorem Fits.len {a : Iter m α} {s : List Length} (h : Fits a s) {k : Nat} {o : Length} (hk : s[k]? = some o) : a.len k = lenVal o := by
  have hk' : k < s.length := (List.getElem?_eq_some_iff.mp hk).1
  have := h.2 k hk'
  rw [hk] at this
  simpa using this.symm

theorem reframed_rank {dest : List Nat} {s0 s : List Length} (h : Reframed dest s0 s) : reframeRank dest = s.length := by
  obtain ⟨h1, h2, h3, h4, h5⟩ := h
  by_cases hs : s = []
  · subst hs
    have : dest = [] := by
      cases dest with
      | nil => rfl
      | cons d t => have := h2 d (by simp); simp at this
    subst this; simp [reframeRank]
  · have hm := h3 hs
    have h6 := reframeRank_gt hm
    have hne : dest ≠ [] := by rintro rfl; simp at hm
    have hlen : 0 < s.length := List.length_pos_of_ne_nil hs
    have h7 : ∀ (l : List Nat) (r b : Nat), r ≤ b → (∀ x ∈ l, x ≤ b) → l.foldl max r ≤ b := by
      intro l
      induction l with
      | nil => intro r b hr _; simpa
      | cons a l ih =>
        intro r b hr hl
        exact ih _ _ (by have := hl a (by simp); omega) fun x hx => hl x (List.mem_cons_of_mem _ hx)
    have h8 := h7 dest 0 (s.length - 1) (by omega) (fun x hx => by have := h2 x hx; omega)
    simp only [reframeRank, if_neg hne] at h6 ⊢
    omega

mutual
theorem fits_of_hasShape (a : Iter m α) (s : List Length) (h : HasShape a s) : a.WF ∧ Fits a s := by
  cases a with
  | scalar c =>
    simp only [HasShape] at h
    subst h
    exact ⟨trivial, by simp [Iter.rank], by simp⟩
  | cell dims cp rd =>
    simp only [HasShape] at h
    refine ⟨?_, ?_, ?_⟩
    · simp only [Iter.WF]
      intro d hd
      obtain ⟨k, hk, rfl⟩ := List.getElem_of_mem hd
      have ho := h.get hk (by rw [← h.length_eq]; exact hk)
      simp only [List.get_eq_getElem] at ho
      cases hs : s[k]'(by rw [← h.length_eq]; exact hk) with
      | none => rw [hs] at ho; right; exact ho
      | some n => rw [hs] at ho; left; simp only [DimLen] at ho; omega
    · simp [Iter.rank, h.length_eq]
    · intro k hk
      have hk' : k < dims.length := by rw [h.length_eq]; exact hk
      have := h.get hk' hk
      simp only [List.get_eq_getElem] at this
      simp only [List.getElem?_eq_getElem hk, Option.map_some, Iter.len, lenOf, List.getElem?_eq_getElem hk', Option.getD_some,
        Option.some.injEq]
      cases hs : s[k] with
      | none => rw [hs] at this; exact this.symm
      | some n => rw [hs] at this; exact this.symm
  | reframe dest a =>
    simp only [HasShape] at h
    obtain ⟨hnd, s0, h0, hr⟩ := h
    obtain ⟨hwf, hf⟩ := fits_of_hasShape a s0 h0
    have hrank := reframed_rank hr
    obtain ⟨h1, h2, h3, h4, h5⟩ := hr
    refine ⟨?_, by simpa [Iter.rank] using hrank, ?_⟩
    · simp only [Iter.WF]
      exact ⟨hnd, by rw [hf.1, h1], hwf⟩
    · intro k hk
      simp only [Iter.len]
      cases ho : orig dest k with
      | none =>
        rw [h5 k hk (orig_none ho)]
        rfl
      | some l =>
        have hl := orig_some ho
        rw [h4 l k hl]
        exact hf.2 l (by have := orig_lt ho; omega)
  | node op t =>
    simp only [HasShape] at h
    obtain ⟨ss, hss, hm1, hm2, hm3⟩ := h
    obtain ⟨hwf, hf⟩ := fitsList_of_hasShapes t ss hss
    have hne : t ≠ [] := by
      rintro rfl
      simp only [HasShapes] at hss
      subst hss
      simp at hm2
    have hwf' : (Iter.node op t).WF := ⟨hne, hwf⟩
    have hlens : ∀ k, LensVal (lenList t k) := lenList_val t hwf
    refine ⟨hwf', ?_, ?_⟩
    · rw [rank_node_eq hwf']
      have hrl : rankList t = ss.map fun s => (s.length : Int) := by
        clear hm1 hm2 hm3 hwf hne hwf' hlens hss
        induction hf with
        | nil => rfl
        | cons hab _ ih => simp only [rankList, List.map_cons, ih, hab.1]
      rw [hrl]
      apply le_antisymm
      · refine foldl_max_le _ _ _ (by omega) ?_
        intro x hx
        obtain ⟨y, hy, rfl⟩ := List.mem_map.mp hx
        have := hm1 y hy; omega
      · obtain ⟨x, hx, hxl⟩ := hm2
        have := (foldl_max_ge (ss.map fun s => (s.length : Int)) 0).2 x.length (List.mem_map.mpr ⟨x, hx, rfl⟩)
        omega
    · intro k hk
      -- contributions to axis k
      have hcon : ∀ x, some x ∈ lenList t k ↔ ∃ s' ∈ ss, ∃ o, s'[k]? = some o ∧ lenVal o = x := by
        clear hm1 hm2 hm3 hwf hne hwf' hlens hss
        intro x
        induction hf with
        | nil => simp [lenList]
        | @cons b s' t' ss' hab _ ih =>
          simp only [lenList, List.mem_cons, ih]
          constructor
          · rintro (h | ⟨s'', hs'', o, h⟩)
            · split at h
              · rename_i hkr
                injection h with h
                have hk' : k < s'.length := by rw [hab.1] at hkr; omega
                have h2 := hab.2 k hk'
                refine ⟨s', Or.inl rfl, s'[k], List.getElem?_eq_getElem hk', ?_⟩
                rw [List.getElem?_eq_getElem hk'] at h2
                simp only [Option.map_some, Option.some.injEq] at h2
                rw [h2, h]
              · simp at h
            · exact ⟨s'', Or.inr hs'', o, h⟩
          · rintro ⟨s'', rfl | hs'', o, h⟩
            · left
              have hk' : k < s''.length := (List.getElem?_eq_some_iff.mp h.1).1
              rw [if_pos (by rw [hab.1]; omega), hab.len h.1, h.2]
            · right; exact ⟨s'', hs'', o, h⟩
      rw [List.getElem?_eq_getElem hk]
      simp only [Option.map_some, Iter.len, Option.some.injEq]
      symm
      cases hsk : s[k] with
      | none =>
        simp only [lenVal]
        rw [colens_unb_iff (Or.inr rfl) (hlens k)]
        refine ⟨rfl, fun x hx => ?_⟩
        obtain ⟨s', hs', o, ho, rfl⟩ := (hcon x).mp hx
        cases o with
        | none => rfl
        | some n =>
          have := (hm3 k n).mpr ⟨s', hs', ho⟩
          rw [List.getElem?_eq_getElem hk, hsk] at this
          simp at this
      | some n =>
        simp only [lenVal]
        rw [colens_finite_iff (Or.inr rfl) (hlens k) (by omega)]
        have hkn : s[k]? = some (some n) := by rw [List.getElem?_eq_getElem hk, hsk]
        refine ⟨Or.inl rfl, fun x hx => ?_, ?_⟩
        · obtain ⟨s', hs', o, ho, rfl⟩ := (hcon x).mp hx
          cases o with
          | none => left; rfl
          | some n' =>
            have := (hm3 k n').mpr ⟨s', hs', ho⟩
            rw [hkn] at this
            simp only [Option.some.injEq] at this
            right; simp [lenVal, this]
        · right
          obtain ⟨s', hs', ho⟩ := (hm3 k n).mp hkn
          exact (hcon n).mpr ⟨s', hs', some n, ho, rfl⟩
theorem fitsList_of_hasShapes (t : List (Iter m α)) (ss : List (List Length)) (h : HasShapes t ss) :
    WFList t ∧ List.Forall₂ Fits t ss := by
  cases t with
  | nil => simp only [HasShapes] at h; subst h; exact ⟨trivial, .nil⟩
  | cons a t =>
    simp only [HasShapes] at h
    obtain ⟨s, ss', rfl, h1, h2⟩ := h
    obtain ⟨hw, hf⟩ := fits_of_hasShape a s h1
    obtain ⟨hw', hf'⟩ := fitsList_of_hasShapes t ss' h2
    exact ⟨⟨hw, hw'⟩, .cons hf hf'⟩
end

theorem Spec.HasShape.wf {a : Iter m α} {s : List Length} (h : HasShape a s) : a.WF := (fits_of_hasShape a s h).1
theorem Spec.HasShape.fits {a : Iter m α} {s : List Length} (h : HasShape a s) : Fits a s := (fits_of_hasShape a s h).2

theorem Fits.bounded {a : Iter m α} {s : List Nat} (h : Fits a (s.map some)) : a.Bounded := by
  intro k hk
  have hk' : k < s.length := by rw [h.1] at hk; simpa using hk
  have := h.len (k := k) (o := some s[k]) (by simp [hk'])
  rw [this]; simp [lenVal]

theorem Fits.natShape {a : Iter m α} {s : List Nat} (h : Fits a (s.map some)) : a.natShape = s := by
  apply List.ext_getElem?
  intro k
  by_cases hk : k < s.length
  · rw [natShape_get a (by rw [h.1]; simpa using hk)]
    have := h.len (k := k) (o := some s[k]) (by simp [hk])
    rw [this]; simp [lenVal, hk]
  · rw [List.getElem?_eq_none (by rw [length_natShape, h.1]; simp; omega), List.getElem?_eq_none (by omega)]

theorem Spec.HasShape.bounded {a : Iter m α} {s : List Nat} (h : HasShape a (s.map some)) : a.Bounded := h.fits.bounded
theorem Spec.HasShape.natShape {a : Iter m α} {s : List Nat} (h : HasShape a (s.map some)) : a.natShape = s := h.fits.natShape

end
end Ra
