import Verif.Model.Frame
import Verif.Spec.Frame
import Verif.Lemmas.Shape
/-!
# Lemmas for rank conjunction
-/
set_option linter.unusedSectionVars false

namespace Ra
open Spec

/-- Destination axes, computed from the inside out. -/
def fm : List (List Nat) → List Nat → List (List Nat)
  | [], rs => rs.map List.range
  | c :: cs, rs =>
    let live := List.zipWith (· - ·) rs c
    List.zipWith (fun l d => List.range l ++ d.map (· + live.foldl max 0)) live (fm cs c)

theorem length_fm (cs : List (List Nat)) (rs : List Nat) (h : Fit cs rs) : (fm cs rs).length = rs.length := by
  induction cs generalizing rs with
  | nil => simp [fm]
  | cons c cs ih =>
    have := h.1.length_eq
    simp [fm, ih c h.2, this]

theorem map_add_range (skip n : Nat) : (List.range n).map (· + skip) = List.range' skip n := by
  apply List.ext_getElem
  · simp
  · intro i h1 h2
    simp [Nat.add_comm]

theorem framematch_eq (cs : List (List Nat)) (args : List (Nat × List Nat)) (skip : Nat)
    (h1 : ∀ a ∈ args, a.2.length ≤ a.1) (h2 : Fit cs (args.map fun a => a.1 - a.2.length)) :
    framematch cs args skip =
      some (List.zipWith (fun a d => a.2 ++ d.map (· + skip)) args (fm cs (args.map fun a => a.1 - a.2.length))) := by
  induction cs generalizing args skip with
  | nil =>
    simp only [framematch, fm]
    rw [if_pos (by simpa using h1)]
    congr 1
    apply List.ext_getElem
    · simp
    · intro i hi hi'
      simp only [List.getElem_map, List.getElem_zipWith, map_add_range]
  | cons c cs ih =>
    obtain ⟨hf, h2⟩ := h2
    have hl : args.length = c.length := by simpa using hf.length_eq
    have hg : ∀ i (hi : i < args.length) (hi' : i < c.length), args[i].2.length + c[i] ≤ args[i].1 := by
      intro i hi hi'
      have := hf.get (by simpa using hi) hi'
      simp at this
      have := h1 _ (List.getElem_mem hi)
      omega
    simp only [framematch]
    rw [if_pos]
    · have hlive : List.zipWith (fun a c => a.1 - a.2.length - c) args c = List.zipWith (· - ·) (args.map fun a => a.1 - a.2.length) c := by
        simp [List.zipWith_map_left]
      have hr : (List.zipWith (fun a l => (a.1, a.2 ++ List.range' skip l)) args
          (List.zipWith (fun a c => a.1 - a.2.length - c) args c)).map (fun a => a.1 - a.2.length) = c := by
        apply List.ext_getElem
        · simp [hl]
        · intro i hi hi'
          simp only [List.getElem_map, List.getElem_zipWith, List.length_append, List.length_range']
          have := hg i (by omega) hi'
          omega
      rw [ih]
      · rw [hr]
        congr 1
        have hlf := length_fm cs c h2
        apply List.ext_getElem
        · simp [fm, hl, hlf]
        · intro i hi hi'
          simp only [fm, List.getElem_zipWith, List.map_append, map_add_range, List.map_map, ← hlive, List.append_assoc]
          congr 2
          apply List.map_congr_left
          intro x _
          simp [Nat.add_assoc, Nat.add_comm skip]
      · intro a ha
        obtain ⟨i, hi, rfl⟩ := List.getElem_of_mem ha
        simp only [List.getElem_zipWith, List.length_append, List.length_range']
        simp at hi
        have := hg i (by omega) (by omega)
        omega
      · rw [hr]; exact h2
    · refine ⟨hl.symm, ?_⟩
      rw [List.all_eq_true]
      intro b hb
      obtain ⟨i, hi, rfl⟩ := List.getElem_of_mem hb
      simp at hi
      simpa using hg i (by omega) (by omega)

theorem le_foldl_max {l : List Nat} {i : Nat} (a : Nat) (h : i < l.length) : l[i] ≤ l.foldl max a := by
  induction l generalizing i a with
  | nil => simp at h
  | cons x l ih =>
    have hge : ∀ (l : List Nat) (a : Nat), a ≤ l.foldl max a := by
      intro l
      induction l with
      | nil => intro a; exact Nat.le_refl a
      | cons x l ih => intro a; simp only [List.foldl_cons]; exact Nat.le_trans (Nat.le_max_left a x) (ih _)
    cases i with
    | zero => simp only [List.getElem_cons_zero, List.foldl_cons]; exact Nat.le_trans (Nat.le_max_right a x) (hge _ _)
    | succ i => simpa using ih (max a x) (by simpa using h)

theorem foldl_max_le' {l : List Nat} {a n : Nat} (ha : a ≤ n) (h : ∀ x ∈ l, x ≤ n) : l.foldl max a ≤ n := by
  induction l generalizing a with
  | nil => simpa using ha
  | cons x l ih =>
    simp only [List.foldl_cons]
    exact ih (Nat.max_le.mpr ⟨ha, h x List.mem_cons_self⟩) fun y hy => h y (List.mem_cons_of_mem _ hy)

/-- The axes and lengths of a conjunction. -/
structure FmSpec (D : List (List Nat)) (ss : List (List Length)) (s : List Length) : Prop where
  len : D.length = ss.length
  lens : ∀ (i : Nat) (h : i < D.length) (h' : i < ss.length), D[i].length = ss[i].length
  nodup : ∀ d ∈ D, d.Nodup
  lt : ∀ d ∈ D, ∀ k ∈ d, k < s.length
  last : s ≠ [] → ∃ d ∈ D, s.length - 1 ∈ d
  fin : ∀ k n : Nat, s[k]? = some (some n) ↔ ∃ (i l : Nat) (d : List Nat) (x : List Length),
    D[i]? = some d ∧ ss[i]? = some x ∧ d[l]? = some k ∧ x[l]? = some (some n)

theorem Spec.VerbShape.fit {cs : List (List Nat)} {ss : List (List Length)} {s : List Length} (h : VerbShape cs ss s) :
    Fit cs (ss.map List.length) := by
  induction cs generalizing ss s with
  | nil => trivial
  | cons c cs ih =>
    obtain ⟨hf, sf, sr, _, _, h⟩ := h
    refine ⟨by simpa [List.forall₂_map_left_iff] using hf, ?_⟩
    have := ih h
    rw [List.map_zipWith] at this
    convert this using 1
    have hl := hf.length_eq
    apply List.ext_getElem
    · simp [hl]
    · intro i hi hi'
      have := hf.get (by omega) hi
      simp at this ⊢
      omega

theorem fmSpec (cs : List (List Nat)) (ss : List (List Length)) (s : List Length) (h : VerbShape cs ss s) :
    FmSpec (fm cs (ss.map List.length)) ss s := by
  induction cs generalizing ss s with
  | nil =>
    obtain ⟨h1, ⟨x, hx, hxl⟩, h3⟩ := h
    refine ⟨by simp [fm], by simp [fm], ?_, ?_, ?_, ?_⟩
    · intro d hd
      simp only [fm, List.mem_map] at hd
      obtain ⟨_, _, rfl⟩ := hd
      exact List.nodup_range
    · intro d hd k hk
      simp only [fm, List.mem_map] at hd
      obtain ⟨_, ⟨x, hx, rfl⟩, rfl⟩ := hd
      have := h1 x hx
      simp at hk
      omega
    · intro hs
      refine ⟨List.range x.length, by simp only [fm, List.mem_map]; exact ⟨x.length, ⟨x, hx, rfl⟩, rfl⟩, ?_⟩
      have := List.length_pos_of_ne_nil hs
      simp; omega
    · intro k n
      rw [h3]
      constructor
      · rintro ⟨y, hy, hyk⟩
        obtain ⟨i, hi, rfl⟩ := List.getElem_of_mem hy
        refine ⟨i, k, List.range ss[i].length, ss[i], by simp [fm, hi], by simp [hi], ?_, hyk⟩
        have := (List.getElem?_eq_some_iff.mp hyk).1
        simp [this]
      · rintro ⟨i, l, d, y, hd, hy, hdl, hyl⟩
        have hk : l = k := by
          simp only [fm, List.getElem?_map, Option.map_eq_some_iff] at hd
          obtain ⟨r, _, rfl⟩ := hd
          obtain ⟨h1, h2⟩ := List.getElem?_eq_some_iff.mp hdl
          simpa using h2
        subst hk
        exact ⟨y, List.mem_of_getElem? hy, hyl⟩
  | cons c cs ih =>
    obtain ⟨hf, sf, sr, rfl, hm, h⟩ := h
    have hl := hf.length_eq
    have hc : (List.zipWith (fun (x : List Length) c => x.drop (x.length - c)) ss c).map List.length = c := by
      apply List.ext_getElem
      · simp [hl]
      · intro i hi hi'
        have := hf.get (by omega) hi'
        simp at this ⊢
        omega
    have I := ih _ _ h
    rw [hc] at I
    have hfit := h.fit
    rw [hc] at hfit
    have hlf := length_fm cs c hfit
    set live := List.zipWith (· - ·) (ss.map List.length) c with hlive
    have hll : live.length = c.length := by simp [live, hl]
    have hF : live.foldl max 0 = sf.length := by
      obtain ⟨hm1, ⟨x, hx, hxl⟩, _⟩ := hm
      apply Nat.le_antisymm
      · apply foldl_max_le' (Nat.zero_le _)
        intro x hx
        obtain ⟨i, hi, rfl⟩ := List.getElem_of_mem hx
        have := hm1 _ (List.getElem_mem (l := List.zipWith (fun (x : List Length) c => x.take (x.length - c)) ss c) (n := i) (by simp; omega))
        simp [live] at this ⊢
        omega
      · obtain ⟨i, hi, rfl⟩ := List.getElem_of_mem hx
        have := le_foldl_max (l := live) (i := i) 0 (by simp at hi; omega)
        simp [live] at this hxl ⊢
        omega
    have hD : ∀ i (hi : i < c.length), ∃ (h1 : i < ss.length) (h2 : i < (fm cs c).length),
        (fm (c :: cs) (ss.map List.length))[i]? = some (List.range (ss[i].length - c[i]) ++ ((fm cs c)[i]).map (· + sf.length)) := by
      intro i hi
      refine ⟨by omega, by omega, ?_⟩
      rw [List.getElem?_eq_getElem (by simp [fm, hlf, hl]; exact hi)]
      simp only [fm, List.getElem_zipWith, ← hlive, hF]
      simp [live]
    have hDl : (fm (c :: cs) (ss.map List.length)).length = c.length := by simp [fm, hlf, hl]
    have hDi : ∀ i (hi : i < (fm (c :: cs) (ss.map List.length)).length), ∃ (h0 : i < c.length) (h1 : i < ss.length) (h2 : i < (fm cs c).length),
        (fm (c :: cs) (ss.map List.length))[i] = List.range (ss[i].length - c[i]) ++ ((fm cs c)[i]).map (· + sf.length) := by
      intro i hi
      obtain ⟨h1, h2, h3⟩ := hD i (by omega)
      refine ⟨by omega, h1, h2, ?_⟩
      rw [List.getElem?_eq_getElem hi] at h3
      injection h3
    have hlive_le : ∀ i (h0 : i < c.length) (h1 : i < ss.length), ss[i].length - c[i] ≤ sf.length := by
      intro i h0 h1
      have := hm.1 _ (List.getElem_mem (l := List.zipWith (fun (x : List Length) c => x.take (x.length - c)) ss c) (n := i) (by simp; omega))
      simp at this
      omega
    have hci : ∀ i (h0 : i < c.length) (h1 : i < ss.length), c[i] ≤ ss[i].length := fun i h0 h1 => by simpa using hf.get h1 h0
    refine ⟨by omega, ?_, ?_, ?_, ?_, ?_⟩
    · intro i hi hi'
      obtain ⟨h0, h1, h2, h3⟩ := hDi i hi
      rw [h3]
      have := I.lens i h2 (by simp; omega)
      simp at this ⊢
      have := hci i h0 h1
      omega
    · intro d hd
      obtain ⟨i, hi, rfl⟩ := List.getElem_of_mem hd
      obtain ⟨h0, h1, h2, h3⟩ := hDi i hi
      rw [h3, List.nodup_append]
      refine ⟨List.nodup_range, ?_, ?_⟩
      · exact (I.nodup _ (List.getElem_mem h2)).map (fun a b h => by simpa using h)
      · intro a ha b hb
        simp at ha hb
        obtain ⟨b', _, rfl⟩ := hb
        have := hlive_le i h0 h1
        omega
    · intro d hd k hk
      obtain ⟨i, hi, rfl⟩ := List.getElem_of_mem hd
      obtain ⟨h0, h1, h2, h3⟩ := hDi i hi
      rw [h3, List.mem_append] at hk
      have := hlive_le i h0 h1
      rcases hk with hk | hk
      · simp at hk ⊢; omega
      · simp only [List.mem_map] at hk
        obtain ⟨b, hb, rfl⟩ := hk
        have := I.lt _ (List.getElem_mem h2) b hb
        simp; omega
    · intro hs
      by_cases hsr : sr = []
      · subst hsr
        have hsf : sf ≠ [] := by simpa using hs
        obtain ⟨_, ⟨x, hx, hxl⟩, _⟩ := hm
        obtain ⟨i, hi, rfl⟩ := List.getElem_of_mem hx
        simp at hi
        refine ⟨_, List.getElem_mem (l := fm (c :: cs) (ss.map List.length)) (n := i) (by omega), ?_⟩
        obtain ⟨h0, h1, h2, h3⟩ := hDi i (by omega)
        rw [h3, List.mem_append]
        left
        have := List.length_pos_of_ne_nil hsf
        simp at hxl ⊢
        omega
      · obtain ⟨d, hd, hk⟩ := I.last hsr
        obtain ⟨i, hi, rfl⟩ := List.getElem_of_mem hd
        refine ⟨_, List.getElem_mem (l := fm (c :: cs) (ss.map List.length)) (n := i) (by omega), ?_⟩
        obtain ⟨h0, h1, h2, h3⟩ := hDi i (by omega)
        rw [h3, List.mem_append]
        right
        rw [List.mem_map]
        have := List.length_pos_of_ne_nil hsr
        exact ⟨_, hk, by simp; omega⟩
    · intro k n
      constructor
      · intro hk
        rw [List.getElem?_append] at hk
        split at hk
        · rename_i hlt
          obtain ⟨x, hx, hxk⟩ := (hm.2.2 k n).mp hk
          obtain ⟨i, hi, rfl⟩ := List.getElem_of_mem hx
          simp at hi
          obtain ⟨h1, h2, h3⟩ := hD i (by omega)
          refine ⟨i, k, _, ss[i], h3, by simp [h1], ?_, ?_⟩
          · simp at hxk
            rw [List.getElem?_take] at hxk
            split at hxk
            · rename_i hkl
              rw [List.getElem?_append_left (by simpa using hkl)]
              simp [hkl]
            · simp at hxk
          · simp at hxk
            rw [List.getElem?_take] at hxk
            split at hxk
            · exact hxk
            · simp at hxk
        · rename_i hge
          obtain ⟨i, l, d, x, hd, hx, hdl, hxl⟩ := (I.fin _ n).mp hk
          have hi : i < c.length := by
            have := (List.getElem?_eq_some_iff.mp hd).1
            omega
          obtain ⟨h1, h2, h3⟩ := hD i hi
          rw [List.getElem?_eq_getElem h2] at hd
          injection hd with hd
          subst hd
          have hx' : x = ss[i].drop (ss[i].length - c[i]) := by
            rw [List.getElem?_eq_getElem (by simp; omega)] at hx
            injection hx with hx
            simpa using hx.symm
          subst hx'
          refine ⟨i, (ss[i].length - c[i]) + l, _, ss[i], h3, by simp [h1], ?_, ?_⟩
          · rw [List.getElem?_append_right (by simp)]
            simp [hdl]
            omega
          · rw [List.getElem?_drop] at hxl
            exact hxl
      · rintro ⟨i, l, d, x, hd, hx, hdl, hxl⟩
        have hi : i < c.length := by
          have := (List.getElem?_eq_some_iff.mp hd).1
          omega
        obtain ⟨h1, h2, h3⟩ := hD i hi
        rw [h3] at hd
        injection hd with hd
        subst hd
        rw [List.getElem?_eq_getElem h1] at hx
        injection hx with hx
        subst hx
        have hle := hlive_le i hi h1
        have hcl := hci i hi h1
        by_cases hll : l < ss[i].length - c[i]
        · rw [List.getElem?_append_left (by simpa using hll)] at hdl
          have hlk : l = k := by
            obtain ⟨h1, h2⟩ := List.getElem?_eq_some_iff.mp hdl
            simpa using h2
          subst hlk
          rw [List.getElem?_append_left (by omega)]
          rw [hm.2.2]
          refine ⟨_, List.getElem_mem (l := List.zipWith (fun (x : List Length) c => x.take (x.length - c)) ss c) (n := i) (by simp; omega), ?_⟩
          simp only [List.getElem_zipWith]
          rw [List.getElem?_take, if_pos hll, hxl]
        · rw [List.getElem?_append_right (by simp; omega)] at hdl
          simp only [List.length_range, List.getElem?_map, Option.map_eq_some_iff] at hdl
          obtain ⟨k', hk', rfl⟩ := hdl
          rw [List.getElem?_append_right (by omega)]
          simp only [Nat.add_sub_cancel]
          rw [I.fin]
          refine ⟨i, l - (ss[i].length - c[i]), _, ss[i].drop (ss[i].length - c[i]), List.getElem?_eq_getElem h2, ?_, hk', ?_⟩
          · rw [List.getElem?_eq_getElem (by simp; omega)]
            simp
          · rw [List.getElem?_drop]
            rw [← hxl]; congr 1; omega

end Ra
