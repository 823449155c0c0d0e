import Verif.Props.Frame
import Verif.Props.Expr
import Verif.Model.AgreeOp
/-!
# Agreement relative to an operation: C89
-/

namespace Ra.Props
open Spec (Length HasShape HasShapes Merge Reframed elem VerbShape verb Fit)

theorem foldl_max_attained (l : List Nat) (hne : l ≠ []) : l.foldl max 0 ∈ l := by
  suffices H : ∀ (l : List Nat) (a : Nat), l.foldl max a = a ∨ l.foldl max a ∈ l by
    rcases H l 0 with h | h
    · cases l with
      | nil => exact absurd rfl hne
      | cons x l =>
        have := le_foldl_max (l := x :: l) (i := 0) 0 (by simp)
        simp only [List.getElem_cons_zero] at this
        have hx : x = 0 := by omega
        rw [h, hx]; simp
    · exact h
  intro l
  induction l with
  | nil => intro a; left; rfl
  | cons x l ih =>
    intro a
    simp only [List.foldl_cons]
    rcases ih (max a x) with h | h
    · rw [h]
      rcases Nat.le_total a x with h' | h'
      · right; simp [Nat.max_eq_right h']
      · left; exact Nat.max_eq_left h'
    · right; exact List.mem_cons_of_mem _ h

/-- The axes that the code gives to the arguments, with a match of the lengths, are those of the conjunction. -/
theorem fmSpec_inv (cs : List (List Nat)) (ss : List (List Length)) (s : List Length) (hne : ss ≠ []) (hfit : Fit cs (ss.map List.length))
    (F : FmSpec (fm cs (ss.map List.length)) ss s) : VerbShape cs ss s := by
  induction cs generalizing ss s with
  | nil =>
    have hle : ∀ x ∈ ss, x.length ≤ s.length := by
      intro x hx
      by_contra hc
      have := F.lt (List.range x.length) (by simp only [fm, List.mem_map]; exact ⟨_, ⟨x, hx, rfl⟩, rfl⟩) (x.length - 1) (by simp; omega)
      omega
    refine ⟨hle, ?_, ?_⟩
    · by_cases hs : s = []
      · obtain ⟨x, hx⟩ := List.exists_mem_of_ne_nil _ hne
        refine ⟨x, hx, ?_⟩
        have := hle x hx
        simp [hs] at this ⊢
        exact this
      · obtain ⟨d, hd, hk⟩ := F.last hs
        simp only [fm, List.mem_map] at hd
        obtain ⟨_, ⟨x, hx, rfl⟩, rfl⟩ := hd
        have := hle x hx
        have := List.length_pos_of_ne_nil hs
        simp at hk
        exact ⟨x, hx, by omega⟩
    · intro k n
      rw [F.fin]
      constructor
      · rintro ⟨i, l, d, y, hd, hy, hdl, hyl⟩
        have hk : l = k := by
          simp only [fm, List.getElem?_map, Option.map_eq_some_iff] at hd
          obtain ⟨r, _, rfl⟩ := hd
          obtain ⟨h1, h2⟩ := List.getElem?_eq_some_iff.mp hdl
          simpa using h2
        subst hk
        exact ⟨y, List.mem_of_getElem? hy, hyl⟩
      · rintro ⟨y, hy, hyk⟩
        obtain ⟨i, hi, rfl⟩ := List.getElem_of_mem hy
        refine ⟨i, k, List.range ss[i].length, ss[i], by simp [fm, hi], by simp [hi], ?_, hyk⟩
        have := (List.getElem?_eq_some_iff.mp hyk).1
        simp [this]
  | cons c cs ih =>
    obtain ⟨hf, hfit'⟩ := hfit
    have hf' : List.Forall₂ (fun (x : List Length) (c : Nat) => c ≤ x.length) ss c := by simpa [List.forall₂_map_left_iff] using hf
    have hl := hf'.length_eq
    have hlf := length_fm cs c hfit'
    set live := List.zipWith (· - ·) (ss.map List.length) c with hlive
    have hll : live.length = c.length := by simp [live, hl]
    set Fm := live.foldl max 0 with hFm
    have hD : ∀ i (hi : i < c.length), ∃ (h1 : i < ss.length) (h2 : i < (fm cs c).length),
        (fm (c :: cs) (ss.map List.length))[i]? = some (List.range (ss[i].length - c[i]) ++ ((fm cs c)[i]).map (· + Fm)) := by
      intro i hi
      refine ⟨by omega, by omega, ?_⟩
      rw [List.getElem?_eq_getElem (by simp [fm, hlf, hl]; exact hi)]
      simp only [fm, List.getElem_zipWith, ← hlive, ← hFm]
      simp [live]
    have hDl : (fm (c :: cs) (ss.map List.length)).length = c.length := by simp [fm, hlf, hl]
    have hDm : ∀ i (hi : i < c.length) (h1 : i < ss.length) (h2 : i < (fm cs c).length),
        List.range (ss[i].length - c[i]) ++ ((fm cs c)[i]).map (· + Fm) ∈ fm (c :: cs) (ss.map List.length) := by
      intro i hi h1 h2
      obtain ⟨_, _, h3⟩ := hD i hi
      exact List.mem_of_getElem? h3
    have hlive_le : ∀ i (h0 : i < c.length) (h1 : i < ss.length), ss[i].length - c[i] ≤ Fm := by
      intro i h0 h1
      have := le_foldl_max (l := live) (i := i) 0 (by omega)
      simpa [live] using this
    have hlive_s : ∀ i (h0 : i < c.length) (h1 : i < ss.length), ss[i].length - c[i] ≤ s.length := by
      intro i h0 h1
      by_contra hc
      have := F.lt _ (hDm i h0 h1 (by omega)) (ss[i].length - c[i] - 1) (by simp; left; omega)
      omega
    have hci : ∀ i (h0 : i < c.length) (h1 : i < ss.length), c[i] ≤ ss[i].length := fun i h0 h1 => by simpa using hf'.get h1 h0
    have hcell : (List.zipWith (fun (x : List Length) c => x.drop (x.length - c)) ss c).map List.length = c := by
      apply List.ext_getElem
      · simp [hl]
      · intro i hi hi'
        have := hci i hi' (by omega)
        simp
        omega
    have hFs : ∃ (i : Nat) (h0 : i < c.length) (h1 : i < ss.length), ss[i].length - c[i] = Fm := by
      have h0 : live ≠ [] := by
        intro h
        have := List.length_pos_of_ne_nil hne
        rw [h] at hll
        simp at hll
        omega
      have := foldl_max_attained live h0
      obtain ⟨i, hi, h⟩ := List.getElem_of_mem this
      refine ⟨i, by omega, by omega, ?_⟩
      simpa [live] using h
    have hFle : Fm ≤ s.length := by
      obtain ⟨i, h0, h1, h⟩ := hFs
      have := hlive_s i h0 h1
      omega
    refine ⟨hf', s.take Fm, s.drop Fm, by simp, ⟨?_, ?_, ?_⟩, ih _ _ ?_ (by rw [hcell]; exact hfit') ?_⟩
    · intro x hx
      obtain ⟨i, hi, rfl⟩ := List.getElem_of_mem hx
      simp at hi
      have := hlive_le i (by omega) (by omega)
      have := hlive_s i (by omega) (by omega)
      simp
      omega
    · obtain ⟨i, h0, h1, h⟩ := hFs
      refine ⟨_, List.getElem_mem (l := List.zipWith (fun (x : List Length) c => x.take (x.length - c)) ss c) (n := i) (by simp; omega), ?_⟩
      simp
      omega
    · intro k n
      constructor
      · intro hk
        have hkF : k < Fm := by
          have := (List.getElem?_eq_some_iff.mp hk).1
          simp at this
          omega
        rw [List.getElem?_take, if_pos hkF, F.fin] at hk
        obtain ⟨i, l, d, x, hd, hx, hdl, hxl⟩ := hk
        have hi : i < c.length := by rw [← hDl]; exact (List.getElem?_eq_some_iff.mp hd).1
        obtain ⟨h1, h2, h3⟩ := hD i hi
        rw [h3] at hd
        injection hd with hd
        subst hd
        rw [List.getElem?_eq_getElem h1] at hx
        injection hx with hx
        subst hx
        rw [List.getElem?_append] at hdl
        split at hdl
        · rename_i hll'
          simp at hll'
          rw [List.getElem?_range (by omega)] at hdl
          injection hdl with hdl
          subst hdl
          refine ⟨_, List.getElem_mem (l := List.zipWith (fun (x : List Length) c => x.take (x.length - c)) ss c) (n := i) (by simp; omega), ?_⟩
          simp only [List.getElem_zipWith]
          rw [List.getElem?_take, if_pos (by omega), hxl]
        · rw [List.getElem?_map, Option.map_eq_some_iff] at hdl
          obtain ⟨_, _, h⟩ := hdl
          omega
      · rintro ⟨x, hx, hxk⟩
        obtain ⟨i, hi, rfl⟩ := List.getElem_of_mem hx
        simp at hi
        have hkl := (List.getElem?_eq_some_iff.mp hxk).1
        simp at hkl hxk
        obtain ⟨h1, h2, h3⟩ := hD i (by omega)
        have := hlive_le i (by omega) h1
        rw [List.getElem?_take, if_pos (by omega), F.fin]
        refine ⟨i, k, _, ss[i], h3, by simp [h1], ?_, ?_⟩
        · rw [List.getElem?_append_left (by simp; omega), List.getElem?_range (by omega)]
        · rw [List.getElem?_take, if_pos (by omega)] at hxk
          exact hxk
    · intro h
      have h4 := List.length_pos_of_ne_nil hne
      have := congrArg List.length h
      simp at this
      have h5 := hl
      rcases this with h | h
      · exact hne h
      · rw [h] at h5; simp at h5; exact hne h5
    · rw [hcell]
      refine ⟨by simp; omega, ?_, ?_, ?_, ?_, ?_⟩
      · intro i hi hi'
        simp at hi'
        have h1 := hDm i (by omega) (by omega) hi
        obtain ⟨_, _, h3⟩ := hD i (by omega)
        have h4 := F.lens i (by omega) (by omega)
        have h5 : (fm (c :: cs) (ss.map List.length))[i]'(by omega) = List.range (ss[i].length - c[i]) ++ ((fm cs c)[i]).map (· + Fm) := by
          rw [List.getElem?_eq_getElem (by omega)] at h3
          injection h3
        rw [h5] at h4
        simp at h4 ⊢
        have := hci i (by omega) (by omega)
        omega
      · intro d hd
        obtain ⟨i, hi, rfl⟩ := List.getElem_of_mem hd
        have := F.nodup _ (hDm i (by omega) (by omega) hi)
        rw [List.nodup_append] at this
        exact List.Nodup.of_map _ this.2.1
      · intro d hd k hk
        obtain ⟨i, hi, rfl⟩ := List.getElem_of_mem hd
        have := F.lt _ (hDm i (by omega) (by omega) hi) (k + Fm) (by simp; right; exact hk)
        simp
        omega
      · intro hs
        have h0 : Fm < s.length := by
          have := List.length_pos_of_ne_nil hs
          simp at this
          omega
        obtain ⟨d, hd, hk⟩ := F.last (fun h => by simp [h] at h0)
        obtain ⟨i, hi, rfl⟩ := List.getElem_of_mem hd
        obtain ⟨h1, h2, h3⟩ := hD i (by omega)
        rw [List.getElem?_eq_getElem (by omega)] at h3
        injection h3 with h3
        rw [h3] at hk
        have := hlive_le i (by omega) h1
        simp at hk
        rcases hk with hk | ⟨y, hy, hk⟩
        · omega
        · refine ⟨_, List.getElem_mem h2, ?_⟩
          have : s.length - Fm - 1 = y := by omega
          simp
          rw [this]
          exact hy
      · intro k n
        rw [List.getElem?_drop, F.fin]
        constructor
        · rintro ⟨i, l, d, x, hd, hx, hdl, hxl⟩
          have hi : i < c.length := by rw [← hDl]; exact (List.getElem?_eq_some_iff.mp hd).1
          obtain ⟨h1, h2, h3⟩ := hD i hi
          rw [h3] at hd
          injection hd with hd
          subst hd
          rw [List.getElem?_eq_getElem h1] at hx
          injection hx with hx
          subst hx
          have := hlive_le i hi h1
          rw [List.getElem?_append] at hdl
          split at hdl
          · rename_i hll'
            simp at hll'
            rw [List.getElem?_range (by omega)] at hdl
            injection hdl with hdl
            omega
          · rename_i hll'
            simp at hll'
            rw [List.getElem?_map, Option.map_eq_some_iff] at hdl
            obtain ⟨y, hy, h⟩ := hdl
            have hyk : y = k := by omega
            subst hyk
            simp only [List.length_range] at hy
            refine ⟨i, l - (ss[i].length - c[i]), (fm cs c)[i], ss[i].drop (ss[i].length - c[i]), by simp [h2], ?_, hy, ?_⟩
            · rw [List.getElem?_eq_getElem (by simp; omega)]
              simp
            · rw [List.getElem?_drop, ← hxl]
              congr 1
              omega
        · rintro ⟨i, l, d, x, hd, hx, hdl, hxl⟩
          have hi : i < c.length := by
            have := (List.getElem?_eq_some_iff.mp hd).1
            omega
          obtain ⟨h1, h2, h3⟩ := hD i hi
          rw [List.getElem?_eq_getElem h2] at hd
          injection hd with hd
          subst hd
          rw [List.getElem?_eq_getElem (by simp; omega)] at hx
          injection hx with hx
          subst hx
          refine ⟨i, ss[i].length - c[i] + l, _, ss[i], h3, by simp [h1], ?_, ?_⟩
          · rw [List.getElem?_append_right (by simp), List.length_range, Nat.add_sub_cancel_left, List.getElem?_map, hdl]
            simp [Nat.add_comm]
          · simp at hxl
            exact hxl

theorem fm_axes (cs : List (List Nat)) (rs : List Nat) (h : Fit cs rs) :
    ∀ (i : Nat) (h1 : i < (fm cs rs).length) (h2 : i < rs.length), (fm cs rs)[i].length = rs[i] ∧ (fm cs rs)[i].Nodup := by
  induction cs generalizing rs with
  | nil => intro i h1 h2; simp [fm, List.nodup_range]
  | cons c cs ih =>
    intro i h1 h2
    have hl := h.1.length_eq
    have hlf := length_fm cs c h.2
    obtain ⟨i1, i2⟩ := ih c h.2 i (by omega) (by omega)
    have hc : c[i] ≤ rs[i] := by simpa using h.1.get h2 (by omega)
    have hm : rs[i] - c[i] ≤ (List.zipWith (· - ·) rs c).foldl max 0 := by
      have := le_foldl_max (l := List.zipWith (· - ·) rs c) (i := i) 0 (by simp; omega)
      simpa using this
    simp only [fm, List.getElem_zipWith]
    constructor
    · simp [i1]; omega
    · rw [List.nodup_append]
      refine ⟨List.nodup_range, i2.map (fun a b h => by simpa using h), ?_⟩
      intro a ha b hb
      simp at ha hb
      obtain ⟨y, _, rfl⟩ := hb
      omega

section
variable {m : Type → Type} [Monad m] [LawfulMonad m] [MonadFault m] {α β : Type}

theorem framematch_args (cranks : List (List Nat)) (t : List (Iter m α)) (ss : List (List Length)) (hss : HasShapes t ss) (hfit : Fit cranks (ss.map List.length)) :
    framematch cranks (t.map fun a => (a.rank.toNat, [])) 0 = some (fm cranks (ss.map List.length)) := by
  rw [hasShapes_iff] at hss
  have hr := Forall2_rank hss
  have hl := hss.length_eq
  have hfm := framematch_eq cranks (t.map fun a => (a.rank.toNat, [])) 0 (by simp) (by simpa [Function.comp_def, hr] using hfit)
  simp only [List.map_map, Function.comp_def, List.length_nil, Nat.sub_zero, hr] at hfm
  rw [hfm]
  congr 1
  have := length_fm _ _ hfit
  apply List.ext_getElem
  · simp at this; simp [this, hl]
  · intro i h1 h2; simp

/-- C89. `agree_op(op, a, b, ...)` is true exactly when the shapes of the arguments match for the conjunction, frame by frame and then for the cells, and all the lengths of the result are finite. If a
cell rank is larger than the rank of its argument, or their number isn't the same, then it doesn't compile. -/
theorem C89_agree_op (cranks : List (List Nat)) (t : List (Iter m α)) (ss : List (List Length)) (hss : HasShapes t ss) (hne : t ≠ []) :
    (Fit cranks (ss.map List.length) →
      ∃ b, agreeOp cranks t = some b ∧ (b = true ↔ ∃ s : List Nat, VerbShape cranks ss (s.map some))) ∧
    (¬ Fit cranks (ss.map List.length) → agreeOp cranks t = none) := by
  have hss' := hasShapes_iff.1 hss
  have hr := Forall2_rank hss'
  have hl := hss'.length_eq
  have hsn : ss ≠ [] := by
    rintro rfl
    simp at hl
    exact hne hl
  constructor
  · intro hfit
    cases cranks with
    | nil =>
      refine ⟨agree t, rfl, ?_⟩
      rw [C03_agree t ss hss hne]
      rfl
    | cons c cs =>
      have hfm := framematch_args (c :: cs) t ss hss hfit
      set D := fm (c :: cs) (ss.map List.length) with hD
      have hDl : D.length = ss.length := by rw [hD, length_fm _ _ hfit, List.length_map]
      have hax : ∀ (i : Nat) (h1 : i < D.length) (h2 : i < ss.length), D[i].length = ss[i].length ∧ D[i].Nodup := by
        intro i h1 h2
        have := fm_axes _ _ hfit i h1 (by simpa using h2)
        simpa using this
      have hzn : List.zipWith reframe D t ≠ [] := by
        intro h
        have h1 := congrArg List.length h
        have h2 := List.length_pos_of_ne_nil hne
        rw [List.length_zipWith, hDl, List.length_nil] at h1
        omega
      refine ⟨agree (List.zipWith reframe D t), by simp [agreeOp, agreeVerb, hfm], ?_⟩
      constructor
      · intro ha
        have hex : ∀ i : Fin ss.length, ∃ s', HasShape (reframe (D[i]'(by omega)) (t[i]'(by omega))) s' ∧ Reframed (D[i]'(by omega)) ss[i] s' := by
          intro i
          obtain ⟨h1, h2⟩ := hax i (by omega) i.2
          exact hasShape_reframe _ _ ss[i] (hss'.get (by omega) i.2) h1 h2
        choose g hg1 hg2 using hex
        have hgs : HasShapes (List.zipWith reframe D t) (List.ofFn g) := by
          rw [hasShapes_iff, List.forall₂_iff_get]
          refine ⟨by simp [hDl, hl], ?_⟩
          intro i h1 h2
          simp at h2
          simpa using hg1 ⟨i, h2⟩
        obtain ⟨s, hm1, ⟨x, hx, hxl⟩, hm3⟩ := (C03_agree _ _ hgs hzn).1 ha
        refine ⟨s, fmSpec_inv _ _ _ hsn hfit ⟨hDl, fun i h1 h2 => (hax i h1 h2).1, ?_, ?_, ?_, ?_⟩⟩
        · intro d hd
          obtain ⟨i, hi, rfl⟩ := List.getElem_of_mem hd
          have hi' : i < D.length := hi
          exact (hax i hi (by omega)).2
        · intro d hd k hk
          obtain ⟨i, hi, rfl⟩ := List.getElem_of_mem hd
          have hi' : i < D.length := hi
          have h1 := (hg2 ⟨i, by omega⟩).2.1 k hk
          have h2 := hm1 (g ⟨i, by omega⟩) (by simp)
          omega
        · intro hs
          rw [List.mem_ofFn] at hx
          obtain ⟨i, rfl⟩ := hx
          refine ⟨_, List.getElem_mem (l := D) (n := i) (by omega), ?_⟩
          have := (hg2 i).2.2.1 (fun h => by rw [h] at hxl; exact hs (List.eq_nil_of_length_eq_zero hxl.symm))
          rw [hxl] at this
          exact this
        · intro k n
          rw [hm3]
          constructor
          · rintro ⟨x, hx, hxk⟩
            rw [List.mem_ofFn] at hx
            obtain ⟨i, rfl⟩ := hx
            have hi : (i : Nat) < D.length := by omega
            have hkl := (List.getElem?_eq_some_iff.mp hxk).1
            have hkm : k ∈ D[i] := by
              by_contra hc
              have := (hg2 i).2.2.2.2 k hkl hc
              rw [this] at hxk; simp at hxk
            obtain ⟨l, hl', hlk⟩ := List.getElem_of_mem hkm
            have h1 : D[i][l]? = some k := by rw [List.getElem?_eq_getElem hl', hlk]
            refine ⟨i, l, D[i], ss[i], List.getElem?_eq_getElem hi, by simp, h1, ?_⟩
            rw [← (hg2 i).2.2.2.1 l k h1, hxk]
          · rintro ⟨i, l, d, x, hd, hx, hdl, hxl⟩
            obtain ⟨hi, rfl⟩ := List.getElem?_eq_some_iff.mp hd
            obtain ⟨hi', rfl⟩ := List.getElem?_eq_some_iff.mp hx
            refine ⟨g ⟨i, hi'⟩, by simp, ?_⟩
            rw [(hg2 ⟨i, hi'⟩).2.2.2.1 l k hdl]
            exact hxl
      · rintro ⟨s, hs⟩
        obtain ⟨e, he, hsh, _⟩ := C17_conjunction (m := m) (fun _ => fault .abort) (c :: cs) t ss hss (s.map some) hs
        have he' : e = .node (mapOp fun _ => fault .abort) (List.zipWith reframe D t) := by
          simp only [mapVerb, hfm] at he
          injection he with he
          exact he.symm
        subst he'
        obtain ⟨gs, hgs, hm⟩ := hsh
        exact (C03_agree _ gs hgs hzn).2 ⟨s, hm⟩
  · intro hfit
    cases cranks with
    | nil => exact absurd trivial hfit
    | cons c cs =>
      have := C17_reject (m := m) (fun _ => fault .abort) (c :: cs) t (by rw [hr]; exact hfit)
      simp only [mapVerb] at this
      cases hfm : framematch (c :: cs) (t.map fun a => (a.rank.toNat, [])) 0 with
      | none => simp [agreeOp, agreeVerb, hfm]
      | some D => rw [hfm] at this; exact absurd this (by simp)

/-- C89. If `agree_op` is true, then `map(op, a, b, ...)` has a finite shape, that of the conjunction. If it's false, then any traversal of it fails the check, before any element is evaluated. -/
theorem C89_map (f : List α → m α) (cranks : List (List Nat)) (t : List (Iter m α)) (ss : List (List Length)) (hss : HasShapes t ss) (hne : t ≠ []) (b : Bool)
    (h : agreeOp cranks t = some b) :
    ∃ e, mapVerb f cranks t = some e ∧
      if b then ∃ s : List Nat, HasShape e (s.map some) ∧ VerbShape cranks ss (s.map some)
      else ∀ (stop : α → Option β) (z : List Int), plyRavel stop z e = fault .check ∧ plyFixed stop e = fault .check ∧ ∀ g : α → m β, stlFor g e = fault .check := by
  obtain ⟨h1, h2⟩ := C89_agree_op cranks t ss hss hne
  by_cases hfit : Fit cranks (ss.map List.length)
  · obtain ⟨b', hb', hbs⟩ := h1 hfit
    rw [h] at hb'
    injection hb' with hb'
    subst hb'
    have hfm := framematch_args cranks t ss hss hfit
    refine ⟨_, by simp only [mapVerb, hfm]; rfl, ?_⟩
    cases b with
    | true =>
      obtain ⟨s, hs⟩ := hbs.1 rfl
      obtain ⟨e, he, hsh, _⟩ := C17_conjunction f cranks t ss hss (s.map some) hs
      simp only [mapVerb, hfm] at he
      injection he with he
      rw [if_pos rfl]
      exact ⟨s, by rw [← he] at hsh; exact hsh, hs⟩
    | false =>
      rw [if_neg (by simp)]
      intro stop z
      have hag : matchCheck (List.zipWith reframe (fm cranks (ss.map List.length)) t) = false := by
        cases cranks with
        | nil =>
          have ht : List.zipWith reframe (fm [] (ss.map List.length)) t = t := by
            have hss' := hasShapes_iff.1 hss
            have hl := hss'.length_eq
            apply List.ext_getElem
            · simp [fm, hl]
            · intro i _ _
              simp [fm, reframe]
          rw [ht]
          simpa [agreeOp, agree] using h
        | cons c cs => simpa [agreeOp, agreeVerb, hfm, agree] using h
      refine ⟨?_, ?_, ?_⟩
      · simp [plyRavel, Iter.validate, hag]
      · simp [plyFixed, Iter.validate, hag]
      · intro g
        simp [stlFor, Stl.begin, Iter.validate, hag]
  · rw [h2 hfit] at h
    exact absurd h (by simp)

/-- The example in the manual: a vector of 3 and an array of 2 rows of 3. -/
example : agree ([.cell [⟨3, 1⟩] 0 .ok, .cell [⟨2, 3⟩, ⟨3, 1⟩] 0 .ok] : List (Iter (Except Fault) Int)) = false ∧
    agreeOp [[1, 1]] ([.cell [⟨3, 1⟩] 0 .ok, .cell [⟨2, 3⟩, ⟨3, 1⟩] 0 .ok] : List (Iter (Except Fault) Int)) = some true ∧
    agreeOp [[2, 1]] ([.cell [⟨3, 1⟩] 0 .ok, .cell [⟨2, 3⟩, ⟨3, 1⟩] 0 .ok] : List (Iter (Except Fault) Int)) = none := by
  decide +kernel

example : HasShapes ([.cell [⟨3, 1⟩] 0 .ok, .cell [⟨2, 3⟩, ⟨3, 1⟩] 0 .ok] : List (Iter (Except Fault) Int)) [[some 3], [some 2, some 3]] ∧
    Fit [[1, 1]] [1, 2] ∧ VerbShape [[1, 1]] [[some 3], [some 2, some 3]] ([2, 3].map some) := by
  refine ⟨⟨_, _, rfl, .cons rfl .nil, _, _, rfl, .cons rfl (.cons rfl .nil), rfl⟩, ⟨.cons (by decide) (.cons (by decide) .nil), trivial⟩, ?_⟩
  refine ⟨.cons (by decide) (.cons (by decide) .nil), [some 2], [some 3], rfl, ⟨by simp, ⟨[some 2], by simp, rfl⟩, ?_⟩, ⟨by simp, ⟨[some 3], by simp, rfl⟩, ?_⟩⟩ <;>
  · intro k n
    match k with
    | 0 => simp
    | k+1 => simp

end
end Ra.Props
