import Verif.Props.Slice
import Verif.Lemmas.Frame
/-!
# Rank conjunction, outer product, array subscripts: C15-C17
-/

namespace Ra.Props
open Spec (Length DimLen Shaped InRange address dot HasShape HasShapes Merge Reframed elem elems VerbShape verb pieces Subscript axes sliceShape sliceIndex Accepts
  ArrSub ArrSub.kept ArrSub.takes outerShape outerIndex positions Fit)

section
variable {m : Type → Type} {α : Type}

theorem exists_reframed (dest : List Nat) (s0 : List Length) (hl : dest.length = s0.length) (hd : dest.Nodup) :
    ∃ s, Reframed dest s0 s := by
  have hF : ∀ k ∈ dest, k < dest.foldr (fun d a => max (d + 1) a) 0 := by
    clear hl hd
    induction dest with
    | nil => simp
    | cons x t ih =>
      intro k hk
      simp only [List.foldr_cons]
      rcases List.mem_cons.mp hk with h | h
      · omega
      · have := ih k h; omega
  have hlast : dest.foldr (fun d a => max (d + 1) a) 0 ≠ 0 → dest.foldr (fun d a => max (d + 1) a) 0 - 1 ∈ dest := by
    clear hl hd hF
    induction dest with
    | nil => simp
    | cons x t ih =>
      intro h
      simp only [List.foldr_cons] at h ⊢
      by_cases h' : t.foldr (fun d a => max (d + 1) a) 0 ≤ x + 1
      · rw [Nat.max_eq_left h']; simp
      · rw [Nat.max_eq_right (by omega)]
        exact List.mem_cons_of_mem _ (ih (by omega))
  generalize dest.foldr (fun d a => max (d + 1) a) 0 = R at hF hlast
  refine ⟨(List.range R).map fun k => if k ∈ dest then s0.getD (dest.idxOf k) none else none, hl, ?_, ?_, ?_, ?_⟩
  · simpa using hF
  · intro h; simp at h; simpa using hlast h
  · intro l k hk
    have hkm := List.mem_of_getElem? hk
    obtain ⟨hl', hk'⟩ := List.getElem?_eq_some_iff.mp hk
    have hi : dest.idxOf k = l := by
      rw [← hk']
      exact hd.idxOf_getElem l hl'
    have hs0 : l < s0.length := by omega
    simp [hF k hkm, hkm, hi, hs0]
  · intro k hk hnk
    simp at hk
    simp [hk, hnk]

theorem reframed_range {n : Nat} {s0 s : List Length} (h : Reframed (List.range n) s0 s) : s = s0 := by
  obtain ⟨h1, h2, h3, h4, _⟩ := h
  simp at h1 h2 h3
  have hl : s.length = s0.length := by
    rcases Nat.eq_zero_or_pos s.length with h0 | h0
    · rcases Nat.eq_zero_or_pos n with hn | hn
      · omega
      · have := h2 0 hn; omega
    · have := h3 (fun h => by simp [h] at h0)
      rcases Nat.eq_zero_or_pos n with hn | hn
      · omega
      · have := h2 (n - 1) (by omega); omega
  apply List.ext_getElem? 
  intro k
  by_cases hk : k < n
  · exact h4 k k (by simp [hk])
  · rw [List.getElem?_eq_none (by omega), List.getElem?_eq_none (by omega)]

theorem hasShape_reframe (dest : List Nat) (a : Iter m α) (s0 : List Length) (h : HasShape a s0) (hl : dest.length = s0.length) (hd : dest.Nodup) :
    ∃ s, HasShape (reframe dest a) s ∧ Reframed dest s0 s := by
  obtain ⟨s, hs⟩ := exists_reframed dest s0 hl hd
  refine ⟨s, ?_, hs⟩
  unfold reframe
  split
  · rename_i h'
    rw [h'] at hs
    rw [reframed_range hs]; exact h
  · exact ⟨hd, s0, h, hs⟩

theorem take_eq_map_range (j : List Int) (n : Nat) (h : n ≤ j.length) : (List.range n).map (fun d => j.getD d 0) = j.take n := by
  apply List.ext_getElem
  · simp; omega
  · intro i h1 h2
    simp at h1 h2
    simp [List.getD_eq_getElem?_getD, h2]

theorem elem_reframe [Monad m] [LawfulMonad m] (dest : List Nat) (a : Iter m α) (s0 : List Length) (h : HasShape a s0) (hl : dest.length = s0.length)
    (j : List Int) (hj : ∀ d ∈ dest, d < j.length) : elem (reframe dest a) j = elem a (dest.map fun d => j.getD d 0) := by
  unfold reframe
  split
  · rename_i h'
    rw [h', take_eq_map_range, hl, elem_take a s0 h]
    by_contra hc
    have := hj (dest.length - 1) (by rw [h']; simp; omega)
    omega
  · rfl

/-- C18 for `reframe(dest, a)`, which is `a` when `dest` is 0, 1, ...: axis `k` of `a` goes to axis `dest[k]`, the other axes are unbounded, and the element at `j` is that of `a` at the entries of `j`
that are in `dest`. -/
theorem C18_function [Monad m] [LawfulMonad m] (dest : List Nat) (a : Iter m α) (s0 : List Length) (h : HasShape a s0) (hl : dest.length = s0.length) (hd : dest.Nodup) :
    ∃ s, HasShape (reframe dest a) s ∧ Reframed dest s0 s ∧
      ∀ j : List Int, (∀ d ∈ dest, d < j.length) → elem (reframe dest a) j = elem a (dest.map fun d => j.getD d 0) := by
  obtain ⟨s, h1, h2⟩ := hasShape_reframe dest a s0 h hl hd
  exact ⟨s, h1, h2, elem_reframe dest a s0 h hl⟩

/-- Transposition of a 2x3 view, with axes 1 and 0. -/
example : ∃ s, HasShape (reframe [1, 0] (.cell [⟨2, 3⟩, ⟨3, 1⟩] 0 pure : Iter (Except Fault) Int)) s ∧ Reframed [1, 0] [some 2, some 3] s := by
  have h : HasShape (.cell [⟨2, 3⟩, ⟨3, 1⟩] 0 pure : Iter (Except Fault) Int) [some 2, some 3] := .cons rfl (.cons rfl .nil)
  obtain ⟨s, h1, h2, _⟩ := C18_function [1, 0] _ _ h rfl (by simp)
  exact ⟨s, h1, h2⟩


theorem hasShapes_iff {t : List (Iter m α)} {ss : List (List Length)} : HasShapes t ss ↔ List.Forall₂ HasShape t ss := by
  induction t generalizing ss with
  | nil => simp [HasShapes]
  | cons a t ih =>
    constructor
    · rintro ⟨s, ss', rfl, h1, h2⟩
      exact .cons h1 (ih.mp h2)
    · intro h
      cases h with
      | cons h1 h2 => exact ⟨_, _, rfl, h1, ih.mpr h2⟩

theorem elems_eq_map (t : List (Iter m α)) (j : List Int) : elems t j = t.map fun a => elem a j := by
  induction t with
  | nil => rfl
  | cons a t ih => simp [elems, ih]

/-- The arguments of the operation as the code finds them. -/
theorem verb_eq (op : List (m α) → m α) (cs : List (List Nat)) (args : List (Nat × (List Int → m α))) (j : List Int)
    (hf : Fit cs (args.map Prod.fst)) (hj : ∀ d ∈ fm cs (args.map Prod.fst), ∀ k ∈ d, k < j.length) :
    verb op cs args j = op (List.zipWith (fun a d => a.2 (d.map fun k => j.getD k 0)) args (fm cs (args.map Prod.fst))) := by
  induction cs generalizing args j with
  | nil =>
    simp only [verb, fm]
    congr 1
    apply List.ext_getElem
    · simp
    · intro i h1 h2
      simp only [List.getElem_map, List.getElem_zipWith]
      rw [take_eq_map_range]
      simp only [List.length_map] at h1
      have := hj (List.range args[i].1) (by simp only [fm, List.mem_map]; exact ⟨_, ⟨_, List.getElem_mem h1, rfl⟩, rfl⟩)
      by_contra hc
      have := this (args[i].1 - 1) (by simp; omega)
      omega
  | cons c cs ih =>
    obtain ⟨hf1, hf2⟩ := hf
    have hl : args.length = c.length := by simpa using hf1.length_eq
    have hlf := length_fm cs c hf2
    simp only [verb]
    set live := List.zipWith (· - ·) (args.map Prod.fst) c with hlive
    have hlv : List.zipWith (fun (a : Nat × (List Int → m α)) c => a.1 - c) args c = live := by simp [live, List.zipWith_map_left]
    rw [hlv]
    have hD : ∀ i (h1 : i < args.length) (h2 : i < c.length) (h3 : i < (fm cs c).length), ∃ h,
        (fm (c :: cs) (args.map Prod.fst))[i]'h = List.range (args[i].1 - c[i]) ++ ((fm cs c)[i]).map (· + live.foldl max 0) := by
      intro i h1 h2 h3
      refine ⟨by simp [fm, hlf, hl, h2], ?_⟩
      simp [fm, ← hlive, live]
    have hc : (List.zipWith (fun (a : Nat × (List Int → m α)) c => (c, fun x => a.2 (j.take (a.1 - c) ++ x))) args c).map Prod.fst = c := by
      apply List.ext_getElem
      · simp [hl]
      · intro i h1 h2; simp
    rw [ih _ _ (by rw [hc]; exact hf2), hc]
    · congr 1
      apply List.ext_getElem
      · simp [fm, hlf, hl]
      · intro i h1 h2
        simp at h1
        obtain ⟨h, hD⟩ := hD i (by omega) (by omega) (by omega)
        simp only [List.getElem_zipWith]
        congr 1
        rw [hD, List.map_append, take_eq_map_range, List.map_map]
        · have : ∀ l : List Nat, l.map (fun k => (j.drop (live.foldl max 0)).getD k 0) = l.map ((fun k => j.getD k 0) ∘ fun x => x + live.foldl max 0) := by
            intro l
            apply List.map_congr_left
            intro x _
            simp [List.getD_eq_getElem?_getD, Nat.add_comm]
          rw [this]
        · by_contra hcc
          have := hj _ (List.getElem_mem h) (args[i].1 - c[i] - 1) (by rw [hD]; simp; left; omega)
          omega
    · intro d hd k hk
      rw [hc] at hd
      obtain ⟨i, hi, rfl⟩ := List.getElem_of_mem hd
      obtain ⟨h, hD⟩ := hD i (by omega) (by omega) (by omega)
      have := hj _ (List.getElem_mem h) (k + live.foldl max 0) (by rw [hD]; simp; right; exact hk)
      simp; omega

theorem Forall2_rank {t : List (Iter m α)} {ss : List (List Length)} (h : List.Forall₂ HasShape t ss) :
    t.map (fun a => a.rank.toNat) = ss.map List.length := by
  induction h with
  | nil => rfl
  | cons h _ ih =>
    simp only [List.map_cons, ih]
    rw [h.fits.1]; simp

/-! ## C17 -/

/-- C17. `map(wrank<...>(... op), args ...)`: if the cell ranks and the shapes are good for the conjunction then the expression exists, it has the
shape of the conjunction, and its element at `j` is that of the conjunction. -/
theorem C17_conjunction [Monad m] [LawfulMonad m] (f : List α → m α) (cranks : List (List Nat)) (t : List (Iter m α)) (ss : List (List Length))
    (hss : HasShapes t ss) (s : List Length) (hs : VerbShape cranks ss s) :
    ∃ e, mapVerb f cranks t = some e ∧ HasShape e s ∧
      ∀ j, s.length ≤ j.length →
        elem e j = verb (mapOp f) cranks (List.zipWith (fun a x => (x.length, elem a)) t ss) j := by
  rw [hasShapes_iff] at hss
  have hr := Forall2_rank hss
  have hl := hss.length_eq
  have hfit := hs.fit
  have F := fmSpec cranks ss s hs
  have hfm := framematch_eq cranks (t.map fun a => (a.rank.toNat, [])) 0 (by simp) (by simpa [Function.comp_def, hr] using hfit)
  simp only [List.map_map, Function.comp_def, List.length_nil, Nat.sub_zero, hr] at hfm
  set D := fm cranks (ss.map List.length) with hD
  have hz : List.zipWith (fun (a : Nat × List Nat) (d : List Nat) => a.2 ++ d.map (· + 0)) (t.map fun a => (a.rank.toNat, [])) D = D := by
    apply List.ext_getElem
    · simp [F.len, hl]
    · intro i h1 h2; simp
  rw [hz] at hfm
  refine ⟨.node (mapOp f) (List.zipWith reframe D t), by simp [mapVerb, hfm], ?_, ?_⟩
  · have hex : ∀ i : Fin ss.length, ∃ s', HasShape (reframe (D[i]'(by have := F.len; omega)) (t[i]'(by omega))) s' ∧
        Reframed (D[i]'(by have := F.len; omega)) ss[i] s' := by
      intro i
      have h1 : i < D.length := by have := F.len; omega
      exact hasShape_reframe _ _ ss[i] (hss.get (by omega) i.2) (F.lens i h1 i.2) (F.nodup _ (List.getElem_mem h1))
    choose g hg1 hg2 using hex
    refine ⟨List.ofFn g, ?_, ?_⟩
    · rw [hasShapes_iff, List.forall₂_iff_get]
      refine ⟨by simp [F.len, hl], ?_⟩
      intro i h1 h2
      simp at h2
      simpa using hg1 ⟨i, h2⟩
    · have hlt : ∀ i : Fin ss.length, (g i).length ≤ s.length := by
        intro i
        by_contra hc
        have h1 : i < D.length := by have := F.len; omega
        have := (hg2 i).2.2.1 (fun h => by simp [h] at hc)
        have := F.lt _ (List.getElem_mem h1) _ this
        omega
      refine ⟨?_, ?_, ?_⟩
      · intro x hx
        rw [List.mem_ofFn] at hx
        obtain ⟨i, rfl⟩ := hx
        exact hlt i
      · by_cases hs0 : s = []
        · have hne : ss ≠ [] := by
            clear hss hr hl hfit F hfm hz hg1 hg2 hlt g hD D
            cases cranks with
            | nil => obtain ⟨_, ⟨x, hx, _⟩, _⟩ := hs; exact List.ne_nil_of_mem hx
            | cons c cs =>
              obtain ⟨_, sf, sr, _, ⟨_, ⟨x, hx, _⟩, _⟩, _⟩ := hs
              rintro rfl
              simp at hx
          have hp := List.length_pos_of_ne_nil hne
          refine ⟨g ⟨0, hp⟩, by simp, ?_⟩
          have := hlt ⟨0, hp⟩
          subst hs0
          simp at this ⊢
          exact this
        · obtain ⟨d, hd, hk⟩ := F.last hs0
          obtain ⟨i, hi, rfl⟩ := List.getElem_of_mem hd
          have hi' : i < ss.length := by have := F.len; omega
          refine ⟨g ⟨i, hi'⟩, by simp, ?_⟩
          have := (hg2 ⟨i, hi'⟩).2.1 _ hk
          have := hlt ⟨i, hi'⟩
          have := List.length_pos_of_ne_nil hs0
          omega
      · intro k n
        rw [F.fin]
        constructor
        · rintro ⟨i, l, d, x, hd, hx, hdl, hxl⟩
          obtain ⟨hi, rfl⟩ := List.getElem?_eq_some_iff.mp hd
          obtain ⟨hi', rfl⟩ := List.getElem?_eq_some_iff.mp hx
          refine ⟨g ⟨i, hi'⟩, by simp, ?_⟩
          rw [(hg2 ⟨i, hi'⟩).2.2.2.1 l k hdl]
          exact hxl
        · rintro ⟨x, hx, hxk⟩
          rw [List.mem_ofFn] at hx
          obtain ⟨i, rfl⟩ := hx
          have hi : (i : Nat) < D.length := by have := F.len; omega
          have hkl := (List.getElem?_eq_some_iff.mp hxk).1
          have hkm : k ∈ D[i] := by
            by_contra hc
            have := (hg2 i).2.2.2.2 k hkl hc
            rw [this] at hxk; simp at hxk
          obtain ⟨l, hl', hlk⟩ := List.getElem_of_mem hkm
          have h1 : D[i][l]? = some k := by rw [List.getElem?_eq_getElem hl', hlk]
          refine ⟨i, l, D[i], ss[i], by simp [hi], by simp, h1, ?_⟩
          rw [← (hg2 i).2.2.2.1 l k h1, hxk]
  · intro j hj
    have hfst : (List.zipWith (fun (a : Iter m α) (x : List Length) => (x.length, elem a)) t ss).map Prod.fst = ss.map List.length := by
      apply List.ext_getElem
      · simp [hl]
      · intro i h1 h2; simp
    have hlt : ∀ d ∈ D, ∀ k ∈ d, k < j.length := fun d hd k hk => lt_of_lt_of_le (F.lt d hd k hk) hj
    rw [verb_eq _ _ _ _ (by rw [hfst]; exact hfit) (by rw [hfst]; exact hlt), hfst, ← hD]
    simp only [elem, elems_eq_map]
    congr 1
    apply List.ext_getElem
    · simp [F.len, hl]
    · intro i h1 h2
      simp at h1
      simp only [List.getElem_map, List.getElem_zipWith]
      have h3 : i < ss.length := by omega
      exact elem_reframe _ _ ss[i] (hss.get (by omega) h3) (F.lens i (by omega) h3) j (hlt _ (List.getElem_mem (by omega)))

/-- C17. A cell rank larger than the rank of its argument (or than what an outer conjunction leaves) doesn't compile, and neither does a wrong number of
arguments. -/
theorem C17_reject [Monad m] [LawfulMonad m] (f : List α → m α) (cranks : List (List Nat)) (t : List (Iter m α)) (h : ¬ Fit cranks (t.map fun a => a.rank.toNat)) :
    mapVerb f cranks t = none := by
  suffices H : ∀ (cs : List (List Nat)) (args : List (Nat × List Nat)) (skip : Nat), (∀ a ∈ args, a.2.length ≤ a.1) →
      ¬ Fit cs (args.map fun a => a.1 - a.2.length) → framematch cs args skip = none by
    simp only [mapVerb]
    rw [H _ _ _ (by simp) (by simpa [Function.comp_def] using h)]
    rfl
  intro cs
  induction cs with
  | nil => intro args skip h1 h2; exact absurd trivial h2
  | cons c cs ih =>
    intro args skip h1 h2
    simp only [framematch]
    split
    · rename_i hc
      obtain ⟨hl, hc⟩ := hc
      rw [List.all_eq_true] at hc
      have hg : ∀ i (hi : i < args.length) (hi' : i < c.length), args[i].2.length + c[i] ≤ args[i].1 := by
        intro i hi hi'
        have := hc _ (List.getElem_mem (l := List.zipWith (fun a c => decide (a.2.length + c ≤ a.1)) args c) (n := i) (by simp; omega))
        simpa using this
      apply ih
      · intro a ha
        obtain ⟨i, hi, rfl⟩ := List.getElem_of_mem ha
        simp at hi
        simp only [List.getElem_zipWith, List.length_append, List.length_range']
        have := hg i (by omega) (by omega)
        omega
      · intro hf
        apply h2
        refine ⟨?_, ?_⟩
        · rw [List.forall₂_iff_get]
          refine ⟨by simp [hl], ?_⟩
          intro i h1' h2'
          simp at h1'
          have := hg i h1' h2'
          simp; omega
        · convert hf using 1
          apply List.ext_getElem
          · simp [hl]
          · intro i h1' h2'
            simp at h2'
            have := hg i (by omega) (by omega)
            simp; omega
    · rfl

/-! ## C16 -/

theorem merge_replicate (d : Nat) (x : List Length) (e : Nat) : Merge (List.replicate d [] ++ x :: List.replicate e []) x := by
  refine ⟨?_, ⟨x, by simp, rfl⟩, ?_⟩
  · intro y hy
    simp only [List.mem_append, List.mem_replicate, List.mem_cons] at hy
    rcases hy with ⟨_, rfl⟩ | rfl | ⟨_, rfl⟩ <;> simp
  · intro k n
    constructor
    · intro h; exact ⟨x, by simp, h⟩
    · rintro ⟨y, hy, h⟩
      simp only [List.mem_append, List.mem_replicate, List.mem_cons] at hy
      rcases hy with ⟨_, rfl⟩ | rfl | ⟨_, rfl⟩
      · simp at h
      · exact h
      · simp at h

theorem zipWith_append_replicate {β γ δ : Type} (f : β → γ → δ) (n : Nat) (b : β) (l : List β) (c : γ) (l' : List γ) :
    List.zipWith f (List.replicate n b ++ l) (List.replicate n c ++ l') = List.replicate n (f b c) ++ List.zipWith f l l' := by
  rw [List.zipWith_append (by simp), List.zipWith_replicate, Nat.min_self]

theorem verbShape_outer (pre ss : List (List Length)) (h : ss ≠ []) :
    VerbShape (fromuLoop ((pre ++ ss).map List.length) (pre.length + 1)) (List.replicate pre.length [] ++ ss) ss.flatten := by
  induction ss generalizing pre with
  | nil => exact absurd rfl h
  | cons x ss ih =>
    cases ss with
    | nil =>
      unfold fromuLoop
      simp only [List.map_append, List.length_append, List.length_map, List.length_singleton, lt_irrefl, if_false]
      simpa [VerbShape] using merge_replicate pre.length x 0
    | cons y ss =>
      have I := ih (pre ++ [x]) (by simp)
      unfold fromuLoop
      rw [if_pos (by simp)]
      have e1 : List.replicate (pre.length + 1) 0 ++ ((pre ++ x :: y :: ss).map List.length).drop (pre.length + 1)
          = List.replicate pre.length 0 ++ 0 :: (y :: ss).map List.length := by
        rw [← List.map_drop, List.drop_append]
        simp [List.replicate_succ']
      rw [e1]
      refine ⟨?_, x, (y :: ss).flatten, by simp, ?_, ?_⟩
      · rw [List.forall₂_iff_get]
        refine ⟨by simp, ?_⟩
        intro i h1 h2
        simp only [List.get_eq_getElem, List.getElem_append, List.getElem_replicate, List.length_replicate]
        split
        · simp
        · generalize_proofs p1 p2
          revert p1 p2
          rcases i - pre.length with _ | k
          · simp
          · intro p1 p2; simp only [List.getElem_cons_succ, List.getElem_map, le_refl]
      · rw [zipWith_append_replicate]
        simp only [List.length_nil, Nat.sub_zero, List.take_nil, List.zipWith_cons_cons, List.take_length]
        have : List.zipWith (fun (x : List Length) c => x.take (x.length - c)) (y :: ss) ((y :: ss).map List.length)
            = List.replicate (y :: ss).length [] := by
          apply List.ext_getElem
          · simp
          · intro i h1 h2; simp only [List.getElem_zipWith, List.getElem_map, List.getElem_replicate, Nat.sub_self, List.take_zero]
        rw [this]
        exact merge_replicate _ _ _
      · rw [zipWith_append_replicate]
        simp only [List.length_nil, Nat.sub_zero, List.drop_nil, List.zipWith_cons_cons, List.drop_length]
        have : List.zipWith (fun (x : List Length) c => x.drop (x.length - c)) (y :: ss) ((y :: ss).map List.length)
            = y :: ss := by
          apply List.ext_getElem
          · simp
          · intro i h1 h2; simp only [List.getElem_zipWith, List.getElem_map, Nat.sub_self, List.drop_zero]
        rw [this]
        have e2 : pre ++ [x] ++ y :: ss = pre ++ x :: y :: ss := by simp
        rw [e2] at I
        simpa [List.replicate_succ'] using I

theorem foldl_max_zeros (n : Nat) (a : Nat) : (List.replicate n 0).foldl max a = a := by
  induction n generalizing a with
  | zero => rfl
  | succ n ih => simp [List.replicate_succ, ih]

theorem verb_outer (op : List (m α) → m α) (I : List Nat) (P : List (List Int → m α)) (Q : List (Nat × (List Int → m α))) (hQ : Q ≠ []) (j : List Int)
    (hI : I.drop P.length = Q.map Prod.fst) :
    verb op (fromuLoop I (P.length + 1)) (P.map (fun p => (0, p)) ++ Q) j =
      op (P.map (fun p => p []) ++ List.zipWith (fun a x => a.2 x) Q (pieces (Q.map Prod.fst) j)) := by
  have hlen : I.length = P.length + Q.length := by
    have := congrArg List.length hI
    simp at this
    have := List.length_pos_of_ne_nil hQ
    omega
  induction Q generalizing P j with
  | nil => exact absurd rfl hQ
  | cons a Q ih =>
    cases Q with
    | nil =>
      unfold fromuLoop
      rw [if_neg (by simp [hlen])]
      simp [verb, pieces, Function.comp_def]
    | cons b Q =>
      unfold fromuLoop
      rw [if_pos (by simp [hlen])]
      have e1 : List.replicate (P.length + 1) 0 ++ I.drop (P.length + 1) = List.replicate P.length 0 ++ 0 :: (b :: Q).map Prod.fst := by
        rw [← List.drop_drop, hI]
        simp [List.replicate_succ']
      have hI' : I.drop (P ++ [fun x => a.2 (j.take a.1 ++ x)]).length = (b :: Q).map Prod.fst := by
        have := congrArg (List.drop 1) hI
        rw [List.drop_drop] at this
        simpa using this
      rw [e1]
      simp only [verb]
      have e2 : ∀ (β : Type) (g : (Nat × (List Int → m α)) → Nat → β),
          List.zipWith g (P.map (fun p => (0, p)) ++ a :: b :: Q) (List.replicate P.length 0 ++ 0 :: (b :: Q).map Prod.fst)
          = P.map (fun p => g (0, p) 0) ++ g a 0 :: (b :: Q).map fun q => g q q.1 := by
        intro β g
        rw [List.zipWith_append (by simp)]
        congr 1
        · apply List.ext_getElem
          · simp
          · intro i h1 h2; simp
        · rw [List.zipWith_cons_cons]
          congr 1
          apply List.ext_getElem
          · simp
          · intro i h1 h2; simp only [List.getElem_zipWith, List.getElem_map]
      rw [e2, e2]
      have e3 : ((P.map fun p => ((0 : Nat), p).1 - 0) ++ (a.1 - 0) :: (b :: Q).map fun q => q.1 - q.1).foldl max 0 = a.1 := by
        rw [List.foldl_append]
        have : (P.map fun p => ((0 : Nat), p).1 - 0) = List.replicate P.length 0 := by simp
        rw [this, foldl_max_zeros]
        have : ((b :: Q).map fun q => q.1 - q.1) = List.replicate (b :: Q).length 0 := by simp [List.replicate_succ]
        rw [List.foldl_cons, this, foldl_max_zeros]
        simp
      rw [e3]
      have := ih (P ++ [fun x => a.2 (j.take a.1 ++ x)]) (by simp) (j.drop a.1) hI' (by simp [hlen]; omega)
      simp only [List.length_append, List.length_singleton] at this
      have e4 : (P.map fun p => (0, fun x => p (j.take (0 - 0) ++ x))) ++ (0, fun x => a.2 (j.take (a.1 - 0) ++ x)) ::
          (b :: Q).map (fun q => (q.1, fun x => q.2 (j.take (q.1 - q.1) ++ x)))
          = (P ++ [fun x => a.2 (j.take a.1 ++ x)]).map (fun p => ((0 : Nat), p)) ++ b :: Q := by
        simp
      rw [e4, this]
      simp [pieces]

/-- C16. The outer product. `j` is cut in pieces, one for each argument. -/
theorem C16_outer [Monad m] [LawfulMonad m] (f : List α → m α) (t : List (Iter m α)) (ht : t ≠ []) (ss : List (List Length)) (hss : HasShapes t ss) :
    ∃ e, fromOp f t = some e ∧ HasShape e ss.flatten ∧
      ∀ j, ss.flatten.length ≤ j.length →
        elem e j = mapOp f (List.zipWith elem t (pieces (ss.map List.length) j)) := by
  have h2 := hasShapes_iff.mp hss
  have hl := h2.length_eq
  have hr := Forall2_rank h2
  have hne : ss ≠ [] := by
    rintro rfl
    simp at hl
    exact ht hl
  have hv := verbShape_outer [] ss hne
  simp only [List.nil_append, List.length_nil, List.replicate_zero, Nat.zero_add] at hv
  obtain ⟨e, h1, h3, h4⟩ := C17_conjunction f _ t ss hss _ hv
  refine ⟨e, ?_, h3, ?_⟩
  · simp only [fromOp, hr]; exact h1
  · intro j hj
    rw [h4 j hj]
    have hfst : (List.zipWith (fun (a : Iter m α) (x : List Length) => (x.length, elem a)) t ss).map Prod.fst = ss.map List.length := by
      apply List.ext_getElem
      · simp [hl]
      · intro i h1 h2; simp
    have := verb_outer (mapOp f) (ss.map List.length) [] (List.zipWith (fun (a : Iter m α) (x : List Length) => (x.length, elem a)) t ss)
      (by
        intro h
        have := congrArg List.length h
        simp [hl] at this
        exact hne this) j (by simp [hfst])
    simp only [List.map_nil, List.nil_append, List.length_nil, Nat.zero_add, hfst] at this
    rw [this]
    congr 1
    apply List.ext_getElem
    · simp [hl]
    · intro i h1 h2; simp

end

/-! ## C15 -/

section
variable {m : Type → Type} {α : Type}

/-- The subscript as it's written in the code. -/
def msub : ArrSub m α → Sub
  | .sub i => write i
  | .array _ _ => .array

/-- The array subscripts. -/
def arrs : List (ArrSub m α) → List (Iter m α)
  | [] => []
  | .array I _ :: is => I :: arrs is
  | .sub _ :: is => arrs is

/-- Axes in the beaten slice for the array subscripts. -/
def dsOf : Nat → List (ArrSub m α) → List Nat
  | _, [] => []
  | bk, .sub (.at _) :: is => dsOf bk is
  | bk, .sub (.range _ _ _) :: is => dsOf (bk + 1) is
  | bk, .sub (.keep k) :: is => dsOf (bk + k) is
  | bk, .sub (.new k) :: is => dsOf (bk + k) is
  | bk, .array _ _ :: is => bk :: dsOf (bk + 1) is

/-- The subscript with an array replaced by a kept axis, as it's written in the code. -/
def wkept : ArrSub m α → Sub
  | .sub i => write i
  | .array _ _ => .dots (some 1)

theorem wkept_eq (i : ArrSub m α) : write i.kept = wkept i := by cases i <;> rfl

theorem fromb_arrays (is : List (ArrSub m α)) (pl : Int) (bk : Nat) (dims : List Dim) :
    fromb pl bk dims (is.map msub) = (fromb pl bk dims (is.map wkept)).map fun r => (r.1, r.2.1, dsOf bk is) := by
  induction is generalizing pl bk dims with
  | nil => simp [fromb, Except.map, dsOf]
  | cons i is ih =>
    cases i with
    | array I s0 =>
      simp only [List.map_cons, msub, wkept]
      cases dims with
      | nil => simp [fromb, Except.map]
      | cons d dims =>
        simp only [fromb, ih]
        rw [if_neg (by simp)]
        simp only [List.drop_one, List.tail_cons, List.take_succ_cons, List.take_zero, bind, Except.bind, dsOf]
        cases fromb pl (bk + 1) dims (is.map wkept) <;> simp [Except.map, pure, Except.pure]
    | sub i =>
      cases i with
      | «at» x =>
        simp only [List.map_cons, msub, wkept, write]
        cases dims with
        | nil => simp [fromb, Except.map]
        | cons d dims =>
          simp only [fromb, ih, bind, Except.bind, dsOf]
          cases ((LenExpr.const x).wlen d.len).val
          · simp [Except.map]
          · simp only
            split <;> simp [Except.map]
      | range n o s =>
        simp only [List.map_cons, msub, wkept, write]
        cases dims with
        | nil => simp [fromb, Except.map]
        | cons d dims =>
          simp only [fromb, ih, bind, Except.bind, dsOf]
          cases hz : iotaDims d.len [(.const n, .const s)] with
          | error e => simp [Except.map]
          | ok iz =>
            have hl := length_iotaDims hz
            simp only [List.length_singleton] at hl
            simp only
            split
            · simp [Except.map]
            · cases ((LenExpr.const o).wlen d.len).val with
              | error e => simp [Except.map]
              | ok o =>
                simp only [hl]
                cases hz : iotaLoop d.len d.step o pl iz with
                | error e => simp [Except.map]
                | ok r =>
                  simp only
                  cases fromb r.1 (bk + 1) dims (is.map wkept) <;> simp [Except.map, pure, Except.pure]
      | keep k =>
        simp only [List.map_cons, msub, wkept, write, fromb, ih, bind, Except.bind, dsOf]
        split
        · simp [Except.map]
        · cases fromb pl (bk + k) (dims.drop k) (is.map wkept) <;> simp [Except.map, pure, Except.pure]
      | new k =>
        simp only [List.map_cons, msub, wkept, write, fromb, ih, bind, Except.bind, dsOf]
        cases fromb pl (bk + k) dims (is.map wkept) <;> simp [Except.map, pure, Except.pure]

/-- The spacer for an axis. -/
def iot [Monad m] [IndexLike α] (d : Dim) : Iter m α := .cell [⟨d.len, 1⟩] 0 fun i => pure (ofIdx i)

theorem spacer_eq [Monad m] [IndexLike α] (dims : List Dim) (hd : ∀ d ∈ dims, 0 ≤ d.len) (p q : Nat) :
    spacer (m := m) (α := α) dims p q = .ok (((dims.take q).drop p).map iot) := by
  unfold spacer
  have : ∀ l : List Dim, (∀ d ∈ l, 0 ≤ d.len) → (l.mapM fun d =>
      if d.len < 0 then (.error .check : Except Fault (Iter m α)) else .ok (.cell [⟨d.len, 1⟩] 0 fun i => pure (ofIdx i))) = .ok (l.map iot) := by
    intro l hl
    induction l with
    | nil => rfl
    | cons d l ih =>
      have h0 := hl d (by simp)
      rw [List.mapM_cons, ih fun d hd => hl d (by simp [hd]), if_neg (by omega)]
      rfl
  exact this _ fun d h => hd d (List.mem_of_mem_take (List.mem_of_mem_drop h))

/-- The arguments of the outer product for array subscripts. -/
def bargs [Monad m] [IndexLike α] : List (ArrSub m α) → List Dim → List (Iter m α)
  | [], bd => bd.map iot
  | .array I _ :: is, bd => I :: bargs is (bd.drop 1)
  | .sub (.at _) :: is, bd => bargs is bd
  | .sub (.range _ _ _) :: is, bd => (bd.take 1).map iot ++ bargs is (bd.drop 1)
  | .sub (.keep k) :: is, bd => (bd.take k).map iot ++ bargs is (bd.drop k)
  | .sub (.new k) :: is, bd => (bd.take k).map iot ++ bargs is (bd.drop k)

theorem drop_take_add (dims : List Dim) (p bk k : Nat) (h : p ≤ bk) :
    (dims.take (bk + k)).drop p = (dims.take bk).drop p ++ (dims.drop bk).take k := by
  rw [List.take_add, List.drop_append]
  congr 1
  by_cases hb : bk ≤ dims.length
  · rw [List.length_take, Nat.min_eq_left hb, Nat.sub_eq_zero_of_le h, List.drop_zero]
  · rw [List.drop_eq_nil_of_le (by omega : dims.length ≤ bk)]; simp

theorem fromuArgs_eq [Monad m] [IndexLike α] (dims : List Dim) (hd : ∀ d ∈ dims, 0 ≤ d.len) (is : List (ArrSub m α)) (p bk : Nat) (h : p ≤ bk) :
    fromuArgs dims p ((dsOf bk is).zip (arrs is)) = .ok (((dims.take bk).drop p).map iot ++ bargs is (dims.drop bk)) := by
  induction is generalizing p bk with
  | nil =>
    simp only [dsOf, arrs, List.zip_nil_left, fromuArgs, spacer_eq dims hd, bargs, List.take_length]
    rw [← List.map_append]
    congr 2
    have := drop_take_add dims p bk dims.length h
    rw [List.take_of_length_le (by omega)] at this
    rw [this]
    congr 1
    rw [List.take_of_length_le (by simp)]
  | cons i is ih =>
    cases i with
    | array I s0 =>
      simp only [dsOf, arrs, List.zip_cons_cons, fromuArgs, spacer_eq dims hd, ih (bk+1) (bk+1) (Nat.le_refl _), bargs, bind, Except.bind, pure, Except.pure]
      simp [List.drop_eq_nil_of_le]
    | sub i =>
      cases i with
      | «at» x => simp only [dsOf, arrs, bargs, ih p bk h]
      | range n o s =>
        simp only [dsOf, arrs, bargs, ih p (bk+1) (by omega), drop_take_add dims p bk 1 h, List.map_append, List.append_assoc, List.drop_drop]
      | keep k =>
        simp only [dsOf, arrs, bargs, ih p (bk+k) (by omega), drop_take_add dims p bk k h, List.map_append, List.append_assoc, List.drop_drop]
      | new k =>
        simp only [dsOf, arrs, bargs, ih p (bk+k) (by omega), drop_take_add dims p bk k h, List.map_append, List.append_assoc, List.drop_drop]

/-- Shapes of those arguments. -/
def bss : List (ArrSub m α) → List Length → List (List Length)
  | [], bs => bs.map fun x => [x]
  | .array _ s0 :: is, bs => s0 :: bss is (bs.drop 1)
  | .sub (.at _) :: is, bs => bss is bs
  | .sub (.range _ _ _) :: is, bs => (bs.take 1).map (fun x => [x]) ++ bss is (bs.drop 1)
  | .sub (.keep k) :: is, bs => (bs.take k).map (fun x => [x]) ++ bss is (bs.drop k)
  | .sub (.new k) :: is, bs => (bs.take k).map (fun x => [x]) ++ bss is (bs.drop k)

theorem hasShape_iot [Monad m] [IndexLike α] {bd : List Dim} {bs : List Length} (h : List.Forall₂ DimLen bd bs) :
    List.Forall₂ HasShape (bd.map (iot (m := m) (α := α))) (bs.map fun x => [x]) := by
  induction h with
  | nil => simp
  | cons h _ ih =>
    refine .cons (.cons ?_ .nil) ih
    revert h
    unfold DimLen
    cases ‹Length› <;> exact id

theorem forall2_append {β γ : Type} {R : β → γ → Prop} {l1 l2 : List β} {r1 r2 : List γ} (h1 : List.Forall₂ R l1 r1) (h2 : List.Forall₂ R l2 r2) :
    List.Forall₂ R (l1 ++ l2) (r1 ++ r2) := by
  induction h1 with
  | nil => exact h2
  | cons h _ ih => exact .cons h ih

theorem hasShapes_bargs [Monad m] [IndexLike α] (is : List (ArrSub m α)) (hI : ∀ I s, .array I s ∈ is → HasShape I s) {bd : List Dim} {bs : List Length}
    (h : List.Forall₂ DimLen bd bs) : List.Forall₂ HasShape (bargs is bd) (bss is bs) := by
  induction is generalizing bd bs with
  | nil => exact hasShape_iot h
  | cons i is ih =>
    have hI' : ∀ I s, .array I s ∈ is → HasShape I s := fun I s h => hI I s (List.mem_cons_of_mem _ h)
    cases i with
    | array I s0 => exact .cons (hI I s0 (by simp)) (ih hI' (List.forall₂_drop 1 h))
    | sub i =>
      cases i with
      | «at» x => exact ih hI' h
      | range n o s => exact forall2_append (hasShape_iot (List.forall₂_take 1 h)) (ih hI' (List.forall₂_drop 1 h))
      | keep k => exact forall2_append (hasShape_iot (List.forall₂_take k h)) (ih hI' (List.forall₂_drop k h))
      | new k => exact forall2_append (hasShape_iot (List.forall₂_take k h)) (ih hI' (List.forall₂_drop k h))

theorem flatten_singletons {β : Type} (l : List β) : (l.map fun x => [x]).flatten = l := by
  induction l with
  | nil => rfl
  | cons x l ih => simp [ih]

theorem flatten_bss (is : List (ArrSub m α)) (s : List Length) (hax : axes (is.map ArrSub.kept) ≤ s.length) :
    (bss is (sliceShape s (is.map ArrSub.kept))).flatten = outerShape s is := by
  induction is generalizing s with
  | nil => exact flatten_singletons s
  | cons i is ih =>
    cases i with
    | array I s0 =>
      simp only [List.map_cons, ArrSub.kept, axes] at hax
      simp only [List.map_cons, ArrSub.kept, sliceShape, bss, outerShape, List.flatten_cons]
      have : (s.take 1).length = 1 := by simp; omega
      rw [List.drop_append, this, Nat.sub_self, List.drop_zero, List.drop_eq_nil_of_le (by omega), List.nil_append, ih _ (by simp; omega)]
    | sub i =>
      cases i with
      | «at» x =>
        simp only [List.map_cons, ArrSub.kept, axes] at hax
        simp only [List.map_cons, ArrSub.kept, sliceShape, bss, outerShape]
        exact ih _ (by simp; omega)
      | range n o st =>
        simp only [List.map_cons, ArrSub.kept, axes] at hax
        simp only [List.map_cons, ArrSub.kept, sliceShape, bss, outerShape]
        simpa using ih (s.drop 1) (by simp; omega)
      | keep k =>
        simp only [List.map_cons, ArrSub.kept, axes] at hax
        simp only [List.map_cons, ArrSub.kept, sliceShape, bss, outerShape]
        have : (s.take k).length = k := by simp; omega
        rw [List.drop_append, this, Nat.sub_self, List.drop_zero, List.drop_eq_nil_of_le (by omega : (s.take k).length ≤ k), List.nil_append, List.take_append, this,
          Nat.sub_self, List.take_zero, List.append_nil, List.take_of_length_le (by omega : (s.take k).length ≤ k), List.flatten_append, flatten_singletons, ih _ (by simp; omega)]
      | new k =>
        simp only [List.map_cons, ArrSub.kept, axes] at hax
        simp only [List.map_cons, ArrSub.kept, sliceShape, bss, outerShape]
        rw [List.drop_append, List.length_replicate, Nat.sub_self, List.drop_zero, List.drop_eq_nil_of_le (by simp), List.nil_append, List.take_append,
          List.length_replicate, Nat.sub_self, List.take_zero, List.append_nil, List.take_of_length_le (by simp), List.flatten_append, flatten_singletons, ih _ (by omega)]

/-- Index in the beaten slice. -/
def idxB : List (ArrSub m α) → List Int → List Int → List Int
  | [], j, _ => j
  | .sub (.at _) :: is, j, vs => idxB is j vs
  | .sub (.range _ _ _) :: is, j, vs => j.take 1 ++ idxB is (j.drop 1) vs
  | .sub (.keep k) :: is, j, vs => j.take k ++ idxB is (j.drop k) vs
  | .sub (.new k) :: is, j, vs => j.take k ++ idxB is (j.drop k) vs
  | .array _ s0 :: is, j, vs => vs.headD 0 :: idxB is (j.drop s0.length) vs.tail

theorem pieces_append (a b : List Nat) (j : List Int) : pieces (a ++ b) j = pieces a j ++ pieces b (j.drop a.sum) := by
  induction a generalizing j with
  | nil => simp [pieces]
  | cons x a ih => simp [pieces, ih]

theorem length_pieces (a : List Nat) (j : List Int) : (pieces a j).length = a.length := by
  induction a generalizing j with
  | nil => rfl
  | cons x a ih => simp [pieces, ih]

theorem elem_iots [Monad m] [LawfulMonad m] [IndexLike α] (bd : List Dim) (j : List Int) (h : bd.length ≤ j.length) :
    List.zipWith elem (bd.map (iot (m := m) (α := α))) (pieces (List.replicate bd.length 1) j) = (j.take bd.length).map fun i => pure (ofIdx i) := by
  induction bd generalizing j with
  | nil => simp
  | cons d bd ih =>
    cases j with
    | nil => simp at h
    | cons i j =>
      simp at h
      simp only [List.map_cons, List.length_cons, List.replicate_succ, pieces, List.zipWith_cons_cons, List.drop_succ_cons, List.drop_zero,
        List.take_succ_cons, List.take_zero, ih j h, iot, elem, Spec.dot]
      simp

theorem mapM_pure_idx [Monad m] [LawfulMonad m] [IndexLike α] (l : List Int) (k : List (m α)) :
    (do let xs ← ((l.map fun i => pure (ofIdx i)) ++ k).mapM id; pure (xs.map toIdx) : m (List Int)) =
    (do let xs ← k.mapM id; pure (l ++ xs.map toIdx)) := by
  have h : ((l.map fun i => (pure (ofIdx i) : m α)).mapM id) = pure (l.map ofIdx) := by
    induction l with
    | nil => rfl
    | cons i l ih => simp [List.mapM_cons, ih]
  rw [List.mapM_append, h]
  simp [Function.comp_def, IndexLike.toIdx_ofIdx]

theorem gather [Monad m] [LawfulMonad m] [IndexLike α] (is : List (ArrSub m α)) (s : List Length) (hax : axes (is.map ArrSub.kept) ≤ s.length) (bd : List Dim)
    (hbd : bd.length = (sliceShape s (is.map ArrSub.kept)).length) (j : List Int) (hj : j.length = (outerShape s is).length) :
    (do let xs ← (List.zipWith elem (bargs is bd) (pieces ((bss is (sliceShape s (is.map ArrSub.kept))).map List.length) j)).mapM id
        pure (xs.map toIdx) : m (List Int)) =
    (do let vs ← (positions is j).mapM id
        pure (idxB is j (vs.map toIdx))) := by
  induction is generalizing s bd j with
  | nil =>
    simp only [List.map_nil, sliceShape, outerShape] at hbd hj
    have e : (bss ([] : List (ArrSub m α)) s).map List.length = List.replicate bd.length 1 := by
      rw [hbd]; simp [bss, Function.comp_def]
    simp only [List.map_nil, sliceShape]
    rw [e]
    simp only [bargs]
    rw [elem_iots bd j (by omega)]
    have := mapM_pure_idx (m := m) (α := α) (j.take bd.length) []
    rw [List.append_nil] at this
    rw [this]
    simp [positions, idxB]
    rw [List.take_of_length_le (by omega)]
  | cons i is ih =>
    have key : ∀ (k : Nat) (s' : List Length), k ≤ bd.length → k ≤ j.length →
        (do let xs ← (List.zipWith elem ((bd.take k).map iot ++ bargs is (bd.drop k))
              (pieces (List.replicate k 1 ++ (bss is s').map List.length) j)).mapM id
            pure (xs.map toIdx) : m (List Int)) =
        (do let xs ← (List.zipWith elem (bargs is (bd.drop k)) (pieces ((bss is s').map List.length) (j.drop k))).mapM id
            pure (j.take k ++ xs.map toIdx)) := by
      intro k s' h1 h2
      rw [pieces_append]
      rw [show (List.replicate k 1).sum = k by simp]
      have hk : (bd.take k).length = k := by simp; omega
      rw [List.zipWith_append (by simp [length_pieces, h1])]
      have := elem_iots (m := m) (α := α) (bd.take k) j (by omega)
      rw [hk] at this
      rw [this, mapM_pure_idx]
    have fin : ∀ (k : Nat) (X : m (List α)) (Y : m (List α)) (is : List (ArrSub m α)) (j' : List Int) (F : List Int → List Int),
        (do let xs ← X; pure (xs.map toIdx) : m (List Int)) = (do let vs ← Y; pure (idxB is j' (vs.map toIdx))) →
        (do let xs ← X; pure (F (xs.map toIdx)) : m (List Int)) = (do let vs ← Y; pure (F (idxB is j' (vs.map toIdx)))) := by
      intro k X Y is j' F h
      have := congrArg (fun z => F <$> z) h
      simpa only [map_eq_pure_bind, bind_assoc, pure_bind] using this
    cases i with
    | array I s0 =>
      simp only [List.map_cons, ArrSub.kept, axes] at hax
      have h1 : (s.take 1).length = 1 := by simp; omega
      have e1 : (s.take 1 ++ sliceShape (s.drop 1) (is.map ArrSub.kept)).drop 1 = sliceShape (s.drop 1) (is.map ArrSub.kept) := by
        rw [List.drop_append, h1, Nat.sub_self, List.drop_zero, List.drop_eq_nil_of_le (by omega), List.nil_append]
      simp only [List.map_cons, ArrSub.kept, sliceShape, List.length_append, h1] at hbd
      simp only [outerShape, List.length_append] at hj
      simp only [List.map_cons, ArrSub.kept, sliceShape, bss, bargs, e1, pieces, List.zipWith_cons_cons, positions, List.mapM_cons, idxB, id, bind_assoc, pure_bind]
      congr 1
      funext v
      have := ih (s.drop 1) (by simp; omega) (bd.drop 1) (by simp only [List.length_drop]; omega) (j.drop s0.length) (by simp only [List.length_drop]; omega)
      simpa using fin 0 _ _ is _ (fun l => toIdx v :: l) this
    | sub i =>
      cases i with
      | «at» x =>
        simp only [List.map_cons, ArrSub.kept, axes] at hax
        simp only [List.map_cons, ArrSub.kept, sliceShape] at hbd
        simp only [outerShape] at hj
        simpa [sliceShape, bss, bargs, positions, ArrSub.kept, ArrSub.takes, idxB] using ih (s.drop 1) (by simp; omega) bd hbd j hj
      | range n o st =>
        simp only [List.map_cons, ArrSub.kept, axes] at hax
        simp only [List.map_cons, ArrSub.kept, sliceShape, List.length_cons] at hbd
        simp only [outerShape, List.length_cons] at hj
        have := ih (s.drop 1) (by simp; omega) (bd.drop 1) (by simp only [List.length_drop]; omega) (j.drop 1) (by simp only [List.length_drop]; omega)
        have := fin 0 _ _ is _ (fun l => j.take 1 ++ l) this
        rw [← key 1 _ (by omega) (by omega)] at this
        simpa [sliceShape, bss, bargs, positions, ArrSub.kept, ArrSub.takes, idxB] using this
      | keep k =>
        simp only [List.map_cons, ArrSub.kept, axes] at hax
        have h1 : (s.take k).length = k := by simp; omega
        have e1 : (s.take k ++ sliceShape (s.drop k) (is.map ArrSub.kept)).drop k = sliceShape (s.drop k) (is.map ArrSub.kept) := by
          rw [List.drop_append, h1, Nat.sub_self, List.drop_zero, List.drop_eq_nil_of_le (by omega), List.nil_append]
        have e2 : (s.take k ++ sliceShape (s.drop k) (is.map ArrSub.kept)).take k = s.take k := by
          rw [List.take_append, h1, Nat.sub_self, List.take_zero, List.append_nil, List.take_of_length_le (by omega)]
        simp only [List.map_cons, ArrSub.kept, sliceShape, List.length_append, h1] at hbd
        simp only [outerShape, List.length_append, h1] at hj
        have := ih (s.drop k) (by simp; omega) (bd.drop k) (by simp; omega) (j.drop k) (by simp; omega)
        have := fin 0 _ _ is _ (fun l => j.take k ++ l) this
        rw [← key k _ (by omega) (by omega)] at this
        simp only [List.map_cons, ArrSub.kept, sliceShape, bss, e1, e2, bargs, positions, ArrSub.takes, idxB, List.map_append, List.map_map, Function.comp_def,
          List.length_singleton]
        rw [show (s.take k).map (fun _ => 1) = List.replicate k 1 by simp [List.map_const', h1]; omega]
        exact this
      | new k =>
        simp only [List.map_cons, ArrSub.kept, axes] at hax
        have e1 : (List.replicate k none ++ sliceShape s (is.map ArrSub.kept)).drop k = sliceShape s (is.map ArrSub.kept) := by simp
        have e2 : (List.replicate k none ++ sliceShape s (is.map ArrSub.kept)).take k = List.replicate k none := by simp
        simp only [List.map_cons, ArrSub.kept, sliceShape, List.length_append, List.length_replicate] at hbd
        simp only [outerShape, List.length_append, List.length_replicate] at hj
        have := ih s (by omega) (bd.drop k) (by simp; omega) (j.drop k) (by simp; omega)
        have := fin 0 _ _ is _ (fun l => j.take k ++ l) this
        rw [← key k _ (by omega) (by omega)] at this
        simp only [List.map_cons, ArrSub.kept, sliceShape, bss, e1, e2, bargs, positions, ArrSub.takes, idxB, List.map_append, List.map_map, Function.comp_def,
          List.length_singleton]
        rw [show (List.replicate k (none : Length)).map (fun _ => 1) = List.replicate k 1 by simp [List.map_const']]
        exact this

theorem headD_take_append (j k : List Int) (h : 1 ≤ j.length) : (j.take 1 ++ k).headD 0 = j.headD 0 ∧ (j.take 1 ++ k).drop 1 = k := by
  cases j with
  | nil => simp at h
  | cons i j => simp

theorem idx_outer (is : List (ArrSub m α)) (s : List Length) (hax : axes (is.map ArrSub.kept) ≤ s.length) (dims : List Dim)
    (hd : List.Forall₂ DimLen dims s) (hnew : ∀ k, .sub (.new k) ∉ is) (hfin : ∀ x ∈ s, x ≠ none)
    (ha : Accepts dims (is.map ArrSub.kept)) (j vs : List Int) (hl : j.length = (outerShape s is).length) (hj : InRange (outerShape s is) j) :
    sliceIndex (is.map ArrSub.kept) (idxB is j vs) = outerIndex is j vs ∧
    (InRange (sliceShape s (is.map ArrSub.kept)) (idxB is j vs) ↔ InRange s (outerIndex is j vs)) ∧
    (idxB is j vs).length = (sliceShape s (is.map ArrSub.kept)).length := by
  induction is generalizing s dims j vs with
  | nil => exact ⟨rfl, Iff.rfl, hl⟩
  | cons i is ih =>
    have hnew' : ∀ k, .sub (.new k) ∉ is := fun k h => hnew k (List.mem_cons_of_mem _ h)
    cases i with
    | array I s0 =>
      simp only [List.map_cons, ArrSub.kept, axes] at hax
      simp only [outerShape, List.length_append] at hl hj
      cases hd with
      | nil => simp at hax
      | cons h1 h2 =>
        rename_i d o dims s
        simp only [List.map_cons, ArrSub.kept, Accepts, List.drop_succ_cons, List.drop_zero] at ha
        simp only [List.drop_succ_cons, List.drop_zero] at hl hj
        have hjs : j = j.take s0.length ++ j.drop s0.length := (List.take_append_drop _ _).symm
        rw [hjs, InRange_append (by simp; omega)] at hj
        obtain ⟨i1, i2, i3⟩ := ih s (by simp at hax; omega) dims h2 hnew' (fun x hx => hfin x (by simp [hx])) ha (j.drop s0.length) vs.tail
          (by simp; omega) hj.2
        refine ⟨?_, ?_, ?_⟩
        · simp [sliceIndex, ArrSub.kept, idxB, outerIndex, i1]
        · simp only [List.map_cons, ArrSub.kept, sliceShape, idxB, outerIndex, List.take_succ_cons, List.take_zero, List.drop_succ_cons, List.drop_zero,
            List.singleton_append, InRange_cons, i2]
        · simp [sliceShape, ArrSub.kept, idxB, i3]
    | sub i =>
      cases i with
      | «at» x =>
        simp only [List.map_cons, ArrSub.kept, axes] at hax
        cases hd with
        | nil => simp at hax
        | cons h1 h2 =>
          rename_i d o dims s
          simp only [List.map_cons, ArrSub.kept, Accepts] at ha
          obtain ⟨i1, i2, i3⟩ := ih s (by simp at hax; omega) dims h2 hnew' (fun x hx => hfin x (by simp [hx])) ha.2 j vs hl hj
          refine ⟨?_, ?_, ?_⟩
          · simp [sliceIndex, ArrSub.kept, idxB, outerIndex, i1]
          · simp only [List.map_cons, ArrSub.kept, sliceShape, idxB, outerIndex, List.drop_succ_cons, List.drop_zero, InRange_cons, i2]
            constructor
            · intro h
              refine ⟨?_, h⟩
              intro n hn
              subst hn
              simp only [DimLen] at h1
              rcases ha.1 with h | h
              · omega
              · rw [h1] at h; have := UNB_val; omega
            · exact fun h => h.2
          · simpa [sliceShape, ArrSub.kept, idxB] using i3
      | range n o st =>
        simp only [List.map_cons, ArrSub.kept, axes] at hax
        cases hd with
        | nil => simp at hax
        | cons h1 h2 =>
          rename_i d ol dims s
          simp only [List.map_cons, ArrSub.kept, Accepts] at ha
          simp only [outerShape, List.length_cons, List.drop_succ_cons, List.drop_zero] at hl hj
          cases j with
          | nil => simp at hl
          | cons j0 j =>
            rw [InRange_cons] at hj
            obtain ⟨i1, i2, i3⟩ := ih s (by simp at hax; omega) dims h2 hnew' (fun x hx => hfin x (by simp [hx])) ha.2 j vs (by simpa using hl) hj.2
            have hj0 := hj.1 n rfl
            refine ⟨?_, ?_, ?_⟩
            · simp [sliceIndex, ArrSub.kept, idxB, outerIndex, i1]
            · simp only [List.map_cons, ArrSub.kept, sliceShape, idxB, outerIndex, List.drop_succ_cons, List.drop_zero, List.take_succ_cons, List.take_zero,
                List.singleton_append, InRange_cons, i2, List.headD_cons]
              constructor
              · rintro ⟨_, h⟩
                refine ⟨?_, h⟩
                intro n' hn'
                subst hn'
                simp only [DimLen] at h1
                have := ha.1 j0.toNat (by omega)
                rw [Int.toNat_of_nonneg hj0.1] at this
                omega
              · rintro ⟨_, h⟩
                refine ⟨?_, h⟩
                intro n' hn'
                injection hn' with hn'
                omega
            · simp [sliceShape, ArrSub.kept, idxB, i3]
      | keep k =>
        simp only [List.map_cons, ArrSub.kept, axes] at hax
        have hk : (s.take k).length = k := by simp; omega
        have ha' : Accepts (dims.drop k) (is.map ArrSub.kept) := by
          cases dims <;> simpa [ArrSub.kept, Accepts] using ha
        simp only [outerShape, List.length_append, hk] at hl hj
        have hjk : (j.take k).length = k := by simp; omega
        have hjs : j = j.take k ++ j.drop k := (List.take_append_drop _ _).symm
        rw [hjs, InRange_append (by omega)] at hj
        obtain ⟨i1, i2, i3⟩ := ih (s.drop k) (by simp; omega) (dims.drop k) (List.forall₂_drop k hd) hnew'
          (fun x hx => hfin x (List.mem_of_mem_drop hx)) ha' (j.drop k) vs (by simp; omega) hj.2
        refine ⟨?_, ?_, ?_⟩
        · simp only [List.map_cons, ArrSub.kept, sliceIndex, idxB, outerIndex]
          rw [List.drop_append, hjk, Nat.sub_self, List.drop_zero, List.drop_eq_nil_of_le (by omega : (j.take k).length ≤ k), List.nil_append, List.take_append, hjk,
            Nat.sub_self, List.take_zero, List.append_nil, List.take_of_length_le (by omega : (j.take k).length ≤ k), i1]
        · simp only [List.map_cons, ArrSub.kept, sliceShape, idxB, outerIndex]
          rw [InRange_append (by omega), i2]
          conv_rhs => rw [← List.take_append_drop k s]
          rw [InRange_append (by omega)]
        · simp [sliceShape, ArrSub.kept, idxB, i3]; omega
      | new k => exact absurd (by simp) (hnew k)

theorem finite_slice (is : List Subscript) (s : List Length) (hnew : ∀ k, .new k ∉ is) (hfin : ∀ x ∈ s, x ≠ none) : ∀ x ∈ sliceShape s is, x ≠ none := by
  induction is generalizing s with
  | nil => exact hfin
  | cons i is ih =>
    have hnew' : ∀ k, .new k ∉ is := fun k h => hnew k (List.mem_cons_of_mem _ h)
    have hd : ∀ k, ∀ x ∈ s.drop k, x ≠ none := fun k x hx => hfin x (List.mem_of_mem_drop hx)
    cases i with
    | «at» x => exact ih _ hnew' (hd 1)
    | range n o st =>
      intro x hx
      rcases List.mem_cons.mp hx with rfl | hx
      · simp
      · exact ih _ hnew' (hd 1) x hx
    | keep k =>
      intro x hx
      rcases List.mem_append.mp hx with hx | hx
      · exact hfin x (List.mem_of_mem_take hx)
      · exact ih _ hnew' (hd k) x hx
    | new k => exact absurd (by simp) (hnew k)

theorem finite_map {s : List Length} (h : ∀ x ∈ s, x ≠ none) : ∃ s' : List Nat, s = s'.map some := by
  induction s with
  | nil => exact ⟨[], rfl⟩
  | cons x s ih =>
    obtain ⟨s', rfl⟩ := ih fun y hy => h y (by simp [hy])
    cases x with
    | none => exact absurd rfl (h none (by simp))
    | some n => exact ⟨n :: s', rfl⟩

theorem elemAt_eq [Monad m] [MonadFault m] (b : View) (s : List Nat) (hb : Shaped b (s.map some)) (rd : Int → m α) (i : List Int) (hi : i.length = s.length) :
    (InRange (s.map some) i → b.elemAt rd i = rd (address b i)) ∧ (¬ InRange (s.map some) i → b.elemAt rd i = fault .check) := by
  have hiff : InRange (s.map some) i ↔ ∀ k (hk : k < i.length), 0 ≤ i[k] ∧ i[k] < (s.getD k 0 : Int) := by
    constructor
    · intro h k hk
      have := h.2 k s[k] (by simp)
      simpa [List.getD_eq_getElem?_getD, hk, show k < s.length by omega] using this
    · intro h
      refine ⟨by simp [hi], fun k n hk => ?_⟩
      have hkl : k < s.length := by
        have := (List.getElem?_eq_some_iff.mp hk).1
        simpa using this
      have := h k (by omega)
      simp [hkl] at hk
      simpa [List.getD_eq_getElem?_getD, hkl, hi, hk] using this
  constructor
  · intro h
    obtain ⟨c, h1, h2, h3⟩ := C11_scalar b s hb i (by omega) (hiff.mp h)
    simp only [View.elemAt, h1]
    have : s.drop i.length = [] := List.drop_eq_nil_of_le (by omega)
    rw [this] at h3
    have := h3 [] (by simpa using InRange_nil)
    rw [List.append_nil] at this
    rw [← this]
    simp [address, Spec.dot]
  · intro h
    have h' : ∃ k, ∃ hk : k < i.length, ¬ (0 ≤ i[k] ∧ i[k] < (s.getD k 0 : Int)) := by
      by_contra hc
      push Not at hc
      exact h (hiff.mpr fun k hk => by
        have := hc k hk
        constructor
        · by_contra hn; omega
        · by_contra hn; omega)
    simp only [View.elemAt, C11_scalar_reject b s hb i (by omega) h']

open Classical in
/-- C15. Subscripts with at least one array among them. `j` is cut in pieces, one for each subscript that makes axes. The element at `j` is found by reading
the subscript arrays at their pieces of `j`, and then the source at the positions found. A position that is out of range fails a check.
Arrays can't be mixed with `insert` (see `C15_insert_fails`). -/
theorem C15_outer [Monad m] [LawfulMonad m] [MonadFault m] [IndexLike α] (v : View) (s : List Nat) (hv : Shaped v (s.map some)) (rd : Int → m α)
    (is : List (ArrSub m α)) (hnew : ∀ k, .sub (.new k) ∉ is) (harr : ∃ I s0, .array I s0 ∈ is) (hI : ∀ I s0, .array I s0 ∈ is → HasShape I s0)
    (hax : axes (is.map ArrSub.kept) ≤ s.length) (ha : Accepts v.dims (is.map ArrSub.kept)) :
    ∃ e, v.fromArrays rd (is.map msub) (arrs is) = .ok (some e) ∧ HasShape e (outerShape (s.map some) is) ∧
      ∀ j, j.length = (outerShape (s.map some) is).length → InRange (outerShape (s.map some) is) j →
        elem e j = (do
          let vs ← (positions is j).mapM id
          let x := outerIndex is j (vs.map toIdx)
          if InRange (s.map some) x then rd (address v x) else fault .check) := by
  have hl := hv.length_eq
  have hax' : axes (is.map ArrSub.kept) ≤ (s.map some).length := by simpa using hax
  obtain ⟨cp, bd, hb1, hb2, hb3⟩ := (fromb_spec (is.map ArrSub.kept) v.cp 0 v.dims (s.map some) hv (by omega)).1 ha
  have hf := fromb_arrays is v.cp 0 v.dims
  simp only [List.map_map, Function.comp_def, wkept_eq] at hb1
  rw [hb1] at hf
  simp only [Except.map] at hf
  have hnew' : ∀ k, .new k ∉ is.map ArrSub.kept := by
    intro k hk
    rw [List.mem_map] at hk
    obtain ⟨i, hi, hik⟩ := hk
    cases i with
    | sub i => simp only [ArrSub.kept] at hik; subst hik; exact hnew k hi
    | array I s0 => simp [ArrSub.kept] at hik
  have hfin : ∀ x ∈ s.map some, x ≠ (none : Length) := by simp
  obtain ⟨bs, hbs⟩ := finite_map (finite_slice _ _ hnew' hfin)
  have hpos : ∀ d ∈ bd, 0 ≤ d.len := by
    intro d hd
    rw [hbs] at hb2
    obtain ⟨i, hi, rfl⟩ := List.getElem_of_mem hd
    have := hb2.get hi (by have := hb2.length_eq; omega)
    simp [DimLen] at this
    omega
  have hu := fromuArgs_eq bd hpos is 0 0 (Nat.le_refl _)
  simp only [List.take_zero, List.drop_zero, List.map_nil, List.nil_append] at hu
  have hsh := hasShapes_bargs is hI hb2
  have hfl := flatten_bss is (s.map some) hax'
  have hne : bargs is bd ≠ [] := by
    have : ∀ (is : List (ArrSub m α)) (bd : List Dim), (∃ I s0, .array I s0 ∈ is) → bargs is bd ≠ [] := by
      intro is
      induction is with
      | nil => rintro bd ⟨I, s0, h⟩; simp at h
      | cons i is ih =>
        rintro bd ⟨I, s0, h⟩
        cases i with
        | array I s0 => simp [bargs]
        | sub i =>
          have h' : ∃ I s0, .array I s0 ∈ is := ⟨I, s0, by simpa using h⟩
          cases i with
          | «at» x => exact ih bd h'
          | range n o s => simp [bargs, ih _ h']
          | keep k => simp [bargs, ih _ h']
          | new k => simp [bargs, ih _ h']
    exact this is bd harr
  obtain ⟨e, he1, he2, he3⟩ := C16_outer (fun vs => (View.mk bd cp).elemAt rd (vs.map toIdx)) (bargs is bd) hne _ (hasShapes_iff.mpr hsh)
  rw [hfl] at he2 he3
  refine ⟨e, ?_, he2, ?_⟩
  · simp only [View.fromArrays, hf, bind, Except.bind, hu, pure, Except.pure, he1]
  · intro j hjl hj
    rw [he3 j (by omega)]
    have hg := gather is (s.map some) hax' bd hb2.length_eq j hjl
    have : mapOp (fun vs => (View.mk bd cp).elemAt rd (vs.map toIdx)) (List.zipWith elem (bargs is bd)
          (pieces ((bss is (sliceShape (s.map some) (is.map ArrSub.kept))).map List.length) j))
        = (do let x ← (do let xs ← (List.zipWith elem (bargs is bd)
                (pieces ((bss is (sliceShape (s.map some) (is.map ArrSub.kept))).map List.length) j)).mapM id
                          pure (xs.map toIdx) : m (List Int))
              (View.mk bd cp).elemAt rd x) := by
      simp [mapOp]
    rw [this, hg]
    simp only [bind_assoc, pure_bind]
    congr 1
    funext vs
    obtain ⟨i1, i2, i3⟩ := idx_outer is (s.map some) hax' v.dims hv hnew hfin ha j (vs.map toIdx) hjl hj
    have hE := elemAt_eq (View.mk bd cp) bs (by rw [← hbs]; exact hb2) rd (idxB is j (vs.map toIdx)) (by rw [i3, hbs]; simp)
    rw [← hbs] at hE
    split
    · rename_i h
      have h' := i2.mpr h
      rw [hE.1 h']
      have := (hb3 _ h').1
      rw [i1] at this
      simp only [address]
      rw [this]
    · rename_i h
      exact hE.2 fun h' => h (i2.mp h')

/-- C15. If the scalars or ranges among the subscripts are out of range then the check fails. -/
theorem C15_reject [Monad m] [MonadFault m] [IndexLike α] (v : View) (s : List Length) (hv : Shaped v s) (rd : Int → m α)
    (is : List (ArrSub m α)) (hax : axes (is.map ArrSub.kept) ≤ s.length) (ha : ¬ Accepts v.dims (is.map ArrSub.kept)) :
    v.fromArrays rd (is.map msub) (arrs is) = .error .check := by
  have hl := hv.length_eq
  have hb1 := (fromb_spec (is.map ArrSub.kept) v.cp 0 v.dims s hv (by omega)).2 ha
  have hf := fromb_arrays is v.cp 0 v.dims
  simp only [List.map_map, Function.comp_def, wkept_eq] at hb1
  rw [hb1] at hf
  simp only [Except.map] at hf
  simp only [View.fromArrays, hf, bind, Except.bind]

/-- B20. `a(insert<1>, I)` fails a check for every array subscript `I`: the spacer for the new axis has a negative length (`UNB`). -/
theorem C15_insert_fails [Monad m] [MonadFault m] [IndexLike α] (d : Dim) (dims : List Dim) (cp : Int) (rd : Int → m α) (I : Iter m α) :
    (View.mk (d :: dims) cp).fromArrays rd [.insert 1, .array] [I] = .error .check := by
  have hU : (UNB : Int) < 0 := by have := UNB_val; omega
  simp [View.fromArrays, fromb, bind, Except.bind, pure, Except.pure, fromuArgs, spacer, List.mapM_cons, hU]

end

/-! ### Concrete cases -/

section examples

/-- A 2x3 view, as `iota` of rank 2. -/
def ex23 : View := ⟨[⟨2, 3⟩, ⟨3, 1⟩], 0⟩
/-- The vector of positions `[2 0 1 2]` in an array at 100. -/
def exI : Iter (Except Fault) Int := .cell [⟨4, 1⟩] 100 fun a => .ok (([2, 0, 1, 2] : List Int).getD (a - 100).toNat 0)

/-- `a(1, I)`: meets the hypotheses of `C15_outer`. -/
example : ∃ e, ex23.fromArrays (m := Except Fault) (fun a => .ok a) [.scalar (.const 1), .array] [exI] = .ok (some e) ∧
    HasShape e [some 4] ∧ elem e [3] = .ok 5 := by
  obtain ⟨e, h1, h2, h3⟩ := C15_outer (m := Except Fault) ex23 [2, 3] (.cons rfl (.cons rfl .nil)) (fun a => .ok a)
    [.sub (.at 1), .array exI [some 4]] (by simp) ⟨exI, [some 4], by simp⟩
    (by intro I s h; simp at h; obtain ⟨rfl, rfl⟩ := h; exact .cons rfl .nil) (by decide) ⟨.inl (by decide), trivial⟩
  refine ⟨e, h1, h2, ?_⟩
  have := h3 [3] rfl ⟨by simp [outerShape], fun k n hk => by
    match k with
    | 0 => simp [outerShape] at hk; subst hk; decide
    | k + 1 => simp [outerShape] at hk⟩
  rw [this]
  have hI : InRange (([2, 3] : List Nat).map some) (outerIndex ([.sub (.at 1), .array exI [some 4]] : List (ArrSub (Except Fault) Int)) [3] [2]) := by
    refine ⟨by decide, fun k n hk => ?_⟩
    match k with
    | 0 => simp at hk; subst hk; decide
    | 1 => simp at hk; subst hk; decide
    | k + 2 => simp at hk
  show @ite _ (InRange (([2, 3] : List Nat).map some) (outerIndex ([.sub (.at 1), .array exI [some 4]] : List (ArrSub (Except Fault) Int)) [3] [2]))
    (Classical.propDecidable _) _ _ = _
  rw [if_pos hI]
  rfl

/-- `map(wrank<0, 1>(op), v, A)`, with shapes (2) and (2 3). -/
example : VerbShape [[0, 1]] [[some 2], [some 2, some 3]] [some 2, some 3] := by
  refine ⟨.cons (by simp) (.cons (by simp) .nil), [some 2], [some 3], rfl, ⟨?_, ⟨[some 2], by simp, rfl⟩, ?_⟩, ⟨?_, ⟨[some 3], by simp, rfl⟩, ?_⟩⟩
  · simp
  · intro k n; simp
  · simp
  · intro k n; simp

end examples

end Ra.Props
