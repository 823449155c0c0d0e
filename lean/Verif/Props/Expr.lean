import Verif.Props.Traversal
import Verif.Spec.Slice
/-!
# Expressions: C01-C03, C18, C40, C41, C59
-/
set_option linter.unusedSectionVars false

namespace Ra.Props
open Spec (HasShape HasShapes Merge Reframed Length rowMajor search forAll elem elems Valid InRange)

variable {m : Type → Type} [Monad m] [LawfulMonad m] [MonadFault m] {α β : Type}

/-! ## C01, C59 -/

theorem _root_.Ra.Spec.InRange.ok {a : Iter m α} {s : List Length} (h : HasShape a s) {j : List Int} (hj : InRange s j) : Ok a j := by
  have hf := h.fits
  refine ⟨by rw [hf.1]; have := hj.1; omega, fun k hk => ?_⟩
  have hk' : k < s.length := by rw [hf.1] at hk; omega
  have hs : s[k]? = some s[k] := List.getElem?_eq_getElem hk'
  rw [hf.len hs]
  cases ho : s[k] with
  | none => left; rfl
  | some n =>
    right
    rw [ho] at hs
    exact hj.2 k n hs

theorem _root_.Ra.Spec.Valid.inRange {s : List Nat} {j : List Int} (h : Valid s j) : InRange (s.map some) j := by
  have hl := h.length
  refine ⟨by simp [hl], ?_⟩
  intro k n hk
  simp only [List.getElem?_map, Option.map_eq_some_iff, Option.some.injEq] at hk
  obtain ⟨n', hk, rfl⟩ := hk
  clear hl
  induction s generalizing j k with
  | nil => simp at hk
  | cons b s ih =>
    cases j with
    | nil => simp [Spec.Valid] at h
    | cons i j =>
      simp only [Spec.Valid] at h
      cases k with
      | zero => simp at hk; subst hk; simpa using ⟨h.1, h.2.1⟩
      | succ k => simpa using ih h.2.2 k (by simpa using hk)

/-- C01, C59. `a.at(j)` is the element of `a` at `j`, for an index in range. -/
theorem C01_at (a : Iter m α) (s : List Length) (h : HasShape a s) (j : List Int) (hj : InRange s j) : a.at j = elem a j := by
  rw [a.at_eq h.wf j (hj.ok h), a.deref_shift]

omit [Monad m] [LawfulMonad m] [MonadFault m] in
mutual
theorem elem_take (a : Iter m α) (s : List Length) (h : HasShape a s) (j : List Int) : elem a (j.take s.length) = elem a j := by
  cases a with
  | scalar c => rfl
  | cell dims cp rd =>
    have hl := h.length_eq
    simp only [elem]
    congr 2
    rw [← hl]
    simp only [Spec.dot]
    clear hl h
    induction dims generalizing j with
    | nil => simp
    | cons d ds ih =>
      cases j with
      | nil => simp
      | cons i j => simp only [List.map_cons, List.length_cons, List.take_succ_cons, List.zipWith_cons_cons, List.sum_cons, ih]
  | reframe dest a =>
    obtain ⟨hnd, s0, h0, h1, h2, h3⟩ := h
    simp only [elem]
    congr 1
    apply List.map_congr_left
    intro d hd
    have := h2 d hd
    simp [List.getD_eq_getElem?_getD, this]
  | node op t =>
    obtain ⟨ss, hss, hm1, hm2, hm3⟩ := h
    simp only [elem]
    rw [elems_take t ss hss j s.length hm1]
theorem elems_take (t : List (Iter m α)) (ss : List (List Length)) (h : HasShapes t ss) (j : List Int) (n : Nat)
    (hn : ∀ x ∈ ss, x.length ≤ n) : elems t (j.take n) = elems t j := by
  cases t with
  | nil => rfl
  | cons a t =>
    obtain ⟨s, ss', rfl, h1, h2⟩ := h
    simp only [elems]
    have hs := hn s (by simp)
    rw [← elem_take a s h1 j, ← elem_take a s h1 (j.take n), List.take_take, Nat.min_eq_left hs,
      elems_take t ss' h2 j n (fun x hx => hn x (List.mem_cons_of_mem _ hx))]
end

/-- C01. The element of `map(f, a, b, ...)` at `j` is that of `f` applied to the elements of the arguments, each looking only at the leading
entries of `j` that it has axes for, and each evaluated once. The same holds in traversal, since it visits `elem` (C05, C06). -/
theorem C01_map (f : List α → m α) (t : List (Iter m α)) (ss : List (List Length)) (hss : HasShapes t ss) (s : List Length)
    (hm : Merge ss s) (j : List Int) (hj : InRange s j) :
    (Iter.node (mapOp f) t).at j = (do
      let vs ← (t.zip ss).mapM fun p => elem p.1 (j.take p.2.length)
      f vs) := by
  rw [C01_at (.node (mapOp f) t) s ⟨ss, hss, hm⟩ j hj]
  simp only [elem, mapOp]
  congr 1
  clear hm hj
  induction t generalizing ss with
  | nil => simp [elems]
  | cons a t ih =>
    obtain ⟨s0, ss', rfl, h1, h2⟩ := hss
    simp only [elems, List.zip_cons_cons, List.mapM_cons, id]
    rw [ih ss' h2, elem_take a s0 h1]

/-- C01, traversal. For any operation, static or dynamic sizes. -/
theorem C01_traversal (dyn : Bool) (f : List α → m α) (t : List (Iter m α)) (ss : List (List Length)) (hss : HasShapes t ss) (s : List Nat)
    (hm : Merge ss (s.map some)) (z : List Int) (hz : ∀ i ∈ z, i = 0) :
    (do let _ ← ply (β := β) dyn never z (.node (mapOp f) t); pure ()) = forAll (fun j => (do
      let vs ← (t.zip ss).mapM fun p => elem p.1 (j.take p.2.length)
      f vs)) (rowMajor s) := by
  have h : HasShape (.node (mapOp f) t) (s.map some) := ⟨ss, hss, hm⟩
  have hx : ∀ j ∈ rowMajor s, elem (.node (mapOp f) t) j = (do
      let vs ← (t.zip ss).mapM fun p => elem p.1 (j.take p.2.length)
      f vs) := by
    intro j hj
    rw [← C01_map f t ss hss _ hm j (Spec.Valid.inRange (Spec.mem_rowMajor.mp hj)), C01_at _ _ h j (Spec.Valid.inRange (Spec.mem_rowMajor.mp hj))]
  rw [← Spec.forAll_congr hx]
  cases dyn
  · rw [← C06_fixed_visits (β := β) _ s h]
    simp [ply]
  · rw [← C05_ravel_visits (β := β) _ s h z hz]
    simp [ply]

/-- A case for the above: `A + b + 7 + reframed c`, with index (1, 2). -/
example (f : List α → m α) (rd : Int → m α) (c : m α) :
    (exTree (mapOp f) rd c).at [1, 2] = (do
      let vs ← [rd 5, rd 0, c, rd 13].mapM id
      f vs) := by
  rw [C01_at _ _ (exTree_shape (mapOp f) rd c)]
  · rfl
  · exact Spec.Valid.inRange (by simp [Spec.Valid])

/-- C59. For a view, an index that's too short or out of range fails the check, and nothing is read. -/
theorem C59_reject (dims : List Dim) (cp : Int) (rd : Int → m α) (s : List Length) (h : HasShape (.cell dims cp rd) s) (j : List Int)
    (hj : ¬ InRange s j) : (Iter.cell dims cp rd).at j = fault .check := by
  have : indexer dims cp j = .error .check := by
    simp only [indexer]
    split
    · rename_i hl
      have hn : ∃ (k n : Nat), s[k]? = some (some n) ∧ ¬ (0 ≤ j.getD k 0 ∧ j.getD k 0 < n) := by
        by_contra hc
        apply hj
        refine ⟨by rw [← h.length_eq]; omega, ?_⟩
        intro k n hk
        by_contra hkn
        exact hc ⟨k, n, hk, hkn⟩
      clear hj
      simp only [HasShape] at h
      induction h generalizing cp j with
      | nil => simp at hn
      | @cons d o ds s hd _ ih =>
        cases j with
        | nil => simp at hl
        | cons i j =>
          simp only [indexLoop]
          obtain ⟨k, n, hk, hkn⟩ := hn
          cases k with
          | zero =>
            simp at hk hkn
            subst hk
            simp only [Spec.DimLen] at hd
            rw [if_neg]
            rintro (h1 | h1)
            · rw [inside_iff, hd] at h1; have := hkn h1.1; omega
            · have := UNB_val; omega
          | succ k =>
            split
            · exact ih _ j (by simpa using hl) ⟨k, n, by simpa using hk, by simpa using hkn⟩
            · rfl
    · rfl
  simp only [Iter.at, this]

/-- C59. Index (1, 3) is out of range for shape (2, 3), and (1) is too short. -/
example (rd : Int → m α) : (Iter.cell [⟨2, 1⟩, ⟨3, 2⟩] 0 rd).at [1, 3] = fault .check :=
  C59_reject [⟨2, 1⟩, ⟨3, 2⟩] 0 rd [some 2, some 3] (List.Forall₂.cons (by rfl) (List.Forall₂.cons (by rfl) .nil)) _ (by
    intro h; have := h.2 1 3 rfl; simp at this)

/-- C59. `at(a, j)` is the element that a traversal visits at `j`, and extra entries are ignored. -/
theorem C59_at_traversal (dyn : Bool) (a : Iter m α) (s : List Nat) (h : HasShape a (s.map some)) (extra : List Int) (z : List Int)
    (hz : ∀ i ∈ z, i = 0) :
    (do let _ ← ply (β := β) dyn never z a; pure ()) = forAll (fun j => a.at (j ++ extra)) (rowMajor s) := by
  have hx : ∀ j ∈ rowMajor s, elem a j = a.at (j ++ extra) := by
    intro j hj
    have hv := Spec.mem_rowMajor.mp hj
    have hlen := hv.length
    have hr := Spec.Valid.inRange hv
    rw [C01_at a _ h (j ++ extra)]
    · rw [← elem_take a _ h (j ++ extra)]
      congr 1
      simp [← hlen]
    · refine ⟨by have := hr.1; simp at this ⊢; omega, ?_⟩
      intro k n hk
      have := hr.2 k n hk
      have hkl : k < j.length := by
        have := (List.getElem?_eq_some_iff.mp hk).1
        simp at this; omega
      simpa [List.getD_eq_getElem?_getD, List.getElem?_append_left hkl] using this
  rw [← Spec.forAll_congr hx]
  cases dyn
  · rw [← C06_fixed_visits (β := β) _ s h]
    simp [ply]
  · rw [← C05_ravel_visits (β := β) _ s h z hz]
    simp [ply]

/-! ## C02 -/

/-- C02. The shape of a match as the code computes it is the prefix match of the shapes of the arguments: the largest rank, and on each axis
the finite length of any argument that has one. -/
theorem C02_shape (op : List (m α) → m α) (t : List (Iter m α)) (ss : List (List Length)) (hss : HasShapes t ss) (s : List Length)
    (hm : Merge ss s) :
    (Iter.node op t).rank = s.length ∧
    (∀ k n : Nat, s[k]? = some (some n) → (Iter.node op t).len k = n) ∧
    (∀ k : Nat, s[k]? = some none → (Iter.node op t).len k = UNB) := by
  have h : HasShape (.node op t) s := ⟨ss, hss, hm⟩
  refine ⟨h.fits.1, fun k n hk => ?_, fun k hk => ?_⟩
  · exact h.fits.len hk
  · exact h.fits.len hk

example (op : List (m α) → m α) (rd : Int → m α) (c : m α) : (exTree op rd c).rank = 2 ∧ (exTree op rd c).len 0 = 2 ∧ (exTree op rd c).len 1 = 3 := by
  obtain ⟨ss, hss, hm⟩ := exTree_shape op rd c
  obtain ⟨h1, h2, _⟩ := C02_shape op _ ss hss _ hm
  exact ⟨h1, h2 0 2 rfl, h2 1 3 rfl⟩

/-- `Merge` determines the shape. -/
theorem C02_unique (ss : List (List Length)) (s s' : List Length) (h : Merge ss s) (h' : Merge ss s') : s = s' := by
  obtain ⟨h1, ⟨x, hx, hxl⟩, h3⟩ := h
  obtain ⟨h1', ⟨x', hx', hxl'⟩, h3'⟩ := h'
  have hl : s.length = s'.length := by
    have := h1 x' hx'; have := h1' x hx; omega
  apply List.ext_getElem hl
  intro k hk hk'
  have e1 : s[k]? = some s[k] := List.getElem?_eq_getElem hk
  have e2 : s'[k]? = some s'[k] := List.getElem?_eq_getElem hk'
  cases ha : s[k] with
  | some n =>
    have := (h3' k n).mpr ((h3 k n).mp (by rw [e1, ha]))
    rw [e2] at this
    injection this with this
    exact this.symm
  | none =>
    cases hb : s'[k] with
    | none => rfl
    | some n =>
      have := (h3 k n).mpr ((h3' k n).mp (by rw [e2, hb]))
      rw [e1, ha] at this
      simp at this

/-! ## C03 -/

theorem agree_iff_bounded (op : List (m α) → m α) (t : List (Iter m α)) : agree t = true ↔ (Iter.node op t).Bounded := by
  rw [← validate_iff]; rfl

/-- C03. `agree(a, b, ...)` is true exactly when the shapes of the arguments have a prefix match that's finite. -/
theorem C03_agree (t : List (Iter m α)) (ss : List (List Length)) (hss : HasShapes t ss) (hne : t ≠ []) :
    agree t = true ↔ ∃ s : List Nat, Merge ss (s.map some) := by
  have hwl := (fitsList_of_hasShapes t ss hss)
  let op : List (m α) → m α := fun _ => fault .ub
  have hwf : (Iter.node op t).WF := ⟨hne, hwl.1⟩
  rw [agree_iff_bounded op]
  constructor
  · intro hb
    refine ⟨(Iter.node op t).natShape, ?_, ?_, ?_⟩
    · intro x hx
      obtain ⟨i, hi, rfl⟩ := List.getElem_of_mem hx
      have hi' : i < t.length := by rw [hwl.2.length_eq]; exact hi
      have hf := hwl.2.get hi' hi
      have := rank_child_le hwf (List.getElem_mem hi')
      simp only [List.get_eq_getElem] at hf
      rw [hf.1] at this
      simp only [List.length_map, length_natShape]
      omega
    · have hrl : rankList t = ss.map fun s => (s.length : Int) := by
        have := hwl.2
        clear hb hwf hne hss hwl op
        induction this with
        | nil => rfl
        | cons hab _ ih => simp only [rankList, List.map_cons, ih, hab.1]
      have hr := rank_node_eq hwf
      have hss' : ss ≠ [] := by
        rintro rfl
        have := hwl.2.length_eq
        simp at this; exact hne this
      simp only [List.length_map, length_natShape]
      rw [hr, hrl]
      rcases foldl_max_mem (ss.map fun s => (s.length : Int)) 0 with h0 | h0
      · obtain ⟨x, hx⟩ := List.exists_mem_of_ne_nil ss hss'
        have := (foldl_max_ge (ss.map fun s => (s.length : Int)) 0).2 x.length (List.mem_map.mpr ⟨x, hx, rfl⟩)
        exact ⟨x, hx, by omega⟩
      · obtain ⟨x, hx, hxl⟩ := List.mem_map.mp h0
        exact ⟨x, hx, by omega⟩
    · intro k n
      -- arguments on axis k
      have hcon : ∀ x, some x ∈ lenList t k ↔ ∃ s' ∈ ss, ∃ o, s'[k]? = some o ∧ lenVal o = x := by
        intro x
        have := hwl.2
        clear hb hwf hne hss hwl op
        induction this with
        | nil => simp [lenList]
        | @cons b s' t' ss' hab _ ih =>
          simp only [lenList, List.mem_cons, ih]
          constructor
          · rintro (h | ⟨s'', hs'', o, h⟩)
            · split at h
              · rename_i hkr
                injection h with h
                have hk' : k < s'.length := by rw [hab.1] at hkr; omega
                have hg : s'[k]? = some s'[k] := List.getElem?_eq_getElem hk'
                exact ⟨s', Or.inl rfl, s'[k], hg, by rw [h, hab.len hg]⟩
              · simp at h
            · exact ⟨s'', Or.inr hs'', o, h⟩
          · rintro ⟨s'', rfl | hs'', o, h⟩
            · left
              have hk' : k < s''.length := (List.getElem?_eq_some_iff.mp h.1).1
              rw [if_pos (by rw [hab.1]; omega), hab.len h.1, h.2]
            · right; exact ⟨s'', hs'', o, h⟩
      have hlens := lenList_val t hwl.1 k
      constructor
      · intro h
        simp only [List.getElem?_map, Option.map_eq_some_iff, Option.some.injEq] at h
        obtain ⟨n', h, rfl⟩ := h
        have hk : k < (Iter.node op t).rank.toNat := by
          have := (List.getElem?_eq_some_iff.mp h).1
          rwa [length_natShape] at this
        rw [natShape_get _ hk] at h
        injection h with h
        have hnn := hb k (by omega)
        have h2 := (colens_finite_iff (s := UNB) (Or.inr rfl) hlens hnn).mp (by simp only [Iter.len])
        have hU := UNB_val
        rcases h2.2.2 with h3 | h3
        · omega
        · obtain ⟨s', hs', o, ho, hov⟩ := (hcon _).mp h3
          refine ⟨s', hs', ?_⟩
          rw [ho]
          cases o with
          | none => simp only [lenVal] at hov; omega
          | some q => simp only [lenVal] at hov; congr 2; omega
      · rintro ⟨x, hx, hxk⟩
        have hmem := (hcon n).mpr ⟨x, hx, some n, hxk, rfl⟩
        have hk : k < (Iter.node op t).rank.toNat := by
          have hkx := (List.getElem?_eq_some_iff.mp hxk).1
          obtain ⟨i, hi, rfl⟩ := List.getElem_of_mem hx
          have hi' : i < t.length := by rw [hwl.2.length_eq]; exact hi
          have hf := hwl.2.get hi' hi
          have := rank_child_le hwf (List.getElem_mem hi')
          simp only [List.get_eq_getElem] at hf
          rw [hf.1] at this
          omega
        simp only [List.getElem?_map, natShape_get _ hk, Option.map_some, Option.some.injEq]
        have hnn := hb k (by omega)
        have h2 := (colens_finite_iff (s := UNB) (Or.inr rfl) hlens hnn).mp (by simp only [Iter.len])
        have hU := UNB_val
        rcases h2.2.1 _ hmem with h3 | h3
        · omega
        · omega
  · rintro ⟨s, hm⟩
    exact (Spec.HasShape.bounded (a := .node op t) ⟨ss, hss, hm⟩)

theorem mem_lenList_iff (t : List (Iter m α)) (k : Nat) (x : Int) :
    some x ∈ lenList t k ↔ ∃ a ∈ t, (k : Int) < a.rank ∧ a.len k = x := by
  induction t with
  | nil => simp [lenList]
  | cons b t ih =>
    simp only [lenList, List.mem_cons, ih]
    constructor
    · rintro (h | ⟨a, ha, h⟩)
      · split at h
        · rename_i hk
          injection h with h
          exact ⟨b, Or.inl rfl, hk, h.symm⟩
        · simp at h
      · exact ⟨a, Or.inr ha, h⟩
    · rintro ⟨a, rfl | ha, hk, h⟩
      · left; rw [if_pos hk, h]
      · right; exact ⟨a, ha, hk, h⟩

theorem rankList_eq (t : List (Iter m α)) : rankList t = t.map Iter.rank := by
  induction t with
  | nil => rfl
  | cons a t ih => simp [rankList, ih]

theorem WFList_iff (t : List (Iter m α)) : WFList t ↔ ∀ a ∈ t, a.WF := by
  induction t with
  | nil => simp [WFList]
  | cons a t ih => simp [WFList, ih]

/-- C03. The order of the arguments doesn't matter. This doesn't need the arguments to have a proper shape (they may be expressions that
don't match). -/
theorem C03_perm (t t' : List (Iter m α)) (hw : ∀ a ∈ t, a.WF) (hp : t.Perm t') : agree t = agree t' := by
  rcases eq_or_ne t [] with rfl | hne
  · rw [hp.nil_eq]
  have hne' : t' ≠ [] := by rintro rfl; exact hne hp.eq_nil
  have hw' : ∀ a ∈ t', a.WF := fun a ha => hw a (hp.mem_iff.mpr ha)
  let op : List (m α) → m α := fun _ => fault .ub
  have key : ∀ t t' : List (Iter m α), t ≠ [] → t' ≠ [] → (∀ a ∈ t, a.WF) → (∀ a ∈ t', a.WF) → t.Perm t' → agree t = true → agree t' = true := by
    intro t t' hne hne' hw hw' hp h
    have hwf : (Iter.node op t).WF := ⟨hne, (WFList_iff t).mpr hw⟩
    have hwf' : (Iter.node op t').WF := ⟨hne', (WFList_iff t').mpr hw'⟩
    rw [agree_iff_bounded op] at h ⊢
    intro k hk
    have hrank : (Iter.node op t).rank = (Iter.node op t').rank := by
      rw [rank_node_eq hwf, rank_node_eq hwf', rankList_eq, rankList_eq]
      exact (hp.map Iter.rank).foldl_eq' (fun _ _ _ _ _ => by omega) 0
    have hn := h k (by rw [hrank]; exact hk)
    have h1 := (colens_finite_iff (s := UNB) (Or.inr rfl) (lenList_val t hwf.2 k) hn).mp (by simp only [Iter.len])
    have h2 := (colens_finite_iff (s := UNB) (Or.inr rfl) (lenList_val t' hwf'.2 k) hn).mpr ⟨Or.inl rfl, ?_, ?_⟩
    · simp only [Iter.len] at h2 hn ⊢
      rw [h2]; exact hn
    · intro x hx
      obtain ⟨a, ha, hax⟩ := (mem_lenList_iff t' k x).mp hx
      exact h1.2.1 x ((mem_lenList_iff t k x).mpr ⟨a, hp.mem_iff.mpr ha, hax⟩)
    · rcases h1.2.2 with h3 | h3
      · left; exact h3
      · right
        obtain ⟨a, ha, hax⟩ := (mem_lenList_iff t k _).mp h3
        exact (mem_lenList_iff t' k _).mpr ⟨a, hp.mem_iff.mp ha, hax⟩
  rw [Bool.eq_iff_iff]
  exact ⟨key t t' hne hne' hw hw' hp, key t' t hne' hne hw' hw hp.symm⟩

/-- C03. An expression whose arguments don't have a finite prefix match is rejected by the check in every traversal, before any element is
evaluated. -/
theorem C03_rejects (stop : α → Option β) (op : List (m α) → m α) (t : List (Iter m α)) (ss : List (List Length)) (hss : HasShapes t ss)
    (hne : t ≠ []) (hm : ¬ ∃ s : List Nat, Merge ss (s.map some)) (z : List Int) :
    plyRavel stop z (.node op t) = fault .check ∧ plyFixed stop (.node op t) = fault .check ∧
    ∀ f : α → m β, stlFor f (.node op t) = fault .check := by
  have h : agree t ≠ true := fun h => hm ((C03_agree t ss hss hne).mp h)
  have hv : (Iter.node op t).validate = false := by simpa [Iter.validate, agree] using h
  refine ⟨?_, ?_, fun f => ?_⟩
  · simp [plyRavel, hv]
  · simp [plyFixed, hv]
  · simp [stlFor, Stl.begin, hv]

/-- Shapes (2, 3) and (3) don't match. -/
example (op : List (m α) → m α) (rd : Int → m α) :
    plyFixed (β := Unit) never (.node op [.cell [⟨2, 1⟩, ⟨3, 2⟩] 0 rd, .cell [⟨3, 1⟩] 0 rd]) = fault .check := by
  refine (C03_rejects never op _ [[some 2, some 3], [some 3]] ?_ (by simp) ?_ []).2.1
  · exact ⟨_, _, rfl, .cons rfl (.cons rfl .nil), _, _, rfl, .cons rfl .nil, rfl⟩
  · rintro ⟨s, _, _, h⟩
    have h2 := (h 0 2).mpr ⟨_, List.mem_cons_self, rfl⟩
    have h3 := (h 0 3).mpr ⟨[some 3], by simp, rfl⟩
    rw [h2] at h3
    simp at h3

/-- A single unbounded argument doesn't agree with itself: there's no finite length. -/
example : agree (m := Except Fault) (α := Int) [.cell [⟨UNB, 1⟩] 0 pure] = false := by decide

/-! ## C18 -/

/-- C18. Traversal of a reframed expression visits the elements of the original with the axes moved as it says. The shape is given by
`Reframed`. -/
theorem C18_reframe (dyn : Bool) (dest : List Nat) (hd : dest.Nodup) (a : Iter m α) (s0 : List Length) (h0 : HasShape a s0) (s : List Nat)
    (hr : Reframed dest s0 (s.map some)) (z : List Int) (hz : ∀ i ∈ z, i = 0) :
    (do let _ ← ply (β := β) dyn never z (.reframe dest a); pure ()) =
      forAll (fun j => elem a (dest.map fun d => j.getD d 0)) (rowMajor s) := by
  have h : HasShape (.reframe dest a) (s.map some) := ⟨hd, s0, h0, hr⟩
  cases dyn
  · have := C06_fixed_visits (β := β) _ s h
    simp only [elem] at this
    rw [← this]
    simp [ply]
  · have := C05_ravel_visits (β := β) _ s h z hz
    simp only [elem] at this
    rw [← this]
    simp [ply]

/-- C18, `at`. Here the reframed expression may have dead (unbounded) axes. -/
theorem C18_at (dest : List Nat) (hd : dest.Nodup) (a : Iter m α) (s0 : List Length) (h0 : HasShape a s0) (s : List Length)
    (hr : Reframed dest s0 s) (j : List Int) (hj : InRange s j) :
    (Iter.reframe dest a).at j = elem a (dest.map fun d => j.getD d 0) := by
  rw [C01_at (.reframe dest a) s ⟨hd, s0, h0, hr⟩ j hj]
  rfl

/-- C18, shape. -/
theorem C18_shape (dest : List Nat) (hd : dest.Nodup) (a : Iter m α) (s0 : List Length) (h0 : HasShape a s0) (s : List Length)
    (hr : Reframed dest s0 s) :
    (Iter.reframe dest a).rank = s.length ∧
    (∀ (l k : Nat), dest[l]? = some k → (Iter.reframe dest a).len k = a.len l) ∧
    (∀ k : Nat, k < s.length → k ∉ dest → (Iter.reframe dest a).len k = UNB) := by
  have h : HasShape (.reframe dest a) s := ⟨hd, s0, h0, hr⟩
  refine ⟨h.fits.1, fun l k hl => ?_, fun k hk hk' => ?_⟩
  · simp only [Iter.len, orig_of_nodup hd hl]
  · obtain ⟨_, _, _, _, h5⟩ := hr
    exact h.fits.len (h5 k hk hk')

/-- A transposed 2x3 view with two dead axes. -/
example : Reframed [3, 1] [some 2, some 3] [none, some 3, none, some 2] := by
  refine ⟨rfl, by simp, by simp, ?_, ?_⟩
  · intro l k h
    rcases l with _ | _ | l
    · simp at h; subst h; rfl
    · simp at h; subst h; rfl
    · simp at h
  · intro k hk hk'
    have : k < 4 := hk
    rcases k with _ | _ | _ | _ | k
    · rfl
    · simp at hk'
    · rfl
    · simp at hk'
    · omega

/-- C18 needs the axes not to repeat. With repeats the traversal doesn't visit the elements that `at` gives (it moves on one of the axes
only). The code marks this as TODO (expr.hh:397). -/
theorem C18_repeats_fail :
    let a : Iter (Except Fault) Int := .reframe [0, 0] (.cell [⟨2, 10⟩, ⟨2, 1⟩] 0 pure)
    a.at [1] = .ok 11 ∧ ((a.adv 0 1).deref = .ok 10) := by
  constructor <;> rfl

/-! ## C40, C41 -/

theorem pickStar_eq (I p0 : Nat) (xs : List (m α)) :
    pickStar I p0 xs = if h : I ≤ p0 ∧ p0 < I + xs.length then xs[p0 - I] else fault .check := by
  induction xs generalizing I with
  | nil => simp only [pickStar]; rw [dif_neg]; simp
  | cons x xs ih =>
    simp only [pickStar]
    by_cases hI : p0 = I
    · subst hI; simp
    · rw [if_neg hI, ih]
      by_cases h : I + 1 ≤ p0 ∧ p0 < I + 1 + xs.length
      · rw [dif_pos h, dif_pos (by simp; omega)]
        have : p0 - I = (p0 - (I + 1)) + 1 := by omega
        simp only [this, List.getElem_cons_succ]
      · rw [dif_neg h, dif_neg (by simp; omega)]

/-- C40. The element of `pick(p, a0, a1, ...)` at `j` is that of the argument selected by `p` at `j`; the others aren't evaluated. If the selector
is out of range the check fails. -/
theorem C40_pick (sel : α → Nat) (p : Iter m α) (t : List (Iter m α)) (ss : List (List Length)) (hss : HasShapes (p :: t) ss)
    (s : List Length) (hm : Merge ss s) (j : List Int) (hj : InRange s j) :
    (Iter.node (pickOp sel) (p :: t)).at j = (do
      let i ← elem p j
      if h : sel i < t.length then elem t[sel i] j else fault .check) := by
  rw [C01_at (.node (pickOp sel) (p :: t)) s ⟨ss, hss, hm⟩ j hj]
  simp only [elem, elems, pickOp]
  congr 1; funext i
  have hel : ∀ t : List (Iter m α), elems t j = t.map fun a => elem a j := by
    intro t
    induction t with
    | nil => rfl
    | cons a t ih => simp [elems, ih]
  rw [hel, pickStar_eq]
  simp only [Nat.zero_le, true_and, Nat.sub_zero, List.length_map, Nat.zero_add, List.getElem_map]

/-- C40, traversal. -/
theorem C40_pick_traversal (dyn : Bool) (sel : α → Nat) (p : Iter m α) (t : List (Iter m α)) (ss : List (List Length))
    (hss : HasShapes (p :: t) ss) (s : List Nat) (hm : Merge ss (s.map some)) (z : List Int) (hz : ∀ i ∈ z, i = 0) :
    (do let _ ← ply (β := β) dyn never z (.node (pickOp sel) (p :: t)); pure ()) = forAll (fun j => (do
      let i ← elem p j
      if h : sel i < t.length then elem t[sel i] j else fault .check)) (rowMajor s) := by
  have h : HasShape (.node (pickOp sel) (p :: t)) (s.map some) := ⟨ss, hss, hm⟩
  have hx : ∀ j ∈ rowMajor s, elem (.node (pickOp sel) (p :: t)) j = (do
      let i ← elem p j
      if h : sel i < t.length then elem t[sel i] j else fault .check) := by
    intro j hj
    have hv := Spec.Valid.inRange (Spec.mem_rowMajor.mp hj)
    rw [← C40_pick sel p t ss hss _ hm j hv, C01_at _ _ h j hv]
  rw [← Spec.forAll_congr hx]
  cases dyn
  · rw [← C06_fixed_visits (β := β) _ s h]
    simp [ply]
  · rw [← C05_ravel_visits (β := β) _ s h z hz]
    simp [ply]

section
variable [Boolean α]

theorem elem_castBool (a : Iter m α) (j : List Int) : elem (castBool a) j = (do let x ← elem a j; pure (ofBool (toBool x))) := by
  simp [castBool, elem, elems, mapOp]

theorem castBool_shape {a : Iter m α} {s : List Length} (h : HasShape a s) : HasShape (castBool a) s :=
  ⟨[s], ⟨_, _, rfl, h, rfl⟩, by simp, ⟨s, by simp⟩, by simp⟩

theorem where_shape {w t f : Iter m α} {sw st sf s : List Length} (hw : HasShape w sw) (ht : HasShape t st) (hf : HasShape f sf)
    (hm : Merge [sw, st, sf] s) : HasShape (whereOp w t f) s := by
  refine ⟨[sw, sf, st], ⟨_, _, rfl, castBool_shape hw, _, _, rfl, hf, _, _, rfl, ht, rfl⟩, ?_⟩
  obtain ⟨h1, ⟨x, hx, hxl⟩, h3⟩ := hm
  have hp : ∀ x, x ∈ [sw, sf, st] ↔ x ∈ [sw, st, sf] := by intro x; simp; tauto
  exact ⟨fun x hx => h1 x ((hp x).mp hx), ⟨x, (hp x).mpr hx, hxl⟩, fun k n => by simp only [hp]; exact h3 k n⟩

theorem elem_where (w t f : Iter m α) (j : List Int) : elem (whereOp w t f) j = (do
    let x ← elem w j
    if toBool x then elem t j else elem f j) := by
  simp only [whereOp, elem, elems, pickOp, elem_castBool, bind_assoc, pure_bind, Boolean.toBool_ofBool]
  congr 1; funext x
  cases toBool x <;> simp [pickStar]

/-- C40. `where(w, t, f)` has the shape of the match of its arguments, and its element at `j` is that of `t` if the one of `w` is true, else that
of `f`. Only the selected one is evaluated. -/
theorem C40_where (w t f : Iter m α) (sw st sf s : List Length) (hw : HasShape w sw) (ht : HasShape t st) (hf : HasShape f sf)
    (hm : Merge [sw, st, sf] s) (j : List Int) (hj : InRange s j) :
    (whereOp w t f).at j = (do
      let x ← elem w j
      if toBool x then elem t j else elem f j) := by
  rw [C01_at _ s (where_shape hw ht hf hm) j hj, elem_where]

/-- C40. Traversal of `where(w, t, f)`. -/
theorem C40_where_traversal (dyn : Bool) (w t f : Iter m α) (sw st sf : List Length) (s : List Nat) (hw : HasShape w sw) (ht : HasShape t st)
    (hf : HasShape f sf) (hm : Merge [sw, st, sf] (s.map some)) (z : List Int) (hz : ∀ i ∈ z, i = 0) :
    (do let _ ← ply (β := β) dyn never z (whereOp w t f); pure ()) = forAll (fun j => (do
      let x ← elem w j
      if toBool x then elem t j else elem f j)) (rowMajor s) := by
  have h := where_shape hw ht hf hm
  rw [← Spec.forAll_congr (fun j _ => elem_where w t f j)]
  cases dyn
  · rw [← C06_fixed_visits (β := β) _ s h]; simp [ply]
  · rw [← C05_ravel_visits (β := β) _ s h z hz]; simp [ply]

/-- C40. A bad selector fails the check, and no argument is evaluated. -/
theorem C40_bad (sel : α → Nat) (v : α) (t : List (Iter m α)) (h : t.length ≤ sel v) :
    (Iter.node (pickOp sel) (.scalar (pure v) :: t)).deref = fault .check := by
  have hl : ∀ t : List (Iter m α), (derefList t).length = t.length := by
    intro t
    induction t with
    | nil => rfl
    | cons a t ih => simp [derefList, ih]
  simp only [Iter.deref, derefList, pickOp, pure_bind]
  rw [pickStar_eq, dif_neg]
  rw [hl]; omega

theorem and_shape {a b : Iter m α} {sa sb s : List Length} (ha : HasShape a sa) (hb : HasShape b sb) (hm : Merge [sa, sb] s) :
    HasShape (andOp a b) s := by
  refine where_shape (st := sb) (sf := []) ha (castBool_shape hb) rfl ?_
  obtain ⟨h1, ⟨x, hx, hxl⟩, h3⟩ := hm
  simp only [List.mem_cons, List.not_mem_nil, or_false] at h1 hx h3
  refine ⟨?_, ⟨x, by simp; tauto, hxl⟩, fun k n => ?_⟩
  · intro x hx; simp at hx; rcases hx with rfl | rfl | rfl
    · exact h1 _ (Or.inl rfl)
    · exact h1 _ (Or.inr rfl)
    · simp
  · rw [h3]
    simp

theorem or_shape {a b : Iter m α} {sa sb s : List Length} (ha : HasShape a sa) (hb : HasShape b sb) (hm : Merge [sa, sb] s) :
    HasShape (orOp a b) s := by
  refine where_shape (st := []) (sf := sb) ha rfl (castBool_shape hb) ?_
  obtain ⟨h1, ⟨x, hx, hxl⟩, h3⟩ := hm
  simp only [List.mem_cons, List.not_mem_nil, or_false] at h1 hx h3
  refine ⟨?_, ⟨x, by simp; tauto, hxl⟩, fun k n => ?_⟩
  · intro x hx; simp at hx; rcases hx with rfl | rfl | rfl
    · exact h1 _ (Or.inl rfl)
    · simp
    · exact h1 _ (Or.inr rfl)
  · rw [h3]
    simp

/-- C41. `a && b` on arrays: the element of `b` is evaluated only if that of `a` is true. -/
theorem C41_and (a b : Iter m α) (sa sb s : List Length) (ha : HasShape a sa) (hb : HasShape b sb) (hm : Merge [sa, sb] s) (j : List Int)
    (hj : InRange s j) :
    (andOp a b).at j = (do
      let x ← elem a j
      if toBool x then (do let y ← elem b j; pure (ofBool (toBool y))) else pure (ofBool false)) := by
  rw [C01_at _ s (and_shape ha hb hm) j hj, andOp, elem_where]
  simp only [elem_castBool, elem]

/-- C41. `a || b` on arrays: the element of `b` is evaluated only if that of `a` is false. -/
theorem C41_or (a b : Iter m α) (sa sb s : List Length) (ha : HasShape a sa) (hb : HasShape b sb) (hm : Merge [sa, sb] s) (j : List Int)
    (hj : InRange s j) :
    (orOp a b).at j = (do
      let x ← elem a j
      if toBool x then pure (ofBool true) else (do let y ← elem b j; pure (ofBool (toBool y)))) := by
  rw [C01_at _ s (or_shape ha hb hm) j hj, orOp, elem_where]
  simp only [elem_castBool, elem]

/-- C41. For elements without effects these are the Boolean operations. -/
theorem C41_pure (a b : Iter m α) (sa sb s : List Length) (ha : HasShape a sa) (hb : HasShape b sb) (hm : Merge [sa, sb] s) (j : List Int)
    (hj : InRange s j) (x y : α) (hx : elem a j = pure x) (hy : elem b j = pure y) :
    (andOp a b).at j = pure (ofBool (toBool x && toBool y)) ∧ (orOp a b).at j = pure (ofBool (toBool x || toBool y)) := by
  rw [C41_and a b sa sb s ha hb hm j hj, C41_or a b sa sb s ha hb hm j hj, hx, hy]
  simp only [pure_bind]
  cases toBool x <;> simp

/-- C41, traversal. -/
theorem C41_traversal (dyn : Bool) (a b : Iter m α) (sa sb : List Length) (s : List Nat) (ha : HasShape a sa) (hb : HasShape b sb)
    (hm : Merge [sa, sb] (s.map some)) (z : List Int) (hz : ∀ i ∈ z, i = 0) :
    (do let _ ← ply (β := β) dyn never z (andOp a b); pure ()) = forAll (fun j => (do
      let x ← elem a j
      if toBool x then (do let y ← elem b j; pure (ofBool (toBool y))) else pure (ofBool false : α))) (rowMajor s) ∧
    (do let _ ← ply (β := β) dyn never z (orOp a b); pure ()) = forAll (fun j => (do
      let x ← elem a j
      if toBool x then pure (ofBool true : α) else (do let y ← elem b j; pure (ofBool (toBool y))))) (rowMajor s) := by
  have h1 := and_shape ha hb hm
  have h2 := or_shape ha hb hm
  have e1 : ∀ j, elem (andOp a b) j = (do
      let x ← elem a j
      if toBool x then (do let y ← elem b j; pure (ofBool (toBool y))) else pure (ofBool false)) := by
    intro j; rw [andOp, elem_where]; simp only [elem_castBool, elem]
  have e2 : ∀ j, elem (orOp a b) j = (do
      let x ← elem a j
      if toBool x then pure (ofBool true) else (do let y ← elem b j; pure (ofBool (toBool y)))) := by
    intro j; rw [orOp, elem_where]; simp only [elem_castBool, elem]
  rw [← Spec.forAll_congr (fun j _ => e1 j), ← Spec.forAll_congr (fun j _ => e2 j)]
  cases dyn
  · rw [← C06_fixed_visits (β := β) _ s h1, ← C06_fixed_visits (β := β) _ s h2]; simp [ply]
  · rw [← C05_ravel_visits (β := β) _ s h1 z hz, ← C05_ravel_visits (β := β) _ s h2 z hz]; simp [ply]

end

/-- `where` over a 2x3 view, a 2-vector, and a scalar. -/
example : Merge [[some 2, some 3], [some 2], []] [some 2, some 3] := by
  refine ⟨by simp, by simp, fun k n => ?_⟩
  rcases k with _ | _ | k <;> simp

/-- The failing branch isn't evaluated: the last argument would fail. -/
example : (andOp (m := Except Fault) (α := Int) (.cell [⟨3, 1⟩] 0 fun i => .ok (if i = 0 then 1 else 0)) (.cell [⟨3, 1⟩] 0
    fun i => if i = 0 then .ok 7 else .error .ub)).at [1] = .ok 0 := rfl

end Ra.Props
