import Verif.Props.ViewOps
/-!
# Transposition of views: C20
-/

namespace Ra.Spec

/-- Length of an axis that takes its index to several axes of lengths `ls`: the smallest of the finite ones, or unbounded. -/
def DiagLen (ls : List Length) : Length → Prop
  | none => ∀ l ∈ ls, l = none
  | some n => some n ∈ ls ∧ ∀ m, some m ∈ ls → n ≤ m

/-- The lengths of the axes that go to axis `a`. -/
def sources (ax : List Nat) (s : List Length) (a : Nat) : List Length := ((ax.zip s).filter (·.1 == a)).map (·.2)

/-- The source index of index `j` of the transposed view. -/
def pullback (ax : List Nat) (j : List Int) : List Int := ax.map fun a => j.getD a 0

/-- The rank of the transposed view. -/
def TransRank (ax : List Nat) (r : Nat) : Prop := (∀ a ∈ ax, a < r) ∧ (r = 0 ∨ r - 1 ∈ ax)

/-- No axis of the result takes both bounded and unbounded axes. -/
def NoMix (ax : List Nat) (s : List Length) : Prop := ∀ a, (∀ l ∈ sources ax s a, l = none) ∨ (∀ l ∈ sources ax s a, l ≠ none)

/-- What comes after the last unbounded one. -/
def afterUnbounded : List Length → List Length
  | [] => []
  | l :: ls => if none ∈ l :: ls then afterUnbounded ls else l :: ls

end Ra.Spec

namespace Ra.Props
open Spec (Length DimLen Shaped InRange address dot HasShape elem Valid DiagLen sources pullback TransRank NoMix afterUnbounded)

/-- One step on an axis in `transpose_dims`. -/
def comb (e d : Dim) : Dim := ⟨if e.len ≥ 0 then min e.len d.len else d.len, e.step + d.step⟩

theorem transposeLoop_spec (ax : List Nat) (dims dst : List Dim) (h : ∀ a ∈ ax, a < dst.length) (hl : ax.length = dims.length) :
    ∃ r, transposeLoop dst ((ax.map (Nat.cast : Nat → Int)).zip dims) = .ok r ∧ r.length = dst.length ∧
      (∀ a, r[a]? = dst[a]?.map fun e => ((((ax.zip dims).filter (·.1 == a)).map (·.2)).foldl comb e)) ∧
      ∀ j : List Int, dst.length ≤ j.length → dot (r.map Dim.step) j = dot (dst.map Dim.step) j + dot (dims.map Dim.step) (pullback ax j) := by
  induction ax generalizing dims dst with
  | nil =>
    have : dims = [] := by simpa using hl.symm
    subst this
    exact ⟨dst, by simp [transposeLoop], rfl, by simp, by simp [pullback, dot]⟩
  | cons a ax ih =>
    cases dims with
    | nil => simp at hl
    | cons d dims =>
      have ha : a < dst.length := h a (by simp)
      obtain ⟨r, h1, h2, h3, h4⟩ := ih dims (dst.set a (comb dst[a] d)) (by simpa using fun x hx => h x (by simp [hx])) (by simpa using hl)
      refine ⟨r, ?_, by simpa using h2, ?_, ?_⟩
      · simp only [List.map_cons, List.zip_cons_cons, transposeLoop]
        rw [if_neg (by omega)]
        simp only [Int.toNat_natCast, List.getElem?_eq_getElem ha]
        exact h1
      · intro b
        rw [h3 b, List.getElem?_set]
        by_cases hb : a = b
        · subst hb
          simp [ha]
        · simp [hb]
      · intro j hj
        rw [h4 j (by simpa using hj)]
        simp only [List.map_set, List.map_cons, pullback, dot_cons]
        rw [dot_set _ j a _ (j.getD a 0) (by simpa using ha) (by omega)]
        have e1 : j.set a (j.getD a 0) = j := by
          have : a < j.length := by omega
          rw [List.getD_eq_getElem?_getD, List.getElem?_eq_getElem this]
          simp
        have e2 : (dst.map Dim.step).getD a 0 = dst[a].step := by simp [List.getD_eq_getElem?_getD, ha]
        rw [e1, e2]
        simp only [comb]
        ring

theorem foldl_max_cast (xs : List Nat) (x : Nat) : (xs.map (Nat.cast : Nat → Int)).foldl max (x : Int) = (xs.foldl max x : Nat) := by
  induction xs generalizing x with
  | nil => rfl
  | cons y xs ih =>
    simp only [List.map_cons, List.foldl_cons]
    rw [← ih]
    congr 1
    norm_cast

theorem foldl_max_spec (xs : List Nat) (x : Nat) : x ≤ xs.foldl max x ∧ (∀ y ∈ xs, y ≤ xs.foldl max x) ∧ (xs.foldl max x = x ∨ xs.foldl max x ∈ xs) := by
  induction xs generalizing x with
  | nil => simp
  | cons y xs ih =>
    obtain ⟨h1, h2, h3⟩ := ih (max x y)
    simp only [List.foldl_cons]
    refine ⟨by omega, ?_, ?_⟩
    · intro z hz
      rcases List.mem_cons.mp hz with rfl | hz
      · omega
      · exact h2 z hz
    · rcases h3 with h3 | h3
      · rw [h3]
        rcases le_total x y with h | h
        · right; simp [max_eq_right h]
        · left; exact max_eq_left h
      · right; simp [h3]

theorem trank_spec (ax : List Nat) : ∃ r : Nat, trank (ax.map Nat.cast) = r ∧ TransRank ax r := by
  cases ax with
  | nil => exact ⟨0, rfl, by simp [TransRank]⟩
  | cons x xs =>
    obtain ⟨h1, h2, h3⟩ := foldl_max_spec xs x
    refine ⟨1 + xs.foldl max x, ?_, ?_, ?_⟩
    · simp only [List.map_cons, trank, foldl_max_cast]; norm_cast
    · intro a ha
      rcases List.mem_cons.mp ha with rfl | ha
      · omega
      · have := h2 a ha; omega
    · right
      rw [show 1 + xs.foldl max x - 1 = xs.foldl max x by omega]
      rcases h3 with h3 | h3
      · rw [h3]; simp
      · simp [h3]

theorem transRank_unique {ax : List Nat} {r r' : Nat} (h : TransRank ax r) (h' : TransRank ax r') : r = r' := by
  have : ∀ {r r'}, TransRank ax r → TransRank ax r' → r ≤ r' := by
    intro r r' h h'
    rcases h.2 with h2 | h2
    · omega
    · have := h'.1 _ h2; omega
  exact le_antisymm (this h h') (this h' h)

theorem transpose_eq (v : View) (ax : List Nat) (hax : ax.length = v.dims.length) :
    ∃ (n : Nat) (r : List Dim), TransRank ax n ∧ v.transpose (ax.map Nat.cast) = .ok ⟨r, v.cp⟩ ∧ r.length = n ∧
      (∀ a < n, r[a]? = some ((((ax.zip v.dims).filter (·.1 == a)).map (·.2)).foldl comb ⟨UNB, 0⟩)) ∧
      ∀ j : List Int, n ≤ j.length → dot (r.map Dim.step) j = dot (v.dims.map Dim.step) (pullback ax j) := by
  obtain ⟨n, h1, h2⟩ := trank_spec ax
  obtain ⟨r, h3, h4, h5, h6⟩ := transposeLoop_spec ax v.dims (List.replicate n ⟨UNB, 0⟩) (by simpa using h2.1) hax
  refine ⟨n, r, h2, ?_, by simpa using h4, ?_, ?_⟩
  · simp only [View.transpose, h1]
    rw [if_neg (by omega), if_pos (by simpa using hax), Int.toNat_natCast, h3]
    rfl
  · intro a ha
    rw [h5 a]
    simp [ha]
  · intro j hj
    rw [h6 j (by simpa using hj), List.map_replicate, dot_zeros, zero_add]

/-- C20. Rank of the transposed view and its elements: element `j` is element `(j[s0], j[s1], ...)` of the source. -/
theorem C20_elements (v : View) (ax : List Nat) (hax : ax.length = v.dims.length) :
    ∃ r, v.transpose (ax.map Nat.cast) = .ok r ∧ TransRank ax r.dims.length ∧
      ∀ j : List Int, r.dims.length ≤ j.length → address r j = address v (pullback ax j) := by
  obtain ⟨n, r, h1, h2, h3, _, h4⟩ := transpose_eq v ax hax
  refine ⟨_, h2, by simpa [h3] using h1, ?_⟩
  intro j hj
  simp only at hj
  simp only [address, h4 j (by omega)]

theorem foldl_comb_none (ds : List Dim) (ls : List Length) (h : List.Forall₂ DimLen ds ls) (hn : ∀ l ∈ ls, l = none) (e : Dim) (he : e.len = UNB) :
    (ds.foldl comb e).len = UNB := by
  induction h generalizing e with
  | nil => simpa using he
  | cons h1 h2 ih =>
    rename_i d o ds ls
    have : o = none := hn o (by simp)
    subst this
    simp only [List.foldl_cons]
    apply ih (fun l hl => hn l (by simp [hl]))
    have := UNB_val
    simp only [comb]
    rw [if_neg (by omega)]
    exact h1

theorem foldl_comb_some (ds : List Dim) (ls : List Length) (h : List.Forall₂ DimLen ds ls) (hn : ∀ l ∈ ls, l ≠ none) (e : Dim) (n : Nat) (he : e.len = n) :
    ∃ k : Nat, (ds.foldl comb e).len = k ∧ k ≤ n ∧ (∀ m, some m ∈ ls → k ≤ m) ∧ (k = n ∨ some k ∈ ls) := by
  induction h generalizing e n with
  | nil => exact ⟨n, he, le_refl _, by simp, .inl rfl⟩
  | cons h1 h2 ih =>
    rename_i d o ds ls
    cases o with
    | none => exact absurd rfl (hn none (by simp))
    | some m =>
      simp only [DimLen] at h1
      obtain ⟨k, h3, h4, h5, h6⟩ := ih (fun l hl => hn l (by simp [hl])) (comb e d) (min n m) (by
        simp only [comb]
        rw [if_pos (by omega), he, h1]
        norm_cast)
      refine ⟨k, h3, by omega, ?_, ?_⟩
      · intro x hx
        simp at hx
        rcases hx with rfl | hx
        · omega
        · exact h5 x hx
      · rcases h6 with h6 | h6
        · rcases le_total n m with h | h
          · left; omega
          · right; simp; left; omega
        · right; simp [h6]

theorem foldl_comb_diag (ds : List Dim) (ls : List Length) (h : List.Forall₂ DimLen ds ls) (hn : (∀ l ∈ ls, l = none) ∨ (∀ l ∈ ls, l ≠ none)) :
    ∃ o, DimLen (ds.foldl comb ⟨UNB, 0⟩) o ∧ DiagLen ls o := by
  rcases hn with hn | hn
  · exact ⟨none, foldl_comb_none ds ls h hn _ rfl, hn⟩
  · cases h with
    | nil => exact ⟨none, rfl, by simp [DiagLen]⟩
    | cons h1 h2 =>
      rename_i d o ds ls
      cases o with
      | none => exact absurd rfl (hn none (by simp))
      | some m =>
        simp only [DimLen] at h1
        obtain ⟨k, h3, h4, h5, h6⟩ := foldl_comb_some ds ls h2 (fun l hl => hn l (by simp [hl])) (comb ⟨UNB, 0⟩ d) m (by
          have := UNB_val
          simp only [comb]
          rw [if_neg (by omega)]; exact h1)
        refine ⟨some k, h3, ?_, ?_⟩
        · rcases h6 with h6 | h6
          · simp [h6]
          · simp [h6]
        · intro x hx
          simp at hx
          rcases hx with rfl | hx
          · exact h4
          · exact h5 x hx

theorem forall2_filter_zip (ax : List Nat) (ds : List Dim) (ls : List Length) (h : List.Forall₂ DimLen ds ls) (a : Nat) :
    List.Forall₂ DimLen (((ax.zip ds).filter (·.1 == a)).map (·.2)) (sources ax ls a) := by
  unfold sources
  induction h generalizing ax with
  | nil => simp
  | cons h1 h2 ih =>
    cases ax with
    | nil => simp
    | cons b ax =>
      simp only [List.zip_cons_cons, List.filter_cons]
      split
      · exact .cons h1 (ih ax)
      · exact ih ax

theorem diag_inRange {ax : List Nat} {s t : List Length} (hl : ax.length = s.length)
    (h : ∀ a (ha : a < t.length), DiagLen (sources ax s a) t[a]) (hax : ∀ a ∈ ax, a < t.length) (j : List Int) (hj : InRange t j) : InRange s (pullback ax j) := by
  refine ⟨by simp [pullback, hl], ?_⟩
  intro k n hk
  obtain ⟨hks, hkn⟩ := List.getElem?_eq_some_iff.mp hk
  have hka : k < ax.length := by omega
  have ha : ax[k] < t.length := hax _ (List.getElem_mem hka)
  have hd := h ax[k] ha
  have hm : some n ∈ sources ax s ax[k] := by
    simp only [sources, List.mem_map, List.mem_filter, Prod.exists]
    refine ⟨ax[k], some n, ⟨?_, by simp⟩, rfl⟩
    rw [List.mem_iff_getElem]
    exact ⟨k, by simp; omega, by simp [hkn]⟩
  have hp : (pullback ax j).getD k 0 = j.getD ax[k] 0 := by
    simp [pullback, List.getD_eq_getElem?_getD, hka]
  rw [hp]
  cases ho : t[ax[k]] with
  | none =>
    rw [ho] at hd
    exact absurd (hd _ hm) (by simp)
  | some x =>
    rw [ho] at hd
    have := hd.2 n hm
    have h2 := hj.2 ax[k] x (by simp [ha, ho])
    omega

/-- C20. The lengths: an axis that receives several axes is a diagonal, axes that aren't named are unbounded; and all the elements are elements of the source.
What's missing are the lists that send both bounded and unbounded axes to the same axis (`C20_mixed_negation`). -/
theorem C20_shape_partial (v : View) (s : List Length) (hv : Shaped v s) (ax : List Nat) (hax : ax.length = s.length) (hm : NoMix ax s) :
    ∃ r t, v.transpose (ax.map Nat.cast) = .ok r ∧ Shaped r t ∧ (∀ a (ha : a < t.length), DiagLen (sources ax s a) t[a]) ∧
      ∀ j, InRange t j → address r j = address v (pullback ax j) ∧ InRange s (pullback ax j) := by
  have hl := hv.length_eq
  obtain ⟨n, r, h1, h2, h3, h5, h4⟩ := transpose_eq v ax (by omega)
  have key : ∀ a : Nat, ∃ o, DimLen ((((ax.zip v.dims).filter (·.1 == a)).map (·.2)).foldl comb ⟨UNB, 0⟩) o ∧ DiagLen (sources ax s a) o :=
    fun a => foldl_comb_diag _ _ (forall2_filter_zip ax v.dims s hv a) (hm a)
  choose t ht using key
  have hs : Shaped ⟨r, v.cp⟩ ((List.range n).map t) := by
    unfold Shaped
    rw [List.forall₂_iff_get]
    refine ⟨by simp [h3], ?_⟩
    intro a ha1 ha2
    simp at ha2
    have := h5 a ha2
    rw [List.getElem?_eq_some_iff] at this
    obtain ⟨_, this⟩ := this
    simp only [List.get_eq_getElem, this, List.getElem_map, List.getElem_range]
    exact (ht a).1
  have hd : ∀ a (ha : a < ((List.range n).map t).length), DiagLen (sources ax s a) ((List.range n).map t)[a] := by
    intro a ha
    simpa using (ht a).2
  refine ⟨_, _, h2, hs, hd, ?_⟩
  intro j hj
  have hjl : n ≤ j.length := by simpa using hj.1
  refine ⟨by simp only [address, h4 j hjl], diag_inRange hax hd (by simpa using h1.1) j hj⟩

theorem foldl_comb_after (ds : List Dim) (ls : List Length) (h : List.Forall₂ DimLen ds ls) (e : Dim) (l : Length) (he : DimLen e l) :
    ∃ o, DimLen (ds.foldl comb e) o ∧ DiagLen (afterUnbounded (l :: ls)) o := by
  have hu := UNB_val
  induction h generalizing e l with
  | nil =>
    refine ⟨l, he, ?_⟩
    cases l <;> simp [afterUnbounded, DiagLen]
  | cons h1 h2 ih =>
    rename_i d o ds ls
    simp only [List.foldl_cons]
    cases l with
    | none =>
      rw [show afterUnbounded (none :: o :: ls) = afterUnbounded (o :: ls) by simp [afterUnbounded]]
      apply ih
      simp only [DimLen] at he
      simp only [comb]
      rw [if_neg (by omega)]
      cases o <;> exact h1
    | some n =>
      simp only [DimLen] at he
      cases o with
      | none =>
        simp only [DimLen] at h1
        obtain ⟨o, h3, h4⟩ := ih (comb e d) none (by simp only [DimLen, comb]; rw [if_pos (by omega)]; omega)
        refine ⟨o, h3, ?_⟩
        simpa [afterUnbounded] using h4
      | some m =>
        simp only [DimLen] at h1
        obtain ⟨o, h3, h4⟩ := ih (comb e d) (some (min n m)) (by
          simp only [DimLen, comb]; rw [if_pos (by omega), he, h1]; norm_cast)
        refine ⟨o, h3, ?_⟩
        by_cases hn : none ∈ ls
        · simpa [afterUnbounded, hn] using h4
        · simp [afterUnbounded, hn] at h4 ⊢
          cases o with
          | none => simp [DiagLen] at h4
          | some k =>
            simp only [DiagLen, List.mem_cons, Option.some.injEq] at h4 ⊢
            obtain ⟨h5, h6⟩ := h4
            refine ⟨?_, ?_⟩
            · rcases h5 with h5 | h5
              · omega
              · exact .inr (.inr h5)
            · have := h6 (min n m) (.inl rfl)
              rintro x (rfl | rfl | hx)
              · omega
              · omega
              · exact h6 x (.inr hx)

/-- C20, the lengths for any list of axes. The length of an axis is the smallest of the lengths that go there *after the last unbounded one*, if any do, and else it's unbounded. -/
theorem C20_lengths (v : View) (s : List Length) (hv : Shaped v s) (ax : List Nat) (hax : ax.length = s.length) :
    ∃ r t, v.transpose (ax.map Nat.cast) = .ok r ∧ Shaped r t ∧ TransRank ax t.length ∧ ∀ a (ha : a < t.length), DiagLen (afterUnbounded (sources ax s a)) t[a] := by
  have hl := hv.length_eq
  obtain ⟨n, r, h1, h2, h3, h5, h4⟩ := transpose_eq v ax (by omega)
  have key : ∀ a : Nat, ∃ o, DimLen ((((ax.zip v.dims).filter (·.1 == a)).map (·.2)).foldl comb ⟨UNB, 0⟩) o ∧ DiagLen (afterUnbounded (sources ax s a)) o := by
    intro a
    obtain ⟨o, h6, h7⟩ := foldl_comb_after _ _ (forall2_filter_zip ax v.dims s hv a) ⟨UNB, 0⟩ none rfl
    exact ⟨o, h6, by simpa [afterUnbounded] using h7⟩
  choose t ht using key
  refine ⟨_, (List.range n).map t, h2, ?_, by simpa using h1, by intro a ha; simpa using (ht a).2⟩
  unfold Shaped
  rw [List.forall₂_iff_get]
  refine ⟨by simp [h3], ?_⟩
  intro a ha1 ha2
  simp at ha2
  have := h5 a ha2
  rw [List.getElem?_eq_some_iff] at this
  obtain ⟨_, this⟩ := this
  simp only [List.get_eq_getElem, List.getElem_map, List.getElem_range]
  rw [this]
  exact (ht a).1

/-- C20. So the lengths are right just when, for each axis, no length that goes there before an unbounded one is smaller than all of those after. -/
theorem C20_lengths_right (v r : View) (s t : List Length) (hv : Shaped v s) (ax : List Nat) (hax : ax.length = s.length)
    (hr : v.transpose (ax.map Nat.cast) = .ok r) (ht : Shaped r t) :
    (∀ a (ha : a < t.length), DiagLen (sources ax s a) t[a]) ↔
      ∀ a m, some m ∈ sources ax s a → ∃ n, some n ∈ afterUnbounded (sources ax s a) ∧ n ≤ m := by
  obtain ⟨r', t', h1, h2, h3, h4⟩ := C20_lengths v s hv ax hax
  rw [hr] at h1
  injection h1 with h1
  subst h1
  have : t' = t := by
    unfold Shaped at h2 ht
    refine List.ext_getElem (by rw [← h2.length_eq, ht.length_eq]) ?_
    intro k hk1 hk2
    have h5 := (List.forall₂_iff_get.mp h2).2 k (by rw [h2.length_eq]; exact hk1) hk1
    have h6 := (List.forall₂_iff_get.mp ht).2 k (by rw [h2.length_eq]; exact hk1) hk2
    have hu := UNB_val
    simp only [List.get_eq_getElem] at h5 h6
    generalize t'[k] = x at h5 ⊢
    generalize t[k] = y at h6 ⊢
    cases x <;> cases y <;> simp only [DimLen] at h5 h6
    · rfl
    · omega
    · omega
    · rw [h5] at h6; norm_cast at h6; rw [h6]
  subst this
  have hsub : ∀ ls : List Length, ∀ l ∈ afterUnbounded ls, l ∈ ls := by
    intro ls
    induction ls with
    | nil => simp [afterUnbounded]
    | cons x ls ih =>
      intro l hl
      rw [afterUnbounded] at hl
      split at hl
      · exact List.mem_cons_of_mem _ (ih l hl)
      · exact hl
  constructor
  · intro h a m hm
    have ha : a < t'.length := by
      apply h3.1
      simp only [sources, List.mem_map, List.mem_filter, Prod.exists] at hm
      obtain ⟨x, y, ⟨hxy, hxa⟩, rfl⟩ := hm
      have := (List.of_mem_zip hxy).1
      simp only [beq_iff_eq] at hxa
      exact hxa ▸ this
    have h5 := h a ha
    have h6 := h4 a ha
    cases ho : t'[a] with
    | none => rw [ho] at h5; simpa using h5 _ hm
    | some n =>
      rw [ho] at h5 h6
      exact ⟨n, h6.1, h5.2 m hm⟩
  · intro h a ha
    have h6 := h4 a ha
    cases ho : t'[a] with
    | none =>
      rw [ho] at h6
      intro l hl
      cases l with
      | none => rfl
      | some m =>
        obtain ⟨n, hn, _⟩ := h a m hl
        simpa using h6 _ hn
    | some n =>
      rw [ho] at h6
      refine ⟨hsub _ _ h6.1, ?_⟩
      intro m hm
      obtain ⟨k, hk, hkm⟩ := h a m hm
      exact le_trans (h6.2 k hk) hkm

theorem filter_zip_nodup (ax : List Nat) (ds : List Dim) (hn : ax.Nodup) (k : Nat) (h1 : k < ax.length) (h2 : k < ds.length) :
    ((ax.zip ds).filter (·.1 == ax[k])).map (·.2) = [ds[k]] := by
  induction ax generalizing ds k with
  | nil => simp at h1
  | cons b ax ih =>
    cases ds with
    | nil => simp at h2
    | cons d ds =>
      rw [List.nodup_cons] at hn
      have nil : ∀ (ax : List Nat) (ds : List Dim) (b : Nat), b ∉ ax → (ax.zip ds).filter (·.1 == b) = [] := by
        intro ax ds b hb
        rw [List.filter_eq_nil_iff]
        rintro ⟨x, y⟩ hxy
        have := (List.of_mem_zip hxy).1
        simp only [beq_iff_eq]
        rintro rfl
        exact hb this
      cases k with
      | zero => simp [nil ax ds b hn.1]
      | succ k =>
        have hk : k < ax.length := by simpa using h1
        simp only [List.getElem_cons_succ, List.zip_cons_cons, List.filter_cons]
        rw [if_neg]
        · exact ih ds hn.2 k hk (by simpa using h2)
        · simp only [beq_iff_eq]
          intro h
          exact hn.1 (h ▸ List.getElem_mem hk)

theorem comb_first (d : Dim) : comb ⟨UNB, 0⟩ d = d := by
  have := UNB_val
  simp only [comb]
  rw [if_neg (by omega), zero_add]

/-- C20. For a permutation, transposing by the inverse permutation restores the view. -/
theorem C20_inverse (v : View) (ax bx : List Nat) (ha : ax.Perm (List.range v.dims.length)) (hb : bx.Perm (List.range v.dims.length))
    (hinv : ∀ k (h : k < ax.length), bx[ax[k]]? = some k) :
    ∃ r, v.transpose (ax.map Nat.cast) = .ok r ∧ r.transpose (bx.map Nat.cast) = .ok v := by
  obtain ⟨dims, cp⟩ := v
  simp only at ha hb
  generalize hN : dims.length = N at ha hb
  have la : ax.length = N := by simpa using ha.length_eq
  have lb : bx.length = N := by simpa using hb.length_eq
  have ra : TransRank ax N := by
    refine ⟨fun a h => by simpa using ha.mem_iff.mp h, ?_⟩
    by_cases h0 : N = 0
    · exact .inl h0
    · right; rw [ha.mem_iff]; simp; omega
  have rb : TransRank bx N := by
    refine ⟨fun a h => by simpa using hb.mem_iff.mp h, ?_⟩
    by_cases h0 : N = 0
    · exact .inl h0
    · right; rw [hb.mem_iff]; simp; omega
  have na : ax.Nodup := ha.nodup_iff.mpr List.nodup_range
  have nb : bx.Nodup := hb.nodup_iff.mpr List.nodup_range
  obtain ⟨n, r, h1, h2, h3, h5, -⟩ := transpose_eq ⟨dims, cp⟩ ax (by simp; omega)
  have hn : n = N := transRank_unique h1 ra
  subst hn
  obtain ⟨n', q, g1, g2, g3, g5, -⟩ := transpose_eq ⟨r, cp⟩ bx (by simp; omega)
  have hn : n' = n := transRank_unique g1 rb
  subst hn
  refine ⟨_, h2, ?_⟩
  simp only at g2 ⊢
  rw [g2]
  congr 2
  apply List.ext_getElem (by omega)
  intro k hk1 hk2
  have hka : k < ax.length := by omega
  -- axis k goes to axis ax[k] and back
  have e1 : r[ax[k]]? = some dims[k] := by
    rw [h5 _ (h1.1 _ (List.getElem_mem hka))]
    simp only
    rw [filter_zip_nodup ax dims na k hka hk2]
    simp [comb_first]
  have hb1 := hinv k hka
  obtain ⟨hb2, hb3⟩ := List.getElem?_eq_some_iff.mp hb1
  have hr : ax[k] < r.length := by omega
  have e2 : q[k]? = some r[ax[k]] := by
    rw [g5 k (by omega)]
    have := filter_zip_nodup bx r nb ax[k] hb2 hr
    rw [hb3] at this
    simp only
    rw [this]
    simp [comb_first]
  have e3 : r[ax[k]] = dims[k] := by
    rw [List.getElem?_eq_getElem hr] at e1
    simpa using e1
  rw [e3, List.getElem?_eq_getElem hk1] at e2
  simpa using e2

/-- C20. A list of the wrong length is rejected. -/
theorem C20_reject (v : View) (ax : List Nat) (hax : ax.length ≠ v.dims.length) : v.transpose (ax.map Nat.cast) = .error .check := by
  obtain ⟨n, h1, _⟩ := trank_spec ax
  simp only [View.transpose, h1]
  rw [if_neg (by omega), if_neg (by simpa using hax)]

/-- B16. C20 fails for lists with a negative axis: there's no check, and the dims of the result are accessed out of range. -/
theorem C20_negative_negation (v : View) (s : List Int) (hl : s.length = v.dims.length) (hs : ∃ a ∈ s, a < 0) (h0 : ∃ a ∈ s, 0 ≤ a) : v.transpose s = .error .ub := by
  have ht : 0 ≤ trank s := by
    obtain ⟨a, ha, h⟩ := h0
    cases s with
    | nil => simp at ha
    | cons x xs =>
      have key : ∀ (xs : List Int) (x : Int), x ≤ xs.foldl max x ∧ ∀ a ∈ xs, a ≤ xs.foldl max x := by
        intro xs
        induction xs with
        | nil => simp
        | cons y xs ih =>
          intro x
          obtain ⟨h1, h2⟩ := ih (max x y)
          simp only [List.foldl_cons]
          refine ⟨by omega, fun a ha => ?_⟩
          rcases List.mem_cons.mp ha with rfl | ha
          · omega
          · exact h2 a ha
      simp only [trank]
      rcases List.mem_cons.mp ha with rfl | ha
      · have := (key xs a).1; omega
      · have := (key xs x).2 a ha; omega
  have hloop : ∀ (s : List Int) (dims dst : List Dim), s.length = dims.length → (∃ a ∈ s, a < 0) → transposeLoop dst (s.zip dims) = .error .ub := by
    intro s
    induction s with
    | nil => rintro dims dst _ ⟨a, ha, _⟩; simp at ha
    | cons x s ih =>
      rintro dims dst hl ⟨a, ha, h⟩
      cases dims with
      | nil => simp at hl
      | cons d dims =>
        simp only [List.zip_cons_cons, transposeLoop]
        split
        · rfl
        · split
          · rfl
          · apply ih _ _ (by simpa using hl)
            refine ⟨a, ?_, h⟩
            rcases List.mem_cons.mp ha with rfl | ha
            · omega
            · exact ha
  simp only [View.transpose]
  rw [if_neg (by omega), if_pos hl, hloop s v.dims _ hl hs]
  rfl

/-- B6. The length fails when bounded and unbounded axes go to the same axis: it depends on their order. Here the second gives an unbounded axis on a source with an
axis of length 3. -/
theorem C20_mixed_negation :
    (⟨[⟨UNB, 0⟩, ⟨3, 1⟩], 0⟩ : View).transpose [0, 0] = .ok ⟨[⟨3, 1⟩], 0⟩ ∧ (⟨[⟨3, 1⟩, ⟨UNB, 0⟩], 0⟩ : View).transpose [0, 0] = .ok ⟨[⟨UNB, 1⟩], 0⟩ := by
  decide

/-- Lengths 2, unbounded, 4, 3 on the same axis give 3. -/
example : afterUnbounded (sources [0, 0, 0, 0] [some 2, none, some 4, some 3] 0) = [some 4, some 3] := by decide
/-- Lengths 4, unbounded, 3 are all right, and they are a mix. -/
example : ∀ a m, some m ∈ sources [0, 0, 0] [some 4, none, some 3] a → ∃ n, some n ∈ afterUnbounded (sources [0, 0, 0] [some 4, none, some 3] a) ∧ n ≤ m := by
  intro a m hm
  by_cases ha : a = 0
  · subst ha
    refine ⟨3, by decide, ?_⟩
    simp [sources] at hm
    omega
  · simp [sources, show (0 == a) = false by simp; omega] at hm

/-- The diagonal of a 2x3 view of a 3-array, with the last axis first. -/
example : (⟨[⟨2, 12⟩, ⟨3, 4⟩, ⟨4, 1⟩], 0⟩ : View).transpose [1, 1, 0] = .ok ⟨[⟨4, 1⟩, ⟨2, 16⟩], 0⟩ := by decide
/-- Axis 1 isn't named. -/
example : (⟨[⟨2, 3⟩, ⟨3, 1⟩], 0⟩ : View).transpose [0, 2] = .ok ⟨[⟨2, 3⟩, ⟨UNB, 0⟩, ⟨3, 1⟩], 0⟩ := by decide
example : NoMix [1, 1, 0] [some 2, some 3, some 4] := by
  intro a
  right
  intro l hl
  simp only [sources, List.mem_map, List.mem_filter, Prod.exists] at hl
  obtain ⟨x, y, ⟨h, _⟩, rfl⟩ := hl
  have := (List.of_mem_zip h).2
  simp at this
  rcases this with rfl | rfl | rfl <;> simp
example : ([1, 2, 0] : List Nat).Perm (List.range 3) ∧ ([2, 0, 1] : List Nat).Perm (List.range 3) ∧ ∀ k (h : k < [1, 2, 0].length), [2, 0, 1][[1, 2, 0][k]]? = some k := by decide

end Ra.Props
