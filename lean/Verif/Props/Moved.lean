import Verif.Props.Assign
import Verif.Props.Transpose
import Verif.Props.Fill
import Verif.Props.FullExp
/-!
# C130: assignments to arrays with the axes moved
-/

namespace Ra.Spec

/-- The axes of an array of shape `s` go to the axes `ax` of another, of shape `t`. Each axis of `t` gets one at least, and its length is the smallest of the lengths of those it gets. -/
def AxesTo (ax s t : List Nat) : Prop :=
  ax.length = s.length ∧ (∀ k a n : Nat, ax[k]? = some a → s[k]? = some n → ∃ m, t[a]? = some m ∧ m ≤ n) ∧ ∀ a m : Nat, t[a]? = some m → ∃ k : Nat, ax[k]? = some a ∧ s[k]? = some m

/-- Entry `k` of index `i` is entry `ax[k]` of index `j`. -/
def MovedTo (ax : List Nat) (i j : List Int) : Prop := i.length = ax.length ∧ ∀ k a : Nat, ax[k]? = some a → i[k]? = j[a]?

end Ra.Spec

namespace Ra.Props
open Ra.Spec

section
variable {V : Type}

theorem mem_sources {ax s : List Nat} {a m : Nat} : some m ∈ sources ax (s.map some) a ↔ ∃ k : Nat, ax[k]? = some a ∧ s[k]? = some m := by
  simp only [sources, List.mem_map, List.mem_filter, beq_iff_eq]
  constructor
  · rintro ⟨⟨b, o⟩, ⟨h1, rfl⟩, rfl⟩
    obtain ⟨k, hk⟩ := List.mem_iff_getElem?.1 h1
    rw [List.getElem?_zip_eq_some] at hk
    obtain ⟨h2, h3⟩ := hk
    refine ⟨k, h2, ?_⟩
    simpa using h3
  · rintro ⟨k, h1, h2⟩
    exact ⟨(a, some m), ⟨List.mem_iff_getElem?.2 ⟨k, List.getElem?_zip_eq_some.2 ⟨h1, by simp [h2]⟩⟩, rfl⟩, rfl⟩

theorem sources_bounded (ax s : List Nat) (a : Nat) : ∀ l ∈ sources ax (s.map some) a, l ≠ none := by
  intro l hl
  simp only [sources, List.mem_map, List.mem_filter] at hl
  obtain ⟨⟨b, o⟩, ⟨h1, _⟩, rfl⟩ := hl
  have := (List.of_mem_zip h1).2
  simp only [List.mem_map] at this
  obtain ⟨n, _, h2⟩ := this
  simp [← h2]

/-- The view with the axes moved. -/
theorem moved_view (v : View) (ax s t : List Nat) (hv : Shaped v (s.map some)) (h : AxesTo ax s t) :
    ∃ r, v.transpose (ax.map Nat.cast) = .ok r ∧ Shaped r (t.map some) ∧ ∀ j, Valid t j → address r j = address v (pullback ax j) ∧ Valid s (pullback ax j) := by
  obtain ⟨h1, h2, h3⟩ := h
  obtain ⟨r, t', k1, k2, k3, k4⟩ := C20_shape_partial v _ hv ax (by simpa using h1) fun a => .inr (sources_bounded ax s a)
  obtain ⟨r', t'', l1, l2, l3, _⟩ := C20_lengths v _ hv ax (by simpa using h1)
  rw [k1] at l1
  cases l1
  have hlen : t'.length = t''.length := by rw [← k2.length_eq, l2.length_eq]
  have hl : t'.length = t.length := by
    obtain ⟨m1, m2⟩ := l3
    rw [← hlen] at m1 m2
    refine le_antisymm ?_ ?_
    · rcases m2 with m2 | m2
      · omega
      · obtain ⟨k, hk, e⟩ := List.getElem_of_mem m2
        obtain ⟨m, hm, _⟩ := h2 k _ _ (by rw [List.getElem?_eq_getElem hk, e]) (List.getElem?_eq_getElem (by omega : k < s.length))
        have := (List.getElem?_eq_some_iff.1 hm).1
        omega
    · by_contra hc
      obtain ⟨k, hk, _⟩ := h3 (t.length - 1) _ (List.getElem?_eq_getElem (by omega))
      have := m1 _ (List.mem_of_getElem? hk)
      omega
  have ht : t' = t.map some := by
    refine List.ext_getElem (by simpa using hl) fun a ha hb => ?_
    have hd := k3 a ha
    rw [List.getElem_map]
    have hta : t[a]? = some (t[a]'(by omega)) := List.getElem?_eq_getElem _
    have hin := mem_sources.2 (h3 a _ hta)
    generalize t'[a] = o at hd
    cases o with
    | none => exact absurd (hd _ hin) (by simp)
    | some n =>
      obtain ⟨d1, d2⟩ := hd
      obtain ⟨k, e1, e2⟩ := mem_sources.1 d1
      obtain ⟨m, e3, e4⟩ := h2 k a n e1 e2
      rw [hta] at e3
      cases e3
      exact congrArg some (le_antisymm (d2 _ hin) e4)
  subst ht
  refine ⟨r, k1, k2, fun j hj => ?_⟩
  obtain ⟨q1, q2⟩ := k4 j (inRange_of_valid hj)
  exact ⟨q1, valid_of_inRange (by simpa [pullback] using h1) q2⟩

theorem pullback_inj {ax s t : List Nat} (h : AxesTo ax s t) {i j : List Int} (hi : Valid t i) (hj : Valid t j) (e : pullback ax i = pullback ax j) : i = j := by
  have li := (length_of_valid hi)
  have lj := (length_of_valid hj)
  refine List.ext_getElem (by omega) fun a ha hb => ?_
  obtain ⟨k, hk, _⟩ := h.2.2 a _ (List.getElem?_eq_getElem (by omega : a < t.length))
  have := congrArg (·[k]?) e
  simp only [pullback, List.getElem?_map, hk, Option.map_some, Option.some.injEq] at this
  simpa [List.getD_eq_getElem?_getD, List.getElem?_eq_getElem ha, List.getElem?_eq_getElem hb] using this

theorem moved_pullback {ax s t : List Nat} (h : AxesTo ax s t) {i j : List Int} (hj : Valid t j) (hm : MovedTo ax i j) : pullback ax j = i := by
  refine List.ext_getElem? fun k => ?_
  simp only [pullback, List.getElem?_map]
  cases hk : ax[k]? with
  | none =>
    have : i.length ≤ k := by rw [hm.1]; simpa using hk
    simp [this]
  | some a =>
    rw [hm.2 k a hk]
    have hk' : k < s.length := by rw [← h.1]; exact (List.getElem?_eq_some_iff.1 hk).1
    obtain ⟨m, hm', _⟩ := h.2.1 k a _ hk (List.getElem?_eq_getElem hk')
    have ha : a < j.length := by rw [(length_of_valid hj)]; exact (List.getElem?_eq_some_iff.1 hm').1
    simp [List.getD_eq_getElem?_getD, List.getElem?_eq_getElem ha]

theorem pullback_moved {ax s t : List Nat} (h : AxesTo ax s t) {j : List Int} (hj : Valid t j) : MovedTo ax (pullback ax j) j := by
  refine ⟨by simp [pullback], fun k a hk => ?_⟩
  have hk' : k < s.length := by rw [← h.1]; exact (List.getElem?_eq_some_iff.1 hk).1
  obtain ⟨m, hm', _⟩ := h.2.1 k a _ hk (List.getElem?_eq_getElem hk')
  have ha : a < j.length := by rw [(length_of_valid hj)]; exact (List.getElem?_eq_some_iff.1 hm').1
  simp [pullback, hk, List.getD_eq_getElem?_getD, List.getElem?_eq_getElem ha]

/-- C130. `transpose(v, ax) = x`, where `x` doesn't depend on the elements that are set: the element of `v` at an index whose entries come from index `j` is the element of `x` at `j`, so that the first axis of `x` goes with the axes of `v`
that are sent to 0, and so on. The other elements of `v` (when several axes are sent to the same one, as for a diagonal) and the rest of memory don't change. -/
theorem C130_assign (dyn : Bool) (z : List Int) (hz : ∀ i ∈ z, i = 0) (v : View) (ax s t : List Nat) (hv : Shaped v (s.map some)) (hd : Distinct v s) (h : AxesTo ax s t) (x : Iter (Act V) (Lv V)) (sx : List Length)
    (hx : HasShape x sx) (hm : Merge [t.map some, sx] (t.map some)) (μ : Mem V) (hmem : ∀ i, Valid s i → (μ (address v i)).isSome) (f : List Int → V)
    (hf : ∀ j, Valid t j → ∀ μ', SameOutside (InView v s) μ μ' → Reads μ' (elem x j) (f j)) :
    ∃ r μ', v.transpose (ax.map Nat.cast) = .ok r ∧ assign dyn z r.refs x μ = (.ok (), μ') ∧ (∀ i j, Valid t j → MovedTo ax i j → μ' (address v i) = some (f j)) ∧
      SameOutside (fun p => ∃ i j, Valid t j ∧ MovedTo ax i j ∧ p = address v i) μ μ' := by
  obtain ⟨r, h1, h2, h3⟩ := moved_view v ax s t hv h
  obtain ⟨μ', h4, h5, h6⟩ := C27_view dyn z hz r t h2 (fun i j hi hj e => pullback_inj h hi hj (hd _ _ (h3 i hi).2 (h3 j hj).2 (by rw [← (h3 i hi).1, ← (h3 j hj).1, e]))) x sx hx hm μ
    (fun j hj => by rw [(h3 j hj).1]; exact hmem _ (h3 j hj).2) f fun j hj μ' hs => hf j hj μ' fun p hp => hs p (by
      rintro ⟨⟨k, hk, rfl⟩, _⟩
      exact hp ⟨_, (h3 k hk).2, (h3 k hk).1⟩)
  refine ⟨r, μ', h1, h4, fun i j hj hi => ?_, fun p hp => h6 p ?_⟩
  · rw [← moved_pullback h hj hi, ← (h3 j hj).1, h5 j hj]
  · rintro ⟨j, hj, rfl⟩
    exact hp ⟨_, j, hj, pullback_moved h hj, (h3 j hj).1⟩

/-- C130. `transpose(v, ax) OP= x` in the same way. -/
theorem C130_update (g : V → V → V) (dyn : Bool) (z : List Int) (hz : ∀ i ∈ z, i = 0) (v : View) (ax s t : List Nat) (hv : Shaped v (s.map some)) (hd : Distinct v s) (h : AxesTo ax s t) (x : Iter (Act V) (Lv V))
    (sx : List Length) (hx : HasShape x sx) (hm : Merge [t.map some, sx] (t.map some)) (μ : Mem V) (old : List Int → V) (hmem : ∀ i, Valid s i → μ (address v i) = some (old i)) (f : List Int → V)
    (hf : ∀ j, Valid t j → ∀ μ', SameOutside (InView v s) μ μ' → Reads μ' (elem x j) (f j)) :
    ∃ r μ', v.transpose (ax.map Nat.cast) = .ok r ∧ update g dyn z r.refs x μ = (.ok (), μ') ∧ (∀ i j, Valid t j → MovedTo ax i j → μ' (address v i) = some (g (old i) (f j))) ∧
      SameOutside (fun p => ∃ i j, Valid t j ∧ MovedTo ax i j ∧ p = address v i) μ μ' := by
  obtain ⟨r, h1, h2, h3⟩ := moved_view v ax s t hv h
  obtain ⟨μ', h4, h5, h6⟩ := C28_prefix g dyn z hz r.refs t [] (address r) μ
    ⟨refs_shape h2, fun i j hi hj e => pullback_inj h hi hj (hd _ _ (h3 i hi).2 (h3 j hj).2 (by rw [← (h3 i hi).1, ← (h3 j hj).1, e])), fun j _ μ' _ => refers_refs μ' r j⟩ x sx hx (by simpa using hm)
    (fun j => old (pullback ax j)) (fun j hj => by rw [(h3 j hj).1]; exact hmem _ (h3 j hj).2) f fun j hj μ' hs => hf j (by simpa using hj) μ' fun p hp => hs p (by
      rintro ⟨k, hk, rfl⟩
      exact hp ⟨_, (h3 k hk).2, (h3 k hk).1⟩)
  refine ⟨r, μ', h1, h4, fun i j hj hi => ?_, fun p hp => h5 p ?_⟩
  · rw [← moved_pullback h hj hi, ← (h3 j hj).1, h6 j hj]
    simp [rowMajor]
  · rintro ⟨j, hj, rfl⟩
    exact hp ⟨_, j, hj, pullback_moved h hj, (h3 j hj).1⟩

/-- The shape with the axes permuted. -/
theorem perm_moved {ax s t : List Nat} (h : AxesTo ax s t) (hp : ax.Nodup) {i : List Int} (hi : Valid s i) : ∃ j, Valid t j ∧ MovedTo ax i j := by
  have li := (length_of_valid hi)
  refine ⟨(List.range t.length).map fun a => i.getD (ax.idxOf a) 0, ?_, by rw [li, h.1], fun k a hk => ?_⟩
  · refine valid_of_inRange (by simp) ⟨by simp, fun a n ha => ?_⟩
    simp only [List.getElem?_map, Option.map_eq_some_iff, Option.some.injEq, exists_eq_right] at ha
    have hlt := (List.getElem?_eq_some_iff.1 ha).1
    obtain ⟨k, hk, hs⟩ := h.2.2 a n ha
    have hkl := (List.getElem?_eq_some_iff.1 hk).1
    have e : ax.idxOf a = k := by
      rw [← (List.getElem?_eq_some_iff.1 hk).2]
      exact hp.idxOf_getElem k hkl
    have := (inRange_of_valid hi).2 k n (by simp [hs])
    simpa [List.getD_eq_getElem?_getD, hlt, e] using this
  · have hkl := (List.getElem?_eq_some_iff.1 hk).1
    obtain ⟨m, hm, _⟩ := h.2.1 k a _ hk (List.getElem?_eq_getElem (by rw [← h.1]; exact hkl))
    have hlt := (List.getElem?_eq_some_iff.1 hm).1
    have e : ax.idxOf a = k := by
      rw [← (List.getElem?_eq_some_iff.1 hk).2]
      exact hp.idxOf_getElem k hkl
    have hki : k < i.length := by rw [li, ← h.1]; exact hkl
    simp [List.getD_eq_getElem?_getD, hlt, e, hki]

/-- C130. If each axis goes to a different one, then all the elements of `v` are set. With the same axes on both sides, `transpose(v, ax) = transpose(w, ax)` leaves the same memory as `v = w`, for `w` that doesn't share elements with `v`. -/
theorem C130_both (dyn dyn' : Bool) (z z' : List Int) (hz : ∀ i ∈ z, i = 0) (hz' : ∀ i ∈ z', i = 0) (v w : View) (ax s t : List Nat) (hv : Shaped v (s.map some)) (hw : Shaped w (s.map some)) (hd : Distinct v s)
    (h : AxesTo ax s t) (hp : ax.Nodup) (μ : Mem V) (hmem : ∀ i, Valid s i → (μ (address v i)).isSome ∧ (μ (address w i)).isSome) (hvw : ∀ p, InView v s p → ¬ InView w s p) :
    ∃ r q, v.transpose (ax.map Nat.cast) = .ok r ∧ w.transpose (ax.map Nat.cast) = .ok q ∧ ∃ μ', assign dyn z r.refs q.refs μ = (.ok (), μ') ∧ assign dyn' z' v.refs w.refs μ = (.ok (), μ') := by
  obtain ⟨q, k1, k2, k3⟩ := moved_view w ax s t hw h
  have hg : ∀ i, Valid s i → ∃ y, μ (address w i) = some y := fun i hi => Option.isSome_iff_exists.1 (hmem i hi).2
  by_cases hne : ∃ i, Valid s i
  · obtain ⟨i0, hi0⟩ := hne
    obtain ⟨y0, _⟩ := hg i0 hi0
    have hread : ∀ i, Valid s i → ∀ μ', SameOutside (InView v s) μ μ' → μ' (address w i) = some ((μ (address w i)).getD y0) := fun i hi μ' hs => by
      rw [hs _ fun hc => hvw _ hc ⟨i, hi, rfl⟩]
      obtain ⟨y, hy⟩ := hg i hi
      rw [hy]; rfl
    obtain ⟨r, μ1, a1, a2, a3, a4⟩ := C130_assign dyn z hz v ax s t hv hd h q.refs _ (refs_shape k2) (merge_same _) μ (fun i hi => (hmem i hi).1) (fun j => (μ (address w (pullback ax j))).getD y0)
      fun j hj μ' hs => reads_refs (by rw [(k3 j hj).1]; exact hread _ (k3 j hj).2 μ' hs)
    obtain ⟨μ2, b1, b2, b3⟩ := C27_view dyn' z' hz' v s hv hd w.refs _ (refs_shape hw) (merge_same _) μ (fun i hi => (hmem i hi).1) (fun i => (μ (address w i)).getD y0)
      fun i hi μ' hs => reads_refs (hread i hi μ' fun p hp => hs p fun hc => hp hc.1)
    refine ⟨r, q, a1, k1, μ1, a2, ?_⟩
    rw [b1]
    have : μ2 = μ1 := by
      funext p
      by_cases hin : InView v s p
      · obtain ⟨i, hi, rfl⟩ := hin
        obtain ⟨j, hj, hm⟩ := perm_moved h hp hi
        rw [b2 i hi, a3 i j hj hm, moved_pullback h hj hm]
      · rw [b3 p hin, a4 p]
        rintro ⟨i, j, hj, hm, rfl⟩
        exact hin ⟨i, moved_pullback h hj hm ▸ (k3 j hj).2, rfl⟩
    rw [this]
  · have hnt : ∀ j, ¬ Valid t j := fun j hj => hne ⟨_, (k3 j hj).2⟩
    obtain ⟨r, k4, k5, k6⟩ := moved_view v ax s t hv h
    refine ⟨r, q, k4, k1, μ, ?_, ?_⟩
    · have e : rowMajor t = [] := List.eq_nil_iff_forall_not_mem.2 fun j hj => hnt j (mem_rowMajor.1 hj)
      rw [assign, run_forAll dyn z hz _ _ _ _ _ t (refs_shape k5) (refs_shape k2) (merge_same _), e]
      rfl
    · have e : rowMajor s = [] := List.eq_nil_iff_forall_not_mem.2 fun j hj => hne ⟨j, mem_rowMajor.1 hj⟩
      rw [assign, run_forAll dyn' z' hz' _ _ _ _ _ s (refs_shape hv) (refs_shape hw) (merge_same _), e]
      rfl

/-- C130. `transpose(v, ax) = x` with a vector `x`, where axis `k` of `v` goes to 0: the elements of `v` with entry `k` equal to `n` get `x(n)`. -/
theorem C130_vector (dyn : Bool) (z : List Int) (hz : ∀ i ∈ z, i = 0) (v : View) (ax s t : List Nat) (hv : Shaped v (s.map some)) (hd : Distinct v s) (h : AxesTo ax s t) (hp : ax.Nodup) (k n : Nat) (hk : ax[k]? = some 0)
    (hn : s[k]? = some n) (x : Iter (Act V) (Lv V)) (hx : HasShape x [some n]) (μ : Mem V) (hmem : ∀ i, Valid s i → (μ (address v i)).isSome) (f : Int → V)
    (hf : ∀ (l : Nat) j, l < n → ∀ μ', SameOutside (InView v s) μ μ' → Reads μ' (elem x ((l : Int) :: j)) (f l)) :
    ∃ r μ', v.transpose (ax.map Nat.cast) = .ok r ∧ assign dyn z r.refs x μ = (.ok (), μ') ∧ (∀ i, Valid s i → μ' (address v i) = some (f (i.getD k 0))) ∧ SameOutside (InView v s) μ μ' := by
  obtain ⟨m, hm, hmn⟩ := h.2.1 k 0 n hk hn
  have hkl := (List.getElem?_eq_some_iff.1 hk).1
  have e : m = n := by
    obtain ⟨k', h1, h2⟩ := h.2.2 0 m hm
    have : k' = k := (List.Nodup.getElem_inj_iff hp).1 ((List.getElem?_eq_some_iff.1 h1).2.trans (List.getElem?_eq_some_iff.1 hk).2.symm)
    rw [this, hn] at h2
    cases h2; rfl
  subst e
  obtain ⟨t', rfl⟩ : ∃ t', t = m :: t' := by
    cases t with
    | nil => simp at hm
    | cons a t' => exact ⟨t', by simpa using hm⟩
  obtain ⟨r0, _, _, k6⟩ := moved_view v ax s _ hv h
  obtain ⟨r, μ', h1, h2, h3, h4⟩ := C130_assign dyn z hz v ax s _ hv hd h x _ hx ⟨by simp, ⟨_, by simp, rfl⟩, fun a b => by
      cases a <;> simp⟩ μ hmem (fun j => f (j.getD 0 0)) fun j hj μ' hs => by
    match j, hj with
    | l :: j, hj =>
      obtain ⟨l', rfl⟩ := Int.eq_ofNat_of_zero_le hj.1
      have := hj.2.1
      exact hf l' j (by omega) μ' hs
  refine ⟨r, μ', h1, h2, fun i hi => ?_, fun p hp' => h4 p ?_⟩
  · obtain ⟨j, hj, hmv⟩ := perm_moved h hp hi
    rw [h3 i j hj hmv]
    have := hmv.2 k 0 hk
    simp only [List.getD_eq_getElem?_getD, this]
  · rintro ⟨i, j, hj, hmv, rfl⟩
    exact hp' ⟨i, moved_pullback h hj hmv ▸ (k6 j hj).2, rfl⟩

/-- C130. `transpose(a, {0, 0}) = x` for a matrix `a` of any lengths sets its diagonal, and nothing else. -/
theorem C130_diagonal (dyn : Bool) (z : List Int) (hz : ∀ i ∈ z, i = 0) (a : View) (m n : Nat) (ha : Shaped a [some m, some n]) (hd : Distinct a [m, n]) (x : Iter (Act V) (Lv V)) (sx : List Length) (hx : HasShape x sx)
    (hm : Merge [[some (min m n)], sx] [some (min m n)]) (μ : Mem V) (hmem : ∀ i, Valid [m, n] i → (μ (address a i)).isSome) (f : Int → V)
    (hf : ∀ l : Nat, l < min m n → ∀ μ', SameOutside (InView a [m, n]) μ μ' → Reads μ' (elem x [(l : Int)]) (f l)) :
    ∃ r μ', a.transpose [0, 0] = .ok r ∧ assign dyn z r.refs x μ = (.ok (), μ') ∧ (∀ l : Nat, l < min m n → μ' (address a [(l : Int), (l : Int)]) = some (f l)) ∧
      SameOutside (fun p => ∃ l : Nat, l < min m n ∧ p = address a [(l : Int), (l : Int)]) μ μ' := by
  have h : AxesTo [0, 0] [m, n] [min m n] := by
    refine ⟨rfl, fun k a l hk hl => ?_, fun a l hl => ?_⟩
    · match k, hk, hl with
      | 0, hk, hl => cases hk; cases hl; exact ⟨_, rfl, Nat.min_le_left ..⟩
      | 1, hk, hl => cases hk; cases hl; exact ⟨_, rfl, Nat.min_le_right ..⟩
    · match a, hl with
      | 0, hl =>
        cases hl
        rcases Nat.le_total m n with e | e
        · exact ⟨0, rfl, by simp [e]⟩
        · exact ⟨1, rfl, by simp [e]⟩
  obtain ⟨r, μ', h1, h2, h3, h4⟩ := C130_assign dyn z hz a [0, 0] [m, n] [min m n] ha hd h x sx hx hm μ hmem (fun j => f (j.getD 0 0)) fun j hj μ' hs => by
    match j, hj with
    | [l], hj =>
      obtain ⟨l', rfl⟩ := Int.eq_ofNat_of_zero_le hj.1
      have := hj.2.1
      exact hf l' (by omega) μ' hs
  refine ⟨r, μ', h1, h2, fun l hl => h3 [l, l] [l] ⟨by omega, by omega, trivial⟩ ⟨rfl, fun k a hk => ?_⟩, fun p hp => h4 p ?_⟩
  · match k, hk with
    | 0, hk => cases hk; rfl
    | 1, hk => cases hk; rfl
  · rintro ⟨i, j, hj, hmv, rfl⟩
    rw [← moved_pullback h hj hmv] at hp
    match j, hj with
    | [l], hj =>
      obtain ⟨l', rfl⟩ := Int.eq_ofNat_of_zero_le hj.1
      have := hj.2.1
      exact hp ⟨l', by omega, rfl⟩

/-- The axes of a 3 x 4 x 2 array, in another order. -/
example : AxesTo [0, 2, 1] [3, 4, 2] [3, 2, 4] ∧ [0, 2, 1].Nodup ∧ MovedTo [0, 2, 1] [2, 3, 1] [2, 1, 3] := by
  refine ⟨⟨rfl, fun k a n hk hn => ?_, fun a m ha => ?_⟩, by decide, rfl, fun k a hk => ?_⟩
  · match k, hk, hn with
    | 0, hk, hn => cases hk; cases hn; exact ⟨3, rfl, le_refl _⟩
    | 1, hk, hn => cases hk; cases hn; exact ⟨4, rfl, le_refl _⟩
    | 2, hk, hn => cases hk; cases hn; exact ⟨2, rfl, le_refl _⟩
  · match a, ha with
    | 0, ha => cases ha; exact ⟨0, rfl, rfl⟩
    | 1, ha => cases ha; exact ⟨2, rfl, rfl⟩
    | 2, ha => cases ha; exact ⟨1, rfl, rfl⟩
  · match k, hk with
    | 0, hk => cases hk; rfl
    | 1, hk => cases hk; rfl
    | 2, hk => cases hk; rfl

/-- The diagonal of a 2 x 3 array. -/
example : ∃ r, (⟨[⟨2, 3⟩, ⟨3, 1⟩], 0⟩ : View).transpose [0, 0] = .ok r ∧
    ((assign true [] r.refs (.scalar (pure (.val 9))) fun p => if 0 ≤ p ∧ p < 6 then some (p : Int) else none).2 <$> [0, 1, 2, 3, 4, 5]) = [some 9, some 1, some 2, some 3, some 9, some 5] :=
  ⟨⟨[⟨2, 4⟩], 0⟩, by decide +kernel, by decide +kernel⟩

end
end Ra.Props
