import Verif.Props.Slice
import Verif.Model.ViewOps
/-!
# Views from views: C19, C20, C24, C26, C58, C60, C61
-/

namespace Ra.Props
open Spec (Length DimLen Shaped InRange address dot HasShape elem Valid rowMajor size position)

/-! ## C58 -/

theorem shaped_nat {dims : List Dim} {s : List Nat} : List.Forall₂ DimLen dims (s.map some) ↔ dims.map Dim.len = s.map Nat.cast := by
  induction s generalizing dims with
  | nil => cases dims <;> simp
  | cons n s ih =>
    cases dims with
    | nil => simp
    | cons d dims => simp [DimLen, ih]

/-- C58. The dims for a list of lengths: index `j` is at its row-major position. -/
theorem C58_dims (s : List Nat) (cp : Int) :
    ∃ v, View.ofShape (s.map Nat.cast) cp = .ok v ∧ Shaped v (s.map some) ∧ ∀ j, Valid s j → address v j = cp + position s j := by
  suffices H : ∃ dv, filldimv (s.map Nat.cast) = .ok (dv, (size s : Int)) ∧ List.Forall₂ DimLen dv (s.map some) ∧
      ∀ j, Valid s j → dot (dv.map Dim.step) j = position s j by
    obtain ⟨dv, h1, h2, h3⟩ := H
    exact ⟨⟨dv, cp⟩, by simp [View.ofShape, h1, bind, Except.bind, pure, Except.pure], h2, fun j hj => by simp [address, h3 j hj]⟩
  induction s with
  | nil => exact ⟨[], rfl, .nil, fun j hj => by simp [position]⟩
  | cons n s ih =>
    obtain ⟨dv, h1, h2, h3⟩ := ih
    refine ⟨⟨n, size s⟩ :: dv, ?_, .cons rfl h2, ?_⟩
    · simp [filldimv, h1, bind, Except.bind, pure, Except.pure, size, mul_comm]
    · intro j hj
      match j, hj with
      | i :: j, ⟨_, _, hj⟩ => simp [dot_cons, position, h3 j hj]

/-- C58. The positions of the indices in row-major order are 0, 1, ..., size-1: indices and offsets correspond one to one. -/
theorem C58_onto (s : List Nat) : (rowMajor s).map (position s) = (List.range (size s)).map Nat.cast := by
  induction s with
  | nil => rfl
  | cons n s ih =>
    have hr : ∀ k : Nat, (rowMajor s).map (fun j => position (n :: s) ((k : Int) :: j)) = (List.range' (k * size s) (size s)).map Nat.cast := by
      intro k
      have : (fun j => position (n :: s) ((k : Int) :: j)) = (fun x => (k : Int) * size s + x) ∘ position s := by
        funext j; simp [position]
      rw [this, ← List.map_map, ih]
      apply List.ext_getElem
      · simp
      · intro i h1 h2; simp
    simp only [rowMajor, List.map_flatMap, List.map_map, Function.comp_def, hr]
    induction n with
    | zero => simp [size]
    | succ n ihn =>
      rw [List.range_succ, List.flatMap_append, ihn (by
        intro k
        have := hr k
        exact this)]
      simp only [List.flatMap_cons, List.flatMap_nil, List.append_nil, ← List.map_append, size]
      congr 1
      rw [List.range_eq_range', List.range_eq_range']
      rw [show (n + 1) * size s = n * size s + size s by ring]
      rw [← List.range'_append_1]
      simp

/-- C58. A negative length is rejected. -/
theorem C58_negative (s : List Int) (cp : Int) (h : ∃ n ∈ s, n < 0) : View.ofShape s cp = .error .check := by
  have : filldimv s = .error .check := by
    obtain ⟨n, hn, h⟩ := h
    induction s with
    | nil => simp at hn
    | cons x s ih =>
      simp only [filldimv, bind, Except.bind]
      by_cases hs : n ∈ s
      · rw [ih hs]
      · have : n = x := by simpa [hs] using hn
        subst this
        have : ∀ s : List Int, filldimv s = .error .check ∨ ∃ r, filldimv s = .ok r := by
          intro s
          induction s with
          | nil => exact .inr ⟨_, rfl⟩
          | cons x s ih =>
            simp only [filldimv, bind, Except.bind]
            rcases ih with h | ⟨r, h⟩
            · rw [h]; exact .inl rfl
            · rw [h]
              simp only
              split
              · exact .inr ⟨_, rfl⟩
              · exact .inl rfl
        rcases this s with h' | ⟨r, h'⟩
        · rw [h']
        · rw [h']
          simp only
          rw [if_neg (by omega)]
  simp [View.ofShape, this, bind, Except.bind]

example : View.ofShape [2, 3, 4] 7 = .ok ⟨[⟨2, 12⟩, ⟨3, 4⟩, ⟨4, 1⟩], 7⟩ := rfl
example : Valid [2, 3, 4] [1, 2, 3] := by simp [Valid]

/-! ## C61 -/

theorem dimvSizeLoop_eq {dims : List Dim} {s : List Nat} (h : dims.map Dim.len = s.map Nat.cast) (k : Int) : dimvSizeLoop k dims = k * size s := by
  induction s generalizing dims k with
  | nil => cases dims <;> simp [dimvSizeLoop, size] at h ⊢
  | cons n s ih =>
    cases dims with
    | nil => simp at h
    | cons d dims =>
      simp at h
      simp only [dimvSizeLoop, h.1]
      rw [if_neg (by omega), ih h.2]
      simp [size, mul_assoc]

theorem dimvSize_eq {v : View} {s : List Nat} (h : Shaped v (s.map some)) : dimvSize v.dims = size s := by
  simpa [dimvSize] using dimvSizeLoop_eq (shaped_nat.mp h) 1

/-- C61. For finite lengths `size()` is the product. -/
theorem C61_size (v : View) (s : List Nat) (h : Shaped v (s.map some)) : dimvSize v.dims = (s.map Nat.cast).prod := by
  rw [dimvSize_eq h]
  clear h
  induction s with
  | nil => rfl
  | cons n s ih => simp [size, ih]

/-- C61. `size()` is negative if and only if some axis is unbounded. -/
theorem C61_unbounded (v : View) (s : List Length) (h : Shaped v s) : dimvSize v.dims < 0 ↔ none ∈ s := by
  have : ∀ (dims : List Dim) (s : List Length) (k : Int), 0 ≤ k → List.Forall₂ DimLen dims s → (dimvSizeLoop k dims < 0 ↔ none ∈ s) := by
    intro dims s k hk h
    induction h generalizing k with
    | nil => simp [dimvSizeLoop]; exact hk
    | cons h1 h2 ih =>
      rename_i d o dims s
      simp only [dimvSizeLoop]
      cases o with
      | none =>
        simp only [DimLen] at h1
        have := UNB_val
        rw [if_pos (by omega)]
        simp; omega
      | some n =>
        simp only [DimLen] at h1
        rw [if_neg (by omega), ih _ (by rw [h1]; positivity)]
        simp
  exact this v.dims s 1 (by omega) h

/-- C61. `empty()` is true if and only if some length is 0. -/
theorem C61_empty (v : View) (s : List Length) (h : Shaped v s) : dimvEmpty v.dims = true ↔ some 0 ∈ s := by
  unfold Shaped at h
  generalize v.dims = dims at h
  induction h with
  | nil => simp [dimvEmpty]
  | cons h1 h2 ih =>
    rename_i d o dims s
    simp only [dimvEmpty]
    cases o with
    | none =>
      simp only [DimLen] at h1
      have := UNB_val
      rw [if_neg (by omega), ih]
      simp
    | some n =>
      simp only [DimLen] at h1
      by_cases hn : n = 0
      · rw [if_pos (by omega)]; simp [hn]
      · rw [if_neg (by omega), ih]
        simp
        intro h; omega

example : Shaped ⟨[⟨2, 3⟩, ⟨UNB, 0⟩, ⟨0, 1⟩], 0⟩ [some 2, none, some 0] := .cons rfl (.cons rfl (.cons rfl .nil))

/-! ## C60 -/

/-- C60. `shape(v, k)` is the length of axis `k`. -/
theorem C60_axis (lens : List Int) (k : Nat) (hk : k < lens.length) : shapeAt lens (.const k) = .ok lens[k] := by
  simp [shapeAt, val_const, bind, Except.bind, pure, Except.pure, hk, List.getD_eq_getElem?_getD]

/-- C60. An axis outside of the rank fails the check. -/
theorem C60_reject (lens : List Int) (k : Int) (hk : k < 0 ∨ lens.length ≤ k) : shapeAt lens (.const k) = .error .check := by
  simp only [shapeAt, val_const, bind, Except.bind]
  rw [if_neg]
  simp; omega

/-- C60. With `ra::len`, which stands for the rank here. -/
theorem C60_len (lens : List Int) (e : LenExpr) : shapeAt lens e = shapeAt lens (subst lens.length e) := by
  simp only [shapeAt]
  rw [wlen_eq_subst, wlen_subst]

/-- C60. `shape(v, e)` for an array `e` of axes is a map, so it's elementwise. The elements of `e` are those after `ra::len` has been replaced (as above). -/
theorem C60_array (lens : List Int) (e : Iter (Except Fault) Int) (s : List Length) (he : HasShape e s) (j : List Int) (hj : InRange s j) :
    (Iter.node (mapOp fun x => shapeAt lens (.const (x.getD 0 0))) [e]).at j = (do let k ← e.at j; shapeAt lens (.const k)) := by
  rw [C01_at (.node _ [e]) s ⟨[s], ⟨s, [], rfl, he, rfl⟩, ⟨by simp, ⟨s, by simp, rfl⟩, by simp⟩⟩ j hj, C01_at e s he j hj]
  simp [elem, Spec.elems, mapOp]

/-- `shape(v, len-1)`, the length of the last axis. -/
example : shapeAt [4, 5, 6] (.map (fun x => x.getD 0 0 - x.getD 1 0) [.len, .const 1]) = .ok 6 := rfl

/-! ## C19 -/

theorem dot_set (st : List Int) (j : List Int) (k : Nat) (x y : Int) (hk : k < st.length) (hkj : k < j.length) :
    dot (st.set k x) j = dot st (j.set k y) + j.getD k 0 * x - y * st.getD k 0 := by
  induction st generalizing j k with
  | nil => simp at hk
  | cons s st ih =>
    cases j with
    | nil => simp at hkj
    | cons i j =>
      cases k with
      | zero => simp [dot_cons]; ring
      | succ k =>
        simp only [List.set_cons_succ, dot_cons, List.getD_cons_succ]
        rw [ih j k (by simpa using hk) (by simpa using hkj)]
        ring

/-- C19. `reverse` on a good axis. -/
theorem C19_reverse (v : View) (s : List Length) (hv : Shaped v s) (k n : Nat) (hk : s[k]? = some (some n)) :
    ∃ r, v.reverse k = .ok r ∧ Shaped r s ∧
      (∀ j, InRange s j → address r j = address v (j.set k (n - 1 - j.getD k 0))) ∧
      r.reverse k = .ok v := by
  obtain ⟨dims, cp⟩ := v
  have hl := hv.length_eq
  obtain ⟨hks, hkn⟩ := List.getElem?_eq_some_iff.mp hk
  simp only at hl
  have hkd : k < dims.length := by omega
  have hlen : dims[k].len = n := by
    have := hv.get hkd hks
    simpa [DimLen, hkn] using this
  have hU := UNB_val
  have h1 : (View.mk dims cp).reverse k = .ok ⟨dims.set k ⟨dims[k].len, dims[k].step * -1⟩, cp + (if 0 = dims[k].len then 0 else dims[k].step * (dims[k].len - 1))⟩ := by
    simp only [View.reverse]
    rw [if_neg (by omega)]
    simp only [Int.toNat_natCast, List.getElem?_eq_getElem hkd]
    rw [if_neg (by omega), if_pos (by simp; omega)]
  refine ⟨_, h1, ?_, ?_, ?_⟩
  · unfold Shaped at hv ⊢
    rw [List.forall₂_iff_get] at hv ⊢
    refine ⟨by simpa using hl, ?_⟩
    intro i hi1 hi2
    simp only [List.length_set] at hi1
    have := hv.2 i hi1 hi2
    simp only [List.get_eq_getElem, List.getElem_set] at this ⊢
    split
    · rename_i h; subst h; simpa [DimLen] using this
    · exact this
  · intro j hj
    have hjk := hj.2 k n hk
    have hkj : k < j.length := by have := hj.1; omega
    simp only [address, List.map_set]
    rw [dot_set _ j k _ (n - 1 - j.getD k 0) (by simpa using hkd) hkj]
    have hst : (dims.map Dim.step).getD k 0 = dims[k].step := by simp [List.getD_eq_getElem?_getD, hkd]
    rw [hst, hlen, if_neg (by omega)]
    ring
  · simp only [View.reverse]
    rw [if_neg (by omega)]
    simp only [Int.toNat_natCast, List.getElem?_set_self hkd]
    rw [if_neg (by omega), if_pos (by simp; omega)]
    simp only [List.set_set]
    congr 1
    congr 1
    · have : (⟨dims[k].len, dims[k].step * -1 * -1⟩ : Dim) = dims[k] := by
        have : dims[k].step * -1 * -1 = dims[k].step := by ring
        rw [this]
      rw [this, List.set_getElem_self]
    · split
      · simp
      · ring

/-- C19. An unbounded axis is rejected. -/
theorem C19_unbounded (v : View) (s : List Length) (hv : Shaped v s) (k : Nat) (hk : s[k]? = some none) : v.reverse k = .error .check := by
  have hl := hv.length_eq
  obtain ⟨hks, hkn⟩ := List.getElem?_eq_some_iff.mp hk
  have hkd : k < v.dims.length := by omega
  have := hv.get hkd hks
  simp only [List.get_eq_getElem, hkn, DimLen] at this
  simp only [View.reverse]
  rw [if_neg (by omega)]
  simp only [Int.toNat_natCast, List.getElem?_eq_getElem hkd]
  rw [if_pos this]

/-- B15. C19 fails for a run time axis that is out of range: the dims are read out of range before the axis is checked. -/
theorem C19_axis_negation (v : View) (k : Int) (hk : k < 0 ∨ v.dims.length ≤ k) : v.reverse k = .error .ub := by
  simp only [View.reverse]
  split
  · rfl
  · rename_i h
    rw [List.getElem?_eq_none (by omega)]

/-- C19, for the axes that exist: `reverse` doesn't read outside the dims. What's missing is an axis out of range, which isn't rejected by the check
(`C19_axis_negation`). -/
theorem C19_partial (v : View) (s : List Length) (hv : Shaped v s) (k : Int) (h0 : 0 ≤ k) (hk : k < s.length) :
    v.reverse k = .error .check ∨ ∃ r, v.reverse k = .ok r ∧ Shaped r s := by
  obtain ⟨k, rfl⟩ := Int.eq_ofNat_of_zero_le h0
  have hk' : k < s.length := by omega
  cases h : s[k] with
  | none => exact .inl (C19_unbounded v s hv k (by simp [hk', h]))
  | some n =>
    obtain ⟨r, h1, h2, _⟩ := C19_reverse v s hv k n (by simp [hk', h])
    exact .inr ⟨r, h1, h2⟩

/-- Reverse the columns of a 2x3 view. -/
example : (⟨[⟨2, 3⟩, ⟨3, 1⟩], 0⟩ : View).reverse 1 = .ok ⟨[⟨2, 3⟩, ⟨3, -1⟩], 2⟩ := rfl

/-! ## C24 -/

/-- C24. The bounds are good: the result has a frame of the positions of the window followed by the window, and all its elements are elements of `v`. -/
theorem C24_stencil (v : View) (s : List Nat) (hv : Shaped v (s.map some)) (lo hi : List Nat) (hlo : lo.length = s.length) (hhi : hi.length = s.length)
    (hlen : ∀ k (hk : k < s.length), lo[k] + hi[k] ≤ s[k]) :
    ∃ r, v.stencil (lo.map Nat.cast) (hi.map Nat.cast) = .ok r ∧
      Shaped r ((List.zipWith (· - ·) s (List.zipWith (· + ·) lo hi)).map some ++ (List.zipWith (fun l h => l + h + 1) lo hi).map some) ∧
      ∀ i j, Valid (List.zipWith (· - ·) s (List.zipWith (· + ·) lo hi)) i → Valid (List.zipWith (fun l h => l + h + 1) lo hi) j →
        address r (i ++ j) = address v (List.zipWith (· + ·) i j) ∧ Valid s (List.zipWith (· + ·) i j) := by
  obtain ⟨dims, cp⟩ := v
  have hl : dims.length = s.length := by simpa using hv.length_eq
  suffices H : ∃ f w, stencilLoop dims (lo.map Nat.cast) (hi.map Nat.cast) = .ok (f, w) ∧
      List.Forall₂ DimLen f ((List.zipWith (· - ·) s (List.zipWith (· + ·) lo hi)).map some) ∧
      List.Forall₂ DimLen w ((List.zipWith (fun l h => l + h + 1) lo hi).map some) ∧
      f.map Dim.step = dims.map Dim.step ∧ w.map Dim.step = dims.map Dim.step ∧
      (∀ i j, Valid (List.zipWith (· - ·) s (List.zipWith (· + ·) lo hi)) i → Valid (List.zipWith (fun l h => l + h + 1) lo hi) j →
        Valid s (List.zipWith (· + ·) i j) ∧ dot (dims.map Dim.step) i + dot (dims.map Dim.step) j = dot (dims.map Dim.step) (List.zipWith (· + ·) i j)) by
    obtain ⟨f, w, h1, h2, h3, h4, h5, h6⟩ := H
    refine ⟨⟨f ++ w, cp⟩, ?_, ?_, ?_⟩
    · simp only [View.stencil]
      rw [if_pos (by simp), if_pos (by simp [hl, hlo, hhi]), h1]
      rfl
    · exact List.rel_append h2 h3
    · intro i j hi' hj'
      obtain ⟨h7, h8⟩ := h6 i j hi' hj'
      refine ⟨?_, h7⟩
      simp only [address, List.map_append, h4, h5]
      rw [dot_append, ← h8]
      · have := hi'.length
        simp at this ⊢
        omega
  clear hl
  unfold Shaped at hv
  simp only at hv
  induction s generalizing dims lo hi with
  | nil =>
    have h1 : lo = [] := by simpa using hlo
    have h2 : hi = [] := by simpa using hhi
    subst h1 h2
    have h3 : dims = [] := by simpa using hv
    subst h3
    refine ⟨[], [], rfl, by simp, by simp, rfl, rfl, ?_⟩
    intro i j h1 h2
    match i, j, h1, h2 with
    | [], [], _, _ => simp [Valid]
  | cons n s ih =>
    match lo, hi, hlo, hhi with
    | l :: lo, h :: hi, hlo, hhi =>
      cases hv with
      | cons hd hv =>
        rename_i d dims
        simp at hlo hhi
        obtain ⟨f, w, h1, h2, h3, h4, h5, h6⟩ := ih lo hi hlo hhi (fun k hk => by
          have := hlen (k+1) (by simpa using hk)
          simpa using this) dims hv
        have h0 : l + h ≤ n := hlen 0 (by simp)
        simp only [DimLen] at hd
        refine ⟨⟨d.len - l - h, d.step⟩ :: f, ⟨l + h + 1, d.step⟩ :: w, ?_, ?_, ?_, by simp [h4], by simp [h5], ?_⟩
        · simp only [List.map_cons, stencilLoop, h1]
          rw [if_pos (by omega)]
          rfl
        · refine .cons ?_ h2
          simp only [DimLen]; omega
        · refine .cons ?_ h3
          simp only [DimLen]; omega
        · intro i j hi' hj'
          match i, j, hi', hj' with
          | i :: is, j :: js, ⟨a1, a2, a3⟩, ⟨b1, b2, b3⟩ =>
            obtain ⟨h7, h8⟩ := h6 is js a3 b3
            simp only at a2 b2
            rw [List.zipWith_cons_cons]
            refine ⟨⟨by omega, by omega, h7⟩, ?_⟩
            simp only [List.map_cons, dot_cons, ← h8]
            ring

/-- C24. Negative bounds, a wrong number of bounds, or an axis that is too short, are rejected. -/
theorem C24_reject (v : View) (lo hi : List Int)
    (h : (∃ x ∈ lo, x < 0) ∨ (∃ x ∈ hi, x < 0) ∨ lo.length ≠ v.dims.length ∨ hi.length ≠ v.dims.length ∨
      ∃ k, ∃ (h1 : k < lo.length) (h2 : k < hi.length) (h3 : k < v.dims.length), v.dims[k].len < lo[k] + hi[k]) :
    v.stencil lo hi = .error .check := by
  simp only [View.stencil]
  split
  · rename_i hp
    obtain ⟨hp1, hp2⟩ := hp
    simp only [List.all_eq_true, decide_eq_true_eq] at hp1 hp2
    split
    · rename_i hlen
      rcases h with ⟨x, hx, hx'⟩ | ⟨x, hx, hx'⟩ | h | h | ⟨k, h1, h2, h3, h4⟩
      · have := hp1 x hx; omega
      · have := hp2 x hx; omega
      · exact absurd hlen.1 h
      · exact absurd hlen.2 h
      · have : stencilLoop v.dims lo hi = .error .check := by
          clear hlen hp1 hp2
          have ok : ∀ (dims : List Dim) (lo hi : List Int), stencilLoop dims lo hi = .error .check ∨ ∃ r, stencilLoop dims lo hi = .ok r := by
            intro dims
            induction dims with
            | nil => intro lo hi; right; exact ⟨([], []), by simp [stencilLoop]⟩
            | cons d dims ih =>
              intro lo hi
              cases lo with
              | nil => right; exact ⟨([], []), by simp [stencilLoop]⟩
              | cons l lo =>
                cases hi with
                | nil => right; exact ⟨([], []), by simp [stencilLoop]⟩
                | cons h hi =>
                  simp only [stencilLoop]
                  split
                  · rcases ih lo hi with h | ⟨r, h⟩
                    · left; simp [h, bind, Except.bind]
                    · right; exact ⟨_, by simp only [h, bind, Except.bind]; rfl⟩
                  · left; rfl
          generalize v.dims = dims at h3 h4
          induction dims generalizing lo hi k with
          | nil => simp at h3
          | cons d dims ih =>
            cases lo with
            | nil => simp at h1
            | cons l lo =>
              cases hi with
              | nil => simp at h2
              | cons h hi =>
                cases k with
                | zero =>
                  simp at h4
                  simp only [stencilLoop]
                  rw [if_neg (by omega)]
                | succ k =>
                  simp only [stencilLoop]
                  split
                  · rw [ih lo hi k (by simpa using h1) (by simpa using h2) (by simpa using h3) (by simpa using h4)]
                    rfl
                  · rfl
        simp [this, bind, Except.bind]
    · rfl
  · rfl

/-- A window of 1+1+1 on a vector of 5. -/
example : (⟨[⟨5, 1⟩], 0⟩ : View).stencil [1] [1] = .ok ⟨[⟨3, 1⟩, ⟨3, 1⟩], 0⟩ := rfl

/-! ## C26 -/

/-- Number of frame axes for a cell rank `c`, or for frame rank `-c` if `c` is negative. -/
def frameRank (r : Nat) (c : Int) : Int := if c < 0 then -c else r - c

/-- C26. Iteration over the cells: the shape is that of the frame, and the element at `i` is the view of the trailing axes. -/
theorem C26_iter {m : Type → Type} [Monad m] (v : View) (s : List Length) (hv : Shaped v s) (c : Int) (f : Nat) (hc : frameRank s.length c = f) (hf : f ≤ s.length) :
    ∃ e : Iter m View, v.cellIter c = .ok e ∧ HasShape e (s.take f) ∧
      ∀ i, i.length = f → ∃ w, elem e i = pure w ∧ Shaped w (s.drop f) ∧ ∀ j, address w j = address v (i ++ j) := by
  have hl := hv.length_eq
  have hcell : v.cell c = .ok (v.dims.take f, v.dims.drop f) := by
    simp only [frameRank] at hc
    have e : rankCell v.dims.length c = (v.dims.length : Int) - f := by
      simp only [rankCell]
      split at hc
      · rw [if_neg (by omega)]; omega
      · rw [if_pos (by omega)]; omega
    simp only [View.cell, e]
    rw [if_neg (by omega), if_pos (by omega)]
    simp
  refine ⟨.cell (v.dims.take f) v.cp fun p => pure ⟨v.dims.drop f, p⟩, ?_, List.forall₂_take f hv, ?_⟩
  · simp [View.cellIter, hcell, bind, Except.bind, pure, Except.pure]
  · intro i hi
    refine ⟨_, rfl, List.forall₂_drop f hv, ?_⟩
    intro j
    simp only [address]
    conv_rhs => rw [← List.take_append_drop f v.dims, List.map_append]
    rw [dot_append _ _ _ _ (by simp; omega)]
    ring

/-- C26. A cell rank larger than the rank is rejected. A frame rank larger than the rank makes the dims of the cell have a negative size; this
doesn't reach the check (`std::length_error` is thrown instead). -/
theorem C26_iter_reject {m : Type → Type} [Monad m] (v : View) (c : Int) :
    ((v.dims.length : Int) < c → v.cellIter (m := m) c = .error .check) ∧
    (c < - (v.dims.length : Int) → v.cellIter (m := m) c = .error .abort) := by
  constructor
  · intro h
    have e : rankCell v.dims.length c = c := by simp only [rankCell]; rw [if_pos (by omega)]
    simp only [View.cellIter, View.cell, e]
    rw [if_neg (by omega), if_neg (by omega)]
    rfl
  · intro h
    have e : rankCell v.dims.length c = v.dims.length + c := by simp only [rankCell]; rw [if_neg (by omega)]
    simp only [View.cellIter, View.cell, e]
    rw [if_pos (by omega)]
    rfl

theorem indexLoop_ok (dims : List Dim) (s : List Length) (h : List.Forall₂ DimLen dims s) (cp : Int) (i : List Int) (hi : InRange s i) :
    indexLoop dims cp i = .ok (cp + dot (dims.map Dim.step) i) := by
  induction h generalizing cp i with
  | nil => simp [indexLoop]
  | cons h1 h2 ih =>
    rename_i d o dims s
    cases i with
    | nil => have := hi.1; simp at this
    | cons x i =>
      rw [InRange_cons] at hi
      simp only [indexLoop, List.map_cons, dot_cons]
      rw [if_pos, ih _ i hi.2]
      · congr 1; ring
      · cases o with
        | none => right; exact h1.symm
        | some n =>
          left
          simp only [DimLen] at h1
          have := hi.1 n rfl
          simp; omega

/-- C26. `at_view(a, i)` is the cell at `i`. -/
theorem C26_at_view (v : View) (s : List Length) (hv : Shaped v s) (i : List Int) (hi : i.length ≤ s.length) (hr : InRange (s.take i.length) i) :
    ∃ w, v.atView i = .ok w ∧ Shaped w (s.drop i.length) ∧ ∀ j, address w j = address v (i ++ j) := by
  have hl := hv.length_eq
  have hcell : v.cell ((v.dims.length : Int) - i.length) = .ok (v.dims.take i.length, v.dims.drop i.length) := by
    have e : rankCell v.dims.length ((v.dims.length : Int) - i.length) = (v.dims.length : Int) - i.length := by
      simp only [rankCell]; rw [if_pos (by omega)]
    simp only [View.cell, e]
    rw [if_neg (by omega), if_pos (by omega)]
    simp
  have hidx : indexer (v.dims.take i.length) v.cp i = .ok (v.cp + dot ((v.dims.take i.length).map Dim.step) i) := by
    simp only [indexer]
    rw [if_pos (by simp), indexLoop_ok _ _ (List.forall₂_take i.length hv) _ _ hr]
  refine ⟨⟨v.dims.drop i.length, v.cp + dot ((v.dims.take i.length).map Dim.step) i⟩, by simp only [View.atView, View.cellAt, hcell, bind, Except.bind, hidx]; rfl, List.forall₂_drop _ hv, ?_⟩
  intro j
  simp only [address]
  conv_rhs => rw [← List.take_append_drop i.length v.dims, List.map_append]
  rw [dot_append _ _ _ _ (by simp; omega)]
  ring

/-- C26. An index out of range is rejected. -/
theorem C26_at_view_reject (v : View) (s : List Length) (hv : Shaped v s) (i : List Int) (hi : i.length ≤ s.length) (hr : ¬ InRange (s.take i.length) i) :
    v.atView i = .error .check := by
  have hl := hv.length_eq
  have hcell : v.cell ((v.dims.length : Int) - i.length) = .ok (v.dims.take i.length, v.dims.drop i.length) := by
    have e : rankCell v.dims.length ((v.dims.length : Int) - i.length) = (v.dims.length : Int) - i.length := by
      simp only [rankCell]; rw [if_pos (by omega)]
    simp only [View.cell, e]
    rw [if_neg (by omega), if_pos (by omega)]
    simp
  have hh : HasShape (Iter.cell (m := Except Fault) (v.dims.take i.length) v.cp fun p => .ok p) (s.take i.length) := List.forall₂_take _ hv
  have := C59_reject (m := Except Fault) _ _ _ _ hh i hr
  simp only [Iter.at, fault] at this
  have hidx : indexer (v.dims.take i.length) v.cp i = .error .check := by
    cases h : indexer (v.dims.take i.length) v.cp i with
    | ok p => rw [h] at this; simp at this
    | error f => rw [h] at this; simpa using this
  simp only [View.atView, View.cellAt, hcell, bind, Except.bind, hidx]

/-- B17. C26 fails for `at_view` with more indices than the rank: the negative cell rank is taken as a frame rank, so it isn't rejected. Here three indices are
accepted by a view of rank 2. -/
theorem C26_at_view_negation : ∃ (v : View) (s : List Nat) (i : List Int) (w : View), Shaped v (s.map some) ∧ s.length < i.length ∧ v.atView i = .ok w :=
  ⟨⟨[⟨2, 3⟩, ⟨3, 1⟩], 0⟩, [2, 3], [1, 1, 1], ⟨[⟨3, 1⟩], 3⟩, .cons rfl (.cons rfl .nil), by decide, rfl⟩

/-- B17, in full. For `n` indices on a view of rank `r < n`, the result is that of using the first `n-r` indices, if `n-r ≤ r`; and else an exception is thrown. -/
theorem C26_at_view_many (v : View) (s : List Length) (hv : Shaped v s) (i : List Int) (hi : s.length < i.length) :
    v.atView i = if s.length < i.length - s.length then .error .abort else v.atView (i.take (i.length - s.length)) := by
  have hl := hv.length_eq
  have e : rankCell v.dims.length ((v.dims.length : Int) - i.length) = (v.dims.length : Int) + ((v.dims.length : Int) - i.length) := by
    simp only [rankCell]; rw [if_neg (by omega)]
  split
  · rename_i h
    simp only [View.atView, View.cellAt, View.cell, e]
    rw [if_pos (by omega)]
    rfl
  · rename_i h
    have hx : (i.take (i.length - s.length)).length = i.length - s.length := by simp
    have e2 : rankCell v.dims.length ((v.dims.length : Int) - (i.length - s.length : Nat)) = (v.dims.length : Int) - (i.length - s.length : Nat) := by
      simp only [rankCell]; rw [if_pos (by omega)]
    simp only [View.atView, View.cellAt, View.cell, hx, e, e2]
    rw [if_neg (by omega), if_pos (by omega), if_neg (by omega), if_pos (by omega)]
    rw [show ((v.dims.length : Int) - (v.dims.length + (v.dims.length - i.length))).toNat = i.length - s.length by omega,
      show ((v.dims.length : Int) - (v.dims.length - (i.length - s.length : Nat))).toNat = i.length - s.length by omega]
    simp only [bind, Except.bind]
    have key : ∀ (ds : List Dim) (cp : Int) (i : List Int) (n : Nat), ds.length = n → n ≤ i.length → indexer ds cp i = indexer ds cp (i.take n) := by
      intro ds cp i n hn hi
      simp only [indexer]
      rw [if_pos (by omega), if_pos (by simp; omega)]
      clear hi hv hl
      subst hn
      induction ds generalizing cp i with
      | nil => simp [indexLoop]
      | cons d ds ih =>
        cases i with
        | nil => simp
        | cons x i =>
          rw [List.length_cons, List.take_succ_cons, indexLoop, indexLoop, ih]
    rw [key _ v.cp i (i.length - s.length) (by simp; omega) (by omega)]

/-- C26 except for `at_view` with too many indices (`C26_at_view_negation`). -/
theorem C26_partial (v : View) (s : List Length) (hv : Shaped v s) (i : List Int) (hi : i.length ≤ s.length) :
    (∃ w, v.atView i = .ok w) ↔ InRange (s.take i.length) i := by
  constructor
  · rintro ⟨w, hw⟩
    by_contra h
    rw [C26_at_view_reject v s hv i hi h] at hw
    simp at hw
  · intro h
    obtain ⟨w, h1, _⟩ := C26_at_view v s hv i hi h
    exact ⟨w, h1⟩

example : (⟨[⟨2, 12⟩, ⟨3, 4⟩, ⟨4, 1⟩], 0⟩ : View).atView [1, 2] = .ok ⟨[⟨4, 1⟩], 20⟩ := rfl
example : frameRank 3 (-1) = 1 ∧ frameRank 3 1 = 2 := by decide

end Ra.Props
