import Verif.Props.Expr
/-!
# Slices with scalar, range, dots and insert subscripts: C11-C14, C43, C57
-/

namespace Ra.Props
open Spec (Length DimLen Shaped InRange address dot Subscript axes made sliceShape sliceIndex Accepts)

/-- The subscript as it's written in the code: `i`, `iota(n, o, s)`, `dots<k>`, `insert<k>`. -/
def write : Subscript → Sub
  | .at i => .scalar (.const i)
  | .range n o s => .iota [(.const n, .const s)] (.const o)
  | .keep k => .dots (some k)
  | .new k => .insert k

theorem range_ends (n : Nat) (o s b : Int) :
    (n = 0 ∨ ((0 ≤ o ∧ o < b) ∧ 0 ≤ o + ((n : Int) - 1) * s ∧ o + ((n : Int) - 1) * s < b)) ↔
      ∀ k : Nat, k < n → 0 ≤ o + s * k ∧ o + s * k < b := by
  constructor
  · rintro (h | ⟨⟨h1, h2⟩, h3, h4⟩) k hk
    · omega
    · have hk0 : (0 : Int) ≤ k := by omega
      have hk1 : (k : Int) ≤ (n : Int) - 1 := by omega
      rcases le_total 0 s with hs | hs
      · constructor
        · nlinarith
        · nlinarith
      · constructor
        · nlinarith
        · nlinarith
  · intro h
    rcases Nat.eq_zero_or_pos n with h0 | h0
    · left; exact h0
    · right
      have a := h 0 h0
      have b := h (n - 1) (by omega)
      have e : ((n - 1 : Nat) : Int) = (n : Int) - 1 := by omega
      rw [e] at b
      simp only [Nat.cast_zero, mul_zero, add_zero] at a
      rw [mul_comm s] at b
      exact ⟨a, b⟩

theorem dot_cons (s : Int) (ss : List Int) (i : Int) (j : List Int) : dot (s :: ss) (i :: j) = i * s + dot ss j := by
  simp [dot]

@[simp] theorem dot_nil (j : List Int) : dot [] j = 0 := by simp [dot]

theorem dot_append (s t : List Int) (i j : List Int) (h : i.length = s.length) : dot (s ++ t) (i ++ j) = dot s i + dot t j := by
  simp only [dot]
  rw [List.zipWith_append (by omega), List.sum_append]

theorem dot_zeros (n : Nat) (j : List Int) : dot (List.replicate n 0) j = 0 := by
  induction n generalizing j with
  | zero => simp
  | succ n ih =>
    cases j with
    | nil => simp [dot]
    | cons i j => rw [List.replicate_succ, dot_cons, ih]; simp

theorem InRange_cons {o : Length} {s : List Length} {i : Int} {j : List Int} :
    InRange (o :: s) (i :: j) ↔ (∀ n : Nat, o = some n → 0 ≤ i ∧ i < n) ∧ InRange s j := by
  constructor
  · rintro ⟨h1, h2⟩
    refine ⟨fun n hn => by simpa using h2 0 n (by simp [hn]), by simpa using h1, fun k n hk => by simpa using h2 (k+1) n (by simpa using hk)⟩
  · rintro ⟨h0, h1, h2⟩
    refine ⟨by simpa using h1, fun k n hk => ?_⟩
    cases k with
    | zero => simpa using h0 n (by simpa using hk)
    | succ k => simpa using h2 k n (by simpa using hk)

theorem InRange_nil {j : List Int} : InRange [] j := ⟨by simp, by simp⟩

theorem InRange_append {s t : List Length} {i j : List Int} (h : i.length = s.length) :
    InRange (s ++ t) (i ++ j) ↔ InRange s i ∧ InRange t j := by
  induction s generalizing i with
  | nil =>
    have : i = [] := by simpa using h
    subst this
    simp [InRange_nil]
  | cons o s ih =>
    cases i with
    | nil => simp at h
    | cons x i =>
      simp only [List.cons_append, InRange_cons, ih (by simpa using h), and_assoc]

theorem InRange_replicate {n : Nat} {j : List Int} (h : n ≤ j.length) : InRange (List.replicate n none) j := by
  refine ⟨by simpa using h, fun k m hk => ?_⟩
  rw [List.getElem?_replicate] at hk
  split at hk <;> simp at hk

theorem valid_of_inRange {s : List Nat} {j : List Int} (hl : j.length = s.length) (h : InRange (s.map some) j) : Spec.Valid s j := by
  induction s generalizing j with
  | nil =>
    have : j = [] := by simpa using hl
    subst this; trivial
  | cons n s ih =>
    cases j with
    | nil => simp at hl
    | cons i j =>
      rw [List.map_cons, InRange_cons] at h
      have := h.1 n rfl
      exact ⟨this.1, this.2, ih (by simpa using hl) h.2⟩

theorem val_const (la x : Int) : ((LenExpr.const x).wlen la).val = .ok x := by simp [LenExpr.wlen, LenExpr.val]

/-- How the result of `fromb` depends on the slice. -/
theorem fromb_spec (is : List Subscript) (pl : Int) (bk : Nat) (dims : List Dim) (s : List Length) (hs : List.Forall₂ DimLen dims s)
    (hax : axes is ≤ dims.length) :
    (Accepts dims is → ∃ cp bv, fromb pl bk dims (is.map write) = .ok (cp, bv, []) ∧ List.Forall₂ DimLen bv (sliceShape s is) ∧
      ∀ j, InRange (sliceShape s is) j →
        cp + dot (bv.map Dim.step) j = pl + dot (dims.map Dim.step) (sliceIndex is j) ∧
        InRange s (sliceIndex is j)) ∧
    (¬ Accepts dims is → fromb pl bk dims (is.map write) = .error .check) := by
  induction is generalizing pl bk dims s with
  | nil =>
    refine ⟨fun _ => ⟨pl, dims, rfl, hs, fun j hj => ⟨rfl, hj⟩⟩, fun h => absurd trivial h⟩
  | cons i is ih =>
    cases i with
    | «at» i =>
      cases hs with
      | nil => simp [axes] at hax
      | @cons d o dims s hd hs =>
        have hax' : axes is ≤ dims.length := by simp [axes] at hax; omega
        have key : (inside i d.len = true ∨ (UNB = d.len ∧ 0 = d.step)) ↔ ((0 ≤ i ∧ i < d.len) ∨ (d.len = UNB ∧ d.step = 0)) := by
          rw [inside_iff]; constructor <;> rintro (h | ⟨h1, h2⟩)
          · exact Or.inl h
          · exact Or.inr ⟨h1.symm, h2.symm⟩
          · exact Or.inl h
          · exact Or.inr ⟨h1.symm, h2.symm⟩
        have hih := ih (pl + i * d.step) bk dims s hs hax'
        have hstep : fromb pl bk (d :: dims) ((Subscript.at i :: is).map write) =
            if inside i d.len = true ∨ (UNB = d.len ∧ 0 = d.step) then fromb (pl + i * d.step) bk dims (is.map write) else .error .check := by
          simp only [List.map_cons, write, fromb, val_const]
          rfl
        constructor
        · rintro ⟨ha, ha'⟩
          obtain ⟨cp, bv, h1, h2, h3⟩ := hih.1 ha'
          refine ⟨cp, bv, ?_, h2, ?_⟩
          · rw [hstep, if_pos (key.mpr ha), h1]
          · intro j hj
            obtain ⟨h4, h5⟩ := h3 j hj
            simp only [sliceIndex, List.map_cons, dot_cons]
            refine ⟨by omega, InRange_cons.mpr ⟨fun n hn => ?_, h5⟩⟩
            subst hn
            simp only [DimLen] at hd
            have := UNB_val
            omega
        · intro ha
          rw [hstep]
          by_cases h : (0 ≤ i ∧ i < d.len) ∨ (d.len = UNB ∧ d.step = 0)
          · rw [if_pos (key.mpr h)]
            exact hih.2 fun h' => ha ⟨h, h'⟩
          · rw [if_neg (fun h' => h (key.mp h'))]
    | range n o st =>
      cases hs with
      | nil => simp [axes] at hax
      | @cons d l dims s hd hs =>
        have hax' : axes is ≤ dims.length := by simp [axes] at hax; omega
        have key : ((n : Int) = 0 ∨ (inside o d.len = true ∧ inside (o + ((n : Int) - 1) * st) d.len = true)) ↔
            ∀ k : Nat, k < n → 0 ≤ o + st * k ∧ o + st * k < d.len := by
          rw [inside_iff, inside_iff, ← range_ends]
          simp
        have hih := ih (pl + o * d.step) (bk + 1) dims s hs hax'
        have hstep : fromb pl bk (d :: dims) ((Subscript.range n o st :: is).map write) =
            if (n : Int) = 0 ∨ (inside o d.len = true ∧ inside (o + ((n : Int) - 1) * st) d.len = true) then
              (do let (pl, bv, ds) ← fromb (pl + o * d.step) (bk + 1) dims (is.map write)
                  return (pl, ⟨n, st * d.step⟩ :: bv, ds)) else .error .check := by
          have hn : ¬ ((n : Int) < 0) := by omega
          simp only [List.map_cons, write, fromb, iotaDims, val_const]
          by_cases h : (n : Int) = 0 ∨ (inside o d.len = true ∧ inside (o + ((n : Int) - 1) * st) d.len = true)
          · rw [if_pos h]
            simp only [bind, Except.bind, pure, Except.pure, List.any_cons, List.any_nil, hn, iotaLoop]
            rw [if_pos h]
            rfl
          · rw [if_neg h]
            simp only [bind, Except.bind, pure, Except.pure, List.any_cons, List.any_nil, hn, iotaLoop]
            rw [if_neg h]
            rfl
        constructor
        · rintro ⟨ha, ha'⟩
          obtain ⟨cp, bv, h1, h2, h3⟩ := hih.1 ha'
          refine ⟨cp, ⟨n, st * d.step⟩ :: bv, ?_, ?_, ?_⟩
          · rw [hstep, if_pos (key.mpr ha), h1]
            rfl
          · exact .cons rfl h2
          · intro j hj
            cases j with
            | nil => have := hj.1; simp [sliceShape] at this
            | cons x j =>
              simp only [sliceShape, List.drop_succ_cons, List.drop_zero] at hj
              rw [InRange_cons] at hj
              obtain ⟨h4, h5⟩ := h3 j hj.2
              have hx := hj.1 n rfl
              simp only [sliceIndex, List.map_cons, dot_cons, List.headD_cons, List.drop_succ_cons, List.drop_zero]
              refine ⟨?_, InRange_cons.mpr ⟨fun m hm => ?_, h5⟩⟩
              · have e1 : x * (st * d.step) = st * x * d.step := by ring
                have e2 : (o + st * x) * d.step = o * d.step + st * x * d.step := by ring
                rw [e1, e2]
                omega
              · subst hm
                simp only [DimLen] at hd
                have := ha x.toNat (by omega)
                rw [Int.toNat_of_nonneg hx.1] at this
                omega
        · intro ha
          rw [hstep]
          by_cases h : ∀ k : Nat, k < n → 0 ≤ o + st * k ∧ o + st * k < d.len
          · rw [if_pos (key.mpr h)]
            rw [hih.2 fun h' => ha ⟨h, h'⟩]
            rfl
          · rw [if_neg (fun h' => h (key.mp h'))]
    | keep k =>
      have hk : k ≤ dims.length := by simp [axes] at hax; omega
      have hls := hs.length_eq
      have hih := ih pl (bk + k) (dims.drop k) (s.drop k) (List.forall₂_drop k hs) (by simp [axes] at hax ⊢; omega)
      have hstep : fromb pl bk dims ((Subscript.keep k :: is).map write) =
          (do let (pl, bv, ds) ← fromb pl (bk + k) (dims.drop k) (is.map write)
              return (pl, dims.take k ++ bv, ds)) := by
        simp only [List.map_cons, write, fromb]
        rw [if_neg (by omega)]
      have hA : Accepts dims (.keep k :: is) ↔ Accepts (dims.drop k) is := by
        cases dims <;> simp [Accepts]
      rw [hA]
      constructor
      · intro ha
        obtain ⟨cp, bv, h1, h2, h3⟩ := hih.1 ha
        refine ⟨cp, dims.take k ++ bv, ?_, ?_, ?_⟩
        · rw [hstep, h1]; rfl
        · exact List.rel_append (List.forall₂_take k hs) h2
        · intro j hj
          simp only [sliceShape] at hj
          have hjl : k ≤ j.length := by
            have := hj.1
            simp at this; omega
          rw [← List.take_append_drop k j] at hj
          rw [InRange_append (by simp; omega)] at hj
          obtain ⟨h4, h5⟩ := h3 _ hj.2
          simp only [sliceIndex]
          constructor
          · conv_lhs => rw [← List.take_append_drop k j]
            conv_rhs => rw [← List.take_append_drop k dims]
            rw [List.map_append, List.map_append, dot_append _ _ _ _ (by simp; omega), dot_append _ _ _ _ (by simp; omega)]
            omega
          · rw [← List.take_append_drop k s, InRange_append (by simp; omega)]
            exact ⟨hj.1, h5⟩
      · intro ha
        rw [hstep, hih.2 ha]; rfl
    | new k =>
      have hih := ih pl (bk + k) dims s hs (by simpa [axes] using hax)
      have hstep : fromb pl bk dims ((Subscript.new k :: is).map write) =
          (do let (pl, bv, ds) ← fromb pl (bk + k) dims (is.map write)
              return (pl, List.replicate k ⟨UNB, 0⟩ ++ bv, ds)) := by
        simp only [List.map_cons, write, fromb]
      have hA : Accepts dims (.new k :: is) ↔ Accepts dims is := by
        cases dims <;> simp [Accepts]
      rw [hA]
      constructor
      · intro ha
        obtain ⟨cp, bv, h1, h2, h3⟩ := hih.1 ha
        refine ⟨cp, List.replicate k ⟨UNB, 0⟩ ++ bv, ?_, ?_, ?_⟩
        · rw [hstep, h1]; rfl
        · refine List.rel_append ?_ h2
          clear hstep hih hA h1 hax
          induction k with
          | zero => exact .nil
          | succ k ihk => exact .cons rfl ihk
        · intro j hj
          simp only [sliceShape] at hj
          have hjl : k ≤ j.length := by
            have := hj.1
            simp at this; omega
          rw [← List.take_append_drop k j, InRange_append (by simp; omega)] at hj
          obtain ⟨h4, h5⟩ := h3 _ hj.2
          simp only [sliceIndex]
          refine ⟨?_, h5⟩
          conv_lhs => rw [← List.take_append_drop k j]
          rw [List.map_append, List.map_replicate, dot_append _ _ _ _ (by simp; omega), dot_zeros]
          omega
      · intro ha
        rw [hstep, hih.2 ha]; rfl

/-- C11, C12, C13. A slice that is accepted has the shape that the subscripts say, its element at `j` is the element of the source at the
index that the subscripts say, and that's an index of the source. -/
theorem C13_slice (v : View) (s : List Length) (hv : Shaped v s) (is : List Subscript) (hax : axes is ≤ s.length)
    (ha : Accepts v.dims is) :
    ∃ b, v.from (is.map write) = .ok b ∧ Shaped b (sliceShape s is) ∧
      ∀ j, InRange (sliceShape s is) j → address b j = address v (sliceIndex is j) ∧ InRange s (sliceIndex is j) := by
  have hl := hv.length_eq
  obtain ⟨cp, bv, h1, h2, h3⟩ := (fromb_spec is v.cp 0 v.dims s hv (by omega)).1 ha
  refine ⟨⟨bv, cp⟩, ?_, h2, h3⟩
  simp only [View.from, h1]
  rfl

/-- C14. Every element of a slice made with integers, ranges, `dots` and `insert` that passes the checks is an element of the source.
Missing: iotas of rank 2 or more, for which it's false (`C14_negation`). -/
theorem C14_partial (v : View) (s : List Length) (hv : Shaped v s) (is : List Subscript) (hax : axes is ≤ s.length) (b : View)
    (hb : v.from (is.map write) = .ok b) (j : List Int) (hj : InRange (sliceShape s is) j) :
    ∃ i, InRange s i ∧ address b j = address v i := by
  have ha : Accepts v.dims is := by
    by_contra h
    have hl := hv.length_eq
    simp only [View.from, (fromb_spec is v.cp 0 v.dims s hv (by omega)).2 h] at hb
    simp [bind, Except.bind] at hb
  obtain ⟨b', h1, _, h3⟩ := C13_slice v s hv is hax ha
  rw [h1] at hb
  injection hb with hb
  subst hb
  exact ⟨_, (h3 j hj).2, (h3 j hj).1⟩

/-- C11, C12. A slice that isn't accepted fails the check. -/
theorem C11_reject (v : View) (s : List Length) (hv : Shaped v s) (is : List Subscript) (hax : axes is ≤ s.length)
    (ha : ¬ Accepts v.dims is) : v.from (is.map write) = .error .check := by
  have hl := hv.length_eq
  simp only [View.from, (fromb_spec is v.cp 0 v.dims s hv (by omega)).2 ha]
  rfl

theorem accepts_at {v : View} {s : List Nat} (hv : Shaped v (s.map some)) (i : List Int) (hi : i.length ≤ s.length) :
    Accepts v.dims (i.map .at) ↔ ∀ k (hk : k < i.length), 0 ≤ i[k] ∧ i[k] < (s.getD k 0 : Int) := by
  unfold Shaped at hv
  generalize v.dims = dims at hv
  induction i generalizing dims s with
  | nil => cases dims <;> simp [Accepts]
  | cons x i ih =>
    cases s with
    | nil => simp at hi
    | cons n s =>
      cases hv with
      | @cons d _ dims _ hd hv =>
        simp only [DimLen] at hd
        simp only [List.map_cons, Accepts, ih (by simpa using hi) dims hv]
        have := UNB_val
        constructor
        · rintro ⟨h1, h2⟩ k hk
          cases k with
          | zero => simp; omega
          | succ k => simpa using h2 k (by simpa using hk)
        · intro h
          refine ⟨?_, fun k hk => h (k+1) (by simpa using hk)⟩
          have := h 0 (by simp)
          simp at this
          omega

/-- C11. Integer subscripts in range, as many as axes or fewer, give the element or the subview of the remaining axes. -/
theorem C11_scalar (v : View) (s : List Nat) (hv : Shaped v (s.map some)) (i : List Int) (hi : i.length ≤ s.length)
    (hr : ∀ k (hk : k < i.length), 0 ≤ i[k] ∧ i[k] < (s.getD k 0 : Int)) :
    ∃ b, v.from (i.map fun x => .scalar (.const x)) = .ok b ∧ Shaped b ((s.drop i.length).map some) ∧
      ∀ j, InRange ((s.drop i.length).map some) j → address b j = address v (i ++ j) := by
  have hax : axes (i.map Subscript.at) = i.length := by
    clear hr hi
    induction i with
    | nil => rfl
    | cons x i ih => simp [axes, ih]; omega
  have hshape : ∀ s : List Length, sliceShape s (i.map Subscript.at) = s.drop i.length := by
    clear hr hi hax
    induction i with
    | nil => intro s; rfl
    | cons x i ih => intro s; simp only [List.map_cons, sliceShape, ih, List.drop_drop, List.length_cons]; congr 1; omega
  have hindex : ∀ j : List Int, sliceIndex (i.map Subscript.at) j = i ++ j := by
    clear hr hi hax hshape
    induction i with
    | nil => intro j; rfl
    | cons x i ih => intro j; simp [sliceIndex, ih]
  obtain ⟨b, h1, h2, h3⟩ := C13_slice v _ hv (i.map .at) (by simpa [hax] using hi) ((accepts_at hv i hi).mpr hr)
  rw [hshape, ← List.map_drop] at h2
  refine ⟨b, ?_, h2, fun j hj => ?_⟩
  · rw [← h1, List.map_map]; rfl
  · have := (h3 j (by rw [hshape, ← List.map_drop]; exact hj)).1
    rwa [hindex] at this

/-- C11. Integer subscripts out of range fail the check. -/
theorem C11_scalar_reject (v : View) (s : List Nat) (hv : Shaped v (s.map some)) (i : List Int) (hi : i.length ≤ s.length)
    (hr : ∃ k, ∃ hk : k < i.length, ¬ (0 ≤ i[k] ∧ i[k] < (s.getD k 0 : Int))) :
    v.from (i.map fun x => .scalar (.const x)) = .error .check := by
  have hax : axes (i.map Subscript.at) = i.length := by
    clear hr hi
    induction i with
    | nil => rfl
    | cons x i ih => simp [axes, ih]; omega
  have := C11_reject v _ hv (i.map .at) (by simpa [hax] using hi) (fun h => by
    obtain ⟨k, hk, h'⟩ := hr
    exact h' ((accepts_at hv i hi).mp h k hk))
  rw [← this, List.map_map]; rfl

/-- C12. A range on axis `k` of a view with finite axes is accepted if and only if it has no positions or all its positions are in range. -/
theorem C12_range (v : View) (s : List Nat) (hv : Shaped v (s.map some)) (k : Nat) (hk : k < s.length) (n : Nat) (o st : Int) :
    (∃ b, v.from [.dots (some k), .iota [(.const n, .const st)] (.const o)] = .ok b) ↔
      ∀ i : Nat, i < n → 0 ≤ o + st * i ∧ o + st * i < s[k] := by
  have hax : axes [.keep k, .range n o st] ≤ (s.map some).length := by simp [axes]; omega
  have hA : Accepts v.dims [.keep k, .range n o st] ↔ ∀ i : Nat, i < n → 0 ≤ o + st * i ∧ o + st * i < s[k] := by
    have hl := hv.length_eq
    have hk' : k < v.dims.length := by simp at hl; omega
    have hd := hv.get hk' (by simpa using hk)
    simp only [List.get_eq_getElem, List.getElem_map, DimLen] at hd
    have hdrop : v.dims.drop k = v.dims[k] :: v.dims.drop (k+1) := by simp
    have e : Accepts v.dims [.keep k, .range n o st] ↔ Accepts (v.dims.drop k) [.range n o st] := by
      cases v.dims <;> simp [Accepts]
    rw [e, hdrop]
    simp only [Accepts, and_true, hd]
  rw [← hA]
  constructor
  · rintro ⟨b, hb⟩
    by_contra h
    have := C11_reject v _ hv [.keep k, .range n o st] hax h
    simp only [List.map_cons, List.map_nil, write] at this
    rw [this] at hb
    simp at hb
  · intro h
    obtain ⟨b, hb, _⟩ := C13_slice v _ hv [.keep k, .range n o st] hax h
    exact ⟨b, hb⟩

/-- C12. What the range selects. -/
theorem C12_elements (v : View) (s : List Nat) (hv : Shaped v (s.map some)) (k : Nat) (hk : k < s.length) (n : Nat) (o st : Int) (b : View)
    (hb : v.from [.dots (some k), .iota [(.const n, .const st)] (.const o)] = .ok b) :
    Shaped b ((s.set k n).map some) ∧
    ∀ (j : List Int), Spec.Valid (s.set k n) j → address b j = address v (j.set k (o + st * j.getD k 0)) ∧
      Spec.Valid s (j.set k (o + st * j.getD k 0)) := by
  have hax : axes [.keep k, .range n o st] ≤ (s.map some).length := by simp [axes]; omega
  have ha : Accepts v.dims [.keep k, .range n o st] := by
    by_contra h
    have := C11_reject v _ hv [.keep k, .range n o st] hax h
    simp only [List.map_cons, List.map_nil, write] at this
    rw [this] at hb
    simp at hb
  obtain ⟨b', hb', h2, h3⟩ := C13_slice v _ hv [.keep k, .range n o st] hax ha
  simp only [List.map_cons, List.map_nil, write] at hb'
  rw [hb'] at hb
  injection hb with hb
  subst hb
  have hshape : sliceShape (s.map some) [.keep k, .range n o st] = (s.set k n).map some := by
    simp only [sliceShape, ← List.map_take, List.drop_drop, ← List.map_drop]
    rw [List.set_eq_take_append_cons_drop, if_pos hk]
    simp
  rw [hshape] at h2 h3
  refine ⟨h2, fun j hj => ?_⟩
  have hjl := hj.length
  have hkj : k < j.length := by simp at hjl; omega
  have hidx : sliceIndex [.keep k, .range n o st] j = j.set k (o + st * j.getD k 0) := by
    simp only [sliceIndex, List.drop_drop]
    rw [List.set_eq_take_append_cons_drop, if_pos hkj]
    congr 2
    rw [List.headD_eq_head?_getD, List.head?_drop, List.getD_eq_getElem?_getD]
  have := h3 j (Spec.Valid.inRange hj)
  rw [hidx] at this
  refine ⟨this.1, ?_⟩
  have hr := this.2
  have hlen : (j.set k (o + st * j.getD k 0)).length = s.length := by simp at hjl ⊢; omega
  exact valid_of_inRange hlen hr

/-- A case: axis 1 of a 2x5 view, positions 4, 2, 0. -/
example : (⟨[⟨2, 5⟩, ⟨5, 1⟩], 100⟩ : View).from [.dots (some 1), .iota [(.const 3, .const (-2))] (.const 4)] = .ok ⟨[⟨2, 5⟩, ⟨3, -2⟩], 104⟩ := by
  rfl
example : Shaped ⟨[⟨2, 5⟩, ⟨5, 1⟩], 100⟩ ([2, 5].map some) := .cons rfl (.cons rfl .nil)

/-! ## C13 -/

theorem length_iotaDims {la : Int} {iz : List (LenExpr × LenExpr)} {iz' : List Dim} (he : iotaDims la iz = .ok iz') :
    iz'.length = iz.length := by
  induction iz generalizing iz' with
  | nil => simp only [iotaDims] at he; injection he with he; simp [← he]
  | cons p iz ihz =>
    obtain ⟨n, s⟩ := p
    simp only [iotaDims, bind, Except.bind] at he
    split at he
    · simp at he
    · split at he
      · simp at he
      · split at he
        · simp at he
        · rename_i t ht
          have := ihz ht
          simp only [pure, Except.pure, Except.ok.injEq] at he
          simp [← he, this]

theorem length_iotaLoop {la st i pl pl' : Int} {iz b0 : List Dim} (hl : iotaLoop la st i pl iz = .ok (pl', b0)) : b0.length = iz.length := by
  induction iz generalizing pl b0 pl' with
  | nil => simp only [iotaLoop, Except.ok.injEq, Prod.mk.injEq] at hl; simp [← hl.2]
  | cons d' iz ihz =>
    simp only [iotaLoop] at hl
    split at hl
    · simp only [bind, Except.bind] at hl
      split at hl
      · simp at hl
      · rename_i t ht
        obtain ⟨pl'', b1⟩ := t
        have := ihz ht
        simp only [pure, Except.pure, Except.ok.injEq, Prod.mk.injEq] at hl
        simp [← hl.2, this]
    · simp at hl

/-- C13. The rank of a slice. -/
theorem C13_rank (v b : View) (is : List Sub) (h : v.from is = .ok b) : (b.dims.length : Int) = frombrank v.dims.length is := by
  have key : ∀ (is : List Sub) (pl : Int) (bk : Nat) (dims : List Dim) (cp : Int) (bv : List Dim) (ds : List Nat),
      fromb pl bk dims is = .ok (cp, bv, ds) → (bv.length : Int) = frombrank dims.length is := by
    intro is
    induction is with
    | nil =>
      intro pl bk dims cp bv ds h
      simp only [fromb] at h
      injection h with h
      simp only [Prod.mk.injEq] at h
      simp [frombrank, ← h.2.1]
    | cons i is ih =>
      intro pl bk dims cp bv ds h
      cases i with
      | scalar e =>
        cases dims with
        | nil => simp [fromb] at h
        | cons d dims =>
          simp only [fromb] at h
          cases he : (e.wlen d.len).val with
          | error f => rw [he] at h; simp [bind, Except.bind] at h
          | ok i =>
            rw [he] at h
            simp only [bind, Except.bind] at h
            split at h
            · have := ih _ _ _ _ _ _ h
              simp [frombrank, fsrc, fdst] at this ⊢
              omega
            · simp at h
      | iota iz o =>
        cases dims with
        | nil => simp [fromb] at h
        | cons d dims =>
          simp only [fromb] at h
          cases he : iotaDims d.len iz with
          | error f => rw [he] at h; simp [bind, Except.bind] at h
          | ok iz' =>
            rw [he] at h
            simp only [bind, Except.bind] at h
            split at h
            · simp at h
            · cases ho : (o.wlen d.len).val with
              | error f => rw [ho] at h; simp at h
              | ok oi =>
                rw [ho] at h
                simp only at h
                cases hl : iotaLoop d.len d.step oi pl iz' with
                | error f => rw [hl] at h; simp at h
                | ok r =>
                  rw [hl] at h
                  obtain ⟨pl', b0⟩ := r
                  simp only at h
                  cases hf : fromb pl' (bk + iz'.length) dims is with
                  | error f => rw [hf] at h; simp at h
                  | ok r =>
                    rw [hf] at h
                    obtain ⟨pl'', bv', ds'⟩ := r
                    simp only [pure, Except.pure, Except.ok.injEq, Prod.mk.injEq] at h
                    have := ih _ _ _ _ _ _ hf
                    have h1 := length_iotaDims he
                    have h2 := length_iotaLoop hl
                    rw [← h.2.1]
                    simp [frombrank, fsrc, fdst] at this ⊢
                    omega
      | dots n =>
        simp only [fromb] at h
        have : ∃ n', (if dims.length < n' then Except.error Fault.ub else do
            let (pl, bv, ds) ← fromb pl (bk + n') (dims.drop n') is
            return (pl, dims.take n' ++ bv, ds)) = .ok (cp, bv, ds) ∧ (n = some n' ∨ n = none) := by
          cases n with
          | none => exact ⟨_, h, Or.inr rfl⟩
          | some n => exact ⟨_, h, Or.inl rfl⟩
        obtain ⟨n', h, hn'⟩ := this
        split at h
        · simp at h
        · simp only [bind, Except.bind] at h
          split at h
          · simp at h
          · rename_i r hr
            have hfs : fsrc (.dots n) = fdst (.dots n) := rfl
            obtain ⟨pl', bv', ds'⟩ := r
            simp only [pure, Except.pure, Except.ok.injEq, Prod.mk.injEq] at h
            have := ih _ _ _ _ _ _ hr
            rw [← h.2.1]
            simp only [frombrank, List.map_cons, List.sum_cons, hfs] at this ⊢
            simp at this ⊢
            omega
      | insert n =>
        simp only [fromb, bind, Except.bind] at h
        split at h
        · simp at h
        · rename_i r hr
          obtain ⟨pl', bv', ds'⟩ := r
          simp only [pure, Except.pure, Except.ok.injEq, Prod.mk.injEq] at h
          have := ih _ _ _ _ _ _ hr
          rw [← h.2.1]
          simp [frombrank, fsrc, fdst] at this ⊢
          omega
      | array =>
        cases dims with
        | nil => simp [fromb] at h
        | cons d dims =>
          simp only [fromb, bind, Except.bind] at h
          split at h
          · simp at h
          · rename_i r hr
            obtain ⟨pl', bv', ds'⟩ := r
            simp only [pure, Except.pure, Except.ok.injEq, Prod.mk.injEq] at h
            have := ih _ _ _ _ _ _ hr
            rw [← h.2.1]
            simp [frombrank, fsrc, fdst] at this ⊢
            omega
  simp only [View.from, bind, Except.bind] at h
  split at h
  · simp at h
  · rename_i r hr
    obtain ⟨cp, bv, ds⟩ := r
    simp only [pure, Except.pure, Except.ok.injEq] at h
    rw [← h]
    exact key _ _ _ _ _ _ _ hr

theorem sliceShape_length (s : List Length) (is : List Subscript) (hax : axes is ≤ s.length) : (sliceShape s is).length + axes is = s.length + made is := by
  induction is generalizing s with
  | nil => simp [sliceShape, axes, made]
  | cons i is ih =>
    cases i with
    | «at» i =>
      simp only [axes] at hax
      have := ih (s.drop 1) (by simp; omega)
      simp [sliceShape, axes, made] at this ⊢
      omega
    | range n o st =>
      simp only [axes] at hax
      have := ih (s.drop 1) (by simp; omega)
      simp [sliceShape, axes, made] at this ⊢
      omega
    | keep k =>
      simp only [axes] at hax
      have := ih (s.drop k) (by simp; omega)
      simp [sliceShape, axes, made] at this ⊢
      omega
    | new k =>
      simp only [axes] at hax
      have := ih s hax
      simp [sliceShape, axes, made] at this ⊢
      omega

/-- C13. The rank of a slice is that of the source, minus the axes that the subscripts take, plus those that they make. -/
theorem C13_rank_axes (v b : View) (s : List Length) (hv : Shaped v s) (is : List Subscript) (hax : axes is ≤ s.length) (h : v.from (is.map write) = .ok b) :
    (b.dims.length : Int) = s.length - axes is + made is := by
  by_cases ha : Accepts v.dims is
  · obtain ⟨b', h1, h2, _⟩ := C13_slice v s hv is hax ha
    rw [h] at h1
    injection h1 with h1
    subst h1
    have := sliceShape_length s is hax
    rw [h2.length_eq]
    omega
  · rw [C11_reject v s hv is hax ha] at h
    simp at h

/-- C13. `dots<>` stands for as many axes as are left by the other subscripts (any kind). -/
theorem C13_dots (v : View) (pre post : List Sub) (k : Nat) (h : (pre.map fsrc).sum + k + (post.map fsrc).sum = v.dims.length)
    (hd : ∀ i ∈ pre, i ≠ .dots none) :
    v.from (pre ++ .dots none :: post) = v.from (pre ++ .dots (some k) :: post) := by
  have key : ∀ (pre : List Sub) (pl : Int) (bk : Nat) (dims : List Dim), (pre.map fsrc).sum + k + (post.map fsrc).sum = dims.length →
      (∀ i ∈ pre, i ≠ .dots none) →
      fromb pl bk dims (pre ++ .dots none :: post) = fromb pl bk dims (pre ++ .dots (some k) :: post) := by
    intro pre
    induction pre with
    | nil =>
      intro pl bk dims h _
      have : dims.length - (post.map fsrc).sum = k := by simp at h; omega
      simp only [List.nil_append, fromb, this]
    | cons i pre ih =>
      intro pl bk dims h hd
      have hd' : ∀ i ∈ pre, i ≠ .dots none := fun i hi => hd i (List.mem_cons_of_mem _ hi)
      cases i with
      | scalar e =>
        cases dims with
        | nil => simp [fromb]
        | cons d dims =>
          simp only [List.cons_append, fromb]
          congr 1; funext i
          rw [ih _ _ dims (by simp [fsrc] at h; omega) hd']
      | iota iz o =>
        cases dims with
        | nil => simp [fromb]
        | cons d dims =>
          have e : ∀ pl bk, fromb pl bk dims (pre ++ .dots none :: post) = fromb pl bk dims (pre ++ .dots (some k) :: post) :=
            fun pl bk => ih _ _ dims (by simp [fsrc] at h; omega) hd'
          simp only [List.cons_append, fromb, e]
      | dots n =>
        cases n with
        | none => exact absurd rfl (hd _ List.mem_cons_self)
        | some n =>
          simp only [List.cons_append, fromb]
          split
          · rfl
          · rw [ih _ _ (dims.drop n) (by simp [fsrc] at h ⊢; omega) hd']
      | insert n =>
        simp only [List.cons_append, fromb]
        rw [ih _ _ dims (by simpa [fsrc] using h) hd']
      | array =>
        cases dims with
        | nil => simp [fromb]
        | cons d dims =>
          simp only [List.cons_append, fromb]
          rw [ih _ _ dims (by simp [fsrc] at h; omega) hd']
  simp only [View.from, key pre _ _ _ h hd]

/-- C13. Missing trailing subscripts keep the axes: `a(i ...)` is `a(i ..., dots<>)`. -/
theorem C13_elided (v : View) (is : List Sub) (hd : ∀ i ∈ is, i ≠ .dots none) : v.from is = v.from (is ++ [.dots none]) := by
  have key : ∀ (is : List Sub) (pl : Int) (bk : Nat) (dims : List Dim), (∀ i ∈ is, i ≠ .dots none) →
      fromb pl bk dims is = fromb pl bk dims (is ++ [.dots none]) := by
    intro is
    induction is with
    | nil => intro pl bk dims _; simp [fromb, bind, Except.bind, pure, Except.pure]
    | cons i is ih =>
      intro pl bk dims hd
      have hd' : ∀ i ∈ is, i ≠ .dots none := fun i hi => hd i (List.mem_cons_of_mem _ hi)
      cases i with
      | scalar e =>
        cases dims with
        | nil => simp [fromb]
        | cons d dims =>
          simp only [List.cons_append, fromb]
          congr 1; funext i
          rw [ih _ _ dims hd']
      | iota iz o =>
        cases dims with
        | nil => simp [fromb]
        | cons d dims =>
          have e : ∀ pl bk, fromb pl bk dims is = fromb pl bk dims (is ++ [.dots none]) := fun pl bk => ih _ _ dims hd'
          simp only [List.cons_append, fromb, e]
      | dots n =>
        cases n with
        | none => exact absurd rfl (hd _ List.mem_cons_self)
        | some n =>
          simp only [List.cons_append, fromb]
          rw [ih _ _ (dims.drop n) hd']
      | insert n =>
        simp only [List.cons_append, fromb]
        rw [ih _ _ dims hd']
      | array =>
        cases dims with
        | nil => simp [fromb]
        | cons d dims =>
          simp only [List.cons_append, fromb]
          rw [ih _ _ dims hd']
  simp only [View.from]
  rw [key is _ _ _ hd]

/-- C13. `dots<k>` with the axes it covers keeps the view; `insert<n>` puts `n` unbounded axes in front of the next axis and the result doesn't
depend on the indices along them. Here with `k` axes kept before. -/
theorem C13_insert (v : View) (s : List Length) (hv : Shaped v s) (k n : Nat) (hk : k ≤ s.length) :
    ∃ b, v.from [.dots (some k), .insert n] = .ok b ∧ Shaped b (s.take k ++ List.replicate n none ++ s.drop k) ∧
      ∀ i x j, i.length = k → x.length = n → InRange s (i ++ j) → address b (i ++ x ++ j) = address v (i ++ j) := by
  have hA : Accepts v.dims [.keep k, .new n] := by
    cases hd : v.dims with
    | nil => simp [Accepts]
    | cons d ds => cases hdd : (d :: ds).drop k <;> simp [Accepts]
  obtain ⟨b, h1, h2, h3⟩ := C13_slice v s hv [.keep k, .new n] (by simpa [axes] using hk) hA
  refine ⟨b, h1, by simpa [sliceShape, List.append_assoc] using h2, ?_⟩
  intro i x j hi hx hr
  have hs : s = s.take k ++ s.drop k := (List.take_append_drop k s).symm
  have hr' := hr
  rw [hs, InRange_append (by simp; omega)] at hr
  have := (h3 (i ++ x ++ j) (by
    simp only [sliceShape]
    rw [List.append_assoc, InRange_append (by simp; omega)]
    refine ⟨hr.1, ?_⟩
    rw [InRange_append (by simp [hx])]
    exact ⟨InRange_replicate (by omega), hr.2⟩)).1
  rw [this]
  congr 1
  subst hi hx
  simp [sliceIndex]

/-- C13, with the rank of the result and `insert` in the middle: a 2x3 view with a new axis between. -/
example : (⟨[⟨2, 3⟩, ⟨3, 1⟩], 0⟩ : View).from [.dots (some 1), .insert 1, .dots none] = .ok ⟨[⟨2, 3⟩, ⟨UNB, 0⟩, ⟨3, 1⟩], 0⟩ := by rfl

/-- B19. Too many subscripts, some of them `dots<n>`, aren't checked: the code reads a dim that doesn't exist (the rank of the result is
computed as if it did). Eg `a(all, 0)` or `a(all, all)` for `a` of rank 1. -/
theorem C13_too_many : ∃ (v : View) (is : List Sub), 0 ≤ frombrank v.dims.length is ∧ v.from is = .error .ub :=
  ⟨⟨[⟨3, 1⟩], 0⟩, [.dots (some 1), .scalar (.const 0)], by decide, rfl⟩

/-! ## C14 for iotas of rank 2 or more -/

/-- B2. C14 fails for an iota of rank 2: with origin 1 the slice starts at 2 (the origin is added once per axis). The view has a single
axis of length 4 and the iota has shape (2, 2), origin 1 and steps (2, 1), so positions 1, 2, 3, 4; hence it should have been rejected.
Instead it selects 2, 3, 4, 5. -/
theorem C14_negation : ∃ (v : View) (s : List Nat) (iz : List (Nat × Int)) (o : Int) (b : View), Shaped v (s.map some) ∧
    v.from [.iota (iz.map fun p => (.const p.1, .const p.2)) (.const o)] = .ok b ∧
    ∃ j, Spec.Valid (iz.map Prod.fst) j ∧ ∀ i, Spec.Valid s i → address b j ≠ address v i := by
  refine ⟨⟨[⟨4, 1⟩], 0⟩, [4], [(2, 2), (2, 1)], 1, ⟨[⟨2, 2⟩, ⟨2, 1⟩], 2⟩, .cons rfl .nil, rfl, [1, 1], by simp [Spec.Valid], ?_⟩
  intro i hi
  match i, hi with
  | [i], ⟨h1, h2, _⟩ =>
    simp only [address, dot]
    simp
    simp at h2
    omega

/-- B2, even when the positions selected are all in range. For positions 1, 2 | 1, 2 (steps 0, 1) of a view of length 4, the slice selects
2, 3. -/
theorem C14_origin : ∃ (v b : View), v.dims = [⟨4, 1⟩] ∧ v.cp = 0 ∧
    v.from [.iota [(.const 2, .const 0), (.const 2, .const 1)] (.const 1)] = .ok b ∧ address b [0, 0] = 2 :=
  ⟨⟨[⟨4, 1⟩], 0⟩, ⟨[⟨2, 0⟩, ⟨2, 1⟩], 2⟩, rfl, rfl, rfl, rfl⟩

/-! ## C43 -/

mutual
/-- Put the number `n` in place of `ra::len`. -/
def subst (n : Int) : LenExpr → LenExpr
  | .const x => .const x
  | .len => .const n
  | .map op t => .map op (substs n t)
  | .pick t => .pick (substs n t)
def substs (n : Int) : List LenExpr → List LenExpr
  | [] => []
  | e :: t => subst n e :: substs n t
end

/-- Put the length of the axis that each subscript applies to in place of `ra::len`. -/
def substSubs : List Dim → List Sub → List Sub
  | _, [] => []
  | dims, .scalar e :: is => .scalar (subst ((dims.map Dim.len).headD 0) e) :: substSubs (dims.drop 1) is
  | dims, .iota iz o :: is =>
    let n := (dims.map Dim.len).headD 0
    .iota (iz.map fun p => (subst n p.1, subst n p.2)) (subst n o) :: substSubs (dims.drop 1) is
  | dims, .dots (some k) :: is => .dots (some k) :: substSubs (dims.drop k) is
  | dims, .dots none :: is => .dots none :: substSubs (dims.drop (dims.length - (is.map fsrc).sum)) is
  | dims, .insert k :: is => .insert k :: substSubs dims is
  | dims, .array :: is => .array :: substSubs (dims.drop 1) is

mutual
theorem subst_of_not (n : Int) (e : LenExpr) (h : e.hasLen = false) : subst n e = e := by
  cases e with
  | const x => rfl
  | len => simp [LenExpr.hasLen] at h
  | map op t => simp only [subst, substs_of_not n t (by simpa [LenExpr.hasLen] using h)]
  | pick t => simp only [subst, substs_of_not n t (by simpa [LenExpr.hasLen] using h)]
theorem substs_of_not (n : Int) (t : List LenExpr) (h : hasLens t = false) : substs n t = t := by
  cases t with
  | nil => rfl
  | cons e t =>
    simp only [hasLens, Bool.or_eq_false_iff] at h
    simp only [substs, subst_of_not n e h.1, substs_of_not n t h.2]
end

mutual
theorem wlen_eq_subst (n : Int) (e : LenExpr) : e.wlen n = subst n e := by
  cases e with
  | const x => rfl
  | len => rfl
  | map op t =>
    simp only [LenExpr.wlen, subst]
    split
    · rw [wlens_eq_substs]
    · rename_i h; rw [substs_of_not n t (by simpa using h)]
  | pick t =>
    simp only [LenExpr.wlen, subst]
    split
    · rw [wlens_eq_substs]
    · rename_i h; rw [substs_of_not n t (by simpa using h)]
theorem wlens_eq_substs (n : Int) (t : List LenExpr) : wlens n t = substs n t := by
  cases t with
  | nil => rfl
  | cons e t => simp only [wlens, substs, wlen_eq_subst n e, wlens_eq_substs n t]
end

mutual
theorem hasLen_subst (n : Int) (e : LenExpr) : (subst n e).hasLen = false := by
  cases e with
  | const x => rfl
  | len => rfl
  | map op t => simpa only [subst, LenExpr.hasLen] using hasLens_substs n t
  | pick t => simpa only [subst, LenExpr.hasLen] using hasLens_substs n t
theorem hasLens_substs (n : Int) (t : List LenExpr) : hasLens (substs n t) = false := by
  cases t with
  | nil => rfl
  | cons e t => simp only [substs, hasLens, hasLen_subst n e, hasLens_substs n t, Bool.or_self]
end

theorem wlen_subst (n k : Int) (e : LenExpr) : (subst n e).wlen k = subst n e := by
  rw [wlen_eq_subst, subst_of_not k _ (hasLen_subst n e)]

theorem subst_subst (n : Int) (e : LenExpr) : subst n (subst n e) = subst n e := subst_of_not n _ (hasLen_subst n e)

theorem iotaDims_subst (n : Int) (iz : List (LenExpr × LenExpr)) :
    iotaDims n (iz.map fun p => (subst n p.1, subst n p.2)) = iotaDims n iz := by
  induction iz with
  | nil => rfl
  | cons p iz ih => simp only [List.map_cons, iotaDims, ih]; rw [wlen_subst, wlen_subst, wlen_eq_subst, wlen_eq_subst]

theorem fsrc_substSubs (dims : List Dim) (is : List Sub) : (substSubs dims is).map fsrc = is.map fsrc := by
  induction is generalizing dims with
  | nil => rfl
  | cons i is ih =>
    cases i with
    | dots n => cases n <;> simp [substSubs, fsrc, ih]
    | _ => simp [substSubs, fsrc, ih]

/-- C43. A slice with `ra::len` in the subscripts is the slice with the length of the corresponding axis in place of each `ra::len`. -/
theorem C43_subscript (v : View) (is : List Sub) : v.from is = v.from (substSubs v.dims is) := by
  have key : ∀ (is : List Sub) (pl : Int) (bk : Nat) (dims : List Dim), fromb pl bk dims is = fromb pl bk dims (substSubs dims is) := by
    intro is
    induction is with
    | nil => intro pl bk dims; rfl
    | cons i is ih =>
      intro pl bk dims
      cases i with
      | scalar e =>
        cases dims with
        | nil => simp [fromb, substSubs]
        | cons d dims =>
          simp only [substSubs, fromb, List.map_cons, List.headD_cons, subst_subst, wlen_eq_subst, List.drop_succ_cons, List.drop_zero, ← ih]
      | iota iz o =>
        cases dims with
        | nil => simp [fromb, substSubs]
        | cons d dims =>
          simp only [substSubs, fromb, List.map_cons, List.headD_cons, subst_subst, wlen_eq_subst, List.drop_succ_cons, List.drop_zero,
            iotaDims_subst, ← ih]
      | dots n =>
        cases n with
        | none => simp only [substSubs, fromb, fsrc_substSubs, ← ih]
        | some n => simp only [substSubs, fromb, ← ih]
      | insert n => simp only [substSubs, fromb, ← ih]
      | array =>
        cases dims with
        | nil => simp [fromb, substSubs]
        | cons d dims => simp only [substSubs, fromb, List.drop_succ_cons, List.drop_zero, ← ih]
  simp only [View.from]
  rw [← key]

/-- C43. The value of an expression with `ra::len`, by direct interpretation. The first argument of `pick` selects among the others. -/
theorem C43_value (n : Int) (e : LenExpr) : (e.wlen n).val = (subst n e).val := by rw [wlen_eq_subst]

/-- `a(all, len-1)` for a 2x5 view. -/
example : (⟨[⟨2, 5⟩, ⟨5, 1⟩], 0⟩ : View).from [.dots (some 1), .scalar (.map (fun x => x.getD 0 0 - x.getD 1 0) [.len, .const 1])]
    = .ok ⟨[⟨2, 5⟩], 4⟩ := by rfl

/-! ## C57 -/

/-- B12. C57 fails. An unbounded axis that moves (eg `viewptr(p)`) takes no integer and no range (with some positions), contrary to the manual (docs/ra-ra.texi
example of `viewptr`, `viewptr(p)(ra::iota(2, 1))`). -/
theorem C57_negation (v : View) (d : Dim) (ds : List Dim) (hd : v.dims = d :: ds) (hu : d.len = UNB) (hs : d.step ≠ 0) :
    (∀ i, v.from [.scalar (.const i)] = .error .check) ∧
    ∀ (n : Nat) (o st : Int), n ≠ 0 → v.from [.iota [(.const n, .const st)] (.const o)] = .error .check := by
  constructor
  · intro i
    have hi : inside i UNB = false := by
      rw [Bool.eq_false_iff, Ne, inside_iff]
      have := UNB_val; omega
    simp only [View.from, hd, fromb, val_const, bind, Except.bind, hu, hi]
    rw [if_neg]
    simp; omega
  · intro n o st hn
    have hi : inside o UNB = false := by
      rw [Bool.eq_false_iff, Ne, inside_iff]
      have := UNB_val; omega
    have hn' : ¬ ((n : Int) < 0) := by omega
    have hn'' : ¬ ((n : Int) = 0) := by omega
    simp [View.from, hd, fromb, iotaDims, val_const, bind, Except.bind, pure, Except.pure, hu, hi, iotaLoop, hn', hn]

/-- C57, what does work: integers on an unbounded axis that doesn't move (made with `insert`). See also C01_at: `at()` takes any entry for an
unbounded axis. Missing: integers and ranges on the other unbounded axes, see `C57_negation`. -/
theorem C57_partial (v : View) (d : Dim) (ds : List Dim) (hd : v.dims = d :: ds) (hu : d.len = UNB) (hs : d.step = 0) (i : Int) :
    v.from [.scalar (.const i)] = .ok ⟨ds, v.cp⟩ := by
  simp only [View.from, hd, fromb, val_const, bind, Except.bind, hu, hs]
  simp [pure, Except.pure]

example : (⟨[⟨UNB, 1⟩], 0⟩ : View).from [.iota [(.const 2, .const 1)] (.const 1)] = .error .check := by rfl

end Ra.Props
