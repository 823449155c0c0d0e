import Verif.Spec.Views
import Verif.Props.Value
import Verif.Props.Chain
/-!
# C78: views of arrays as index maps
-/

namespace Ra.Props
open Spec

/-! Reading the arguments. -/

theorem naturals_some {l : List Int} {a : List Nat} (h : naturals l = some a) : l = a.map Nat.cast ∧ l.map Int.toNat = a := by
  simp only [naturals] at h
  split at h
  · next h0 =>
    simp only [Option.some.injEq] at h
    simp only [List.all_eq_true, decide_eq_true_eq] at h0
    obtain ⟨b, rfl⟩ := toNats l h0
    rw [toNat_cast] at h
    subst h
    exact ⟨rfl, toNat_cast b⟩
  · cases h

theorem finite_some {s : List Length} {a : List Nat} (h : finite s = some a) : s = a.map some ∧ s.map (·.getD 0) = a := by
  simp only [finite] at h
  split at h
  · next h0 =>
    simp only [Option.some.injEq] at h
    refine ⟨?_, h⟩
    subst h
    simp only [List.all_eq_true] at h0
    rw [List.map_map]
    conv_lhs => rw [← List.map_id s]
    refine List.map_congr_left fun l hl => ?_
    obtain ⟨n, rfl⟩ := Option.isSome_iff_exists.mp (h0 l hl)
    rfl
  · cases h

theorem finite_nats (s : List Nat) : finite (s.map some) = some s := by
  simp [finite, Function.comp_def]

theorem subscript_some {i : Sub} {j : Subscript} (h : subscript i = some j) : i = write j := by
  unfold subscript at h
  split at h
  · cases h; rfl
  · next n st o =>
    split at h
    · next h0 =>
      cases h
      simp only [write]
      rw [Int.toNat_of_nonneg h0]
    · cases h
  · cases h; rfl
  · cases h; rfl
  · cases h

theorem subscripts_some {is : List Sub} {js : List Subscript} (h : subscripts is = some js) : is = js.map write := by
  induction is generalizing js with
  | nil => simp only [subscripts, Option.some.injEq] at h; subst h; rfl
  | cons i is ih =>
    simp only [subscripts] at h
    split at h
    · next j js' h1 h2 =>
      simp only [Option.some.injEq] at h
      subst h
      rw [List.map_cons, subscript_some h1, ih h2]
    · cases h

theorem inBounds_ok {dims : List Dim} {s : List Length} (hv : List.Forall₂ DimLen dims s) (js : List Subscript) (h : inBounds s js = true) : axes js ≤ s.length ∧ Accepts dims js := by
  induction js generalizing dims s with
  | nil => exact ⟨by simp [axes], by cases dims <;> trivial⟩
  | cons j js ih =>
    cases j with
    | «at» i =>
      cases hv with
      | nil => simp [inBounds] at h
      | @cons d o ds s hd hv =>
        cases o with
        | none => simp [inBounds] at h
        | some n =>
          simp only [inBounds, Bool.and_eq_true, decide_eq_true_eq] at h
          obtain ⟨h1, h2⟩ := ih hv h.2
          have hd : d.len = n := hd
          exact ⟨by simp [axes]; omega, .inl (by omega), h2⟩
    | range m o st =>
      cases hv with
      | nil => simp [inBounds] at h
      | @cons d l ds s hd hv =>
        cases l with
        | none => simp [inBounds] at h
        | some n =>
          simp only [inBounds, Bool.and_eq_true, List.all_eq_true, List.mem_range, decide_eq_true_eq] at h
          obtain ⟨h1, h2⟩ := ih hv h.2
          have hd : d.len = n := hd
          exact ⟨by simp [axes]; omega, by rw [hd]; exact h.1, h2⟩
    | keep k =>
      simp only [inBounds, Bool.and_eq_true, decide_eq_true_eq] at h
      obtain ⟨h1, h2⟩ := ih (List.forall₂_drop k hv) h.2
      refine ⟨?_, ?_⟩
      · simp only [axes]; simp at h1; omega
      · cases dims <;> simpa [Accepts] using h2
    | new k =>
      have h : inBounds s js = true := by cases s with
        | nil => simpa [inBounds] using h
        | cons a s => cases a <;> simpa [inBounds] using h
      obtain ⟨h1, h2⟩ := ih hv h
      refine ⟨by simpa [axes] using h1, ?_⟩
      cases dims <;> simpa [Accepts] using h2

/-! Positions. -/

theorem atPosition_ok (s : List Nat) (p : Int) (h0 : 0 ≤ p) (h : p < size s) : Valid s (atPosition s p) ∧ position s (atPosition s p) = p := by
  induction s generalizing p with
  | nil =>
    simp [size] at h
    have : p = 0 := by omega
    subst this
    exact ⟨trivial, rfl⟩
  | cons n s ih =>
    simp only [size] at h
    push_cast at h
    have hs : (0 : Int) < size s := by
      rcases Nat.eq_zero_or_pos (size s) with h1 | h1
      · rw [h1] at h; simp at h; omega
      · exact_mod_cast h1
    obtain ⟨h1, h2⟩ := ih (p % size s) (Int.emod_nonneg _ (by omega)) (Int.emod_lt_of_pos _ hs)
    refine ⟨⟨Int.ediv_nonneg h0 (by omega), Int.ediv_lt_of_lt_mul hs h, h1⟩, ?_⟩
    simp only [atPosition, position, h2]
    rw [mul_comm]
    exact Int.mul_ediv_add_emod p (size s)

/-! Row-major steps. -/

theorem rowMajorSteps_append {p q : List Dim} (h : RowMajorSteps (p ++ q)) : RowMajorSteps q := by
  induction p with
  | nil => exact h
  | cons d p ih => exact ih h.2

theorem rowMajorSteps_last {ds : List Dim} (h : RowMajorSteps ds) {p q : List Dim} {d : Dim} (e : ds = p ++ d :: q) (hq : ∀ x ∈ q, x.len = 1) : d.step = 1 := by
  subst e
  have := (rowMajorSteps_append h).1
  have hp : (q.map Dim.len).prod = 1 := by
    clear this h
    induction q with
    | nil => rfl
    | cons x q ih => simp [hq x (by simp), ih fun y hy => hq y (by simp [hy])]
  rw [hp] at this
  omega

theorem evenly_whole {v : View} {s : List Nat} (hv : Shaped v (s.map some)) (h : RowMajorSteps v.dims) : Evenly (v.dims.map Dim.step) s 1 := by
  intro j hj
  rw [container_address (shaped_nat.mp hv) h hj, one_mul]

theorem rowMajor_fill (t : List Nat) : ∀ dv p, filldimv (t.map Nat.cast) = .ok (dv, p) → RowMajorSteps (dv.map fun d => ⟨d.len, d.step * 1⟩) ∧ dv.map Dim.len = t.map Nat.cast ∧ p = size t := by
  induction t with
  | nil =>
    intro dv p h
    simp only [List.map_nil, filldimv, Except.ok.injEq, Prod.mk.injEq] at h
    obtain ⟨rfl, rfl⟩ := h
    exact ⟨trivial, rfl, rfl⟩
  | cons n t ih =>
    intro dv p h
    obtain ⟨dv', h1, h2, _⟩ := filldimv_ok t
    obtain ⟨g1, g2, _⟩ := ih dv' _ h1
    simp [filldimv, h1, bind, Except.bind, pure, Except.pure] at h
    obtain ⟨rfl, rfl⟩ := h
    refine ⟨⟨.inl ?_, g1⟩, by simp [g2], by simp [size, mul_comm]⟩
    simp only [mul_one, List.map_map, Function.comp_def]
    rw [show (fun d : Dim => d.len) = Dim.len from rfl, g2, prod_size]

/-! Transposed axes. -/

theorem sentRank_ok (ax : List Nat) : TransRank ax (sentRank ax) := by
  induction ax with
  | nil => exact ⟨by simp, .inl rfl⟩
  | cons a ax ih =>
    obtain ⟨h1, h2⟩ := ih
    simp only [sentRank, List.foldr_cons] at *
    generalize List.foldr (fun a r => max (a + 1) r) 0 ax = r at *
    refine ⟨?_, ?_⟩
    · intro b hb
      rcases List.mem_cons.mp hb with rfl | hb
      · omega
      · have := h1 b hb; omega
    · right
      rcases h2 with rfl | h2
      · simp
      · by_cases h : a + 1 ≤ r
        · rw [max_eq_right h]; simp [h2]
        · rw [max_eq_left (by omega)]; simp

theorem smallest_ok (ls : List Length) : DiagLen ls (smallest ls) := by
  induction ls with
  | nil => simp [smallest, DiagLen]
  | cons l ls ih =>
    cases l with
    | none =>
      simp only [smallest]
      cases h : smallest ls with
      | none => rw [h] at ih; simpa [DiagLen] using ih
      | some n => rw [h] at ih; simpa [DiagLen] using ih
    | some n =>
      simp only [smallest]
      cases h : smallest ls with
      | none =>
        rw [h] at ih
        refine ⟨by simp, fun m hm => ?_⟩
        rcases List.mem_cons.mp hm with hm | hm
        · cases hm; omega
        · cases ih _ hm
      | some m =>
        rw [h] at ih
        refine ⟨?_, fun k hk => ?_⟩
        · by_cases hnm : n ≤ m
          · rw [min_eq_left hnm]; simp
          · rw [min_eq_right (by omega)]; exact List.mem_cons_of_mem _ ih.1
        · rcases List.mem_cons.mp hk with hk | hk
          · cases hk; omega
          · have := ih.2 k hk; omega

theorem diagLen_unique {ls : List Length} {a b : Length} (h : DiagLen ls a) (h' : DiagLen ls b) : a = b := by
  cases a with
  | none =>
    cases b with
    | none => rfl
    | some n => cases h _ h'.1
  | some m =>
    cases b with
    | none => cases h' _ h.1
    | some n =>
      have := h.2 n h'.1
      have := h'.2 m h.1
      congr 1
      omega

/-! One operation. -/

/-- C78 for one operation. -/
theorem op_ok (v : View) (s t : List Length) (hv : Shaped v s) (whole : Bool) (hw : whole = true → RowMajorSteps v.dims) (op : ViewOp) (h : opShape whole s op = some t) :
    ∃ w, op.run v = .ok w ∧ Shaped w t ∧ ((whole && staysWhole s op) = true → RowMajorSteps w.dims) ∧
      ∀ j, InRange t j → address w j = address v (opIndex s j op) ∧ InRange s (opIndex s j op) := by
  have hl := hv.length_eq
  cases op with
  | slice is =>
    simp only [opShape] at h
    split at h
    · next js hjs =>
      split at h
      · next hb =>
        simp only [Option.some.injEq] at h
        subst h
        obtain ⟨h1, h2⟩ := inBounds_ok hv js hb
        obtain ⟨b, g1, g2, g3⟩ := C13_slice v s hv js h1 h2
        refine ⟨b, ?_, g2, by simp [staysWhole], fun j hj => ?_⟩
        · simp only [ViewOp.run]; rw [subscripts_some hjs]; exact g1
        · simp only [opIndex, hjs]; exact g3 j hj
      · cases h
    · cases h
  | reverse k =>
    simp only [opShape] at h
    split at h
    · next hk =>
      obtain ⟨hk0, hk1⟩ := hk
      simp only [Option.some.injEq] at h
      subst h
      obtain ⟨k, rfl⟩ : ∃ n : Nat, k = n := ⟨k.toNat, by omega⟩
      simp only [Int.toNat_natCast] at hk1
      obtain ⟨n, hn⟩ := Option.isSome_iff_exists.mp hk1
      have hsk : s[k]? = some (some n) := by
        rw [List.getD_eq_getElem?_getD] at hn
        cases h' : s[k]? with
        | none => rw [h'] at hn; cases hn
        | some a => rw [h'] at hn; simpa using hn
      obtain ⟨r, g1, g2, g3, _⟩ := C19_reverse v s hv k n hsk
      refine ⟨r, g1, g2, by simp [staysWhole], fun j hj => ?_⟩
      simp only [opIndex, Int.toNat_natCast, hn, Option.getD_some]
      refine ⟨g3 j hj, by simpa using hj.1, fun i m hm => ?_⟩
      by_cases hik : i = k
      · subst hik
        have : m = n := by rw [hm] at hsk; simpa using hsk
        subst this
        have h4 := hj.2 i m hm
        have h5 : i < j.length := by
          have := hj.1
          have := (List.getElem?_eq_some_iff.mp hm).1
          omega
        simp [List.getD_eq_getElem?_getD, h5] at h4 ⊢
        omega
      · have := hj.2 i m hm
        simpa [List.getD_eq_getElem?_getD, List.getElem?_set_ne (Ne.symm hik)] using this
    · cases h
  | transpose ax =>
    simp only [opShape] at h
    split at h
    · next ax' hax =>
      obtain ⟨rfl, _⟩ := naturals_some hax
      split at h
      · next hc =>
        simp only [Option.some.injEq] at h
        subst h
        obtain ⟨r, t, g1, g2, g3, g4⟩ := C20_shape_partial v s hv ax' hc.1 (by
          intro a
          have hc2 := hc.2
          simp only [List.all_eq_true, Bool.or_eq_true] at hc2
          by_cases ha : a ∈ ax'
          · rcases hc2 a ha with h | h
            · left; intro l hl; simpa using h l hl
            · right; intro l hl hn; subst hn; simpa using h _ hl
          · left
            intro l hl
            simp only [sources, List.mem_map, List.mem_filter, beq_iff_eq] at hl
            obtain ⟨⟨p, q⟩, ⟨hp, rfl⟩, _⟩ := hl
            exact absurd (List.of_mem_zip hp).1 ha)
        obtain ⟨r', g1', g5, _⟩ := C20_elements v ax' (by omega)
        rw [g1] at g1'
        cases g1'
        have ht : t = (List.range (sentRank ax')).map fun a => smallest (sentTo ax' s a) := by
          have hlt := g2.length_eq
          have hr := transRank_unique g5 (sentRank_ok ax')
          refine List.ext_getElem (by simp; omega) fun i h1 h2 => ?_
          simp only [List.getElem_map, List.getElem_range]
          exact diagLen_unique (g3 i h1) (smallest_ok _)
        rw [← ht]
        refine ⟨r, g1, g2, by simp [staysWhole], fun j hj => ?_⟩
        have : opIndex s j (.transpose (ax'.map Nat.cast)) = pullback ax' j := by
          simp [opIndex, pullback, Function.comp_def]
        rw [this]
        exact g4 j hj
      · cases h
    · cases h
  | stencil lo hi =>
    simp only [opShape] at h
    split at h
    · next s' lo' hi' hs hlo hhi =>
      obtain ⟨rfl, _⟩ := finite_some hs
      obtain ⟨rfl, _⟩ := naturals_some hlo
      obtain ⟨rfl, _⟩ := naturals_some hhi
      split at h
      · next hc =>
        simp only [Option.some.injEq] at h
        subst h
        obtain ⟨c1, c2, c3⟩ := hc
        obtain ⟨r, g1, g2, g3⟩ := C24_stencil v s' hv lo' hi' c1 c2 (by
          intro k hk
          simp only [List.all_eq_true, decide_eq_true_eq] at c3
          have := c3 (lo'[k] + hi'[k], s'[k]) (by
            rw [List.mem_iff_getElem]
            exact ⟨k, by simp; omega, by simp⟩)
          simpa using this)
        rw [← List.map_append] at g2
        refine ⟨r, g1, g2, by simp [staysWhole], fun j hj => ?_⟩
        have hj' := inRange_valid hj
        obtain ⟨i, k, e, hi, hk⟩ := valid_split hj'
        obtain ⟨f1, f2⟩ := g3 i k hi hk
        have hlr : r.dims.length = (List.zipWith (· - ·) s' (List.zipWith (· + ·) lo' hi') ++ List.zipWith (fun l h => l + h + 1) lo' hi').length := by simpa using g2.length_eq
        have hil : i.length = s'.length := by rw [hi.length]; simp; omega
        have hkl : k.length = s'.length := by rw [hk.length]; simp; omega
        have hidx : opIndex (s'.map some) j (.stencil (lo'.map Nat.cast) (hi'.map Nat.cast)) = List.zipWith (· + ·) i k := by
          simp only [opIndex, List.length_map]
          have hji : j = i ++ k ++ j.drop (i ++ k).length := by
            rw [← e]
            have : (List.take (List.zipWith (· - ·) s' (List.zipWith (· + ·) lo' hi') ++ List.zipWith (fun l h => l + h + 1) lo' hi').length j).length = (List.zipWith (· - ·) s' (List.zipWith (· + ·) lo' hi') ++ List.zipWith (fun l h => l + h + 1) lo' hi').length := by
              rw [hj'.length]
            rw [this, List.take_append_drop]
          rw [hji, List.append_assoc, ← hil, List.take_left, List.drop_left]
          generalize List.drop (i ++ k).length j = y
          clear * - hil hkl
          have : i.length = k.length := by omega
          clear hil hkl
          induction i generalizing k with
          | nil => simp
          | cons a i ih =>
            cases k with
            | nil => simp at this
            | cons b k => simp at this ⊢; exact ih _ this
        rw [hidx, address_cut, hlr, e]
        exact ⟨f1, inRange_of_valid f2⟩
      · cases h
    · cases h
  | reshape t0 =>
    simp only [opShape] at h
    split at h
    · next s' t' hs ht =>
      obtain ⟨rfl, hs2⟩ := finite_some hs
      obtain ⟨rfl, ht2⟩ := naturals_some ht
      have hidx : ∀ j, opIndex (s'.map some) j (.reshape (t'.map Nat.cast)) = if t' <:+ s' then List.replicate (s'.length - t'.length) 0 ++ j
          else if s' <:+ t' then j.drop (t'.length - s'.length) else atPosition s' (position t' j) := by
        intro j
        simp only [opIndex, hs2, ht2]
      simp only [ViewOp.run]
      have hlen := shaped_nat.mp hv
      by_cases c1 : t' <:+ s'
      · rw [if_pos c1] at h
        split at h
        · next hz =>
          simp only [Option.some.injEq] at h
          subst h
          obtain ⟨p, rfl⟩ := c1
          obtain ⟨r, g1, g2, g3⟩ := C21_suffix v p t' hv
          refine ⟨r, g1, g2, fun hwh => ?_, fun j hj => ?_⟩
          · have hrm := hw (by simp at hwh; exact hwh.1)
            have hds : ∃ d1, v.dims = d1 ++ r.dims := by
              simp only [View.reshape] at g1
              rw [dimvSize_eq hv, placeholder_none] at g1
              simp only [bind, Except.bind] at g1
              obtain ⟨d1, d2, hd, hd1, hd2⟩ : ∃ d1 d2, v.dims = d1 ++ d2 ∧ d1.length = p.length ∧ d2.map Dim.len = t'.map Nat.cast := by
                refine ⟨v.dims.take p.length, v.dims.drop p.length, (List.take_append_drop _ _).symm, ?_, ?_⟩
                · simp only [List.length_map, List.length_append] at hl; simp; omega
                · rw [List.map_drop, hlen, List.map_append, List.drop_left' (by simp)]
              have e : (t'.map (Nat.cast : Nat → Int)).reverse = d2.reverse.map Dim.len := by rw [List.map_reverse, hd2]
              rw [e, hd, List.reverse_append, reshapeLoop_suffix] at g1
              simp only [pure, Except.pure, Except.ok.injEq] at g1
              refine ⟨d1, ?_⟩
              rw [hd, ← g1]
              simp
            obtain ⟨d1, hd⟩ := hds
            rw [hd] at hrm
            exact rowMajorSteps_append hrm
          · rw [hidx, if_pos (List.suffix_append _ _)]
            have hpl : (p ++ t').length - t'.length = p.length := by simp
            rw [hpl]
            refine ⟨g3 j, ?_⟩
            have hvj := inRange_valid hj
            have hp0 : size p ≠ 0 := by
              intro hp0
              have hs0 : (0 : Nat) ∈ p := size_zero.mp hp0
              rcases hz with hz | hz
              · exact valid_ne_zero hvj (size_zero.mpr hz)
              · exact hz (by simp [hs0])
            have := inRange_of_valid (valid_append (valid_zeros hp0) hvj)
            refine ⟨by have := hj.1; simp at this ⊢; omega, fun k n hk => ?_⟩
            have h5 := this.2 k n hk
            rw [show List.replicate p.length 0 ++ j.take t'.length = (List.replicate p.length 0 ++ j).take (p ++ t').length by simp [List.take_append]] at h5
            rw [List.getD_eq_getElem?_getD, List.getElem?_take, if_pos (by have := (List.getElem?_eq_some_iff.mp hk).1; simpa using this), ← List.getD_eq_getElem?_getD] at h5
            exact h5
        · cases h
      · rw [if_neg c1] at h
        by_cases c2 : s' <:+ t'
        · rw [if_pos c2] at h
          simp only [Option.some.injEq] at h
          subst h
          obtain ⟨p, rfl⟩ := c2
          obtain ⟨r, g1, g2, g3⟩ := C21_tile v s' p hv
          refine ⟨r, g1, g2, fun hwh => ?_, fun j hj => ?_⟩
          · exfalso
            simp only [staysWhole, Bool.and_eq_true, Bool.or_eq_true, decide_eq_true_eq, Bool.not_eq_true', decide_eq_false_iff_not] at hwh
            rcases hwh.2 with h1 | h1
            · apply c1
              simp at h1
              have : p = [] := by
                cases p with
                | nil => rfl
                | cons a p => simp at h1
              subst this
              exact List.suffix_refl _
            · apply h1
              simp [Function.comp_def]
          · rw [hidx, if_neg c1, if_pos (List.suffix_append _ _)]
            have hpl : (p ++ s').length - s'.length = p.length := by simp
            have hjl := hj.1
            simp only [List.length_map, List.length_append] at hjl
            rw [hpl]
            refine ⟨?_, ⟨by simp; omega, fun k n hk => ?_⟩⟩
            · have := g3 (j.take p.length) (j.drop p.length) (by simp; omega)
              rwa [List.take_append_drop] at this
            · have := hj.2 (p.length + k) n (by rw [List.map_append, List.getElem?_append_right (by simp)]; simpa using hk)
              simpa [List.getD_eq_getElem?_getD] using this
        · rw [if_neg c2] at h
          split at h
          · next hc =>
            simp only [Option.some.injEq] at h
            subst h
            have hrm := hw hc.1
            have hev := evenly_whole hv hrm
            have hls : ∀ d, v.dims.getLast? = some d → d.step = 1 := by
              intro d hd
              obtain ⟨ds, hds⟩ := List.getLast?_eq_some_iff.mp hd
              exact rowMajorSteps_last hrm (q := []) hds (by simp)
            obtain ⟨r, g1, g2, g3⟩ := C21_partial v s' t' hv (fun d hd => by rw [hls d hd]; exact hev) hc.2
            refine ⟨r, g1, g2, fun _ => ?_, fun j hj => ?_⟩
            · have inj : Function.Injective (List.map (Nat.cast : Nat → Int)) := List.map_injective_iff.mpr (fun x y h => by exact_mod_cast h)
              have hnone : reshapeLoop v.dims.reverse ((t'.map (Nat.cast : Nat → Int)).reverse) = none := by
                rcases reshapeLoop_cases v.dims.reverse ((t'.map (Nat.cast : Nat → Int)).reverse) with h | ⟨xs, ys, h1, h2⟩ | ⟨n, h⟩
                · exact h
                · exfalso
                  apply c1
                  have hd : v.dims = ys.reverse ++ xs.reverse := by
                    have := congrArg List.reverse h1
                    simpa using this
                  have htx : t'.map (Nat.cast : Nat → Int) = xs.reverse.map Dim.len := by
                    have := congrArg List.reverse h2
                    simpa using this
                  have a := hlen
                  rw [hd, List.map_append, ← htx] at a
                  have a2 := congrArg (List.drop ys.reverse.length) a
                  rw [List.drop_left' (by simp), ← List.map_drop] at a2
                  rw [inj a2]
                  exact List.drop_suffix _ _
                · exfalso
                  apply c2
                  have htx : t'.map (Nat.cast : Nat → Int) = n.reverse ++ s'.map Nat.cast := by
                    have := congrArg List.reverse h
                    rw [← hlen]
                    simpa using this
                  have a2 := congrArg (List.drop n.length) htx
                  rw [List.drop_left' (by simp), ← List.map_drop] at a2
                  rw [← inj a2]
                  exact List.drop_suffix _ _
              simp only [View.reshape] at g1
              rw [dimvSize_eq hv, placeholder_none] at g1
              simp only [bind, Except.bind, hnone, one_mul] at g1
              split at g1
              · obtain ⟨dv, f1, _, _⟩ := filldimv_ok t'
                rw [f1] at g1
                simp only at g1
                split at g1
                · cases g1
                · next d hd =>
                  simp only [pure, Except.pure, Except.ok.injEq] at g1
                  rw [← g1, hls d hd]
                  exact (rowMajor_fill t' dv _ f1).1
              · cases g1
            · rw [hidx, if_neg c1, if_neg c2]
              have hvj := inRange_valid hj
              have hb := position_bounds hvj
              have hpt : position t' j = position t' (j.take t'.length) := by
                clear * -
                induction t' generalizing j with
                | nil => simp [position]
                | cons n t ih =>
                  cases j with
                  | nil => simp [position]
                  | cons a j => simp only [position, List.length_cons, List.take_succ_cons]; rw [ih]
              have hcs := hc.2
              obtain ⟨p1, p2⟩ := atPosition_ok s' (position t' (j.take t'.length)) hb.1 (by omega)
              rw [hpt]
              refine ⟨?_, inRange_of_valid p1⟩
              rw [address_cut, show r.dims.length = t'.length by simpa using g2.length_eq]
              exact g3 _ _ p1 hvj p2
          · cases h
    · cases h
  | ravel =>
    simp only [opShape] at h
    split at h
    · next s' hs =>
      obtain ⟨rfl, hs2⟩ := finite_some hs
      split at h
      · next hwh =>
        simp only [Option.some.injEq] at h
        subst h
        have hrm := hw hwh
        have hin : InnerMoves v.dims := fun p d q e hq _ => by rw [rowMajorSteps_last hrm e hq]; decide
        obtain ⟨r, g1⟩ := C22_complete v s' hv 1 (evenly_whole hv hrm)
        rcases C22_partial v s' hv hin with ⟨g2, _⟩ | ⟨r', g2, g3, g4⟩
        · rw [g1] at g2; cases g2
        · rw [g1] at g2
          cases g2
          refine ⟨r, g1, g3, fun _ => ?_, fun j hj => ?_⟩
          · simp only [View.ravelFree] at g1
            split at g1
            · simp only [Except.ok.injEq] at g1
              subst g1
              refine ⟨.inl ?_, trivial⟩
              simp only [List.map_nil, List.prod_nil, ravelStep]
              cases hd : v.dims.reverse.dropWhile (·.len == 1) with
              | nil => rfl
              | cons d q =>
                simp only
                have htw := List.takeWhile_append_dropWhile (p := fun d : Dim => d.len == 1) (l := v.dims.reverse)
                rw [hd] at htw
                have := congrArg List.reverse htw
                simp only [List.reverse_append, List.reverse_cons, List.reverse_reverse, List.append_assoc, List.singleton_append] at this
                refine rowMajorSteps_last hrm this.symm fun x hx => ?_
                have := List.mem_takeWhile_imp (List.mem_reverse.mp hx)
                simpa using this
            · cases g1
          · have hj0 := hj.2 0 (size s') rfl
            have hjl := hj.1
            match j, hjl with
            | a :: j, _ =>
              simp only [List.getD_cons_zero] at hj0
              obtain ⟨p1, p2⟩ := atPosition_ok s' a hj0.1 hj0.2
              simp only [opIndex, List.headD_cons, hs2]
              refine ⟨?_, inRange_of_valid p1⟩
              rw [← g4 _ p1, p2]
              rw [address_cut]
              have : r.dims.length = 1 := by simpa using g3.length_eq
              rw [this]
              rfl
      · cases h
    · cases h

theorem ops_ok (ops : List ViewOp) (v : View) (s t : List Length) (hv : Shaped v s) (whole : Bool) (hw : whole = true → RowMajorSteps v.dims) (h : opsShape whole s ops = some t) :
    ∃ w, runOps ops v = .ok w ∧ Shaped w t ∧ ∀ j, InRange t j → address w j = address v (opsIndex whole s ops j) ∧ InRange s (opsIndex whole s ops j) := by
  induction ops generalizing v s whole with
  | nil =>
    simp only [opsShape, Option.some.injEq] at h
    subst h
    exact ⟨v, rfl, hv, fun j hj => ⟨rfl, hj⟩⟩
  | cons op ops ih =>
    simp only [opsShape] at h
    split at h
    · next t1 ht1 =>
      obtain ⟨w1, h1, h2, h3, h4⟩ := op_ok v s t1 hv whole hw op ht1
      obtain ⟨w, g1, g2, g3⟩ := ih w1 t1 h2 _ h3 h
      refine ⟨w, ?_, g2, fun j hj => ?_⟩
      · simp only [runOps, List.foldlM_cons, bind, Except.bind, h1]
        exact g1
      · obtain ⟨e1, e2⟩ := g3 j hj
        obtain ⟨e3, e4⟩ := h4 _ e2
        simp only [opsIndex, ht1]
        exact ⟨by rw [e1, e3], e4⟩
    · cases h

section
variable {V : Type}

/-- C78. Any operations on a view of an array, that are allowed by its shape, give a view with the shape and the elements that the operations say. Nothing else of the array has a part in it. -/
theorem C78_views (a : Arr) (μ : Mem V) (s : List Nat) (hc : Container a μ s) (ops : List ViewOp) (t : List Length) (h : opsShape true (s.map some) ops = some t) :
    ∃ w, runOps ops a.view = .ok w ∧ Shaped w t ∧
      ∀ j, InRange t j → InRange (s.map some) (opsIndex true (s.map some) ops j) ∧ address w j = address a.view (opsIndex true (s.map some) ops j) := by
  obtain ⟨w, h1, h2, h3⟩ := ops_ok ops a.view _ t (C30_elements a μ s hc).1 true (fun _ => hc.steps) h
  exact ⟨w, h1, h2, fun j hj => ⟨(h3 j hj).2, (h3 j hj).1⟩⟩

end

/-- `reverse(transpose(reshape(a, {2, 6}), {1, 0}), 0)(iota(3, 0, 2), insert<1>, 1)` for `a` of shape (3, 4). -/
def egViewOps : List ViewOp := [.reshape [2, 6], .transpose [1, 0], .reverse 0, .slice [.iota [(.const 3, .const 2)] (.const 0), .insert 1, .scalar (.const 1)]]

example : opsShape true [some 3, some 4] egViewOps = some [some 3, none] := by decide +kernel
example : opsIndex true [some 3, some 4] egViewOps [1, 77] = [2, 1] := by decide +kernel
example : opsShape true [some 3, some 4] [.ravel, .reshape [2, 5], .stencil [0, 1] [1, 1]] = some [some 1, some 3, some 2, some 3] := by decide +kernel
example : opsIndex true [some 3, some 4] [.ravel, .reshape [2, 5], .stencil [0, 1] [1, 1]] [0, 2, 1, 2] = [2, 1] := by decide +kernel

end Ra.Props
