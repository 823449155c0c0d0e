import Verif.Props.Maxwell
import Verif.Props.Transpose
/-!
# Differences on an axis, and transposes with the same lengths: C112
-/

namespace Ra.Spec

section
variable {V : Type}

/-- In memory `μ` there's an array `a` of shape `s`, with elements `va i`, and an array `da` of shape `s ++ [c]`, with elements `vd i q`. The elements of `da` are in different places, and none of these places has
an element of `a`. -/
structure Diffs (μ : Mem V) (s : List Nat) (c : Nat) (a da : View) (va : List Int → V) (vd : List Int → Int → V) : Prop where
  shapeA : Shaped a (s.map some)
  shapeD : Shaped da ((s ++ [c]).map some)
  distinct : Distinct da (s ++ [c])
  apart : ∀ i, Valid s i → ¬ InView da (s ++ [c]) (address a i)
  valueA : ∀ i, Valid s i → μ (address a i) = some (va i)
  valueD : ∀ i q, Valid (s ++ [c]) (i ++ [q]) → μ (address da (i ++ [q])) = some (vd i q)

/-- In memory `μ` there's an array `da` of shape `s ++ [c, c]`, with elements `vd i p q`, and an array `f` of shape `t`. The elements of `f` are in different places, and none of these places has an element
of `da`. -/
structure Tensors (μ : Mem V) (s : List Nat) (c : Nat) (t : List Nat) (da f : View) (vd : List Int → Int → Int → V) : Prop where
  shapeD : Shaped da ((s ++ [c, c]).map some)
  shapeF : Shaped f (t.map some)
  distinct : Distinct f t
  apart : ∀ i, Valid (s ++ [c, c]) i → ¬ InView f t (address da i)
  valueD : ∀ i p q, Valid (s ++ [c, c]) (i ++ [p, q]) → μ (address da (i ++ [p, q])) = some (vd i p q)
  mem : ∀ i, Valid t i → (μ (address f i)).isSome

end
end Ra.Spec

namespace Ra.Props
open Spec

theorem valid_snoc {s : List Nat} {c : Nat} {i : List Int} {q : Int} : Valid (s ++ [c]) (i ++ [q]) ↔ Valid s i ∧ 0 ≤ q ∧ q < c := by
  constructor
  · intro h
    obtain ⟨i', j, e, h1, h2⟩ := valid_split h
    have hl := h.length
    have hl1 := h1.length
    simp only [List.length_append, List.length_cons, List.length_nil] at hl
    obtain ⟨rfl, rfl⟩ := List.append_inj e (by omega)
    exact ⟨h1, h2.1, h2.2.1⟩
  · rintro ⟨h1, h2, h3⟩
    exact valid_append h1 ⟨h2, h3, trivial⟩

theorem parts_of {α : Type} (s t : List α) (k : Nat) (hk : k < s.length) :
    (s ++ t).take k = s.take k ∧ ((s ++ t).drop (k + 1)).take (s.length - 1 - k) = s.drop (k + 1) ∧ ∀ i, s.length + t.length ≤ i → (s ++ t).drop i = [] := by
  refine ⟨List.take_append_of_le_length (by omega), ?_, fun i hi => List.drop_eq_nil_of_le (by rw [List.length_append]; omega)⟩
  rw [List.drop_append_of_le_length (by omega), List.take_append_of_le_length (by rw [List.length_drop]; omega), List.take_of_length_le (by rw [List.length_drop]; omega)]

section
variable {s : List Nat} {c : Nat} {da : View} (hd : Shaped da ((s ++ [c]).map some)) {k : Nat} (hk : k < s.length) (q : Int) (hq : 0 ≤ q ∧ q < c)
include hd hk

theorem dims_two : ∃ d ds d' ds', da.dims.drop k = d :: ds ∧ d.len = s[k] ∧ ds.drop (s.length - 1 - k) = d' :: ds' ∧ d'.len = c := by
  obtain ⟨d, ds, h1, h2, h3⟩ := dims_drop hd (k := k) (by simp; omega)
  obtain ⟨d', ds', h4, h5, _⟩ := dims_drop hd (k := s.length) (by simp)
  refine ⟨d, ds, d', ds', h1, by rw [h2, List.getElem_append_left hk], ?_, by simpa using h5⟩
  rw [h3, List.drop_drop, ← h4]
  congr 1
  omega

include hq

/-- All the positions in one component. -/
theorem comp_all : ∃ w, da.from [.dots (some s.length), .scalar (.const q)] = .ok w ∧ Shaped w (s.map some) ∧ ∀ j, Valid s j → address w j = address da (j ++ [q]) := by
  obtain ⟨w, h1, h2, h3⟩ := axis_at hd (k := s.length) (by simp) q (by simpa using hq)
  have e : (s ++ [c]).eraseIdx s.length = s := by simp [List.eraseIdx_append_of_length_le]
  rw [e] at h2 h3
  refine ⟨w, h1, h2, fun j hj => ?_⟩
  rw [h3 j hj, putAxis, ← hj.length]
  simp

theorem comp_range (m : Nat) (o : Int) (h : ∀ i : Nat, i < m → 0 ≤ o + i ∧ o + i < s[k]) :
    ∃ w, da.from [.dots (some k), .iota [(.const m, .const 1)] (.const o), .dots (some (s.length - 1 - k)), .scalar (.const q)] = .ok w ∧ Shaped w ((s.set k m).map some) ∧
      ∀ j, Valid (s.set k m) j → address w j = address da (j.set k (o + j.getD k 0) ++ [q]) := by
  obtain ⟨d, ds, d', ds', e1, e2, e3, e4⟩ := dims_two hd hk
  obtain ⟨w, h1, h2, h3⟩ := C13_slice da _ hd [.keep k, .range m o 1, .keep (s.length - 1 - k), .at q] (by simp [axes]; omega) (by
    simp only [Accepts, e1, e2, e3, e4]
    exact ⟨fun i hi => by have := h i hi; omega, .inl hq, trivial⟩)
  have es : sliceShape ((s ++ [c]).map some) [.keep k, .range m o 1, .keep (s.length - 1 - k), .at q] = (s.set k m).map some := by
    simp only [sliceShape, ← List.map_take, List.drop_drop, ← List.map_drop]
    obtain ⟨t1, t2, t3⟩ := parts_of s [c] k hk
    rw [List.set_eq_take_append_cons_drop, if_pos hk, t1, t2, t3]
    · simp
    · simp
      omega
  rw [es] at h2 h3
  refine ⟨w, h1, h2, fun j hj => ?_⟩
  rw [(h3 j (inRange_of_valid hj)).1]
  have hjl := hj.length
  simp only [List.length_set] at hjl
  congr 1
  simp only [sliceIndex, List.drop_drop, Int.one_mul]
  obtain ⟨t1, t2, t3⟩ := parts_of j [] k (by omega)
  rw [List.append_nil] at t1 t2 t3
  rw [← hjl, List.set_eq_take_append_cons_drop, if_pos (by omega), t2, t3 (k + 1 + (j.length - 1 - k)) (by simp; omega)]
  simp [List.headD_eq_head?_getD, List.head?_drop, List.getD_eq_getElem?_getD]

theorem comp_at (p : Int) (h : 0 ≤ p ∧ p < s[k]) :
    ∃ w, da.from [.dots (some k), .scalar (.const p), .dots (some (s.length - 1 - k)), .scalar (.const q)] = .ok w ∧ Shaped w ((s.eraseIdx k).map some) ∧
      ∀ j, Valid (s.eraseIdx k) j → address w j = address da (putAxis k p j ++ [q]) := by
  obtain ⟨d, ds, d', ds', e1, e2, e3, e4⟩ := dims_two hd hk
  obtain ⟨w, h1, h2, h3⟩ := C13_slice da _ hd [.keep k, .at p, .keep (s.length - 1 - k), .at q] (by simp [axes]; omega) (by
    simp only [Accepts, e1, e2, e3, e4]
    exact ⟨.inl h, .inl hq, trivial⟩)
  have es : sliceShape ((s ++ [c]).map some) [.keep k, .at p, .keep (s.length - 1 - k), .at q] = (s.eraseIdx k).map some := by
    simp only [sliceShape, ← List.map_take, List.drop_drop, ← List.map_drop]
    obtain ⟨t1, t2, t3⟩ := parts_of s [c] k hk
    rw [List.eraseIdx_eq_take_drop_succ, t1, t2, t3]
    · simp
    · simp
      omega
  rw [es] at h2 h3
  refine ⟨w, h1, h2, fun j hj => ?_⟩
  rw [(h3 j (inRange_of_valid hj)).1]
  have hjl := hj.length
  rw [List.length_eraseIdx_of_lt hk] at hjl
  congr 1
  simp only [sliceIndex, List.drop_drop, putAxis]
  have t2 : (j.drop k).take (s.length - 1 - k) = j.drop k := List.take_of_length_le (by rw [List.length_drop]; omega)
  have t3 : j.drop (k + (s.length - 1 - k)) = [] := List.drop_eq_nil_of_le (by omega)
  rw [t2, t3]
  simp

omit hq in
theorem comp_iotaLess (n : Nat) (hn : n ≤ s[k]) (o : Int) :
    da.from [.dots (some k), iotaLess n o, .dots (some (s.length - 1 - k)), .scalar (.const q)] =
      da.from [.dots (some k), .iota [(.const ((s[k] - n : Nat) : Int), .const 1)] (.const o), .dots (some (s.length - 1 - k)), .scalar (.const q)] := by
  obtain ⟨d, ds, d', ds', e1, e2, e3, e4⟩ := dims_two hd hk
  refine from_same (.dots ?_)
  rw [e1]
  refine .iota ?_ (val_const _ _) (.dots ?_)
  · rw [lenLess_val, e2]
    congr 1
    omega
  · rw [e3]
    exact .scalar (val_const _ _) (.nil _)

omit hq in
theorem comp_lenLess (n : Int) :
    da.from [.dots (some k), .scalar (lenLess n), .dots (some (s.length - 1 - k)), .scalar (.const q)] =
      da.from [.dots (some k), .scalar (.const (s[k] - n)), .dots (some (s.length - 1 - k)), .scalar (.const q)] := by
  obtain ⟨d, ds, d', ds', e1, e2, e3, e4⟩ := dims_two hd hk
  refine from_same (.dots ?_)
  rw [e1]
  refine .scalar ?_ (.dots ?_)
  · rw [lenLess_val, e2]
  · rw [e3]
    exact .scalar (val_const _ _) (.nil _)

end

section
variable {V : Type} [Add V] [_root_.Sub V] [Mul V]

/-- C112. `diff` in examples/maxwell.cc, on any axis of an array of any rank: component `k` is the difference between the values after and before on axis `k`, times the factor, if the axis has two positions or more. The other
components don't change. -/
theorem C112_diff (factor : V) (dyn : Bool) (z : List Int) (hz : ∀ i ∈ z, i = 0) (s : List Nat) (c : Nat) (a da : View) (μ : Mem V) (va : List Int → V) (vd : List Int → Int → V) (h : Diffs μ s c a da va vd)
    (k : Nat) (hk : k < s.length) (hc : k < c) :
    ∃ μ', diffAxis factor dyn z s.length k da a μ = (.ok (), μ') ∧ SameOutside (InView da (s ++ [c])) μ μ' ∧
      Diffs μ' s c a da va fun i q => if q = k ∧ 2 ≤ s[k] then (va (after s[k] k i) - va (before s[k] k i)) * factor else vd i q := by
  have hlen : lenOf da.dims k = s[k] := by
    obtain ⟨d, ds, d', ds', e1, e2, e3, e4⟩ := dims_two h.shapeD hk
    have : da.dims[k]? = some d := by
      rw [← List.head?_drop, e1]
      rfl
    simp [lenOf, this, e2]
  unfold diffAxis
  rw [hlen]
  by_cases h2 : 2 ≤ s[k]
  swap
  · rw [if_neg (by omega)]
    refine ⟨μ, rfl, fun _ _ => rfl, { h with valueD := fun i q hi => ?_ }⟩
    rw [if_neg fun e => h2 e.2]
    exact h.valueD i q hi
  rw [if_pos (by omega)]
  have hq : (0 : Int) ≤ k ∧ (k : Int) < c := by omega
  obtain ⟨D, D1, D2, D3⟩ := comp_all h.shapeD hk (k : Int) hq
  have hDin : ∀ p, InView D s p → InView da (s ++ [c]) p := by
    rintro p ⟨j, hj, rfl⟩
    exact ⟨(j : List Int) ++ [(k : Int)], valid_snoc.mpr ⟨hj, hq⟩, D3 j hj⟩
  have hDd : Distinct D s := by
    intro i j hi hj e
    rw [D3 i hi, D3 j hj] at e
    exact (List.append_inj' (h.distinct _ _ (valid_snoc.mpr ⟨hi, hq⟩) (valid_snoc.mpr ⟨hj, hq⟩) e) rfl).1
  have hDne : ∀ (i : List Int) (q : Int), Valid (s ++ [c]) (i ++ [q]) → q ≠ k → ¬ InView D s (address da (i ++ [q])) := by
    rintro i q hi hne ⟨j, hj, e⟩
    rw [D3 j hj] at e
    have := (List.append_inj' (h.distinct _ _ hi (valid_snoc.mpr ⟨hj, hq⟩) e) rfl).2
    simp only [List.cons.injEq, and_true] at this
    exact hne this
  have hDv : ElemsAre μ D s fun i => vd i k := fun i hi => by rw [D3 i hi, h.valueD i (k : Int) (valid_snoc.mpr ⟨hi, hq⟩)]
  have hap : ∀ i, Valid s i → ¬ InView D s (address a i) := fun i hi hp => h.apart i hi (hDin _ hp)
  have hread : ∀ {μ1 : Mem V}, SameOutside (InView D s) μ μ1 → ∀ i, Valid s i → μ1 (address a i) = some (va i) := fun ho i hi => by rw [ho _ (hap i hi), h.valueA i hi]
  have hvs : ∀ {j}, Valid (s.set k (s[k] - 2)) j → 0 ≤ j.getD k 0 ∧ j.getD k 0 < s[k] - 2 ∧ (∀ b : Int, 0 ≤ b → b < s[k] → Valid s (j.set k b)) ∧ k < j.length := by
    intro j hj
    have hk' : k < (s.set k (s[k] - 2)).length := by simpa using hk
    have := valid_axis hk' hj
    rw [List.getElem_set_self] at this
    refine ⟨this.1, by omega, ?_, by rw [hj.length]; exact hk'⟩
    intro b b1 b2
    have := valid_set hk' hj s[k] b ⟨b1, b2⟩
    rwa [List.set_set, List.set_getElem_self] at this
  have hset : ∀ (i : List Int) (b c : Int), (i.set k b).set k c = i.set k c := fun i b c => List.set_set ..
  let F : List Int → V := fun i => va (after s[k] k i) - va (before s[k] k i)
  -- the middle
  obtain ⟨w1, w2, w3, w4⟩ := comp_range h.shapeD hk (k : Int) hq (s[k] - 2) 1 fun i hi => by omega
  obtain ⟨b1, b2, b3, b4⟩ := axis_range h.shapeA hk (s[k] - 2) 2 fun i hi => by omega
  obtain ⟨c1, c2, c3, c4⟩ := axis_range h.shapeA hk (s[k] - 2) 0 fun i hi => by omega
  obtain ⟨μ1, val1, r1, r2, r3, r4, r5⟩ := put_part none dyn z hz D s hDd w1 _ w3 (fun j => j.set k (1 + j.getD k 0))
    (by
      intro j hj
      obtain ⟨j1, j2, j3, _⟩ := hvs hj
      have hv := j3 (1 + j.getD k 0) (by omega) (by omega)
      exact ⟨hv, by rw [w4 j hj, D3 _ hv]⟩)
    (by
      intro i j hi hj e
      obtain ⟨_, _, _, i4⟩ := hvs hi
      obtain ⟨_, _, _, j4⟩ := hvs hj
      beta_reduce at e
      have e' : 1 + i.getD k 0 = 1 + j.getD k 0 := by
        have := congrArg (fun l => l.getD k 0) e
        simpa only [getD_set_self i4, getD_set_self j4] using this
      rw [← set_same i4, ← set_same j4, ← hset i (1 + i.getD k 0), e, hset, show i.getD k 0 = j.getD k 0 by omega])
    (binaryOp (· - ·) b1.refs c1.refs) (binary_shape _ (refs_shape b3) (refs_shape c3) (merge_same _)) μ _ F hDv
    (by
      intro j hj μ' ho
      obtain ⟨j1, j2, j3, j4⟩ := hvs hj
      refine reads_binary _ (reads_refs ?_) (reads_refs ?_)
      · rw [b4 j hj, hread ho _ (j3 _ (by omega) (by omega)), after, getD_set_self j4, if_pos (by omega), hset]
        congr 3
        omega
      · rw [c4 j hj, hread ho _ (j3 _ (by omega) (by omega)), before, getD_set_self j4, if_pos (by omega), hset]
        congr 3
        omega)
  -- the first
  obtain ⟨u1, u2, u3, u4⟩ := comp_at h.shapeD hk (k : Int) hq 0 (by omega)
  obtain ⟨f1, f2, f3, f4⟩ := axis_at h.shapeA hk 1 (by omega)
  obtain ⟨g1, g2, g3, g4⟩ := axis_at h.shapeA hk (s[k] - 1) (by omega)
  obtain ⟨μ2, val2, q1, q2, q3, q4, q5⟩ := put_part none dyn z hz D s hDd u1 _ u3 (putAxis k 0)
    (fun j hj => have hv := valid_putAxis hk hj (a := 0) (by omega); ⟨hv, by rw [u4 j hj, D3 _ hv]⟩)
    (fun i j hi hj e => putAxis_inj e (length_erase hk hi) (length_erase hk hj)) (binaryOp (· - ·) f1.refs g1.refs) (binary_shape _ (refs_shape f3) (refs_shape g3) (merge_same _)) μ1 val1 F r3
    (by
      intro j hj μ' ho
      have ho := outside_trans r2 ho (fun _ h => h) fun _ h => h
      refine reads_binary _ (reads_refs ?_) (reads_refs ?_)
      · rw [f4 j hj, hread ho _ (valid_putAxis hk hj (by omega)), after, putAxis_getD (length_erase hk hj), putAxis_set (length_erase hk hj), if_pos (by omega)]
        rfl
      · rw [g4 j hj, hread ho _ (valid_putAxis hk hj (by omega)), before, putAxis_getD (length_erase hk hj), putAxis_set (length_erase hk hj), if_neg (by omega)])
  have o2 := outside_trans r2 q2 (fun _ h => h) fun _ h => h
  -- the last
  obtain ⟨x1, x2, x3, x4⟩ := comp_at h.shapeD hk (k : Int) hq (s[k] - 1) (by omega)
  obtain ⟨y1, y2, y3, y4⟩ := axis_at h.shapeA hk 0 (by omega)
  obtain ⟨z1, z2, z3, z4⟩ := axis_at h.shapeA hk (s[k] - 2) (by omega)
  obtain ⟨μ3, val3, p1, p2, p3, p4, p5⟩ := put_part none dyn z hz D s hDd x1 _ x3 (putAxis k (s[k] - 1))
    (fun j hj => have hv := valid_putAxis hk hj (a := s[k] - 1) (by omega); ⟨hv, by rw [x4 j hj, D3 _ hv]⟩)
    (fun i j hi hj e => putAxis_inj e (length_erase hk hi) (length_erase hk hj)) (binaryOp (· - ·) y1.refs z1.refs) (binary_shape _ (refs_shape y3) (refs_shape z3) (merge_same _)) μ2 val2 F q3
    (by
      intro j hj μ' ho
      have ho := outside_trans o2 ho (fun _ h => h) fun _ h => h
      refine reads_binary _ (reads_refs ?_) (reads_refs ?_)
      · rw [y4 j hj, hread ho _ (valid_putAxis hk hj (by omega)), after, putAxis_getD (length_erase hk hj), putAxis_set (length_erase hk hj), if_neg (by omega)]
      · rw [z4 j hj, hread ho _ (valid_putAxis hk hj (by omega)), before, putAxis_getD (length_erase hk hj), putAxis_set (length_erase hk hj), if_pos (by omega)]
        congr 3
        omega)
  have o3 := outside_trans o2 p2 (fun _ h => h) fun _ h => h
  have hval3 : ∀ i, Valid s i → val3 i = F i := by
    intro i hi
    have hi' := valid_axis hk hi
    have hl : k < i.length := by rw [hi.length]; exact hk
    have hv := valid_erase hk hi
    have hput : ∀ b, i.getD k 0 = b → putAxis k b (i.eraseIdx k) = i := fun b hb => by rw [putAxis_erase hk hi, ← hb, set_same hl]
    have hne : ∀ b, i.getD k 0 ≠ b → ∀ j, Valid (s.eraseIdx k) j → putAxis k b j ≠ i := fun b hb j hj e => hb (by rw [← e, putAxis_getD (length_erase hk hj)])
    by_cases e1 : i.getD k 0 = s[k] - 1
    · have := p4 _ hv
      rwa [hput _ e1] at this
    · rw [p5 i hi (hne _ e1)]
      by_cases e2 : i.getD k 0 = 0
      · have := q4 _ hv
        rwa [hput _ e2] at this
      · rw [q5 i hi (hne _ e2)]
        have hv' : Valid (s.set k (s[k] - 2)) (i.set k (i.getD k 0 - 1)) := valid_set hk hi _ _ (by omega)
        have := r4 _ hv'
        beta_reduce at this
        rw [getD_set_self hl, hset, show 1 + (i.getD k 0 - 1) = i.getD k 0 by omega, set_same hl] at this
        exact this
  -- the factor
  obtain ⟨μ4, v1, v2, v3⟩ := put_view (some (· * ·)) dyn z hz D s D2 hDd (.scalar (pure (.val factor))) [] rfl (merge_nil _) μ3 val3 (fun _ => factor) p3 fun j _ μ' _ => reads_scalar _ _ _
  have o4 := outside_trans o3 v2 (fun _ h => h) fun _ h => h
  refine ⟨μ4, ?_, fun p hp => o4 p fun h => hp (hDin p h), { h with valueA := fun i hi => hread o4 i hi, valueD := ?_ }⟩
  · simp only [put] at r1 q1 p1 v1
    simp only [diffPart, bind_assoc]
    have i1 := comp_iotaLess h.shapeD hk (k : Int) 2 h2 1
    have i2 := from_iotaLess h.shapeA hk 2 h2 2
    have i3 := from_iotaLess h.shapeA hk 2 h2 0
    rw [show ((2 : Nat) : Int) = 2 from rfl] at i1 i2 i3
    rw [i1, i2, i3, comp_lenLess h.shapeD hk, from_lenLess h.shapeA hk, from_lenLess h.shapeA hk]
    rw [lift_bind w2, lift_bind b2, lift_bind c2, act_bind_ok r1, lift_bind u2, lift_bind f2, lift_bind g2, act_bind_ok q1, lift_bind x2, lift_bind y2, lift_bind z2, act_bind_ok p1, lift_bind D1]
    exact v1
  · intro i q hi
    have hi' := valid_snoc.mp hi
    by_cases e : q = k
    · subst e
      rw [if_pos ⟨rfl, h2⟩, ← D3 i hi'.1, v3 i hi'.1]
      beta_reduce
      rw [hval3 i hi'.1]
      rfl
    · rw [if_neg fun h => e h.1, o4 _ (hDne i q hi e), h.valueD i q hi]

end

/-! ## Transposes -/

/-- A transposed view when the axes that are put together have the same length. -/
theorem transpose_exact (v : View) (s t : List Nat) (hv : Shaped v (s.map some)) (ax : List Nat) (hax : ax.length = s.length) (h : ∀ k (hk : k < ax.length), t[ax[k]]? = some s[k]) (hc : ∀ a, a < t.length → a ∈ ax) :
    ∃ r, v.transpose (ax.map Nat.cast) = .ok r ∧ Shaped r (t.map some) ∧ ∀ j, Valid t j → address r j = address v (pullback ax j) := by
  have hmem : ∀ a l, l ∈ sources ax (s.map some) a → ∃ ha : a < t.length, l = some t[a] := by
    intro a l hl
    simp only [sources, List.mem_map, List.mem_filter, Prod.exists] at hl
    obtain ⟨b, l', ⟨h1, h2⟩, h3⟩ := hl
    simp only [beq_iff_eq] at h2 h3
    subst h2 h3
    obtain ⟨k, hk, e⟩ := List.mem_iff_getElem.mp h1
    simp only [List.getElem_zip, List.getElem_map, Prod.mk.injEq] at e
    obtain ⟨e1, e2⟩ := e
    have hk' : k < ax.length := by
      rw [List.length_zip] at hk
      omega
    have := h k hk'
    rw [e1] at this
    obtain ⟨ha, e3⟩ := List.getElem?_eq_some_iff.mp this
    exact ⟨ha, by rw [e3, ← e2]⟩
  have hall : ∀ a (ha : a < t.length), some t[a] ∈ sources ax (s.map some) a := by
    intro a ha
    obtain ⟨k, hk, e⟩ := List.mem_iff_getElem.mp (hc a ha)
    have := h k hk
    rw [e] at this
    obtain ⟨_, e3⟩ := List.getElem?_eq_some_iff.mp this
    simp only [sources, List.mem_map, List.mem_filter, Prod.exists]
    refine ⟨a, some t[a], ⟨List.mem_iff_getElem.mpr ⟨k, by rw [List.length_zip, List.length_map]; omega, ?_⟩, by simp⟩, rfl⟩
    simp only [List.getElem_zip, List.getElem_map, e, e3]
  obtain ⟨r, t', h1, h2, h3, h4⟩ := C20_shape_partial v _ hv ax (by simpa using hax) (fun a => .inr fun l hl => by
    obtain ⟨_, rfl⟩ := hmem a l hl
    simp)
  obtain ⟨r', h1', h5, _⟩ := C20_elements v ax (by
    have := hv.length_eq
    simp only [List.length_map] at this
    omega)
  rw [h1] at h1'
  injection h1' with e
  subst e
  have hr := h2.length_eq
  have hlen : t'.length = t.length := by
    rw [hr] at h5
    obtain ⟨g1, g2⟩ := h5
    rcases Nat.lt_trichotomy t'.length t.length with hlt | heq | hgt
    · exact absurd (g1 _ (hc _ hlt)) (by omega)
    · exact heq
    · rcases g2 with g2 | g2
      · omega
      · obtain ⟨k, hk, e⟩ := List.mem_iff_getElem.mp g2
        have := h k hk
        rw [e] at this
        obtain ⟨ha, _⟩ := List.getElem?_eq_some_iff.mp this
        omega
  have et : t' = t.map some := by
    refine List.ext_getElem (by simpa using hlen) fun a ha hb => ?_
    have hb' : a < t.length := by simpa using hb
    have hd := h3 a ha
    simp only [List.getElem_map]
    cases e : t'[a] with
    | none =>
      rw [e] at hd
      exact absurd (hd _ (hall a hb')) (by simp)
    | some x =>
      rw [e] at hd
      obtain ⟨_, e'⟩ := hmem a _ hd.1
      rw [e']
  subst et
  exact ⟨r, h1, h2, fun j hj => (h4 j (inRange_of_valid hj)).1⟩

theorem range_getD_append (i l : List Int) : ((List.range i.length).map fun a => (i ++ l).getD a 0) = i := by
  refine List.ext_getElem (by simp) fun a ha hb => ?_
  simp only [List.getElem_map, List.getElem_range, List.getD_eq_getElem?_getD]
  rw [List.getElem?_append_left hb, List.getElem?_eq_getElem hb]
  rfl

theorem range_append_get (n : Nat) (l : List Nat) (k : Nat) (hk : k < (List.range n ++ l).length) : (List.range n ++ l)[k] = if h : k < n then k else l[k - n]'(by simp at hk; omega) := by
  split
  · rename_i h
    rw [List.getElem_append_left (by simpa using h)]
    simp
  · rename_i h
    rw [List.getElem_append_right (by simpa using h)]
    simp

theorem swap_last {v : View} {s : List Nat} {c : Nat} (hv : Shaped v ((s ++ [c, c]).map some)) :
    ∃ r, v.transpose ((List.range s.length).map Nat.cast ++ [(s.length : Int) + 1, (s.length : Int)]) = .ok r ∧ Shaped r ((s ++ [c, c]).map some) ∧
      ∀ i p q, Valid (s ++ [c, c]) (i ++ [p, q]) → address r (i ++ [p, q]) = address v (i ++ [q, p]) := by
  obtain ⟨r, h1, h2, h3⟩ := transpose_exact v (s ++ [c, c]) (s ++ [c, c]) hv (List.range s.length ++ [s.length + 1, s.length]) (by simp)
    (by
      intro k hk
      have hk' : k < s.length + 2 := by simpa using hk
      rw [range_append_get]
      split
      · rename_i h
        rw [List.getElem?_append_left h, List.getElem_append_left h, List.getElem?_eq_getElem h]
      · rename_i h
        rw [List.getElem_append_right (by omega)]
        obtain e | e : k - s.length = 0 ∨ k - s.length = 1 := by omega
        · simp [e]
        · simp [e])
    (by
      intro a ha
      simp at ha ⊢
      omega)
  refine ⟨r, by simpa using h1, h2, fun i p q hi => ?_⟩
  rw [h3 _ hi]
  congr 1
  have hl := hi.length
  simp only [List.length_append, List.length_cons, List.length_nil] at hl
  have hl : s.length = i.length := by omega
  rw [pullback, List.map_append, hl, range_getD_append]
  simp [List.getD_eq_getElem?_getD]

theorem diag_last {v : View} {s : List Nat} {c : Nat} (hv : Shaped v ((s ++ [c, c]).map some)) :
    ∃ r, v.transpose ((List.range s.length).map Nat.cast ++ [(s.length : Int), (s.length : Int)]) = .ok r ∧ Shaped r ((s ++ [c]).map some) ∧
      ∀ i p, Valid (s ++ [c]) (i ++ [p]) → address r (i ++ [p]) = address v (i ++ [p, p]) := by
  obtain ⟨r, h1, h2, h3⟩ := transpose_exact v (s ++ [c, c]) (s ++ [c]) hv (List.range s.length ++ [s.length, s.length]) (by simp)
    (by
      intro k hk
      have hk' : k < s.length + 2 := by simpa using hk
      rw [range_append_get]
      split
      · rename_i h
        rw [List.getElem?_append_left h, List.getElem_append_left h, List.getElem?_eq_getElem h]
      · rename_i h
        rw [List.getElem_append_right (by omega)]
        obtain e | e : k - s.length = 0 ∨ k - s.length = 1 := by omega
        · simp [e]
        · simp [e])
    (by
      intro a ha
      simp at ha ⊢
      omega)
  refine ⟨r, by simpa using h1, h2, fun i p hi => ?_⟩
  rw [h3 _ hi]
  congr 1
  have hl := hi.length
  simp only [List.length_append, List.length_cons, List.length_nil] at hl
  have hl : s.length = i.length := by omega
  rw [pullback, List.map_append, hl, range_getD_append]
  simp [List.getD_eq_getElem?_getD]

section
variable {V : Type}

/-- C112. `F = transpose(DA, ilist<0, 1, ..., n+1, n>) - DA`. -/
theorem C112_field [_root_.Sub V] (dyn : Bool) (z : List Int) (hz : ∀ i ∈ z, i = 0) (s : List Nat) (c : Nat) (da f : View) (μ : Mem V) (vd : List Int → Int → Int → V) (h : Tensors μ s c (s ++ [c, c]) da f vd) :
    ∃ μ', fieldOf dyn z s.length f da μ = (.ok (), μ') ∧ SameOutside (InView f (s ++ [c, c])) μ μ' ∧
      ∀ i p q, Valid (s ++ [c, c]) (i ++ [p, q]) → μ' (address f (i ++ [p, q])) = some (vd i q p - vd i p q) := by
  obtain ⟨w, w1, w2, w3⟩ := swap_last h.shapeD
  have hsplit : ∀ j, Valid (s ++ [c, c]) j → ∃ i p q, j = i ++ [p, q] ∧ Valid (s ++ [c, c]) (i ++ [q, p]) := by
    intro j hj
    obtain ⟨i, l, rfl, h1, h2⟩ := valid_split hj
    match l, h2 with
    | [p, q], ⟨p1, p2, q1, q2, _⟩ => exact ⟨i, p, q, rfl, valid_append h1 ⟨q1, q2, p1, p2, trivial⟩⟩
  obtain ⟨μ', h1, h2, h3⟩ := C27_view dyn z hz f (s ++ [c, c]) h.shapeF h.distinct (binaryOp (· - ·) w.refs da.refs) _ (binary_shape _ (refs_shape w2) (refs_shape h.shapeD) (merge_same _)) (merge_same _) μ h.mem
    (fun j => vd (j.take s.length) (j.getD (s.length + 1) 0) (j.getD s.length 0) - vd (j.take s.length) (j.getD s.length 0) (j.getD (s.length + 1) 0))
    (by
      intro j hj μ' ho
      obtain ⟨i, p, q, rfl, hv⟩ := hsplit j hj
      have hl := hj.length
      simp only [List.length_append, List.length_cons, List.length_nil] at hl
      have hl : s.length = i.length := by omega
      have e1 : (i ++ [p, q]).take s.length = i := by rw [hl]; simp
      have e2 : (i ++ [p, q]).getD s.length 0 = p := by rw [hl]; simp [List.getD_eq_getElem?_getD]
      have e3 : (i ++ [p, q]).getD (s.length + 1) 0 = q := by rw [hl]; simp [List.getD_eq_getElem?_getD]
      rw [e1, e2, e3]
      refine reads_binary _ (reads_refs ?_) (reads_refs ?_)
      · rw [w3 i p q hj, ho _ fun hp => h.apart _ hv hp.1, h.valueD i q p hv]
      · rw [ho _ fun hp => h.apart _ hj hp.1, h.valueD i p q hj])
  refine ⟨μ', ?_, h3, ?_⟩
  · unfold fieldOf
    rw [lift_bind w1]
    exact h1
  · intro i p q hi
    rw [h2 _ hi]
    have hl := hi.length
    simp only [List.length_append, List.length_cons, List.length_nil] at hl
    have hl : s.length = i.length := by omega
    rw [hl]
    simp [List.getD_eq_getElem?_getD]

/-- C112. So `F` is antisymmetric. -/
theorem C112_antisymmetric [AddCommGroup V] (dyn : Bool) (z : List Int) (hz : ∀ i ∈ z, i = 0) (s : List Nat) (c : Nat) (da f : View) (μ : Mem V) (vd : List Int → Int → Int → V) (h : Tensors μ s c (s ++ [c, c]) da f vd) :
    ∃ μ', fieldOf dyn z s.length f da μ = (.ok (), μ') ∧
      ∀ i p q, Valid (s ++ [c, c]) (i ++ [p, q]) → ∃ x, μ' (address f (i ++ [p, q])) = some x ∧ μ' (address f (i ++ [q, p])) = some (-x) := by
  obtain ⟨μ', h1, _, h3⟩ := C112_field dyn z hz s c da f μ vd h
  refine ⟨μ', h1, fun i p q hi => ⟨_, h3 i p q hi, ?_⟩⟩
  rw [h3 i q p, neg_sub]
  obtain ⟨i', l, e, g1, g2⟩ := valid_split hi
  have hl := hi.length
  have hl1 := g1.length
  simp only [List.length_append, List.length_cons, List.length_nil] at hl
  obtain ⟨rfl, rfl⟩ := List.append_inj e (by omega)
  obtain ⟨p1, p2, q1, q2, _⟩ := g2
  exact valid_append g1 ⟨q1, q2, p1, p2, trivial⟩

/-- C112. `divA += transpose(DA, ilist<0, 1, ..., n, n>)` adds the elements of the diagonal of the last two axes. -/
theorem C112_divergence [Add V] (dyn : Bool) (z : List Int) (hz : ∀ i ∈ z, i = 0) (s : List Nat) (c : Nat) (da d : View) (μ : Mem V) (vd : List Int → Int → Int → V) (old : List Int → V) (h : Tensors μ s c s da d vd)
    (hold : ElemsAre μ d s old) :
    ∃ μ', divergence dyn z s.length d da μ = (.ok (), μ') ∧ SameOutside (InView d s) μ μ' ∧ ElemsAre μ' d s fun i => accum (old i) c fun p => vd i p p := by
  obtain ⟨w, w1, w2, w3⟩ := diag_last h.shapeD
  have hm : Merge [s.map some, (s ++ [c]).map some] ((s ++ [c]).map some) := by
    rw [List.map_append]
    refine ⟨by simp, by simp, ?_⟩
    intro k n
    refine ⟨fun hk => ⟨_, by simp, hk⟩, ?_⟩
    rintro ⟨x, hx, hk⟩
    simp only [List.mem_cons, List.not_mem_nil, or_false] at hx
    rcases hx with rfl | rfl
    · obtain ⟨hlt, _⟩ := List.getElem?_eq_some_iff.mp hk
      rw [List.getElem?_append_left hlt, hk]
    · exact hk
  obtain ⟨μ', h1, h2, h3⟩ := C28_prefix (· + ·) dyn z hz d.refs s [c] (address d) μ ⟨refs_shape h.shapeF, h.distinct, fun j _ μ' _ => refers_refs μ' d j⟩ w.refs _ (refs_shape w2) hm old hold
    (fun j => vd (j.take s.length) (j.getD s.length 0) (j.getD s.length 0))
    (by
      intro j hj μ' ho
      obtain ⟨i, l, rfl, g1, g2⟩ := valid_split hj
      match l, g2 with
      | [p], ⟨p1, p2, _⟩ =>
        have hl := g1.length
        have e1 : (i ++ [p]).take s.length = i := by rw [← hl]; simp
        have e2 : (i ++ [p]).getD s.length 0 = p := by rw [← hl]; simp [List.getD_eq_getElem?_getD]
        rw [e1, e2]
        have hv : Valid (s ++ [c, c]) (i ++ [p, p]) := valid_append g1 ⟨p1, p2, p1, p2, trivial⟩
        refine reads_refs ?_
        rw [w3 i p hj, ho _ (h.apart _ hv), h.valueD i p p hv])
  refine ⟨μ', ?_, h2, ?_⟩
  · unfold divergence
    rw [lift_bind w1]
    exact h1
  · intro i hi
    rw [h3 i hi, rowMajor_one]
    have hl := hi.length
    simp only [List.map_map, List.foldl_map, Function.comp_apply, accum]
    rw [← hl]
    simp [List.getD_eq_getElem?_getD]

end

/-! ## Cases -/

/-- Two components of the differences of a 2x3 array. -/
theorem diffs_case : Diffs allMem [2, 3] 2 (rollArr 0) ⟨[⟨2, 6⟩, ⟨3, 2⟩, ⟨2, 1⟩], 10⟩ (fun i => 3 * i.getD 0 0 + i.getD 1 0) fun i q => 10 + (6 * i.getD 0 0 + (2 * i.getD 1 0 + q)) where
  shapeA := shaped_nat.mpr rfl
  shapeD := shaped_nat.mpr rfl
  distinct := by
    intro i j hi hj e
    simp only [List.cons_append, List.nil_append, valid_first, valid_none] at hi hj
    obtain ⟨b, _, rfl, b1, b2, c, _, rfl, c1, c2, d, _, rfl, d1, d2, rfl⟩ := hi
    obtain ⟨b', _, rfl, b1', b2', c', _, rfl, c1', c2', d', _, rfl, d1', d2', rfl⟩ := hj
    simp [address, dot] at e
    simp only [List.cons.injEq, and_true]
    omega
  apart := by
    rintro i hi ⟨j, hj, e⟩
    simp only [List.cons_append, List.nil_append, valid_first, valid_none] at hi hj
    obtain ⟨b, _, rfl, b1, b2, c, _, rfl, c1, c2, rfl⟩ := hi
    obtain ⟨b', _, rfl, b1', b2', c', _, rfl, c1', c2', d', _, rfl, d1', d2', rfl⟩ := hj
    rw [rollArr_address] at e
    simp [address, dot] at e
    omega
  valueA := by
    intro i hi
    simp only [valid_first, valid_none] at hi
    obtain ⟨b, _, rfl, b1, b2, c, _, rfl, c1, c2, rfl⟩ := hi
    rw [rollArr_address]
    simp [allMem]
  valueD := by
    intro i q hi
    rw [valid_snoc] at hi
    obtain ⟨hi, q1, q2⟩ := hi
    simp only [valid_first, valid_none] at hi
    obtain ⟨b, _, rfl, b1, b2, c, _, rfl, c1, c2, rfl⟩ := hi
    simp [allMem, address, dot]
    omega

/-- On the axis of length 3, at {1 0}: (4 - 5) * 7. -/
example : ∃ μ', diffAxis 7 true [] 2 1 ⟨[⟨2, 6⟩, ⟨3, 2⟩, ⟨2, 1⟩], 10⟩ (rollArr 0) allMem = (.ok (), μ') ∧ μ' (address ⟨[⟨2, 6⟩, ⟨3, 2⟩, ⟨2, 1⟩], 10⟩ [1, 0, 1]) = some (-7) := by
  obtain ⟨μ', h1, _, h3⟩ := C112_diff (7 : Int) true [] (by simp) [2, 3] 2 _ _ allMem _ _ diffs_case 1 (by simp) (by simp)
  exact ⟨μ', h1, h3.valueD [1, 0] 1 (by simp [Valid])⟩

/-- A 2x2x2 array and another. -/
theorem tensors_case : Tensors allMem [2] 2 [2, 2, 2] ⟨[⟨2, 4⟩, ⟨2, 2⟩, ⟨2, 1⟩], 0⟩ ⟨[⟨2, 4⟩, ⟨2, 2⟩, ⟨2, 1⟩], 10⟩ fun i p q => 4 * i.getD 0 0 + (2 * p + q) where
  shapeD := shaped_nat.mpr rfl
  shapeF := shaped_nat.mpr rfl
  distinct := by
    intro i j hi hj e
    simp only [valid_first, valid_none] at hi hj
    obtain ⟨b, _, rfl, b1, b2, c, _, rfl, c1, c2, d, _, rfl, d1, d2, rfl⟩ := hi
    obtain ⟨b', _, rfl, b1', b2', c', _, rfl, c1', c2', d', _, rfl, d1', d2', rfl⟩ := hj
    simp [address, dot] at e
    simp only [List.cons.injEq, and_true]
    omega
  apart := by
    rintro i hi ⟨j, hj, e⟩
    simp only [List.cons_append, List.nil_append, valid_first, valid_none] at hi hj
    obtain ⟨b, _, rfl, b1, b2, c, _, rfl, c1, c2, d, _, rfl, d1, d2, rfl⟩ := hi
    obtain ⟨b', _, rfl, b1', b2', c', _, rfl, c1', c2', d', _, rfl, d1', d2', rfl⟩ := hj
    simp [address, dot] at e
    omega
  valueD := by
    intro i p q hi
    have hl : i.length = 1 := by simpa using hi.length
    obtain ⟨a, rfl⟩ := List.length_eq_one_iff.mp hl
    simp [allMem, address, dot]
    omega
  mem := fun _ _ => rfl

/-- The difference of {{0 1} {2 3}} with its transpose at {0 1} is 1. -/
example : ∃ μ', fieldOf true [] 1 ⟨[⟨2, 4⟩, ⟨2, 2⟩, ⟨2, 1⟩], 10⟩ ⟨[⟨2, 4⟩, ⟨2, 2⟩, ⟨2, 1⟩], 0⟩ allMem = (.ok (), μ') ∧ μ' (address ⟨[⟨2, 4⟩, ⟨2, 2⟩, ⟨2, 1⟩], 10⟩ [0, 0, 1]) = some 1 := by
  obtain ⟨μ', h1, _, h3⟩ := C112_field true [] (by simp) [2] 2 _ _ allMem _ tensors_case
  exact ⟨μ', h1, h3 [0] 0 1 (by simp [Valid])⟩

/-- The sum of the diagonal of {{4 5} {6 7}}, added to 11. -/
example : ∃ μ', divergence true [] 1 ⟨[⟨2, 1⟩], 10⟩ ⟨[⟨2, 4⟩, ⟨2, 2⟩, ⟨2, 1⟩], 0⟩ allMem = (.ok (), μ') ∧ μ' (address ⟨[⟨2, 1⟩], 10⟩ [1]) = some 22 := by
  obtain ⟨μ', h1, _, h3⟩ := C112_divergence true [] (by simp) [2] 2 ⟨[⟨2, 4⟩, ⟨2, 2⟩, ⟨2, 1⟩], 0⟩ ⟨[⟨2, 1⟩], 10⟩ allMem (fun i p q => 4 * i.getD 0 0 + (2 * p + q)) (address ⟨[⟨2, 1⟩], 10⟩) {
    shapeD := shaped_nat.mpr rfl
    shapeF := shaped_nat.mpr rfl
    distinct := by
      intro i j hi hj e
      simp only [valid_first, valid_none] at hi hj
      obtain ⟨b, _, rfl, b1, b2, rfl⟩ := hi
      obtain ⟨b', _, rfl, b1', b2', rfl⟩ := hj
      simp [address, dot] at e
      simp only [List.cons.injEq, and_true]
      omega
    apart := by
      rintro i hi ⟨j, hj, e⟩
      simp only [List.cons_append, List.nil_append, valid_first, valid_none] at hi hj
      obtain ⟨b, _, rfl, b1, b2, c, _, rfl, c1, c2, d, _, rfl, d1, d2, rfl⟩ := hi
      obtain ⟨b', _, rfl, b1', b2', rfl⟩ := hj
      simp [address, dot] at e
      omega
    valueD := tensors_case.valueD
    mem := fun _ _ => rfl } fun _ _ => rfl
  exact ⟨μ', h1, h3 [1] (by simp [Valid])⟩

end Ra.Props
