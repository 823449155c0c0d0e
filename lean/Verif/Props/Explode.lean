import Verif.Model.Explode
import Verif.Props.Reshape
/-!
# explode and collapse: C25
-/

namespace Ra.Spec

/-- Byte address of element `j` of a view with elements of `e` bytes. -/
def byteAddress (e : Int) (v : View) (j : List Int) : Int := v.cp + e * dot (v.dims.map Dim.step) j

/-- A scalar type of `e` bytes. -/
def ScalarTy (t : Ty) (e : Int) : Prop := t = ⟨[], e, e⟩

/-- An array type with lengths `s`, in row-major order, with elements of `e` bytes. -/
def ArrayTy (t : Ty) (s : List Nat) (e : Int) : Prop :=
  t.dims.map Dim.len = s.map Nat.cast ∧ (∀ j, Valid s j → dot (t.dims.map Dim.step) j = position s j) ∧ t.vsize = e ∧ t.size = size s * e

end Ra.Spec

namespace Ra.Props
open Spec (Length DimLen Shaped InRange address dot Valid rowMajor size position byteAddress ScalarTy ArrayTy)

theorem subLoop_one (t : Int) (dv : List Dim) : subLoop 1 t dv = .ok (dv.map fun d => ⟨d.len, d.step * t⟩) := by
  induction dv with
  | nil => rfl
  | cons d dv ih => simp [subLoop, ih, bind, Except.bind, pure, Except.pure]

theorem dot_smul (st j : List Int) (c : Int) : dot (st.map (· * c)) j = c * dot st j := by rw [dot_scale, mul_comm]

/-- C25. `collapse` to a scalar type of `e` bytes, when the elements of the view are arrays with elements of `n` times `e` bytes. The result has the axes of the view,
those of the element type, and, if `n` isn't 1, one more of length `n`. -/
theorem C25_collapse_scalar (v : View) (s : List Length) (hv : Shaped v s) (sub sup : Ty) (p : List Nat) (e : Int) (n : Nat) (he : 0 < e) (hn : 0 < n)
    (hsub : ScalarTy sub e) (hsup : ArrayTy sup p (n * e)) :
    ∃ r, v.collapse sub sup = .ok r ∧ Shaped r (s ++ p.map some ++ (if n = 1 then [] else [some n])) ∧
      ∀ i k u, i.length = s.length → k.length = p.length →
        (n = 1 → byteAddress e r (i ++ k) = byteAddress sup.size v i + sup.vsize * dot (sup.dims.map Dim.step) k) ∧
        (n ≠ 1 → byteAddress e r (i ++ k ++ [u]) = byteAddress sup.size v i + sup.vsize * dot (sup.dims.map Dim.step) k + e * u) := by
  obtain ⟨dims, cp⟩ := v
  obtain ⟨sd, sv, ss⟩ := sup
  obtain ⟨a1, a2, a3, a4⟩ := hsup
  simp only at a1 a2 a3 a4
  subst hsub a3 a4
  have hl := hv.length_eq
  simp only at hl
  have e1 : Int.tdiv (n * e) e = n := Int.mul_tdiv_cancel _ (by omega)
  have e2 : Int.tdiv (size p * (n * e)) e = size p * n := by rw [← mul_assoc, Int.mul_tdiv_cancel _ (by omega)]
  have e3 : Int.tdiv e e = 1 := Int.tdiv_self (by omega)
  have pl : sd.length = p.length := by simpa using congrArg List.length a1
  refine ⟨⟨dims.map (fun d => ⟨d.len, d.step * (size p * n)⟩) ++ sd.map (fun d => ⟨d.len, d.step * n⟩) ++ (if (n : Int) > 1 then [⟨n, 1⟩] else []), cp⟩, ?_, ?_, ?_⟩
  · simp only [View.collapse, e1, e2, e3]
    rw [if_pos]
    · simp only [List.length_nil, Nat.cast_zero, sub_zero, Int.toNat_natCast, List.take_length, subLoop_one]
      rfl
    · refine ⟨by ring, ?_, by simp⟩
      have : (1 : Int) ≤ n := by omega
      nlinarith
  · unfold Shaped
    simp only
    refine List.rel_append (List.rel_append ?_ ?_) ?_
    · unfold Shaped at hv
      simp only at hv
      rw [List.forall₂_map_left_iff]
      exact hv.imp fun _ o h => by cases o <;> exact h
    · rw [shaped_nat]
      simpa [Function.comp_def] using a1
    · by_cases h1 : n = 1
      · subst h1; simp
      · rw [if_pos (by omega), if_neg h1]
        exact .cons rfl .nil
  · intro i k u hi hk
    have m1 : ∀ (dv : List Dim) (c : Int), (dv.map fun d => (⟨d.len, d.step * c⟩ : Dim)).map Dim.step = (dv.map Dim.step).map (· * c) := by
      intro dv c; simp [Function.comp_def]
    constructor
    · intro h1
      subst h1
      simp only [byteAddress, List.map_append]
      rw [if_neg (by norm_num)]
      simp only [m1, List.map_nil, List.append_nil]
      rw [dot_append _ _ _ _ (by simp; omega), dot_smul, dot_smul]
      push_cast
      ring
    · intro h1
      simp only [byteAddress, List.map_append]
      rw [if_pos (by omega)]
      simp only [m1, List.map_cons, List.map_nil]
      rw [dot_append _ _ _ _ (by simp; omega), dot_append _ _ _ _ (by simp; omega), dot_smul, dot_smul]
      simp only [dot_cons, dot_nil]
      ring

theorem step_of_rowMajor {dims : List Dim} {s : List Nat} (hl : dims.map Dim.len = s.map Nat.cast) (hs : size s ≠ 0)
    (h : ∀ j, Valid s j → dot (dims.map Dim.step) j = position s j) :
    innerR dims.reverse 1 := by
  rw [innerR_iff (shaped_nat.mpr hl) hs]
  intro j hj
  rw [h j hj]; ring

/-- C25. `collapse` to an array type, when the elements of the view are arrays of these arrays: `(i, k)` is the subarray of element `i` at `k`. The dims of the element type
are those of an array (see C58). -/
theorem C25_collapse_array (v : View) (s : List Length) (hv : Shaped v s) (sub sup : Ty) (p q : List Nat) (e : Int) (he : 0 < e) (hq : size q ≠ 0)
    (hsub : ArrayTy sub q e) (hsup : filldimv ((p ++ q).map Nat.cast) = .ok (sup.dims, (size (p ++ q) : Int))) (hsv : sup.vsize = e) (hss : sup.size = size (p ++ q) * e) :
    ∃ r, v.collapse sub sup = .ok r ∧ Shaped r (s ++ p.map some) ∧
      ∀ i k u, i.length = s.length → Valid p k → Valid q u →
        byteAddress sub.size r (i ++ k) + e * dot (sub.dims.map Dim.step) u = byteAddress sup.size v i + e * dot (sup.dims.map Dim.step) (k ++ u) := by
  obtain ⟨dims, cp⟩ := v
  obtain ⟨sd, sv, ss⟩ := sup
  obtain ⟨bd, bv, bs⟩ := sub
  obtain ⟨a1, a2, a3, a4⟩ := hsub
  simp only at a1 a2 a3 a4 hsup hsv hss
  subst a3 a4 hsv hss
  have hl := hv.length_eq
  simp only at hl
  have hqp : 0 < size q := Nat.pos_of_ne_zero hq
  have hqp' : (0 : Int) < size q := by exact_mod_cast hqp
  have pl : bd.length = q.length := by simpa using congrArg List.length a1
  have key : ∀ p : List Nat, ∃ dv bd', filldimv ((p ++ q).map Nat.cast) = .ok (dv ++ bd', (size (p ++ q) : Int)) ∧ bd'.length = q.length ∧ dv.length = p.length ∧
      subLoop (size q) 1 dv = .ok (dv.map fun d => ⟨d.len, d.step / size q⟩) ∧ (∀ d ∈ dv, (size q : Int) ∣ d.step) ∧
      dv.map Dim.len = p.map Nat.cast ∧ (∀ k, Valid p k → dot (dv.map Dim.step) k = position p k * size q) ∧ ∀ u, Valid q u → dot (bd'.map Dim.step) u = position q u := by
    intro p
    induction p with
    | nil =>
      obtain ⟨dv, f1, f2, f3⟩ := filldimv_ok q
      refine ⟨[], dv, by simpa using f1, by simpa using f2.length_eq, rfl, rfl, by simp, rfl, ?_, f3⟩
      intro k hk
      simp [position]
    | cons n p ih =>
      obtain ⟨dv, bd', f1, f2, f2', f3, f4, f5, f6, f7⟩ := ih
      refine ⟨⟨n, size (p ++ q)⟩ :: dv, bd', ?_, f2, by simp [f2'], ?_, ?_, by simp [f5], ?_, f7⟩
      · simp only [List.cons_append, List.map_cons, filldimv, f1, bind, Except.bind]
        rw [if_pos (by omega)]
        simp [pure, Except.pure, size, mul_comm]
      · simp only [subLoop, f3, bind, Except.bind, size_append']
        have : Int.tmod (↑(size p * size q)) (size q) = 0 := by push_cast; exact Int.mul_tmod_left _ _
        rw [if_pos this.symm]
        push_cast
        rw [Int.mul_tdiv_cancel _ (by omega)]
        simp [pure, Except.pure, Int.mul_ediv_cancel _ (show (size q : Int) ≠ 0 by omega)]
      · intro d hd
        simp at hd
        rcases hd with rfl | hd
        · simp only [size_append']
          push_cast
          exact Dvd.intro_left _ rfl
        · exact f4 d hd
      · intro k hk
        match k, hk with
        | i :: k, ⟨h1, h2, h3⟩ =>
          simp only [List.map_cons, dot_cons, f6 k h3, position, size_append']
          push_cast; ring
  obtain ⟨dv, bd', f1, f2, f2', f3, f4, f5, f6, f7⟩ := key p
  rw [f1] at hsup
  simp only [Except.ok.injEq, Prod.mk.injEq] at hsup
  obtain ⟨rfl, _⟩ := hsup
  have e1 : Int.tdiv (size q * sv) sv = size q := Int.mul_tdiv_cancel _ (by omega)
  have hne : (size q : Int) * sv ≠ 0 := by positivity
  have e2 : Int.tdiv (size (p ++ q) * sv) (size q * sv) = size p := by
    rw [size_append']; push_cast
    rw [mul_assoc, Int.mul_tdiv_cancel _ hne]
  have e3 : Int.tdiv sv sv = 1 := Int.tdiv_self (by omega)
  have e4 : ¬ Int.tdiv sv (size q * sv) > 1 := by
    rw [Int.tdiv_eq_ediv_of_nonneg (by omega)]
    have : sv / (size q * sv) < 2 := Int.ediv_lt_of_lt_mul (by positivity) (by nlinarith)
    omega
  refine ⟨⟨dims.map (fun d => ⟨d.len, d.step * size p⟩) ++ dv.map (fun d => ⟨d.len, d.step / size q⟩), cp⟩, ?_, ?_, ?_⟩
  · simp only [View.collapse, e1, e2, e3]
    rw [if_pos, if_neg e4]
    · have : ((dv ++ bd').length - bd.length : Int).toNat = dv.length := by
        simp; omega
      rw [this, List.take_left' rfl, f3]
      simp [bind, Except.bind, pure, Except.pure]
    · refine ⟨?_, by omega, by simp; omega⟩
      rw [size_append']; push_cast; ring
  · unfold Shaped
    simp only
    refine List.rel_append ?_ ?_
    · unfold Shaped at hv
      simp only at hv
      rw [List.forall₂_map_left_iff]
      exact hv.imp fun _ o h => by cases o <;> exact h
    · rw [shaped_nat]
      simpa [Function.comp_def] using f5
  · intro i k u hi hk hu
    have m1 : ∀ (dv : List Dim) (c : Int), (dv.map fun d => (⟨d.len, d.step * c⟩ : Dim)).map Dim.step = (dv.map Dim.step).map (· * c) := by
      intro dv c; simp [Function.comp_def]
    have m2 : dot ((dv.map fun d => (⟨d.len, d.step / size q⟩ : Dim)).map Dim.step) k * size q = dot (dv.map Dim.step) k := by
      rw [← dot_scale]
      congr 1
      simp only [List.map_map]
      apply List.map_congr_left
      intro d hd
      simp only [Function.comp_def]
      exact Int.ediv_mul_cancel (f4 d hd)
    simp only [byteAddress, List.map_append]
    rw [dot_append _ _ _ _ (by simp; omega), dot_append _ _ _ _ (by have := hk.length; simp; omega), m1, dot_smul, a2 u hu, f7 u hu, ← m2, size_append']
    push_cast
    ring

theorem compactLoop_ok {dv : List Dim} {s r : Int} (h : compactLoop s dv = .ok r) : r = s * (dv.map Dim.len).prod := by
  induction dv generalizing s with
  | nil => simp [compactLoop] at h; simp [h]
  | cons d dv ih =>
    simp only [compactLoop] at h
    split at h
    · rw [ih h]; simp [mul_assoc]
    · simp at h

theorem axesLoop_ok {sup dv : List Dim} {s : Int} (h : axesLoop s sup dv = .ok ()) (hl : sup.length ≤ dv.length) :
    (dv.take sup.length).map Dim.len = sup.map Dim.len ∧ (dv.take sup.length).map Dim.step = sup.map fun d => s * d.step := by
  induction sup generalizing dv with
  | nil => simp
  | cons p sup ih =>
    cases dv with
    | nil => simp at hl
    | cons d dv =>
      simp only [axesLoop] at h
      split at h
      · rename_i hp
        obtain ⟨h1, h2⟩ := ih h (by simpa using hl)
        simp [h1, h2, hp.1, hp.2]
      · simp at h

theorem frameLoop_ok {dv r : List Dim} {s : Int} (h : frameLoop s dv = .ok r) :
    r.map Dim.len = dv.map Dim.len ∧ r.map (fun d => s * d.step) = dv.map Dim.step := by
  induction dv generalizing r with
  | nil => simp [frameLoop] at h; simp [h]
  | cons d dv ih =>
    simp only [frameLoop, bind, Except.bind] at h
    split at h
    · rename_i hm
      split at h
      · simp at h
      · rename_i r' hr'
        simp only [pure, Except.pure, Except.ok.injEq] at h
        subst h
        obtain ⟨h1, h2⟩ := ih hr'
        simp only [List.map_cons, h1, h2, List.cons.injEq, and_true, true_and]
        simp only [stepOk] at hm
        by_cases hs : 0 = s
        · rw [if_pos hs] at hm ⊢
          simp only [beq_iff_eq] at hm
          rw [← hs, ← hm]
          ring
        · rw [if_neg hs] at hm ⊢
          simp only [beq_iff_eq] at hm
          exact Int.mul_tdiv_cancel' (Int.dvd_of_tmod_eq_zero hm.symm)
    · simp at h

theorem dot_smul' (dv : List Dim) (c : Int) (j : List Int) : dot (dv.map fun d => c * d.step) j = c * dot (dv.map Dim.step) j := by
  rw [← dot_smul]
  congr 1
  simp [mul_comm, Function.comp_def]

/-- C25. If `explode` succeeds, then the axes of the view are those of the result, followed by those of the type, and maybe one more for the size of the type's elements;
element `i` of the result is at the address of element `(i, 0)` of the source, and element `k` of that is at the address of element `(i, k)`. So a view whose axes
don't match is rejected. -/
theorem C25_explode (v : View) (sup : Ty) (p : List Nat) (e m : Int) (hsup : ArrayTy sup p m) (hm : 0 < m) (r : View) (h : v.explode sup e = .ok r) :
    ∃ z : List Dim, v.dims.map Dim.len = r.dims.map Dim.len ++ p.map Nat.cast ++ z.map Dim.len ∧ z.length = (if m = e then 0 else 1) ∧
      e * (z.map Dim.len).prod = m ∧
      ∀ i k u, i.length = r.dims.length → k.length = p.length → u.length = z.length →
        byteAddress e v (i ++ k ++ u) = byteAddress sup.size r i + sup.vsize * dot (sup.dims.map Dim.step) k + e * u.sum := by
  obtain ⟨dims, cp⟩ := v
  obtain ⟨sd, sv, ss⟩ := sup
  obtain ⟨a1, a2, a3, a4⟩ := hsup
  simp only at a1 a2 a3 a4
  subst a3 a4
  have pl : sd.length = p.length := by simpa using congrArg List.length a1
  simp only [View.explode] at h
  generalize hru : (if sv = e then (0 : Int) else 1) = ru at h
  have hru' : ru = ((if sv = e then 0 else 1 : Nat) : Int) := by rw [← hru]; split <;> simp
  generalize hn : (if sv = e then 0 else 1 : Nat) = n at hru'
  subst hru'
  split at h
  · simp at h
  rename_i hrb
  obtain ⟨rb, hrb'⟩ := Int.eq_ofNat_of_zero_le (not_lt.mp hrb)
  have hlen : dims.length = rb + sd.length + n := by omega
  rw [hrb'] at h
  simp only [Int.toNat_natCast, bind, Except.bind] at h
  split at h
  · simp at h
  rename_i s hs
  split at h
  · rename_i hsv
    split at h
    · simp at h
    rename_i _ hax
    split at h
    · simp at h
    rename_i fd hfd
    simp only [pure, Except.pure, Except.ok.injEq] at h
    subst h
    have hsz : dimvSize sd = size p := by
      have : Shaped ⟨sd, 0⟩ (p.map some) := shaped_nat.mpr a1
      exact dimvSize_eq this
    rw [hsz] at hfd
    obtain ⟨b1, b2⟩ := axesLoop_ok hax (by simp; omega)
    obtain ⟨c1, c2⟩ := frameLoop_ok hfd
    have hs' := compactLoop_ok hs
    rw [one_mul] at hs'
    have hfl : fd.length = rb := by
      have := congrArg List.length c1
      simp at this
      omega
    have hsplit : dims = dims.take rb ++ (dims.drop rb).take sd.length ++ dims.drop (rb + sd.length) := by
      rw [List.append_assoc, ← List.drop_drop, List.take_append_drop, List.take_append_drop]
    refine ⟨dims.drop (rb + sd.length), ?_, ?_, ?_, ?_⟩
    · rw [c1, ← a1, ← b1, ← List.map_append, ← List.map_append, ← hsplit]
    · simp only [List.length_drop]; omega
    · rw [← hs', ← hsv]; ring
    · intro i k u hi hk hu
      have hstep : ((dims.drop (rb + sd.length)).map Dim.step) = List.replicate n 1 := by
        have hz : (dims.drop (rb + sd.length)).length = n := by simp only [List.length_drop]; omega
        have hn1 : n = 0 ∨ n = 1 := by rw [← hn]; split <;> simp
        generalize dims.drop (rb + sd.length) = z at hs hz
        rcases hn1 with h0 | h0
        · subst h0
          have : z = [] := by simpa using hz
          subst this
          rfl
        · subst h0
          match z, hz with
          | [d], _ =>
            simp only [compactLoop] at hs
            split at hs
            · rename_i h1; simp [h1]
            · simp at hs
      simp only at hi
      simp only [byteAddress]
      conv_lhs => rw [hsplit]
      rw [List.map_append, List.map_append, hstep, ← c2, b2]
      rw [dot_append _ _ _ _ (by simp; omega), dot_append _ _ _ _ (by simp; omega), dot_smul', dot_smul']
      have hd1 : dot (List.replicate n 1) u = u.sum := by
        have : u.length = n := by rw [hu]; simp only [List.length_drop]; omega
        clear hu hi hk
        rw [← this]
        clear this
        induction u with
        | nil => simp [dot]
        | cons x u ih => simp [List.replicate_succ, dot_cons, ih]
      rw [hd1]
      simp only [← hsv]
      ring
  · simp at h

theorem axesLoop_scaled (s : Int) (sup rest : List Dim) : axesLoop s sup (sup.map (fun d => ⟨d.len, d.step * s⟩) ++ rest) = .ok () := by
  induction sup with
  | nil => cases rest <;> rfl
  | cons d sup ih =>
    simp only [List.map_cons, List.cons_append, axesLoop]
    rw [if_pos ⟨trivial, by ring⟩, ih]

theorem frameLoop_scaled (s : Int) (hs : s ≠ 0) (dv : List Dim) : frameLoop s (dv.map fun d => ⟨d.len, d.step * s⟩) = .ok dv := by
  induction dv with
  | nil => rfl
  | cons d dv ih =>
    simp only [List.map_cons, frameLoop, ih, bind, Except.bind]
    rw [if_pos]
    · rw [if_neg (Ne.symm hs), Int.mul_tdiv_cancel _ hs]; rfl
    · simp [stepOk, Ne.symm hs]

/-- C25. `explode` of `collapse` is the original view, when the type of the intermediate view is scalar. What's missing are intermediate arrays
(`C25_roundtrip_negation`), and types without elements. -/
theorem C25_roundtrip_partial (v : View) (sub sup : Ty) (p : List Nat) (e : Int) (n : Nat) (he : 0 < e) (hn : 0 < n)
    (hsub : ScalarTy sub e) (hsup : ArrayTy sup p (n * e)) (hp : size p ≠ 0) :
    ∃ r, v.collapse sub sup = .ok r ∧ r.explode sup e = .ok v := by
  obtain ⟨dims, cp⟩ := v
  obtain ⟨sd, sv, ss⟩ := sup
  obtain ⟨a1, a2, a3, a4⟩ := hsup
  simp only at a1 a2 a3 a4
  subst hsub a3 a4
  have e1 : Int.tdiv (n * e) e = n := Int.mul_tdiv_cancel _ (by omega)
  have e2 : Int.tdiv (size p * (n * e)) e = size p * n := by rw [← mul_assoc, Int.mul_tdiv_cancel _ (by omega)]
  have e3 : Int.tdiv e e = 1 := Int.tdiv_self (by omega)
  have hsz : dimvSize sd = size p := by
    have : Shaped ⟨sd, 0⟩ (p.map some) := shaped_nat.mpr a1
    exact dimvSize_eq this
  refine ⟨⟨dims.map (fun d => ⟨d.len, d.step * (size p * n)⟩) ++ sd.map (fun d => ⟨d.len, d.step * n⟩) ++ (if (n : Int) > 1 then [⟨n, 1⟩] else []), cp⟩, ?_, ?_⟩
  · simp only [View.collapse, e1, e2, e3]
    rw [if_pos]
    · simp only [List.length_nil, Nat.cast_zero, sub_zero, Int.toNat_natCast, List.take_length, subLoop_one]
      rfl
    · refine ⟨by ring, ?_, by simp⟩
      have : (1 : Int) ≤ n := by omega
      nlinarith
  · have hru : (if (n : Int) * e = e then (0 : Int) else 1) = (if (n : Int) > 1 then [(⟨n, 1⟩ : Dim)] else []).length := by
      by_cases h1 : n = 1
      · subst h1; simp
      · rw [if_neg, if_pos (by omega)]
        · rfl
        · intro h
          have : (2 : Int) ≤ n := by omega
          nlinarith
    have hc : compactLoop 1 (if (n : Int) > 1 then [(⟨n, 1⟩ : Dim)] else []) = .ok n := by
      split
      · simp [compactLoop]
      · have : n = 1 := by omega
        subst this; rfl
    generalize (if (n : Int) > 1 then [(⟨n, 1⟩ : Dim)] else []) = z at hru hc ⊢
    simp only [View.explode, hru]
    have hrb : (((dims.map (fun d => (⟨d.len, d.step * (size p * n)⟩ : Dim)) ++ sd.map (fun d => (⟨d.len, d.step * n⟩ : Dim)) ++ z).length : Int) - sd.length - z.length) = dims.length := by
      simp; ring
    rw [hrb, if_neg (by omega), Int.toNat_natCast]
    have d1 : (dims.map (fun d => (⟨d.len, d.step * (size p * n)⟩ : Dim)) ++ sd.map (fun d => (⟨d.len, d.step * n⟩ : Dim)) ++ z).drop (dims.length + sd.length) = z := by
      rw [List.drop_left' (by simp)]
    have d2 : (dims.map (fun d => (⟨d.len, d.step * (size p * n)⟩ : Dim)) ++ sd.map (fun d => (⟨d.len, d.step * n⟩ : Dim)) ++ z).drop dims.length =
        sd.map (fun d => (⟨d.len, d.step * n⟩ : Dim)) ++ z := by
      rw [List.append_assoc, List.drop_left' (by simp)]
    have d3 : (dims.map (fun d => (⟨d.len, d.step * (size p * n)⟩ : Dim)) ++ sd.map (fun d => (⟨d.len, d.step * n⟩ : Dim)) ++ z).take dims.length =
        dims.map (fun d => (⟨d.len, d.step * (size p * n)⟩ : Dim)) := by
      rw [List.append_assoc, List.take_left' (by simp)]
    rw [d1, d2, d3, hc]
    simp only [bind, Except.bind]
    rw [if_pos trivial, axesLoop_scaled, hsz]
    simp only
    have hne : (size p : Int) * n ≠ 0 := by positivity
    rw [mul_comm (n : Int) (size p), frameLoop_scaled _ hne]
    rfl

/-- C25. Rejection: an axis of the type with another length, or an element size that doesn't match. For the steps see `C25_explode_exact`. -/
theorem C25_explode_reject (v : View) (sup : Ty) (p : List Nat) (e m : Int) (hsup : ArrayTy sup p m) (hm : 0 < m)
    (hr : (sup.dims.length : Int) + (if m = e then 0 else 1) ≤ v.dims.length)
    (hbad : ∀ f z : List Int, v.dims.map Dim.len = f ++ p.map Nat.cast ++ z → z.length = (if m = e then 0 else 1) → e * z.prod ≠ m) :
    v.explode sup e = .error .check := by
  cases h : v.explode sup e with
  | ok r =>
    obtain ⟨z, h1, h2, h3, _⟩ := C25_explode v sup p e m hsup hm r h
    exact absurd h3 (hbad (r.dims.map Dim.len) (z.map Dim.len) h1 (by simpa using h2))
  | error f =>
    have ck : ∀ (dv : List Dim) s f, compactLoop s dv = .error f → f = .check := by
      intro dv
      induction dv with
      | nil => intro s f h; simp [compactLoop] at h
      | cons d dv ih =>
        intro s f h
        simp only [compactLoop] at h
        split at h
        · exact ih _ _ h
        · simpa using h.symm
    have ca : ∀ (sup dv : List Dim) s f, axesLoop s sup dv = .error f → f = .check := by
      intro sup
      induction sup with
      | nil => intro dv s f h; simp [axesLoop] at h
      | cons d sup ih =>
        intro dv s f h
        cases dv with
        | nil => simp [axesLoop] at h
        | cons x dv =>
          simp only [axesLoop] at h
          split at h
          · exact ih _ _ _ h
          · simpa using h.symm
    have cf : ∀ (dv : List Dim) s f, frameLoop s dv = .error f → f = .check := by
      intro dv
      induction dv with
      | nil => intro s f h; simp [frameLoop] at h
      | cons d dv ih =>
        intro s f h
        simp only [frameLoop, bind, Except.bind] at h
        split at h
        · split at h
          · rename_i h'
            simp only [Except.error.injEq] at h
            subst h
            exact ih _ _ h'
          · simp [pure, Except.pure] at h
        · simpa using h.symm
    simp only [View.explode, hsup.2.2.1] at h
    rw [if_neg (by omega)] at h
    simp only [bind, Except.bind] at h
    split at h
    · rename_i h'
      simp only [Except.error.injEq] at h
      subst h
      rw [ck _ _ _ h']
    · split at h
      · split at h
        · rename_i h'
          simp only [Except.error.injEq] at h
          subst h
          rw [ca _ _ _ _ h']
        · split at h
          · rename_i h'
            simp only [Except.error.injEq] at h
            subst h
            rw [cf _ _ _ h']
          · simp [pure, Except.pure] at h
      · simp only [Except.error.injEq] at h
        rw [h]

/-- C25 fails for intermediate arrays: `explode<Small<int, 2, 3>>(collapse<Small<int, 3>>(a))` is rejected. -/
theorem C25_roundtrip_negation :
    let sub : Ty := ⟨[⟨3, 1⟩], 4, 12⟩
    let sup : Ty := ⟨[⟨2, 3⟩, ⟨3, 1⟩], 4, 24⟩
    let a : View := ⟨[⟨5, 1⟩], 0⟩
    ∃ r, a.collapse sub sup = .ok r ∧ r.explode sup sub.size = .error .abort :=
  ⟨⟨[⟨5, 2⟩, ⟨2, 1⟩], 0⟩, by decide, by decide⟩

/-- B21. C25 fails when the type is an array that is smaller than the elements of the elements of the view. For `collapse<Small<double, 2>>` of a vector of 2
`Small<Small<double, 4>, 1>`, the last axis has length 4 and not 2. Element (1, 3) is then at byte 80 of the 64. -/
theorem C25_collapse_negation :
    let sub : Ty := ⟨[⟨2, 1⟩], 8, 16⟩
    let sup : Ty := ⟨[⟨1, 1⟩], 32, 32⟩
    let a : View := ⟨[⟨2, 1⟩], 0⟩
    a.collapse sub sup = .ok ⟨[⟨2, 2⟩, ⟨4, 1⟩], 0⟩ ∧ byteAddress 16 ⟨[⟨2, 2⟩, ⟨4, 1⟩], 0⟩ [1, 3] = 80 ∧ 80 ≥ 2 * sup.size := by decide

/-- `collapse<double>` of a vector of 4 `Small<complex, 2, 2>`, and back. -/
example : (⟨[⟨4, 1⟩], 0⟩ : View).collapse ⟨[], 8, 8⟩ ⟨[⟨2, 2⟩, ⟨2, 1⟩], 16, 64⟩ = .ok ⟨[⟨4, 8⟩, ⟨2, 4⟩, ⟨2, 2⟩, ⟨2, 1⟩], 0⟩ := by decide
example : (⟨[⟨4, 8⟩, ⟨2, 4⟩, ⟨2, 2⟩, ⟨2, 1⟩], 0⟩ : View).explode ⟨[⟨2, 2⟩, ⟨2, 1⟩], 16, 64⟩ 8 = .ok ⟨[⟨4, 1⟩], 0⟩ := by decide
example : ArrayTy ⟨[⟨2, 2⟩, ⟨2, 1⟩], 16, 64⟩ [2, 2] (2 * 8) := by
  refine ⟨rfl, ?_, rfl, rfl⟩
  intro j hj
  match j, hj with
  | [a, b], _ => simp [dot, position, size]

end Ra.Props
