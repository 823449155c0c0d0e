import Verif.Model.MachineView
import Verif.Spec.MachineView
import Verif.Props.Machine
import Verif.Props.Slice
import Verif.Props.SafeViews
/-!
# C100: operations on views with 64 bits
-/

namespace Ra.Props
open Spec

theorem mulM_ok {a b : Int} (h : Small (a * b)) : mulM a b = .ok (a * b) := by
  unfold mulM
  rw [if_pos (fits_iff.mpr h)]

theorem addM_ok {a b : Int} (h : Small (a + b)) : addM a b = .ok (a + b) := by
  unfold addM
  rw [if_pos (fits_iff.mpr h)]

theorem subM_ok {a b : Int} (h : Small (a - b)) : subM a b = .ok (a - b) := by
  unfold subM
  rw [if_pos (fits_iff.mpr h)]

theorem movePtr_ok {lo n cp d : Int} (h1 : lo ≤ cp + d) (h2 : cp + d ≤ lo + n) : movePtr lo n cp d = .ok (cp + d) := by
  unfold movePtr
  rw [if_pos ⟨h1, h2⟩]

theorem address_head (d : Dim) (ds : List Dim) (cp x : Int) (k : Nat) : address ⟨d :: ds, cp⟩ (x :: List.replicate k 0) = cp + x * d.step := by
  have := dot_zeros_right (ds.map Dim.step) k
  simp [address, dot_cons, this]

theorem address_tail (d : Dim) (ds : List Dim) (cp i : Int) (j : List Int) : address ⟨ds, cp + i * d.step⟩ j = address ⟨d :: ds, cp⟩ (i :: j) := by
  simp [address, dot_cons, add_assoc]

/-- A position of the first axis. -/
theorem inStore_head {lo n : Int} {d : Dim} {ds : List Dim} {cp : Int} {k : Nat} {s : List Nat} (hs : 0 ∉ s) (h : InStore lo n ⟨d :: ds, cp⟩ (k :: s)) (hn : n ≤ dimMax) {i : Int}
    (h0 : 0 ≤ i) (h1 : i < k) : Small (i * d.step) ∧ lo ≤ cp + i * d.step ∧ cp + i * d.step ≤ lo + n ∧ InStore lo n ⟨ds, cp + i * d.step⟩ s := by
  have e0 := h (0 :: List.replicate s.length 0) ⟨by omega, by omega, valid_zeros_pos hs⟩
  have e1 := h (i :: List.replicate s.length 0) ⟨h0, h1, valid_zeros_pos hs⟩
  rw [address_head] at e0 e1
  refine ⟨⟨by omega, by omega⟩, by omega, by omega, ?_⟩
  intro j hj
  rw [address_tail]
  exact h (i :: j) ⟨h0, h1, hj⟩

theorem inStore_drop {lo n : Int} {ds : List Dim} {cp : Int} {s : List Nat} (hs : 0 ∉ s) (h : InStore lo n ⟨ds, cp⟩ s) (hn : n ≤ dimMax) (hl : ds.length = s.length) (m : Nat) :
    InStore lo n ⟨ds.drop m, cp⟩ (s.drop m) := by
  induction m generalizing ds s with
  | zero => simpa using h
  | succ m ih =>
    match ds, s, hl with
    | [], [], _ => simpa using h
    | d :: ds, k :: s, hl =>
      simp only [List.mem_cons, not_or] at hs
      have := (inStore_head (i := 0) hs.2 h hn (by omega) (by omega)).2.2.2
      simp only [zero_mul, add_zero] at this
      simpa using ih hs.2 this (by simpa using hl)

theorem rangeCheck_ok {d : Dim} {la i : Int} (h0 : Small d.len) (hd : 0 ≤ d.len) (h1 : d.len ≠ 0 → Small ((d.len - 1) * d.step) ∧ Small (i + (d.len - 1) * d.step)) :
    rangeCheckM la i d = .ok (decide (d.len = 0 ∨ (inside i la = true ∧ inside (i + (d.len - 1) * d.step) la = true))) := by
  unfold rangeCheckM
  by_cases e : d.len = 0
  · simp [e]
  · obtain ⟨a, b⟩ := h1 e
    rw [if_neg e]
    by_cases e1 : inside i la = true
    · rw [if_pos e1, subM_ok (by simp only [Small, dimMax] at h0 ⊢; omega)]
      simp only [bind, Except.bind, mulM_ok a, addM_ok b, pure, Except.pure, e, e1, false_or, true_and, Bool.decide_eq_true]
    · simp [e, e1]

theorem frombM_eq {lo n : Int} (hn : n ≤ dimMax) (is : List Subscript) (s : List Nat) (ds : List Dim) (cp : Int) (bk : Nat) (hv : Shaped ⟨ds, cp⟩ (s.map some)) (hs : 0 ∉ s)
    (hb : InStore lo n ⟨ds, cp⟩ s) (hr : RangesSmall ds is) : frombM lo n cp bk ds (is.map write) = fromb cp bk ds (is.map write) := by
  induction is generalizing s ds cp bk with
  | nil => rfl
  | cons x is ih =>
    have hl : ds.length = s.length := by simpa using List.Forall₂.length_eq hv
    cases x with
    | «at» i =>
      match ds, s, hv with
      | [], _, _ => rfl
      | d :: ds, k :: s, .cons hd hv =>
        have hd : d.len = k := hd
        simp only [List.mem_cons, not_or] at hs
        simp only [List.map_cons, write, frombM, fromb]
        simp only [bind, Except.bind]
        cases hw : (LenExpr.wlen d.len (.const i)).val with
        | error e => rfl
        | ok i' =>
          simp only
          by_cases hi : inside i' d.len = true ∨ (UNB = d.len ∧ 0 = d.step)
          · rw [if_pos hi, if_pos hi]
            have hu : ¬ UNB = d.len := by rw [hd]; simp only [UNB]; omega
            have hi' : 0 ≤ i' ∧ i' < k := by
              have := hi.resolve_right (fun h => hu h.1)
              rwa [inside_iff, hd] at this
            obtain ⟨a, b, c, e⟩ := inStore_head hs.2 hb hn hi'.1 hi'.2
            simp only [mulM_ok a, movePtr_ok b c]
            exact ih s ds _ bk hv hs.2 e hr
          · rw [if_neg hi, if_neg hi]
    | range m o st =>
      match ds, s, hv with
      | [], _, _ => rfl
      | d :: ds, k :: s, .cons hd hv =>
        have hd : d.len = k := hd
        simp only [List.mem_cons, not_or] at hs
        obtain ⟨⟨r1, r2, r3, r4⟩, hr⟩ := hr
        simp only [List.map_cons, write, frombM, fromb, iotaDims, LenExpr.wlen, LenExpr.val, bind, Except.bind, pure, Except.pure]
        simp only [List.length_cons, List.length_nil, List.any_cons, List.any_nil, iotaLoopM, iotaLoop, bind, Except.bind, pure, Except.pure, mulM_ok r2]
        have hm : ¬ ((m : Int) < 0) := by omega
        simp only [hm, decide_false, Bool.or_false, Bool.false_eq_true, and_false, if_false]
        rw [rangeCheck_ok (d := ⟨m, st⟩) r1 (by simp) (by
          intro h
          simp only at h ⊢
          exact r4 (by omega))]
        simp only [decide_eq_true_eq]
        by_cases hc : (m : Int) = 0 ∨ (inside o d.len = true ∧ inside (o + ((m : Int) - 1) * st) d.len = true)
        · rw [if_pos hc, if_pos hc]
          have ho : 0 ≤ o ∧ o < k := by
            rcases hc with h | h
            · have := r3 (by omega)
              omega
            · have := h.1
              rwa [inside_iff, hd] at this
          obtain ⟨a, b, c, e⟩ := inStore_head hs.2 hb hn ho.1 ho.2
          simp only [mulM_ok a, movePtr_ok b c]
          rw [ih s ds _ (bk + 1) hv hs.2 e hr]
        · rw [if_neg hc, if_neg hc]
    | keep m =>
      simp only [List.map_cons, write, frombM, fromb]
      split
      · rfl
      · rw [ih (s.drop m) (ds.drop m) cp (bk + m) (by
          have := List.forall₂_drop m hv
          simpa [Shaped, List.map_drop] using this) (fun h => hs (List.mem_of_mem_drop h)) (inStore_drop hs hb hn hl m) hr]
    | new m =>
      simp only [List.map_cons, write, frombM, fromb]
      rw [ih s ds cp (bk + m) hv hs hb hr]

/-- C100 for slices. -/
theorem C100_slice_partial (v : View) (s : List Nat) (hv : Shaped v (s.map some)) (hs : 0 ∉ s) (lo n : Int) (hn : n ≤ dimMax) (hb : InStore lo n v s) (is : List Subscript)
    (hr : RangesSmall v.dims is) : v.fromM lo n (is.map write) = v.from (is.map write) := by
  obtain ⟨ds, cp⟩ := v
  simp only [View.fromM, View.from]
  rw [frombM_eq hn is s ds cp 0 hv hs hb hr]

theorem small_abs {x : Int} (h : (x.natAbs : Int) ≤ dimMax) : Small x := ⟨by omega, by omega⟩

theorem inStore_axis {lo n : Int} {v : View} {s : List Nat} (hv : Shaped v (s.map some)) (hs : 0 ∉ s) (hn : n ≤ dimMax) (hb : InStore lo n v s) {k : Nat} {d : Dim} (hd : v.dims[k]? = some d) {i : Int}
    (h0 : 0 ≤ i) (h1 : i < d.len) : Small (i * d.step) ∧ lo ≤ v.cp + i * d.step ∧ v.cp + i * d.step ≤ lo + n := by
  have hl : v.dims.length = s.length := by simpa using List.Forall₂.length_eq hv
  have h := inStore_drop hs (by simpa using hb) hn hl k
  obtain ⟨hk, e⟩ := List.getElem?_eq_some_iff.mp hd
  have hk' : k < s.length := by omega
  rw [List.drop_eq_getElem_cons hk, List.drop_eq_getElem_cons hk', e] at h
  have e2 : d.len = s[k] := by
    have := shaped_nat.mp hv
    have := congrArg (·[k]?) this
    simp only [List.getElem?_map, hd, List.getElem?_eq_getElem hk', Option.map_some, Option.some.injEq] at this
    exact this
  have := inStore_head (fun h => hs (List.mem_of_mem_drop h)) h hn h0 (by omega)
  exact ⟨this.1, this.2.1, this.2.2.1⟩

theorem reverseM_eq {lo n : Int} {v : View} {s : List Nat} (hv : Shaped v (s.map some)) (hs : 0 ∉ s) (hn : n ≤ dimMax) (hb : InStore lo n v s) (k : Int) (h : OpSmall s v (.reverse k)) :
    v.reverseM lo n k = v.reverse k := by
  unfold View.reverseM View.reverse
  split
  · rfl
  · rcases hd : v.dims[k.toNat]? with _ | d
    · rfl
    · have hm := List.mem_of_getElem? hd
      obtain ⟨h1, h2⟩ := h d hm
      have hp : 0 < d.len := by
        have := shaped_nat.mp hv
        have : d.len ∈ s.map (Nat.cast : Nat → Int) := by rw [← this]; exact List.mem_map_of_mem hm
        obtain ⟨x, hx, e⟩ := List.mem_map.mp this
        have : x ≠ 0 := fun e => hs (e ▸ hx)
        omega
      obtain ⟨a, b, c⟩ := inStore_axis hv hs hn hb hd (i := d.len - 1) (by omega) (by omega)
      rw [mul_comm] at a b c
      have hmove : reverseMoveM d = .ok (d.step * (d.len - 1)) := by
        unfold reverseMoveM
        rw [if_neg (by omega), subM_ok ⟨by simp only [dimMax] at *; omega, by omega⟩]
        exact mulM_ok a
      simp only
      split
      · rfl
      · split
        · rw [mulM_ok (small_abs (by simpa using h2)), hmove, if_neg (by omega)]
          simp only [bind, Except.bind, movePtr_ok b c, pure, Except.pure]
        · rfl

theorem transposeLoopM_eq (l : List (Int × Dim)) (dst : List Dim) (B : Nat) (hB : ∀ d ∈ dst, d.step.natAbs ≤ B) (h : ((B + (l.map fun x => x.2.step.natAbs).sum : Nat) : Int) ≤ dimMax) :
    transposeLoopM dst l = transposeLoop dst l := by
  induction l generalizing dst B with
  | nil => rfl
  | cons x l ih =>
    obtain ⟨sk, d⟩ := x
    simp only [transposeLoopM, transposeLoop]
    split
    · rfl
    · rcases he : dst[sk.toNat]? with _ | e
      · rfl
      · simp only
        have h1 := hB e (List.mem_of_getElem? he)
        simp only [List.map_cons, List.sum_cons] at h
        rw [addM_ok (small_abs (by omega))]
        simp only [bind, Except.bind]
        refine ih _ (B + d.step.natAbs) ?_ (by omega)
        intro y hy
        rcases List.mem_or_eq_of_mem_set hy with h2 | rfl
        · have := hB y h2; omega
        · simp only; omega

theorem transposeM_eq {v : View} {s : List Nat} (ax : List Int) (h : OpSmall s v (.transpose ax)) : v.transposeM ax = v.transpose ax := by
  unfold View.transposeM View.transpose
  split
  · rfl
  · split
    · next hl =>
      rw [transposeLoopM_eq _ _ 0 (by
        intro d hd
        rw [List.eq_of_mem_replicate hd]
        simp)]
      have : (ax.zip v.dims).map (fun x => x.2.step.natAbs) = v.dims.map fun d => d.step.natAbs := by
        rw [show (fun x : Int × Dim => x.2.step.natAbs) = (fun d : Dim => d.step.natAbs) ∘ Prod.snd from rfl, ← List.map_map, List.map_snd_zip (by omega)]
      rw [this, Nat.zero_add]
      exact h
    · rfl

theorem stencilLoopM_eq (ds : List Dim) (lo hi : List Int) (h0 : ∀ l ∈ lo, 0 ≤ l) (h1 : ∀ h ∈ hi, 0 ≤ h) (hd : ∀ d ∈ ds, d.len ≤ dimMax) (h : ∀ l ∈ lo, ∀ h ∈ hi, l + h + 1 ≤ dimMax) :
    stencilLoopM ds lo hi = stencilLoop ds lo hi := by
  induction ds generalizing lo hi with
  | nil => rfl
  | cons d ds ih =>
    match lo, hi with
    | [], _ => rfl
    | _ :: _, [] => rfl
    | l :: lo, k :: hi =>
      have a := h0 l (by simp)
      have b := h1 k (by simp)
      have c := hd d (by simp)
      have e := h l (by simp) k (by simp)
      have hM : (0 : Int) ≤ dimMax := by simp [dimMax]
      simp only [stencilLoopM, stencilLoop]
      rw [addM_ok ⟨by omega, by omega⟩]
      simp only [bind, Except.bind]
      by_cases hh : d.len ≥ l + k
      · rw [if_pos hh, if_pos hh, subM_ok ⟨by omega, by omega⟩]
        simp only
        rw [subM_ok ⟨by omega, by omega⟩, addM_ok ⟨by omega, by omega⟩, ih lo hi (fun x hx => h0 x (by simp [hx])) (fun x hx => h1 x (by simp [hx])) (fun x hx => hd x (by simp [hx]))
          (fun x hx y hy => h x (by simp [hx]) y (by simp [hy]))]
      · rw [if_neg hh, if_neg hh]

theorem stencilM_eq {v : View} {s : List Nat} (lo hi : List Int) (h : OpSmall s v (.stencil lo hi)) : v.stencilM lo hi = v.stencil lo hi := by
  unfold View.stencilM View.stencil
  split
  · next h0 =>
    split
    · rw [stencilLoopM_eq v.dims lo hi (by simpa using h0.1) (by simpa using h0.2) h.1 h.2]
    · rfl
  · rfl

theorem absProd_pos {t : List Int} (h : 0 ∉ t) : 0 < absProd t := by
  induction t with
  | nil => simp [absProd]
  | cons x t ih =>
    simp only [List.mem_cons, not_or] at h
    exact Nat.mul_pos (by omega) (ih h.2)

/-- A part of a product. -/
theorem part_le {a b c : Nat} (h : ((a * (b * c) : Nat) : Int) ≤ dimMax) (hc : 0 < c) : ((a * b : Nat) : Int) ≤ dimMax := by
  have : a * b ≤ a * (b * c) := by rw [← Nat.mul_assoc]; exact Nat.le_mul_of_pos_right _ hc
  omega

theorem small_mul {x y : Int} (h : ((x.natAbs * y.natAbs : Nat) : Int) ≤ dimMax) : Small (x * y) := small_abs (by rw [Int.natAbs_mul]; exact h)

theorem cOrderLoopM_eq (b : Bool) (x : Int) (dv : List Dim) (h0 : 0 ∉ dv.map Dim.len) (h : ((x.natAbs * absProd (dv.map Dim.len) : Nat) : Int) ≤ dimMax) :
    cOrderLoopM b x dv = .ok (cOrderLoop b x dv) := by
  induction dv generalizing b x with
  | nil => rfl
  | cons d dv ih =>
    simp only [List.map_cons, List.mem_cons, not_or] at h0
    simp only [List.map_cons, absProd] at h
    simp only [cOrderLoopM, cOrderLoop]
    rw [mulM_ok (small_mul (part_le h (absProd_pos h0.2)))]
    simp only [bind, Except.bind]
    refine ih _ _ h0.2 ?_
    rw [Int.natAbs_mul, Nat.mul_assoc]
    exact h

theorem absProd_append (a b : List Int) : absProd (a ++ b) = absProd a * absProd b := by
  induction a with
  | nil => simp [absProd]
  | cons x a ih => simp [absProd, ih, Nat.mul_assoc]

theorem absProd_reverse (a : List Int) : absProd a.reverse = absProd a := by
  induction a with
  | nil => rfl
  | cons x a ih => simp [absProd_append, absProd, ih, Nat.mul_comm]

theorem absProd_cast (s : List Nat) : absProd (s.map Nat.cast) = size s := by
  induction s with
  | nil => rfl
  | cons n s ih => simp [absProd, size, ih]

theorem cOrderM_eq (ds : List Dim) (h0 : 0 ∉ ds.map Dim.len) (h : ∀ d ∈ ds, ((d.step.natAbs * absProd (ds.map Dim.len) : Nat) : Int) ≤ dimMax) : cOrderM ds = .ok (cOrder ds false) := by
  unfold cOrderM cOrder
  simp only [Bool.false_eq_true, if_false]
  have hsub : ∃ p, ds.reverse = p ++ ds.reverse.dropWhile (·.len == 1) := ⟨_, (List.takeWhile_append_dropWhile).symm⟩
  generalize ds.reverse.dropWhile (·.len == 1) = r at hsub
  obtain ⟨p, hp⟩ := hsub
  match r, hp with
  | [], _ => rfl
  | [_], _ => rfl
  | d :: e :: dv, hp =>
    simp only
    have hm : ∀ x ∈ d :: e :: dv, x ∈ ds := by
      intro x hx
      have : x ∈ ds.reverse := by rw [hp]; exact List.mem_append_right _ hx
      simpa using this
    have hz : 0 ∉ (e :: dv).map Dim.len := by
      intro hh
      obtain ⟨x, hx, e0⟩ := List.mem_map.mp hh
      exact h0 (e0 ▸ List.mem_map_of_mem (hm x (by simp [List.mem_cons.mp hx])))
    have hzp : 0 ∉ p.map Dim.len := by
      intro hh
      obtain ⟨x, hx, e0⟩ := List.mem_map.mp hh
      have : x ∈ ds.reverse := by rw [hp]; exact List.mem_append_left _ hx
      exact h0 (e0 ▸ List.mem_map_of_mem (by simpa using this))
    have hprod : absProd (ds.map Dim.len) = absProd (p.map Dim.len) * (d.len.natAbs * absProd ((e :: dv).map Dim.len)) := by
      rw [← absProd_reverse, ← List.map_reverse, hp, List.map_append, absProd_append]
      rfl
    have hd := h d (hm d (by simp))
    rw [hprod] at hd
    have hd' : ((d.step.natAbs * (d.len.natAbs * absProd ((e :: dv).map Dim.len)) : Nat) : Int) ≤ dimMax := by
      rw [Nat.mul_comm (absProd (p.map Dim.len))] at hd
      exact part_le hd (absProd_pos hzp)
    rw [mulM_ok (small_mul (part_le hd' (absProd_pos hz)))]
    simp only [bind, Except.bind]
    refine cOrderLoopM_eq _ _ _ hz ?_
    rw [Int.natAbs_mul, Nat.mul_assoc]
    exact hd'

theorem dimvSizeM_eq {v : View} {s : List Nat} (hv : Shaped v (s.map some)) (hs : 0 ∉ s) (h : (size s : Int) ≤ dimMax) : dimvSizeM v.dims = .ok (dimvSize v.dims) ∧ dimvSize v.dims = size s := by
  have e : dimvSize v.dims = size s := dimvSize_eq hv
  refine ⟨?_, e⟩
  rw [e]
  refine (C67_size v s hv).1 fun k => ?_
  have := (size_take_le hs k).1
  omega

theorem ravelM_eq {v : View} {s : List Nat} (hv : Shaped v (s.map some)) (hs : 0 ∉ s) (h : OpSmall s v .ravel) : v.ravelFreeM = v.ravelFree := by
  have hl := shaped_nat.mp hv
  unfold View.ravelFreeM View.ravelFree
  rw [cOrderM_eq v.dims (by rw [hl]; simpa using hs) (by
    intro d hd
    rw [hl, absProd_cast]
    exact_mod_cast h.2 d hd)]
  simp only [bind, Except.bind, (dimvSizeM_eq hv hs h.1).1, pure, Except.pure]

theorem quotLoopM_eq (q : Int) (t : List Int) (h0 : 0 ∉ t) (h : ((q.natAbs * absProd t : Nat) : Int) ≤ dimMax) : quotLoopM q t = quotLoop q t := by
  induction t generalizing q with
  | nil => rfl
  | cons x t ih =>
    simp only [List.mem_cons, not_or] at h0
    simp only [absProd] at h
    simp only [quotLoopM, quotLoop]
    rw [mulM_ok (small_mul (part_le h (absProd_pos h0.2)))]
    simp only [bind, Except.bind]
    split
    · exact ih _ h0.2 (by rw [Int.natAbs_mul, Nat.mul_assoc]; exact h)
    · rfl

theorem placeholderM_eq (la lb : Int) (t : List Int) (h0 : 0 ∉ t) (h : ((lb.natAbs * absProd t : Nat) : Int) ≤ dimMax) : placeholderM la lb t = placeholder la lb t := by
  induction t generalizing lb with
  | nil => rfl
  | cons x t ih =>
    simp only [List.mem_cons, not_or] at h0
    simp only [absProd] at h
    simp only [placeholderM, placeholder]
    split
    · next hx =>
      rw [quotLoopM_eq lb t h0.2 (by simpa [hx] using h)]
    · rw [mulM_ok (small_mul (part_le h (absProd_pos h0.2)))]
      simp only [bind, Except.bind]
      rw [ih _ h0.2 (by rw [Int.natAbs_mul, Nat.mul_assoc]; exact h)]

theorem quotLoop_abs {q r : Int} {t : List Int} (h : quotLoop q t = .ok r) : r.natAbs = q.natAbs * absProd t := by
  induction t generalizing q with
  | nil => cases h; simp [absProd]
  | cons x t ih =>
    simp only [quotLoop] at h
    split at h
    · rw [ih h, Int.natAbs_mul, absProd, Nat.mul_assoc]
    · cases h

/-- The size that goes with the lengths, after the placeholder is replaced. -/
theorem placeholder_abs {la lb l : Int} {t t' : List Int} (h : placeholder la lb t = .ok (t', l)) : lb.natAbs * absProd t' = l.natAbs ∧ (l = la ∨ l.natAbs = lb.natAbs * absProd t) := by
  induction t generalizing lb t' with
  | nil => cases h; simp [absProd]
  | cons x t ih =>
    simp only [placeholder, bind, Except.bind] at h
    split at h
    · rcases hq : quotLoop lb t with e | q
      · rw [hq] at h; cases h
      · rw [hq] at h
        simp only at h
        split at h
        · cases h
        · split at h
          · next hd =>
            cases h
            refine ⟨?_, .inl rfl⟩
            have e := quotLoop_abs hq
            have : q * Int.tdiv la q = la := Int.mul_tdiv_cancel_of_tmod_eq_zero hd.1
            have := congrArg Int.natAbs this
            rw [Int.natAbs_mul, e] at this
            rw [← this, absProd]
            ring
          · cases h
    · rcases hp : placeholder la (lb * x) t with e | ⟨r, l'⟩
      · rw [hp] at h; cases h
      · rw [hp] at h
        cases h
        obtain ⟨a, b⟩ := ih hp
        rw [Int.natAbs_mul] at a b
        refine ⟨by rw [absProd, ← Nat.mul_assoc]; exact a, b.imp id fun b => by rw [b, absProd, Nat.mul_assoc]⟩

theorem filldimvM_eq (t : List Int) (h0 : 0 ∉ t) (h : (absProd t : Int) ≤ dimMax) : filldimvM t = filldimv t ∧
    ∀ dv p, filldimv t = .ok (dv, p) → p.natAbs = absProd t ∧ ∀ d ∈ dv, d.step.natAbs ≤ absProd t := by
  induction t with
  | nil =>
    refine ⟨rfl, ?_⟩
    intro dv p h
    cases h
    simp [absProd]
  | cons x t ih =>
    simp only [List.mem_cons, not_or] at h0
    have hx : 0 < x.natAbs := by omega
    have hle : absProd t ≤ absProd (x :: t) := Nat.le_mul_of_pos_left _ hx
    obtain ⟨i1, i2⟩ := ih h0.2 (by omega)
    simp only [filldimvM, filldimv, i1]
    rcases hf : filldimv t with e | ⟨dv, p⟩
    · exact ⟨rfl, by intro dv p h; cases h⟩
    · obtain ⟨e1, e2⟩ := i2 dv p hf
      simp only [bind, Except.bind, pure, Except.pure]
      split
      · have e3 : p.natAbs * x.natAbs = absProd (x :: t) := by rw [e1, absProd, Nat.mul_comm]
        rw [mulM_ok (small_mul (by rw [e3]; exact h))]
        refine ⟨rfl, ?_⟩
        intro dv' p' h
        cases h
        refine ⟨by rw [Int.natAbs_mul]; exact e3, ?_⟩
        intro d hd
        rcases List.mem_cons.mp hd with rfl | hd
        · simp only; omega
        · have := e2 d hd; omega
      · exact ⟨rfl, by intro dv p h; cases h⟩

theorem mapM_ok_map {α β ε : Type} (f : α → Except ε β) (g : α → β) (l : List α) (h : ∀ x ∈ l, f x = .ok (g x)) : l.mapM f = .ok (l.map g) := by
  induction l with
  | nil => rfl
  | cons x l ih =>
    rw [List.mapM_cons, h x (by simp), ih fun y hy => h y (by simp [hy])]
    rfl

theorem absProd_mem {t : List Int} (h : 0 ∈ t) : absProd t = 0 := by
  induction t with
  | nil => cases h
  | cons x t ih =>
    rcases List.mem_cons.mp h with rfl | h
    · simp [absProd]
    · simp [absProd, ih h]

theorem reshapeM_eq {v : View} {s : List Nat} (hv : Shaped v (s.map some)) (hs : 0 ∉ s) (t : List Int) (h : OpSmall s v (.reshape t)) : v.reshapeM t = v.reshape t := by
  obtain ⟨h0, hsz, ht, hd⟩ := h
  have hl := shaped_nat.mp hv
  obtain ⟨e1, e2⟩ := dimvSizeM_eq hv hs hsz
  unfold View.reshapeM View.reshape
  rw [e1]
  simp only [bind, Except.bind]
  rw [placeholderM_eq _ 1 t h0 (by simpa using ht)]
  rcases hp : placeholder (dimvSize v.dims) 1 t with e | ⟨t', l⟩
  · rfl
  · simp only
    rcases reshapeLoop v.dims.reverse t'.reverse with _ | r
    case some => rfl
    case none =>
      rw [cOrderM_eq v.dims (by rw [hl]; simpa using hs) (by
        intro d hd'
        rw [hl, absProd_cast]
        exact_mod_cast (hd d hd').1)]
      simp only
      split
      · obtain ⟨a, b⟩ := placeholder_abs hp
        simp only [Int.natAbs_one, Nat.one_mul] at a b
        have hpos : 0 < size s := Nat.pos_of_ne_zero fun h => hs (size_zero.mp h)
        have htp := absProd_pos h0
        have hab : absProd t' = size s ∨ absProd t' = absProd t := by
          rcases b with b | b
          · left; omega
          · right; omega
        have ht0 : 0 ∉ t' := by
          intro hz
          have := absProd_mem hz
          omega
        obtain ⟨f1, f2⟩ := filldimvM_eq t' ht0 (by omega)
        rw [f1]
        rcases hf : filldimv t' with e | ⟨dv, p⟩
        · rfl
        · simp only
          rcases hg : v.dims.getLast? with _ | d
          · rfl
          · simp only
            rw [mapM_ok_map _ (fun x => (⟨x.len, x.step * d.step⟩ : Dim))]
            · intro x hx
              have h1 := (f2 dv p hf).2 x hx
              obtain ⟨h2, h3⟩ := hd d (List.mem_of_getLast? hg)
              have : x.step.natAbs * d.step.natAbs ≤ d.step.natAbs * absProd t' := by
                rw [Nat.mul_comm]
                exact Nat.mul_le_mul_left _ h1
              rw [mulM_ok (small_mul (by
                rcases hab with e | e
                · rw [e] at this
                  have h2 : ((d.step.natAbs * size s : Nat) : Int) ≤ dimMax := by exact_mod_cast h2
                  omega
                · rw [e] at this
                  have h3 : ((d.step.natAbs * absProd t : Nat) : Int) ≤ dimMax := by exact_mod_cast h3
                  omega))]
              rfl
      · rfl

/-- C100 for one operation, which may be caught by a check or not. What's missing: views with empty or unbounded axes, and the other conditions in `OpSmall`; see `C100_negation`. -/
theorem C100_partial (v : View) (s : List Nat) (hv : Shaped v (s.map some)) (hs : 0 ∉ s) (lo n : Int) (hn : n ≤ dimMax) (hb : InStore lo n v s) (op : ViewOp) (h : OpSmall s v op) :
    op.runM lo n v = op.run v := by
  cases op with
  | slice is =>
    obtain ⟨js, rfl, hr⟩ := h
    exact C100_slice_partial v s hv hs lo n hn hb js hr
  | reverse k => exact reverseM_eq hv hs hn hb k h
  | transpose ax => exact transposeM_eq ax h
  | stencil l h' => exact stencilM_eq l h' h
  | ravel => exact ravelM_eq hv hs h
  | reshape t => exact reshapeM_eq hv hs t h

/-- C100 for operations one after another. -/
theorem C100_chain_partial (v : View) (s : List Nat) (hv : Shaped v (s.map some)) (lo n : Int) (hn : n ≤ dimMax) (hb : InStore lo n v s) (ops : List ViewOp) (hc : OpsSafe ops v)
    (h : OpsSmall ops v) : runOpsM lo n ops v = runOps ops v := by
  induction ops generalizing v s with
  | nil => rfl
  | cons op ops ih =>
    obtain ⟨h1, h2, h3⟩ := h
    have hs : 0 ∉ s := by
      intro h0
      have := shaped_nat.mp hv
      have : (0 : Int) ∈ v.dims.map Dim.len := by rw [this]; exact List.mem_map.mpr ⟨0, h0, rfl⟩
      obtain ⟨d, hd, e⟩ := List.mem_map.mp this
      have := h1 d hd
      omega
    simp only [runOpsM, runOps, List.foldlM_cons]
    rw [C100_partial v s hv hs lo n hn hb op (h2 s hv)]
    rcases hr : op.run v with e | w
    · rfl
    · rcases ops with _ | ⟨op', ops⟩
      · rfl
      · rcases op_safe v (s.map some) hv op (hc.1 _ hv) with h4 | ⟨w', t, h4, h5, h6⟩
        · rw [hr] at h4; cases h4
        · rw [hr] at h4
          cases h4
          obtain ⟨t, rfl⟩ := shaped_finite h5 fun d hd => by
            have := (h3 w hr).1 d hd
            simp only [UNB]
            omega
          refine ih w t h5 ?_ (hc.2 w hr) (h3 w hr)
          intro j hj
          obtain ⟨i, h7, h8⟩ := h6 j (inRange_of_valid hj)
          have h9 := hb _ (inRange_valid h7)
          have hl : v.dims.length = s.length := by simpa using hv.length_eq
          rw [h8, address_cut, hl]
          exact h9

theorem mul_small {x y : Int} (hx : -2147483648 ≤ x ∧ x ≤ 2147483648) (hy : -2147483648 ≤ y ∧ y ≤ 2147483648) : -4611686018427387904 ≤ x * y ∧ x * y ≤ 4611686018427387904 := by
  obtain ⟨a, b⟩ := hx
  obtain ⟨c, d⟩ := hy
  constructor
  · nlinarith [mul_nonneg (by omega : 0 ≤ x + 2147483648) (by omega : 0 ≤ y + 2147483648), mul_nonneg (by omega : 0 ≤ 2147483648 - x) (by omega : 0 ≤ 2147483648 - y)]
  · nlinarith [mul_nonneg (by omega : 0 ≤ x + 2147483648) (by omega : 0 ≤ 2147483648 - y), mul_nonneg (by omega : 0 ≤ 2147483648 - x) (by omega : 0 ≤ y + 2147483648)]

/-- C100 for slices, if the steps of the view and the numbers in the ranges are no more than 2³¹ and there aren't ranges without positions. -/
theorem C100_slice31_partial (v : View) (s : List Nat) (hv : Shaped v (s.map some)) (hs : 0 ∉ s) (lo n : Int) (hn : n ≤ dimMax) (hb : InStore lo n v s) (is : List Subscript)
    (hd : ∀ d ∈ v.dims, -2147483648 ≤ d.step ∧ d.step ≤ 2147483648)
    (hr : ∀ m o st, .range m o st ∈ is → (0 < m ∧ m ≤ 2147483648) ∧ (-2147483648 ≤ o ∧ o ≤ 2147483648) ∧ -2147483648 ≤ st ∧ st ≤ 2147483648) :
    v.fromM lo n (is.map write) = v.from (is.map write) := by
  refine C100_slice_partial v s hv hs lo n hn hb is ?_
  generalize v.dims = ds at hd
  clear hv hb
  induction is generalizing ds with
  | nil => trivial
  | cons x is ih =>
    have hr' : ∀ m o st, .range m o st ∈ is → _ := fun m o st h => hr m o st (List.mem_cons_of_mem _ h)
    cases x with
    | «at» i => exact ih hr' _ fun d h => hd d (List.mem_of_mem_drop h)
    | keep k => exact ih hr' _ fun d h => hd d (List.mem_of_mem_drop h)
    | new k => exact ih hr' _ hd
    | range m o st =>
      match ds with
      | [] => trivial
      | d :: ds =>
        refine ⟨?_, ih hr' ds fun d h => hd d (List.mem_cons_of_mem _ h)⟩
        obtain ⟨⟨a, a'⟩, b, c⟩ := hr m o st (by simp)
        have e1 := mul_small c (hd d (by simp))
        have e2 := mul_small (x := (m : Int) - 1) (by omega) c
        refine ⟨⟨?_, ?_⟩, ⟨?_, ?_⟩, fun h => by omega, fun _ => ⟨⟨?_, ?_⟩, ?_, ?_⟩⟩ <;> (simp only [dimMax]; omega)

/-- C100 for an array and operations one after another: either a check fails, or the result is a view of the array. -/
theorem C100_array_partial (s : List Nat) (cp : Int) (v : View) (hv : View.ofShape (s.map Nat.cast) cp = .ok v) (hs : (size s : Int) ≤ dimMax) (ops : List ViewOp) (hc : OpsSafe ops v)
    (h : OpsSmall ops v) : runOpsM cp (size s) ops v = .error .check ∨
    ∃ w t, runOpsM cp (size s) ops v = .ok w ∧ Shaped w t ∧ ∀ j, InRange t j → cp ≤ address w j ∧ address w j < cp + size s := by
  obtain ⟨v', h1, h2, h3⟩ := C58_dims s cp
  rw [hv] at h1
  cases h1
  have hb : InStore cp (size s) v s := by
    intro j hj
    have := h3 j hj
    have := position_bounds hj
    omega
  rw [C100_chain_partial v s h2 cp (size s) hs hb ops hc h]
  rcases C98_ops ops v _ h2 hc with h4 | ⟨w, t, h4, h5, h6⟩
  · exact .inl h4
  · refine .inr ⟨w, t, h4, h5, fun j hj => ?_⟩
    obtain ⟨i, hi, e⟩ := h6 j hj
    have := hb _ (inRange_valid hi)
    have hl : v.dims.length = s.length := by simpa using h2.length_eq
    rw [e, address_cut, hl]
    exact this

/-- C100 is false of the code in these cases.
* An empty range that begins outside of the array: `a(iota(0, 5))` where `a` has 3 elements. The pointer is moved out of the array.
* An integer subscript in an empty array: `a(all, 1)` where `a` has shape {0, 3}.
* A range whose step can't be multiplied by that of the array: `a(iota(1, 0, 2⁶²))` where `a` has shape {3, 4}.
* A range that's out of range: `a(iota(3, 0, 2⁶²))`, where `a` has 3 elements. There's overflow in the check that should find that.
* The same for the bounds of a stencil, `stencil(a, {2⁶²}, {2⁶²})`; and for `reshape(a, {2⁴⁰, 2⁴⁰})`. -/
theorem C100_negation :
    ¬ NoOverflowOp 0 3 ⟨[⟨3, 1⟩], 0⟩ [3] (.slice [write (.range 0 5 1)]) ∧
    ¬ NoOverflowOp 0 0 ⟨[⟨0, 3⟩, ⟨3, 1⟩], 0⟩ [0, 3] (.slice [write (.keep 1), write (.at 1)]) ∧
    ¬ NoOverflowOp 0 12 ⟨[⟨3, 4⟩, ⟨4, 1⟩], 0⟩ [3, 4] (.slice [write (.range 1 0 4611686018427387904)]) ∧
    ¬ NoOverflowOp 0 3 ⟨[⟨3, 1⟩], 0⟩ [3] (.slice [write (.range 3 0 4611686018427387904)]) ∧
    ¬ NoOverflowOp 0 3 ⟨[⟨3, 1⟩], 0⟩ [3] (.stencil [4611686018427387904] [4611686018427387904]) ∧
    ¬ NoOverflowOp 0 3 ⟨[⟨3, 1⟩], 0⟩ [3] (.reshape [1099511627776, 1099511627776]) := by
  have b3 : InStore 0 3 ⟨[⟨3, 1⟩], 0⟩ [3] := by
    intro j hj
    match j, hj with
    | [i], ⟨h1, h2, _⟩ => simp [address, dot]; omega
  have b12 : InStore 0 12 ⟨[⟨3, 4⟩, ⟨4, 1⟩], 0⟩ [3, 4] := by
    intro j hj
    match j, hj with
    | [i, k], ⟨h1, h2, h3, h4, _⟩ => simp [address, dot]; omega
  have b0 : InStore 0 0 ⟨[⟨0, 3⟩, ⟨3, 1⟩], 0⟩ [0, 3] := by
    intro j hj
    match j, hj with
    | i :: j, ⟨h1, h2, _⟩ => simp at h2; omega
  have s3 : ∀ d ∈ ([⟨3, 1⟩] : List Dim), Small d.len ∧ Small d.step := by simp [Small, dimMax]
  refine ⟨fun h => ?_, fun h => ?_, fun h => ?_, fun h => ?_, fun h => ?_, fun h => ?_⟩
  · have := h (.cons rfl .nil) (by simp [dimMax]) (by simp) b3 (by simp) (by simp) s3 ⟨[.range 0 5 1], rfl, by simp [Small, dimMax]⟩ (by decide +kernel)
    revert this
    decide +kernel
  · have := h (.cons rfl (.cons rfl .nil)) (by simp [dimMax]) (by simp) b0 (by simp) (by simp) (by simp [Small, dimMax]) ⟨[.keep 1, .at 1], rfl, by simp [Small, dimMax]⟩ (by decide +kernel)
    revert this
    decide +kernel
  · have := h (.cons rfl (.cons rfl .nil)) (by simp [dimMax]) (by simp) b12 (by simp) (by simp) (by simp [Small, dimMax]) ⟨[.range 1 0 4611686018427387904], rfl, by simp [Small, dimMax]⟩ (by decide +kernel)
    revert this
    decide +kernel
  · have := h (.cons rfl .nil) (by simp [dimMax]) (by simp) b3 (by simp) (by simp) s3 ⟨[.range 3 0 4611686018427387904], rfl, by simp [Small, dimMax]⟩ (by decide +kernel)
    revert this
    decide +kernel
  · have := h (.cons rfl .nil) (by simp [dimMax]) (by simp) b3 (by simp) (by simp) s3 (by simp [ArgsSmall, Small, dimMax]) (by decide +kernel)
    revert this
    decide +kernel
  · have := h (.cons rfl .nil) (by simp [dimMax]) (by simp) b3 (by simp) (by simp) s3 (by simp [ArgsSmall, Small, dimMax]) (by decide +kernel)
    revert this
    decide +kernel

/-- Array of shape {3, 4}: the last two columns, each from the last to the first. The transpose doesn't have its elements in order. -/
example : runOpsM 0 12 [.transpose [1, 0], .slice [write (.range 2 3 (-1))], .reverse 1] ⟨[⟨3, 4⟩, ⟨4, 1⟩], 0⟩ = .ok ⟨[⟨2, -1⟩, ⟨3, -4⟩], 11⟩ ∧
    runOpsM 0 12 [.transpose [1, 0], .ravel] ⟨[⟨3, 4⟩, ⟨4, 1⟩], 0⟩ = .error .check ∧ runOpsM 0 12 [.reshape [2, -1]] ⟨[⟨3, 4⟩, ⟨4, 1⟩], 0⟩ = .ok ⟨[⟨2, 6⟩, ⟨6, 1⟩], 0⟩ := by decide +kernel

/-- The conditions of the theorems for that array. -/
example : ∀ op ∈ ([.slice [write (.range 2 3 (-1)), write (.at 7)], .reverse 1, .transpose [1, 0], .stencil [1, 1] [1, 5], .reshape [2, -1], .ravel] : List ViewOp),
    op.runM 0 12 ⟨[⟨3, 4⟩, ⟨4, 1⟩], 0⟩ = op.run ⟨[⟨3, 4⟩, ⟨4, 1⟩], 0⟩ := by
  intro op hop
  refine C100_partial ⟨[⟨3, 4⟩, ⟨4, 1⟩], 0⟩ [3, 4] (.cons rfl (.cons rfl .nil)) (by simp) 0 12 (by simp [dimMax]) ?_ op ?_
  · intro j hj
    match j, hj with
    | [i, k], ⟨h1, h2, h3, h4, _⟩ => simp [address, dot]; omega
  · simp only [List.mem_cons, List.not_mem_nil, or_false] at hop
    rcases hop with rfl | rfl | rfl | rfl | rfl | rfl
    · exact ⟨[.range 2 3 (-1), .at 7], rfl, by simp [RangesSmall, RangeSmall, Small, dimMax]⟩
    · intro d hd
      simp only [List.mem_cons, List.not_mem_nil, or_false] at hd
      rcases hd with rfl | rfl <;> decide
    all_goals (try simp [OpSmall, dimMax, size, absProd])
    all_goals decide

example : runOpsM 0 12 [.transpose [1, 0], .reverse 1] ⟨[⟨3, 4⟩, ⟨4, 1⟩], 0⟩ = runOps [.transpose [1, 0], .reverse 1] ⟨[⟨3, 4⟩, ⟨4, 1⟩], 0⟩ := by
  have e : ViewOp.run (.transpose [1, 0]) ⟨[⟨3, 4⟩, ⟨4, 1⟩], 0⟩ = .ok ⟨[⟨4, 1⟩, ⟨3, 4⟩], 0⟩ := by decide +kernel
  refine C100_chain_partial ⟨[⟨3, 4⟩, ⟨4, 1⟩], 0⟩ [3, 4] (.cons rfl (.cons rfl .nil)) 0 12 (by simp [dimMax]) ?_ _ ⟨fun s _ => .inr (.inr (.inr ⟨⟨by simp, by simp [UNB]⟩, by simp⟩)), ?_⟩
    ⟨by simp, fun s _ => by simp [OpSmall, dimMax], ?_⟩
  · intro j hj
    match j, hj with
    | [i, k], ⟨h1, h2, h3, h4, _⟩ => simp [address, dot]; omega
  · intro w hw
    rw [e] at hw
    cases hw
    exact ⟨fun s _ => .inr (.inr (.inr ⟨trivial, by simp⟩)), fun _ _ => trivial⟩
  · intro w hw
    rw [e] at hw
    cases hw
    exact ⟨by simp, fun s _ => by intro d hd; simp only [List.mem_cons, List.not_mem_nil, or_false] at hd; rcases hd with rfl | rfl <;> decide, fun _ _ => trivial⟩

end Ra.Props
