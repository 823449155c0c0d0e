import Verif.Spec.Fill
import Verif.Props.Array
import Verif.Props.Matrix
/-!
# Construction from lists and from expressions: C34, C55, C56, and C29 for products that make their result
-/

namespace Ra.Props
open Spec

section
variable {V : Type}

/-! Sequences of writes. -/

/-- Write some addresses in order. -/
def writeAll : List (Int × V) → Act V Unit
  | [] => pure ()
  | (p, x) :: l => do
    Act.write p x
    writeAll l

theorem write_run {μ : Mem V} {p : Int} (h : (μ p).isSome) (x : V) : Act.write p x μ = (.ok (), μ.upd p x) := by
  obtain ⟨y, hy⟩ := Option.isSome_iff_exists.mp h
  simp only [Act.write, hy]

theorem writeAll_run (l : List (Int × V)) (hn : (l.map Prod.fst).Nodup) (μ : Mem V) (hm : ∀ px ∈ l, (μ px.1).isSome) :
    ∃ μ', writeAll l μ = (.ok (), μ') ∧ (∀ px ∈ l, μ' px.1 = some px.2) ∧ SameOutside (fun p => p ∈ l.map Prod.fst) μ μ' := by
  induction l generalizing μ with
  | nil => exact ⟨μ, rfl, by simp, fun _ _ => rfl⟩
  | cons a l ih =>
    obtain ⟨p, x⟩ := a
    simp only [List.map_cons, List.nodup_cons] at hn
    obtain ⟨μ', h1, h2, h3⟩ := ih hn.2 (μ.upd p x) (by
      intro q hq
      simp only [Mem.upd]
      split
      · rfl
      · exact hm q (by simp [hq]))
    refine ⟨μ', ?_, ?_, ?_⟩
    · rw [writeAll, act_bind_ok (write_run (hm (p, x) (by simp)) x), h1]
    · intro q hq
      rcases List.mem_cons.mp hq with rfl | hq
      · rw [h3 _ hn.1]; simp [Mem.upd]
      · exact h2 q hq
    · intro q hq
      simp only [List.map_cons, List.mem_cons, not_or] at hq
      rw [h3 q hq.2]
      simp [Mem.upd, hq.1]

/-! The `n`-th index. -/

theorem rowMajor_get {s : List Nat} {j : List Int} (hj : Valid s j) : (rowMajor s)[(position s j).toNat]? = some j := by
  obtain ⟨k, hk1, hk2⟩ := position_of hj
  have hl : (rowMajor s).length = size s := length_rowMajor s
  have h := congrArg (fun l => l[k]?) (C58_onto s)
  simp only [List.getElem?_map, List.getElem?_range hk2, Option.map_some] at h
  rw [hk1, Int.toNat_natCast]
  rw [List.getElem?_eq_getElem (by omega)] at h ⊢
  simp only [Option.map_some, Option.some.injEq] at h
  rw [Option.some.injEq]
  exact position_inj (mem_rowMajor.mp (List.getElem_mem _)) hj (by omega)

theorem zip_mem {s : List Nat} {xs : List V} (hl : xs.length = size s) {j : List Int} (hj : Valid s j) :
    ∃ x, xs[(position s j).toNat]? = some x ∧ (j, x) ∈ (rowMajor s).zip xs := by
  obtain ⟨k, hk1, hk2⟩ := position_of hj
  have hg := rowMajor_get hj
  rw [hk1, Int.toNat_natCast] at hg ⊢
  refine ⟨xs[k], List.getElem?_eq_getElem _, ?_⟩
  refine List.mem_iff_getElem?.mpr ⟨k, ?_⟩
  rw [List.getElem?_zip_eq_some]
  exact ⟨hg, List.getElem?_eq_getElem _⟩

theorem zip_fst {s : List Nat} {xs : List V} (hl : xs.length = size s) : ((rowMajor s).zip xs).map Prod.fst = rowMajor s :=
  map_fst_zip' _ _ (by rw [hl, length_rowMajor])

/-- Writing in row-major order to different addresses. -/
theorem fill_run (s : List Nat) (xs : List V) (hl : xs.length = size s) (A : List Int → Int) (hA : ∀ j k, Valid s j → Valid s k → A j = A k → j = k) (μ : Mem V)
    (hm : ∀ j, Valid s j → (μ (A j)).isSome) :
    ∃ μ', writeAll (((rowMajor s).zip xs).map fun jx => (A jx.1, jx.2)) μ = (.ok (), μ') ∧ (∀ j, Valid s j → μ' (A j) = xs[(position s j).toNat]?) ∧
      SameOutside (fun p => ∃ j, Valid s j ∧ p = A j) μ μ' := by
  have hf : (((rowMajor s).zip xs).map fun jx => (A jx.1, jx.2)).map Prod.fst = (rowMajor s).map A := by
    rw [List.map_map, ← zip_fst (s := s) hl, List.map_map, zip_fst hl]
    rfl
  obtain ⟨μ', h1, h2, h3⟩ := writeAll_run (((rowMajor s).zip xs).map fun jx => (A jx.1, jx.2)) (by
    rw [hf]
    exact (nodup_rowMajor s).map_on fun j hj k hk h => hA j k (mem_rowMajor.mp hj) (mem_rowMajor.mp hk) h) μ (by
    intro px hpx
    obtain ⟨⟨j, x⟩, hjx, rfl⟩ := List.mem_map.mp hpx
    exact hm j (mem_rowMajor.mp (List.of_mem_zip hjx).1))
  refine ⟨μ', h1, ?_, ?_⟩
  · intro j hj
    obtain ⟨x, hx1, hx2⟩ := zip_mem hl hj
    rw [hx1]
    exact h2 (A j, x) (List.mem_map.mpr ⟨(j, x), hx2, rfl⟩)
  · intro p hp
    refine h3 p ?_
    rw [hf]
    intro hp'
    obtain ⟨j, hj, rfl⟩ := List.mem_map.mp hp'
    exact hp ⟨j, mem_rowMajor.mp hj, rfl⟩

/-! Copies through pointers and through iterators. -/

theorem ptrCopy_eq (xs : List V) (p : Int) : ptrCopy xs p = writeAll (((List.range xs.length).map fun (i : Nat) => p + (i : Int)).zip xs) := by
  induction xs generalizing p with
  | nil => rfl
  | cons x xs ih =>
    rw [ptrCopy, ih, List.length_cons, List.range_succ_eq_map, List.map_cons, List.zip_cons_cons, writeAll, List.map_map]
    congr 3
    · simp
    · funext _
      congr 2
      refine List.map_congr_left fun i _ => ?_
      simp only [Function.comp]
      push_cast
      ring

/-- A copy through a pointer is in row-major order. -/
theorem ptrCopy_fill (s : List Nat) (xs : List V) (hl : xs.length = size s) (p : Int) :
    ptrCopy xs p = writeAll (((rowMajor s).zip xs).map fun jx => (p + position s jx.1, jx.2)) := by
  rw [ptrCopy_eq, hl]
  have : (List.range (size s)).map (fun (i : Nat) => p + (i : Int)) = (rowMajor s).map fun j => p + position s j := by
    have := congrArg (List.map fun x : Int => p + x) (C58_onto s)
    rw [List.map_map, List.map_map] at this
    exact this.symm
  rw [this, List.zip_map_left]
  rfl

theorem stlCopy_chain (v : View) (ha : (v.refs : Iter (Act V) (Lv V)).WF) (hb : (v.refs : Iter (Act V) (Lv V)).Bounded) (l : List (List Int)) :
    ∀ (o : List Int) (xs : List V), xs.length = l.length + 1 →
    Chain (nextIx (outerLens (v.refs : Iter (Act V) (Lv V)) (v.refs : Iter (Act V) (Lv V)).rank.toNat)) (o :: l) →
    (∀ o' ∈ o :: l, Valid (outerLens (v.refs : Iter (Act V) (Lv V)) (v.refs : Iter (Act V) (Lv V)).rank.toNat) o') →
    stlCopy xs ⟨(v.refs : Iter (Act V) (Lv V)).shift (disp o.reverse), cdown (outerLens (v.refs : Iter (Act V) (Lv V)) (v.refs : Iter (Act V) (Lv V)).rank.toNat) o, false⟩ =
      writeAll (((o :: l).zip xs).map fun ox => (address v ox.1.reverse, ox.2)) := by
  have hw : ∀ (o : List Int) (x : V) (k : Act V Unit),
      (do let _ ← (do let y ← ((v.refs : Iter (Act V) (Lv V)).shift (disp o.reverse)).deref; setOp [y, .val x]); k) = (do Act.write (address v o.reverse) x; k) := by
    intro o x k
    rw [Iter.deref_shift, elem_refs]
    simp only [pure_bind, setOp, Lv.get, bind_assoc]
  induction l with
  | nil =>
    intro o xs hx hc hv
    obtain ⟨x, rfl⟩ : ∃ x, xs = [x] := List.length_eq_one_iff.mp (by simpa using hx)
    simp only [stlCopy, hw, List.zip_cons_cons, List.map_cons, writeAll]
    rfl
  | cons o' l ih =>
    intro o xs hx hc hv
    match xs, hx with
    | x :: xs, hx =>
      have := ih o' xs (by simpa using hx) hc.2 (fun y hy => hv y (List.mem_cons_of_mem _ hy))
      rw [List.zip_cons_cons, List.map_cons, writeAll, ← this]
      simp only [stlCopy]
      rw [hw]
      congr 1
      funext _
      simp only [Stl.next, Iter.rank_shift]
      rw [disp_eq o.reverse, stlNext_eq _ ha hb _ (by omega) o _ (hv o (by simp)), hc.1]
      simp [disp_eq]

theorem stlCopy_fill (v : View) (s : List Nat) (hv : Shaped v (s.map some)) (xs : List V) (hl : xs.length = size s) :
    ∃ p, Stl.begin (v.refs : Iter (Act V) (Lv V)) = .ok p ∧ stlCopy xs p = writeAll (((rowMajor s).zip xs).map fun jx => (address v jx.1, jx.2)) := by
  have hs : HasShape (v.refs : Iter (Act V) (Lv V)) (s.map some) := refs_shape hv
  have ha := hs.wf
  have hb := hs.bounded
  have hn := hs.natShape
  have hlens : outerLens (v.refs : Iter (Act V) (Lv V)) (v.refs : Iter (Act V) (Lv V)).rank.toNat = s.reverse := by
    rw [outerLens_eq _ (le_refl _), List.take_of_length_le (by rw [length_natShape]), hn]
  simp only [Stl.begin, (validate_iff _).mpr hb, if_true]
  refine ⟨_, rfl, ?_⟩
  by_cases h0 : 0 ∈ s
  · have hr := rowMajor_nil_of_zero h0
    have : xs = [] := by
      rw [← List.length_eq_zero_iff, hl, ← length_rowMajor, hr]; rfl
    subst this
    rw [hr]
    rfl
  · have hpos : ∀ k ∈ s.reverse, 0 < k := by
      intro k hk
      rw [List.mem_reverse] at hk
      rcases Nat.eq_zero_or_pos k with h | h
      · subst h; exact absurd hk h0
      · exact h
    have hrm : rowMajor s = (rowMajorR s.reverse).map List.reverse := by
      rw [rowMajorR_eq, List.reverse_reverse, List.map_map]; simp
    obtain ⟨l, hl'⟩ := head_rowMajorR _ hpos
    have hchain := chain_rowMajorR _ hpos
    have hvalid : ∀ o ∈ rowMajorR s.reverse, Valid s.reverse o := fun o ho => mem_rowMajorR.mp ho
    have hsz : size s = l.length + 1 := by
      rw [← length_rowMajor, hrm, List.length_map, hl']; simp
    rw [hl'] at hchain hvalid
    have := stlCopy_chain v ha hb l _ xs (by omega) (by rw [hlens]; exact hchain) (by rw [hlens]; exact hvalid)
    have hd0 : disp (List.replicate s.reverse.length (0 : Int)).reverse = fun _ => 0 := by
      funext k; simp only [disp, List.reverse_replicate, List.getD_eq_getElem?_getD, List.getElem?_replicate]; split <;> rfl
    rw [hd0, Iter.shift_zero] at this
    rw [hrm, hl', List.zip_map_left, List.map_map]
    refine Eq.trans ?_ this
    have hsz' : ((v.refs : Iter (Act V) (Lv V)).size == 0) = false := by
      rw [size_eq hb, hn, hsz]
      simp
      omega
    rw [hsz']
    congr 2
    rw [hb.cast, hn, hlens, ← List.map_reverse]
    simp only [cdown]
    generalize s.reverse = s
    clear * -
    induction s with
    | nil => rfl
    | cons n s ih => simp [List.replicate_succ, ← ih]

/-! ## C55 -/

/-- C55. `v = {x0, x1, ...}` with as many elements as `v`, for any layout without repeated elements and whatever is static: the element at row-major position `n` is `xn`,
and other memory is as it was. -/
theorem C55_view (ct step1 : Bool) (xs : List V) (v : View) (s : List Nat) (hv : Shaped v (s.map some)) (hd : Distinct v s) (hl : xs.length = size s) (μ : Mem V)
    (hm : ∀ j, Valid s j → (μ (address v j)).isSome) :
    ∃ μ', v.toRavel ct step1 xs μ = (.ok (), μ') ∧ (∀ j, Valid s j → μ' (address v j) = xs[(position s j).toNat]?) ∧ SameOutside (InView v s) μ μ' := by
  obtain ⟨μ', h1, h2, h3⟩ := fill_run s xs hl (address v) hd μ hm
  refine ⟨μ', ?_, h2, h3⟩
  rw [← h1]
  unfold View.toRavel
  rw [if_pos (by rw [dimvSize_eq hv, hl])]
  split
  · next hp =>
    rw [ptrCopy_fill s xs hl]
    refine congrFun (congrArg writeAll (List.map_congr_left fun jx hjx => ?_)) μ
    have hj := mem_rowMajor.mp (List.of_mem_zip hjx).1
    simp only [address]
    congr 2
    simp only [View.beginIsPtr, Bool.or_eq_true, Bool.and_eq_true] at hp
    rcases hp with ⟨_, hp⟩ | ⟨_, hp⟩
    · exact ((C23_unit v.dims s hv).mp hp _ hj).symm
    · split at hp
      · next d hd =>
        rw [decide_eq_true_eq] at hp
        simp only [Shaped, hd] at hv
        obtain ⟨n, rfl⟩ : ∃ n, s = [n] := List.length_eq_one_iff.mp (by simpa using hv.length_eq.symm)
        match jx.1, hj with
        | [i], _ => simp [‹v.dims = [d]›, ← hp, position, size, dot]
      · simp at hp
  · obtain ⟨p, hp1, hp2⟩ := stlCopy_fill v s hv xs hl
    rw [hp1]
    show (Act.lift (.ok p) >>= fun p => stlCopy xs p) μ = _
    rw [← hp2]
    rfl

theorem dimvSizeLoop_unb {dims : List Dim} {t : List Length} (h : List.Forall₂ DimLen dims t) (hn : none ∈ t) (n : Int) : dimvSizeLoop n dims < 0 := by
  have hu := UNB_val
  induction h generalizing n with
  | nil => simp at hn
  | @cons d o dims t hd _ ih =>
    rw [dimvSizeLoop]
    split
    · assumption
    · next hlt =>
      refine ih ?_ _
      rcases List.mem_cons.mp hn with rfl | hn
      · simp only [DimLen] at hd; omega
      · exact hn

/-- C55. If the list has another number of elements, or the view is unbounded, then the check fails and nothing changes. -/
theorem C55_view_reject (ct step1 : Bool) (xs : List V) (v : View) (t : List Length) (hv : Shaped v t) (hl : ∀ s : List Nat, t = s.map some → xs.length ≠ size s) (μ : Mem V) :
    v.toRavel ct step1 xs μ = (.error .check, μ) := by
  unfold View.toRavel
  rw [if_neg]
  · rfl
  · by_cases hn : none ∈ t
    · have := dimvSizeLoop_unb hv hn 1
      simp only [dimvSize]
      omega
    · have : ∃ s : List Nat, t = s.map some := by
        clear * - hn
        induction t with
        | nil => exact ⟨[], rfl⟩
        | cons o t ih =>
          simp only [List.mem_cons, not_or] at hn
          obtain ⟨s, rfl⟩ := ih hn.2
          obtain ⟨n, rfl⟩ := Option.ne_none_iff_exists'.mp (Ne.symm hn.1)
          exact ⟨n :: s, rfl⟩
      obtain ⟨s, rfl⟩ := this
      rw [dimvSize_eq hv]
      have := hl s rfl
      omega

/-! Making arrays. -/

theorem fillSteps_runs (l : List (Int × Int)) (h : ∀ x ∈ l, 0 ≤ x.1) : ∃ n dv, fillSteps l = (.ok n, dv) := by
  induction l with
  | nil => exact ⟨1, [], rfl⟩
  | cons x l ih =>
    obtain ⟨n, dv, hn⟩ := ih fun y hy => h y (by simp [hy])
    obtain ⟨m, st⟩ := x
    simp only [fillSteps, hn]
    rw [if_pos (h (m, st) (by simp))]
    exact ⟨_, _, rfl⟩

/-- An array can be made if the rank is right and there's free memory. -/
theorem create_runs (rk : Option Nat) (b : Int) (fill : Nat → V) (t : List Nat) (hr : ∀ r, rk = some r → t.length = r) (μ : Mem V) (hf : Free μ b (size t)) :
    ∃ a μ', Arr.create rk (some b) fill (t.map Nat.cast) μ = (.ok a, μ') := by
  have hfill : ∃ n a, Arr.fill ⟨rk, List.replicate (rk.getD 0) ⟨0, 0⟩, 0, 0⟩ (t.map Nat.cast) = (.ok n, a) := by
    unfold Arr.fill
    rw [if_neg]
    · simp only
      obtain ⟨n, dv, h⟩ := fillSteps_runs ((t.map (Nat.cast : Nat → Int)).zip ((List.map Dim.step (List.replicate (rk.getD 0) ⟨0, 0⟩)) ++
        List.replicate ((t.map (Nat.cast : Nat → Int)).length - (List.replicate (rk.getD 0) (⟨0, 0⟩ : Dim)).length) 0)) (by
          intro x hx
          have := (List.of_mem_zip (a := x.1) (b := x.2) hx).1
          obtain ⟨k, _, hk⟩ := List.mem_map.mp this
          omega)
      rw [h]
      exact ⟨_, _, rfl⟩
    · rintro ⟨h1, h2⟩
      obtain ⟨r, rfl⟩ := Option.isSome_iff_exists.mp h1
      have := hr r rfl
      simp at h2
      exact h2 this
  obtain ⟨n, a, ha⟩ := hfill
  obtain ⟨t', h1, h2, h3, h4, h5, h6, h7, h8⟩ := fill_ok ha
  have : t' = t := by
    have := h1
    exact (List.map_injective_iff.mpr Nat.cast_injective this).symm
  subst this
  unfold Arr.create
  rw [ha]
  simp only
  rw [if_pos (by omega)]
  have hst : ∃ a' μ', storeResize (some b) fill n a μ = (.ok (), a', μ') := by
    unfold storeResize
    rw [if_neg (by omega)]
    split
    · exact ⟨_, _, rfl⟩
    · simp only
      rw [if_pos]
      · exact ⟨_, _, rfl⟩
      · simp only [freeFor, List.all_eq_true, List.mem_range, Bool.or_eq_true, Option.isNone_iff_eq_none]
        intro i hi
        exact .inl (hf i (by omega))
  obtain ⟨a', μ', hs⟩ := hst
  rw [hs]
  exact ⟨_, _, rfl⟩

theorem container_upd {a : Arr} {μ μ' : Mem V} {s : List Nat} (h : Container a μ s) (hs : ∀ p, (μ' p).isSome = (μ p).isSome) : Container a μ' s :=
  ⟨h.lens, h.steps, h.count, fun i hi => by rw [hs]; exact h.alloc i hi, h.rank⟩

theorem container_distinct {a : Arr} {μ : Mem V} {s : List Nat} (h : Container a μ s) : Distinct a.view s := by
  intro j k hj hk he
  rw [addr_of h hj, addr_of h hk] at he
  exact position_inj hj hk (by omega)

theorem container_owns {a : Arr} {μ : Mem V} {s : List Nat} (h : Container a μ s) {j : List Int} (hj : Valid s j) : Owns a (address a.view j) := by
  have := position_bounds hj
  rw [addr_of h hj]
  have := h.count
  simp only [Owns]
  omega

theorem container_mem {a : Arr} {μ : Mem V} {s : List Nat} (h : Container a μ s) {j : List Int} (hj : Valid s j) : (μ (address a.view j)).isSome :=
  owns_alloc h (container_owns h hj)

theorem container_inView {a : Arr} {μ : Mem V} {s : List Nat} (h : Container a μ s) {p : Int} (hp : Owns a p) : InView a.view s p := by
  have he := (C30_elements a μ s h).2.2
  have : p ∈ (List.range a.n).map fun (i : Nat) => a.base + (i : Int) := by
    simp only [Owns] at hp
    exact List.mem_map.mpr ⟨(p - a.base).toNat, List.mem_range.mpr (by omega), by omega⟩
  rw [← he] at this
  obtain ⟨j, hj, rfl⟩ := List.mem_map.mp this
  exact ⟨j, mem_rowMajor.mp hj, rfl⟩

/-- An array just made, after its elements are written. -/
theorem new_of {e a : Arr} (he : e.n = 0) {μ μ1 μ2 : Mem V} {s : List Nat} (hc : Container a μ1 s) (hm : Moved e a μ μ1) {f : List Int → Option V}
    (hf : ∀ j, Valid s j → (f j).isSome) (h2 : ∀ j, Valid s j → μ2 (address a.view j) = f j) (hs : SameOutside (InView a.view s) μ1 μ2) : New a μ μ2 s f := by
  have hne : ∀ p, ¬ Owns e p := by
    intro p hp
    simp only [Owns, he] at hp
    omega
  refine ⟨⟨hc.lens, hc.steps, hc.count, ?_, hc.rank⟩, h2, ?_, ?_⟩
  · intro i hi
    obtain ⟨j, hj, hp⟩ := container_inView hc (p := a.base + i) (by simp only [Owns]; omega)
    rw [hp, h2 j hj]
    exact hf j hj
  · intro p hp
    exact (hm.new p hp).resolve_left (hne p)
  · intro p hp
    rw [hs p, hm.out p (hne p) hp]
    rintro ⟨j, hj, rfl⟩
    exact hp (container_owns hc hj)

/-- An array just made, after it's destroyed. -/
theorem release_same {e a : Arr} (he : e.n = 0) {μ μ1 μ2 : Mem V} {s : List Nat} (hc : Container a μ1 s) (hm : Moved e a μ μ1)
    (hs : SameOutside (InView a.view s) μ1 μ2) : μ2.move a a.base 0 (fun _ => none) = μ := by
  have hne : ∀ p, ¬ Owns e p := by
    intro p hp
    simp only [Owns, he] at hp
    omega
  funext p
  simp only [Mem.move]
  rw [if_neg (by omega)]
  split
  · next hp => exact ((hm.new p hp).resolve_left (hne p)).symm
  · next hp =>
    rw [hs p, hm.out p (hne p) hp]
    rintro ⟨j, hj, rfl⟩
    exact hp (container_owns hc hj)

/-- Make an array and write its elements. -/
theorem andDo_ok {rk : Option Nat} {b : Int} {fill : Nat → V} {t : List Nat} (hr : ∀ r, rk = some r → t.length = r) {μ : Mem V} (hf : Free μ b (size t))
    {body : Arr → Act V Unit} {f : List Int → Option V} (hs : ∀ j, Valid t j → (f j).isSome)
    (hb : ∀ a μ1, Container a μ1 t → SameOutside (fun p => μ p = none) μ μ1 → (∀ p, Owns a p → μ p = none) → ∃ μ2, body a μ1 = (.ok (), μ2) ∧
      (∀ j, Valid t j → μ2 (address a.view j) = f j) ∧ SameOutside (InView a.view t) μ1 μ2) :
    ∃ a μ', Arr.andDo (Arr.create rk (some b) fill (t.map Nat.cast) μ) body = (.ok a, μ') ∧ a.rk = rk ∧ New a μ μ' t f := by
  obtain ⟨a, μ1, h⟩ := create_runs rk b fill t hr μ hf
  obtain ⟨t', h1, h2, h3, h4, _⟩ := create_ok h
  have : t' = t := (List.map_injective_iff.mpr Nat.cast_injective h1).symm
  subst this
  have hfr : ∀ p, Owns a p → μ p = none := by
    intro p hp
    refine (h4.new p hp).resolve_left ?_
    simp only [Owns]
    omega
  have hne : ∀ p, ¬ Owns ⟨rk, [], 0, 0⟩ p := by
    intro p hp
    simp only [Owns] at hp
    omega
  obtain ⟨μ2, g1, g2, g3⟩ := hb a μ1 h2 (fun p hp => h4.out p (hne p) fun ho => hp (hfr p ho)) hfr
  refine ⟨a, μ2, ?_, h3, new_of rfl h2 h4 hs g2 g3⟩
  rw [h]
  simp only [Arr.andDo, g1]

/-- Make an array and fail to write its elements. -/
theorem andDo_error {rk : Option Nat} {b : Int} {fill : Nat → V} {t : List Nat} (hr : ∀ r, rk = some r → t.length = r) {μ : Mem V} (hf : Free μ b (size t))
    {body : Arr → Act V Unit} {e : Fault}
    (hb : ∀ a μ1, Container a μ1 t → SameOutside (fun p => μ p = none) μ μ1 → (∀ p, Owns a p → μ p = none) → ∃ μ2, body a μ1 = (.error e, μ2) ∧
      SameOutside (InView a.view t) μ1 μ2) :
    Arr.andDo (Arr.create rk (some b) fill (t.map Nat.cast) μ) body = (.error e, μ) := by
  obtain ⟨a, μ1, h⟩ := create_runs rk b fill t hr μ hf
  obtain ⟨t', h1, h2, h3, h4, _⟩ := create_ok h
  have : t' = t := (List.map_injective_iff.mpr Nat.cast_injective h1).symm
  subst this
  have hne : ∀ p, ¬ Owns ⟨rk, [], 0, 0⟩ p := by
    intro p hp
    simp only [Owns] at hp
    omega
  have hfr : ∀ p, Owns a p → μ p = none := fun p hp => (h4.new p hp).resolve_left (hne p)
  obtain ⟨μ2, g1, g2⟩ := hb a μ1 h2 (fun p hp => h4.out p (hne p) fun ho => hp (hfr p ho)) hfr
  rw [h]
  simp only [Arr.andDo, g1]
  rw [release_same rfl h2 h4 g2]

theorem fillSteps_error {l : List (Int × Int)} {e : Fault} {dv : List Dim} (h : fillSteps l = (.error e, dv)) : e = .check := by
  induction l generalizing e dv with
  | nil => simp [fillSteps] at h
  | cons x l ih =>
    obtain ⟨m, st⟩ := x
    simp only [fillSteps] at h
    split at h
    · next e' dv' h' =>
      simp only [Prod.mk.injEq, Except.error.injEq] at h
      exact h.1 ▸ ih h'
    · split at h
      · simp at h
      · simp only [Prod.mk.injEq, Except.error.injEq] at h
        exact h.1.symm

/-- Bad lengths or bad rank. -/
theorem create_reject (rk : Option Nat) (o : Option Int) (fill : Nat → V) (s : List Int)
    (hs : ¬ ∃ t : List Nat, s = t.map Nat.cast ∧ ∀ r, rk = some r → t.length = r) (μ : Mem V) : Arr.create rk o fill s μ = (.error .check, μ) := by
  unfold Arr.create
  split
  · next e a h =>
    have : e = .check := by
      unfold Arr.fill at h
      split at h
      · simp only [Prod.mk.injEq, Except.error.injEq] at h
        exact h.1.symm
      · simp only [Prod.mk.injEq] at h
        exact fillSteps_error (Prod.ext h.1 rfl)
    rw [this]
  · next n a h =>
    obtain ⟨t, h1, _, _, _, _, _, _, h8⟩ := fill_ok h
    refine absurd ⟨t, h1, ?_⟩ hs
    rintro r rfl
    simpa using h8 rfl

/-- C55. `Array(s, {x0, x1, ...})` with as many elements as the size for `s`. -/
theorem C55_array (rk : Option Nat) (b : Int) (fill : Nat → V) (t : List Nat) (hr : ∀ r, rk = some r → t.length = r) (xs : List V) (hl : xs.length = size t) (μ : Mem V)
    (hf : Free μ b (size t)) : ∃ a μ', Arr.ofList rk (some b) fill (t.map Nat.cast) xs μ = (.ok a, μ') ∧ a.rk = rk ∧ New a μ μ' t fun j => xs[(position t j).toNat]? := by
  refine andDo_ok hr hf ?_ ?_
  · intro j hj
    obtain ⟨x, hx, _⟩ := zip_mem hl hj
    rw [hx]; rfl
  · intro a μ1 hc _ _
    obtain ⟨μ', h1, h2, h3⟩ := fill_run t xs hl (address a.view) (container_distinct hc) μ1 fun j hj => container_mem hc hj
    refine ⟨μ', ?_, h2, h3⟩
    rw [← h1]
    unfold Arr.toRavel
    rw [if_pos (by rw [(C30_elements a μ1 t hc).2.1, hc.count, hl]), ptrCopy_fill t xs hl]
    refine congrFun (congrArg writeAll (List.map_congr_left fun jx hjx => ?_)) μ1
    rw [addr_of hc (mem_rowMajor.mp (List.of_mem_zip hjx).1)]

/-- C55. If the number of elements is wrong, or the lengths or the rank are, then the check fails, and the memory is as it was. -/
theorem C55_array_reject (rk : Option Nat) (b : Int) (fill : Nat → V) (s : List Int) (xs : List V)
    (hs : ¬ ∃ t : List Nat, s = t.map Nat.cast ∧ (∀ r, rk = some r → t.length = r) ∧ xs.length = size t) (μ : Mem V)
    (hf : ∀ t : List Nat, s = t.map Nat.cast → Free μ b (size t)) :
    Arr.ofList rk (some b) fill s xs μ = (.error .check, μ) := by
  by_cases h : ∃ t : List Nat, s = t.map Nat.cast ∧ ∀ r, rk = some r → t.length = r
  · obtain ⟨t, rfl, hr⟩ := h
    refine andDo_error hr (hf t rfl) ?_
    intro a μ1 hc _ _
    refine ⟨μ1, ?_, fun _ _ => rfl⟩
    unfold Arr.toRavel
    rw [if_neg]
    · rfl
    · rw [(C30_elements a μ1 t hc).2.1, hc.count]
      intro he
      exact hs ⟨t, rfl, hr, by omega⟩
  · unfold Arr.ofList
    rw [create_reject rk _ fill s h]
    rfl

theorem copyN_run (n : Nat) (p q : Int) (μ : Mem V) (hp : ∀ i : Nat, i < n → (μ (p + i)).isSome) (hq : ∀ i : Nat, i < n → (μ (q + i)).isSome)
    (hd : ∀ i j : Nat, i < n → j < n → p + i ≠ q + j) : ∃ μ', copyN n p q μ = (.ok (), μ') ∧ (∀ i : Nat, i < n → μ' (q + i) = μ (p + i)) ∧
      SameOutside (fun r => q ≤ r ∧ r < q + n) μ μ' := by
  induction n generalizing p q μ with
  | zero => exact ⟨μ, rfl, fun i hi => by omega, fun _ _ => rfl⟩
  | succ n ih =>
    obtain ⟨x, hx⟩ := Option.isSome_iff_exists.mp (hp 0 (by omega))
    have hq0 := hq 0 (by omega)
    simp only [Nat.cast_zero, add_zero] at hx hq0
    have key : ∀ r, r ≠ q → (μ.upd q x) r = μ r := fun r hr => by simp [Mem.upd, hr]
    obtain ⟨μ', h1, h2, h3⟩ := ih (p + 1) (q + 1) (μ.upd q x) (by
      intro i hi
      have := hp (i + 1) (by omega)
      rw [key _ (by have := hd (i + 1) 0 (by omega) (by omega); push_cast at this; omega)]
      rwa [show p + 1 + (i : Int) = p + ((i + 1 : Nat) : Int) by push_cast; ring]) (by
      intro i hi
      rw [key _ (by omega)]
      have := hq (i + 1) (by omega)
      rwa [show q + 1 + (i : Int) = q + ((i + 1 : Nat) : Int) by push_cast; ring]) (by
      intro i j hi hj
      have := hd (i + 1) (j + 1) (by omega) (by omega)
      push_cast at this
      omega)
    refine ⟨μ', ?_, ?_, ?_⟩
    · rw [copyN, act_bind_ok (a := x) (μ' := μ) (by simp only [Act.read, hx]), act_bind_ok (write_run hq0 x), h1]
    · intro i hi
      rcases i with _ | i
      · simp only [Nat.cast_zero, add_zero]
        rw [h3 q (by omega)]
        simp [Mem.upd, hx]
      · have := h2 i (by omega)
        rw [show q + ((i + 1 : Nat) : Int) = q + 1 + (i : Int) by push_cast; ring, this, key _ (by
          have := hd (i + 1) 0 (by omega) (by omega); push_cast at this; omega)]
        congr 1; push_cast; ring
    · intro r hr
      rw [h3 r (by omega), key r (by omega)]

/-- C55. `Array(s, p)`, from a pointer to as many elements as the size for `s`. -/
theorem C55_pointer (rk : Option Nat) (b : Int) (fill : Nat → V) (t : List Nat) (hr : ∀ r, rk = some r → t.length = r) (p : Int) (μ : Mem V) (hf : Free μ b (size t))
    (hp : ∀ i : Nat, i < size t → (μ (p + i)).isSome) :
    ∃ a μ', Arr.ofPtr rk (some b) fill (t.map Nat.cast) p μ = (.ok a, μ') ∧ a.rk = rk ∧ New a μ μ' t fun j => μ (p + position t j) := by
  refine andDo_ok hr hf ?_ ?_
  · intro j hj
    obtain ⟨k, hk1, hk2⟩ := position_of hj
    rw [hk1]
    exact hp k hk2
  · intro a μ1 hc hs hfr
    have hsz : a.size.toNat = size t := by rw [(C30_elements a μ1 t hc).2.1, hc.count]; simp
    have hin : ∀ i : Nat, i < size t → μ1 (p + i) = μ (p + i) := by
      intro i hi
      refine hs _ ?_
      have := hp i hi
      intro h0
      rw [h0] at this
      simp at this
    rw [hsz]
    obtain ⟨μ', h1, h2, h3⟩ := copyN_run (size t) p a.base μ1 (fun i hi => by rw [hin i hi]; exact hp i hi) (fun i hi => hc.alloc i (by rw [hc.count]; exact hi)) (by
      intro i j hi hj he
      have h1 := hp i hi
      rw [hfr (p + i) (by rw [he]; simp only [Owns, hc.count]; omega)] at h1
      simp at h1)
    refine ⟨μ', h1, ?_, ?_⟩
    · intro j hj
      obtain ⟨k, hk1, hk2⟩ := position_of hj
      rw [addr_of hc hj, hk1, h2 k hk2, hin k hk2]
    · intro r hr
      refine h3 r fun hr' => hr (container_inView hc ?_)
      simp only [Owns, hc.count]
      exact hr'

/-! ## C56 -/

theorem known_reads {X : Int → Prop} {μ : Mem V} {e : Iter (Act V) (Lv V)} {s : List Nat} {f : List Int → V} (h : Values X μ e s f) {j : List Int} (hj : Valid s j)
    {μ' : Mem V} (hs : SameOutside X μ μ') : Reads μ' (elem e j) (f j) := by
  obtain ⟨r, hr⟩ := h.2 j hj
  obtain ⟨h1, h2⟩ := hr μ' hs
  exact (reads_iff _ _ _).mpr ⟨r, μ', h1, h2⟩

theorem shape_cast {m : Type → Type} {α : Type} {e : Iter m α} {s : List Nat} (h : HasShape e (s.map some)) : e.shape = s.map Nat.cast := by
  rw [h.bounded.cast, h.natShape]

theorem valid_of_merge {s t : List Nat} (hm : Merge [t.map some, s.map some] (t.map some)) {j : List Int} (hj : Valid t j) : Valid s (j.take s.length) := by
  have hl : s.length ≤ j.length := by
    have := hm.1 (s.map some) (by simp)
    have := hj.length
    simp only [List.length_map] at *
    omega
  refine valid_of_inRange (by simpa using hl) ⟨by simpa using hl, ?_⟩
  intro k n hk
  have hk' : k < s.length := by
    have := (List.getElem?_eq_some_iff.mp hk).1
    simpa using this
  have := hj.inRange.2 k n ((hm.2.2 k n).mpr ⟨_, by simp, hk⟩)
  simpa [List.getD_eq_getElem?_getD, List.getElem?_take, hk'] using this

/-- C56. `Array(s, x)` when the shape of `x` fits in `s`. -/
theorem C56_shape (rk : Option Nat) (b : Int) (fill : Nat → V) (dyn : Bool) (z : List Int) (hz : ∀ i ∈ z, i = 0) (t : List Nat) (hr : ∀ r, rk = some r → t.length = r)
    (e : Iter (Act V) (Lv V)) (s : List Nat) (f : List Int → V) (μ : Mem V) (he : Known μ e s f) (hm : Merge [t.map some, s.map some] (t.map some)) (hf : Free μ b (size t)) :
    ∃ a μ', Arr.ofExpr rk (some b) fill dyn z (t.map Nat.cast) e μ = (.ok a, μ') ∧ a.rk = rk ∧ New a μ μ' t fun j => some (f (j.take s.length)) := by
  refine andDo_ok hr hf (fun _ _ => rfl) ?_
  intro a μ1 hc hs hfr
  refine C27_view dyn z hz a.view t (shaped_nat.mpr hc.lens) (container_distinct hc) e (s.map some) he.1 hm μ1 (fun j hj => container_mem hc hj) _ ?_
  intro j hj μ' hs'
  have hv : Valid s (j.take s.length) := valid_of_merge hm hj
  have hj' := elem_take e _ he.1 j
  rw [List.length_map] at hj'
  rw [← hj']
  refine known_reads he hv ?_
  intro p hp
  rw [hs' p ?_, hs p hp]
  rintro ⟨⟨k, hk, rfl⟩, _⟩
  exact hp (hfr _ (container_owns hc hk))

/-- C56. `concrete(e)` when the size isn't static: a new array with the shape and the elements of `e`. -/
theorem C56_big (rk : Option Nat) (b : Int) (fill : Nat → V) (dyn : Bool) (z : List Int) (hz : ∀ i ∈ z, i = 0) (e : Iter (Act V) (Lv V)) (s : List Nat)
    (hr : ∀ r, rk = some r → s.length = r) (f : List Int → V) (μ : Mem V) (he : Known μ e s f) (hf : Free μ b (size s)) :
    ∃ a μ', concreteBig rk (some b) fill dyn z e μ = (.ok a, μ') ∧ a.rk = rk ∧ New a μ μ' s fun j => some (f j) := by
  obtain ⟨a, μ', h1, h2, h3⟩ := C56_shape rk b fill dyn z hz s hr e s f μ he (merge_same _) hf
  refine ⟨a, μ', ?_, h2, h3.cont, ?_, h3.fresh, h3.same⟩
  · rw [concreteBig, shape_cast he.1, h1]
  · intro j hj
    rw [h3.elem j hj, ← hj.length, List.take_length]

theorem not_bounded {m : Type → Type} {α : Type} {e : Iter m α} (h : ¬ e.Bounded) : ∃ n ∈ e.shape, n < 0 := by
  simp only [Iter.Bounded, not_forall] at h
  obtain ⟨k, hk, hn⟩ := h
  exact ⟨e.len k, List.mem_map.mpr ⟨k, List.mem_range.mpr (by omega), rfl⟩, by omega⟩

/-- C56. An expression that doesn't have a finite shape is rejected. -/
theorem C56_big_reject (rk : Option Nat) (o : Option Int) (fill : Nat → V) (dyn : Bool) (z : List Int) (e : Iter (Act V) (Lv V)) (hwf : e.WF)
    (h : ¬ ∃ s : List Nat, HasShape e (s.map some)) (μ : Mem V) : concreteBig rk o fill dyn z e μ = (.error .check, μ) := by
  unfold concreteBig Arr.ofExpr
  rw [create_reject]
  · rfl
  · rintro ⟨t, ht, _⟩
    obtain ⟨n, hn, h0⟩ := not_bounded fun hb => h (hasShape_of_bounded hwf hb)
    rw [ht] at hn
    obtain ⟨k, _, rfl⟩ := List.mem_map.mp hn
    omega

/-- C56. `concrete(e)` when the size is static: an array in row-major order with the shape and the elements of `e`. -/
theorem C56_small (b : Int) (dyn : Bool) (z : List Int) (hz : ∀ i ∈ z, i = 0) (e : Iter (Act V) (Lv V)) (s : List Nat) (f : List Int → V) (μ : Mem V)
    (he : Values (fun p => b ≤ p ∧ p < b + size s) μ e s f) (hm : ∀ i : Nat, i < size s → (μ (b + i)).isSome) :
    ∃ v μ', concreteSmall b dyn z e μ = (.ok v, μ') ∧ Shaped v (s.map some) ∧
      (∀ j, Valid s j → address v j = b + position s j ∧ μ' (address v j) = some (f j)) ∧ SameOutside (fun p => b ≤ p ∧ p < b + size s) μ μ' := by
  obtain ⟨dv, h1, h2, h3⟩ := filldimv_ok s
  have ha : ∀ j, Valid s j → address (⟨dv, b⟩ : View) j = b + position s j := fun j hj => by simp only [address]; rw [h3 j hj]
  have hin : ∀ p, InView ⟨dv, b⟩ s p → b ≤ p ∧ p < b + size s := by
    rintro p ⟨j, hj, rfl⟩
    rw [ha j hj]
    have := position_bounds hj
    omega
  obtain ⟨μ', g1, g2, g3⟩ := C27_view dyn z hz ⟨dv, b⟩ s h2 (by
    intro j k hj hk h
    rw [ha j hj, ha k hk] at h
    exact position_inj hj hk (by omega)) e (s.map some) he.1 (merge_same _) μ (by
    intro j hj
    obtain ⟨k, hk1, hk2⟩ := position_of hj
    rw [ha j hj, hk1]
    exact hm k hk2) f (by
    intro j hj μ' hs
    exact known_reads he hj fun p hp => hs p fun hp' => hp (hin p hp'.1))
  refine ⟨⟨dv, b⟩, μ', ?_, h2, fun j hj => ⟨ha j hj, g2 j hj⟩, fun p hp => g3 p fun hp' => hp (hin p hp')⟩
  unfold concreteSmall
  have : View.ofShape e.shape b = .ok ⟨dv, b⟩ := by
    rw [shape_cast he.1, View.ofShape, h1]
    rfl
  rw [this]
  have hl : (Act.lift (.ok (⟨dv, b⟩ : View)) : Act V View) μ = (.ok ⟨dv, b⟩, μ) := rfl
  rw [act_bind_ok hl, act_bind_ok g1]
  rfl

theorem zeros_of_one {s : List Nat} (h1 : size s = 1) {j : List Int} (hj : Valid s j) : ∀ i ∈ j, i = 0 := by
  induction s generalizing j with
  | nil => match j, hj with
    | [], _ => simp
  | cons n s ih => match j, hj with
    | i :: j, ⟨h2, h3, hj⟩ =>
      have h1 : n = 1 ∧ size s = 1 := by simpa [size] using h1
      intro k hk
      rcases List.mem_cons.mp hk with rfl | hk
      · omega
      · exact ih h1.2 hj k hk

/-- C63. A conversion to scalar gives the only element, when there's one. -/
theorem C63_scalar {m : Type → Type} {α : Type} [Monad m] [MonadFault m] (e : Iter m α) (s : List Nat) (h : HasShape e (s.map some)) (h1 : size s = 1) (j : List Int)
    (hj : Valid s j) : toScalar e = elem e j := by
  have he : e.size = 1 := by rw [size_eq h.bounded, h.natShape, h1]; rfl
  have hz : disp j = fun _ => 0 := by
    funext k
    simp only [disp, List.getD_eq_getElem?_getD]
    cases hk : j[k]? with
    | none => rfl
    | some i => exact zeros_of_one h1 hj i (List.mem_of_getElem? hk)
  rw [toScalar, if_pos he.symm, ← e.deref_shift, hz, e.shift_zero]

/-- C63. A conversion to scalar is rejected when there isn't exactly one element. -/
theorem C63_reject {m : Type → Type} {α : Type} [Monad m] [LawfulMonad m] [MonadFault m] (e : Iter m α) (hwf : e.WF) (h : ¬ ∃ s : List Nat, HasShape e (s.map some) ∧ size s = 1) :
    toScalar e = fault .check := by
  rw [toScalar, if_neg]
  intro h1
  have hb : e.Bounded := by
    by_contra hb
    obtain ⟨n, hn, h0⟩ := not_bounded hb
    have := (sizeLoop_neg e.shape 1 (by omega)).mp (by rw [← Iter.size]; omega) n hn
    omega
  obtain ⟨s, hs⟩ := hasShape_of_bounded hwf hb
  refine h ⟨s, hs, ?_⟩
  rw [size_eq hs.bounded, hs.natShape] at h1
  omega

/-- C56. `concrete(e)` when the rank is 0 is the value of the element. -/
theorem C56_value (e : Iter (Act V) (Lv V)) (h : HasShape e []) (x : V) (μ : Mem V) (hx : Reads μ (elem e []) x) : concreteValue e μ = (.ok x, μ) := by
  unfold concreteValue
  rw [C63_scalar e [] h rfl [] trivial]
  exact hx

/-! ## C34 -/

/-- Following a nested list reaches an element. -/
theorem follow_some : (r : Nat) → (x : Braces V r) → (s : List Nat) → Nested r x s → ∀ j, Valid s j → (follow r x j).isSome
  | 0, x, s, h, j, hj => by
    simp only [Nested] at h
    subst h
    match j, hj with
    | [], _ => rfl
  | r+1, x, s, h, j, hj => by
    obtain ⟨n, s', rfl, hl, hn⟩ := h
    match j, hj with
    | i :: j, ⟨h1, h2, hj⟩ =>
      simp only [follow]
      rw [if_neg (by omega)]
      have hi : i.toNat < (show List (Braces V r) from x).length := by omega
      rw [List.getElem?_eq_getElem hi]
      exact follow_some r _ s' (hn _ (List.getElem_mem hi)) j hj

theorem listIter_shape {m : Type → Type} {α β : Type} [Monad m] [MonadFault m] (g : β → α) (l : List β) : HasShape (listIter (m := m) g l) [some l.length] :=
  .cons rfl .nil

theorem listIter_elem {m : Type → Type} {α β : Type} [Monad m] [MonadFault m] (g : β → α) (l : List β) (i : Nat) (hi : i < l.length) (j : List Int) :
    elem (listIter (m := m) g l) ((i : Int) :: j) = pure (g l[i]) := by
  simp only [listIter, elem, List.map_cons, List.map_nil, dot_cons, dot_nil]
  simp [hi]

theorem merge_len {n m : Nat} (h : n ≠ m) (s : List Length) : ¬ Merge [[some n], [some m]] s := by
  intro hm
  have h1 := (hm.2.2 0 n).mpr ⟨[some n], by simp, rfl⟩
  have h2 := (hm.2.2 0 m).mpr ⟨[some m], by simp, rfl⟩
  rw [h1] at h2
  simp at h2
  exact h h2

/-- Assign a list. -/
theorem assign_list (dyn : Bool) (z : List Int) (hz : ∀ i ∈ z, i = 0) (v : View) (xs : List V) (hv : Shaped v [some xs.length]) (hd : Distinct v [xs.length]) (μ : Mem V)
    (hm : ∀ j, Valid [xs.length] j → (μ (address v j)).isSome) : ∃ μ', assign dyn z v.refs (listIter Lv.val xs) μ = (.ok (), μ') ∧
      (∀ i : Nat, i < xs.length → μ' (address v [(i : Int)]) = xs[i]?) ∧ SameOutside (InView v [xs.length]) μ μ' := by
  have hsh := listIter_shape (m := Act V) Lv.val xs
  by_cases hV : Nonempty V
  · obtain ⟨x0⟩ := hV
    have hg : ∀ j, Valid [xs.length] j → ∃ (i : Nat) (_ : i < xs.length), j = [(i : Int)] := by
      intro j hj
      obtain ⟨i, rfl, h1, h2⟩ := valid_one.mp hj
      exact ⟨i.toNat, by omega, by simp [h1]⟩
    obtain ⟨μ', h1, h2, h3⟩ := C27_view dyn z hz v [xs.length] hv hd (listIter Lv.val xs) [some xs.length] hsh (merge_same _) μ hm
      (fun j => xs.getD (j.getD 0 0).toNat x0) (by
        intro j hj μ' _
        obtain ⟨i, hi, rfl⟩ := hg j hj
        rw [listIter_elem Lv.val _ i hi]
        simp [List.getD_eq_getElem?_getD, hi, Reads, Lv.get, act_pure])
    refine ⟨μ', h1, ?_, h3⟩
    intro i hi
    rw [h2 _ (valid_one.mpr ⟨i, rfl, by omega, by omega⟩)]
    simp [List.getD_eq_getElem?_getD, hi]
  · have hx : xs = [] := by
      cases xs with
      | nil => rfl
      | cons y _ => exact absurd ⟨y⟩ hV
    subst hx
    refine ⟨μ, ?_, by simp, fun _ _ => rfl⟩
    unfold assign
    rw [run_forAll dyn z hz _ v.refs _ _ _ [0] (refs_shape hv) hsh (merge_same _)]
    rfl

/-- Both outcomes of assigning a nested list. -/
theorem braces_both (dyn : Nat → Bool) (z : Nat → List Int) (hz : ∀ n, ∀ i ∈ z n, i = 0) : (r : Nat) → (v : View) → (s : List Nat) → s.length = r →
    Shaped v (s.map some) → Distinct v s → (x : Braces V r) → (μ : Mem V) → (∀ j, Valid s j → (μ (address v j)).isSome) →
    (Nested r x s → ∃ μ', assignBraces dyn z r v x μ = (.ok (), μ') ∧ (∀ j, Valid s j → μ' (address v j) = follow r x j) ∧ SameOutside (InView v s) μ μ') ∧
    (¬ Nested r x s → ∃ μ', assignBraces dyn z r v x μ = (.error .check, μ') ∧ SameOutside (InView v s) μ μ')
  | 0, v, s, hl, hv, hd, x, μ, hm => by
    have hs : s = [] := List.length_eq_zero_iff.mp hl
    subst hs
    refine ⟨fun _ => ?_, fun h => absurd rfl h⟩
    obtain ⟨μ', h1, h2, h3⟩ := C27_view (dyn 0) (z 0) (hz 0) v [] hv hd (.scalar (pure (.val (show V from x)))) [] rfl (merge_same []) μ hm (fun _ => x)
      fun j _ μ' _ => reads_scalar μ' x j
    refine ⟨μ', h1, ?_, h3⟩
    intro j hj
    match j, hj with
    | [], _ => exact h2 [] trivial
  | 1, v, s, hl, hv, hd, x, μ, hm => by
    obtain ⟨n, rfl⟩ := List.length_eq_one_iff.mp hl
    constructor
    · rintro ⟨n', s', he, hx, hn⟩
      obtain ⟨rfl, rfl⟩ : n = n' ∧ s' = [] := by simpa using he
      subst hx
      obtain ⟨μ', h1, h2, h3⟩ := assign_list (dyn 1) (z 1) (hz 1) v (show List V from x) hv hd μ hm
      refine ⟨μ', h1, ?_, h3⟩
      intro j hj
      obtain ⟨i, rfl, h4, h5⟩ := valid_one.mp hj
      have := h2 i.toNat (by show _ < (show List (Braces V 0) from x).length; omega)
      rw [Int.toNat_of_nonneg h4] at this
      rw [this]
      simp only [follow]
      rw [if_neg (by omega)]
      exact (Option.bind_fun_some _).symm
    · intro h
      refine ⟨μ, (C27_reject (dyn 1) (z 1) v.refs _ _ _ (refs_shape hv) (listIter_shape Lv.val (show List V from x)) ?_ μ fun a _ => a).1, fun _ _ => rfl⟩
      rintro ⟨s, hs⟩
      refine merge_len ?_ _ hs
      intro hn
      exact h ⟨n, [], rfl, hn.symm, fun _ _ => rfl⟩
  | r+2, v, s, hl, hv, hd, x, μ, hm => by
    obtain ⟨n, s', rfl⟩ := List.exists_cons_of_length_eq_add_one hl
    obtain ⟨d, ds, hdim⟩ : ∃ d ds, v.dims = d :: ds := by
      cases h : v.dims with
      | nil => simp [Shaped, h] at hv
      | cons d ds => exact ⟨d, ds, rfl⟩
    have hv' : DimLen d (some n) ∧ List.Forall₂ DimLen ds (s'.map some) := by
      simp only [Shaped, hdim, List.map_cons, List.forall₂_cons] at hv
      exact hv
    have hlen : ds.length = s'.length := by simpa using hv'.2.length_eq
    simp only [List.length_cons] at hl
    have hcell : v.cell (-1) = .ok ([d], ds) := by
      simp only [View.cell, rankCell, hdim, List.length_cons]
      rw [if_neg (by omega : ¬ (-1 : Int) ≥ 0), if_neg (by omega), if_pos (by omega)]
      have : (((ds.length + 1 : Nat) : Int) - (((ds.length + 1 : Nat) : Int) + -1)).toNat = 1 := by omega
      rw [this]
      rfl
    let xs : List (Braces V (r+1)) := x
    let cells : Iter (Act V) (View ⊕ Braces V (r+1)) := .cell [d] v.cp fun p => pure (.inl ⟨ds, p⟩)
    let op : List (View ⊕ Braces V (r+1)) → Act V (View ⊕ Braces V (r+1)) := fun xs => match xs with
      | [.inl w, .inr y] => do
        assignBraces dyn z (r+1) w y
        pure (.inl w)
      | _ => fault .abort
    have hrun : assignBraces dyn z (r+2) v x μ = (do let _ ← ply (β := Unit) (dyn (r+2)) never (z (r+2)) (.node (mapOp op) [cells, listIter Sum.inr xs]); pure ()) μ := by
      simp only [assignBraces, hcell]
      rfl
    rw [hrun]
    have hcs : HasShape cells [some n] := .cons hv'.1 .nil
    have haddr : ∀ (i : Int) (j : List Int), address (⟨ds, v.cp + dot [d.step] [i]⟩ : View) j = address v (i :: j) := by
      intro i j
      simp only [address, hdim, List.map_cons, dot_cons, dot_nil]
      ring
    by_cases hn : xs.length = n
    · have hls := listIter_shape (m := Act V) (α := View ⊕ Braces V (r+1)) Sum.inr xs
      rw [hn] at hls
      have hgo : (do let _ ← ply (β := Unit) (dyn (r+2)) never (z (r+2)) (.node (mapOp op) [cells, listIter Sum.inr xs]); pure () : Act V Unit) =
          forAll (fun j => mapOp op [elem cells j, elem (listIter Sum.inr xs) j]) (rowMajor [n]) := by
        rw [ply_never (dyn (r+2)) _ [n] (shape_two hcs hls (merge_same _)) (z (r+2)) (hz _)]
        simp only [elem, elems, bind_assoc, pure_bind]
        exact bind_pure_unit
      rw [hgo, rowMajor_one]
      have hone : ∀ (i : Nat) (hi : i < xs.length) (μ1 : Mem V) (μ2 : Mem V) (e : Except Fault Unit),
          assignBraces dyn z (r+1) ⟨ds, v.cp + dot [d.step] [(i : Int)]⟩ xs[i] μ1 = (e, μ2) →
          mapOp op [elem cells [(i : Int)], elem (listIter Sum.inr xs) [(i : Int)]] μ1 = (e.map fun _ => .inl ⟨ds, v.cp + dot [d.step] [(i : Int)]⟩, μ2) := by
        intro i hi μ1 μ2 e h
        rw [mapM_two, listIter_elem Sum.inr xs i hi]
        simp only [cells, elem, List.map_cons, List.map_nil, pure_bind, op]
        rw [act_bind, h]
        cases e <;> rfl
      have hsub : ∀ i : Nat, i < n → ∀ j, Valid s' j → Valid (n :: s') ((i : Int) :: j) := fun i hi j hj => ⟨by omega, by omega, hj⟩
      have hdist : ∀ i : Nat, i < n → Distinct ⟨ds, v.cp + dot [d.step] [(i : Int)]⟩ s' := by
        intro i hi j k hj hk h
        rw [haddr, haddr] at h
        simpa using hd _ _ (hsub i hi j hj) (hsub i hi k hk) h
      have key : ∀ (l : List Nat), l.Nodup → (∀ i ∈ l, i < n) → ∀ μ1 : Mem V, (∀ j, Valid (n :: s') j → (μ1 (address v j)).isSome) →
          ((∀ i ∈ l, ∀ y, xs[i]? = some y → Nested (r+1) y s') →
            ∃ μ', forAll (fun j => mapOp op [elem cells j, elem (listIter Sum.inr xs) j]) (l.map fun (k : Nat) => [(k : Int)]) μ1 = (.ok (), μ') ∧
              (∀ i ∈ l, ∀ j, Valid s' j → μ' (address v ((i : Int) :: j)) = follow (r+2) x ((i : Int) :: j)) ∧
              SameOutside (fun p => ∃ i ∈ l, ∃ j, Valid s' j ∧ p = address v ((i : Int) :: j)) μ1 μ') ∧
          ((¬ ∀ i ∈ l, ∀ y, xs[i]? = some y → Nested (r+1) y s') →
            ∃ μ', forAll (fun j => mapOp op [elem cells j, elem (listIter Sum.inr xs) j]) (l.map fun (k : Nat) => [(k : Int)]) μ1 = (.error .check, μ') ∧
              SameOutside (InView v (n :: s')) μ1 μ') := by
        intro l
        induction l with
        | nil =>
          intro _ _ μ1 _
          exact ⟨fun _ => ⟨μ1, rfl, by simp, fun _ _ => rfl⟩, fun h => absurd (by simp) h⟩
        | cons i l ih =>
          intro hnd hl μ1 hm1
          rw [List.nodup_cons] at hnd
          have hi : i < n := hl i (by simp)
          have hi' : i < xs.length := by omega
          have hb := braces_both dyn z hz (r+1) ⟨ds, v.cp + dot [d.step] [(i : Int)]⟩ s' (by omega) hv'.2 (hdist i hi) xs[i] μ1
            fun j hj => by rw [haddr]; exact hm1 _ (hsub i hi j hj)
          have hin : ∀ p, InView ⟨ds, v.cp + dot [d.step] [(i : Int)]⟩ s' p → InView v (n :: s') p := by
            rintro p ⟨j, hj, rfl⟩
            exact ⟨_, hsub i hi j hj, haddr _ _⟩
          by_cases hnest : Nested (r+1) xs[i] s'
          · obtain ⟨μ2, h1, h2, h3⟩ := hb.1 hnest
            have hfol : ∀ j, Valid s' j → μ2 (address v ((i : Int) :: j)) = follow (r+2) x ((i : Int) :: j) := by
              intro j hj
              rw [← haddr, h2 j hj]
              simp only [follow]
              rw [if_neg (by omega)]
              have : (show List (Braces V (r+1)) from x)[(i : Int).toNat]? = some xs[i] := by
                rw [Int.toNat_natCast]
                exact List.getElem?_eq_getElem hi'
              rw [this]
              rfl
            have hm2 : ∀ j, Valid (n :: s') j → (μ2 (address v j)).isSome := by
              intro j hj
              by_cases hp : InView ⟨ds, v.cp + dot [d.step] [(i : Int)]⟩ s' (address v j)
              · obtain ⟨k, hk, hp⟩ := hp
                rw [hp, h2 k hk]
                exact follow_some (r+1) _ s' hnest k hk
              · rw [h3 _ hp]
                exact hm1 j hj
            have hih := ih hnd.2 (fun k hk => hl k (by simp [hk])) μ2 hm2
            have hstep : ∀ rest, forAll (fun j => mapOp op [elem cells j, elem (listIter Sum.inr xs) j]) ([(i : Int)] :: rest) μ1 =
                forAll (fun j => mapOp op [elem cells j, elem (listIter Sum.inr xs) j]) rest μ2 := by
              intro rest
              rw [forAll, act_bind_ok (hone i hi' μ1 μ2 _ h1)]
            constructor
            · intro hall
              obtain ⟨μ3, g1, g2, g3⟩ := hih.1 fun k hk => hall k (by simp [hk])
              refine ⟨μ3, ?_, ?_, ?_⟩
              · rw [List.map_cons, hstep, g1]
              · intro k hk j hj
                rcases List.mem_cons.mp hk with rfl | hk
                · rw [g3, hfol j hj]
                  rintro ⟨k', hk', j', hj', he⟩
                  have := hd _ _ (hsub k hi j hj) (hsub k' (hl k' (by simp [hk'])) j' hj') he
                  simp only [List.cons.injEq, Nat.cast_inj] at this
                  exact hnd.1 (this.1 ▸ hk')
                · exact g2 k hk j hj
              · intro p hp
                rw [g3 p fun ⟨k, hk, j, hj, he⟩ => hp ⟨k, by simp [hk], j, hj, he⟩, h3 p]
                rintro ⟨j, hj, rfl⟩
                exact hp ⟨i, by simp, j, hj, haddr _ _⟩
            · intro hall
              obtain ⟨μ3, g1, g2⟩ := hih.2 (by
                intro hall'
                refine hall fun k hk y hy => ?_
                rcases List.mem_cons.mp hk with rfl | hk
                · rw [List.getElem?_eq_getElem hi', Option.some.injEq] at hy
                  exact hy ▸ hnest
                · exact hall' k hk y hy)
              refine ⟨μ3, ?_, fun p hp => ?_⟩
              · rw [List.map_cons, hstep, g1]
              · rw [g2 p hp, h3 p fun h => hp (hin p h)]
          · obtain ⟨μ2, h1, h3⟩ := hb.2 hnest
            constructor
            · intro hall
              exact absurd (hall i (by simp) _ (List.getElem?_eq_getElem hi')) hnest
            · intro _
              refine ⟨μ2, ?_, fun p hp => h3 p fun h => hp (hin p h)⟩
              rw [List.map_cons, forAll, act_bind, hone i hi' μ1 μ2 _ h1]
              rfl
      have hk := key (List.range n) List.nodup_range (fun i hi => List.mem_range.mp hi) μ hm
      have hiff : Nested (r+2) x (n :: s') ↔ ∀ i ∈ List.range n, ∀ y, xs[i]? = some y → Nested (r+1) y s' := by
        constructor
        · rintro ⟨n', s'', he, _, hall⟩ i _ y hy
          simp only [List.cons.injEq] at he
          rw [he.2]
          exact hall y (List.mem_of_getElem? hy)
        · intro hall
          refine ⟨n, s', rfl, hn, fun y hy => ?_⟩
          obtain ⟨i, hi, rfl⟩ := List.mem_iff_getElem.mp hy
          exact hall i (List.mem_range.mpr (hn ▸ hi)) _ (List.getElem?_eq_getElem hi)
      rw [hiff]
      refine ⟨fun h => ?_, fun h => hk.2 h⟩
      obtain ⟨μ', h1, h2, h3⟩ := hk.1 h
      refine ⟨μ', h1, ?_, ?_⟩
      · intro j hj
        match j, hj with
        | i :: j, ⟨h4, h5, hj⟩ =>
          have := h2 i.toNat (List.mem_range.mpr (by omega)) j hj
          rwa [Int.toNat_of_nonneg h4] at this
      · intro p hp
        refine h3 p ?_
        rintro ⟨i, hi, j, hj, rfl⟩
        exact hp ⟨_, hsub i (List.mem_range.mp hi) j hj, rfl⟩
    · refine ⟨fun ⟨n', s'', he, hx, _⟩ => absurd (hx.trans (by simp at he; exact he.1.symm)) hn, fun _ => ⟨μ, ?_, fun _ _ => rfl⟩⟩
      obtain ⟨h1, h2, _⟩ := C03_rejects (β := Unit) never (mapOp op) [cells, listIter Sum.inr xs] _ ⟨_, _, rfl, hcs, _, _, rfl, listIter_shape Sum.inr xs, rfl⟩ (by simp)
        (by rintro ⟨s, hs⟩; exact merge_len (fun h => hn h.symm) _ hs) (z (r+2))
      unfold ply
      rw [h1, h2]
      cases dyn (r+2) <;> rfl

/-- C34. `v = {{...}, ...}` where the nested list has the shape of the view: each element of the view is what's found by following the list with its index, and other
memory is as it was. -/
theorem C34_assign (dyn : Nat → Bool) (z : Nat → List Int) (hz : ∀ n, ∀ i ∈ z n, i = 0) (v : View) (s : List Nat) (hv : Shaped v (s.map some)) (hd : Distinct v s)
    (x : Braces V s.length) (hx : Nested s.length x s) (μ : Mem V) (hm : ∀ j, Valid s j → (μ (address v j)).isSome) :
    ∃ μ', assignBraces dyn z s.length v x μ = (.ok (), μ') ∧ (∀ j, Valid s j → μ' (address v j) = follow s.length x j) ∧ SameOutside (InView v s) μ μ' :=
  (braces_both dyn z hz s.length v s rfl hv hd x μ hm).1 hx

/-- C34. If the nested list doesn't have the shape of the view, then the check fails. Elements of the view that come before may have been written. -/
theorem C34_assign_reject (dyn : Nat → Bool) (z : Nat → List Int) (hz : ∀ n, ∀ i ∈ z n, i = 0) (v : View) (s : List Nat) (hv : Shaped v (s.map some)) (hd : Distinct v s)
    (x : Braces V s.length) (hx : ¬ Nested s.length x s) (μ : Mem V) (hm : ∀ j, Valid s j → (μ (address v j)).isSome) :
    ∃ μ', assignBraces dyn z s.length v x μ = (.error .check, μ') ∧ SameOutside (InView v s) μ μ' :=
  (braces_both dyn z hz s.length v s rfl hv hd x μ hm).2 hx

/-- A shape that's good for a nested list is good for another of the same shape. -/
theorem nested_change : (r : Nat) → (x y : Braces V r) → (s t : List Nat) → Nested r x s → Nested r x t → Nested r y s → Nested r y t
  | 0, _, _, _, _, _, ht, _ => ht
  | r+1, x, y, _, _, ⟨n, s, rfl, hn, hs⟩, ⟨n', t, rfl, hn', ht⟩, ⟨n'', s'', he, hn'', hs''⟩ => by
    simp only [List.cons.injEq] at he
    obtain ⟨rfl, rfl⟩ := he
    refine ⟨n', t, rfl, by omega, fun w hw => ?_⟩
    have h0 : 0 < (show List (Braces V r) from x).length := by
      have := List.length_pos_of_mem hw
      omega
    exact nested_change r _ w s t (hs _ (List.getElem_mem h0)) (ht _ (List.getElem_mem h0)) (hs'' w hw)

/-- The shape is that of the first lists. -/
theorem bracesShape_nat : (r : Nat) → (x : Braces V r) → ∃ t : List Nat, bracesShape r x = t.map Nat.cast ∧ t.length = r ∧ (∀ k l : Nat, t[k]? = some 0 → k ≤ l → l < r → t[l]? = some 0) ∧
      ((∃ s, Nested r x s) → Nested r x t)
  | 0, x => ⟨[], rfl, rfl, by simp, fun _ => rfl⟩
  | r+1, x => by
    cases hx : (show List (Braces V r) from x) with
    | nil =>
      have hx' : x = ([] : List (Braces V r)) := hx
      subst hx'
      refine ⟨0 :: List.replicate r 0, ?_, by simp, ?_, fun _ => ⟨0, List.replicate r 0, rfl, rfl, by simp⟩⟩
      · simp [bracesShape]
      · intro k l _ _ hl
        rw [← List.replicate_succ, List.getElem?_replicate, if_pos hl]
    | cons y ys =>
      have hx' : x = (y :: ys : List (Braces V r)) := hx
      subst hx'
      obtain ⟨t, h1, h2, h3, h4⟩ := bracesShape_nat r y
      refine ⟨(ys.length + 1) :: t, ?_, by simp [h2], ?_, ?_⟩
      · simp [bracesShape, h1]
      · intro k l hk hkl hl
        rcases k with _ | k
        · simp at hk
        · obtain ⟨l, rfl⟩ : ∃ l', l = l' + 1 := ⟨l - 1, by omega⟩
          simp only [List.getElem?_cons_succ] at hk ⊢
          exact h3 k l hk (by omega) (by omega)
      · rintro ⟨s, n, s', rfl, hn, hall⟩
        have hy : Nested r y t := h4 ⟨s', hall y List.mem_cons_self⟩
        exact ⟨_, _, rfl, rfl, fun w hw => nested_change r y w s' t (hall y List.mem_cons_self) hy (hall w hw)⟩

theorem ofBraces_eq (rk : Option Nat) (o : Option Int) (fill : Nat → V) (dyn : Nat → Bool) (z : Nat → List Int) (r : Nat) (hr : r ≠ 1) (x : Braces V r) (μ : Mem V) :
    Arr.ofBraces rk o fill dyn z r x μ = Arr.andDo (Arr.create rk o fill (bracesShape r x) μ) fun a => assignBraces dyn z r a.view x := by
  match r, hr with
  | 0, _ => rfl
  | r+2, _ => rfl

/-- C34. `Array(x)` with a nested list that has a shape: a new array with that shape, whose elements are found by following the list with the index. -/
theorem C34_construct (rk : Option Nat) (b : Int) (fill : Nat → V) (dyn : Nat → Bool) (z : Nat → List Int) (hz : ∀ n, ∀ i ∈ z n, i = 0) (r : Nat) (hr : ∀ r', rk = some r' → r = r')
    (x : Braces V r) (hx : ∃ s, Nested r x s) (μ : Mem V) (hf : ∀ s, Nested r x s → Free μ b (size s)) :
    ∃ t a μ', Arr.ofBraces rk (some b) fill dyn z r x μ = (.ok a, μ') ∧ ListShape r x t ∧ a.rk = rk ∧ New a μ μ' t (follow r x) := by
  obtain ⟨t, h1, h2, h3, h4⟩ := bracesShape_nat r x
  have hn := h4 hx
  refine ⟨t, ?_⟩
  suffices ∃ a μ', Arr.ofBraces rk (some b) fill dyn z r x μ = (.ok a, μ') ∧ a.rk = rk ∧ New a μ μ' t (follow r x) by
    obtain ⟨a, μ', g1, g2, g3⟩ := this
    exact ⟨a, μ', g1, ⟨hn, h3⟩, g2, g3⟩
  have hr' : ∀ r', rk = some r' → t.length = r' := fun r' h => h2.trans (hr r' h)
  by_cases h : r = 1
  · subst h
    obtain ⟨n, s', rfl, hl, hn'⟩ := hn
    have hs' : s' = [] := by simpa using h2
    subst hs'
    have hl' : (show List V from x).length = size [n] := Eq.trans hl (by simp [size])
    obtain ⟨a, μ', g1, g2, g3⟩ := C55_array rk b fill [n] hr' (show List V from x) hl' μ (hf _ ⟨n, [], rfl, hl, hn'⟩)
    refine ⟨a, μ', ?_, g2, g3.cont, ?_, g3.fresh, g3.same⟩
    · show Arr.ofList rk (some b) fill (bracesShape 1 x) x μ = _
      rw [h1]
      exact g1
    · intro j hj
      rw [g3.elem j hj]
      obtain ⟨i, rfl, h5, h6⟩ := valid_one.mp hj
      simp only [follow, position, size, Nat.cast_one, mul_one, add_zero]
      rw [if_neg (by omega)]
      exact (Option.bind_fun_some _).symm
  · rw [ofBraces_eq _ _ _ _ _ r h, h1]
    refine andDo_ok hr' (hf t hn) (fun j hj => follow_some r x t hn j hj) ?_
    intro a μ1 hc _ _
    exact (braces_both dyn z hz r a.view t h2 (shaped_nat.mpr hc.lens) (container_distinct hc) x μ1 fun j hj => container_mem hc hj).1 hn

/-- C34. A ragged list is rejected, and the memory is as it was. -/
theorem C34_ragged (rk : Option Nat) (b : Int) (fill : Nat → V) (dyn : Nat → Bool) (z : Nat → List Int) (hz : ∀ n, ∀ i ∈ z n, i = 0) (r : Nat) (hr : ∀ r', rk = some r' → r = r')
    (x : Braces V r) (hx : ¬ ∃ s, Nested r x s) (μ : Mem V) (hf : ∀ n, Free μ b n) :
    Arr.ofBraces rk (some b) fill dyn z r x μ = (.error .check, μ) := by
  obtain ⟨t, h1, h2, _, _⟩ := bracesShape_nat r x
  have h : r ≠ 1 := by
    rintro rfl
    exact hx ⟨[(show List (Braces V 0) from x).length], _, [], rfl, rfl, fun _ _ => rfl⟩
  rw [ofBraces_eq _ _ _ _ _ r h, h1]
  refine andDo_error (fun r' h => h2.trans (hr r' h)) (hf _) ?_
  intro a μ1 hc _ _
  exact (braces_both dyn z hz r a.view t h2 (shaped_nat.mpr hc.lens) (container_distinct hc) x μ1 fun j hj => container_mem hc hj).2 fun hn => hx ⟨t, hn⟩

end

/-! ## C29, products that make their result -/

section
variable {V : Type}

theorem known_values {μ μ1 : Mem V} {a : Arr} {t : List Nat} {g : List Int → Option V} (hn : New a μ μ1 t g) {e : Iter (Act V) (Lv V)} {s : List Nat} {f : List Int → V}
    (h : Known μ e s f) : Values (InView a.view t) μ1 e s f := by
  refine ⟨h.1, fun j hj => ?_⟩
  obtain ⟨r, hr⟩ := h.2 j hj
  refine ⟨r, fun μ' hs => hr μ' ?_⟩
  intro p hp
  have ho : ¬ Owns a p := fun ho => hp (hn.fresh p ho)
  rw [hs p, hn.same p ho]
  rintro ⟨k, hk, rfl⟩
  exact ho (container_owns hn.cont hk)

theorem new_again {a : Arr} {μ μ1 μ2 : Mem V} {s : List Nat} {g f : List Int → Option V} (h : New a μ μ1 s g) (hf : ∀ j, Valid s j → (f j).isSome)
    (h2 : ∀ j, Valid s j → μ2 (address a.view j) = f j) (hs : SameOutside (InView a.view s) μ1 μ2) : New a μ μ2 s f := by
  refine new_of (e := ⟨a.rk, [], 0, 0⟩) rfl h.cont ⟨?_, ?_, ?_⟩ hf h2 hs
  · intro p _ hp
    exact h.same p hp
  · intro p hp
    exact .inr (h.fresh p hp)
  · intro p hp
    simp only [Owns] at hp
    omega

theorem new_release {a : Arr} {μ μ1 : Mem V} {s : List Nat} {g : List Int → Option V} (h : New a μ μ1 s g) : μ1.move a a.base 0 (fun _ => none) = μ := by
  funext p
  simp only [Mem.move]
  rw [if_neg (by omega)]
  split
  · next hp => exact (h.fresh p hp).symm
  · next hp => exact h.same p hp

theorem merge_nil (s : List Length) : Merge [s, []] s := by
  refine ⟨by simp, ⟨s, by simp, rfl⟩, by simp⟩

/-- `with_shape(s, x)` with a scalar. -/
theorem zeros_new (rk : Option Nat) (b : Int) (fill : Nat → V) (dyn : Bool) (z : List Int) (hz : ∀ i ∈ z, i = 0) (t : List Nat) (hr : ∀ r, rk = some r → t.length = r) (x : V)
    (μ : Mem V) (hf : Free μ b (size t)) : ∃ a μ', Arr.ofExpr rk (some b) fill dyn z (t.map Nat.cast) (.scalar (pure (.val x))) μ = (.ok a, μ') ∧ a.rk = rk ∧
      New a μ μ' t fun _ => some x := by
  refine C56_shape rk b fill dyn z hz t hr (.scalar (pure (.val x))) [] (fun _ => x) μ ⟨rfl, fun j _ => ⟨.val x, fun μ' _ => ⟨rfl, rfl⟩⟩⟩ (merge_nil _) hf

variable [Add V] [Mul V] [Zero V]

/-- C29. `gemm(a, b)` makes a new array with the product. -/
theorem C29_gemm_new (o : Int) (fill : Nat → V) (dyn dyn' : Bool) (z z' : List Int) (hz : ∀ i ∈ z, i = 0) (hz' : ∀ i ∈ z', i = 0) (I K J : Nat) (a : Iter (Act V) (Lv V)) (b : View)
    (μ : Mem V) (va vb : List Int → V) (ha : Known μ a [I, K] va) (hb : Known μ b.refs [K, J] vb) (hf : Free μ o (I * J)) :
    ∃ c μ', gemmNew (some o) fill dyn dyn' z z' a b μ = (.ok c, μ') ∧ c.rk = some 2 ∧
      New c μ μ' [I, J] fun i => some (accum 0 K fun k => va [i.getD 0 0, k] * vb [k, i.getD 1 0]) := by
  have h0 : a.len 0 = (I : Int) := ha.1.fits.len (k := 0) (o := some I) rfl
  have h1 : lenOf b.dims 1 = (J : Int) := by obtain ⟨s, t, e⟩ := view_two hb.1; rw [e]; rfl
  obtain ⟨c, μ1, g1, g2, g3⟩ := zeros_new (some 2) o fill dyn' z' hz' [I, J] (by simp) 0 μ (by simpa [size] using hf)
  obtain ⟨μ2, k1, k2, k3⟩ := C29_gemm_slice dyn z hz I K J a b c.view μ1 va vb (fun _ => 0) (shaped_nat.mpr g3.cont.lens) (container_distinct g3.cont) g3.elem
    (known_values g3 ha) (known_values g3 hb)
  refine ⟨c, μ2, ?_, g2, new_again g3 (fun _ _ => rfl) ?_ k2⟩
  · unfold gemmNew
    rw [h0, h1]
    have : Arr.ofExpr (some 2) (some o) fill dyn' z' [(I : Int), (J : Int)] (.scalar (pure (.val 0))) μ = (.ok c, μ1) := g1
    rw [this]
    simp only [Arr.andDo, k1]
  · intro j hj
    obtain ⟨i, l, rfl, h3, h4, h5, h6⟩ := valid_two.mp hj
    exact k3 i l hj

/-- C29. If the columns of `a` aren't as many as the rows of `b`, the check fails, and the memory is as it was. -/
theorem C29_gemm_new_reject (o : Int) (fill : Nat → V) (dyn dyn' : Bool) (z z' : List Int) (hz' : ∀ i ∈ z', i = 0) (I K K' J : Nat) (a : Iter (Act V) (Lv V)) (b : View)
    (μ : Mem V) (ha : HasShape a [some I, some K]) (hb : Shaped b [some K', some J]) (hf : Free μ o (I * J)) (h : K ≠ K') :
    gemmNew (some o) fill dyn dyn' z z' a b μ = (.error .check, μ) := by
  have h0 : a.len 0 = (I : Int) := ha.fits.len (k := 0) (o := some I) rfl
  have h1 : lenOf b.dims 1 = (J : Int) := by obtain ⟨s, t, e⟩ := view_two hb; rw [e]; rfl
  obtain ⟨c, μ1, g1, g2, g3⟩ := zeros_new (some 2) o fill dyn' z' hz' [I, J] (by simp) 0 μ (by simpa [size] using hf)
  unfold gemmNew
  rw [h0, h1]
  have : Arr.ofExpr (some 2) (some o) fill dyn' z' [(I : Int), (J : Int)] (.scalar (pure (.val 0))) μ = (.ok c, μ1) := g1
  rw [this]
  simp only [Arr.andDo, C29_gemm_slice_reject dyn z I K K' J I J a b c.view μ1 ha hb (shaped_nat.mpr g3.cont.lens) (.inl h)]
  rw [new_release g3]

/-- C29. `gemv(a, b)` makes a new array with the product. -/
theorem C29_gemv_new (o : Int) (fill : Nat → V) (dyn dyn' : Bool) (z z' : List Int) (hz : ∀ i ∈ z, i = 0) (hz' : ∀ i ∈ z', i = 0) (I K : Nat) (a : Iter (Act V) (Lv V)) (b : View)
    (μ : Mem V) (va vb : List Int → V) (ha : Known μ a [I, K] va) (hb : Known μ b.refs [K] vb) (hf : Free μ o I) :
    ∃ c μ', gemvNewB (some o) fill dyn dyn' z z' a b μ = (.ok c, μ') ∧ c.rk = some 1 ∧
      New c μ μ' [I] fun i => some (accum 0 K fun k => va [i.getD 0 0, k] * vb [k]) := by
  have h0 : a.len 0 = (I : Int) := ha.1.fits.len (k := 0) (o := some I) rfl
  obtain ⟨c, μ1, g1, g2, g3⟩ := zeros_new (some 1) o fill dyn' z' hz' [I] (by simp) 0 μ (by simpa [size] using hf)
  obtain ⟨μ2, k1, k2, k3⟩ := C29_gemv_b dyn z hz I K a b c.view.refs (address c.view) μ1 va vb (fun _ => 0)
    ⟨refs_shape (shaped_nat.mpr g3.cont.lens), container_distinct g3.cont, fun j _ μ' _ => refers_refs μ' c.view j⟩ g3.elem
    (known_values g3 ha) (known_values g3 hb)
  refine ⟨c, μ2, ?_, g2, new_again g3 (fun _ _ => rfl) ?_ k2⟩
  · unfold gemvNewB
    rw [h0]
    have : Arr.ofExpr (some 1) (some o) fill dyn' z' [(I : Int)] (.scalar (pure (.val 0))) μ = (.ok c, μ1) := g1
    rw [this]
    simp only [Arr.andDo, k1]
  · intro j hj
    obtain ⟨i, rfl, h3, h4⟩ := valid_one.mp hj
    exact k3 i hj

/-- C29. The same when `b` isn't a slice. -/
theorem C29_gemv_new_expr (o : Int) (fill : Nat → V) (dyn dyn' : Bool) (z z' : List Int) (hz : ∀ i ∈ z, i = 0) (hz' : ∀ i ∈ z', i = 0) (I K : Nat) (a : View) (b : Iter (Act V) (Lv V))
    (μ : Mem V) (va vb : List Int → V) (ha : Known μ a.refs [I, K] va) (hb : Known μ b [K] vb) (hf : Free μ o I) :
    ∃ c μ', gemvNewC (some o) fill dyn dyn' z z' a b μ = (.ok c, μ') ∧ c.rk = some 1 ∧
      New c μ μ' [I] fun i => some (accum 0 K fun k => va [i.getD 0 0, k] * vb [k]) := by
  have h0 : lenOf a.dims 0 = (I : Int) := by obtain ⟨s, t, e⟩ := view_two ha.1; rw [e]; rfl
  obtain ⟨c, μ1, g1, g2, g3⟩ := zeros_new (some 1) o fill dyn' z' hz' [I] (by simp) 0 μ (by simpa [size] using hf)
  obtain ⟨μ2, k1, k2, k3⟩ := C29_gemv_c dyn z hz I K a b c.view μ1 va vb (fun _ => 0) (shaped_nat.mpr g3.cont.lens) (container_distinct g3.cont) g3.elem
    (known_values g3 ha) (known_values g3 hb)
  refine ⟨c, μ2, ?_, g2, new_again g3 (fun _ _ => rfl) ?_ k2⟩
  · unfold gemvNewC
    rw [h0]
    have : Arr.ofExpr (some 1) (some o) fill dyn' z' [(I : Int)] (.scalar (pure (.val 0))) μ = (.ok c, μ1) := g1
    rw [this]
    simp only [Arr.andDo, k1]
  · intro j hj
    obtain ⟨i, rfl, h3, h4⟩ := valid_one.mp hj
    exact k3 i hj

/-- C29. `gevm(a, b)` makes a new array with the product. -/
theorem C29_gevm_new (o : Int) (fill : Nat → V) (dyn dyn' : Bool) (z z' : List Int) (hz : ∀ i ∈ z, i = 0) (hz' : ∀ i ∈ z', i = 0) (K J : Nat) (a b : Iter (Act V) (Lv V))
    (μ : Mem V) (va vb : List Int → V) (ha : Known μ a [K] va) (hb : Known μ b [K, J] vb) (hf : Free μ o J) :
    ∃ c μ', gevmNew (some o) fill dyn dyn' z z' a b μ = (.ok c, μ') ∧ c.rk = some 1 ∧
      New c μ μ' [J] fun j => some (accum 0 K fun k => va [k] * vb [k, j.getD 0 0]) := by
  have h0 : b.len 1 = (J : Int) := hb.1.fits.len (k := 1) (o := some J) rfl
  obtain ⟨c, μ1, g1, g2, g3⟩ := zeros_new (some 1) o fill dyn' z' hz' [J] (by simp) 0 μ (by simpa [size] using hf)
  obtain ⟨μ2, k1, k2, k3⟩ := C29_gevm_c dyn z hz K J a b c.view μ1 va vb (fun _ => 0) (shaped_nat.mpr g3.cont.lens) (container_distinct g3.cont) g3.elem
    (known_values g3 ha) (known_values g3 hb)
  refine ⟨c, μ2, ?_, g2, new_again g3 (fun _ _ => rfl) ?_ k2⟩
  · unfold gevmNew
    rw [h0]
    have : Arr.ofExpr (some 1) (some o) fill dyn' z' [(J : Int)] (.scalar (pure (.val 0))) μ = (.ok c, μ1) := g1
    rw [this]
    simp only [Arr.andDo, k1]
  · intro j hj
    obtain ⟨i, rfl, h3, h4⟩ := valid_one.mp hj
    exact k3 i hj

/-- C29. If the lengths of the sum are different, the check fails, and the memory is as it was. -/
theorem C29_gemv_new_reject (o : Int) (fill : Nat → V) (dyn dyn' : Bool) (z z' : List Int) (hz' : ∀ i ∈ z', i = 0) (I K K' : Nat) (a : Iter (Act V) (Lv V)) (b : View)
    (μ : Mem V) (ha : HasShape a [some I, some K]) (hb : Shaped b [some K']) (hf : Free μ o I) (h : K ≠ K') :
    gemvNewB (some o) fill dyn dyn' z z' a b μ = (.error .check, μ) := by
  have h0 : a.len 0 = (I : Int) := ha.fits.len (k := 0) (o := some I) rfl
  obtain ⟨c, μ1, g1, g2, g3⟩ := zeros_new (some 1) o fill dyn' z' hz' [I] (by simp) 0 μ (by simpa [size] using hf)
  unfold gemvNewB
  rw [h0]
  have : Arr.ofExpr (some 1) (some o) fill dyn' z' [(I : Int)] (.scalar (pure (.val 0))) μ = (.ok c, μ1) := g1
  rw [this]
  simp only [Arr.andDo, C29_gemv_b_reject dyn z I K K' I a b c.view.refs μ1 ha hb (refs_shape (shaped_nat.mpr g3.cont.lens)) (.inl h)]
  rw [new_release g3]

/-- C29. The same when `b` isn't a slice. -/
theorem C29_gemv_new_expr_reject (o : Int) (fill : Nat → V) (dyn dyn' : Bool) (z z' : List Int) (hz' : ∀ i ∈ z', i = 0) (I K K' : Nat) (a : View) (b : Iter (Act V) (Lv V))
    (μ : Mem V) (ha : Shaped a [some I, some K]) (hb : HasShape b [some K']) (hf : Free μ o I) (h : K ≠ K') :
    gemvNewC (some o) fill dyn dyn' z z' a b μ = (.error .check, μ) := by
  have h0 : lenOf a.dims 0 = (I : Int) := by obtain ⟨s, t, e⟩ := view_two ha; rw [e]; rfl
  obtain ⟨c, μ1, g1, g2, g3⟩ := zeros_new (some 1) o fill dyn' z' hz' [I] (by simp) 0 μ (by simpa [size] using hf)
  unfold gemvNewC
  rw [h0]
  have : Arr.ofExpr (some 1) (some o) fill dyn' z' [(I : Int)] (.scalar (pure (.val 0))) μ = (.ok c, μ1) := g1
  rw [this]
  simp only [Arr.andDo, C29_gemv_c_reject dyn z I K K' I a b c.view μ1 ha hb (shaped_nat.mpr g3.cont.lens) (.inl h)]
  rw [new_release g3]

/-- C29. The same for `gevm(a, b)`. -/
theorem C29_gevm_new_reject (o : Int) (fill : Nat → V) (dyn dyn' : Bool) (z z' : List Int) (hz' : ∀ i ∈ z', i = 0) (K K' J : Nat) (a b : Iter (Act V) (Lv V))
    (μ : Mem V) (ha : HasShape a [some K]) (hb : HasShape b [some K', some J]) (hf : Free μ o J) (h : K ≠ K') :
    gevmNew (some o) fill dyn dyn' z z' a b μ = (.error .check, μ) := by
  have h0 : b.len 1 = (J : Int) := hb.fits.len (k := 1) (o := some J) rfl
  obtain ⟨c, μ1, g1, g2, g3⟩ := zeros_new (some 1) o fill dyn' z' hz' [J] (by simp) 0 μ (by simpa [size] using hf)
  unfold gevmNew
  rw [h0]
  have : Arr.ofExpr (some 1) (some o) fill dyn' z' [(J : Int)] (.scalar (pure (.val 0))) μ = (.ok c, μ1) := g1
  rw [this]
  simp only [Arr.andDo, C29_gevm_c_reject dyn z K K' J J a b c.view μ1 ha hb (shaped_nat.mpr g3.cont.lens) (.inl h)]
  rw [new_release g3]

end

/-! ## Examples -/

/-- Six elements at 0...5 in use. -/
def fillMem : Mem Int := fun p => if 0 ≤ p ∧ p < 6 then some (10 + p) else none

theorem fillMem_some {p : Int} (h : 0 ≤ p ∧ p < 6) : (fillMem p).isSome := by simp [fillMem, h]

theorem fillMem_free (n : Nat) : Free fillMem 100 n := fun i _ => by simp only [fillMem]; rw [if_neg (by omega)]

/-- A view of 2 rows and 3 columns, in column-major order. -/
def colV : View := ⟨[⟨2, 1⟩, ⟨3, 2⟩], 0⟩

theorem colV_shaped : Shaped colV ([2, 3].map some) := .cons rfl (.cons rfl .nil)

theorem colV_addr {j : List Int} (hj : Valid [2, 3] j) : ∃ a b, j = [a, b] ∧ 0 ≤ a ∧ a < 2 ∧ 0 ≤ b ∧ b < 3 ∧ address colV j = a + 2 * b := by
  obtain ⟨a, b, rfl, h1, h2, h3, h4⟩ := valid_two.mp hj
  exact ⟨a, b, rfl, h1, h2, h3, h4, by simp [address, colV, dot]; ring⟩

theorem colV_distinct : Distinct colV [2, 3] := by
  intro j k hj hk h
  obtain ⟨a, b, rfl, h1, h2, h3, h4, e⟩ := colV_addr hj
  obtain ⟨a', b', rfl, h1', h2', h3', h4', e'⟩ := colV_addr hk
  have : a = a' ∧ b = b' := by omega
  rw [this.1, this.2]

theorem colV_mem : ∀ j, Valid [2, 3] j → (fillMem (address colV j)).isSome := by
  intro j hj
  obtain ⟨a, b, rfl, h1, h2, h3, h4, e⟩ := colV_addr hj
  exact fillMem_some (by omega)

theorem colV_known : Known fillMem colV.refs [2, 3] fun j => 10 + address colV j := by
  refine ⟨colV_shaped, fun j hj => ⟨.ref (address colV j), fun μ' hs => ⟨rfl, ?_⟩⟩⟩
  obtain ⟨a, b, rfl, h1, h2, h3, h4, e⟩ := colV_addr hj
  have : fillMem (address colV [a, b]) = some (10 + address colV [a, b]) := by simp only [fillMem]; rw [if_pos (by omega)]
  have h := hs (address colV [a, b]) (by intro h; rw [this] at h; cases h)
  simp only [Lv.get, Act.read, h, this]

/-- C55: a list of 6 into a view with 2 rows and 3 columns, in column-major order. -/
example : ∃ μ', View.toRavel false false [1, 2, 3, 4, 5, 6] colV fillMem = (.ok (), μ') ∧ μ' (address colV [1, 0]) = some 4 := by
  obtain ⟨μ', h1, h2, _⟩ := C55_view false false [1, 2, 3, 4, 5, 6] colV [2, 3] colV_shaped colV_distinct rfl fillMem colV_mem
  exact ⟨μ', h1, h2 [1, 0] (by simp [Valid])⟩

example : View.toRavel false false [1, 2, 3, 4, 5] colV fillMem = (.error .check, fillMem) :=
  C55_view_reject false false [1, 2, 3, 4, 5] colV _ colV_shaped (by
    intro s h
    have : [2, 3] = s := List.map_injective_iff.mpr (Option.some_injective _) h
    subst this
    decide) fillMem

example : ∃ a μ', Arr.ofList none (some 100) (fun _ => 0) [2, 3] [1, 2, 3, 4, 5, 6] fillMem = (.ok a, μ') ∧ μ' (address a.view [1, 0]) = some 4 ∧ μ' 3 = some 13 := by
  obtain ⟨a, μ', h1, _, h3⟩ := C55_array none 100 (fun _ => (0 : Int)) [2, 3] (by simp) [1, 2, 3, 4, 5, 6] rfl fillMem (fillMem_free _)
  refine ⟨a, μ', h1, h3.elem [1, 0] (by simp [Valid]), ?_⟩
  rw [h3.same 3 fun h => by have := h3.fresh 3 h; simp [fillMem] at this]
  rfl

example : Arr.ofList (some 2) (some 100) (fun _ => 0) [2, 3] [1, 2, 3, 4, 5] fillMem = (.error .check, fillMem) := by
  refine C55_array_reject (some 2) 100 _ [2, 3] _ ?_ fillMem fun t _ => fillMem_free _
  rintro ⟨t, h1, _, h3⟩
  have : t = [2, 3] := (List.map_injective_iff.mpr Nat.cast_injective (show List.map Nat.cast [2, 3] = List.map Nat.cast t from h1)).symm
  subst this
  simp [size] at h3

example : ∃ a μ', Arr.ofPtr none (some 100) (fun _ => 0) [2, 2] 1 fillMem = (.ok a, μ') ∧ μ' (address a.view [1, 0]) = some 13 := by
  obtain ⟨a, μ', h1, _, h3⟩ := C55_pointer none 100 (fun _ => (0 : Int)) [2, 2] (by simp) 1 fillMem (fillMem_free _) fun i hi => fillMem_some (by simp [size] at hi; omega)
  exact ⟨a, μ', h1, h3.elem [1, 0] (by simp [Valid])⟩

/-- C56: `concrete` of a transposed view. -/
example : ∃ a μ', concreteBig (some 2) (some 100) (fun _ => 0) true [] colV.refs fillMem = (.ok a, μ') ∧ μ' (address a.view [1, 2]) = some 15 := by
  obtain ⟨a, μ', h1, _, h3⟩ := C56_big (some 2) 100 (fun _ => (0 : Int)) true [] (by simp) colV.refs [2, 3] (by simp) _ fillMem colV_known (fillMem_free _)
  exact ⟨a, μ', h1, h3.elem [1, 2] (by simp [Valid])⟩

/-- The shapes have to match: 2 by 3 with 3. -/
example : concreteBig (some 2) (some 100) (fun _ => 0) true [] (binaryOp (· + ·) colV.refs (View.refs ⟨[⟨3, 1⟩], 0⟩)) fillMem = (.error .check, fillMem) := by
  refine C56_big_reject (some 2) _ _ true [] _ (by simp [binaryOp, View.refs, Iter.WF, WFList, colV]) ?_ fillMem
  rintro ⟨s, ss, ⟨s1, _, rfl, h1, s2, _, rfl, h2, rfl⟩, h3⟩
  have e1 : s1 = [some 2, some 3] := hasShape_unique h1 colV_shaped
  have e2 : s2 = [some 3] := hasShape_unique h2 (.cons rfl .nil)
  subst e1 e2
  have h4 := (h3.2.2 0 2).mpr ⟨_, List.mem_cons_self, rfl⟩
  have h5 := (h3.2.2 0 3).mpr ⟨[some 3], by simp, rfl⟩
  rw [h4] at h5
  simp at h5

example : ∃ v μ', concreteSmall 0 false [] (.scalar (pure (.val 7))) fillMem = (.ok v, μ') ∧ μ' 0 = some 7 := by
  obtain ⟨v, μ', h1, _, h3, _⟩ := C56_small 0 false [] (by simp) (.scalar (pure (.val 7))) [] (fun _ => (7 : Int)) fillMem ⟨rfl, fun j _ => ⟨.val 7, fun μ' _ => ⟨rfl, rfl⟩⟩⟩
    fun i hi => fillMem_some (by simp [size] at hi; omega)
  obtain ⟨h4, h5⟩ := h3 [] trivial
  exact ⟨v, μ', h1, by rw [h4] at h5; exact h5⟩

/-- C63: a 1 by 1 view. -/
example : toScalar (View.refs ⟨[⟨1, 5⟩, ⟨1, 1⟩], 3⟩ : Iter (Act Int) (Lv Int)) = pure (.ref 3) :=
  C63_scalar _ [1, 1] (refs_shape (v := ⟨[⟨1, 5⟩, ⟨1, 1⟩], 3⟩) (s := [some 1, some 1]) (.cons rfl (.cons rfl .nil))) rfl [0, 0] (by simp [Valid])

example : toScalar (colV.refs : Iter (Act Int) (Lv Int)) = fault .check := by
  refine C63_reject _ (by simp [View.refs, Iter.WF, colV]) ?_
  rintro ⟨s, h, h1⟩
  have e := hasShape_unique h colV_shaped
  have : s = [2, 3] := List.map_injective_iff.mpr (Option.some_injective _) e
  subst this
  simp [size] at h1

/-- C34: a nested list of 2 rows and 3 columns. -/
def nest23 : Braces Int 2 := ([[1, 2, 3], [4, 5, 6]] : List (List Int))

theorem nest23_ok : Nested 2 nest23 [2, 3] := by
  refine ⟨2, [3], rfl, rfl, ?_⟩
  intro y hy
  have : y = ([1, 2, 3] : List Int) ∨ y = ([4, 5, 6] : List Int) := by
    have : y ∈ ([[1, 2, 3], [4, 5, 6]] : List (List Int)) := hy
    rcases List.mem_cons.mp this with h | h
    · exact .inl h
    · exact .inr (List.mem_singleton.mp h)
  rcases this with rfl | rfl <;> exact ⟨3, [], rfl, rfl, fun _ _ => rfl⟩

example : ∃ μ', assignBraces (fun _ => true) (fun _ => []) 2 colV nest23 fillMem = (.ok (), μ') ∧ μ' (address colV [1, 0]) = some 4 := by
  obtain ⟨μ', h1, h2, _⟩ := C34_assign (fun _ => true) (fun _ => []) (by simp) colV [2, 3] colV_shaped colV_distinct nest23 nest23_ok fillMem colV_mem
  exact ⟨μ', h1, h2 [1, 0] (by simp [Valid])⟩

example : ∃ t a μ', Arr.ofBraces (some 2) (some 100) (fun _ => 0) (fun _ => true) (fun _ => []) 2 nest23 fillMem = (.ok a, μ') ∧ Nested 2 nest23 t ∧ a.view.dims.map Dim.len = t.map Nat.cast := by
  obtain ⟨t, a, μ', h1, h2, _, h3⟩ := C34_construct (some 2) 100 (fun _ => (0 : Int)) (fun _ => true) (fun _ => []) (by simp) 2 (by simp) nest23 ⟨_, nest23_ok⟩ fillMem
    fun s _ => fillMem_free _
  exact ⟨t, a, μ', h1, h2.1, h3.cont.lens⟩

/-- The second row is empty. -/
def ragged : Braces Int 2 := ([[1, 2, 3], []] : List (List Int))

theorem ragged_bad (s : List Nat) : ¬ Nested 2 ragged s := by
  rintro ⟨n, s', rfl, hn, h⟩
  obtain ⟨n1, _, rfl, h1, _⟩ := h ([1, 2, 3] : List Int) (by show _ ∈ ([[1, 2, 3], []] : List (List Int)); simp)
  obtain ⟨n2, _, e, h2, _⟩ := h ([] : List Int) (by show _ ∈ ([[1, 2, 3], []] : List (List Int)); simp)
  simp only [List.cons.injEq] at e
  have h1 : 3 = n1 := h1
  have h2 : 0 = n2 := h2
  omega

example : Arr.ofBraces (some 2) (some 100) (fun _ => 0) (fun _ => true) (fun _ => []) 2 ragged fillMem = (.error .check, fillMem) :=
  C34_ragged (some 2) 100 (fun _ => (0 : Int)) _ _ (by simp) 2 (by simp) ragged (fun ⟨s, h⟩ => ragged_bad s h) fillMem fillMem_free

example : ∃ μ', assignBraces (fun _ => true) (fun _ => []) 2 colV ragged fillMem = (.error .check, μ') ∧ SameOutside (InView colV [2, 3]) fillMem μ' :=
  C34_assign_reject (fun _ => true) (fun _ => []) (by simp) colV [2, 3] colV_shaped colV_distinct ragged (ragged_bad _) fillMem colV_mem

/-- C29: the product of `colV` by its transpose. -/
example : ∃ c μ', gemvNewB (some 100) (fun _ => 0) true true [] [] colV.refs ⟨[⟨3, 1⟩], 0⟩ fillMem = (.ok c, μ') ∧ μ' (address c.view [1]) = some (11 * 10 + 13 * 11 + 15 * 12) := by
  obtain ⟨c, μ', h1, _, h3⟩ := C29_gemv_new 100 (fun _ => (0 : Int)) true true [] [] (by simp) (by simp) 2 3 colV.refs ⟨[⟨3, 1⟩], 0⟩ fillMem _ (fun j => 10 + j.getD 0 0) colV_known
    (by
      refine ⟨.cons rfl .nil, fun j hj => ?_⟩
      obtain ⟨i, rfl, h1, h2⟩ := valid_one.mp hj
      refine ⟨.ref i, fun μ' hs => ⟨by simp [elem_refs, address, dot]; rfl, ?_⟩⟩
      have : fillMem i = some (10 + i) := by simp only [fillMem]; rw [if_pos (by omega)]
      have h := hs i (by intro h; rw [this] at h; cases h)
      simp [Lv.get, Act.read, h, this]) (fillMem_free _)
  exact ⟨c, μ', h1, h3.elem [1] (by simp [Valid])⟩

end Ra.Props
