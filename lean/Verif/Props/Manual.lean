import Verif.Model.Manual
import Verif.Props.Matrix
import Verif.Props.Frame
import Verif.Props.ViewOps
import Verif.Props.Transpose
import Verif.Props.Chain
/-!
# Different ways to write the same operation: C95

From the manual, docs/ra-ra.texi.
-/

namespace Ra.Props
open Spec

section
variable {m : Type → Type} {α : Type}

/-! ## Views -/

/-- C95. `a(i, j, ...)` with one integer for each of the leading axes is the cell `at_view(a, {i, j, ...})`, and it's rejected in the same cases. Unbounded axes must be
constant (as those that `insert` makes), since `a(i)` isn't allowed on the others. -/
theorem C95_at_view (v : View) (i : List Int) (hi : i.length ≤ v.dims.length) (hu : ∀ d ∈ v.dims, d.len = UNB → d.step = 0) :
    v.atView i = v.from (i.map fun x => .scalar (.const x)) := by
  have key : ∀ (i : List Int) (pl : Int) (k : Nat) (dims : List Dim), i.length ≤ dims.length → (∀ d ∈ dims, d.len = UNB → d.step = 0) →
      fromb pl k dims (i.map fun x => Sub.scalar (.const x)) = (do
        let p ← indexLoop (dims.take i.length) pl i
        return (p, dims.drop i.length, [])) := by
    intro i
    induction i with
    | nil => intro pl k dims _ _; simp [fromb, indexLoop, bind, Except.bind, pure, Except.pure]
    | cons x i ih =>
      intro pl k dims h hu
      cases dims with
      | nil => simp at h
      | cons d dims =>
        have hc : (inside x d.len ∨ (UNB = d.len ∧ 0 = d.step)) ↔ (inside x d.len ∨ UNB = d.len) := by
          have := hu d (by simp)
          constructor
          · rintro (h | h)
            · exact .inl h
            · exact .inr h.1
          · rintro (h | h)
            · exact .inl h
            · exact .inr ⟨h, (this h.symm).symm⟩
        simp only [List.map_cons, fromb, List.length_cons, List.take_succ_cons, List.drop_succ_cons, indexLoop, LenExpr.wlen, LenExpr.val]
        simp only [bind, Except.bind]
        by_cases hb : inside x d.len ∨ UNB = d.len
        · rw [if_pos hb, if_pos (hc.mpr hb), ih _ _ _ (by simpa using h) (fun d hd => hu d (by simp [hd]))]
          rfl
        · rw [if_neg hb, if_neg (fun h => hb (hc.mp h))]
  have hc : v.cell ((v.dims.length : Int) - i.length) = .ok (v.dims.take i.length, v.dims.drop i.length) := by
    have e : rankCell v.dims.length ((v.dims.length : Int) - i.length) = (v.dims.length : Int) - i.length := by
      simp only [rankCell]; rw [if_pos (by omega)]
    simp only [View.cell, e]
    rw [if_neg (by omega), if_pos (by omega)]
    simp
  have hm : (i.length ≥ (v.dims.take i.length).length) := by simp
  simp only [View.atView, View.cellAt, hc, View.from, key i v.cp 0 v.dims hi hu, indexer, bind, Except.bind, if_pos hm, pure, Except.pure]
  cases indexLoop (v.dims.take i.length) v.cp i <;> rfl

/-- The condition on the unbounded axes: here `at_view(a, {2})` is the element at 2, but `a(2)` is rejected. -/
example : (⟨[⟨UNB, 3⟩], 0⟩ : View).atView [2] = .ok ⟨[], 6⟩ ∧ (⟨[⟨UNB, 3⟩], 0⟩ : View).from [.scalar (.const 2)] = .error .check := by decide +kernel

example : (⟨[⟨2, 3⟩, ⟨3, 1⟩], 0⟩ : View).atView [1] = .ok ⟨[⟨3, 1⟩], 3⟩ := by decide +kernel

/-- C95. The cells of `iter<c>(a)` are the views `a(i, j, ...)`. -/
theorem C95_cells [Monad m] (v : View) (s : List Length) (hv : Shaped v s) (hu : ∀ d ∈ v.dims, d.len = UNB → d.step = 0) (c : Int) (f : Nat)
    (hc : frameRank s.length c = f) (hf : f ≤ s.length) :
    ∃ e : Iter m View, v.cellIter c = .ok e ∧ HasShape e (s.take f) ∧
      ∀ i, i.length = f → InRange (s.take f) i → ∃ w, v.from (i.map fun x => .scalar (.const x)) = .ok w ∧ elem e i = pure w := by
  have hl := hv.length_eq
  have hcell : v.cell c = .ok (v.dims.take f, v.dims.drop f) := by
    simp only [frameRank] at hc
    have e : rankCell v.dims.length c = (v.dims.length : Int) - f := by
      simp only [rankCell]
      split at hc
      · rw [if_neg (by omega)]; omega
      · rw [if_pos (by omega)]; omega
    simp only [View.cell, e]
    rw [if_neg (by omega), if_pos (by omega)]
    simp
  refine ⟨.cell (v.dims.take f) v.cp fun p => pure ⟨v.dims.drop f, p⟩, ?_, List.forall₂_take f hv, ?_⟩
  · simp [View.cellIter, hcell, bind, Except.bind, pure, Except.pure]
  · rintro i rfl hr
    refine ⟨⟨v.dims.drop i.length, v.cp + dot ((v.dims.take i.length).map Dim.step) i⟩, ?_, rfl⟩
    rw [← C95_at_view v i (by omega) hu]
    have hcell' : v.cell ((v.dims.length : Int) - i.length) = .ok (v.dims.take i.length, v.dims.drop i.length) := by
      have e : rankCell v.dims.length ((v.dims.length : Int) - i.length) = (v.dims.length : Int) - i.length := by
        simp only [rankCell]; rw [if_pos (by omega)]
      simp only [View.cell, e]
      rw [if_neg (by omega), if_pos (by omega)]
      simp
    have hidx : indexer (v.dims.take i.length) v.cp i = .ok (v.cp + dot ((v.dims.take i.length).map Dim.step) i) := by
      simp only [indexer]
      rw [if_pos (by simp), indexLoop_ok _ _ (List.forall₂_take i.length hv) _ _ hr]
    simp only [View.atView, View.cellAt, hcell', bind, Except.bind, hidx]
    rfl

example : ∃ e : Iter (Except Fault) View, (⟨[⟨2, 3⟩, ⟨3, 1⟩], 0⟩ : View).cellIter 1 = .ok e ∧ HasShape e [some 2] ∧ elem e [1] = pure ⟨[⟨3, 1⟩], 3⟩ := by
  obtain ⟨e, h1, h2, h3⟩ := C95_cells (m := Except Fault) ⟨[⟨2, 3⟩, ⟨3, 1⟩], 0⟩ [some 2, some 3] (.cons rfl (.cons rfl .nil)) (by decide +kernel) 1 1 (by decide) (by decide)
  obtain ⟨w, h4, h5⟩ := h3 [1] rfl ⟨by decide, fun k n hk => by rcases k with _ | k <;> simp at hk; subst hk; decide⟩
  refine ⟨e, h1, h2, ?_⟩
  rw [h5]
  have : (⟨[⟨2, 3⟩, ⟨3, 1⟩], 0⟩ : View).from [.scalar (.const 1)] = .ok ⟨[⟨3, 1⟩], 3⟩ := by decide +kernel
  rw [List.map_cons, List.map_nil, this] at h4
  cases h4; rfl

/-- C95. Ways to write a view of the whole of `a`: `a()`, `a(dots<>)`, `a(dots<n>)` if `n` is the rank, `a(all, ...)`, and `a(iota(n0), ...)` with all the lengths given in full
or as `len`. -/
theorem C95_all (v : View) (s : List Nat) (hv : Shaped v (s.map some)) :
    v.from [] = .ok v ∧ v.from [.dots none] = .ok v ∧ v.from [.dots (some s.length)] = .ok v ∧
    v.from (List.replicate s.length (.dots (some 1))) = .ok v ∧
    v.from (s.map fun (n : Nat) => .iota [(.const n, .const 1)] (.const 0)) = .ok v ∧
    v.from (s.map fun _ => .iota [(.len, .const 1)] (.const 0)) = .ok v := by
  obtain ⟨dims, cp⟩ := v
  have hl : dims.length = s.length := by simpa using hv.length_eq
  have h1 : ∀ (n : Nat) (k : Nat) (dims : List Dim), dims.length = n → fromb cp k dims (List.replicate n (.dots (some 1))) = .ok (cp, dims, []) := by
    intro n
    induction n with
    | zero => intro k dims _; simp [fromb]
    | succ n ih =>
      intro k dims h
      cases dims with
      | nil => simp at h
      | cons d dims =>
        simp only [List.replicate_succ, fromb]
        rw [if_neg (by simp)]
        simp only [List.drop_succ_cons, List.drop_zero, List.take_succ_cons, List.take_zero]
        rw [ih _ _ (by simpa using h)]
        rfl
  have h2 : ∀ (s : List Nat) (e : Nat → LenExpr) (k : Nat) (dims : List Dim), List.Forall₂ DimLen dims (s.map some) →
      (∀ n : Nat, ((e n).wlen n).val = .ok (n : Int)) →
      fromb cp k dims (s.map fun (n : Nat) => Sub.iota [(e n, .const 1)] (.const 0)) = .ok (cp, dims, []) := by
    intro s e
    induction s with
    | nil =>
      intro k dims h _
      cases dims with
      | nil => simp [fromb]
      | cons d dims => cases h
    | cons n s ih =>
      intro k dims h he
      cases dims with
      | nil => cases h
      | cons d dims =>
        obtain ⟨l, st⟩ := d
        cases h with
        | cons hd ht =>
          simp only [DimLen] at hd
          subst hd
          simp only [List.map_cons, fromb, iotaDims, he, LenExpr.wlen, LenExpr.val, bind, Except.bind, pure, Except.pure]
          rw [if_neg (by simp)]
          simp only [iotaLoop]
          rw [if_pos (by
            by_cases h0 : n = 0
            · left; simp [h0]
            · right; simp only [inside_iff]; omega)]
          simp [bind, Except.bind, pure, Except.pure, ih _ dims ht he]
  refine ⟨rfl, ?_, ?_, ?_, ?_, ?_⟩
  · simp [View.from, fromb, bind, Except.bind, pure, Except.pure]
  · simp only [View.from, fromb]
    rw [if_neg (by omega), List.drop_of_length_le (by omega), List.take_of_length_le (by omega)]
    simp [bind, Except.bind, pure, Except.pure]
  · simp [View.from, h1 _ _ _ hl, bind, Except.bind, pure, Except.pure]
  · simp only [View.from]
    rw [h2 s (fun n => .const n) 0 dims hv (fun n => rfl)]
    rfl
  · simp only [View.from]
    rw [h2 s (fun _ => .len) 0 dims hv (fun n => rfl)]
    rfl

example : (⟨[⟨3, 2⟩, ⟨2, 1⟩], 0⟩ : View).from ([3, 2].map fun (n : Nat) => .iota [(.const n, .const 1)] (.const 0)) = .ok ⟨[⟨3, 2⟩, ⟨2, 1⟩], 0⟩ :=
  (C95_all ⟨[⟨3, 2⟩, ⟨2, 1⟩], 0⟩ [3, 2] (.cons rfl (.cons rfl .nil))).2.2.2.2.1

/-- C95. `reverse(a, k)` is `a(dots<k>, iota(len, len-1, -1))`. If the axis has length 0, then the pointer isn't the same, but there are no elements; else the views are the same, and
an unbounded axis is rejected by both. -/
theorem C95_reverse (v : View) (s : List Length) (hv : Shaped v s) (k : Nat) (n : Length) (hk : s[k]? = some n) :
    let is := [Sub.dots (some k), .iota [(.len, .const (-1))] (.map (fun xs => xs.headD 0 - 1) [.len])]
    (n ≠ some 0 → v.from is = v.reverse k) ∧
    (n = some 0 → ∃ r b, v.reverse k = .ok r ∧ v.from is = .ok b ∧ r.dims = b.dims) := by
  intro is
  obtain ⟨dims, cp⟩ := v
  have hl : dims.length = s.length := hv.length_eq
  have hks : k < s.length := by
    rw [List.getElem?_eq_some_iff] at hk
    exact hk.1
  obtain ⟨d, hd⟩ : ∃ d, dims[k]? = some d := ⟨dims[k], List.getElem?_eq_getElem (by omega)⟩
  have hdn : DimLen d n := by
    have := List.forall₂_iff_get.mp hv
    obtain ⟨h1, h1'⟩ := List.getElem?_eq_some_iff.mp hd
    obtain ⟨h2, h2'⟩ := List.getElem?_eq_some_iff.mp hk
    rw [← h1', ← h2']
    exact this.2 k h1 h2
  have hdrop : dims.drop k = d :: dims.drop (k+1) := by
    rw [← List.cons_getElem_drop_succ (h := by omega)]
    simp [(List.getElem?_eq_some_iff.mp hd).2]
  have hset : ∀ e, dims.set k e = dims.take k ++ e :: dims.drop (k+1) := by
    intro e
    rw [List.set_eq_take_append_cons_drop, if_pos (by omega)]
  obtain ⟨l, st⟩ := d
  have hU := UNB_val
  have hf : (⟨dims, cp⟩ : View).from is = (do
      let x ← fromb cp k (⟨l, st⟩ :: dims.drop (k+1)) [.iota [(.len, .const (-1))] (.map (fun xs => xs.headD 0 - 1) [.len])]
      return ⟨dims.take k ++ x.2.1, x.1⟩) := by
    have h1 : ∀ is', fromb cp 0 dims (.dots (some k) :: is') = (do
        let (pl, bv, ds) ← fromb cp (0 + k) (dims.drop k) is'
        return (pl, dims.take k ++ bv, ds)) := by
      intro is'
      rw [fromb]
      exact if_neg (by omega)
    simp only [View.from, is, h1]
    rw [hdrop, Nat.zero_add]
    simp only [bind, Except.bind, pure, Except.pure]
    cases fromb cp k (⟨l, st⟩ :: dims.drop (k+1)) [.iota [(.len, .const (-1))] (.map (fun xs => xs.headD 0 - 1) [.len])] <;> rfl
  have hb : fromb cp k (⟨l, st⟩ :: dims.drop (k+1)) [.iota [(.len, .const (-1))] (.map (fun xs => xs.headD 0 - 1) [.len])] =
      if l < 0 then .error .check else .ok (cp + (l - 1) * st, ⟨l, -1 * st⟩ :: dims.drop (k+1), []) := by
    simp only [fromb, iotaDims, LenExpr.wlen, wlens, hasLens, LenExpr.hasLen, LenExpr.val, bind, Except.bind, pure, Except.pure]
    by_cases h : l < 0
    · simp [h]
    · simp only [iotaLoop]
      have hc : l = 0 ∨ (inside (l-1) l ∧ inside (l - 1 + (l-1) * (-1)) l) := by
        by_cases h0 : l = 0
        · exact .inl h0
        · right
          simp only [inside_iff]
          omega
      simp [h, LenExpr.val, vals, bind, Except.bind, pure, Except.pure]
      simp at hc
      simp [hc]
  have hin : inside (k : Int) (dims.length : Int) = true := by simp only [inside_iff]; omega
  have hrev : (⟨dims, cp⟩ : View).reverse k = if l = UNB then .error .check else
      .ok ⟨dims.take k ++ ⟨l, st * -1⟩ :: dims.drop (k+1), cp + (if 0 = l then 0 else st * (l - 1))⟩ := by
    simp only [View.reverse]
    rw [if_neg (by omega)]
    simp only [Int.toNat_natCast, hd, hin, if_true, hset]
  rw [hf, hb, hrev]
  cases n with
  | none =>
    simp only [DimLen] at hdn
    subst hdn
    refine ⟨fun _ => ?_, fun h => by simp at h⟩
    rw [if_pos (by omega), if_pos rfl]
    rfl
  | some n =>
    simp only [DimLen] at hdn
    subst hdn
    rw [if_neg (by omega), if_neg (by omega)]
    constructor
    · intro h
      have h0 : (n : Int) ≠ 0 := by simpa using h
      rw [if_neg (fun e => h0 e.symm)]
      simp only [bind, Except.bind, pure, Except.pure]
      rw [Int.mul_comm (-1), Int.mul_comm ((n : Int) - 1)]
    · intro h
      refine ⟨_, _, rfl, rfl, ?_⟩
      simp only
      rw [Int.mul_comm (-1)]

/-! ## Outer products -/

theorem merge_outer (sA sB : List Length) :
    Merge [sA ++ List.replicate sB.length none, List.replicate sA.length none ++ sB] (sA ++ sB) := by
  refine ⟨by simp, ⟨sA ++ List.replicate sB.length none, by simp, by simp⟩, ?_⟩
  intro k n
  simp only [List.mem_cons, List.not_mem_nil, or_false, exists_eq_or_imp, exists_eq_left, List.getElem?_append, List.getElem?_replicate]
  by_cases h : k < sA.length <;> simp [h]

theorem merge_outer_elided (sA sB : List Length) : Merge [sA, List.replicate sA.length none ++ sB] (sA ++ sB) := by
  refine ⟨by simp, ⟨List.replicate sA.length none ++ sB, by simp, by simp⟩, ?_⟩
  intro k n
  simp only [List.mem_cons, List.not_mem_nil, or_false, exists_eq_or_imp, exists_eq_left, List.getElem?_append, List.getElem?_replicate]
  by_cases h : k < sA.length <;> simp [h]

example : (⟨[⟨2, 3⟩, ⟨3, 1⟩], 0⟩ : View).from [.dots (some 1), .iota [(.len, .const (-1))] (.map (fun xs => xs.headD 0 - 1) [.len])] = View.reverse ⟨[⟨2, 3⟩, ⟨3, 1⟩], 0⟩ 1 ∧
    View.reverse ⟨[⟨2, 3⟩, ⟨3, 1⟩], 0⟩ 1 = .ok ⟨[⟨2, 3⟩, ⟨3, -1⟩], 2⟩ :=
  ⟨(C95_reverse ⟨[⟨2, 3⟩, ⟨3, 1⟩], 0⟩ [some 2, some 3] (.cons rfl (.cons rfl .nil)) 1 (some 3) rfl).1 (by simp), by decide +kernel⟩

/-- C95. The outer product of two views in three ways: with `insert` and `dots`; with `insert` on the second and prefix matching; and with `from(op, a, b)`. All of them have the axes
of `a` and then those of `b`, and the element at `i ++ j` is the operation on the element of `a` at `i` and that of `b` at `j`. -/
theorem C95_outer [Monad m] [LawfulMonad m] (f : List α → m α) (rd : Int → m α) (a b : View) (sa sb : List Length) (ha : Shaped a sa) (hb : Shaped b sb) :
    ∃ a1 b1 b2 e, a.from [.dots (some sa.length), .insert sb.length] = .ok a1 ∧ b.from [.insert sa.length, .dots (some sb.length)] = .ok b1 ∧
      b.from [.insert sa.length] = .ok b2 ∧ fromOp f [.cell a.dims a.cp rd, .cell b.dims b.cp rd] = some e ∧
      ∀ x ∈ [Iter.node (mapOp f) [.cell a1.dims a1.cp rd, .cell b1.dims b1.cp rd], .node (mapOp f) [.cell a.dims a.cp rd, .cell b2.dims b2.cp rd], e],
        HasShape x (sa ++ sb) ∧
        ∀ i j, i.length = sa.length → j.length = sb.length → elem x (i ++ j) = mapOp f [rd (address a i), rd (address b j)] := by
  obtain ⟨da, pa⟩ := a
  obtain ⟨db, pb⟩ := b
  have hla : da.length = sa.length := ha.length_eq
  have hlb : db.length = sb.length := hb.length_eq
  obtain ⟨e, he, hes, hee⟩ := C16_outer f [.cell da pa rd, .cell db pb rd] (by simp) [sa, sb] ⟨_, _, rfl, ha, _, _, rfl, hb, rfl⟩
  have hrep : ∀ n, List.Forall₂ DimLen (List.replicate n (⟨UNB, 0⟩ : Dim)) (List.replicate n none) := by
    intro n
    induction n with
    | zero => exact .nil
    | succ n ih => exact .cons rfl ih
  refine ⟨⟨da ++ List.replicate sb.length ⟨UNB, 0⟩, pa⟩, ⟨List.replicate sa.length ⟨UNB, 0⟩ ++ db, pb⟩, ⟨List.replicate sa.length ⟨UNB, 0⟩ ++ db, pb⟩, e, ?_, ?_, ?_, he, ?_⟩
  · simp only [View.from, fromb]
    rw [if_neg (by omega), List.drop_of_length_le (by omega), List.take_of_length_le (by omega)]
    simp [bind, Except.bind, pure, Except.pure]
  · simp only [View.from, fromb]
    rw [if_neg (by omega), List.drop_of_length_le (by omega), List.take_of_length_le (by omega)]
    simp [bind, Except.bind, pure, Except.pure]
  · simp [View.from, fromb, bind, Except.bind, pure, Except.pure]
  have hz : ∀ (n : Nat) (x : List Int), dot (List.replicate n 0) x = 0 := by
    intro n
    induction n with
    | zero => intro x; cases x <;> simp [dot]
    | succ n ih =>
      intro x
      cases x with
      | nil => simp [dot]
      | cons y x => have := ih x; simp only [dot] at this; simp [dot, List.replicate_succ, this]
  have hB : ∀ i j : List Int, i.length = sa.length → dot (List.replicate sa.length 0 ++ db.map Dim.step) (i ++ j) = dot (db.map Dim.step) j := by
    intro i j hi
    rw [dot_append _ _ _ _ (by simp [hi]), hz]
    simp
  have hA : ∀ i j : List Int, i.length = sa.length → dot (da.map Dim.step) (i ++ j) = dot (da.map Dim.step) i := by
    intro i j hi
    have := dot_append (da.map Dim.step) [] i j (by simp [hi, hla])
    simpa [dot] using this
  intro x hx
  simp only [List.mem_cons, List.not_mem_nil, or_false] at hx
  rcases hx with rfl | rfl | rfl
  · refine ⟨shape_two (List.rel_append ha (hrep _)) (List.rel_append (hrep _) hb) (merge_outer sa sb), ?_⟩
    intro i j hi hj
    simp only [elem, elems, address, List.map_append, List.map_replicate]
    rw [hB i j hi, dot_append _ _ _ _ (by simp [hi, hla]), hz]
    simp
  · refine ⟨shape_two ha (List.rel_append (hrep _) hb) (merge_outer_elided sa sb), ?_⟩
    intro i j hi hj
    simp only [elem, elems, address, List.map_append, List.map_replicate]
    rw [hB i j hi, hA i j hi]
  · refine ⟨by simpa using hes, ?_⟩
    intro i j hi hj
    rw [hee (i ++ j) (by simp [hi, hj])]
    simp [pieces, elem, address, ← hi, ← hj]

/-- The three ways for `{1, 2} × {10, 20, 30}`, in rows. -/
example : ∃ a1 b1 : View, (⟨[⟨2, 1⟩], 0⟩ : View).from [.dots (some 1), .insert 1] = .ok a1 ∧ (⟨[⟨3, 1⟩], 2⟩ : View).from [.insert 1, .dots (some 1)] = .ok b1 ∧
    HasShape (.node (mapOp fun xs => pure xs.sum) [.cell a1.dims a1.cp pure, .cell b1.dims b1.cp pure] : Iter (Except Fault) Int) [some 2, some 3] := by
  obtain ⟨a1, b1, _, _, h1, h2, _, _, h3⟩ := C95_outer (m := Except Fault) (fun xs => pure xs.sum) pure ⟨[⟨2, 1⟩], 0⟩ ⟨[⟨3, 1⟩], 2⟩ [some 2] [some 3] (.cons rfl .nil) (.cons rfl .nil)
  exact ⟨a1, b1, h1, h2, (h3 _ (by simp)).1⟩

end

/-! ## Assignments -/

section
variable {V : Type}

/-- C95, C27. Assignment when several elements of the destination are the same place in memory, either because the destination has fewer axes than the source, or because of positions that
repeat. The last one in row-major order stays. -/
theorem C95_repeats (dyn : Bool) (z : List Int) (hz : ∀ i ∈ z, i = 0) (dst x : Iter (Act V) (Lv V)) (sd sx : List Length) (s : List Nat)
    (hd : HasShape dst sd) (hx : HasShape x sx) (hm : Merge [sd, sx] (s.map some)) (μ : Mem V) (A : List Int → Int)
    (v : List Int → V) (hmem : ∀ j, Valid s j → (μ (A j)).isSome)
    (hA : ∀ j, Valid s j → ∀ μ', SameOutside (fun p => ∃ k, Valid s k ∧ p = A k) μ μ' → Refers μ' (elem dst j) (A j))
    (hv : ∀ j, Valid s j → ∀ μ', SameOutside (fun p => ∃ k, Valid s k ∧ p = A k) μ μ' → Reads μ' (elem x j) (v j)) :
    ∃ μ', assign dyn z dst x μ = (.ok (), μ') ∧
      ∀ p, μ' p = match ((rowMajor s).filter fun j => A j = p).getLast? with
        | some j => some (v j)
        | none => μ p := by
  have hset : ∀ μ' : Mem V, ∀ j, Valid s j → (∀ p, (μ' p).isSome = (μ p).isSome) → SameOutside (fun p => ∃ k, Valid s k ∧ p = A k) μ μ' →
      mapOp setOp [elem dst j, elem x j] μ' = (.ok (.ref (A j)), μ'.upd (A j) (v j)) := fun μ' j hj hs ho =>
    set_run (hA j hj μ' ho) (hv j hj μ' ho) (by rw [hs]; exact hmem j hj)
  unfold assign
  rw [run_forAll dyn z hz _ dst x sd sx s hd hx hm]
  have key : ∀ (l : List (List Int)), (∀ j ∈ l, Valid s j) → ∀ μ1 : Mem V, (∀ p, (μ1 p).isSome = (μ p).isSome) →
      SameOutside (fun p => ∃ k, Valid s k ∧ p = A k) μ μ1 →
      ∃ μ', forAll (fun j => mapOp setOp [elem dst j, elem x j]) l μ1 = (.ok (), μ') ∧
        ∀ p, μ' p = match (l.filter fun j => A j = p).getLast? with
          | some j => some (v j)
          | none => μ1 p := by
    intro l
    induction l with
    | nil => intro _ μ1 _ _; exact ⟨μ1, rfl, fun p => by simp⟩
    | cons j l ih =>
      intro hl μ1 hs ho
      have hj := hl j (by simp)
      obtain ⟨μ', h1, h2⟩ := ih (fun k hk => hl k (by simp [hk])) (μ1.upd (A j) (v j))
        (by
          intro p
          simp only [Mem.upd]
          split
          · next h => subst h; simp [hmem j hj]
          · exact hs p)
        (by
          intro p hp
          have hpj : p ≠ A j := fun h => hp ⟨j, hj, h⟩
          simp only [Mem.upd, if_neg hpj]
          exact ho p hp)
      refine ⟨μ', ?_, ?_⟩
      · simp only [forAll]
        rw [act_bind_ok (hset μ1 j hj hs ho), h1]
      · intro p
        rw [h2 p]
        by_cases h : A j = p
        · subst h
          simp only [List.filter_cons, decide_true, if_true]
          cases hl : (l.filter fun k => A k = A j).getLast? with
          | none =>
            have : (l.filter fun k => A k = A j) = [] := by simpa using hl
            simp [this, Mem.upd]
          | some k => simp [List.getLast?_cons, hl]
        · have : p ≠ A j := fun e => h e.symm
          simp [List.filter_cons, h, Mem.upd, this]
  exact key (rowMajor s) (fun j hj => mem_rowMajor.mp hj) μ (fun _ => rfl) (fun _ _ => rfl)

/-- Each of the arguments in `t` has, at `j`, the value that is the subscript in `i`. -/
def _root_.Ra.Spec.Subscripts (n : IndexLike V) (μ : Mem V) (t : List (Iter (Act V) (Lv V))) (j i : List Int) : Prop :=
  List.Forall₂ (fun a k => ∃ x, Reads μ (elem a j) x ∧ n.toIdx x = k) t i

theorem elems_map {m : Type → Type} {α : Type} [Monad m] (t : List (Iter m α)) (j : List Int) : elems t j = t.map fun a => elem a j := by
  induction t with
  | nil => rfl
  | cons a t ih => simp [elems, ih]

/-- C95. Sparse subscripts: the element of `map(a, i, j, ...)` at any position is a reference to the element of `a` whose subscripts are the elements of `i`, `j`, ... there. If they are out of range, there's an error. -/
theorem C95_map_view (n : IndexLike V) (a : View) (sa : List Nat) (ha : Shaped a (sa.map some)) (t : List (Iter (Act V) (Lv V))) (j i : List Int) (hi : i.length = sa.length)
    (μ : Mem V) (h : Subscripts n μ t j i) :
    (InRange (sa.map some) i → Refers μ (elem (a.mapArrays n t) j) (address a i)) ∧ (¬ InRange (sa.map some) i → elem (a.mapArrays n t) j μ = (.error .check, μ)) := by
  have hm : ∀ (t : List (Iter (Act V) (Lv V))) (i : List Int), Subscripts n μ t j i →
      ∃ ls vs, (t.map fun a => elem a j).mapM id μ = (.ok ls, μ) ∧ ls.mapM Lv.get μ = (.ok vs, μ) ∧ vs.map n.toIdx = i := by
    intro t i h
    induction h with
    | nil => exact ⟨[], [], rfl, rfl, rfl⟩
    | @cons a k t i h1 _ ih =>
      obtain ⟨x, hx, hk⟩ := h1
      obtain ⟨ls, vs, h2, h3, h4⟩ := ih
      obtain ⟨r, hr, hg⟩ := reads_elim hx
      refine ⟨r :: ls, x :: vs, ?_, ?_, by simp [hk, h4]⟩
      · rw [List.map_cons, List.mapM_cons, id, act_bind_ok hr, act_bind_ok h2]; rfl
      · rw [List.mapM_cons, act_bind_ok hg, act_bind_ok h3]; rfl
  obtain ⟨ls, vs, h1, h2, h3⟩ := hm t i h
  have he : elem (a.mapArrays n t) j μ = (a.elemAt (fun p => pure (Lv.ref p)) i : Act V (Lv V)) μ := by
    show mapOp _ (elems t j) μ = _
    rw [elems_map, mapOp, act_bind_ok h1, gatherOp]
    show (Bind.bind (ls.mapM Lv.get) _ : Act V (Lv V)) μ = _
    rw [act_bind_ok h2, h3]
  have := elemAt_eq (m := Act V) (α := Lv V) a sa ha (fun p => pure (Lv.ref p)) i hi
  constructor
  · intro hr
    rw [Refers, he, this.1 hr]; rfl
  · intro hr
    rw [he, this.2 hr]; rfl

/-- C95. Sparse assignment `map(a, i, j, ...) = x` changes the elements of `a` that are given by the subscripts, and only those. If some are repeated, the last one in row-major order stays. -/
theorem C95_sparse (dyn : Bool) (z : List Int) (hz : ∀ i ∈ z, i = 0) (n : IndexLike V) (a : View) (sa : List Nat) (ha : Shaped a (sa.map some))
    (t : List (Iter (Act V) (Lv V))) (ss : List (List Length)) (hss : HasShapes t ss) (st : List Length) (hst : Merge ss st)
    (x : Iter (Act V) (Lv V)) (sx : List Length) (hx : HasShape x sx) (s : List Nat) (hm : Merge [st, sx] (s.map some)) (μ : Mem V)
    (hmem : ∀ k, Valid sa k → (μ (address a k)).isSome)
    (i : List Int → List Int) (v : List Int → V)
    (hi : ∀ j, Valid s j → Valid sa (i j) ∧ ∀ μ', SameOutside (InView a sa) μ μ' → Subscripts n μ' t j (i j))
    (hv : ∀ j, Valid s j → ∀ μ', SameOutside (InView a sa) μ μ' → Reads μ' (elem x j) (v j)) :
    ∃ μ', assign dyn z (a.mapArrays n t) x μ = (.ok (), μ') ∧
      ∀ p, μ' p = match ((rowMajor s).filter fun j => address a (i j) = p).getLast? with
        | some j => some (v j)
        | none => μ p := by
  have hsub : ∀ μ', SameOutside (fun p => ∃ k, Valid s k ∧ p = address a (i k)) μ μ' → SameOutside (InView a sa) μ μ' := by
    intro μ' h p hp
    refine h p ?_
    rintro ⟨k, hk, rfl⟩
    exact hp ⟨i k, (hi k hk).1, rfl⟩
  exact C95_repeats dyn z hz (a.mapArrays n t) x st sx s ⟨ss, hss, hst⟩ hx hm μ (fun j => address a (i j)) v (fun j hj => hmem _ (hi j hj).1)
    (fun j hj μ' h => (C95_map_view n a sa ha t j (i j) (hi j hj).1.length μ' ((hi j hj).2 μ' (hsub μ' h))).1 (inRange_of_valid (hi j hj).1))
    (fun j hj μ' h => hv j hj μ' (hsub μ' h))

/-- Memory for the examples: a 2×2 array at 0, subscripts `{1, 0, 1}` at 4 and `{0, 1, 0}` at 7, and the source `{10, 11, 12}` at 10. -/
def egSparse : Mem Int := fun p => ([0, 1, 2, 3, 1, 0, 1, 0, 1, 0, 10, 11, 12] : List Int)[p.toNat]?.filter fun _ => 0 ≤ p

/-- The hypotheses of `C95_sparse` hold, and `a(1, 0)`, whose subscripts are there twice, has the last value. -/
example : ∃ μ', assign true [] (View.mapArrays (inferInstanceAs (IndexLike Int)) ⟨[⟨2, 2⟩, ⟨2, 1⟩], 0⟩ [View.refs ⟨[⟨3, 1⟩], 4⟩, View.refs ⟨[⟨3, 1⟩], 7⟩]) (View.refs ⟨[⟨3, 1⟩], 10⟩) egSparse = (.ok (), μ') ∧
    μ' 2 = some 12 ∧ μ' 1 = some 11 ∧ μ' 0 = some 0 := by
  have hin : ∀ p : Int, InView ⟨[⟨2, 2⟩, ⟨2, 1⟩], 0⟩ [2, 2] p → p < 4 := by
    rintro p ⟨j, hj, rfl⟩
    match j, hj with
    | [i, j], ⟨h1, h2, h3, h4, _⟩ => simp [address, dot]; omega
  have hrd : ∀ (μ' : Mem Int) (v : View) (j : List Int) (x : Int), SameOutside (InView ⟨[⟨2, 2⟩, ⟨2, 1⟩], 0⟩ [2, 2]) egSparse μ' → 4 ≤ address v j → egSparse (address v j) = some x →
      Reads μ' (elem v.refs j) x := by
    intro μ' v j x h h4 hx
    exact reads_refs (by rw [h _ fun hp => by have := hin _ hp; omega, hx])
  obtain ⟨μ', h1, h2⟩ := C95_sparse (V := Int) true [] (by simp) (inferInstanceAs (IndexLike Int)) ⟨[⟨2, 2⟩, ⟨2, 1⟩], 0⟩ [2, 2] (.cons rfl (.cons rfl .nil))
    [View.refs ⟨[⟨3, 1⟩], 4⟩, View.refs ⟨[⟨3, 1⟩], 7⟩] [[some 3], [some 3]] ⟨_, _, rfl, .cons rfl .nil, _, _, rfl, .cons rfl .nil, rfl⟩ [some 3] (merge_same _)
    (View.refs ⟨[⟨3, 1⟩], 10⟩) [some 3] (.cons rfl .nil) [3] (merge_same _) egSparse
    (by
      intro k hk
      match k, hk with
      | [i, j], ⟨h1, h2, h3, h4, _⟩ =>
        have hi : i = 0 ∨ i = 1 := by simp at h2; omega
        have hj : j = 0 ∨ j = 1 := by simp at h4; omega
        rcases hi with rfl | rfl <;> rcases hj with rfl | rfl <;> decide)
    (fun j => if j = [1] then [0, 1] else [1, 0]) (fun j => 10 + j.headD 0)
    (by
      intro j hj
      match j, hj with
      | [j], ⟨h1, h2, _⟩ =>
        have : j = 0 ∨ j = 1 ∨ j = 2 := by simp at h2; omega
        rcases this with rfl | rfl | rfl
        · exact ⟨⟨by decide, by decide, by decide, by decide, trivial⟩, fun μ' h => .cons ⟨1, hrd μ' _ _ _ h (by decide) (by decide), rfl⟩ (.cons ⟨0, hrd μ' _ _ _ h (by decide) (by decide), rfl⟩ .nil)⟩
        · exact ⟨⟨by decide, by decide, by decide, by decide, trivial⟩, fun μ' h => .cons ⟨0, hrd μ' _ _ _ h (by decide) (by decide), rfl⟩ (.cons ⟨1, hrd μ' _ _ _ h (by decide) (by decide), rfl⟩ .nil)⟩
        · exact ⟨⟨by decide, by decide, by decide, by decide, trivial⟩, fun μ' h => .cons ⟨1, hrd μ' _ _ _ h (by decide) (by decide), rfl⟩ (.cons ⟨0, hrd μ' _ _ _ h (by decide) (by decide), rfl⟩ .nil)⟩)
    (by
      intro j hj μ' h
      match j, hj with
      | [j], ⟨h1, h2, _⟩ =>
        have : j = 0 ∨ j = 1 ∨ j = 2 := by simp at h2; omega
        rcases this with rfl | rfl | rfl <;> exact hrd μ' _ _ _ h (by decide) (by decide))
  exact ⟨μ', h1, by rw [h2]; decide +kernel, by rw [h2]; decide +kernel, by rw [h2]; decide +kernel⟩

/-- C95. `scalar(x) = e` where `e` isn't empty leaves the last element of `e` in `x`. -/
theorem C95_scalar (dyn : Bool) (z : List Int) (hz : ∀ i ∈ z, i = 0) (p : Int) (e : Iter (Act V) (Lv V)) (s : List Nat) (he : HasShape e (s.map some)) (h0 : ∀ n ∈ s, 0 < n)
    (μ : Mem V) (hp : (μ p).isSome) (v : List Int → V) (hv : ∀ j, Valid s j → ∀ μ', SameOutside (fun q => q = p) μ μ' → Reads μ' (elem e j) (v j)) :
    ∃ μ', assign dyn z (.scalar (pure (.ref p))) e μ = (.ok (), μ') ∧ μ' p = some (v (s.map fun (n : Nat) => (n : Int) - 1)) ∧ SameOutside (fun q => q = p) μ μ' := by
  have hlast : ∀ s : List Nat, (∀ n ∈ s, 0 < n) → (rowMajor s).getLast? = some (s.map fun (n : Nat) => (n : Int) - 1) := by
    intro s
    induction s with
    | nil => intro _; rfl
    | cons n s ih =>
      intro h
      have hn := h n (by simp)
      obtain ⟨n, rfl⟩ : ∃ k, n = k + 1 := ⟨n - 1, by omega⟩
      simp only [rowMajor, List.range_succ, List.flatMap_append, List.flatMap_cons, List.flatMap_nil, List.append_nil]
      rw [List.getLast?_append, List.getLast?_map, ih (fun n hn => h n (by simp [hn]))]
      simp
  have hne : ∃ j, Valid s j := by
    have := List.mem_of_getLast? (hlast s h0)
    exact ⟨_, mem_rowMajor.mp this⟩
  have hX : ∀ μ', SameOutside (fun q => ∃ k, Valid s k ∧ q = p) μ μ' → SameOutside (fun q => q = p) μ μ' := by
    intro μ' h q hq
    exact h q fun ⟨_, _, e⟩ => hq e
  have hm : Merge [[], s.map some] (s.map some) := by
    refine ⟨by simp, ⟨s.map some, by simp, rfl⟩, by simp⟩
  obtain ⟨μ', h1, h2⟩ := C95_repeats dyn z hz (.scalar (pure (.ref p))) e [] (s.map some) s rfl he hm μ (fun _ => p) v (fun _ _ => hp)
    (fun _ _ _ _ => rfl) (fun j hj μ' hμ => hv j hj μ' (hX μ' hμ))
  refine ⟨μ', h1, ?_, ?_⟩
  · rw [h2 p]
    simp [hlast s h0]
  · intro q hq
    rw [h2 q]
    have : ¬ p = q := fun e => hq e.symm
    simp [this]

example : ∃ μ', assign true [] (.scalar (pure (.ref 9))) (View.refs ⟨[⟨2, 2⟩, ⟨2, 1⟩], 0⟩) (fun p => if 0 ≤ p ∧ p < 10 then some p else none : Mem Int) = (.ok (), μ') ∧ μ' 9 = some 3 := by
  obtain ⟨μ', h1, h2, _⟩ := C95_scalar (V := Int) true [] (by simp) 9 (View.refs ⟨[⟨2, 2⟩, ⟨2, 1⟩], 0⟩) [2, 2] (.cons rfl (.cons rfl .nil)) (by simp)
    (fun p => if 0 ≤ p ∧ p < 10 then some p else none) rfl (fun j => 2 * j.headD 0 + j.getD 1 0)
    (by
      intro j hj μ' h
      obtain ⟨i, j, rfl, h1, h2, h3, h4⟩ := valid_two.mp hj
      refine reads_refs ?_
      simp only [Nat.cast_ofNat] at h2 h4
      rw [h _ (by simp [address, dot]; omega)]
      simp [address, dot]
      omega)
  exact ⟨μ', h1, h2⟩

end

section
variable {V : Type} [Add V] [Mul V]

theorem mapM_three {m : Type → Type} {α : Type} [Monad m] [LawfulMonad m] (x y w : m α) (f : List α → m α) :
    mapOp f [x, y, w] = (do let a ← x; let b ← y; let c ← w; f [a, b, c]) := by
  simp [mapOp]

/-- C95. `for_each(wrank<1, 1, 2>(wrank<1, 0, 1>(c += a*b)), C, A, B)` has the same effects as `gemm(A, B, C)` in any memory, also when the arguments overlap. -/
theorem C95_gemm (dyn : Bool) (z : List Int) (hz : ∀ i ∈ z, i = 0) (I K J : Nat) (a : Iter (Act V) (Lv V)) (b c : View)
    (ha : HasShape a [some I, some K]) (hb : Shaped b [some K, some J]) (hc : Shaped c [some I, some J]) :
    gemmVerb dyn z a b.refs c.refs = some (gemmSlice dyn z a b c) := by
  have hvs : VerbShape [[1, 1, 2], [1, 0, 1]] [[some I, some J], [some I, some K], [some K, some J]] [some I, some K, some J] := by
    refine ⟨.cons (by simp) (.cons (by simp) (.cons (by simp) .nil)), [some I], [some K, some J], rfl, ?_, ?_⟩
    · refine ⟨by simp, by simp, ?_⟩
      intro k n
      rcases k with _ | k <;> simp
    · refine ⟨.cons (by simp) (.cons (by simp) (.cons (by simp) .nil)), [some K], [some J], rfl, ?_, ?_⟩
      · refine ⟨by simp, by simp, ?_⟩
        intro k n
        rcases k with _ | k <;> simp
      · refine ⟨by simp, by simp, ?_⟩
        intro k n
        rcases k with _ | k <;> simp
  obtain ⟨e, h1, h2, h3⟩ := C17_conjunction (m := Act V) mulAdd [[1, 1, 2], [1, 0, 1]] [c.refs, a, b.refs] [[some I, some J], [some I, some K], [some K, some J]]
    ⟨_, _, rfl, refs_shape hc, _, _, rfl, ha, _, _, rfl, refs_shape hb, rfl⟩ [some I, some K, some J] hvs
  simp only [gemmVerb, h1, Option.bind_eq_bind, Option.bind_some]
  obtain ⟨s, t, ec⟩ := view_two hc
  have hd : c.from [.dots (some 1), .insert 1] = .ok ⟨[⟨I, s⟩, ⟨UNB, 0⟩, ⟨J, t⟩], c.cp⟩ := by
    rw [ec]; rfl
  congr 1
  simp only [gemmSlice, hd, from_insert]
  show _ = update _ _ _ _ _
  unfold update
  have hc' : HasShape (View.refs ⟨[⟨I, s⟩, ⟨UNB, 0⟩, ⟨J, t⟩], c.cp⟩ : Iter (Act V) (Lv V)) [some I, none, some J] := List.Forall₂.cons rfl (.cons rfl (.cons rfl .nil))
  rw [run_forAll dyn z hz _ _ _ [some I, none, some J] [some I, some K, some J] [I, K, J] hc'
    (binary_shape _ ha (refs_shape (shape_insert hb)) (merge_ikj I K J)) (merge_insert I K J), ply_never dyn e [I, K, J] h2 z hz]
  simp only [bind_assoc, pure_bind]
  show _ = forAll _ _
  rw [bind_pure_unit]
  apply forAll_congr
  intro j hj
  obtain ⟨i, k, j, rfl, v1, v2, v3, v4, v5, v6⟩ := valid_three (mem_rowMajor.mp hj)
  rw [h3 _ (by simp)]
  simp only [verb, List.zipWith_cons_cons, List.zipWith_nil_left, List.length_cons, List.length_nil, List.map_cons, List.map_nil]
  simp only [List.take_succ_cons, List.take_zero, List.drop_succ_cons, List.drop_zero, Nat.sub_self, Nat.reduceSub, List.foldl_cons, List.foldl_nil, List.nil_append,
    List.cons_append, Nat.zero_add, Nat.reduceAdd, Nat.max_self, Nat.zero_max, Nat.max_zero]
  have hcc : elem (View.refs ⟨[⟨I, s⟩, ⟨UNB, 0⟩, ⟨J, t⟩], c.cp⟩ : Iter (Act V) (Lv V)) [i, k, j] = elem c.refs [i, j] := by
    rw [elem_refs, elem_refs, show address c [i, j] = address ⟨[⟨I, s⟩, ⟨J, t⟩], c.cp⟩ [i, j] by rw [← ec]]
    simp [address, dot]
  have haa : elem a [i, k, j] = elem a [i, k] := by
    rw [show [i, k, j] = [i, k] ++ [j] from rfl]
    have hv : Valid [I, K] [i, k] := ⟨v1, v2, v3, v4, trivial⟩
    exact elem_append (s := [I, K]) ha hv [j]
  rw [hcc, mapM_three, mapM_two]
  simp only [elem_refs, pure_bind, binaryOp, elem, elems, valOp, mapM_two, haa, bind_assoc]
  congr 1
  funext x
  simp only [mulAdd, updOp, List.mapM_cons, List.mapM_nil, pure_bind, bind_assoc, Lv.get]
  rw [show address ⟨⟨UNB, 0⟩ :: b.dims, b.cp⟩ [i, k, j] = address b [k, j] by simp [address, dot]]

example : gemmVerb true [] (View.refs ⟨[⟨2, 3⟩, ⟨3, 1⟩], 0⟩) (View.refs ⟨[⟨3, 2⟩, ⟨2, 1⟩], 6⟩) (View.refs ⟨[⟨2, 2⟩, ⟨2, 1⟩], 12⟩ : Iter (Act Int) (Lv Int)) =
    some (gemmSlice true [] (View.refs ⟨[⟨2, 3⟩, ⟨3, 1⟩], 0⟩) ⟨[⟨3, 2⟩, ⟨2, 1⟩], 6⟩ ⟨[⟨2, 2⟩, ⟨2, 1⟩], 12⟩) :=
  C95_gemm true [] (by simp) 2 3 2 _ _ _ (.cons rfl (.cons rfl .nil)) (.cons rfl (.cons rfl .nil)) (.cons rfl (.cons rfl .nil))

end

/-! ### Reduction along the first axis -/

section
variable {V : Type}

omit V in
theorem forAll_flatMap {m : Type → Type} [Monad m] [LawfulMonad m] {ι κ β : Type} (f : κ → m β) (g : ι → List κ) (l : List ι) :
    forAll f (l.flatMap g) = forAll (fun i => forAll f (g i)) l := by
  have happ : ∀ (l l' : List κ), forAll f (l ++ l') = (do forAll f l; forAll f l') := by
    intro l l'
    induction l with
    | nil => simp [forAll]
    | cons x l ih => simp [forAll, ih]
  induction l with
  | nil => rfl
  | cons i l ih => simp [forAll, happ, ih]

omit V in
theorem forAll_mapped {m : Type → Type} [Monad m] [LawfulMonad m] {ι κ β : Type} (f : κ → m β) (g : ι → κ) (l : List ι) :
    forAll f (l.map g) = forAll (fun i => f (g i)) l := by
  induction l with
  | nil => rfl
  | cons i l ih => simp [forAll, ih]

/-- The elements that `s(insert<1>) OP a` goes through. -/
theorem rowsByInsert_run (f : V → V → V) (dyn : Bool) (z : List Int) (hz : ∀ i ∈ z, i = 0) (I J : Nat) (s a : View) (hs : Shaped s [some J]) (ha : Shaped a [some I, some J]) :
    rowsByInsert f dyn z s a = forAll (fun j => mapOp (updOp f) [elem s.refs (j.drop 1), elem a.refs j]) (rowMajor [I, J]) := by
  simp only [rowsByInsert, from_insert]
  show update _ _ _ _ _ = _
  unfold update
  rw [run_forAll dyn z hz _ _ _ [none, some J] [some I, some J] [I, J] (refs_shape (shape_insert hs)) (refs_shape ha) (merge_second' I J)]
  apply forAll_congr
  intro j hj
  obtain ⟨i, k, rfl, _⟩ := valid_two.mp (mem_rowMajor.mp hj)
  rw [elem_insert]
  rfl

/-- C95. `for_each(wrank<1, 1>(c OP a), s, a)` has the same effects as `s(insert<1>) OP a` in any memory. -/
theorem C95_rows_verb (f : V → V → V) (dyn : Bool) (z : List Int) (hz : ∀ i ∈ z, i = 0) (I J : Nat) (s a : View) (hs : Shaped s [some J]) (ha : Shaped a [some I, some J]) :
    rowsByVerb f dyn z s a = some (rowsByInsert f dyn z s a) := by
  have hvs : VerbShape [[1, 1]] [[some J], [some I, some J]] [some I, some J] := by
    refine ⟨.cons (by simp) (.cons (by simp) .nil), [some I], [some J], rfl, ?_, ?_⟩
    · refine ⟨by simp, by simp, ?_⟩
      intro k n
      rcases k with _ | k <;> simp
    · refine ⟨by simp, by simp, ?_⟩
      intro k n
      rcases k with _ | k <;> simp
  obtain ⟨e, h1, h2, h3⟩ := C17_conjunction (m := Act V) (updOp f) [[1, 1]] [s.refs, a.refs] [[some J], [some I, some J]]
    ⟨_, _, rfl, refs_shape hs, _, _, rfl, refs_shape ha, rfl⟩ [some I, some J] hvs
  simp only [rowsByVerb, h1, Option.bind_eq_bind, Option.bind_some]
  congr 1
  rw [rowsByInsert_run f dyn z hz I J s a hs ha, ply_never dyn e [I, J] h2 z hz]
  simp only [bind_assoc, pure_bind]
  rw [bind_pure_unit]
  apply forAll_congr
  intro j hj
  obtain ⟨i, k, rfl, _⟩ := valid_two.mp (mem_rowMajor.mp hj)
  rw [h3 _ (by simp)]
  simp [verb]

/-- C95. `iter<1>(s) OP iter<1>(a)` has the same effects as `s(insert<1>) OP a` in any memory. -/
theorem C95_rows_cells (f : V → V → V) (dyn : Bool) (z : List Int) (hz : ∀ i ∈ z, i = 0) (dyn' : Bool) (z' : List Int) (hz' : ∀ i ∈ z', i = 0) (dyn'' : Bool) (z'' : List Int)
    (hz'' : ∀ i ∈ z'', i = 0) (I J : Nat) (s a : View) (hs : Shaped s [some J]) (ha : Shaped a [some I, some J]) :
    rowsByCells f dyn z dyn' z' s a = rowsByInsert f dyn'' z'' s a := by
  rw [rowsByInsert_run f dyn'' z'' hz'' I J s a hs ha]
  obtain ⟨sd, sp⟩ := s
  obtain ⟨s1, t1, ea⟩ := view_two ha
  have hsl : sd.length = 1 := hs.length_eq
  have h1 : (⟨sd, sp⟩ : View).cells (V := V) 1 = .ok (.cell [] sp fun p => pure (.view ⟨sd, p⟩)) := by
    simp [View.cells, View.cell, rankCell, hsl, bind, Except.bind, pure, Except.pure]
  have h2 : a.cells (V := V) 1 = .ok (.cell [⟨I, s1⟩] a.cp fun p => pure (.view ⟨[⟨J, t1⟩], p⟩)) := by
    rw [ea]; rfl
  have hrun : rowsByCells f dyn z dyn' z' ⟨sd, sp⟩ a = (do
      let _ ← ply (β := Unit) dyn never z (.node (mapOp (cellUpd f dyn' z')) [.cell [] sp fun p => pure (.view ⟨sd, p⟩), .cell [⟨I, s1⟩] a.cp fun p => pure (.view ⟨[⟨J, t1⟩], p⟩)])
      pure ()) := by
    simp only [rowsByCells, h1, h2]
    rfl
  have hs1 : HasShape (.cell [] sp fun p => pure (.view ⟨sd, p⟩) : Iter (Act V) (Lv V)) [] := List.Forall₂.nil
  have hs2 : HasShape (.cell [⟨I, s1⟩] a.cp fun p => pure (.view ⟨[⟨J, t1⟩], p⟩) : Iter (Act V) (Lv V)) [some I] := List.Forall₂.cons rfl .nil
  have hm : Merge [[], [some I]] ([I].map some) := by
    refine ⟨by simp, by simp, ?_⟩
    intro k n
    rcases k with _ | k <;> simp
  rw [hrun, run_forAll dyn z hz _ _ _ [] [some I] [I] hs1 hs2 hm]
  simp only [rowMajor, List.map_cons, List.map_nil]
  rw [forAll_flatMap, forAll_flatMap]
  apply forAll_congr
  intro i hi
  have hin : i < I := by simpa using hi
  rw [forAll_mapped]
  simp only [forAll, elem, mapM_two, pure_bind, cellUpd, bind_assoc]
  have hr : Shaped ⟨[⟨J, t1⟩], a.cp + dot [s1] [(i : Int)]⟩ [some J] := .cons rfl .nil
  simp only [List.map_nil, List.map_cons]
  have e0 : sp + dot [] [(i : Int)] = sp := by simp [dot]
  rw [e0]
  unfold update
  rw [bind_pure_unit, run_forAll dyn' z' hz' _ _ _ [some J] [some J] [J] (refs_shape hs) (refs_shape hr) (merge_same _)]
  simp only [rowMajor, List.map_cons, List.map_nil]
  rw [forAll_flatMap, forAll_flatMap]
  apply forAll_congr
  intro j hj
  simp only [forAll, mapM_two, elem_refs, pure_bind, List.drop_succ_cons, List.drop_zero]
  have : address ⟨[⟨J, t1⟩], a.cp + dot [s1] [(i : Int)]⟩ [(j : Int)] = address a [(i : Int), (j : Int)] := by
    rw [ea]
    simp [address, dot]
    ring
  rw [this]

/-- C95. Reduction along the first axis, `s(insert<1>) OP a`: each element of `s` is updated with those of its column of `a`, from the first row to the last. -/
theorem C95_rows (f : V → V → V) (dyn : Bool) (z : List Int) (hz : ∀ i ∈ z, i = 0) (I J : Nat) (s a : View) (hs : Shaped s [some J]) (ha : Shaped a [some I, some J])
    (hd : Distinct s [J]) (μ : Mem V) (old : Int → V) (va : Int → Int → V) (hold : ∀ j : Int, 0 ≤ j → j < J → μ (address s [j]) = some (old j))
    (hva : ∀ i j, Valid [I, J] [i, j] → μ (address a [i, j]) = some (va i j) ∧ ¬ InView s [J] (address a [i, j])) :
    ∃ μ', rowsByInsert f dyn z s a μ = (.ok (), μ') ∧ SameOutside (InView s [J]) μ μ' ∧
      ∀ j : Int, 0 ≤ j → j < J → μ' (address s [j]) = some ((List.range I).foldl (fun x (i : Nat) => f x (va i j)) (old j)) := by
  have hfrom : s.from [.dots (some 0), .insert 1] = .ok ⟨⟨UNB, 0⟩ :: s.dims, s.cp⟩ := by
    simp [View.from, fromb, bind, Except.bind, pure, Except.pure]
  obtain ⟨μ', h1, h2, h3⟩ := C28_insert f dyn z hz s [] [I] [J] hs hd ⟨⟨UNB, 0⟩ :: s.dims, s.cp⟩ hfrom a.refs [some I, some J] (refs_shape ha) (merge_second' I J) μ
    (fun j => old (j.headD 0)) (by
      intro i hi
      match i, hi with
      | [j], ⟨h1, h2, _⟩ => exact hold j h1 h2)
    (fun j => va (j.headD 0) (j.getD 1 0)) (by
      intro j hj μ' hμ
      obtain ⟨i, j, rfl, h1, h2, h3, h4⟩ := valid_two.mp hj
      obtain ⟨h5, h6⟩ := hva i j hj
      exact reads_refs (by rw [hμ _ h6]; exact h5))
  refine ⟨μ', ?_, h2, ?_⟩
  · rw [← h1]; rfl
  · intro j h4 h5
    have := h3 [] [j] trivial ⟨h4, h5, trivial⟩
    simp only [List.nil_append] at this
    rw [this, rowMajor_one]
    simp [List.foldl_map]

/-- C95. And `s OP transpose(a)` does the same. -/
theorem C95_rows_transpose (f : V → V → V) (dyn : Bool) (z : List Int) (hz : ∀ i ∈ z, i = 0) (dyn' : Bool) (z' : List Int) (hz' : ∀ i ∈ z', i = 0) (I J : Nat) (s a : View)
    (hs : Shaped s [some J]) (ha : Shaped a [some I, some J]) (hd : Distinct s [J]) (μ : Mem V) (old : Int → V) (va : Int → Int → V)
    (hold : ∀ j : Int, 0 ≤ j → j < J → μ (address s [j]) = some (old j))
    (hva : ∀ i j, Valid [I, J] [i, j] → μ (address a [i, j]) = some (va i j) ∧ ¬ InView s [J] (address a [i, j])) :
    rowsByTranspose f dyn z s a μ = rowsByInsert f dyn' z' s a μ := by
  obtain ⟨μ1, r1, r2, r3⟩ := C95_rows f dyn' z' hz' I J s a hs ha hd μ old va hold hva
  obtain ⟨s1, t1, ea⟩ := view_two ha
  have hT : Shaped ⟨[⟨J, t1⟩, ⟨I, s1⟩], a.cp⟩ [some J, some I] := .cons rfl (.cons rfl .nil)
  obtain ⟨μ2, h1, h2, h3⟩ := C28_prefix f dyn z hz s.refs [J] [I] (address s) μ (places_refs hs hd μ) (View.refs ⟨[⟨J, t1⟩, ⟨I, s1⟩], a.cp⟩) [some J, some I] (refs_shape hT)
    (merge_short1 J [some I]) (fun j => old (j.headD 0)) (by
      intro i hi
      match i, hi with
      | [j], ⟨h1, h2, _⟩ => exact hold j h1 h2)
    (fun j => va (j.getD 1 0) (j.headD 0)) (by
      intro j hj μ' hμ
      obtain ⟨j, i, rfl, h1, h2, h3, h4⟩ := valid_two.mp hj
      obtain ⟨h5, h6⟩ := hva i j ⟨h3, h4, h1, h2, trivial⟩
      rw [elem_swap ea i j]
      exact reads_refs (by rw [hμ _ h6]; exact h5))
  have hrun : rowsByTranspose f dyn z s a μ = (.ok (), μ2) := by
    simp only [rowsByTranspose, transpose_two ea]
    exact h1
  rw [hrun, r1]
  congr 1
  funext p
  by_cases hp : InView s [J] p
  · obtain ⟨j, hj, rfl⟩ := hp
    match j, hj with
    | [j], ⟨h4, h5, _⟩ =>
      rw [r3 j h4 h5, h3 [j] ⟨h4, h5, trivial⟩, rowMajor_one]
      simp [List.foldl_map]
  · rw [r2 p hp, h2 p hp]

/-- The rows of a 2x3 array added to 3 elements. -/
example : ∃ μ', rowsByInsert (· + ·) true [] ⟨[⟨3, 1⟩], 6⟩ ⟨[⟨2, 3⟩, ⟨3, 1⟩], 0⟩ (fun p => if 0 ≤ p ∧ p < 9 then some p else none) = (.ok (), μ') ∧
    μ' 6 = some (6 + 0 + 3) ∧ μ' 8 = some (8 + 2 + 5) := by
  have hin : ∀ p : Int, InView ⟨[⟨3, 1⟩], 6⟩ [3] p → 6 ≤ p := by
    rintro p ⟨j, hj, rfl⟩
    match j, hj with
    | [j], ⟨h1, h2, _⟩ => simp [address, dot]; omega
  obtain ⟨μ', h1, _, h2⟩ := C95_rows (fun (x y : Int) => x + y) true [] (by simp) 2 3 ⟨[⟨3, 1⟩], 6⟩ ⟨[⟨2, 3⟩, ⟨3, 1⟩], 0⟩ (.cons rfl .nil) (.cons rfl (.cons rfl .nil))
    (by
      intro j k hj hk h
      match j, hj, k, hk with
      | [j], ⟨h1, h2, _⟩, [k], ⟨h3, h4, _⟩ => simp [address, dot] at h; simp [h])
    (fun p => if 0 ≤ p ∧ p < 9 then some p else none) (fun j => 6 + j) (fun i j => 3 * i + j)
    (by
      intro j h1 h2
      simp [address, dot]
      omega)
    (by
      intro i j h
      obtain ⟨h1, h2, h3, h4, _⟩ := h
      constructor
      · simp [address, dot]
        omega
      · intro h
        have := hin _ h
        simp [address, dot] at this
        omega)
  refine ⟨μ', h1, ?_, ?_⟩
  · have := h2 0 (by simp) (by simp)
    simpa [address, dot, List.range_succ] using this
  · have := h2 2 (by simp) (by simp)
    simpa [address, dot, List.range_succ] using this

/-- C95. `b OP transpose(a, ilist<0, 1, 1>)`: each element of `b` is updated with those of the diagonal of its cell of `a`. -/
theorem C95_diagonals (f : V → V → V) (dyn : Bool) (z : List Int) (hz : ∀ i ∈ z, i = 0) (I J K : Nat) (b a : View) (hb : Shaped b [some I]) (ha : Shaped a [some I, some J, some K])
    (hd : Distinct b [I]) (μ : Mem V) (old : Int → V) (va : Int → Int → Int → V) (hold : ∀ i : Int, 0 ≤ i → i < I → μ (address b [i]) = some (old i))
    (hva : ∀ i j k, Valid [I, J, K] [i, j, k] → μ (address a [i, j, k]) = some (va i j k) ∧ ¬ InView b [I] (address a [i, j, k])) :
    ∃ μ', diagonals f dyn z b a μ = (.ok (), μ') ∧ SameOutside (InView b [I]) μ μ' ∧
      ∀ i : Int, 0 ≤ i → i < I → μ' (address b [i]) = some ((List.range (min J K)).foldl (fun x (j : Nat) => f x (va i j j)) (old i)) := by
  obtain ⟨dims, cp⟩ := a
  match dims, ha with
  | [⟨l0, s0⟩, ⟨l1, s1⟩, ⟨l2, s2⟩], .cons h0 (.cons h1 (.cons h2 .nil)) =>
    simp only [DimLen] at h0 h1 h2
    subst h0 h1 h2
    have hU := UNB_val
    have ht : (⟨[⟨I, s0⟩, ⟨J, s1⟩, ⟨K, s2⟩], cp⟩ : View).transpose [0, 1, 1] = .ok ⟨[⟨I, s0⟩, ⟨(min J K : Nat), s1 + s2⟩], cp⟩ := by
      simp [View.transpose, trank, transposeLoop, bind, Except.bind, pure, Except.pure, hU, List.replicate]
    have hT : Shaped ⟨[⟨I, s0⟩, ⟨(min J K : Nat), s1 + s2⟩], cp⟩ [some I, some (min J K)] := .cons rfl (.cons rfl .nil)
    obtain ⟨μ2, h1, h2, h3⟩ := C28_prefix f dyn z hz b.refs [I] [min J K] (address b) μ (places_refs hb hd μ) (View.refs ⟨[⟨I, s0⟩, ⟨(min J K : Nat), s1 + s2⟩], cp⟩)
      [some I, some (min J K)] (refs_shape hT) (merge_short1 I [some (min J K)]) (fun j => old (j.headD 0)) (by
        intro i hi
        match i, hi with
        | [j], ⟨h1, h2, _⟩ => exact hold j h1 h2)
      (fun j => va (j.headD 0) (j.getD 1 0) (j.getD 1 0)) (by
        intro j hj μ' hμ
        obtain ⟨i, j, rfl, h1, h2, h3, h4⟩ := valid_two.mp hj
        obtain ⟨h5, h6⟩ := hva i j j ⟨h1, h2, h3, by omega, h3, by omega, trivial⟩
        have e : address ⟨[⟨I, s0⟩, ⟨(min J K : Nat), s1 + s2⟩], cp⟩ [i, j] = address ⟨[⟨I, s0⟩, ⟨J, s1⟩, ⟨K, s2⟩], cp⟩ [i, j, j] := by
          simp [address, dot]
          ring
        exact reads_refs (by rw [e, hμ _ h6]; exact h5))
    refine ⟨μ2, ?_, h2, ?_⟩
    · simp only [diagonals, ht]
      exact h1
    · intro i h4 h5
      rw [h3 [i] ⟨h4, h5, trivial⟩, rowMajor_one]
      simp [List.foldl_map]

example : ∃ μ', diagonals (· + ·) true [] ⟨[⟨2, 1⟩], 8⟩ ⟨[⟨2, 4⟩, ⟨2, 2⟩, ⟨2, 1⟩], 0⟩ (fun p => if 0 ≤ p ∧ p < 10 then some p else none) = (.ok (), μ') ∧
    μ' 8 = some (8 + 0 + 3) ∧ μ' 9 = some (9 + 4 + 7) := by
  have hin : ∀ p : Int, InView ⟨[⟨2, 1⟩], 8⟩ [2] p → 8 ≤ p := by
    rintro p ⟨j, hj, rfl⟩
    match j, hj with
    | [j], ⟨h1, h2, _⟩ => simp [address, dot]; omega
  obtain ⟨μ', h1, _, h2⟩ := C95_diagonals (fun (x y : Int) => x + y) true [] (by simp) 2 2 2 ⟨[⟨2, 1⟩], 8⟩ ⟨[⟨2, 4⟩, ⟨2, 2⟩, ⟨2, 1⟩], 0⟩ (.cons rfl .nil) (.cons rfl (.cons rfl (.cons rfl .nil)))
    (by
      intro j k hj hk h
      match j, hj, k, hk with
      | [j], ⟨h1, h2, _⟩, [k], ⟨h3, h4, _⟩ => simp [address, dot] at h; simp [h])
    (fun p => if 0 ≤ p ∧ p < 10 then some p else none) (fun j => 8 + j) (fun i j k => 4 * i + 2 * j + k)
    (by
      intro i h1 h2
      simp [address, dot] at h2 ⊢
      omega)
    (by
      intro i j k h
      obtain ⟨h1, h2, h3, h4, h5, h6, _⟩ := h
      simp only [Nat.cast_ofNat] at h2 h4 h6
      refine ⟨?_, fun hp => ?_⟩
      · simp [address, dot]
        constructor <;> omega
      · have := hin _ hp
        simp [address, dot] at this
        omega)
  refine ⟨μ', h1, ?_, ?_⟩
  · have := h2 0 (by decide) (by decide)
    simpa [address, dot, List.range_succ] using this
  · have := h2 1 (by decide) (by decide)
    simpa [address, dot, List.range_succ] using this

end
end Ra.Props
