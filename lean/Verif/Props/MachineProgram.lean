import Verif.Model.MachineProgram
import Verif.Props.MachinePly
import Verif.Props.MachineView
import Verif.Props.PointerExact
import Verif.Props.Value
import Verif.Props.Safe
/-!
# C103: programs with 64 bits
-/

namespace Ra.Spec
section
variable {V : Type}

/-- The product of the lengths that aren't zero can be represented. -/
def Counted (s : List Int) : Prop := (((s.map Int.natAbs).filter (· ≠ 0)).prod : Int) ≤ 9223372036854775807

/-- The shape that an operation asks for. -/
def asks (vs : List (Value V)) : Cmd V → List Int
  | .op (.create _ _ _ s) => s
  | .op (.resizeShape _ _ _ s) => s
  | .op (.resize i _ _ n) =>
    match vs[i]? with
    | some ⟨_ :: t, _⟩ => n :: t.map Nat.cast
    | _ => []
  | .op (.pushBack i _ _) =>
    match vs[i]? with
    | some ⟨[n], _⟩ => [(n : Int) + 1]
    | _ => []
  | _ => []

/-- In all the shapes that the operations ask for, the product of the lengths that aren't zero can be represented. And the arrays that aren't given a shape have at most one axis. -/
def Moderate : List (Cmd V) → List (Value V) → Prop
  | [], _ => True
  | c :: cs, vs => Counted (asks vs c) ∧ (∀ r, c = .op (.default (some r)) → r ≤ 1) ∧ ∀ vs', Cmd.effect vs c = some vs' → Moderate cs vs'

end
end Ra.Spec

namespace Ra.Props
open Spec

/-- The steps are row-major, in arrays without elements too. -/
def StrictSteps : List Dim → Prop
  | [] => True
  | d :: ds => d.step = (ds.map Dim.len).prod ∧ StrictSteps ds

/-! Products. -/

theorem counted_cons {n : Int} {s : List Int} (h : Counted (n :: s)) : Counted s := by
  simp only [Counted, List.map_cons] at h ⊢
  by_cases hn : n.natAbs = 0
  · simpa [List.filter_cons, hn] using h
  · rw [List.filter_cons, if_pos (by simpa using hn), List.prod_cons] at h
    refine le_trans ?_ h
    have : 1 ≤ n.natAbs := by omega
    exact_mod_cast Nat.le_mul_of_pos_left _ this

theorem size_filter (s : List Nat) : size s ≤ (s.filter (· ≠ 0)).prod := by
  induction s with
  | nil => simp [size]
  | cons n s ih =>
    by_cases hn : n = 0
    · simp [size, hn]
    · rw [List.filter_cons, if_pos (by simpa using hn), List.prod_cons]
      exact Nat.mul_le_mul_left _ ih

theorem natAbs_cast (s : List Nat) : (s.map (Nat.cast : Nat → Int)).map Int.natAbs = s := by
  induction s with
  | nil => rfl
  | cons n s ih => rw [List.map_cons, List.map_cons, ih, Int.natAbs_natCast]

theorem counted_size {s : List Nat} (h : Counted (s.map Nat.cast)) : (size s : Int) ≤ dimMax := by
  rw [Counted, natAbs_cast] at h
  have := size_filter s
  simp only [dimMax]
  omega

theorem counted_drop {s : List Nat} (h : Counted (s.map Nat.cast)) (k : Nat) : Counted ((s.drop k).map Nat.cast) := by
  induction k generalizing s with
  | zero => exact h
  | succ k ih =>
    cases s with
    | nil => exact h
    | cons n s => exact ih (counted_cons h)

theorem counted_toNat {s : List Int} (h : Counted s) : Counted ((s.map Int.toNat).map Nat.cast) := by
  rw [Counted, natAbs_cast]
  refine le_trans ?_ h
  clear h
  norm_cast
  induction s with
  | nil => simp
  | cons n s ih =>
    simp only [List.map_cons, List.filter_cons]
    by_cases hn : n.toNat = 0
    · by_cases hn' : n.natAbs = 0
      · simpa [hn, hn'] using ih
      · rw [if_neg (by simpa using hn), if_pos (by simpa using hn'), List.prod_cons]
        refine le_trans ih (Nat.le_mul_of_pos_left _ (by omega))
    · rw [if_pos (by simpa using hn), if_pos (by simp; omega), List.prod_cons, List.prod_cons]
      exact Nat.mul_le_mul (by omega) ih

theorem counted_less {n m : Int} (hn : n.natAbs ≤ m.natAbs) {s : List Int} (h : Counted (m :: s)) : Counted (n :: s) := by
  by_cases h0 : n.natAbs = 0
  · have := counted_cons h
    simp only [Counted, List.map_cons, List.filter_cons] at this ⊢
    rwa [if_neg (by simpa using h0)]
  · simp only [Counted, List.map_cons, List.filter_cons] at h ⊢
    rw [if_pos (by simp; omega), List.prod_cons] at h
    rw [if_pos (by simpa using h0), List.prod_cons]
    refine le_trans ?_ h
    exact_mod_cast Nat.mul_le_mul_right _ hn

theorem filter_prod (s : List Nat) : (s.filter (· ≠ 0)).prod ≠ 0 := by
  induction s with
  | nil => simp
  | cons n s ih =>
    rw [List.filter_cons]
    split
    · next hn =>
      rw [List.prod_cons]
      exact Nat.mul_ne_zero (by simpa using hn) ih
    · exact ih

theorem counted_pair {p n : Int} {s : List Int} (h : Counted (p :: n :: s)) : -dimMax - 1 ≤ p * n ∧ p * n ≤ dimMax ∧ Counted (p * n :: s) := by
  by_cases hp : p = 0
  · subst hp
    have := counted_cons h
    refine ⟨by simp [dimMax], by simp [dimMax], ?_⟩
    rw [Int.zero_mul]
    exact counted_less (by simp) this
  by_cases hn : n = 0
  · subst hn
    refine ⟨by simp [dimMax], by simp [dimMax], ?_⟩
    rw [Int.mul_zero]
    have := counted_cons h
    exact this
  have hpn : p * n ≠ 0 := Int.mul_ne_zero hp hn
  have h1 : Counted (p * n :: s) := by
    simp only [Counted, List.map_cons, List.filter_cons] at h ⊢
    rw [if_pos (by simpa using hp), if_pos (by simpa using hn), List.prod_cons, List.prod_cons, ← Nat.mul_assoc] at h
    rw [if_pos (by simpa using hpn), List.prod_cons, Int.natAbs_mul]
    exact h
  have h2 : ((p * n).natAbs : Int) ≤ dimMax := by
    have := h1
    simp only [Counted, List.map_cons, List.filter_cons] at this
    rw [if_pos (by simpa using hpn), List.prod_cons] at this
    simp only [dimMax]
    refine le_trans ?_ this
    norm_cast
    refine Nat.le_mul_of_pos_right _ (Nat.pos_of_ne_zero ?_)
    exact filter_prod _
  exact ⟨by omega, by omega, h1⟩

/-! The arithmetic of each operation. -/

theorem dimvSizeLoopM_counted (dims : List Dim) (p : Int) (h : Counted (p :: dims.map Dim.len)) : dimvSizeLoopM p dims = .ok (dimvSizeLoop p dims) := by
  induction dims generalizing p with
  | nil => rfl
  | cons d ds ih =>
    obtain ⟨h1, h2, h3⟩ := counted_pair h
    simp only [dimvSizeLoopM, dimvSizeLoop]
    split
    · rfl
    · rw [mulM, if_pos (by simp [h1, h2])]
      exact ih _ h3

theorem dimvSizeM_counted (dims : List Dim) (h : Counted (dims.map Dim.len)) : dimvSizeM dims = .ok (dimvSize dims) := by
  refine dimvSizeLoopM_counted dims 1 ?_
  simpa [Counted, List.filter_cons] using h

theorem fillSteps_size {r : List (Int × Int)} {p : Int} {dv : List Dim} (h : fillSteps r = (.ok p, dv)) :
    p = ((r.map Prod.fst).prod) ∧ dv.map Dim.len = r.map Prod.fst ∧ StrictSteps dv ∧ p = (dv.map Dim.len).prod := by
  induction r generalizing p dv with
  | nil =>
    simp only [fillSteps, Prod.mk.injEq, Except.ok.injEq] at h
    obtain ⟨rfl, rfl⟩ := h
    simp [StrictSteps]
  | cons x r ih =>
    obtain ⟨n, st⟩ := x
    simp only [fillSteps] at h
    split at h
    · simp at h
    · next q dv' hq =>
      obtain ⟨e1, e2, e3, e4⟩ := ih hq
      split at h
      · simp only [Prod.mk.injEq, Except.ok.injEq] at h
        obtain ⟨rfl, rfl⟩ := h
        refine ⟨by simp [e1, Int.mul_comm], by simp [e2], ⟨e4, e3⟩, by simp [e4, Int.mul_comm]⟩
      · simp at h

theorem counted_prod {n : Int} {s : List Int} (h : Counted (n :: s)) : -dimMax - 1 ≤ s.prod * n ∧ s.prod * n ≤ dimMax := by
  have key : ∀ (s : List Int) (p : Int), Counted (p :: s) → Counted [p * s.prod] := by
    intro s
    induction s with
    | nil => intro p h; simpa using h
    | cons n s ih =>
      intro p h
      have := ih _ (counted_pair h).2.2
      rwa [Int.mul_assoc, ← List.prod_cons] at this
  have h1 := key s n h
  have h2 : Counted [n * s.prod, 1] := by
    simp only [Counted, List.map_cons, List.filter_cons] at h1 ⊢
    by_cases h0 : (n * s.prod).natAbs = 0
    · simp [h0]
    · rw [if_pos (by simpa using h0)] at h1 ⊢
      simpa using h1
  obtain ⟨a, b, _⟩ := counted_pair h2
  rw [Int.mul_one, Int.mul_comm] at a b
  exact ⟨a, b⟩

theorem fillStepsM_counted (r : List (Int × Int)) (h : Counted (r.map Prod.fst)) : fillStepsM r = fillSteps r := by
  induction r with
  | nil => rfl
  | cons x r ih =>
    obtain ⟨n, st⟩ := x
    have hr := ih (counted_cons h)
    simp only [fillStepsM, fillSteps, hr]
    rcases hq : fillSteps r with ⟨q | q, dv⟩
    · rfl
    · simp only
      obtain ⟨e1, _, _, _⟩ := fillSteps_size hq
      obtain ⟨a, b⟩ := counted_prod h
      have e5 : mulM q n = .ok (q * n) := by
        rw [mulM, if_pos]
        rw [e1]
        exact fits_iff.mpr ⟨a, b⟩
      rw [e5]

theorem fillM_counted (a : Arr) (s : List Int) (h : Counted s) : a.fillM s = a.fill s := by
  simp only [Arr.fillM, Arr.fill]
  rw [fillStepsM_counted]
  rw [List.map_fst_zip (by simp; omega)]
  exact h

section
variable {V : Type}

theorem onArr_congr {i : Nat} {f g : Arr → Mem V → Except Fault Unit × Arr × Mem V} {as : List Arr} {μ : Mem V} (h : ∀ a, as[i]? = some a → f a μ = g a μ) : onArr i f as μ = onArr i g as μ := by
  unfold onArr
  split
  · next a ha => rw [h a ha]
  · rfl

theorem stepM_op {μ0 μ : Mem V} {as : List Arr} {vs : List (Value V)} (h : Same μ0 as vs μ) (o : Op V) (hc : Counted (asks vs (.op o))) : o.stepM as μ = o.step as μ := by
  match o, hc with
  | .default _, _ => rfl
  | .create rk o fill s, hc =>
    have e1 : Arr.createM rk o fill s μ = Arr.create rk o fill s μ := by
      unfold Arr.createM Arr.create
      rw [fillM_counted _ s hc]
      rcases Arr.fill ⟨rk, List.replicate (rk.getD 0) ⟨0, 0⟩, 0, 0⟩ s with ⟨e | n, a⟩
      · rfl
      · simp only
        split
        · rcases storeResize o fill n a μ with ⟨e | u, a', μ'⟩ <;> rfl
        · rfl
    simp only [Op.stepM, Op.step, e1]
    rcases Arr.create rk o fill s μ with ⟨e | u, μ'⟩ <;> rfl
  | .resize i o fill n, hc =>
    refine onArr_congr fun a ha => ?_
    obtain ⟨v, hv, hr⟩ := h.get ha
    have hl := hr.1.lens
    unfold Arr.resizeM Arr.resize
    cases hd : a.dims with
    | nil => rfl
    | cons d ds =>
      obtain ⟨sh, l⟩ := v
      cases sh with
      | nil => simp [hd] at hl
      | cons q t =>
        simp only [hd, List.map_cons, List.cons.injEq] at hl
        simp only [asks, hv] at hc
        simp only [Arr.size]
        rw [dimvSizeM_counted]
        simp only [List.map_cons, hl.2]
        exact hc
  | .resizeShape i o fill s, hc =>
    refine onArr_congr fun a _ => ?_
    unfold Arr.resizeShapeM Arr.resizeShape
    rw [fillM_counted _ s hc]
    rcases a.fill s with ⟨e | n, a'⟩ <;> rfl
  | .pushBack i o x, hc =>
    refine onArr_congr fun a ha => ?_
    obtain ⟨v, hv, hr⟩ := h.get ha
    have hl := hr.1.lens
    unfold Arr.pushBackM Arr.pushBack
    rcases hd : a.dims with _ | ⟨d, _ | ⟨e, ds⟩⟩
    · rfl
    · obtain ⟨sh, l⟩ := v
      rcases sh with _ | ⟨q, _ | ⟨q', t⟩⟩
      · simp [hd] at hl
      · simp [hd] at hl
        simp only [asks, hv] at hc
        have := counted_prod hc
        simp only [List.prod_nil, Int.one_mul] at this
        have e1 : addM d.len 1 = .ok (d.len + 1) := by rw [addM, if_pos (by rw [hl]; simp; omega)]
        simp only [e1]
        rcases storeResize o (fun _ => x) (a.n + 1) a μ with ⟨e | u, a', μ'⟩ <;> rfl
      · simp [hd] at hl
    · rfl
  | .popBack _, _ => rfl
  | .copy _ _ _, _ => rfl
  | .swap _ _, _ => rfl
  | .run _, _ => rfl

theorem strict_fill {dims : List Dim} {s : List Nat} (h : StrictSteps dims) (hl : dims.map Dim.len = s.map Nat.cast) : filldimv (s.map Nat.cast) = .ok (dims, (size s : Int)) := by
  induction dims generalizing s with
  | nil =>
    have : s = [] := by simpa using hl.symm
    subst this
    rfl
  | cons d ds ih =>
    cases s with
    | nil => simp at hl
    | cons n s =>
      simp only [List.map_cons, List.cons.injEq] at hl
      have e := ih h.2 hl.2
      have e2 : (ds.map Dim.len).prod = (size s : Int) := by
        rw [hl.2]
        clear e hl h ih
        induction s with
        | nil => rfl
        | cons n s ih => simp [size, ih]
      simp only [List.map_cons, filldimv, e, bind, Except.bind, pure, Except.pure]
      rw [if_pos (by omega)]
      obtain ⟨len, step⟩ := d
      obtain ⟨h1, h2⟩ := h
      simp only at hl h1
      rw [hl.1, h1, e2]
      simp [size, Int.mul_comm]

theorem strict_room {μ : Mem V} {a : Arr} {v : Value V} (hr : Rep μ a v) (h : StrictSteps a.dims) {S : List Nat} (hp : v.shape <+: S) :
    Roomy (a.view.refs : Iter (Act V) (Lv V)) S [some (a.base, (a.n : Int))] := by
  obtain ⟨t, rfl⟩ := hp
  have e1 := C68_array (m := Act V) (α := Lv V) v.shape a.base a.view (by simp only [View.ofShape, strict_fill h hr.1.lens]; rfl) (fun p => pure (Lv.ref p))
  rw [← hr.1.count] at e1
  refine C68_prefix a.dims a.base _ v.shape t _ ?_ e1 ?_
  · have := congrArg List.length hr.1.lens
    simpa using this
  · intro x hx
    simp [pointersAt] at hx
    subst hx
    have : dot (a.dims.map Dim.step) [] = 0 := by cases a.dims <;> rfl
    simp [InArray, this]

theorem strict_last {dims : List Dim} (h : StrictSteps dims) {r : Nat} (hr : dims.length ≤ r + 1) : stepOf dims r = 0 ∨ stepOf dims r = 1 := by
  induction dims generalizing r with
  | nil => left; rfl
  | cons d ds ih =>
    cases r with
    | zero =>
      have : ds = [] := by simpa using hr
      subst this
      right
      simpa [stepOf] using h.1
    | succ r =>
      have := ih h.2 (r := r) (by simpa using hr)
      simpa [stepOf] using this

theorem strict_mul {dims : List Dim} (h : StrictSteps dims) {r : Nat} (hr : dims.length ≤ r + 1) {d : Int} (h0 : 0 ≤ d) (h1 : d ≤ dimMax) : fits (stepOf dims r * d) = true := by
  rcases strict_last h hr with e | e <;> rw [e, fits_iff] <;> simp [dimMax] at h1 ⊢ <;> omega

/-- What traversals need of an expression. -/
theorem exp_room {μ0 μ : Mem V} {as : List Arr} {vs : List (Value V)} (h : Same μ0 as vs μ) (hst : ∀ a ∈ as, StrictSteps a.dims) (hco : ∀ v ∈ vs, Counted (v.shape.map Nat.cast))
    {S : List Nat} (e : Exp V) (t : Iter (Act V) (Lv V)) (ht : e.iter as = some t) (hS : ∀ s ∈ Exp.shapes vs e, s <+: S) :
    t.ptrs.length = (e.stores as).length ∧ (pointersAt t []).length = (e.stores as).length ∧ Roomy t S (e.stores as) ∧ SizedArrays (e.stores as) ∧
      ∀ (r : Nat) (d : Int), S.length ≤ r + 1 → 0 ≤ d → d ≤ dimMax → t.mulFits r d = true := by
  induction e generalizing t with
  | const x =>
    simp only [Ra.Exp.iter, Option.some.injEq] at ht
    subst ht
    refine ⟨rfl, rfl, ?_, by simp [SizedArrays, Exp.stores], fun _ _ _ _ _ => rfl⟩
    intro k n hk i hi u h0 h1 x hx
    simp [pointersAt] at hx
  | arr i =>
    simp only [Ra.Exp.iter] at ht
    split at ht
    · next a ha =>
      simp only [Option.some.injEq] at ht
      subst ht
      obtain ⟨v, hv, hr⟩ := h.get ha
      have hp := hS v.shape (by simp [Exp.shapes, hv])
      have hs := hst a (List.mem_of_getElem? ha)
      refine ⟨by simp [Exp.stores, ha, View.refs, Iter.ptrs], by simp [Exp.stores, ha, View.refs, pointersAt], ?_, ?_, ?_⟩
      · simp only [Exp.stores, ha]
        exact strict_room hr hs hp
      · simp only [Exp.stores, ha, SizedArrays, List.mem_singleton, forall_eq]
        refine ⟨_, _, rfl, ?_⟩
        rw [hr.1.count]
        exact counted_size (hco v (List.mem_of_getElem? hv))
      · intro r d hr1 h0 h1
        refine strict_mul hs ?_ h0 h1
        have := congrArg List.length hr.1.lens
        have := hp.length_le
        simp [Arr.view] at *
        omega
    · cases ht
  | op f a b iha ihb =>
    simp only [Ra.Exp.iter] at ht
    split at ht
    · next x y hx hy =>
      simp only [Option.some.injEq] at ht
      subst ht
      obtain ⟨a1, a2, a3, a4, a5⟩ := iha x hx fun s hs => hS s (by simp [Exp.shapes, hs])
      obtain ⟨b1, b2, b3, b4, b5⟩ := ihb y hy fun s hs => hS s (by simp [Exp.shapes, hs])
      refine ⟨by simp [Exp.stores, binaryOp, Iter.ptrs, ptrsList, a1, b1], by simp [Exp.stores, binaryOp, pointersAt, pointersAts, a2, b2], ?_, ?_, ?_⟩
      · exact C68_node S _ x y _ _ a3 b3 a2
      · intro z hz
        simp only [Exp.stores, List.mem_append] at hz
        rcases hz with hz | hz
        · exact a4 z hz
        · exact b4 z hz
      · intro r d hr h0 h1
        simp [binaryOp, Iter.mulFits, mulFitsList, a5 r d hr h0 h1, b5 r d hr h0 h1]
    · cases ht

theorem longest_counted {ss : List (List Nat)} (h : ∀ s ∈ ss, Counted (s.map Nat.cast)) : Counted ((longest ss).map Nat.cast) := by
  by_cases hs : ss = []
  · subst hs
    simp [longest, Counted]
  · exact h _ (longest_mem ss hs)

theorem shapes_counted {vs : List (Value V)} (hco : ∀ v ∈ vs, Counted (v.shape.map Nat.cast)) (e : Exp V) : ∀ s ∈ Exp.shapes vs e, Counted (s.map Nat.cast) := by
  induction e with
  | const x => simp [Exp.shapes, Counted]
  | arr i =>
    simp only [Exp.shapes]
    split
    · next v hv => simpa using hco v (List.mem_of_getElem? hv)
    · simp
  | op f a b iha ihb =>
    intro s hs
    simp only [Exp.shapes, List.mem_append] at hs
    rcases hs with hs | hs
    · exact iha s hs
    · exact ihb s hs

theorem assignM_eq {μ0 μ : Mem V} {as : List Arr} {vs : List (Value V)} (h : Same μ0 as vs μ) (hst : ∀ a ∈ as, StrictSteps a.dims) (hco : ∀ v ∈ vs, Counted (v.shape.map Nat.cast))
    (dyn : Bool) (z : List Int) (hz : ∀ i ∈ z, i = 0) {i : Nat} {a : Arr} (ha : as[i]? = some a) (e : Exp V) (t : Iter (Act V) (Lv V)) (ht : e.iter as = some t)
    (op : List (Lv V) → Act V (Lv V)) :
    assignM op dyn z as a e t = (do let _ ← ply (β := Unit) dyn never z (.node (mapOp op) [a.view.refs, t]); pure ()) := by
  obtain ⟨v, hv, hr⟩ := h.get ha
  have hsh := assign_shape h ha hv e t ht (mapOp op)
  obtain ⟨hw, _⟩ := exp_leaves h e t ht
  have hw0 : (a.view.refs : Iter (Act V) (Lv V)).WF := (refs_shape (C30_elements a μ _ hr.1).1 : HasShape (a.view.refs : Iter (Act V) (Lv V)) _).wf
  have hwf : (Iter.node (mapOp op) [a.view.refs, t]).WF := ⟨by simp, hw0, hw, trivial⟩
  suffices plyM (β := Unit) (some (a.base, (a.n : Int)) :: e.stores as) dyn never z (.node (mapOp op) [a.view.refs, t]) = ply dyn never z (.node (mapOp op) [a.view.refs, t]) by
    rw [assignM, this]
  by_cases hag : agreed (v.shape :: Exp.shapes vs e) = true
  · have hS := (hsh _).mpr ⟨rfl, hag⟩
    have hpre := (agreed_iff _).mp hag
    have hcount := longest_counted (ss := v.shape :: Exp.shapes vs e) (by
      intro s hs
      rcases List.mem_cons.mp hs with rfl | hs
      · exact hco v (List.mem_of_getElem? hv)
      · exact shapes_counted hco e s hs)
    generalize longest (v.shape :: Exp.shapes vs e) = S at hS hpre hcount
    have hs := hst a (List.mem_of_getElem? ha)
    obtain ⟨a1, a2, a3, a4, a5⟩ := exp_room h hst hco e t ht (fun s hs => hpre s (by simp [hs]))
    rw [plyM_ply _ ?_ dyn never _ ?_ S hS ?_ ?_ z hz, ply_never dyn _ _ hS z hz]
    · have := Spec.search_none (β := Unit) (elem (.node (mapOp op) [a.view.refs, t])) (rowMajor S)
      simp only [never] at this ⊢
      rw [this]
      simp
    · intro x hx
      rcases List.mem_cons.mp hx with rfl | hx
      · exact ⟨_, _, rfl, by rw [hr.1.count]; exact counted_size (hco v (List.mem_of_getElem? hv))⟩
      · exact a4 x hx
    · simp [Iter.ptrs, ptrsList, View.refs, a1]
    · exact C68_node S _ _ t [some (a.base, (a.n : Int))] _ (strict_room hr hs (hpre _ (by simp))) a3 (by simp [View.refs, pointersAt])
    · intro _
      refine ⟨fun r hrk k _ _ _ => ?_, fun k => counted_size (counted_drop hcount k)⟩
      have hsz := counted_size (counted_drop hcount k)
      have hlen : S.length ≤ r + 1 := by
        have := congrArg List.length hS.natShape
        rw [length_natShape] at this
        omega
      have e1 : (a.view.refs : Iter (Act V) (Lv V)).mulFits r (size (S.drop k)) = true := by
        refine strict_mul hs ?_ (by omega) hsz
        have := congrArg List.length hr.1.lens
        have := (hpre v.shape (by simp)).length_le
        simp [Arr.view] at *
        omega
      simp [Iter.mulFits, mulFitsList, e1, a5 r _ hlen (by omega) hsz]
  · have hno : (Iter.node (mapOp op) [a.view.refs, t]).validate = false := by
      cases hvd : (Iter.node (mapOp op) [a.view.refs, t]).validate with
      | false => rfl
      | true =>
        obtain ⟨s, hs⟩ := hasShape_of_bounded hwf ((validate_iff _).mp hvd)
        exact absurd ((hsh _).mp hs).2 hag
    simp only [plyM, ply, plyRavelM, plyRavel, plyFixedM, plyFixed, hno]
    rfl

theorem frombM_strict (lo n : Int) (hn : n ≤ dimMax) (dims : List Dim) (s : List Nat) (h : StrictSteps dims) (hl : dims.map Dim.len = s.map Nat.cast) (pl : Int) (bk : Nat) (j : List Int)
    (h1 : lo ≤ pl) (h2 : pl + size s ≤ lo + n) :
    frombM lo n pl bk dims (j.map fun x => .scalar (.const x)) = fromb pl bk dims (j.map fun x => .scalar (.const x)) := by
  induction dims generalizing s pl j with
  | nil => cases j <;> rfl
  | cons d ds ih =>
    cases s with
    | nil => simp at hl
    | cons q s =>
      simp only [List.map_cons, List.cons.injEq] at hl
      obtain ⟨hd, hl⟩ := hl
      obtain ⟨e1, h3⟩ := h
      have e2 : (ds.map Dim.len).prod = (size s : Int) := by
        rw [hl]
        clear hl h2 ih
        induction s with
        | nil => rfl
        | cons n s ih => simp [size, ih]
      rw [e2] at e1
      cases j with
      | nil => rfl
      | cons x j =>
        simp only [List.map_cons, frombM, fromb]
        rcases hx : ((LenExpr.const x).wlen d.len).val with f | i
        · rfl
        · simp only [bind, Except.bind]
          split
          · next hin =>
            have hi : 0 ≤ i ∧ i < q := by
              rcases hin with hin | ⟨hin, _⟩
              · simpa [inside, hd] using hin
              · rw [hd] at hin
                simp only [UNB] at hin
                omega
            have b1 : i * (size s : Int) + size s ≤ size (q :: s) := by
              have : (i + 1) * (size s : Int) ≤ (q : Int) * size s := Int.mul_le_mul_of_nonneg_right (by omega) (by omega)
              simp only [size]
              push_cast
              rw [Int.add_mul] at this
              omega
            have b0 : 0 ≤ i * (size s : Int) := Int.mul_nonneg hi.1 (by omega)
            have e3 : mulM i d.step = .ok (i * d.step) := by
              rw [e1, mulM, if_pos]
              rw [fits_iff]
              simp only [dimMax] at hn ⊢
              omega
            have e4 : movePtr lo n pl (i * d.step) = .ok (pl + i * d.step) := by
              rw [e1, movePtr, if_pos]
              omega
            simp only [e3, e4]
            exact ih s h3 hl _ j (by rw [e1]; omega) (by rw [e1]; omega)
          · rfl

theorem elemAtM_eq {μ : Mem V} {a : Arr} {v : Value V} (hr : Rep μ a v) (h : StrictSteps a.dims) (hc : Counted (v.shape.map Nat.cast)) (rd : Int → Act V Unit) (j : List Int) :
    a.elemAtM rd j = a.view.elemAt rd j := by
  have hcount := hr.1.count
  have := counted_size hc
  simp only [Arr.elemAtM, View.elemAt, View.fromM, View.from]
  rw [show a.view.dims = a.dims from rfl, show a.view.cp = a.base from rfl, frombM_strict a.base a.n (by omega) a.dims v.shape h hr.1.lens a.base 0 j (by omega) (by omega)]
  rcases fromb a.base 0 a.dims (j.map fun x => .scalar (.const x)) with f | x <;> rfl

theorem stepM_eq {μ0 μ : Mem V} {as : List Arr} {vs : List (Value V)} (h : Same μ0 as vs μ) (hst : ∀ a ∈ as, StrictSteps a.dims) (hco : ∀ v ∈ vs, Counted (v.shape.map Nat.cast))
    (dyn : Bool) (z : List Int) (hz : ∀ i ∈ z, i = 0) (c : Cmd V) (hc : Counted (asks vs c)) : c.stepM dyn z as μ = c.step dyn z as μ := by
  match c, hc with
  | .op o, hc => exact stepM_op h o hc
  | .set i j x, _ =>
    simp only [Cmd.stepM, Cmd.step]
    rcases ha : as[i]? with _ | a
    · rfl
    · obtain ⟨v, hv, hr⟩ := h.get ha
      simp only
      split
      · rw [elemAtM_eq hr (hst a (List.mem_of_getElem? ha)) (hco v (List.mem_of_getElem? hv))]
      · rfl
  | .assign i e, _ =>
    simp only [Cmd.stepM, Cmd.step]
    rcases ha : as[i]? with _ | a
    · rfl
    · rcases ht : e.iter as with _ | t
      · rfl
      · simp only [assignM_eq h hst hco dyn z hz ha e t ht setOp]
        rfl
  | .update f i e, _ =>
    simp only [Cmd.stepM, Cmd.step]
    rcases ha : as[i]? with _ | a
    · rfl
    · rcases ht : e.iter as with _ | t
      · rfl
      · simp only [assignM_eq h hst hco dyn z hz ha e t ht (updOp f)]
        rfl

/-! What holds after each operation. -/

theorem storeResize_dims {o : Option Int} {fill : Nat → V} {n : Int} {a : Arr} {μ : Mem V} : (storeResize o fill n a μ).2.1.dims = a.dims := by
  unfold storeResize
  split
  · rfl
  · split
    · rfl
    · cases o with
      | none => rfl
      | some b => simp only; split <;> rfl

theorem fill_strict {a a' : Arr} {s : List Int} {n : Int} (h : a.fill s = (.ok n, a')) : StrictSteps a'.dims := by
  unfold Arr.fill at h
  split at h
  · simp at h
  · simp only [Prod.mk.injEq] at h
    obtain ⟨h1, rfl⟩ := h
    exact (fillSteps_size (Prod.ext_iff.mpr ⟨h1, rfl⟩)).2.2.1

theorem onArr_strict {i : Nat} {f : Arr → Mem V → Except Fault Unit × Arr × Mem V} {as as' : List Arr} {μ μ' : Mem V} (hst : ∀ a ∈ as, StrictSteps a.dims)
    (hf : ∀ a ∈ as, ∀ a' μ', f a μ = (.ok (), a', μ') → StrictSteps a'.dims) (hs : onArr i f as μ = (.ok (), as', μ')) : ∀ a ∈ as', StrictSteps a.dims := by
  unfold onArr at hs
  split at hs
  · next a ha =>
    simp only [Prod.mk.injEq] at hs
    obtain ⟨h1, rfl, rfl⟩ := hs
    intro b hb
    rcases List.mem_or_eq_of_mem_set hb with hb | rfl
    · exact hst b hb
    · exact hf a (List.mem_of_getElem? ha) _ _ (Prod.ext_iff.mpr ⟨h1, rfl⟩)
  · simp at hs

theorem strict_one {d : Dim} {n : Int} (h : StrictSteps [d]) : StrictSteps [⟨n, d.step⟩] := h

theorem step_strict {μ μ' : Mem V} {as as' : List Arr} (hst : ∀ a ∈ as, StrictSteps a.dims) (o : Op V) (hd : ∀ r, o = .default (some r) → r ≤ 1)
    (hs : o.step as μ = (.ok (), as', μ')) : ∀ a ∈ as', StrictSteps a.dims := by
  match o, hd, hs with
  | .default rk, hd, hs =>
    simp only [Op.step] at hs
    split at hs
    · simp at hs
    · next h0 =>
      simp only [Prod.mk.injEq, true_and] at hs
      obtain ⟨rfl, rfl⟩ := hs
      intro a ha
      rcases List.mem_append.mp ha with ha | ha
      · exact hst a ha
      · simp only [List.mem_singleton] at ha
        subst ha
        have : rk.getD 1 = 1 := by
          cases rk with
          | none => rfl
          | some r =>
            have := hd r rfl
            have : r ≠ 0 := fun e => h0 (by rw [e])
            simp
            omega
        simp [Arr.default, this, StrictSteps]
  | .create rk o fill s, _, hs =>
    simp only [Op.step] at hs
    split at hs
    · next a μ1 hc =>
      simp only [Prod.mk.injEq, true_and] at hs
      obtain ⟨rfl, rfl⟩ := hs
      intro b hb
      rcases List.mem_append.mp hb with hb | hb
      · exact hst b hb
      · simp only [List.mem_singleton] at hb
        subst hb
        unfold Arr.create at hc
        split at hc
        · simp at hc
        · next n a0 hf =>
          split at hc
          · split at hc
            · next a' μ2 hr =>
              simp only [Prod.mk.injEq, Except.ok.injEq] at hc
              obtain ⟨rfl, rfl⟩ := hc
              have := storeResize_dims (o := o) (fill := fill) (n := n) (a := a0) (μ := μ)
              rw [hr] at this
              rw [show a'.dims = a0.dims from this]
              exact fill_strict hf
            · simp at hc
          · simp at hc
    · simp at hs
  | .resize i o fill n, _, hs =>
    refine onArr_strict hst (fun a ha a' μ1 hf => ?_) hs
    have h1 := hst a ha
    unfold Arr.resize at hf
    split at hf
    · simp at hf
    · next d ds hd =>
      rw [hd] at h1
      simp only at hf
      have := storeResize_dims (o := o) (fill := fill) (n := Arr.size { a with dims := ⟨n, d.step⟩ :: ds }) (a := { a with dims := ⟨n, d.step⟩ :: ds }) (μ := μ)
      rw [hf] at this
      rw [show a'.dims = _ from this]
      exact h1
  | .resizeShape i o fill s, _, hs =>
    refine onArr_strict hst (fun a ha a' μ1 hf => ?_) hs
    unfold Arr.resizeShape at hf
    split at hf
    · simp at hf
    · next n a0 hfl =>
      have := storeResize_dims (o := o) (fill := fill) (n := n) (a := a0) (μ := μ)
      rw [hf] at this
      rw [show a'.dims = a0.dims from this]
      exact fill_strict hfl
  | .pushBack i o x, _, hs =>
    refine onArr_strict hst (fun a ha a' μ1 hf => ?_) hs
    have h1 := hst a ha
    unfold Arr.pushBack at hf
    split at hf
    · next d hd =>
      rw [hd] at h1
      split at hf
      · simp only [Prod.mk.injEq, true_and] at hf
        obtain ⟨rfl, rfl⟩ := hf
        exact h1
      · simp at hf
    · simp at hf
  | .popBack i, _, hs =>
    refine onArr_strict hst (fun a ha a' μ1 hf => ?_) hs
    have h1 := hst a ha
    unfold Arr.popBack at hf
    split at hf
    · next d hd =>
      rw [hd] at h1
      split at hf
      · simp only at hf
        split at hf
        · simp at hf
        · simp only [Prod.mk.injEq, true_and] at hf
          obtain ⟨rfl, rfl⟩ := hf
          exact h1
      · simp at hf
    · simp at hf
  | .copy i j o, _, hs =>
    simp only [Op.step] at hs
    split at hs
    · next b hb =>
      split at hs
      · simp only [Prod.mk.injEq, true_and] at hs
        obtain ⟨rfl, rfl⟩ := hs
        exact hst
      · refine onArr_strict hst (fun a ha a' μ1 hf => ?_) hs
        have h1 := hst b (List.mem_of_getElem? hb)
        split at hf
        · unfold Arr.copyFrom at hf
          split at hf
          · simp at hf
          · split at hf
            · simp only [Prod.mk.injEq, true_and] at hf
              obtain ⟨rfl, rfl⟩ := hf
              exact h1
            · simp at hf
        · simp at hf
    · simp at hs
  | .swap i j, _, hs =>
    simp only [Op.step] at hs
    split at hs
    · next a b ha hb =>
      split at hs
      · simp only [Prod.mk.injEq, true_and] at hs
        obtain ⟨rfl, rfl⟩ := hs
        exact hst
      · simp only [Prod.mk.injEq] at hs
        obtain ⟨h1, rfl, rfl⟩ := hs
        have ha' := hst a (List.mem_of_getElem? ha)
        have hb' := hst b (List.mem_of_getElem? hb)
        have key : StrictSteps (Arr.swap a b).2.1.dims ∧ StrictSteps (Arr.swap a b).2.2.dims := by
          unfold Arr.swap swapDims
          simp only
          split
          · exact ⟨ha', hb'⟩
          · next x y hxy =>
            split at hxy
            · split at hxy
              · simp only [Except.ok.injEq, Prod.mk.injEq] at hxy
                obtain ⟨rfl, rfl⟩ := hxy
                exact ⟨hb', ha'⟩
              · simp at hxy
            · split at hxy
              · simp at hxy
              · split at hxy
                · split at hxy
                  · simp at hxy
                  · simp only [Except.ok.injEq, Prod.mk.injEq] at hxy
                    obtain ⟨rfl, rfl⟩ := hxy
                    exact ⟨hb', ha'⟩
                · simp only [bind, Except.bind] at hxy
                  split at hxy
                  · simp at hxy
                  · next w hw =>
                    split at hw
                    · simp at hw
                    · simp only [Except.ok.injEq] at hw
                      subst hw
                      simp only [pure, Except.pure, Except.ok.injEq, Prod.mk.injEq] at hxy
                      obtain ⟨rfl, rfl⟩ := hxy
                      exact ⟨hb', ha'⟩
        intro c hc
        rcases List.mem_or_eq_of_mem_set hc with hc | rfl
        · rcases List.mem_or_eq_of_mem_set hc with hc | rfl
          · exact hst c hc
          · exact key.1
        · exact key.2
    · simp at hs
  | .run p, _, hs =>
    simp only [Op.step, Prod.mk.injEq] at hs
    obtain ⟨_, rfl, _⟩ := hs
    exact hst

theorem cmd_strict {μ μ' : Mem V} {as as' : List Arr} (hst : ∀ a ∈ as, StrictSteps a.dims) (dyn : Bool) (z : List Int) (c : Cmd V) (hd : ∀ r, c = .op (.default (some r)) → r ≤ 1)
    (hs : c.step dyn z as μ = (.ok (), as', μ')) : ∀ a ∈ as', StrictSteps a.dims := by
  match c, hd, hs with
  | .op o, hd, hs => exact step_strict hst o (fun r e => hd r (by rw [e])) hs
  | .set i j x, _, hs =>
    have : as' = as := by
      simp only [Cmd.step] at hs
      split at hs
      · split at hs
        · simp only [Prod.mk.injEq] at hs
          exact hs.2.1.symm
        · simp at hs
      · simp at hs
    rw [this]
    exact hst
  | .assign i e, _, hs =>
    have : as' = as := by
      simp only [Cmd.step] at hs
      split at hs
      · simp only [Prod.mk.injEq] at hs
        exact hs.2.1.symm
      · simp at hs
    rw [this]
    exact hst
  | .update f i e, _, hs =>
    have : as' = as := by
      simp only [Cmd.step] at hs
      split at hs
      · simp only [Prod.mk.injEq] at hs
        exact hs.2.1.symm
      · simp at hs
    rw [this]
    exact hst

theorem set_counted {vs : List (Value V)} (hco : ∀ v ∈ vs, Counted (v.shape.map Nat.cast)) (i : Nat) (w : Value V) (hw : Counted (w.shape.map Nat.cast)) :
    ∀ v ∈ vs.set i w, Counted (v.shape.map Nat.cast) := by
  intro v hv
  rcases List.mem_or_eq_of_mem_set hv with hv | rfl
  · exact hco v hv
  · exact hw

theorem add_counted {vs : List (Value V)} (hco : ∀ v ∈ vs, Counted (v.shape.map Nat.cast)) (w : Value V) (hw : Counted (w.shape.map Nat.cast)) :
    ∀ v ∈ vs ++ [w], Counted (v.shape.map Nat.cast) := by
  intro v hv
  rcases List.mem_append.mp hv with hv | hv
  · exact hco v hv
  · simp only [List.mem_singleton] at hv
    rw [hv]
    exact hw

theorem loop_counted (f : V → V → V) (i : Nat) (e : Exp V) (js : List (List Int)) {vs vs' : List (Value V)} (hco : ∀ v ∈ vs, Counted (v.shape.map Nat.cast))
    (h : loop f i e js vs = some vs') : ∀ v ∈ vs', Counted (v.shape.map Nat.cast) := by
  induction js generalizing vs with
  | nil =>
    simp only [loop, Option.some.injEq] at h
    rw [← h]
    exact hco
  | cons j js ih =>
    simp only [loop] at h
    split at h
    · next v x hv hx =>
      split at h
      · next y hy => exact ih (set_counted hco i (v.put _ _) (hco v (List.mem_of_getElem? hv))) h
      · cases h
    · cases h

theorem effect_counted {vs vs' : List (Value V)} (hco : ∀ v ∈ vs, Counted (v.shape.map Nat.cast)) (c : Cmd V) (hc : Counted (asks vs c)) (h : Cmd.effect vs c = some vs') :
    ∀ v ∈ vs', Counted (v.shape.map Nat.cast) := by
  match c, hc, h with
  | .op (.default rk), _, h =>
    simp only [Cmd.effect, Option.some.injEq] at h
    subst h
    refine add_counted hco _ ?_
    rw [Counted, natAbs_cast]
    have : (List.replicate (rk.getD 1) 0).filter (· ≠ 0) = ([] : List Nat) := by simp
    rw [this]
    decide
  | .op (.create _ _ fill s), hc, h =>
    simp only [Cmd.effect, Option.some.injEq] at h
    subst h
    exact add_counted hco _ (counted_toNat hc)
  | .op (.resize i _ fill n), hc, h =>
    simp only [Cmd.effect] at h
    split at h
    · next q t l hv =>
      simp only [Option.some.injEq] at h
      subst h
      simp only [asks, hv] at hc
      refine set_counted hco i _ ?_
      have := counted_toNat hc
      rwa [List.map_cons, toNat_cast] at this
    · cases h
  | .op (.resizeShape i _ fill s), hc, h =>
    simp only [Cmd.effect] at h
    split at h
    · simp only [Option.some.injEq] at h
      subst h
      exact set_counted hco i _ (counted_toNat hc)
    · cases h
  | .op (.pushBack i _ x), hc, h =>
    simp only [Cmd.effect] at h
    split at h
    · next n l hv =>
      simp only [Option.some.injEq] at h
      subst h
      simp only [asks, hv] at hc
      exact set_counted hco i _ (by simpa using hc)
    · cases h
  | .op (.popBack i), _, h =>
    simp only [Cmd.effect] at h
    split at h
    · next n l hv =>
      simp only [Option.some.injEq] at h
      subst h
      refine set_counted hco i _ ?_
      have := hco _ (List.mem_of_getElem? hv)
      exact counted_less (by simp; omega) this
    · cases h
  | .op (.copy i j _), _, h =>
    simp only [Cmd.effect] at h
    split at h
    · next w hw =>
      simp only [Option.some.injEq] at h
      subst h
      exact set_counted hco i _ (hco w (List.mem_of_getElem? hw))
    · cases h
  | .op (.swap i j), _, h =>
    simp only [Cmd.effect] at h
    split at h
    · next v w hv hw =>
      simp only [Option.some.injEq] at h
      subst h
      exact set_counted (set_counted hco i _ (hco w (List.mem_of_getElem? hw))) j _ (hco v (List.mem_of_getElem? hv))
    · cases h
  | .op (.run _), _, h => cases h
  | .set i j x, _, h =>
    simp only [Cmd.effect] at h
    split at h
    · next v hv =>
      split at h
      · simp only [Option.some.injEq] at h
        subst h
        exact set_counted hco i _ (hco v (List.mem_of_getElem? hv))
      · cases h
    · cases h
  | .assign i e, _, h =>
    simp only [Cmd.effect] at h
    split at h
    · split at h
      · exact loop_counted _ i e _ hco h
      · cases h
    · cases h
  | .update f i e, _, h =>
    simp only [Cmd.effect] at h
    split at h
    · split at h
      · exact loop_counted _ i e _ hco h
      · cases h
    · cases h

theorem programM_eq {μ0 : Mem V} (dyn : Bool) (z : List Int) (hz : ∀ i ∈ z, i = 0) (cs : List (Cmd V)) (hr : ∀ p, Cmd.op (.run p) ∉ cs) {μ : Mem V} {as : List Arr} {vs : List (Value V)}
    (h : Same μ0 as vs μ) (hst : ∀ a ∈ as, StrictSteps a.dims) (hco : ∀ v ∈ vs, Counted (v.shape.map Nat.cast)) (hm : Moderate cs vs) :
    programM dyn z cs as μ = program dyn z cs as μ := by
  induction cs generalizing as vs μ with
  | nil => rfl
  | cons c cs ih =>
    obtain ⟨h1, h2, h3⟩ := hm
    simp only [programM, program, stepM_eq h hst hco dyn z hz c h1]
    rcases hs : c.step dyn z as μ with ⟨e | u, as', μ'⟩
    · rfl
    · obtain ⟨vs', he, hsame⟩ := step_same dyn z hz c (fun p e => hr p (by simp [e])) h hs
      exact ih (fun p hp => hr p (by simp [hp])) hsame (cmd_strict hst dyn z c h2 hs) (effect_counted hco c h1 he) (h3 vs' he)

/-- With 64 bits, a program does the same as without limits. -/
theorem C103_same_partial (dyn : Bool) (z : List Int) (hz : ∀ i ∈ z, i = 0) (cs : List (Cmd V)) (hr : ∀ p, Cmd.op (.run p) ∉ cs) (hm : Moderate cs []) (μ : Mem V) :
    programM dyn z cs [] μ = program dyn z cs [] μ :=
  programM_eq (μ0 := μ) dyn z hz cs hr (same_start μ) (by simp) (by simp) hm

theorem fprogram_cmd (dyn : Bool) (z : List Int) (cs : List (Cmd V)) (as : List Arr) (μ : Mem V) : fprogram dyn z (cs.map FCmd.cmd) as μ = program dyn z cs as μ := by
  induction cs generalizing as μ with
  | nil => rfl
  | cons c cs ih =>
    simp only [List.map_cons, fprogram, program, FCmd.step]
    rcases c.step dyn z as μ with ⟨e | u, as', μ'⟩
    · rfl
    · exact ih as' μ'

theorem cmd_known (cs : List (Cmd V)) (vs : List (Value V)) : FKnowns (cs.map FCmd.cmd) vs := by
  induction cs generalizing vs with
  | nil => trivial
  | cons c cs ih => exact ⟨trivial, fun vs' _ => ih vs'⟩

/-- C103, if the arrays that aren't given a shape have one axis at most. A program either gives the values that the operations give on values, or a check fails, or there's no memory, or the program isn't one that compiles (`abort`). There's no overflow, no pointer out of the arrays, and
no other undefined behaviour. The memory that isn't of the arrays doesn't change. What's missing is arrays that have more axes and aren't given a shape, since it's false of some of them (`C103_negation`). -/
theorem C103_partial (dyn : Bool) (z : List Int) (hz : ∀ i ∈ z, i = 0) (cs : List (Cmd V)) (hr : ∀ p, Cmd.op (.run p) ∉ cs) (hm : Moderate cs []) (as : List Arr) (μ0 μ : Mem V) (r : Except Fault Unit)
    (hs : programM dyn z cs [] μ0 = (r, as, μ)) :
    ((r = .ok () ∧ ∃ vs, effects cs [] = some vs ∧ List.Forall₂ (Represents μ) as vs) ∨ r = .error .check ∨ r = .error .alloc ∨ r = .error .abort) ∧ ∀ p, (μ0 p).isSome → μ p = μ0 p := by
  rw [C103_same_partial dyn z hz cs hr hm μ0] at hs
  have h1 := C98_safe_partial dyn z hz (cs.map FCmd.cmd) (by
    intro p hp
    obtain ⟨c, hc, e⟩ := List.mem_map.mp hp
    cases e
    exact hr p hc) as μ0 μ r (by rw [fprogram_cmd]; exact hs) (cmd_known cs [])
  refine ⟨?_, h1.2⟩
  rcases h1.1 with ⟨rfl, _⟩ | h
  · obtain ⟨vs, e1, e2, _⟩ := C75_values dyn z hz cs hr as μ0 μ hs
    exact .inl ⟨rfl, vs, e1, e2⟩
  · exact .inr h

end

/-- `ra::Big<int, 2> a({3, 4}, 1), b; b.resize({3, 4}); a(2, 3) = 9; b = a + 10; ra::Big<int, 1> c; c.push_back(5); b += c(0)`, with the last as `b += 5`. -/
def egModerate : List (Cmd Int) :=
  [.op (.create (some 2) (some 100) (fun _ => 1) [3, 4]), .op (.create none (some 200) (fun _ => 0) [0, 4]), .op (.resizeShape 1 (some 300) (fun _ => 0) [3, 4]), .set 0 [2, 3] 9,
    .assign 1 (.op (· + ·) (.arr 0) (.const 10)), .op (.default (some 1)), .op (.pushBack 2 (some 400) 5), .update (· + ·) 1 (.const 5)]

/-- To evaluate `Moderate`. -/
def moderateB : List (Cmd Int) → List (Value Int) → Bool
  | [], _ => true
  | c :: cs, vs => decide ((((asks vs c).map Int.natAbs).filter (· ≠ 0)).prod ≤ 9223372036854775807) && (match c with
    | .op (.default (some r)) => decide (r ≤ 1)
    | _ => true) && (match Cmd.effect vs c with
    | some vs' => moderateB cs vs'
    | none => true)

theorem moderateB_ok (cs : List (Cmd Int)) (vs : List (Value Int)) (h : moderateB cs vs = true) : Moderate cs vs := by
  induction cs generalizing vs with
  | nil => trivial
  | cons c cs ih =>
    simp only [moderateB, Bool.and_eq_true, decide_eq_true_eq] at h
    obtain ⟨⟨h1, h2⟩, h3⟩ := h
    refine ⟨?_, ?_, ?_⟩
    · simp only [Counted]
      exact_mod_cast h1
    · rintro r rfl
      simpa using h2
    · intro vs' he
      rw [he] at h3
      exact ih vs' h3

example : Moderate egModerate [] := moderateB_ok _ _ (by decide +kernel)

example : (programM true [] egModerate [] noMem).1 = .ok () ∧ (programM true [] egModerate [] noMem).2.2 311 = some 24 := by decide +kernel

/-- B51. C103 is false of arrays that have more than one axis and aren't given a shape: all the steps are 1. With `ra::Big<int, 2> a; a.resize(5)` the shape is (5, 0), and to find that `a(3, 0)` is out
of range a pointer is moved to 3 past the end. -/
theorem C103_negation : (programM true [] [.op (.default (some 2)), .op (.resize 0 (some 100) (fun _ => 0) 5), .set 0 [3, 0] (7 : Int)] [] noMem).1 = .error .ub ∧
    (program true [] [.op (.default (some 2)), .op (.resize 0 (some 100) (fun _ => 0) 5), .set 0 [3, 0] (7 : Int)] [] noMem).1 = .error .check := by decide +kernel

/-- It's not enough that the number of elements can be represented. `ra::Big<int, 3> a({0, 1 << 40, 1 << 40}, ra::none)` has none, but there's overflow. The order matters: there's no overflow if the axis of length 0 is the
last one. -/
theorem C103_empty_negation : (programM true [] [.op (.create (some 3) (some 100) (fun _ => (0 : Int)) [0, 1099511627776, 1099511627776])] [] noMem).1 = .error .ub ∧
    (programM true [] [.op (.create (some 3) (some 100) (fun _ => (0 : Int)) [1099511627776, 1099511627776, 0])] [] noMem).1 = .ok () := by decide +kernel

end Ra.Props
