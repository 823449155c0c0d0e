import Verif.Model.Opt
import Verif.Props.Expr
import Verif.Props.Static
import Mathlib.Tactic.Ring
/-!
# Arithmetic on iotas: C42
-/
set_option linter.unusedSectionVars false

namespace Ra.Spec

variable {m : Type → Type} {α : Type}

/-- Two expressions have the same shape and elements. -/
def Same (a b : Iter m α) : Prop :=
  (∀ s, HasShape a s ↔ HasShape b s) ∧ ∀ s j, HasShape a s → InRange s j → elem a j = elem b j

end Ra.Spec

namespace Ra.Props
open Spec

variable {m : Type → Type} [Monad m] [LawfulMonad m] [MonadFault m]

/-- The iotas that can be made: a static length may be unbounded. -/
def IotaOk (i : Seq1) : Prop := 0 ≤ i.len.val ∨ i.len = .st UNB

/-- Length of an iota. -/
def IotaLen (i : Seq1) (o : Length) : Prop :=
  match o with
  | none => i.len.val = UNB
  | some n => i.len.val = n

theorem iota_len {i : Seq1} (h : IotaOk i) : ∃ o, IotaLen i o := by
  rcases h with h | h
  · exact ⟨some i.len.val.toNat, by simp [IotaLen]; omega⟩
  · exact ⟨none, by simp [IotaLen, h, LenT.val]⟩

theorem iotaLen_unique {i : Seq1} {o o' : Length} (h : IotaLen i o) (h' : IotaLen i o') : o = o' := by
  have hU := UNB_val
  cases o <;> cases o' <;> simp [IotaLen] at h h' <;> first | rfl | omega | (congr; omega)

theorem iota_shape {i : Seq1} (s : List Length) : HasShape (i.iter : Iter m Int) s ↔ ∃ o, s = [o] ∧ IotaLen i o := by
  simp only [Seq1.iter, HasShape]
  constructor
  · intro h
    cases h with
    | cons h1 h2 =>
      rename_i o s
      cases h2
      refine ⟨o, rfl, ?_⟩
      cases o <;> exact h1
  · rintro ⟨o, rfl, h⟩
    refine .cons ?_ .nil
    cases o <;> exact h

theorem scalar_shape (c : m Int) (s : List Length) : HasShape (.scalar c : Iter m Int) s ↔ s = [] := by simp [HasShape]

theorem merge_unique {ss : List (List Length)} {s s' : List Length} (h : Merge ss s') : Merge ss s ↔ s = s' :=
  ⟨fun hs => C02_unique ss s s' hs h, fun e => e ▸ h⟩

theorem merge_left (o : Length) : Merge [[o], []] [o] := by
  refine ⟨by simp, ⟨[o], by simp, rfl⟩, ?_⟩
  intro k n
  simp

theorem merge_right (o : Length) : Merge [[], [o]] [o] := by
  refine ⟨by simp, ⟨[o], by simp, rfl⟩, ?_⟩
  intro k n
  simp

theorem merge_self (s : List Length) : Merge [s] s := ⟨by simp, ⟨s, by simp, rfl⟩, by simp⟩

theorem merge_both {o1 o2 : Length} {o : Length} (h : (o1 = o ∧ (o2 = o ∨ o2 = none)) ∨ (o2 = o ∧ o1 = none)) : Merge [[o1], [o2]] [o] := by
  refine ⟨by simp, ⟨[o1], by simp, rfl⟩, ?_⟩
  intro k n
  rcases k with _ | k
  · rcases h with ⟨rfl, rfl | rfl⟩ | ⟨rfl, rfl⟩ <;> simp
  · simp

theorem shape_node1 {op : List (m Int) → m Int} {a : Iter m Int} (s : List Length) : HasShape (.node op [a]) s ↔ HasShape a s := by
  simp only [HasShape, HasShapes]
  constructor
  · rintro ⟨ss, ⟨s0, ss', rfl, h, rfl⟩, hm⟩
    rw [merge_unique (merge_self s0)] at hm
    rwa [hm]
  · intro h
    exact ⟨[s], ⟨s, [], rfl, h, rfl⟩, merge_self s⟩

theorem shape_node2 {op : List (m Int) → m Int} {a b : Iter m Int} (s : List Length) :
    HasShape (.node op [a, b]) s ↔ ∃ sa sb, HasShape a sa ∧ HasShape b sb ∧ Merge [sa, sb] s := by
  simp only [HasShape, HasShapes]
  constructor
  · rintro ⟨ss, ⟨s0, ss', rfl, h, s1, ss1, rfl, h1, rfl⟩, hm⟩
    exact ⟨s0, s1, h, h1, hm⟩
  · rintro ⟨sa, sb, ha, hb, hm⟩
    exact ⟨[sa, sb], ⟨sa, [sb], rfl, ha, sb, [], rfl, hb, rfl⟩, hm⟩

theorem mkIota_ok {n : LenT} {o s : Int} (h : 0 ≤ n.val ∨ n = .st UNB) : mkIota n o s = .ok ⟨n, o, s⟩ := by
  cases n with
  | st n => rfl
  | dyn k =>
    simp only [LenT.val, reduceCtorEq, or_false] at h
    simp [mkIota, h]

theorem elem_iota (i : Seq1) (k : Int) (j : List Int) : elem (i.iter : Iter m Int) (k :: j) = pure (i.o + k * i.step) := by
  simp [Seq1.iter, elem, dot]

/-- Same as an operation with a scalar. -/
theorem same_is (f : Int → Int → Int) (i r : Seq1) (x : Int) (hl : r.len = i.len) (hf : ∀ k, r.o + k * r.step = f (i.o + k * i.step) x) :
    Same (r.iter : Iter m Int) (.node (binOp f) [i.iter, .scalar (pure x)]) := by
  have hlen : ∀ o, IotaLen r o ↔ IotaLen i o := by intro o; cases o <;> simp [IotaLen, hl]
  constructor
  · intro s
    rw [iota_shape, shape_node2]
    constructor
    · rintro ⟨o, rfl, h⟩
      exact ⟨[o], [], (iota_shape _).mpr ⟨o, rfl, (hlen o).mp h⟩, rfl, merge_left o⟩
    · rintro ⟨sa, sb, ha, hb, hm⟩
      obtain ⟨o, rfl, h⟩ := (iota_shape _).mp ha
      rw [scalar_shape] at hb
      subst hb
      rw [merge_unique (merge_left o)] at hm
      exact ⟨o, hm, (hlen o).mpr h⟩
  · intro s j hs hj
    obtain ⟨o, rfl, h⟩ := (iota_shape _).mp hs
    cases j with
    | nil => simp [InRange] at hj
    | cons k j => simp [elem, elems, binOp, mapOp, elem_iota, hf]

theorem same_si (f : Int → Int → Int) (i r : Seq1) (x : Int) (hl : r.len = i.len) (hf : ∀ k, r.o + k * r.step = f x (i.o + k * i.step)) :
    Same (r.iter : Iter m Int) (.node (binOp f) [.scalar (pure x), i.iter]) := by
  have hlen : ∀ o, IotaLen r o ↔ IotaLen i o := by intro o; cases o <;> simp [IotaLen, hl]
  constructor
  · intro s
    rw [iota_shape, shape_node2]
    constructor
    · rintro ⟨o, rfl, h⟩
      exact ⟨[], [o], rfl, (iota_shape _).mpr ⟨o, rfl, (hlen o).mp h⟩, merge_right o⟩
    · rintro ⟨sa, sb, ha, hb, hm⟩
      obtain ⟨o, rfl, h⟩ := (iota_shape _).mp hb
      rw [scalar_shape] at ha
      subst ha
      rw [merge_unique (merge_right o)] at hm
      exact ⟨o, hm, (hlen o).mpr h⟩
  · intro s j hs hj
    obtain ⟨o, rfl, h⟩ := (iota_shape _).mp hs
    cases j with
    | nil => simp [InRange] at hj
    | cons k j => simp [elem, elems, binOp, mapOp, elem_iota, hf]

/-- C42. Operations of an iota with a scalar, and change of sign. Each makes an iota that has the same shape and elements as the
elementwise expression. -/
theorem C42_scalar (i : Seq1) (h : IotaOk i) (x : Int) :
    (∃ r, optAddIS i x = .ok r ∧ Same (r.iter : Iter m Int) (.node (binOp (· + ·)) [i.iter, .scalar (pure x)])) ∧
    (∃ r, optAddSI x i = .ok r ∧ Same (r.iter : Iter m Int) (.node (binOp (· + ·)) [.scalar (pure x), i.iter])) ∧
    (∃ r, optSubIS i x = .ok r ∧ Same (r.iter : Iter m Int) (.node (binOp (· - ·)) [i.iter, .scalar (pure x)])) ∧
    (∃ r, optSubSI x i = .ok r ∧ Same (r.iter : Iter m Int) (.node (binOp (· - ·)) [.scalar (pure x), i.iter])) ∧
    (∃ r, optMulIS i x = .ok r ∧ Same (r.iter : Iter m Int) (.node (binOp (· * ·)) [i.iter, .scalar (pure x)])) ∧
    (∃ r, optMulSI x i = .ok r ∧ Same (r.iter : Iter m Int) (.node (binOp (· * ·)) [.scalar (pure x), i.iter])) ∧
    (∃ r, optNeg i = .ok r ∧ Same (r.iter : Iter m Int) (.node (unOp (- ·)) [i.iter])) := by
  refine ⟨⟨_, mkIota_ok h, same_is _ _ _ _ rfl fun k => by ring⟩, ⟨_, mkIota_ok h, same_si _ _ _ _ rfl fun k => by ring⟩,
    ⟨_, mkIota_ok h, same_is _ _ _ _ rfl fun k => by ring⟩, ⟨_, mkIota_ok h, same_si _ _ _ _ rfl fun k => by ring⟩,
    ⟨_, mkIota_ok h, same_is _ _ _ _ rfl fun k => by ring⟩, ⟨_, mkIota_ok h, same_si _ _ _ _ rfl fun k => by ring⟩,
    ⟨_, mkIota_ok h, ?_, ?_⟩⟩
  · intro s
    rw [iota_shape, shape_node1, iota_shape]
    have : ∀ o, IotaLen ⟨i.len, -i.o, 0 - i.step⟩ o ↔ IotaLen i o := by intro o; cases o <;> simp [IotaLen]
    simp only [this]
  · intro s j hs hj
    obtain ⟨o, rfl, h⟩ := (iota_shape _).mp hs
    cases j with
    | nil => simp [InRange] at hj
    | cons k j =>
      simp only [elem, elems, unOp, mapOp, elem_iota]
      simp
      congr 1; ring

/-- The lengths of two iotas match: they are the same, or one is unbounded. -/
def Match2 (i j : Seq1) : Prop := i.len.val = j.len.val ∨ i.len.val = UNB ∨ j.len.val = UNB

theorem colen_unb {a : Int} : colen a UNB = a := by
  have hU := UNB_val
  have := colen_spec a UNB
  omega

theorem clen2_static {i j : Seq1} (hi : IotaOk i) (hj : IotaOk j) :
    (STree.node [i.type, j.type]).len false 0 = colen j.len.static i.len.static := by
  have hU := UNB_val; have hM := MIS_val; have hA := ANY_val
  have hi' : i.len.static ≠ MIS := by
    unfold IotaOk at hi
    cases h : i.len <;> simp_all [LenT.static, LenT.val] <;> omega
  have hj' : j.len.static ≠ MIS := by
    unfold IotaOk at hj
    cases h : j.len <;> simp_all [LenT.static, LenT.val] <;> omega
  simp [STree.len, slenList, STree.rank, Seq1.type, scolens, colen_unb, hi', hj'.symm, hi'.symm]

theorem clen2_run {i j : Seq1} (hi : IotaOk i) (hj : IotaOk j) :
    (Iter.node (binOp (m := Except Fault) (· + ·)) [i.iter, j.iter]).len 0 = colen j.len.val i.len.val := by
  have hU := UNB_val; have hM := MIS_val; have hA := ANY_val
  have hi' : i.len.val ≠ MIS := by
    unfold IotaOk at hi
    cases h : i.len <;> simp_all [LenT.val] <;> omega
  have hj' : j.len.val ≠ MIS := by
    unfold IotaOk at hj
    cases h : j.len <;> simp_all [LenT.val] <;> omega
  simp [Iter.len, lenList, Iter.rank, Seq1.iter, lenOf, colens, colen_unb, hi', hj']

theorem clen2_val {i j : Seq1} (hi : IotaOk i) (hj : IotaOk j) (hm : Match2 i j) :
    ((clen2 i j).val = if i.len.val = UNB then j.len.val else i.len.val) ∧ (0 ≤ (clen2 i j).val ∨ clen2 i j = .st UNB) := by
  have hU := UNB_val; have hM := MIS_val; have hA := ANY_val
  have s1 := colen_spec j.len.static i.len.static
  have r1 := colen_spec j.len.val i.len.val
  simp only [clen2, clen2_static hi hj, clen2_run hi hj]
  unfold IotaOk at hi hj
  unfold Match2 at hm
  generalize colen j.len.static i.len.static = x at *
  generalize colen j.len.val i.len.val = z at *
  generalize i.len = li at *
  generalize j.len = lj at *
  cases li <;> cases lj <;> simp only [LenT.val, LenT.static, LenT.st.injEq, reduceCtorEq, or_false] at * <;>
    by_cases hx : ANY = x <;> simp only [hx, ne_eq, not_true_eq_false, not_false_eq_true, if_true, if_false, LenT.st.injEq, reduceCtorEq, or_false] <;>
    omega

theorem same_ii (f : Int → Int → Int) (i j : Seq1) (hi : IotaOk i) (hj : IotaOk j) (hm : Match2 i j) (r : Seq1)
    (hl : r.len.val = if i.len.val = UNB then j.len.val else i.len.val)
    (hf : ∀ k, r.o + k * r.step = f (i.o + k * i.step) (j.o + k * j.step)) :
    Same (r.iter : Iter m Int) (.node (binOp f) [i.iter, j.iter]) := by
  have hU := UNB_val
  obtain ⟨o1, h1⟩ := iota_len hi
  obtain ⟨o2, h2⟩ := iota_len hj
  have key : ∃ o, IotaLen r o ∧ Merge [[o1], [o2]] [o] := by
    unfold Match2 at hm
    cases o1 with
    | none =>
      simp only [IotaLen] at h1
      rw [if_pos h1] at hl
      refine ⟨o2, ?_, merge_both (.inr ⟨rfl, rfl⟩)⟩
      cases o2 <;> simp_all [IotaLen]
    | some n =>
      simp only [IotaLen] at h1
      rw [if_neg (by omega)] at hl
      refine ⟨some n, by simp only [IotaLen]; omega, merge_both (.inl ⟨rfl, ?_⟩)⟩
      cases o2 with
      | none => right; rfl
      | some n' =>
        left
        simp only [IotaLen] at h2
        congr 1; omega
  obtain ⟨o, ho, hmo⟩ := key
  constructor
  · intro s
    rw [iota_shape, shape_node2]
    constructor
    · rintro ⟨o', rfl, h⟩
      have := iotaLen_unique h ho
      subst this
      exact ⟨[o1], [o2], (iota_shape _).mpr ⟨o1, rfl, h1⟩, (iota_shape _).mpr ⟨o2, rfl, h2⟩, hmo⟩
    · rintro ⟨sa, sb, ha, hb, hm'⟩
      obtain ⟨o1', rfl, h1'⟩ := (iota_shape _).mp ha
      obtain ⟨o2', rfl, h2'⟩ := (iota_shape _).mp hb
      have e1 := iotaLen_unique h1 h1'
      have e2 := iotaLen_unique h2 h2'
      subst e1 e2
      rw [merge_unique hmo] at hm'
      exact ⟨o, hm', ho⟩
  · intro s j hs hj
    obtain ⟨o, rfl, h⟩ := (iota_shape _).mp hs
    cases j with
    | nil => simp [InRange] at hj
    | cons k j => simp [elem, elems, binOp, mapOp, elem_iota, hf]

/-- C42. Sum and difference of iotas with matching lengths. -/
theorem C42_iotas (i j : Seq1) (hi : IotaOk i) (hj : IotaOk j) (hm : Match2 i j) :
    (∃ r, optAddII i j = .ok r ∧ Same (r.iter : Iter m Int) (.node (binOp (· + ·)) [i.iter, j.iter])) ∧
    (∃ r, optSubII i j = .ok r ∧ Same (r.iter : Iter m Int) (.node (binOp (· - ·)) [i.iter, j.iter])) := by
  obtain ⟨h1, h2⟩ := clen2_val hi hj hm
  exact ⟨⟨_, mkIota_ok h2, same_ii _ i j hi hj hm _ h1 fun k => by ring⟩, ⟨_, mkIota_ok h2, same_ii _ i j hi hj hm _ h1 fun k => by ring⟩⟩

/-- C42, mismatched lengths. If both are known only when running, then the check fails, as it would for the elementwise expression. -/
theorem C42_mismatch_partial (a b oi oj si sj : Int) (ha : 0 ≤ a) (hb : 0 ≤ b) (hne : a ≠ b) :
    optAddII ⟨.dyn a, oi, si⟩ ⟨.dyn b, oj, sj⟩ = .error .check ∧ optSubII ⟨.dyn a, oi, si⟩ ⟨.dyn b, oj, sj⟩ = .error .check ∧
    agree [(Seq1.iter ⟨.dyn a, oi, si⟩ : Iter (Except Fault) Int), Seq1.iter ⟨.dyn b, oj, sj⟩] = false := by
  have hU := UNB_val; have hM := MIS_val; have hA := ANY_val
  have : (STree.node [Seq1.type ⟨.dyn a, oi, si⟩, Seq1.type ⟨.dyn b, oj, sj⟩]).len false 0 = ANY := by
    simp [STree.len, slenList, STree.rank, Seq1.type, LenT.static, scolens, colen]
    split_ifs <;> omega
  have h2 : (Iter.node (binOp (m := Except Fault) (· + ·)) [Seq1.iter ⟨.dyn a, oi, si⟩, Seq1.iter ⟨.dyn b, oj, sj⟩]).len 0 = MIS := by
    simp [Iter.len, lenList, Iter.rank, Seq1.iter, lenOf, LenT.val, colens, colen]
    split_ifs <;> omega
  refine ⟨?_, ?_, ?_⟩
  · simp [optAddII, clen2, this, h2, mkIota]; omega
  · simp [optSubII, clen2, this, h2, mkIota]; omega
  · have hr : coranks UNB (rankList [(Seq1.iter ⟨.dyn a, oi, si⟩ : Iter (Except Fault) Int), Seq1.iter ⟨.dyn b, oj, sj⟩]) = 1 := by
      simp [rankList, Seq1.iter, Iter.rank, coranks, corank]
      decide
    simp only [Iter.len] at h2
    simp [agree, matchCheck, hr, List.range_succ, h2]
    omega

/-- C42 is false of the code for mismatched lengths when one or both are static: there's no diagnostic. -/
theorem C42_negation :
    -- static: the result is an iota of length MIS
    (∃ r, optAddII ⟨.st 3, 0, 1⟩ ⟨.st 4, 0, 1⟩ = .ok r ∧ r.len.val = MIS) ∧
    -- static and run time: the static length is the one that counts
    (∃ r, optAddII ⟨.st 3, 0, 1⟩ ⟨.dyn 4, 0, 1⟩ = .ok r ∧ r.len.val = 3) ∧
    -- the elementwise expressions fail the check, the first one when compiling
    checkS [Seq1.type ⟨.st 3, 0, 1⟩, Seq1.type ⟨.st 4, 0, 1⟩] = 0 ∧
    agree [(Seq1.iter ⟨.st 3, 0, 1⟩ : Iter (Except Fault) Int), Seq1.iter ⟨.dyn 4, 0, 1⟩] = false := by
  refine ⟨⟨⟨.st MIS, 0, 2⟩, rfl, rfl⟩, ⟨⟨.st 3, 0, 2⟩, rfl, rfl⟩, ?_, ?_⟩ <;> decide +kernel

/-- What happens to mismatched lengths: nothing if they are both known only when running (the check fails); otherwise there's a result, with length `MIS` if they are both static, or else the
one that's static. -/
def mismatched : LenT → LenT → Option LenT
  | .dyn _, .dyn _ => none
  | .st _, .st _ => some (.st MIS)
  | .st a, .dyn _ => some (.st a)
  | .dyn _, .st b => some (.st b)

/-- C42. Exactly what happens to mismatched lengths: the check fails if and only if both lengths are known only when running. -/
theorem C42_mismatch_exact (i j : Seq1) (hi : IotaOk i) (hj : IotaOk j) (hm : ¬ Match2 i j) :
    (∀ n, mismatched i.len j.len = some n → optAddII i j = .ok ⟨n, i.o + j.o, i.step + j.step⟩ ∧ optSubII i j = .ok ⟨n, i.o - j.o, i.step - j.step⟩) ∧
    (mismatched i.len j.len = none → optAddII i j = .error .check ∧ optSubII i j = .error .check) := by
  have hU := UNB_val; have hM := MIS_val; have hA := ANY_val
  have s1 := colen_spec j.len.static i.len.static
  have r1 := colen_spec j.len.val i.len.val
  have key : ∀ n, (∀ o s, mismatched i.len j.len = some n → mkIota (clen2 i j) o s = .ok ⟨n, o, s⟩) ∧ ∀ o s, mismatched i.len j.len = none → mkIota (clen2 i j) o s = .error .check := by
    intro n
    simp only [clen2, clen2_static hi hj, clen2_run hi hj]
    unfold IotaOk at hi hj
    unfold Match2 at hm
    generalize colen j.len.static i.len.static = x at *
    generalize colen j.len.val i.len.val = z at *
    obtain ⟨li, oi, si⟩ := i
    obtain ⟨lj, oj, sj⟩ := j
    simp only at *
    cases li with
    | st a =>
      cases lj with
      | st b =>
        simp only [LenT.val, LenT.static, LenT.st.injEq, mismatched, Option.some.injEq, reduceCtorEq, false_implies, implies_true, and_true] at *
        have : x = MIS := by omega
        subst this
        rintro _ _ rfl
        rw [if_pos (by omega)]
        rfl
      | dyn b =>
        simp only [LenT.val, LenT.static, LenT.st.injEq, mismatched, Option.some.injEq, reduceCtorEq, false_implies, implies_true, and_true] at *
        have : x = a := by omega
        subst this
        rintro _ _ rfl
        rw [if_pos (by omega)]
        rfl
    | dyn a =>
      cases lj with
      | st b =>
        simp only [LenT.val, LenT.static, LenT.st.injEq, mismatched, Option.some.injEq, reduceCtorEq, false_implies, implies_true, and_true] at *
        have : x = b := by omega
        subst this
        rintro _ _ rfl
        rw [if_pos (by omega)]
        rfl
      | dyn b =>
        simp only [LenT.val, LenT.static, mismatched, reduceCtorEq, false_implies, implies_true, true_and, forall_const] at *
        have : x = ANY := by omega
        subst this
        rw [if_neg (by simp)]
        simp only [mkIota]
        intro o s
        have hi := hi.resolve_right id
        have hj := hj.resolve_right id
        rw [if_neg (by omega)]
  exact ⟨fun n h => ⟨(key n).1 _ _ h, (key n).1 _ _ h⟩, fun h => ⟨(key (.st 0)).2 _ _ h, (key (.st 0)).2 _ _ h⟩⟩

example : ¬ Match2 ⟨.st 3, 0, 1⟩ ⟨.dyn 4, 0, 1⟩ := by simp [Match2, LenT.val, UNB_val]

/-- `iota(4, 10, -2) * 3` and `5 - iota()`. -/
example : IotaOk ⟨.dyn 4, 10, -2⟩ := by simp [IotaOk, LenT.val]
example : IotaOk ⟨.st UNB, 0, 1⟩ := by simp [IotaOk]
example : optMulIS ⟨.dyn 4, 10, -2⟩ 3 = .ok ⟨.dyn 4, 30, -6⟩ := by rfl
example : optSubSI 5 ⟨.st UNB, 0, 1⟩ = .ok ⟨.st UNB, 5, -1⟩ := by rfl
/-- `iota() - iota(4, 10, -2)`. -/
example : Match2 ⟨.st UNB, 0, 1⟩ ⟨.dyn 4, 10, -2⟩ := by simp [Match2, LenT.val]
example : optSubII ⟨.st UNB, 0, 1⟩ ⟨.dyn 4, 10, -2⟩ = .ok ⟨.dyn 4, -10, 3⟩ := by rfl
example : HasShape (Seq1.iter ⟨.dyn 4, 10, -2⟩ : Iter (Except Fault) Int) [some 4] := .cons rfl .nil

end Ra.Props
