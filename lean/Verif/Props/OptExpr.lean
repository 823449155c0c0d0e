import Verif.Props.Opt
/-!
# C42 for whole expressions
-/
set_option linter.unusedSectionVars false

namespace Ra.Props
open Spec

variable {m : Type → Type} [Monad m] [LawfulMonad m] [MonadFault m]

/-- All the iotas of an expression can be made. -/
def IotasOk : IExp m → Prop
  | .iota i => IotaOk i
  | .scalar _ => True
  | .other _ => True
  | .add a b => IotasOk a ∧ IotasOk b
  | .sub a b => IotasOk a ∧ IotasOk b
  | .mul a b => IotasOk a ∧ IotasOk b
  | .neg a => IotasOk a
  | .bin _ a b => IotasOk a ∧ IotasOk b
  | .un _ a => IotasOk a

theorem inRange_merged {ss : List (List Length)} {s : List Length} (h : Merge ss s) {t : List Length} (ht : t ∈ ss) {j : List Int} (hj : InRange s j) : InRange t j :=
  ⟨le_trans (h.1 t ht) hj.1, fun k n hk => hj.2 k n ((h.2.2 k n).mpr ⟨t, ht, hk⟩)⟩

theorem same_refl (a : Iter m Int) : Spec.Same a a := ⟨fun _ => Iff.rfl, fun _ _ _ _ => rfl⟩

theorem same_trans {a b c : Iter m Int} (h : Spec.Same a b) (h' : Spec.Same b c) : Spec.Same a c :=
  ⟨fun s => (h.1 s).trans (h'.1 s), fun s j hs hj => (h.2 s j hs hj).trans (h'.2 s j ((h.1 s).mp hs) hj)⟩

theorem same_node2 (f : Int → Int → Int) {a a' b b' : Iter m Int} (ha : Spec.Same a a') (hb : Spec.Same b b') : Spec.Same (.node (binOp f) [a, b]) (.node (binOp f) [a', b']) := by
  constructor
  · intro s
    simp only [shape_node2, ha.1, hb.1]
  · intro s j hs hj
    obtain ⟨sa, sb, h1, h2, h3⟩ := (shape_node2 s).mp hs
    have e1 := ha.2 sa j h1 (inRange_merged h3 (by simp) hj)
    have e2 := hb.2 sb j h2 (inRange_merged h3 (by simp) hj)
    simp only [elem, elems, e1, e2]

theorem same_node1 (f : Int → Int) {a a' : Iter m Int} (ha : Spec.Same a a') : Spec.Same (.node (unOp f) [a]) (.node (unOp f) [a']) := by
  constructor
  · intro s
    simp only [shape_node1, ha.1]
  · intro s j hs hj
    have e1 := ha.2 s j ((shape_node1 s).mp hs) hj
    simp only [elem, elems, e1]

theorem same_ss (f : Int → Int → Int) (x y : Int) : Spec.Same (.scalar (pure (f x y)) : Iter m Int) (.node (binOp f) [.scalar (pure x), .scalar (pure y)]) := by
  constructor
  · intro s
    rw [shape_node2, scalar_shape]
    constructor
    · rintro rfl
      exact ⟨[], [], rfl, rfl, by simp [Merge]⟩
    · rintro ⟨sa, sb, h1, h2, h3⟩
      rw [scalar_shape] at h1 h2
      subst h1 h2
      exact (merge_unique (s' := []) (by simp [Merge])).mp h3
  · intro s j _ _
    simp [elem, elems, binOp, mapOp]

theorem same_s (f : Int → Int) (x : Int) : Spec.Same (.scalar (pure (f x)) : Iter m Int) (.node (unOp f) [.scalar (pure x)]) := by
  constructor
  · intro s
    rw [shape_node1, scalar_shape, scalar_shape]
  · intro s j _ _
    simp [elem, elems, unOp, mapOp]

theorem same_bin (f : Int → Int → Int) (a b : IRes m) : Spec.Same (IRes.bin f a b).iter (.node (binOp f) [a.iter, b.iter]) := by
  cases a <;> cases b <;> first | exact same_ss f _ _ | exact same_refl _

theorem same_un (f : Int → Int) (a : IRes m) : Spec.Same (IRes.un f a).iter (.node (unOp f) [a.iter]) := by
  cases a <;> first | exact same_s f _ | exact same_refl _

/-- Iotas that are results can be made. -/
def ResOk : IRes m → Prop
  | .iota i => IotaOk i
  | _ => True

theorem resOk_bin (f : Int → Int → Int) (a b : IRes m) : ResOk (IRes.bin f a b) := by cases a <;> cases b <;> trivial
theorem resOk_un (f : Int → Int) (a : IRes m) : ResOk (IRes.un f a) := by cases a <;> trivial

theorem match_of_merge {i j : Seq1} {s : List Length} (h : HasShape (.node (binOp (· + ·)) [i.iter, j.iter] : Iter m Int) s) : Match2 i j := by
  obtain ⟨sa, sb, h1, h2, h3⟩ := (shape_node2 s).mp h
  obtain ⟨o1, rfl, g1⟩ := (iota_shape _).mp h1
  obtain ⟨o2, rfl, g2⟩ := (iota_shape _).mp h2
  cases o1 with
  | none => exact .inr (.inl g1)
  | some a =>
    cases o2 with
    | none => exact .inr (.inr g2)
    | some b =>
      have e1 := (h3.2.2 0 a).mpr ⟨[some a], by simp, rfl⟩
      have e2 := (h3.2.2 0 b).mpr ⟨[some b], by simp, rfl⟩
      rw [e1] at e2
      simp only [Option.some.injEq] at e2
      subst e2
      left
      simp only [IotaLen] at g1 g2
      omega

theorem iotaOk_of {i r : Seq1} (h : IotaOk i) (e : r.len = i.len) : IotaOk r := by
  unfold IotaOk at *
  rw [e]
  exact h

theorem add_same (a b : IRes m) (ha : ResOk a) (hb : ResOk b) (s : List Length) (h : HasShape (.node (binOp (· + ·)) [a.iter, b.iter]) s) :
    ∃ r, a.add b = .ok r ∧ ResOk r ∧ Spec.Same r.iter (.node (binOp (· + ·)) [a.iter, b.iter]) := by
  have gen : a.add b = .ok (IRes.bin (· + ·) a b) → ∃ r, a.add b = .ok r ∧ ResOk r ∧ Spec.Same r.iter (.node (binOp (· + ·)) [a.iter, b.iter]) :=
    fun e => ⟨_, e, resOk_bin _ _ _, same_bin _ _ _⟩
  cases a with
  | scalar x =>
    cases b with
    | iota i => exact ⟨.iota ⟨i.len, x + i.o, i.step⟩, by simp [IRes.add, optAddSI, mkIota_ok hb, bind, Except.bind, pure, Except.pure], hb, same_si _ _ _ _ rfl fun k => by ring⟩
    | _ => exact gen rfl
  | iota i =>
    cases b with
    | scalar x => exact ⟨.iota ⟨i.len, i.o + x, i.step⟩, by simp [IRes.add, optAddIS, mkIota_ok ha, bind, Except.bind, pure, Except.pure], ha, same_is _ _ _ _ rfl fun k => by ring⟩
    | iota j =>
      have hm := match_of_merge h
      obtain ⟨h1, h2⟩ := clen2_val ha hb hm
      exact ⟨.iota ⟨clen2 i j, i.o + j.o, i.step + j.step⟩, by simp [IRes.add, optAddII, mkIota_ok h2, bind, Except.bind, pure, Except.pure], h2,
        same_ii _ i j ha hb hm _ h1 fun k => by ring⟩
    | _ => exact gen rfl
  | expr t => cases b <;> exact gen rfl

theorem sub_same (a b : IRes m) (ha : ResOk a) (hb : ResOk b) (s : List Length) (h : HasShape (.node (binOp (· - ·)) [a.iter, b.iter]) s) :
    ∃ r, a.sub b = .ok r ∧ ResOk r ∧ Spec.Same r.iter (.node (binOp (· - ·)) [a.iter, b.iter]) := by
  have gen : a.sub b = .ok (IRes.bin (· - ·) a b) → ∃ r, a.sub b = .ok r ∧ ResOk r ∧ Spec.Same r.iter (.node (binOp (· - ·)) [a.iter, b.iter]) :=
    fun e => ⟨_, e, resOk_bin _ _ _, same_bin _ _ _⟩
  cases a with
  | scalar x =>
    cases b with
    | iota i => exact ⟨.iota ⟨i.len, x - i.o, 0 - i.step⟩, by simp [IRes.sub, optSubSI, mkIota_ok hb, bind, Except.bind, pure, Except.pure], hb, same_si _ _ _ _ rfl fun k => by ring⟩
    | _ => exact gen rfl
  | iota i =>
    cases b with
    | scalar x => exact ⟨.iota ⟨i.len, i.o - x, i.step⟩, by simp [IRes.sub, optSubIS, mkIota_ok ha, bind, Except.bind, pure, Except.pure], ha, same_is _ _ _ _ rfl fun k => by ring⟩
    | iota j =>
      have hm := match_of_merge (m := m) (s := s) ((shape_node2 s).mpr ((shape_node2 s).mp h))
      obtain ⟨h1, h2⟩ := clen2_val ha hb hm
      exact ⟨.iota ⟨clen2 i j, i.o - j.o, i.step - j.step⟩, by simp [IRes.sub, optSubII, mkIota_ok h2, bind, Except.bind, pure, Except.pure], h2,
        same_ii _ i j ha hb hm _ h1 fun k => by ring⟩
    | _ => exact gen rfl
  | expr t => cases b <;> exact gen rfl

theorem mul_same (a b : IRes m) (ha : ResOk a) (hb : ResOk b) :
    ∃ r, a.mul b = .ok r ∧ ResOk r ∧ Spec.Same r.iter (.node (binOp (· * ·)) [a.iter, b.iter]) := by
  have gen : a.mul b = .ok (IRes.bin (· * ·) a b) → ∃ r, a.mul b = .ok r ∧ ResOk r ∧ Spec.Same r.iter (.node (binOp (· * ·)) [a.iter, b.iter]) :=
    fun e => ⟨_, e, resOk_bin _ _ _, same_bin _ _ _⟩
  cases a with
  | scalar x =>
    cases b with
    | iota i => exact ⟨.iota ⟨i.len, x * i.o, x * i.step⟩, by simp [IRes.mul, optMulSI, mkIota_ok hb, bind, Except.bind, pure, Except.pure], hb, same_si _ _ _ _ rfl fun k => by ring⟩
    | _ => exact gen rfl
  | iota i =>
    cases b with
    | scalar x => exact ⟨.iota ⟨i.len, i.o * x, i.step * x⟩, by simp [IRes.mul, optMulIS, mkIota_ok ha, bind, Except.bind, pure, Except.pure], ha, same_is _ _ _ _ rfl fun k => by ring⟩
    | _ => exact gen rfl
  | expr t => cases b <;> exact gen rfl

theorem neg_same (a : IRes m) (ha : ResOk a) : ∃ r, a.neg = .ok r ∧ ResOk r ∧ Spec.Same r.iter (.node (unOp (- ·)) [a.iter]) := by
  cases a with
  | iota i =>
    obtain ⟨r, h1, h2⟩ := (C42_scalar (m := m) i ha 0).2.2.2.2.2.2
    have h3 : optNeg i = .ok ⟨i.len, -i.o, 0 - i.step⟩ := mkIota_ok ha
    rw [h3] at h1
    cases h1
    exact ⟨.iota ⟨i.len, -i.o, 0 - i.step⟩, by simp [IRes.neg, h3, bind, Except.bind, pure, Except.pure], ha, h2⟩
  | scalar x => exact ⟨_, rfl, trivial, same_un _ (.scalar x)⟩
  | expr t => exact ⟨_, rfl, trivial, same_un _ (.expr t)⟩

theorem eval_same (e : IExp m) (hok : IotasOk e) (s : List Length) (h : HasShape e.plain s) : ∃ r, e.eval = .ok r ∧ ResOk r ∧ Spec.Same r.iter e.plain := by
  induction e generalizing s with
  | iota i => exact ⟨_, rfl, hok, same_refl _⟩
  | scalar x => exact ⟨_, rfl, trivial, same_refl _⟩
  | other t => exact ⟨_, rfl, trivial, same_refl _⟩
  | add a b iha ihb =>
    obtain ⟨sa, sb, h1, h2, h3⟩ := (shape_node2 s).mp h
    obtain ⟨ra, a1, a2, a3⟩ := iha hok.1 sa h1
    obtain ⟨rb, b1, b2, b3⟩ := ihb hok.2 sb h2
    obtain ⟨r, r1, r2, r3⟩ := add_same ra rb a2 b2 s (((same_node2 _ a3 b3).1 s).mpr h)
    exact ⟨r, by simp [IExp.eval, a1, b1, r1, bind, Except.bind], r2, same_trans r3 (same_node2 _ a3 b3)⟩
  | sub a b iha ihb =>
    obtain ⟨sa, sb, h1, h2, h3⟩ := (shape_node2 s).mp h
    obtain ⟨ra, a1, a2, a3⟩ := iha hok.1 sa h1
    obtain ⟨rb, b1, b2, b3⟩ := ihb hok.2 sb h2
    obtain ⟨r, r1, r2, r3⟩ := sub_same ra rb a2 b2 s (((same_node2 _ a3 b3).1 s).mpr h)
    exact ⟨r, by simp [IExp.eval, a1, b1, r1, bind, Except.bind], r2, same_trans r3 (same_node2 _ a3 b3)⟩
  | mul a b iha ihb =>
    obtain ⟨sa, sb, h1, h2, h3⟩ := (shape_node2 s).mp h
    obtain ⟨ra, a1, a2, a3⟩ := iha hok.1 sa h1
    obtain ⟨rb, b1, b2, b3⟩ := ihb hok.2 sb h2
    obtain ⟨r, r1, r2, r3⟩ := mul_same ra rb a2 b2
    exact ⟨r, by simp [IExp.eval, a1, b1, r1, bind, Except.bind], r2, same_trans r3 (same_node2 _ a3 b3)⟩
  | neg a iha =>
    obtain ⟨ra, a1, a2, a3⟩ := iha hok s ((shape_node1 s).mp h)
    obtain ⟨r, r1, r2, r3⟩ := neg_same ra a2
    exact ⟨r, by simp [IExp.eval, a1, r1, bind, Except.bind], r2, same_trans r3 (same_node1 _ a3)⟩
  | bin f a b iha ihb =>
    obtain ⟨sa, sb, h1, h2, h3⟩ := (shape_node2 s).mp h
    obtain ⟨ra, a1, a2, a3⟩ := iha hok.1 sa h1
    obtain ⟨rb, b1, b2, b3⟩ := ihb hok.2 sb h2
    exact ⟨_, by simp [IExp.eval, a1, b1, bind, Except.bind, pure, Except.pure], resOk_bin _ _ _, same_trans (same_bin f ra rb) (same_node2 _ a3 b3)⟩
  | un f a iha =>
    obtain ⟨ra, a1, a2, a3⟩ := iha hok s ((shape_node1 s).mp h)
    exact ⟨_, by simp [IExp.eval, a1, bind, Except.bind, pure, Except.pure], resOk_un _ _, same_trans (same_un f ra) (same_node1 _ a3)⟩

/-- C42, for whole expressions with any number of operations, at any depth and mixed with any other expressions. If the elementwise expression has a shape, then the optimized expression can
be made, and it has the same shape and elements. -/
theorem C42_expression (e : IExp m) (hok : IotasOk e) (s : List Length) (h : HasShape e.plain s) : ∃ r, e.eval = .ok r ∧ Spec.Same r.iter e.plain := by
  obtain ⟨r, h1, _, h2⟩ := eval_same e hok s h
  exact ⟨r, h1, h2⟩

/-- C42. If making the optimized expression fails the check, then the elementwise expression doesn't have a shape, so it would also fail the check. -/
theorem C42_expression_fails (e : IExp m) (hok : IotasOk e) (f : Fault) (h : e.eval = .error f) : ¬ ∃ s, HasShape e.plain s := by
  rintro ⟨s, hs⟩
  obtain ⟨r, h1, _⟩ := C42_expression e hok s hs
  rw [h] at h1
  cases h1

/-- `(2*iota(4, 1) - (iota() + 1)) + a*iota(4)`, with `a` a view of shape (4). -/
def egIExp : IExp (Except Fault) := .add (.sub (.mul (.scalar 2) (.iota ⟨.dyn 4, 1, 1⟩)) (.add (.iota ⟨.st UNB, 0, 1⟩) (.scalar 1)))
  (.mul (.other (.cell [⟨4, 1⟩] 100 pure)) (.iota ⟨.st 4, 0, 1⟩))

example : IotasOk egIExp := by simp [egIExp, IotasOk, IotaOk, LenT.val]
example : HasShape egIExp.plain [some 4] := by
  have hi : ∀ (i : Seq1) (o : Length), IotaLen i o → HasShape (i.iter : Iter (Except Fault) Int) [o] := fun i o h => (iota_shape _).mpr ⟨o, rfl, h⟩
  have h1 : HasShape (IExp.plain (.mul (.scalar 2) (.iota ⟨.dyn 4, 1, 1⟩)) : Iter (Except Fault) Int) [some 4] :=
    (shape_node2 _).mpr ⟨[], [some 4], rfl, hi _ _ rfl, merge_right _⟩
  have h2 : HasShape (IExp.plain (.add (.iota ⟨.st UNB, 0, 1⟩) (.scalar 1)) : Iter (Except Fault) Int) [none] :=
    (shape_node2 _).mpr ⟨[none], [], hi _ _ rfl, rfl, merge_left _⟩
  have h3 : HasShape (IExp.plain (.mul (.other (.cell [⟨4, 1⟩] 100 pure)) (.iota ⟨.st 4, 0, 1⟩)) : Iter (Except Fault) Int) [some 4] :=
    (shape_node2 _).mpr ⟨[some 4], [some 4], .cons rfl .nil, hi _ _ rfl, merge_both (.inl ⟨rfl, .inl rfl⟩)⟩
  have h4 : HasShape (IExp.plain (.sub (.mul (.scalar 2) (.iota ⟨.dyn 4, 1, 1⟩)) (.add (.iota ⟨.st UNB, 0, 1⟩) (.scalar 1))) : Iter (Except Fault) Int) [some 4] :=
    (shape_node2 _).mpr ⟨[some 4], [none], h1, h2, merge_both (.inl ⟨rfl, .inr rfl⟩)⟩
  exact (shape_node2 _).mpr ⟨[some 4], [some 4], h4, h3, merge_both (.inl ⟨rfl, .inl rfl⟩)⟩

end Ra.Props
