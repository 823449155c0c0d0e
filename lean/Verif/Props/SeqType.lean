import Verif.Model.SeqType
import Verif.Props.Opt
import Verif.Props.PointerExact
import Mathlib.Data.Int.ModEq
/-!
# C88: iotas of machine integer types
-/

namespace Ra.Props
open Spec

section

theorem conv_range (t : IntT) (x : Int) : t.inRange (t.conv x) = true := by
  cases t <;> simp [IntT.inRange, IntT.conv, IntT.lo, IntT.hi, IntT.signed, IntT.width, Int.bmod] <;> omega

theorem conv_mod (t : IntT) (x : Int) : t.conv x ≡ x [ZMOD 2 ^ t.width] := by
  rw [Int.modEq_iff_dvd]
  cases t <;> simp [IntT.conv, IntT.signed, IntT.width, Int.bmod] <;> omega

theorem range_unique (t : IntT) {x y : Int} (hx : t.inRange x = true) (hy : t.inRange y = true) (h : x ≡ y [ZMOD 2 ^ t.width]) : x = y := by
  rw [Int.modEq_iff_dvd] at h
  cases t <;> simp [IntT.inRange, IntT.lo, IntT.hi, IntT.signed, IntT.width] at * <;> omega

theorem conv_self {t : IntT} {x : Int} (hx : t.inRange x = true) : t.conv x = x := range_unique t (conv_range t x) hx (conv_mod t x)

theorem conv_congr {t : IntT} {x y : Int} : t.conv x = t.conv y ↔ x ≡ y [ZMOD 2 ^ t.width] :=
  ⟨fun h => ((conv_mod t x).symm.trans (by rw [h])).trans (conv_mod t y), fun h => range_unique t (conv_range t x) (conv_range t y) (((conv_mod t x).trans h).trans (conv_mod t y).symm)⟩

theorem arith_unsigned {t : IntT} (h : t.signed = false) (x : Int) : t.arith x = .ok (t.conv x) := by simp [IntT.arith, IntT.conv, h]

theorem arith_signed {t : IntT} (h : t.signed = true) (x : Int) : t.arith x = if t.inRange x then .ok x else .error .ub := by simp [IntT.arith, h]

theorem arith_ok {t : IntT} {x y : Int} (h : t.arith x = .ok y) : y = t.conv x := by
  cases hs : t.signed with
  | false => rw [arith_unsigned hs] at h; cases h; rfl
  | true =>
    rw [arith_signed hs] at h
    split at h
    · next hr => cases h; exact (conv_self hr).symm
    · cases h

theorem common_left (a b : IntT) (h : (a.common b).signed = true) {x : Int} (hx : a.inRange x = true) : (a.common b).inRange x = true := by
  cases a <;> cases b <;> simp [IntT.common, IntT.promote, IntT.inRange, IntT.lo, IntT.hi, IntT.signed, IntT.width] at * <;> omega

theorem common_right (a b : IntT) (h : (a.common b).signed = true) {x : Int} (hx : b.inRange x = true) : (a.common b).inRange x = true := by
  cases a <;> cases b <;> simp [IntT.common, IntT.promote, IntT.inRange, IntT.lo, IntT.hi, IntT.signed, IntT.width] at * <;> omega

theorem common_width (a b : IntT) : 32 ≤ (a.common b).width ∧ a.width ≤ (a.common b).width ∧ b.width ≤ (a.common b).width := by
  cases a <;> cases b <;> decide

theorem promote_range (a : IntT) (h : a.promote.signed = true) {x : Int} (hx : a.inRange x = true) : a.promote.inRange x = true := by
  cases a <;> simp [IntT.promote, IntT.inRange, IntT.lo, IntT.hi, IntT.signed, IntT.width] at * <;> omega

/-- One `++` or `--`, when the value stays in the type or the type wraps. -/
theorem bump_eq (t : IntT) (x d : Int) : t.bump x d = if t.wraps then .ok (t.conv (x + d)) else if t.inRange (x + d) then .ok (x + d) else .error .ub := by
  unfold IntT.bump IntT.wraps
  by_cases hw : t.width < 32
  · simp [hw]
  · cases hs : t.signed with
    | false => simp [hw, arith_unsigned hs]
    | true => simp [hw, arith_signed hs]

theorem range_between {t : IntT} {x y z : Int} (hx : t.inRange x = true) (hz : t.inRange z = true) (h1 : (x ≤ y ∧ y ≤ z) ∨ (z ≤ y ∧ y ≤ x)) : t.inRange y = true := by
  simp only [IntT.inRange, Bool.and_eq_true, decide_eq_true_eq] at *
  omega

theorem bumps_eq (t : IntT) (d : Int) (hd : d = 1 ∨ d = -1) (n : Nat) : ∀ x, t.inRange x = true →
    t.bumps d n x = if t.wraps then .ok (t.conv (x + n * d)) else if t.inRange (x + n * d) then .ok (x + n * d) else .error .ub := by
  induction n with
  | zero =>
    intro x hx
    simp [IntT.bumps, hx, conv_self hx]
  | succ n ih =>
    intro x hx
    simp only [IntT.bumps, bump_eq, bind, Except.bind]
    have e : x + d + n * d = x + ((n + 1 : Nat) : Int) * d := by push_cast; ring
    cases hw : t.wraps with
    | true =>
      simp only [if_true]
      rw [ih _ (conv_range _ _), hw]
      simp only [if_true]
      congr 1
      rw [conv_congr, ← e]
      exact (conv_mod t (x + d)).add_right _
    | false =>
      simp only [Bool.false_eq_true, if_false]
      by_cases h1 : t.inRange (x + d) = true
      · simp only [h1, if_true]
        rw [ih _ h1, hw, e]
        simp
      · simp only [h1, Bool.false_eq_true, if_false]
        have : ¬ t.inRange (x + ((n + 1 : Nat) : Int) * d) = true := by
          intro h2
          refine h1 (range_between hx h2 ?_)
          rw [← e]
          rcases hd with rfl | rfl
          · left; omega
          · right; omega
        rw [if_neg this]

/-- Any move of a `Seq` is to `x + d` if this is a value of the type; else it wraps or it's undefined. -/
theorem advance_eq (t : IntT) (x d : Int) (hx : t.inRange x = true) (hd : IntT.i64.inRange d = true) :
    t.advance x d = if t.wraps then .ok (t.conv (x + d)) else if t.inRange (x + d) then .ok (x + d) else .error .ub := by
  unfold IntT.advance
  by_cases ht : t = .i64
  · subst ht
    simp only [if_true, conv_self hd]
    rfl
  · rw [if_neg ht]
    split
    · next h => rw [bumps_eq t 1 (.inl rfl) _ x hx, Int.toNat_of_nonneg h]; simp
    · next h => rw [bumps_eq t (-1) (.inr rfl) _ x hx, Int.toNat_of_nonneg (by omega)]; simp

/-- C88. The type of an operation on two numbers has as many bits as the largest of them, and at least those of `int`, and it's unsigned when an argument with that many bits is. For an operation on one number it's the same as for
two of that type. -/
theorem C88_types (a b : IntT) :
    (a.common b).width = max 32 (max a.width b.width) ∧
    ((a.common b).signed = false ↔ a.width = (a.common b).width ∧ a.signed = false ∨ b.width = (a.common b).width ∧ b.signed = false) ∧ a.promote = a.common a := by
  cases a <;> cases b <;> decide

/-- C88. A `Seq` that is moved any number of times by `ds`. If its type wraps, then it ends in the sum converted to the type. Else it ends in the sum if the place after each move is a value of the type, and the behavior is undefined
if not. -/
theorem C88_moves (t : IntT) (x : Int) (hx : t.inRange x = true) (ds : List Int) (hd : ∀ d ∈ ds, IntT.i64.inRange d = true) :
    (t.wraps = true → ds.foldlM t.advance x = .ok (t.conv (x + ds.sum))) ∧
    (t.wraps = false → (∀ k, t.inRange (x + (ds.take k).sum) = true) → ds.foldlM t.advance x = .ok (x + ds.sum)) ∧
    (t.wraps = false → (∃ k, t.inRange (x + (ds.take k).sum) = false) → ds.foldlM t.advance x = .error .ub) := by
  induction ds generalizing x with
  | nil => simp [conv_self hx, pure, Except.pure, hx]
  | cons d ds ih =>
    have ha := advance_eq t x d hx (hd d (by simp))
    have hd' : ∀ d ∈ ds, IntT.i64.inRange d = true := fun d h => hd d (by simp [h])
    simp only [List.foldlM_cons, bind, Except.bind, ha, List.sum_cons]
    refine ⟨fun hw => ?_, fun hw h => ?_, fun hw h => ?_⟩
    · simp only [hw, if_true]
      rw [(ih _ (conv_range _ _) hd').1 hw]
      congr 1
      rw [conv_congr, ← add_assoc]
      exact (conv_mod t (x + d)).add_right _
    · have h1 : t.inRange (x + d) = true := by simpa using h 1
      simp only [hw, Bool.false_eq_true, if_false, h1, if_true]
      rw [(ih _ h1 hd').2.1 hw (fun k => by simpa [add_assoc] using h (k + 1))]
      congr 1
      ring
    · simp only [hw, Bool.false_eq_true, if_false]
      by_cases h1 : t.inRange (x + d) = true
      · simp only [h1, if_true]
        refine (ih _ h1 hd').2.2 hw ?_
        obtain ⟨k, hk⟩ := h
        cases k with
        | zero => simp [hx] at hk
        | succ k => exact ⟨k, by simpa [add_assoc] using hk⟩
      · simp [h1]

/-- An operation in the common type, on values of the types of the operands. -/
theorem bin_eq (a b : IntT) (f : Int → Int → Int) (hf : ∀ n x x' y y' : Int, x ≡ x' [ZMOD n] → y ≡ y' [ZMOD n] → f x y ≡ f x' y' [ZMOD n]) {x y : Int} (hx : a.inRange x = true)
    (hy : b.inRange y = true) : a.bin b f x y = (a.common b).arith (f x y) := by
  unfold IntT.bin
  cases hs : (a.common b).signed with
  | true => rw [conv_self (common_left a b hs hx), conv_self (common_right a b hs hy)]
  | false =>
    rw [arith_unsigned hs, arith_unsigned hs]
    congr 1
    exact conv_congr.mpr (hf _ _ _ _ _ (conv_mod _ _) (conv_mod _ _))

theorem neg_eq (a : IntT) {x : Int} (hx : a.inRange x = true) : a.neg x = a.promote.arith (-x) := by
  unfold IntT.neg
  cases hs : a.promote.signed with
  | true => rw [conv_self (promote_range a hs hx)]
  | false =>
    rw [arith_unsigned hs, arith_unsigned hs]
    congr 1
    exact conv_congr.mpr (conv_mod _ _).neg

theorem elem_seqT (i : SeqT) (k : Int) : elem (i.iter : Iter (Except Fault) Int) [k] = .ok (i.ty.conv (i.o + k * i.step)) := by
  simp [elem, SeqT.iter, dot, pure, Except.pure, mul_comm]

theorem elem_bin (a b : IntT) (f : Int → Int → Int) (p q : Iter (Except Fault) Int) (k x y : Int) (hp : elem p [k] = .ok x) (hq : elem q [k] = .ok y) :
    elem (.node (binOpT a b f) [p, q]) [k] = a.bin b f x y := by
  simp only [elem, elems, binOpT, mapOp, List.mapM_cons, List.mapM_nil, hp, hq]
  rfl

theorem elem_neg (a : IntT) (p : Iter (Except Fault) Int) (k x : Int) (hp : elem p [k] = .ok x) : elem (.node (negOpT a) [p]) [k] = a.neg x := by
  simp only [elem, elems, negOpT, mapOp, List.mapM_cons, List.mapM_nil, hp]
  rfl

theorem mkIotaT_ok {t : IntT} {n : LenT} {o s : Int} (h : 0 ≤ n.val ∨ n = .st UNB) : mkIotaT t n o s = .ok ⟨t, n, o, s⟩ := by
  rcases h with h | rfl
  · cases n with
    | st n => rfl
    | dyn n => simp only [LenT.val] at h; simp [mkIotaT, h]
  · rfl

theorem i64_conv (x : Int) : IntT.i64.conv x ≡ x [ZMOD 2 ^ 64] := conv_mod .i64 x

theorem width_dvd (t : IntT) : (2 : Int) ^ t.width ∣ 2 ^ 64 := pow_dvd_pow 2 (by cases t <;> decide)

theorem step_bin {a b : IntT} {f : Int → Int → Int} (hf : ∀ n x x' y y' : Int, x ≡ x' [ZMOD n] → y ≡ y' [ZMOD n] → f x y ≡ f x' y' [ZMOD n]) (hw : (a.common b).width = 64) {x y z : Int}
    (h : a.bin b f x y = .ok z) : z ≡ f x y [ZMOD 2 ^ 64] := by
  have := conv_mod (a.common b) (f ((a.common b).conv x) ((a.common b).conv y))
  rw [← arith_ok h, hw] at this
  refine this.trans (hf _ _ _ _ _ ?_ ?_)
  · have := conv_mod (a.common b) x
    rwa [hw] at this
  · have := conv_mod (a.common b) y
    rwa [hw] at this

theorem cong_add (n x x' y y' : Int) (h1 : x ≡ x' [ZMOD n]) (h2 : y ≡ y' [ZMOD n]) : x + y ≡ x' + y' [ZMOD n] := h1.add h2
theorem cong_sub (n x x' y y' : Int) (h1 : x ≡ x' [ZMOD n]) (h2 : y ≡ y' [ZMOD n]) : x - y ≡ x' - y' [ZMOD n] := h1.sub h2
theorem cong_mul (n x x' y y' : Int) (h1 : x ≡ x' [ZMOD n]) (h2 : y ≡ y' [ZMOD n]) : x * y ≡ x' * y' [ZMOD n] := h1.mul h2

/-- The elements of an iota that begins at `u`, converted, and with step `v`, modulo 2⁶⁴. -/
theorem linear (r : SeqT) {u v k y : Int} (ho : r.ty.arith u = .ok r.o) (hs : r.step ≡ v [ZMOD 2 ^ 64]) (hy : r.ty.arith (u + k * v) = .ok y) : elem (r.iter : Iter (Except Fault) Int) [k] = .ok y := by
  rw [elem_seqT, arith_ok hy]
  congr 1
  rw [conv_congr, arith_ok ho]
  exact (conv_mod _ _).add ((hs.of_dvd (width_dvd _)).mul_left _)

end
end Ra.Props

namespace Ra.Spec

/-- The iota `r` has type `t`, the same shape as the elementwise expression `e`, and the same elements for the indices in `K` where `e` has one. -/
def SameFor (t : IntT) (K : Int → Prop) (r : SeqT) (e : Iter (Except Fault) Int) : Prop :=
  r.ty = t ∧ (∀ s, HasShape (r.iter : Iter (Except Fault) Int) s ↔ HasShape e s) ∧ ∀ k, K k → ∀ y, elem e [k] = .ok y → elem (r.iter : Iter (Except Fault) Int) [k] = .ok y

/-- The `k`-th element of the iota is a value of its type. -/
def InType (i : SeqT) (k : Int) : Prop := i.ty.inRange (i.o + k * i.step) = true

end Ra.Spec

namespace Ra.Props
open Spec

section

theorem any_step (n a b : Int) (s : List Length) : List.Forall₂ DimLen [⟨n, a⟩] s ↔ List.Forall₂ DimLen [⟨n, b⟩] s := by
  constructor <;> (intro h; cases h with | cons h1 h2 => cases h2; exact .cons h1 .nil)

theorem shape_is (op : List (Except Fault Int) → Except Fault Int) (i r : SeqT) (c : Except Fault Int) (hl : r.len = i.len) (s : List Length) :
    HasShape (r.iter : Iter (Except Fault) Int) s ↔ HasShape (.node op [i.iter, .scalar c]) s := by
  have h := (same_is (m := Except Fault) (fun x _ => x) ⟨i.len, i.o, i.step⟩ ⟨i.len, i.o, i.step⟩ 0 rfl (fun k => rfl)).1 s
  rw [shape_node2] at h ⊢
  simp only [SeqT.iter, Seq1.iter, HasShape, hl] at h ⊢
  rw [any_step]
  exact h

theorem shape_si (op : List (Except Fault Int) → Except Fault Int) (i r : SeqT) (c : Except Fault Int) (hl : r.len = i.len) (s : List Length) :
    HasShape (r.iter : Iter (Except Fault) Int) s ↔ HasShape (.node op [.scalar c, i.iter]) s := by
  have h := (same_si (m := Except Fault) (fun _ x => x) ⟨i.len, i.o, i.step⟩ ⟨i.len, i.o, i.step⟩ 0 rfl (fun k => rfl)).1 s
  rw [shape_node2] at h ⊢
  simp only [SeqT.iter, Seq1.iter, HasShape, hl] at h ⊢
  rw [any_step]
  exact h

theorem arith_defined {t : IntT} {x : Int} (h : t.inRange x = true) : ∃ y, t.arith x = .ok y := by
  cases hs : t.signed with
  | false => exact ⟨_, arith_unsigned hs x⟩
  | true => exact ⟨x, by rw [arith_signed hs, if_pos h]⟩

/-- C88. Operations of an iota with a scalar of type `J`, and change of sign. Each of them can be optimized if the elementwise expression has a first element (so that's not undefined) and the new step, computed in `dim_t`, doesn't
overflow. The shape is the same, and so are all the elements that are values of the type of the iota. -/
theorem C88_scalar (i : SeqT) (hl : 0 ≤ i.len.val ∨ i.len = .st UNB) (ho : i.ty.inRange i.o = true) (hs : IntT.i64.inRange i.step = true) (J : IntT) (x : Int) (hx : J.inRange x = true) :
    ((∃ y, elem (.node (binOpT i.ty J (· + ·)) [i.iter, .scalar (.ok x)]) [0] = .ok y) → ∃ r, i.addIS J x = .ok r ∧ SameFor (i.ty.common J) (InType i) r (.node (binOpT i.ty J (· + ·)) [i.iter, .scalar (.ok x)])) ∧
    ((∃ y, elem (.node (binOpT J i.ty (· + ·)) [.scalar (.ok x), i.iter]) [0] = .ok y) → ∃ r, SeqT.addSI J x i = .ok r ∧ SameFor (J.common i.ty) (InType i) r (.node (binOpT J i.ty (· + ·)) [.scalar (.ok x), i.iter])) ∧
    ((∃ y, elem (.node (binOpT i.ty J (· - ·)) [i.iter, .scalar (.ok x)]) [0] = .ok y) → ∃ r, i.subIS J x = .ok r ∧ SameFor (i.ty.common J) (InType i) r (.node (binOpT i.ty J (· - ·)) [i.iter, .scalar (.ok x)])) ∧
    ((∃ y, elem (.node (binOpT J i.ty (· - ·)) [.scalar (.ok x), i.iter]) [0] = .ok y) → IntT.i64.inRange (-i.step) = true →
      ∃ r, SeqT.subSI J x i = .ok r ∧ SameFor (J.common i.ty) (InType i) r (.node (binOpT J i.ty (· - ·)) [.scalar (.ok x), i.iter])) ∧
    ((∃ y, elem (.node (binOpT i.ty J (· * ·)) [i.iter, .scalar (.ok x)]) [0] = .ok y) → IntT.i64.inRange (i.step * x) = true →
      ∃ r, i.mulIS J x = .ok r ∧ SameFor (i.ty.common J) (InType i) r (.node (binOpT i.ty J (· * ·)) [i.iter, .scalar (.ok x)])) ∧
    ((∃ y, elem (.node (binOpT J i.ty (· * ·)) [.scalar (.ok x), i.iter]) [0] = .ok y) → IntT.i64.inRange (x * i.step) = true →
      ∃ r, SeqT.mulSI J x i = .ok r ∧ SameFor (J.common i.ty) (InType i) r (.node (binOpT J i.ty (· * ·)) [.scalar (.ok x), i.iter])) ∧
    ((∃ y, elem (.node (negOpT i.ty) [i.iter]) [0] = .ok y) → IntT.i64.inRange (-i.step) = true → ∃ r, i.negI = .ok r ∧ SameFor i.ty.promote (InType i) r (.node (negOpT i.ty) [i.iter])) := by
  have hz : InType i 0 := by simp [InType, ho]
  have e0 : ∀ k, InType i k → elem (i.iter : Iter (Except Fault) Int) [k] = .ok (i.o + k * i.step) := fun k hk => by rw [elem_seqT, conv_self hk]
  have es : ∀ k, elem (Iter.scalar (.ok x) : Iter (Except Fault) Int) [k] = .ok x := fun k => rfl
  have is : ∀ f, (∀ n x x' y y' : Int, x ≡ x' [ZMOD n] → y ≡ y' [ZMOD n] → f x y ≡ f x' y' [ZMOD n]) → ∀ k, InType i k →
      elem (.node (binOpT i.ty J f) [i.iter, .scalar (.ok x)]) [k] = (i.ty.common J).arith (f (i.o + k * i.step) x) := fun f hf k hk => by
    rw [elem_bin _ _ f _ _ k _ _ (e0 k hk) (es k), bin_eq _ _ f hf hk hx]
  have si : ∀ f, (∀ n x x' y y' : Int, x ≡ x' [ZMOD n] → y ≡ y' [ZMOD n] → f x y ≡ f x' y' [ZMOD n]) → ∀ k, InType i k →
      elem (.node (binOpT J i.ty f) [.scalar (.ok x), i.iter]) [k] = (J.common i.ty).arith (f x (i.o + k * i.step)) := fun f hf k hk => by
    rw [elem_bin _ _ f _ _ k _ _ (es k) (e0 k hk), bin_eq _ _ f hf hx hk]
  have neg0 : IntT.i64.inRange (-i.step) = true → ∃ z, IntT.i32.bin .i64 (· - ·) 0 i.step = .ok z := fun h => by
    rw [bin_eq _ _ _ cong_sub (by decide) hs, zero_sub]
    exact arith_defined h
  refine ⟨fun ⟨y, hy⟩ => ?_, fun ⟨y, hy⟩ => ?_, fun ⟨y, hy⟩ => ?_, fun ⟨y, hy⟩ h64 => ?_, fun ⟨y, hy⟩ h64 => ?_, fun ⟨y, hy⟩ h64 => ?_, fun ⟨y, hy⟩ h64 => ?_⟩
  · rw [is _ cong_add 0 hz] at hy
    simp only [zero_mul, add_zero] at hy
    refine ⟨⟨i.ty.common J, i.len, y, i.step⟩, ?_, rfl, shape_is _ i _ _ rfl, fun k hk z h => ?_⟩
    · simp only [SeqT.addIS, bin_eq _ _ _ cong_add ho hx, hy, bind, Except.bind, mkIotaT_ok hl]
    · rw [is _ cong_add k hk] at h
      exact linear (u := i.o + x) (v := i.step) _ hy (Int.ModEq.refl _) (by rw [← h]; congr 1; ring)
  · rw [si _ cong_add 0 hz] at hy
    simp only [zero_mul, add_zero] at hy
    refine ⟨⟨J.common i.ty, i.len, y, i.step⟩, ?_, rfl, shape_si _ i _ _ rfl, fun k hk z h => ?_⟩
    · simp only [SeqT.addSI, bin_eq _ _ _ cong_add hx ho, hy, bind, Except.bind, mkIotaT_ok hl]
    · rw [si _ cong_add k hk] at h
      exact linear (u := x + i.o) (v := i.step) _ hy (Int.ModEq.refl _) (by rw [← h]; congr 1; ring)
  · rw [is _ cong_sub 0 hz] at hy
    simp only [zero_mul, add_zero] at hy
    refine ⟨⟨i.ty.common J, i.len, y, i.step⟩, ?_, rfl, shape_is _ i _ _ rfl, fun k hk z h => ?_⟩
    · simp only [SeqT.subIS, bin_eq _ _ _ cong_sub ho hx, hy, bind, Except.bind, mkIotaT_ok hl]
    · rw [is _ cong_sub k hk] at h
      exact linear (u := i.o - x) (v := i.step) _ hy (Int.ModEq.refl _) (by rw [← h]; congr 1; ring)
  · rw [si _ cong_sub 0 hz] at hy
    simp only [zero_mul, add_zero] at hy
    obtain ⟨w, hw⟩ := neg0 h64
    have hw' := step_bin cong_sub (by decide) hw
    refine ⟨⟨J.common i.ty, i.len, y, w⟩, ?_, rfl, shape_si _ i _ _ rfl, fun k hk z h => ?_⟩
    · simp only [SeqT.subSI, bin_eq _ _ _ cong_sub hx ho, hy, hw, bind, Except.bind, mkIotaT_ok hl]
    · rw [si _ cong_sub k hk] at h
      exact linear (u := x - i.o) (v := 0 - i.step) _ hy hw' (by rw [← h]; congr 1; ring)
  · rw [is _ cong_mul 0 hz] at hy
    simp only [zero_mul, add_zero] at hy
    obtain ⟨w, hw⟩ : ∃ w, IntT.i64.bin J (· * ·) i.step x = .ok w := by
      rw [bin_eq _ _ _ cong_mul hs hx]
      cases hb : (IntT.i64.common J).signed with
      | false => exact ⟨_, arith_unsigned hb _⟩
      | true => exact arith_defined (common_left _ _ hb h64)
    have hw' := step_bin cong_mul (by cases J <;> decide) hw
    refine ⟨⟨i.ty.common J, i.len, y, IntT.i64.conv w⟩, ?_, rfl, shape_is _ i _ _ rfl, fun k hk z h => ?_⟩
    · simp only [SeqT.mulIS, bin_eq _ _ _ cong_mul ho hx, hy, hw, bind, Except.bind, mkIotaT_ok hl]
    · rw [is _ cong_mul k hk] at h
      exact linear (u := i.o * x) (v := i.step * x) _ hy ((i64_conv w).trans hw') (by rw [← h]; congr 1; ring)
  · rw [si _ cong_mul 0 hz] at hy
    simp only [zero_mul, add_zero] at hy
    obtain ⟨w, hw⟩ : ∃ w, J.bin .i64 (· * ·) x i.step = .ok w := by
      rw [bin_eq _ _ _ cong_mul hx hs]
      cases hb : (J.common .i64).signed with
      | false => exact ⟨_, arith_unsigned hb _⟩
      | true => exact arith_defined (common_right _ _ hb h64)
    have hw' := step_bin cong_mul (by cases J <;> decide) hw
    refine ⟨⟨J.common i.ty, i.len, y, IntT.i64.conv w⟩, ?_, rfl, shape_si _ i _ _ rfl, fun k hk z h => ?_⟩
    · simp only [SeqT.mulSI, bin_eq _ _ _ cong_mul hx ho, hy, hw, bind, Except.bind, mkIotaT_ok hl]
    · rw [si _ cong_mul k hk] at h
      exact linear (u := x * i.o) (v := x * i.step) _ hy ((i64_conv w).trans hw') (by rw [← h]; congr 1; ring)
  · rw [elem_neg _ _ 0 _ (e0 0 hz), neg_eq _ hz] at hy
    simp only [zero_mul, add_zero] at hy
    obtain ⟨w, hw⟩ := neg0 h64
    have hw' := step_bin cong_sub (by decide) hw
    refine ⟨⟨i.ty.promote, i.len, y, w⟩, ?_, rfl, fun s => ?_, fun k hk z h => ?_⟩
    · simp only [SeqT.negI, neg_eq _ ho, hy, hw, bind, Except.bind, mkIotaT_ok hl]
    · rw [shape_node1]
      exact any_step _ _ _ _
    · rw [elem_neg _ _ k _ (e0 k hk), neg_eq _ hk] at h
      exact linear (u := -i.o) (v := 0 - i.step) _ hy hw' (by rw [← h]; congr 1; ring)

/-- C88. Sum and difference of iotas with matching lengths. -/
theorem C88_iotas (i j : SeqT) (hi : IotaOk ⟨i.len, i.o, i.step⟩) (hj : IotaOk ⟨j.len, j.o, j.step⟩) (hm : Match2 ⟨i.len, i.o, i.step⟩ ⟨j.len, j.o, j.step⟩) (hio : i.ty.inRange i.o = true)
    (hjo : j.ty.inRange j.o = true) (his : IntT.i64.inRange i.step = true) (hjs : IntT.i64.inRange j.step = true) :
    ((∃ y, elem (.node (binOpT i.ty j.ty (· + ·)) [i.iter, j.iter]) [0] = .ok y) → IntT.i64.inRange (i.step + j.step) = true →
      ∃ r, i.addII j = .ok r ∧ SameFor (i.ty.common j.ty) (fun k => InType i k ∧ InType j k) r (.node (binOpT i.ty j.ty (· + ·)) [i.iter, j.iter])) ∧
    ((∃ y, elem (.node (binOpT i.ty j.ty (· - ·)) [i.iter, j.iter]) [0] = .ok y) → IntT.i64.inRange (i.step - j.step) = true →
      ∃ r, i.subII j = .ok r ∧ SameFor (i.ty.common j.ty) (fun k => InType i k ∧ InType j k) r (.node (binOpT i.ty j.ty (· - ·)) [i.iter, j.iter])) := by
  have e : ∀ f, (∀ n x x' y y' : Int, x ≡ x' [ZMOD n] → y ≡ y' [ZMOD n] → f x y ≡ f x' y' [ZMOD n]) → ∀ k, InType i k → InType j k →
      elem (.node (binOpT i.ty j.ty f) [i.iter, j.iter]) [k] = (i.ty.common j.ty).arith (f (i.o + k * i.step) (j.o + k * j.step)) := fun f hf k hk hk' => by
    rw [elem_bin _ _ f _ _ k _ _ (by rw [elem_seqT, conv_self hk]) (by rw [elem_seqT, conv_self hk']), bin_eq _ _ f hf hk hk']
  have zi : InType i 0 := by simp [InType, hio]
  have zj : InType j 0 := by simp [InType, hjo]
  obtain ⟨h1, h2⟩ := clen2_val hi hj hm
  have hshape : ∀ op (r : SeqT), r.len = clenT i j → ∀ s, HasShape (r.iter : Iter (Except Fault) Int) s ↔ HasShape (.node op [i.iter, j.iter] : Iter (Except Fault) Int) s := by
    intro op r hr s
    obtain ⟨r', hr', hs⟩ := (C42_iotas (m := Except Fault) _ _ hi hj hm).1
    simp only [optAddII, mkIota_ok h2, Except.ok.injEq] at hr'
    have := hs.1 s
    subst hr'
    rw [shape_node2] at this ⊢
    simp only [SeqT.iter, Seq1.iter, HasShape, hr, clenT] at this ⊢
    rw [any_step]
    exact this
  constructor
  · rintro ⟨y, hy⟩ h64
    rw [e _ cong_add 0 zi zj] at hy
    simp only [zero_mul, add_zero] at hy
    obtain ⟨w, hw⟩ : ∃ w, IntT.i64.bin .i64 (· + ·) i.step j.step = .ok w := by
      rw [bin_eq _ _ _ cong_add his hjs]
      exact arith_defined h64
    refine ⟨⟨i.ty.common j.ty, clenT i j, y, w⟩, ?_, rfl, hshape _ _ rfl, fun k hk z h => ?_⟩
    · simp only [SeqT.addII, bin_eq _ _ _ cong_add hio hjo, hy, hw, bind, Except.bind, mkIotaT_ok (n := clenT i j) h2]
    · rw [e _ cong_add k hk.1 hk.2] at h
      exact linear (u := i.o + j.o) (v := i.step + j.step) _ hy (step_bin cong_add (by decide) hw) (by rw [← h]; congr 1; ring)
  · rintro ⟨y, hy⟩ h64
    rw [e _ cong_sub 0 zi zj] at hy
    simp only [zero_mul, add_zero] at hy
    obtain ⟨w, hw⟩ : ∃ w, IntT.i64.bin .i64 (· - ·) i.step j.step = .ok w := by
      rw [bin_eq _ _ _ cong_sub his hjs]
      exact arith_defined h64
    refine ⟨⟨i.ty.common j.ty, clenT i j, y, w⟩, ?_, rfl, hshape _ _ rfl, fun k hk z h => ?_⟩
    · simp only [SeqT.subII, bin_eq _ _ _ cong_sub hio hjo, hy, hw, bind, Except.bind, mkIotaT_ok (n := clenT i j) h2]
    · rw [e _ cong_sub k hk.1 hk.2] at h
      exact linear (u := i.o - j.o) (v := i.step - j.step) _ hy (step_bin cong_sub (by decide) hw) (by rw [← h]; congr 1; ring)

theorem iota_room (i : SeqT) (n : Nat) : Roomy (i.iter : Iter (Except Fault) Int) [n] [i.ty.limit] ↔ i.ty.wraps = true ∨ (i.ty.inRange i.o = true ∧ i.ty.inRange (i.o + n * i.step) = true) := by
  cases hw : i.ty.wraps with
  | true =>
    simp only [true_or, iff_true]
    intro k m hk u hu t h0 h1
    simp only [SeqT.iter, pointersAt, IntT.limit, hw, if_true, InArrays, List.zip_cons_cons, List.zip_nil_right, List.mem_singleton, forall_eq, InArray]
  | false =>
    simp only [Bool.false_eq_true, false_or]
    have key : ∀ t : Int, InArrays (pointersAt (i.iter : Iter (Except Fault) Int) [t]) [i.ty.limit] ↔ i.ty.inRange (i.o + t * i.step) = true := by
      intro t
      simp only [SeqT.iter, pointersAt, IntT.limit, hw, Bool.false_eq_true, if_false, InArrays, List.zip_cons_cons, List.zip_nil_right, List.mem_singleton, forall_eq, InArray, List.map_cons, List.map_nil, dot, List.zipWith_cons_cons, List.zipWith_nil_right, List.sum_cons, List.sum_nil,
        IntT.inRange, Bool.and_eq_true, decide_eq_true_eq]
      constructor
      · rintro ⟨h1, h2⟩
        constructor
        · linarith
        · linarith
      · rintro ⟨h1, h2⟩
        constructor
        · linarith
        · linarith
    constructor
    · intro h
      have h0 := h 0 n rfl [] (by simp [Valid]) 0 (by omega) (by omega)
      have h1 := h 0 n rfl [] (by simp [Valid]) n (by omega) (by omega)
      simp only [List.nil_append, key, zero_mul, add_zero] at h0 h1
      exact ⟨h0, h1⟩
    · rintro ⟨h0, h1⟩ k m hk u hu t ht0 ht1
      match k, hk with
      | 0, hk =>
        simp only [List.getElem?_cons_zero, Option.some.injEq] at hk
        subst hk
        have : u = [] := by
          cases u with
          | nil => rfl
          | cons a u => simp [Valid] at hu
        subst this
        simp only [List.nil_append, key]
        refine range_between h0 h1 ?_
        rcases le_total 0 i.step with hs | hs
        · left
          constructor
          · nlinarith
          · nlinarith
        · right
          constructor
          · nlinarith
          · nlinarith

/-- C88. The whole traversal of an iota of `n` elements, all of them values of its type, is defined if and only if the type is unsigned, or smaller than `int`, or the number after the last element (with the same step) is also a value of the
type. -/
theorem C88_traversal (i : SeqT) (n : Nat) (hn : 0 < n) (hl : i.len.val = n) (h : ∀ k : Nat, k < n → i.ty.inRange (i.o + k * i.step) = true) (dyn : Bool) (z : List Int) (hz : ∀ i ∈ z, i = 0) (β : Type) :
    (plyP (β := β) [i.ty.limit] dyn never z (i.iter : Iter (Except Fault) Int) = .ok none ↔ i.ty.wraps = true ∨ i.ty.inRange (i.o + n * i.step) = true) ∧
    (plyP (β := β) [i.ty.limit] dyn never z (i.iter : Iter (Except Fault) Int) = .error .ub ↔ ¬ (i.ty.wraps = true ∨ i.ty.inRange (i.o + n * i.step) = true)) := by
  have h0 := h 0 hn
  simp only [Nat.cast_zero, zero_mul, add_zero] at h0
  have hsh : HasShape (i.iter : Iter (Except Fault) Int) ([n].map some) := by
    simp only [SeqT.iter, HasShape]
    exact .cons hl .nil
  have hok : ∀ j, Valid [n] j → ∃ x, elem (i.iter : Iter (Except Fault) Int) j = .ok x := by
    intro j _
    exact ⟨_, rfl⟩
  have hroom : Roomy (i.iter : Iter (Except Fault) Int) [n] [i.ty.limit] ↔ i.ty.wraps = true ∨ i.ty.inRange (i.o + n * i.step) = true := by
    rw [iota_room]
    simp [h0]
  have hin : ∀ t : Int, i.ty.inRange (i.o + t * i.step) = true → InArrays (pointersAt (i.iter : Iter (Except Fault) Int) [t]) [i.ty.limit] := by
    intro t ht
    cases hw : i.ty.wraps with
    | true => simp [SeqT.iter, pointersAt, IntT.limit, hw, InArrays, InArray]
    | false =>
      simp only [IntT.inRange, Bool.and_eq_true, decide_eq_true_eq] at ht
      simp only [SeqT.iter, pointersAt, IntT.limit, hw, Bool.false_eq_true, if_false, InArrays, List.zip_cons_cons, List.zip_nil_right, List.mem_singleton, forall_eq, InArray, List.map_cons, List.map_nil, dot, List.zipWith_cons_cons, List.zipWith_nil_right, List.sum_cons, List.sum_nil]
      constructor
      · linarith
      · linarith
  rw [← hroom]
  cases dyn with
  | false =>
    refine C68_fixed_exact [i.ty.limit] i.iter [n] hsh hok ?_ z
    have := hin 0 (by simpa using h0)
    simpa [SeqT.iter, pointersAt, dot] using this
  | true =>
    have := C68_ravel_exact (β := β) [i.ty.limit] i.iter [n] hsh (by simp; omega) (by
      intro j hj
      match j, hj with
      | [t], hj =>
        simp only [Valid] at hj
        have := h t.toNat (by omega)
        rw [Int.toNat_of_nonneg hj.1] at this
        exact hin t this) hok z hz
    have hlast : RoomyLast (i.iter : Iter (Except Fault) Int) [n] [i.ty.limit] ↔ Roomy (i.iter : Iter (Except Fault) Int) [n] [i.ty.limit] := by
      constructor
      · intro h k m hk u hu t ht0 ht1
        match k, hk with
        | 0, hk =>
          simp only [List.getElem?_cons_zero, Option.some.injEq] at hk
          subst hk
          exact h [] n rfl u hu t ht0 ht1
      · intro h s' m hs u hu t ht0 ht1
        match s', hs with
        | [], hs =>
          simp only [List.nil_append, List.cons.injEq, and_true] at hs
          subst hs
          exact h 0 n rfl u hu t ht0 ht1
        | _ :: s', hs => simp at hs
    rw [hlast] at this
    exact this

/-- C88 is false of the code: the traversal of `iota(1, 2147483647)`, of type `int`, overflows. -/
theorem C88_traversal_negation (dyn : Bool) : ¬ ∀ (i : SeqT) (n : Nat), i.len.val = n → (∀ k : Nat, k < n → i.ty.inRange (i.o + k * i.step) = true) →
    plyP (β := Int) [i.ty.limit] dyn never [] (i.iter : Iter (Except Fault) Int) = .ok none := by
  intro h
  have hk : ∀ k : Nat, k < 1 → (SeqT.mk .i32 (.dyn 1) 2147483647 1).ty.inRange ((SeqT.mk .i32 (.dyn 1) 2147483647 1).o + k * (SeqT.mk .i32 (.dyn 1) 2147483647 1).step) = true := by
    intro k hk
    obtain rfl : k = 0 := by omega
    decide
  have h1 := h ⟨.i32, .dyn 1, 2147483647, 1⟩ 1 rfl hk
  rw [(C88_traversal ⟨.i32, .dyn 1, 2147483647, 1⟩ 1 (by omega) rfl hk dyn [] (by simp) Int).1] at h1
  revert h1
  decide

/-- C88. For an element that isn't a value of the type of the iota, so that it wraps, `iota + scalar` has the same element as the elementwise expression if and only if it wraps in the same way in the type of the result. -/
theorem C88_wrapped (i : SeqT) (ho : i.ty.inRange i.o = true) (J : IntT) (x : Int) (hx : J.inRange x = true) (r : SeqT) (hr : i.addIS J x = .ok r) (k y : Int)
    (hy : elem (.node (binOpT i.ty J (· + ·)) [i.iter, .scalar (.ok x)]) [k] = .ok y) :
    elem (r.iter : Iter (Except Fault) Int) [k] = .ok y ↔ r.ty.conv (i.ty.conv (i.o + k * i.step)) = r.ty.conv (i.o + k * i.step) := by
  rw [elem_bin _ _ _ _ _ k _ _ (elem_seqT i k) rfl, bin_eq _ _ _ cong_add (conv_range _ _) hx] at hy
  simp only [SeqT.addIS, bin_eq _ _ _ cong_add ho hx, bind, Except.bind] at hr
  split at hr
  · cases hr
  · next o' ho' =>
    have hr' : r = ⟨i.ty.common J, i.len, o', i.step⟩ := by
      unfold mkIotaT at hr
      split at hr
      · split at hr
        · cases hr; rfl
        · cases hr
      · cases hr; rfl
    subst hr'
    rw [elem_seqT, arith_ok hy]
    simp only [Except.ok.injEq]
    rw [conv_congr, conv_congr, arith_ok ho']
    have h1 : (i.ty.common J).conv (i.o + x) + k * i.step ≡ i.o + k * i.step + x [ZMOD 2 ^ (i.ty.common J).width] := by
      refine ((conv_mod _ _).add_right _).trans ?_
      rw [show i.o + x + k * i.step = i.o + k * i.step + x by ring]
    constructor
    · intro h
      exact Int.ModEq.add_right_cancel' x (h.symm.trans h1)
    · intro h
      exact h1.trans (h.symm.add_right x)

/-- C88 is false of the code: the optimization of `iota(3, 4294967295u) + dim_t(1)`, which should be 4294967296, 1, 2, gives 4294967296, 4294967297, 4294967298. -/
theorem C88_wrapped_negation : ∃ r, (SeqT.mk .u32 (.dyn 3) 4294967295 1).addIS .i64 1 = .ok r ∧
    [0, 1, 2].map (fun k => elem (r.iter : Iter (Except Fault) Int) [k]) = [.ok 4294967296, .ok 4294967297, .ok 4294967298] ∧
    [0, 1, 2].map (fun k => elem (.node (binOpT .u32 .i64 (· + ·)) [(SeqT.mk .u32 (.dyn 3) 4294967295 1).iter, .scalar (.ok 1)]) [k]) = [.ok 4294967296, .ok 1, .ok 2] :=
  ⟨⟨.i64, .dyn 3, 4294967296, 1⟩, by decide +kernel, by decide +kernel, by decide +kernel⟩

/-- C88. The values of each of the types, and what a number is converted to: the value that differs from it by a multiple of 2ʷ. -/
theorem C88_values (x : Int) :
    (IntT.i8.inRange x = true ↔ -128 ≤ x ∧ x ≤ 127) ∧ (IntT.u8.inRange x = true ↔ 0 ≤ x ∧ x ≤ 255) ∧
    (IntT.i16.inRange x = true ↔ -32768 ≤ x ∧ x ≤ 32767) ∧ (IntT.u16.inRange x = true ↔ 0 ≤ x ∧ x ≤ 65535) ∧
    (IntT.i32.inRange x = true ↔ -2147483648 ≤ x ∧ x ≤ 2147483647) ∧ (IntT.u32.inRange x = true ↔ 0 ≤ x ∧ x ≤ 4294967295) ∧
    (IntT.i64.inRange x = true ↔ -9223372036854775808 ≤ x ∧ x ≤ 9223372036854775807) ∧ (IntT.u64.inRange x = true ↔ 0 ≤ x ∧ x ≤ 18446744073709551615) ∧
    ∀ t : IntT, t.inRange (t.conv x) = true ∧ (2 ^ t.width : Int) ∣ x - t.conv x := by
  refine ⟨?_, ?_, ?_, ?_, ?_, ?_, ?_, ?_, fun t => ⟨conv_range t x, (conv_mod t x).dvd⟩⟩ <;> simp [IntT.inRange, IntT.lo, IntT.hi, IntT.signed, IntT.width]

/-- The hypotheses of `C88_scalar` and `C88_iotas` hold, for instance, for `5u - iota(3, short(-1), 2)`, where the elements wrap in the type of the result but not in that of the iota. -/
example : [0, 1, 2].map (fun k => elem (.node (binOpT .u32 .i16 (· - ·)) [.scalar (.ok 5), (SeqT.mk .i16 (.dyn 3) (-1) 4).iter]) [k]) = [.ok 6, .ok 2, .ok 4294967294] ∧
    (∃ r, SeqT.subSI .u32 5 (SeqT.mk .i16 (.dyn 3) (-1) 4) = .ok r ∧ [0, 1, 2].map (fun k => elem (r.iter : Iter (Except Fault) Int) [k]) = [.ok 6, .ok 2, .ok 4294967294]) ∧
    ∀ k : Int, 0 ≤ k → k < 3 → InType (SeqT.mk .i16 (.dyn 3) (-1) 4) k := by
  refine ⟨by decide +kernel, ⟨⟨.u32, .dyn 3, 6, -4⟩, by decide +kernel, by decide +kernel⟩, fun k h0 h1 => ?_⟩
  simp [InType, IntT.inRange, IntT.lo, IntT.hi, IntT.signed, IntT.width]
  omega

example : ∃ r, (SeqT.mk .i32 (.dyn 3) 7 (-2)).addII (SeqT.mk .u8 (.st UNB) 250 1) = .ok r ∧ r.ty = .i32 ∧ [0, 1, 2].map (fun k => elem (r.iter : Iter (Except Fault) Int) [k]) = [.ok 257, .ok 256, .ok 255] :=
  ⟨⟨.i32, .dyn 3, 257, -1⟩, by decide +kernel, rfl, by decide +kernel⟩

example : [5, -7, 300].foldlM IntT.u8.advance 250 = .ok 36 ∧ [5, -7, 300].foldlM IntT.i32.advance 250 = .ok 548 ∧ [5, 1000].foldlM IntT.i32.advance 2147483640 = .error .ub := by decide +kernel

end
end Ra.Props
