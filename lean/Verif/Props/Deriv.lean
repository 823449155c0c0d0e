import Verif.Model.Deriv
import Verif.Props.Count
import Verif.Props.Opt
import Verif.Props.AxisSum
import Mathlib.Analysis.Calculus.MeanValue
import Mathlib.Analysis.SpecialFunctions.Trigonometric.Deriv
import Mathlib.Analysis.SpecialFunctions.Sqrt
import Mathlib.Algebra.Order.BigOperators.Group.Finset
import Mathlib.Tactic.FieldSimp
import Mathlib.Tactic.LinearCombination
/-!
# C120: second differences of samples, and the error of the example
-/

namespace Ra.Spec

section
variable {V : Type}

/-- `v` is a vector of `n` elements, all different places in memory. -/
structure Vector (μ : Mem V) (n : Nat) (v : View) : Prop where
  shape : Shaped v [some n]
  distinct : Distinct v [n]
  memory : ∀ k, Valid [n] [k] → (μ (address v [k])).isSome

/-- No element of `u` is in the place of one of `v`. -/
def ApartFrom (n : Nat) (u v : View) : Prop := ∀ k, Valid [n] [k] → ¬ InView v [n] (address u [k])

end

/-- The functions `f1` to `f4` are the first four derivatives of `f`. -/
structure Derivatives (f f1 f2 f3 f4 : ℝ → ℝ) : Prop where
  first : ∀ x, HasDerivAt f (f1 x) x
  second : ∀ x, HasDerivAt f1 (f2 x) x
  third : ∀ x, HasDerivAt f2 (f3 x) x
  fourth : ∀ x, HasDerivAt f3 (f4 x) x

end Ra.Spec

namespace Ra.Props
open Spec

section
variable {V : Type}

theorem isSome_kept {μ μ' : Mem V} {n : Nat} {v : View} (h : Spec.Vector μ n v) (hv : ∀ k, Valid [n] [k] → (μ' (address v [k])).isSome) : Spec.Vector μ' n v := ⟨h.shape, h.distinct, hv⟩

theorem vector_outside {μ μ' : Mem V} {n : Nat} {v u : View} (h : Spec.Vector μ n v) (ha : ApartFrom n v u) (hs : SameOutside (InView u [n]) μ μ') : Spec.Vector μ' n v :=
  isSome_kept h fun k hk => by rw [hs _ (ha k hk)]; exact h.memory k hk

variable [Field V]

theorem scalar_none {x : Act V (Lv V)} : HasShape (.scalar x : Iter (Act V) (Lv V)) [] := rfl

omit [Field V] in
theorem mapVal_shape (f : V → V) {a : Iter (Act V) (Lv V)} {s : List Length} (h : HasShape a s) : HasShape (mapVal f a) s := ⟨[s], ⟨_, _, rfl, h, rfl⟩, merge_one _⟩

omit [Field V] in
theorem mapVal_reads (f : V → V) {μ : Mem V} {a : Iter (Act V) (Lv V)} {j : List Int} {x : V} (h : Reads μ (elem a j) x) : Reads μ (elem (mapVal f a) j) (f x) := by
  obtain ⟨r, h1, h2⟩ := reads_elim h
  simp only [Reads, elem, elems, mapVal, valOp, mapOp, List.mapM_cons, List.mapM_nil, id_eq, bind_assoc, pure_bind]
  rw [act_bind_ok h1, act_bind_ok h2]
  rfl

/-- C120. The samples: element `k` is the function at `k δ`. -/
theorem C120_sample (dyn : Bool) (z : List Int) (hz : ∀ i ∈ z, i = 0) (f : V → V) (delta : V) (n : Nat) (v : View) (μ : Mem V) (hv : Spec.Vector μ n v) :
    ∃ μ', sampleOf dyn z f delta v μ = (.ok (), μ') ∧ (∀ k, Valid [n] [k] → μ' (address v [k]) = some (f ((k : V) * delta))) ∧ SameOutside (InView v [n]) μ μ' := by
  obtain ⟨h1, h2⟩ := tindexVal_shape (V := V) 0
  obtain ⟨μ', a1, a2, a3⟩ := C27_view dyn z hz v [n] hv.shape hv.distinct (mapVal f (binaryOp (· * ·) (tindexVal 0) (.scalar (pure (.val delta))))) [none]
    (mapVal_shape f (shape_two h1 scalar_none (merge_nil _))) (merge_index [some n] 0 (by simp)) μ
    (fun j hj => by obtain ⟨k, rfl, _⟩ := valid_one.1 hj; exact hv.memory k hj) (fun j => f (((j.getD 0 0 : Int) : V) * delta)) (by
      intro j hj μ' _
      refine mapVal_reads f (reads_binary _ ?_ (reads_scalar _ _ _))
      rw [h2 j (by rw [length_of_valid hj]; simp)]
      rfl)
  exact ⟨μ', a1, fun k hk => a2 [k] hk, a3⟩

theorem inside_view (v : View) (n : Nat) (hv : Shaped v [some n]) (hn : 2 ≤ n) (o : Int) (ho : 0 ≤ o) (ho' : o ≤ 2) :
    ∃ w, v.from [Seq1.asSub ⟨.dyn ((n : Int) - 2), o, 1⟩] = .ok w ∧ Shaped w [some (n - 2)] ∧ ∀ k, Valid [n - 2] [k] → address w [k] = address v [o + k] ∧ Valid [n] [o + k] := by
  obtain ⟨d, hd⟩ := view_one hv
  obtain ⟨w, h1, h2, h3⟩ := C13_slice v [some n] hv [.range (n - 2) o 1] (by simp [axes]) (by
    rw [hd]
    simp only [Accepts, and_true]
    intro k hk
    omega)
  have e : ((n - 2 : Nat) : Int) = (n : Int) - 2 := by omega
  refine ⟨w, ?_, h2, fun k hk => ?_⟩
  · rw [← h1]
    simp only [Seq1.asSub, LenT.val, List.map_cons, List.map_nil, write, e]
  · obtain ⟨h4, h5⟩ := h3 [k] (inRange_of_valid (s := [n - 2]) hk)
    simp only [sliceIndex, List.headD_cons, one_mul, List.drop_succ_cons, List.drop_zero] at h4 h5
    exact ⟨h4, valid_of_inRange (s := [n]) (by simp) h5⟩

/-- C120. The second differences: the elements of `y2` other than the first and the last are set from those of `y`, and nothing else changes. -/
theorem C120_difference (dyn : Bool) (z : List Int) (hz : ∀ i ∈ z, i = 0) (n : Nat) (hn : 2 ≤ n) (delta : V) (y y2 : View) (μ : Mem V) (fy : Int → V) (hy : Shaped y [some n])
    (hval : ∀ k, Valid [n] [k] → μ (address y [k]) = some (fy k)) (h2 : Spec.Vector μ n y2) (ha : ApartFrom n y y2) :
    ∃ μ', secondDiff dyn z n delta y y2 μ = (.ok (), μ') ∧
      (∀ k : Int, 1 ≤ k → k < n - 1 → μ' (address y2 [k]) = some ((fy (k - 1) - 2 * fy k + fy (k + 1)) / (delta * delta))) ∧
      SameOutside (fun p => ∃ k : Int, 1 ≤ k ∧ k < n - 1 ∧ p = address y2 [k]) μ μ' := by
  obtain ⟨d, d1, d2, d3⟩ := inside_view y2 n h2.shape hn 1 (by omega) (by omega)
  obtain ⟨a, a1, a2, a3⟩ := inside_view y n hy hn 0 (by omega) (by omega)
  obtain ⟨b, b1, b2, b3⟩ := inside_view y n hy hn 1 (by omega) (by omega)
  obtain ⟨c, c1, c2, c3⟩ := inside_view y n hy hn 2 (by omega) (by omega)
  have e1 : insideIota (n : Int) = .ok ⟨.dyn ((n : Int) - 2), 1, 1⟩ := by
    simp only [insideIota, mkIota]
    rw [if_pos (by omega)]
  have e2 : optSubIS ⟨.dyn ((n : Int) - 2), 1, 1⟩ 1 = .ok ⟨.dyn ((n : Int) - 2), 0, 1⟩ := by
    simp only [optSubIS, mkIota]
    rw [if_pos (by omega)]
    rfl
  have e3 : optAddIS ⟨.dyn ((n : Int) - 2), 1, 1⟩ 1 = .ok ⟨.dyn ((n : Int) - 2), 2, 1⟩ := by
    simp only [optAddIS, mkIota]
    rw [if_pos (by omega)]
    rfl
  have hin : ∀ p, InView d [n - 2] p ↔ ∃ k : Int, 1 ≤ k ∧ k < n - 1 ∧ p = address y2 [k] := by
    intro p
    constructor
    · rintro ⟨j, hj, rfl⟩
      obtain ⟨k, rfl, h3, h4⟩ := valid_one.1 hj
      exact ⟨1 + k, by omega, by omega, (d3 k hj).1⟩
    · rintro ⟨k, h3, h4, rfl⟩
      have hk : Valid [n - 2] [k - 1] := valid_one.2 ⟨_, rfl, by omega, by omega⟩
      refine ⟨_, hk, ?_⟩
      rw [(d3 _ hk).1]
      congr 2
      omega
  have hread : ∀ (x : View) (o : Int), (∀ k, Valid [n - 2] [k] → address x [k] = address y [o + k] ∧ Valid [n] [o + k]) → ∀ k, Valid [n - 2] [k] → ∀ μ', SameOutside (InView d [n - 2]) μ μ' →
      Reads μ' (elem x.refs [k]) (fy (o + k)) := by
    intro x o hx k hk μ' ho
    refine reads_refs ?_
    rw [(hx k hk).1, ho _ ?_, hval _ (hx k hk).2]
    intro h
    obtain ⟨k', h3, h4, h5⟩ := (hin _).1 h
    exact ha _ (hx k hk).2 ⟨[k'], valid_one.2 ⟨_, rfl, by omega, by omega⟩, h5⟩
  obtain ⟨μ', f1, f2, f3⟩ := C27_view dyn z hz d [n - 2] d2 (by
      intro j k hj hk h
      obtain ⟨j, rfl, _⟩ := valid_one.1 hj
      obtain ⟨k, rfl, _⟩ := valid_one.1 hk
      rw [(d3 j hj).1, (d3 k hk).1] at h
      have := h2.distinct _ _ (d3 j hj).2 (d3 k hk).2 h
      simp only [List.cons.injEq, and_true] at this
      simp only [List.cons.injEq, and_true]
      omega)
    (binaryOp (· / ·) (binaryOp (· + ·) (binaryOp (· - ·) a.refs (binaryOp (· * ·) (.scalar (pure (.val 2))) b.refs)) c.refs) (.scalar (pure (.val (delta * delta))))) [some (n - 2)]
    (shape_two (shape_two (shape_two (refs_shape a2) (shape_two scalar_none (refs_shape b2) merge_empty) (merge_same _)) (refs_shape c2) (merge_same _)) scalar_none (merge_nil _)) (merge_same _) μ
    (fun j hj => by
      obtain ⟨k, rfl, _⟩ := valid_one.1 hj
      rw [(d3 k hj).1]
      exact h2.memory _ (d3 k hj).2)
    (fun j => (fy (j.getD 0 0) - 2 * fy (1 + j.getD 0 0) + fy (2 + j.getD 0 0)) / (delta * delta)) (by
      intro j hj μ' ho
      obtain ⟨k, rfl, _⟩ := valid_one.1 hj
      have ho' : SameOutside (InView d [n - 2]) μ μ' := fun p hp => ho p fun h => hp h.1
      have ra := hread a 0 a3 k hj μ' ho'
      rw [zero_add] at ra
      exact reads_binary _ (reads_binary _ (reads_binary _ ra (reads_binary _ (reads_scalar _ _ _) (hread b 1 b3 k hj μ' ho'))) (hread c 2 c3 k hj μ' ho')) (reads_scalar _ _ _))
  refine ⟨μ', ?_, fun k h3 h4 => ?_, fun p hp => f3 p fun h => hp ((hin p).1 h)⟩
  · unfold secondDiff
    rw [lift_bind e1, lift_bind d1, lift_bind e2, lift_bind a1, lift_bind b1, lift_bind e3, lift_bind c1]
    exact f1
  · have hk : Valid [n - 2] [k - 1] := valid_one.2 ⟨_, rfl, by omega, by omega⟩
    have := f2 _ hk
    rw [(d3 _ hk).1] at this
    simp only [List.getD_cons_zero] at this
    rw [show (1 : Int) + (k - 1) = k by omega, show (2 : Int) + (k - 1) = k + 1 by omega] at this
    exact this

/-- C120. With fewer than two samples there isn't an inside, and the check fails. -/
theorem C120_few (dyn : Bool) (z : List Int) (n : Int) (hn : n < 2) (delta : V) (y y2 : View) (μ : Mem V) : secondDiff dyn z n delta y y2 μ = (.error .check, μ) := by
  have e : insideIota n = .error .check := by
    simp only [insideIota, mkIota]
    rw [if_neg (by omega)]
  unfold secondDiff
  rw [e]
  rfl

/-- C120. The second differences of the samples of a polynomial of degree 4 are its second derivative plus `2 a₄ δ²`. So for a polynomial of degree 3 they are the second derivative. -/
theorem C120_quartic (dyn : Bool) (z : List Int) (hz : ∀ i ∈ z, i = 0) (n : Nat) (hn : 2 ≤ n) (delta : V) (hd : delta ≠ 0) (y y2 : View) (μ : Mem V) (hy : Spec.Vector μ n y) (h2 : Spec.Vector μ n y2) (ha : ApartFrom n y y2) (ha' : ApartFrom n y2 y)
    (a0 a1 a2 a3 a4 : V) :
    ∃ μ', (do sampleOf dyn z (fun x => a0 + a1 * x + a2 * x ^ 2 + a3 * x ^ 3 + a4 * x ^ 4) delta y; secondDiff dyn z n delta y y2 : Act V Unit) μ = (.ok (), μ') ∧
      ∀ k : Int, 1 ≤ k → k < n - 1 → μ' (address y2 [k]) = some (2 * a2 + 6 * a3 * (k * delta) + 12 * a4 * (k * delta) ^ 2 + 2 * a4 * delta ^ 2) := by
  obtain ⟨μ1, s1, s2, s3⟩ := C120_sample dyn z hz (fun x => a0 + a1 * x + a2 * x ^ 2 + a3 * x ^ 3 + a4 * x ^ 4) delta n y μ hy
  obtain ⟨μ', d1, d2, _⟩ := C120_difference dyn z hz n hn delta y y2 μ1 _ hy.shape s2 (vector_outside h2 ha' s3) ha
  refine ⟨μ', by rw [act_bind_ok s1, d1], fun k h3 h4 => ?_⟩
  rw [d2 k h3 h4]
  congr 1
  push_cast
  field_simp
  ring

theorem rms_run [Inhabited V] (root : V → V) (dyn : Bool) (z : List Int) (hz : ∀ i ∈ z, i = 0) (n : Nat) (hn : 2 ≤ n) (y2 e : View) (μ : Mem V) (fy fe : Int → V) (h2 : Shaped y2 [some n]) (he : Shaped e [some n])
    (hy : ∀ k : Int, 1 ≤ k → k < n - 1 → μ (address y2 [k]) = some (fy k)) (hf : ∀ k : Int, 1 ≤ k → k < n - 1 → μ (address e [k]) = some (fe k)) :
    rmsError root dyn z n y2 e μ = (.ok (root (accum 0 (n - 2) (fun k => (fy (1 + k) - fe (1 + k)) * (fy (1 + k) - fe (1 + k))) / ((n - 2 : Nat) : V))), μ) := by
  obtain ⟨u, u1, u2, u3⟩ := inside_view y2 n h2 hn 1 (by omega) (by omega)
  obtain ⟨w, w1, w2, w3⟩ := inside_view e n he hn 1 (by omega) (by omega)
  have e1 : insideIota (n : Int) = .ok ⟨.dyn ((n : Int) - 2), 1, 1⟩ := by
    simp only [insideIota, mkIota]
    rw [if_pos (by omega)]
  have run : sumOf dyn z (.node (mapOp sqrVal) [.node (mapOp minusVal) [u.reads, w.reads]]) μ = (.ok (accum 0 (n - 2) (fun k => (fy (1 + k) - fe (1 + k)) * (fy (1 + k) - fe (1 + k)))), μ) := by
    have := forEachRef_mem μ dyn z hz (fun c xs => match xs with
      | [x] => pure (c + x)
      | _ => fault .abort) (0 : V) [.node (mapOp sqrVal) [.node (mapOp minusVal) [u.reads, w.reads]]] [n - 2] [[some (n - 2)]]
      ⟨_, _, rfl, ⟨_, ⟨_, _, rfl, ⟨_, ⟨_, _, rfl, u2, _, _, rfl, w2, rfl⟩, merge_same _⟩, rfl⟩, merge_one _⟩, rfl⟩ (merge_one _)
      (fun j => [(fy (1 + j.getD 0 0) - fe (1 + j.getD 0 0)) * (fy (1 + j.getD 0 0) - fe (1 + j.getD 0 0))]) (by
        intro j hj g
        obtain ⟨k, rfl, h3, h4⟩ := valid_one.1 hj
        have r : ∀ (v : View) (x : V), μ (address v [k]) = some x → (elem (v.reads : Iter (StateT V (Act V)) V) [k]).run g μ = (.ok (x, g), μ) := by
          intro v x h
          show (StateT.lift (Act.read (address v [k])) : StateT V (Act V) V).run g μ = _
          rw [StateT.run_lift, act_bind_ok (a := x) (μ' := μ) (by simp [Act.read, h])]
          rfl
        have r1 := r u (fy (1 + k)) (by rw [(u3 k hj).1]; exact hy _ (by omega) (by omega))
        have r2 := r w (fe (1 + k)) (by rw [(w3 k hj).1]; exact hf _ (by omega) (by omega))
        have r3 : (mapOp minusVal [elem (u.reads : Iter (StateT V (Act V)) V) [k], elem (w.reads : Iter (StateT V (Act V)) V) [k]]).run g μ = (.ok (fy (1 + k) - fe (1 + k), g), μ) := by
          simp only [mapM_two]
          rw [StateT.run_bind, act_bind_ok r1, StateT.run_bind, act_bind_ok r2]
          rfl
        have r4 : (mapOp sqrVal [mapOp minusVal [elem (u.reads : Iter (StateT V (Act V)) V) [k], elem (w.reads : Iter (StateT V (Act V)) V) [k]]]).run g μ =
            (.ok ((fy (1 + k) - fe (1 + k)) * (fy (1 + k) - fe (1 + k)), g), μ) := by
          have one : ∀ x : StateT V (Act V) V, mapOp sqrVal [x] = (x >>= fun a => sqrVal [a]) := by
            intro x
            simp only [mapOp, List.mapM_cons, List.mapM_nil, id_eq, bind_assoc, pure_bind]
          rw [one, StateT.run_bind, act_bind_ok r3]
          rfl
        simp only [elems, elem, List.mapM_cons, List.mapM_nil, id]
        rw [StateT.run_bind, act_bind_ok r4]
        rfl) (fun c j => c + (fy (1 + j.getD 0 0) - fe (1 + j.getD 0 0)) * (fy (1 + j.getD 0 0) - fe (1 + j.getD 0 0))) (fun _ _ _ => rfl)
    rw [rowMajor_one, List.foldl_map] at this
    exact this
  unfold rmsError
  rw [lift_bind e1, lift_bind u1, lift_bind w1, act_bind_ok run]
  have e : ((((n : Int) - 2 : Int)) : V) = ((n - 2 : Nat) : V) := by
    rw [show ((n : Int) - 2) = ((n - 2 : Nat) : Int) by omega, Int.cast_natCast]
  simp only [LenT.val, e]
  rfl

end

/-! ## The error -/

theorem grow {u u' B B' : ℝ → ℝ} {d : ℝ} (hu : ∀ t, HasDerivAt u (u' t) t) (h0 : u 0 = 0) (hB : ∀ t, HasDerivAt B (B' t) t) (hB0 : B 0 = 0) (hb : ∀ t, 0 ≤ t → t ≤ d → |u' t| ≤ B' t) :
    ∀ t, 0 ≤ t → t ≤ d → |u t| ≤ B t := by
  intro t h1 h2
  refine image_norm_le_of_norm_deriv_right_le_deriv_boundary (a := 0) (b := d) (f := u) (f' := u') (fun x _ => (hu x).continuousAt.continuousWithinAt) (fun x _ => (hu x).hasDerivWithinAt) ?_ hB (fun x hx => hb x hx.1 hx.2.le) ⟨h1, h2⟩
  simp [h0, hB0]

/-- The error of the second difference at a point. -/
theorem difference_error {f f1 f2 f3 f4 : ℝ → ℝ} (h : Derivatives f f1 f2 f3 f4) (M : ℝ) (hM : ∀ x, |f4 x| ≤ M) (x d : ℝ) (hd : 0 < d) :
    |(f (x - d) - 2 * f x + f (x + d)) / (d * d) - f2 x| ≤ M * d ^ 2 / 12 := by
  have dp : ∀ {g g' : ℝ → ℝ}, (∀ x, HasDerivAt g (g' x) x) → ∀ t, HasDerivAt (fun t => g (x + t)) (g' (x + t)) t := by
    intro g g' hg t
    have := (hg (x + t)).comp t ((hasDerivAt_id' t).const_add x)
    rw [mul_one] at this
    exact this
  have dm : ∀ {g g' : ℝ → ℝ}, (∀ x, HasDerivAt g (g' x) x) → ∀ t, HasDerivAt (fun t => g (x - t)) (-g' (x - t)) t := by
    intro g g' hg t
    have := (hg (x - t)).comp t ((hasDerivAt_id' t).const_sub x)
    rw [mul_neg_one] at this
    exact this
  have b3 := grow (d := d) (u := fun t => f3 (x + t) - f3 (x - t)) (u' := fun t => f4 (x + t) - -f4 (x - t)) (B := fun t => 2 * M * t) (B' := fun _ => 2 * M)
    (fun t => (dp h.fourth t).sub (dm h.fourth t)) (by simp) (fun t => by simpa using (hasDerivAt_id t).const_mul (2 * M)) (by simp)
    (fun t _ _ => by
      have h1 := abs_le.1 (hM (x + t)); have h2 := abs_le.1 (hM (x - t))
      rw [abs_le]; constructor <;> linarith)
  have b2 := grow (d := d) (u := fun t => f2 (x + t) + f2 (x - t) - 2 * f2 x) (u' := fun t => f3 (x + t) + -f3 (x - t)) (B := fun t => M * t ^ 2) (B' := fun t => 2 * M * t)
    (fun t => ((dp h.third t).add (dm h.third t)).sub_const _) (by simp; ring) (fun t => by
      have := ((hasDerivAt_id t).pow 2).const_mul M
      refine this.congr_deriv ?_
      simp; ring) (by simp)
    (fun t h1 h2 => by simpa [sub_eq_add_neg] using b3 t h1 h2)
  have b1 := grow (d := d) (u := fun t => f1 (x + t) - f1 (x - t) - 2 * f2 x * t) (u' := fun t => f2 (x + t) - -f2 (x - t) - 2 * f2 x) (B := fun t => M / 3 * t ^ 3) (B' := fun t => M * t ^ 2)
    (fun t => ((dp h.second t).sub (dm h.second t)).sub (by simpa using (hasDerivAt_id t).const_mul (2 * f2 x))) (by simp) (fun t => by
      have := ((hasDerivAt_id t).pow 3).const_mul (M / 3)
      refine this.congr_deriv ?_
      simp; ring) (by simp)
    (fun t h1 h2 => by simpa [sub_neg_eq_add] using b2 t h1 h2)
  have b0 := grow (d := d) (u := fun t => f (x + t) + f (x - t) - 2 * f x - f2 x * t ^ 2) (u' := fun t => f1 (x + t) + -f1 (x - t) - f2 x * (2 * t)) (B := fun t => M / 12 * t ^ 4) (B' := fun t => M / 3 * t ^ 3)
    (fun t => (((dp h.first t).add (dm h.first t)).sub_const _).sub (by
      have := ((hasDerivAt_id t).pow 2).const_mul (f2 x)
      refine this.congr_deriv ?_
      simp)) (by simp; ring) (fun t => by
      have := ((hasDerivAt_id t).pow 4).const_mul (M / 12)
      refine this.congr_deriv ?_
      simp; ring) (by simp)
    (fun t h1 h2 => by
      have := b1 t h1 h2
      rwa [show f1 (x + t) + -f1 (x - t) - f2 x * (2 * t) = f1 (x + t) - f1 (x - t) - 2 * f2 x * t by ring])
  have := b0 d hd.le le_rfl
  have hd2 : 0 < d * d := by positivity
  rw [show (f (x - d) - 2 * f x + f (x + d)) / (d * d) - f2 x = (f (x + d) + f (x - d) - 2 * f x - f2 x * d ^ 2) / (d * d) by field_simp; ring, abs_div, abs_of_pos hd2, div_le_iff₀ hd2]
  calc _ ≤ M / 12 * d ^ 4 := this
    _ = _ := by ring

/-- C120. The program of the example with any function that has four derivatives, the fourth of which isn't more than `M`: the error that the program computes isn't more than `M δ² / 12`. -/
theorem C120_error (dyn : Bool) (z : List Int) (hz : ∀ i ∈ z, i = 0) (n : Nat) (hn : 3 ≤ n) (delta : ℝ) (hd : 0 < delta) (f f1 f2 f3 f4 : ℝ → ℝ) (h : Derivatives f f1 f2 f3 f4) (M : ℝ) (hM : ∀ x, |f4 x| ≤ M)
    (y e y2 : View) (μ : Mem ℝ) (hy : Spec.Vector μ n y) (he : Spec.Vector μ n e) (h2 : Spec.Vector μ n y2) (a1 : ApartFrom n y e) (a2 : ApartFrom n e y) (a3 : ApartFrom n y y2) (a4 : ApartFrom n y2 y) (a5 : ApartFrom n e y2) (a6 : ApartFrom n y2 e) :
    ∃ r μ', derivRun Real.sqrt f f2 dyn z n delta y e y2 μ = (.ok r, μ') ∧ 0 ≤ r ∧ r ≤ M * delta ^ 2 / 12 := by
  obtain ⟨μ1, s1, s2, s3⟩ := C120_sample dyn z hz f delta n y μ hy
  obtain ⟨μ2, t1, t2, t3⟩ := C120_sample dyn z hz f2 delta n e μ1 (vector_outside he a2 s3)
  obtain ⟨μ3, d1, d2, d3⟩ := C120_difference dyn z hz n (by omega) delta y y2 μ2 (fun k => f ((k : ℝ) * delta)) hy.shape (fun k hk => by rw [t3 _ (a1 k hk)]; exact s2 k hk)
    (vector_outside (vector_outside h2 a4 s3) a6 t3) a3
  have r := rms_run Real.sqrt dyn z hz n (by omega) y2 e μ3 _ (fun k => f2 ((k : ℝ) * delta)) h2.shape he.shape d2 (fun k h3 h4 => by
    have hk : Valid [n] [k] := valid_one.2 ⟨_, rfl, by omega, by omega⟩
    rw [d3 _ ?_]
    · exact t2 k hk
    · rintro ⟨k', h5, h6, h7⟩
      exact a5 k hk ⟨[k'], valid_one.2 ⟨_, rfl, by omega, by omega⟩, h7⟩)
  refine ⟨_, μ3, by unfold derivRun; rw [act_bind_ok s1, act_bind_ok t1, act_bind_ok d1]; exact r, Real.sqrt_nonneg _, ?_⟩
  have hM0 : 0 ≤ M := le_trans (abs_nonneg _) (hM 0)
  have hE : 0 ≤ M * delta ^ 2 / 12 := by positivity
  refine Real.sqrt_le_iff.2 ⟨hE, ?_⟩
  have hn' : (0 : ℝ) < ((n - 2 : Nat) : ℝ) := by
    have : 0 < n - 2 := by omega
    exact_mod_cast this
  rw [div_le_iff₀ hn', accum]
  have key : ∀ (m : Nat) (g : Int → ℝ), (∀ k, g k ≤ (M * delta ^ 2 / 12) ^ 2) → (List.range m).foldl (fun c (k : Nat) => c + g k) 0 ≤ (M * delta ^ 2 / 12) ^ 2 * m := by
    intro m g hg
    induction m with
    | zero => simp
    | succ m ih =>
      rw [List.range_succ, List.foldl_append]
      simp only [List.foldl_cons, List.foldl_nil]
      push_cast
      have := hg m
      linarith
  refine key (n - 2) (fun k => ((f (((1 + k - 1 : Int) : ℝ) * delta) - 2 * f (((1 + k : Int) : ℝ) * delta) + f (((1 + k + 1 : Int) : ℝ) * delta)) / (delta * delta) - f2 (((1 + k : Int) : ℝ) * delta)) *
    ((f (((1 + k - 1 : Int) : ℝ) * delta) - 2 * f (((1 + k : Int) : ℝ) * delta) + f (((1 + k + 1 : Int) : ℝ) * delta)) / (delta * delta) - f2 (((1 + k : Int) : ℝ) * delta))) fun k => ?_
  beta_reduce
  have := difference_error h M hM (((1 + k : Int) : ℝ) * delta) delta hd
  rw [show ((1 + k : Int) : ℝ) * delta - delta = ((1 + k - 1 : Int) : ℝ) * delta by push_cast; ring, show ((1 + k : Int) : ℝ) * delta + delta = ((1 + k + 1 : Int) : ℝ) * delta by push_cast; ring] at this
  rw [← abs_mul_abs_self, sq]
  exact mul_self_le_mul_self (abs_nonneg _) this

theorem cosine_derivatives : Derivatives (fun x => Real.cos x * Real.cos x) (fun x => -(2 * (Real.sin x * Real.cos x))) (fun x => 2 * (Real.sin x * Real.sin x - Real.cos x * Real.cos x)) (fun x => 8 * (Real.sin x * Real.cos x))
    (fun x => 8 * (Real.cos x * Real.cos x - Real.sin x * Real.sin x)) where
  first x := ((Real.hasDerivAt_cos x).mul (Real.hasDerivAt_cos x)).congr_deriv (by ring)
  second x := ((((Real.hasDerivAt_sin x).mul (Real.hasDerivAt_cos x)).const_mul 2).neg).congr_deriv (by ring)
  third x := ((((Real.hasDerivAt_sin x).mul (Real.hasDerivAt_sin x)).sub ((Real.hasDerivAt_cos x).mul (Real.hasDerivAt_cos x))).const_mul 2).congr_deriv (by ring)
  fourth x := (((Real.hasDerivAt_sin x).mul (Real.hasDerivAt_cos x)).const_mul 8).congr_deriv (by ring)

/-- C120. The function of the example, `cos(x)²`, and its second derivative as the example writes it, with `n` samples `1/n` apart. The error isn't more than `2/3 / n²`. -/
theorem C120_cosine (dyn : Bool) (z : List Int) (hz : ∀ i ∈ z, i = 0) (n : Nat) (hn : 3 ≤ n) (y e y2 : View) (μ : Mem ℝ) (hy : Spec.Vector μ n y) (he : Spec.Vector μ n e) (h2 : Spec.Vector μ n y2) (a1 : ApartFrom n y e) (a2 : ApartFrom n e y)
    (a3 : ApartFrom n y y2) (a4 : ApartFrom n y2 y) (a5 : ApartFrom n e y2) (a6 : ApartFrom n y2 e) :
    ∃ r μ', derivRun Real.sqrt (fun x => Real.cos x * Real.cos x) (fun x => 2 * (Real.sin x * Real.sin x - Real.cos x * Real.cos x)) dyn z n (1 / n) y e y2 μ = (.ok r, μ') ∧ 0 ≤ r ∧ r ≤ 2 / 3 / (n : ℝ) ^ 2 := by
  have hn0 : (0 : ℝ) < n := by
    have : 0 < n := by omega
    exact_mod_cast this
  obtain ⟨r, μ', h1, h3, h4⟩ := C120_error dyn z hz n hn (1 / n) (by positivity) _ _ _ _ _ cosine_derivatives 8 (by
    intro x
    have h1 := Real.sin_sq_add_cos_sq x
    have h2 := sq_nonneg (Real.sin x)
    have h3 := sq_nonneg (Real.cos x)
    rw [abs_le]
    constructor <;> nlinarith) y e y2 μ hy he h2 a1 a2 a3 a4 a5 a6
  refine ⟨r, μ', h1, h3, h4.trans (le_of_eq ?_)⟩
  field_simp
  norm_num

/-! ## Examples -/

/-- Three vectors of `n` numbers one after the other. -/
theorem egVector (V : Type) [Zero V] (n : Nat) (o : Int) : Spec.Vector (fun _ => some (0 : V)) n ⟨[⟨n, 1⟩], o⟩ where
  shape := .cons rfl .nil
  distinct j k hj hk h := by
    obtain ⟨j, rfl, _⟩ := valid_one.1 hj
    obtain ⟨k, rfl, _⟩ := valid_one.1 hk
    simp only [address, dot, List.map_cons, List.map_nil, List.zipWith_cons_cons, List.zipWith_nil_right, List.sum_cons, List.sum_nil] at h
    simp only [List.cons.injEq, and_true]
    omega
  memory _ _ := rfl

theorem egApart (n : Nat) (o o' : Int) (h : o + n ≤ o' ∨ o' + n ≤ o) : ApartFrom n ⟨[⟨n, 1⟩], o⟩ ⟨[⟨n, 1⟩], o'⟩ := by
  rintro k hk ⟨j, hj, e⟩
  obtain ⟨k', ek, h1, h2⟩ := valid_one.1 hk
  obtain ⟨j, rfl, h3, h4⟩ := valid_one.1 hj
  simp only [address, dot, List.map_cons, List.map_nil, List.zipWith_cons_cons, List.zipWith_nil_right, List.sum_cons, List.sum_nil] at e
  simp only [List.cons.injEq, and_true] at ek
  omega

/-- The example as it is: the error is less than 0.00007. -/
example (dyn : Bool) : ∃ r μ', derivRun Real.sqrt (fun x => Real.cos x * Real.cos x) (fun x => 2 * (Real.sin x * Real.sin x - Real.cos x * Real.cos x)) dyn [] 100 (1 / (100 : Nat)) ⟨[⟨100, 1⟩], 0⟩ ⟨[⟨100, 1⟩], 100⟩ ⟨[⟨100, 1⟩], 200⟩
    (fun _ => some 0) = (.ok r, μ') ∧ r < 7 / 100000 := by
  obtain ⟨r, μ', h1, _, h2⟩ := C120_cosine dyn [] (by simp) 100 (by norm_num) _ _ _ _ (egVector ℝ 100 0) (egVector ℝ 100 100) (egVector ℝ 100 200) (egApart 100 _ _ (by norm_num)) (egApart 100 _ _ (by norm_num)) (egApart 100 _ _ (by norm_num))
    (egApart 100 _ _ (by norm_num)) (egApart 100 _ _ (by norm_num)) (egApart 100 _ _ (by norm_num))
  exact ⟨r, μ', h1, lt_of_le_of_lt h2 (by norm_num)⟩

/-- `1 + x³` at 0, 1, 2, 3, 4: the differences are 6, 12, 18, and the ends of `y2` aren't changed. -/
example : (let m := ((do sampleOf true [] (fun x => 1 + x ^ 3) 1 ⟨[⟨5, 1⟩], 0⟩; secondDiff true [] 5 1 ⟨[⟨5, 1⟩], 0⟩ ⟨[⟨5, 1⟩], 5⟩ : Act Rat Unit) fun p => if 0 ≤ p ∧ p < 10 then some 77 else none).2
    (List.range 10).map fun k => m (k : Nat)) = [1, 2, 9, 28, 65, 77, 6, 12, 18, 77].map some := by
  decide +kernel

example (dyn : Bool) : ∃ μ', (do sampleOf dyn [] (fun x => 1 + 2 * x + 3 * x ^ 2 + 4 * x ^ 3 + 5 * x ^ 4) (1 / 2) ⟨[⟨9, 1⟩], 0⟩; secondDiff dyn [] (9 : Nat) (1 / 2) ⟨[⟨9, 1⟩], 0⟩ ⟨[⟨9, 1⟩], 9⟩ : Act Rat Unit) (fun _ => some 0) = (.ok (), μ') ∧
    μ' 11 = some (2 * 3 + 6 * 4 * 1 + 12 * 5 + 5 / 2) := by
  obtain ⟨μ', h1, h2⟩ := C120_quartic dyn [] (by simp) 9 (by norm_num) (1 / 2 : Rat) (by norm_num) _ _ _ (egVector Rat 9 0) (egVector Rat 9 9) (egApart 9 _ _ (by norm_num)) (egApart 9 _ _ (by norm_num)) 1 2 3 4 5
  refine ⟨μ', h1, (h2 2 (by norm_num) (by norm_num)).trans ?_⟩
  norm_num

end Ra.Props
