import Verif.Props.Roll
/-!
# The field equations in examples/maxwell.cc: C112
-/

namespace Ra.Spec

section
variable {V : Type}

/-- In memory `μ` there's an array `a` of shape `o :: s`, with elements `va t i`, and two arrays `x`, `y` of shape `s`. The elements of each of the three are in different places, and no place has elements of
more than one. -/
structure Waves (μ : Mem V) (o : Nat) (s : List Nat) (a x y : View) (va : Int → List Int → V) : Prop where
  shapeA : Shaped a ((o :: s).map some)
  shapeX : Shaped x (s.map some)
  shapeY : Shaped y (s.map some)
  distinctA : Distinct a (o :: s)
  distinctX : Distinct x s
  distinctY : Distinct y s
  apartX : ∀ p, InView a (o :: s) p → ¬ InView x s p
  apartY : ∀ p, InView a (o :: s) p → ¬ InView y s p
  apart : ∀ p, InView x s p → ¬ InView y s p
  valueA : ∀ t i, Valid (o :: s) (t :: i) → μ (address a (t :: i)) = some (va t i)
  memX : ∀ i, Valid s i → (μ (address x i)).isSome
  memY : ∀ i, Valid s i → (μ (address y i)).isSome

/-- The place has an element of one of these arrays. -/
def InWaves (o : Nat) (s : List Nat) (a x y : View) (p : Int) : Prop := InView a (o :: s) p ∨ InView x s p ∨ InView y s p

/-- The wave equation with differences, with the sums in the order that they are written. The axes of space have lengths `n`, `m`, `l`. -/
def nextWave [Add V] [_root_.Sub V] [Mul V] (four : V) (n m l : Nat) (old now : List Int → V) (i : List Int) : V :=
  (((now (after n 0 i) + now (after m 1 i)) + now (after l 2 i)) + ((now (before n 0 i) + now (before m 1 i)) + now (before l 2 i)) - old i) - four * now i

end
end Ra.Spec

namespace Ra.Props
open Spec

section
variable {V : Type}

theorem from_pre {A w : View} {t : Int} (h : A.from [.scalar (.const t)] = .ok w) (is : List Sub) : A.from ([.scalar (.const t)] ++ is) = w.from is := by
  obtain ⟨dims, cp⟩ := A
  cases dims with
  | nil => simp [View.from, fromb, bind, Except.bind] at h
  | cons d dims =>
    simp only [View.from, fromb, val_const, bind, Except.bind, List.cons_append, List.nil_append] at h ⊢
    split_ifs at h ⊢ with hc
    · simp only [pure, Except.pure, Except.ok.injEq] at h
      subst h
      rfl

theorem slice_first {a : View} {o : Nat} {s : List Nat} (ha : Shaped a ((o :: s).map some)) (u : Int) (h0 : 0 ≤ u) (h1 : u < o) :
    ∃ w, a.from [.scalar (.const u)] = .ok w ∧ Shaped w (s.map some) ∧ ∀ j, Valid s j → address w j = address a (u :: j) := by
  obtain ⟨w, e1, e2, e3⟩ := axis_at ha (k := 0) (by simp) u ⟨h0, by simpa using h1⟩
  rw [← from_alls _ 0 _ (Nat.zero_le _)] at e1
  exact ⟨w, e1, e2, e3⟩

variable [Add V] [_root_.Sub V] [Mul V]

/-- C112. The body of the loop on time in examples/maxwell.cc, at time `t`: the values at `t+1` are given by the wave equation and the values at other times don't change. -/
theorem C112_step (four : V) (dyn : Bool) (z : List Int) (hz : ∀ i ∈ z, i = 0) (o n m l : Nat) (r : List Nat) (hn : 0 < n) (hm : 0 < m) (hl : 0 < l) (a x y : View) (μ : Mem V) (va : Int → List Int → V)
    (h : Waves μ o (n :: m :: l :: r) a x y va) (t : Int) (h1 : 1 ≤ t) (h2 : t + 1 < o) :
    ∃ μ', waveStep four dyn z a x y t μ = (.ok (), μ') ∧ SameOutside (InWaves o (n :: m :: l :: r) a x y) μ μ' ∧
      Waves μ' o (n :: m :: l :: r) a x y fun u i => if u = t + 1 then nextWave four n m l (va (t - 1)) (va t) i else va u i := by
  obtain ⟨now, n1, n2, n3⟩ := slice_first h.shapeA t (by omega) (by omega)
  obtain ⟨next, s1, s2, s3⟩ := slice_first h.shapeA (t + 1) (by omega) (by omega)
  obtain ⟨prev, p1, p2, p3⟩ := slice_first h.shapeA (t - 1) (by omega) (by omega)
  generalize hs : n :: m :: l :: r = s at *
  have k0 : ∃ h : 0 < s.length, s[0] = n := by subst hs; exact ⟨by simp, rfl⟩
  have k1 : ∃ h : 1 < s.length, s[1] = m := by subst hs; exact ⟨by simp, rfl⟩
  have k2 : ∃ h : 2 < s.length, s[2] = l := by subst hs; exact ⟨by simp, rfl⟩
  obtain ⟨k0, e0⟩ := k0
  obtain ⟨k1, e1⟩ := k1
  obtain ⟨k2, e2⟩ := k2
  have hva : ∀ (u : Int) (i : List Int), 0 ≤ u → u < o → Valid s i → InView a (o :: s) (address a (u :: i)) := fun u i u0 u1 hi => ⟨u :: i, ⟨u0, u1, hi⟩, rfl⟩
  have hap : ∀ i, Valid s i → ¬ InView x s (address now i) := fun i hi => by rw [n3 i hi]; exact h.apartX _ (hva t i (by omega) (by omega) hi)
  have hapy : ∀ i, Valid s i → ¬ InView y s (address now i) := fun i hi => by rw [n3 i hi]; exact h.apartY _ (hva t i (by omega) (by omega) hi)
  have hnow : ElemsAre μ now s (va t) := fun i hi => by rw [n3 i hi]; exact h.valueA t i ⟨by omega, by omega, hi⟩
  have keepx : ∀ {μ1 μ2 : Mem V}, SameOutside (InView x s) μ1 μ2 → ElemsAre μ1 now s (va t) → ElemsAre μ2 now s (va t) := fun ho he i hi => by rw [ho _ (hap i hi), he i hi]
  have keepy : ∀ {μ1 μ2 : Mem V}, SameOutside (InView y s) μ1 μ2 → ElemsAre μ1 now s (va t) → ElemsAre μ2 now s (va t) := fun ho he i hi => by rw [ho _ (hapy i hi), he i hi]
  have keepyx : ∀ {μ1 μ2 : Mem V} {f : List Int → V}, SameOutside (InView x s) μ1 μ2 → ElemsAre μ1 y s f → ElemsAre μ2 y s f := fun ho he i hi => by
    rw [ho _ fun hx => h.apart _ hx ⟨i, hi, rfl⟩, he i hi]
  have keepxy : ∀ {μ1 μ2 : Mem V} {f : List Int → V}, SameOutside (InView y s) μ1 μ2 → ElemsAre μ1 x s f → ElemsAre μ2 x s f := fun ho he i hi => by
    rw [ho _ (h.apart _ ⟨i, hi, rfl⟩), he i hi]
  have init : ∀ v : View, (∀ i, Valid s i → (μ (address v i)).isSome) → ∃ f, ElemsAre μ v s f := fun v hv => by
    have : ∀ i, ∃ b : V, Valid s i → μ (address v i) = some b := by
      intro i
      by_cases hi : Valid s i
      · obtain ⟨b, hb⟩ := Option.isSome_iff_exists.mp (hv i hi)
        exact ⟨b, fun _ => hb⟩
      · exact ⟨va 0 [], fun h => absurd h hi⟩
    choose f hf using this
    exact ⟨f, hf⟩
  obtain ⟨vx, hvx⟩ := init x h.memX
  obtain ⟨vy, hvy⟩ := init y h.memY
  have hpre := from_pre n1
  obtain ⟨μ1, a1, b1, c1⟩ := roll_next none dyn z hz x now s h.shapeX h.distinctX n2 0 k0 (by omega) μ vx (va t) hvx hnow hap a _ hpre
  have d1 := keepx b1 hnow
  obtain ⟨μ2, a2, b2, c2⟩ := roll_next (some (· + ·)) dyn z hz x now s h.shapeX h.distinctX n2 1 k1 (by omega) μ1 _ (va t) c1 d1 hap a _ hpre
  have d2 := keepx b2 d1
  obtain ⟨μ3, a3, b3, c3⟩ := roll_next (some (· + ·)) dyn z hz x now s h.shapeX h.distinctX n2 2 k2 (by omega) μ2 _ (va t) c2 d2 hap a _ hpre
  have d3 := keepx b3 d2
  have hvy3 := keepyx b3 (keepyx b2 (keepyx b1 hvy))
  obtain ⟨μ4, a4, b4, c4⟩ := roll_prev none dyn z hz y now s h.shapeY h.distinctY n2 0 k0 (by omega) μ3 vy (va t) hvy3 d3 hapy a _ hpre
  have d4 := keepy b4 d3
  obtain ⟨μ5, a5, b5, c5⟩ := roll_prev (some (· + ·)) dyn z hz y now s h.shapeY h.distinctY n2 1 k1 (by omega) μ4 _ (va t) c4 d4 hapy a _ hpre
  have d5 := keepy b5 d4
  obtain ⟨μ6, a6, b6, c6⟩ := roll_prev (some (· + ·)) dyn z hz y now s h.shapeY h.distinctY n2 2 k2 (by omega) μ5 _ (va t) c5 d5 hapy a _ hpre
  have x6 := keepxy b6 (keepxy b5 (keepxy b4 c3))
  simp only [putVal, e0, e1, e2] at c6 x6
  have o6 : SameOutside (fun p => InView x s p ∨ InView y s p) μ μ6 := by
    intro p hp
    have px : ¬ InView x s p := fun h => hp (.inl h)
    have py : ¬ InView y s p := fun h => hp (.inr h)
    rw [b6 p py, b5 p py, b4 p py, b3 p px, b2 p px, b1 p px]
  have a_out : ∀ p, InView a (o :: s) p → ¬ (InView x s p ∨ InView y s p) := fun p hp => by
    rintro (hx | hy)
    · exact h.apartX p hp hx
    · exact h.apartY p hp hy
  have hA6 : ∀ u i, Valid (o :: s) (u :: i) → μ6 (address a (u :: i)) = some (va u i) := fun u i hi => by rw [o6 _ (a_out _ ⟨_, hi, rfl⟩), h.valueA u i hi]
  have next_in : ∀ p, InView next s p → InView a (o :: s) p := by
    rintro p ⟨j, hj, rfl⟩
    rw [s3 j hj]
    exact hva _ j (by omega) (by omega) hj
  have next_ne : ∀ u i, Valid (o :: s) (u :: i) → u ≠ t + 1 → ¬ InView next s (address a (u :: i)) := by
    rintro u i hi hu ⟨j, hj, e⟩
    rw [s3 j hj] at e
    have := h.distinctA (u :: i) ((t + 1) :: j) hi ⟨by omega, by omega, hj⟩ e
    simp only [List.cons.injEq] at this
    exact hu this.1
  have hms : ∀ s : List Length, Merge [s, s] s := merge_same
  have hmerge : Merge [([] : List Length), s.map some] (s.map some) := by
    refine ⟨by simp, by simp, ?_⟩
    intro k n
    simp
  have hnext_d : Distinct next s := by
    intro i j hi hj e
    rw [s3 i hi, s3 j hj] at e
    have := h.distinctA ((t + 1) :: i) ((t + 1) :: j) ⟨by omega, by omega, hi⟩ ⟨by omega, by omega, hj⟩ e
    simp only [List.cons.injEq, true_and] at this
    exact this
  obtain ⟨μ7, f1, f2, f3⟩ := C27_view dyn z hz next s s2 hnext_d
    (binaryOp (· - ·) (binaryOp (· - ·) (binaryOp (· + ·) x.refs y.refs) prev.refs) (binaryOp (· * ·) (.scalar (pure (.val four))) now.refs)) (s.map some)
    (binary_shape _ (binary_shape _ (binary_shape _ (refs_shape h.shapeX) (refs_shape h.shapeY) (hms _)) (refs_shape p2) (hms _)) (binary_shape _ (sa := []) rfl (refs_shape n2) hmerge) (hms _))
    (hms _) μ6 (fun j hj => by rw [s3 j hj, hA6 _ j ⟨by omega, by omega, hj⟩]; rfl) (nextWave four n m l (va (t - 1)) (va t))
    (by
      intro j hj μ' ho
      refine reads_binary _ (reads_binary _ (reads_binary _ (reads_refs ?_) (reads_refs ?_)) (reads_refs ?_)) (reads_binary _ (reads_scalar _ _ _) (reads_refs ?_))
      · rw [ho _ fun hp => h.apartX _ (next_in _ hp.1) ⟨j, hj, rfl⟩]
        exact x6 j hj
      · rw [ho _ fun hp => h.apartY _ (next_in _ hp.1) ⟨j, hj, rfl⟩]
        exact c6 j hj
      · have hv : Valid (o :: s) ((t - 1) :: j) := ⟨by omega, by omega, hj⟩
        rw [p3 j hj, ho _ fun hp => next_ne _ j hv (by omega) hp.1]
        exact hA6 _ j hv
      · have hv : Valid (o :: s) (t :: j) := ⟨by omega, by omega, hj⟩
        rw [n3 j hj, ho _ fun hp => next_ne _ j hv (by omega) hp.1]
        exact hA6 _ j hv)
  have oo : SameOutside (InWaves o s a x y) μ μ7 := by
    intro p hp
    rw [f3 p fun h => hp (.inl (next_in p h)), o6 p fun h => hp (.inr h)]
  refine ⟨μ7, ?_, oo, ?_⟩
  · unfold waveStep
    rw [act_bind_ok a1, act_bind_ok a2, act_bind_ok a3, act_bind_ok a4, act_bind_ok a5, act_bind_ok a6, lift_bind s1, lift_bind p1, lift_bind n1]
    exact f1
  · refine { h with valueA := ?_, memX := ?_, memY := ?_ }
    · intro u i hi
      by_cases hu : u = t + 1
      · subst hu
        rw [if_pos rfl, ← s3 i hi.2.2]
        exact f2 i hi.2.2
      · rw [if_neg hu, f3 _ (next_ne u i hi hu), hA6 u i hi]
    · intro i hi
      rw [f3 _ fun hp => h.apartX _ (next_in _ hp) ⟨i, hi, rfl⟩, x6 i hi]
      rfl
    · intro i hi
      rw [f3 _ fun hp => h.apartY _ (next_in _ hp) ⟨i, hi, rfl⟩, c6 i hi]
      rfl

/-- C112. The loop on time in examples/maxwell.cc: the first two values stay, and the others are given by the wave equation. -/
theorem C112_loop (four : V) (dyn : Bool) (z : List Int) (hz : ∀ i ∈ z, i = 0) (o n m l : Nat) (r : List Nat) (hn : 0 < n) (hm : 0 < m) (hl : 0 < l) (a x y : View) (μ : Mem V) (va : Int → List Int → V)
    (h : Waves μ o (n :: m :: l :: r) a x y va) :
    ∃ μ' va', waveLoop four dyn z a x y μ = (.ok (), μ') ∧ SameOutside (InWaves o (n :: m :: l :: r) a x y) μ μ' ∧ Waves μ' o (n :: m :: l :: r) a x y va' ∧
      va' 0 = va 0 ∧ va' 1 = va 1 ∧ ∀ t : Nat, t + 2 < o → va' (t + 2) = nextWave four n m l (va' t) (va' (t + 1)) := by
  have key : ∀ k : Nat, k + 2 ≤ o → ∃ μ' va', forAll (fun (t : Nat) => waveStep four dyn z a x y ((t : Int) + 1)) (List.range k) μ = (.ok (), μ') ∧
      SameOutside (InWaves o (n :: m :: l :: r) a x y) μ μ' ∧ Waves μ' o (n :: m :: l :: r) a x y va' ∧
      va' 0 = va 0 ∧ va' 1 = va 1 ∧ ∀ t : Nat, t < k → va' (t + 2) = nextWave four n m l (va' t) (va' (t + 1)) := by
    intro k
    induction k with
    | zero => exact fun _ => ⟨μ, va, rfl, fun _ _ => rfl, h, rfl, rfl, fun t ht => absurd ht (Nat.not_lt_zero _)⟩
    | succ k ih =>
      intro hk
      obtain ⟨μ1, va1, r1, r2, r3, r4, r5, r6⟩ := ih (by omega)
      obtain ⟨μ2, q1, q2, q3⟩ := C112_step four dyn z hz o n m l r hn hm hl a x y μ1 va1 r3 ((k : Int) + 1) (by omega) (by omega)
      refine ⟨μ2, _, ?_, outside_trans r2 q2 (fun _ h => h) (fun _ h => h), q3, ?_, ?_, ?_⟩
      · rw [List.range_succ, forAll_append, act_bind_ok r1]
        simp only [forAll]
        rw [act_bind_ok q1]
        rfl
      · rw [← r4]
        funext i
        beta_reduce
        rw [if_neg (by omega)]
      · rw [← r5]
        funext i
        beta_reduce
        rw [if_neg (by omega)]
      · intro t ht
        by_cases e : t = k
        · subst e
          simp only [show (t : Int) + 2 = t + 1 + 1 by omega, show (t : Int) + 1 - 1 = t by omega, if_true, show ¬ ((t : Int) = t + 1 + 1) by omega, show ¬ ((t : Int) + 1 = t + 1 + 1) by omega, if_false]
        · simp only [show ¬ ((t : Int) + 2 = k + 1 + 1) by omega, show ¬ ((t : Int) = k + 1 + 1) by omega, show ¬ ((t : Int) + 1 = k + 1 + 1) by omega, if_false]
          exact r6 t (by omega)
  have hlen : lenOf a.dims 0 = o := by
    obtain ⟨d, ds, e1, e2, _⟩ := dims_drop h.shapeA (k := 0) (by simp)
    rw [List.drop_zero] at e1
    simp [lenOf, e1, e2]
  unfold waveLoop
  rw [hlen]
  by_cases ho : 2 ≤ o
  · obtain ⟨μ', va', r1, r2, r3, r4, r5, r6⟩ := key (o - 2) (by omega)
    refine ⟨μ', va', ?_, r2, r3, r4, r5, fun t ht => r6 t (by omega)⟩
    rw [show ((o : Int) - 2) = ((o - 2 : Nat) : Int) by omega, forLoop_eq]
    exact r1
  · refine ⟨μ, va, ?_, fun _ _ => rfl, h, rfl, rfl, fun t ht => by omega⟩
    have : ((o : Int) - 2).toNat = 0 := by omega
    simp only [forLoop, this]
    rfl

end

/-- A case with 4 times and 3x1x1 positions. -/
theorem waves_case : Waves allMem 4 [3, 1, 1] ⟨[⟨4, 3⟩, ⟨3, 1⟩, ⟨1, 1⟩, ⟨1, 1⟩], 0⟩ ⟨[⟨3, 1⟩, ⟨1, 1⟩, ⟨1, 1⟩], 20⟩ ⟨[⟨3, 1⟩, ⟨1, 1⟩, ⟨1, 1⟩], 30⟩ fun t i => 3 * t + i.getD 0 0 where
  shapeA := shaped_nat.mpr rfl
  shapeX := shaped_nat.mpr rfl
  shapeY := shaped_nat.mpr rfl
  distinctA := by
    intro i j hi hj e
    simp only [valid_first, valid_none] at hi hj
    obtain ⟨a, _, rfl, a1, a2, b, _, rfl, b1, b2, c, _, rfl, c1, c2, d, _, rfl, d1, d2, rfl⟩ := hi
    obtain ⟨a', _, rfl, a1', a2', b', _, rfl, b1', b2', c', _, rfl, c1', c2', d', _, rfl, d1', d2', rfl⟩ := hj
    simp [address, dot] at e
    simp only [List.cons.injEq, and_true]
    omega
  distinctX := by
    intro i j hi hj e
    simp only [valid_first, valid_none] at hi hj
    obtain ⟨b, _, rfl, b1, b2, c, _, rfl, c1, c2, d, _, rfl, d1, d2, rfl⟩ := hi
    obtain ⟨b', _, rfl, b1', b2', c', _, rfl, c1', c2', d', _, rfl, d1', d2', rfl⟩ := hj
    simp [address, dot] at e
    simp only [List.cons.injEq, and_true]
    omega
  distinctY := by
    intro i j hi hj e
    simp only [valid_first, valid_none] at hi hj
    obtain ⟨b, _, rfl, b1, b2, c, _, rfl, c1, c2, d, _, rfl, d1, d2, rfl⟩ := hi
    obtain ⟨b', _, rfl, b1', b2', c', _, rfl, c1', c2', d', _, rfl, d1', d2', rfl⟩ := hj
    simp [address, dot] at e
    simp only [List.cons.injEq, and_true]
    omega
  apartX := by
    rintro p ⟨i, hi, rfl⟩ ⟨j, hj, e⟩
    simp only [valid_first, valid_none] at hi hj
    obtain ⟨a, _, rfl, a1, a2, b, _, rfl, b1, b2, c, _, rfl, c1, c2, d, _, rfl, d1, d2, rfl⟩ := hi
    obtain ⟨b', _, rfl, b1', b2', c', _, rfl, c1', c2', d', _, rfl, d1', d2', rfl⟩ := hj
    simp [address, dot] at e
    omega
  apartY := by
    rintro p ⟨i, hi, rfl⟩ ⟨j, hj, e⟩
    simp only [valid_first, valid_none] at hi hj
    obtain ⟨a, _, rfl, a1, a2, b, _, rfl, b1, b2, c, _, rfl, c1, c2, d, _, rfl, d1, d2, rfl⟩ := hi
    obtain ⟨b', _, rfl, b1', b2', c', _, rfl, c1', c2', d', _, rfl, d1', d2', rfl⟩ := hj
    simp [address, dot] at e
    omega
  apart := by
    rintro p ⟨i, hi, rfl⟩ ⟨j, hj, e⟩
    simp only [valid_first, valid_none] at hi hj
    obtain ⟨b, _, rfl, b1, b2, c, _, rfl, c1, c2, d, _, rfl, d1, d2, rfl⟩ := hi
    obtain ⟨b', _, rfl, b1', b2', c', _, rfl, c1', c2', d', _, rfl, d1', d2', rfl⟩ := hj
    simp [address, dot] at e
    omega
  valueA := by
    intro t i hi
    simp only [valid_first, valid_none] at hi
    obtain ⟨a, _, e, a1, a2, b, _, rfl, b1, b2, c, _, rfl, c1, c2, d, _, rfl, d1, d2, rfl⟩ := hi
    injection e with e1 e2
    subst e1 e2
    simp [allMem, address, dot]
    omega
  memX := fun _ _ => rfl
  memY := fun _ _ => rfl

/-- The values at time 3, from those at time 1, {3 4 5}, and from those at time 2. -/
example : ∃ (μ' : Mem Int) (va' : Int → List Int → Int), waveLoop 4 true [] ⟨[⟨4, 3⟩, ⟨3, 1⟩, ⟨1, 1⟩, ⟨1, 1⟩], 0⟩ ⟨[⟨3, 1⟩, ⟨1, 1⟩, ⟨1, 1⟩], 20⟩ ⟨[⟨3, 1⟩, ⟨1, 1⟩, ⟨1, 1⟩], 30⟩ allMem = (.ok (), μ') ∧
    va' 1 [0, 0, 0] = 3 ∧ va' 2 [0, 0, 0] = 9 ∧ va' 3 [0, 0, 0] = nextWave 4 3 1 1 (va' 1) (va' 2) [0, 0, 0] := by
  obtain ⟨μ', va', h1, _, _, h4, h5, h6⟩ := C112_loop 4 true [] (by simp) 4 3 1 1 [] (by simp) (by simp) (by simp) _ _ _ allMem _ waves_case
  refine ⟨μ', va', h1, by rw [h5]; rfl, ?_, congrFun (h6 1 (by omega)) _⟩
  have := congrFun (h6 0 (by omega)) [0, 0, 0]
  simp only [Nat.cast_zero, Int.zero_add, h4, h5] at this
  rw [this]
  rfl

end Ra.Props
