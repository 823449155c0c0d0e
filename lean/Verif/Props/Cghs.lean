import Verif.Model.Cghs
import Verif.Props.Conjugate
import Verif.Props.StencilRun
/-!
# The program of conjugate gradients, C109

The spec is in the first section and at the start of `Props/Conjugate.lean`.
-/

namespace Ra.Spec

section
variable {F : Type}

/-- The elements of `v` and `w` are at different addresses. -/
def Parted (s : List Nat) (v w : View) : Prop := ∀ i j, Valid s i → Valid s j → address v i ≠ address w j

/-- The elements of `v` have the values `f`. -/
def HasValues (μ : Mem F) (s : List Nat) (v : View) (f : List Int → F) : Prop := ∀ i, Valid s i → μ (address v i) = some (f i)

/-- No element of `v` is in `T`. -/
def Off (T : Int → Prop) (s : List Nat) (v : View) : Prop := ∀ i, Valid s i → ¬ T (address v i)

/-- `mult(v, w)` sets `w` to `L` of `v`, provided that `w` is zero in `Z`. `L` is always zero in `Z`. The memory `T` is for `mult` alone: it has to be as `I` says and is left so. No other memory changes, other than `w`. -/
structure Multiplies [Zero F] (I : Mem F → Prop) (T : Int → Prop) (mult : View → View → Act F Unit) (s : List Nat) (Z : List Int → Prop) (L : (List Int → F) → List Int → F) : Prop where
  zero : ∀ u i, Valid s i → Z i → L u i = 0
  own : ∀ μ μ', (∀ a, T a → μ' a = μ a) → I μ → I μ'
  run : ∀ v w μ f h, I μ → Shaped v (s.map some) → Shaped w (s.map some) → Distinct w s → Parted s v w → Off T s v → Off T s w → HasValues μ s v f → HasValues μ s w h → (∀ i, Valid s i → Z i → h i = 0) →
    ∃ μ', mult v w μ = (.ok (), μ') ∧ SameOutside (fun a => InView w s a ∨ T a) μ μ' ∧ I μ' ∧ HasValues μ' s w (L f)

/-- The arguments of the solver: `b` and `x` of shape `s`, and `work` with three times that. Other than in `b`, no element is twice, and they don't overlap. -/
structure System (μ : Mem F) (s : List Nat) (b x work : View) (vb vx : List Int → F) : Prop where
  shapeB : Shaped b (s.map some)
  shapeX : Shaped x (s.map some)
  shapeW : Shaped work ((3 :: s).map some)
  distinctX : Distinct x s
  distinctW : Distinct work (3 :: s)
  bx : Parted s b x
  bw : ∀ i k j, Valid s i → Valid (3 :: s) (k :: j) → address b i ≠ address work (k :: j)
  xw : ∀ i k j, Valid s i → Valid (3 :: s) (k :: j) → address x i ≠ address work (k :: j)
  valueB : HasValues μ s b vb
  valueX : HasValues μ s x vx
  hereW : ∀ i, Valid (3 :: s) i → (μ (address work i)).isSome

end
end Ra.Spec

namespace Ra.Props
open Spec

section
variable {F : Type}

theorem values_kept {μ μ' : Mem F} {s : List Nat} {v w : View} {f : List Int → F} (h : HasValues μ s v f) (hp : Parted s v w) (ho : SameOutside (InView w s) μ μ') : HasValues μ' s v f := by
  intro i hi
  rw [ho _ fun ⟨j, hj, e⟩ => hp i j hi hj e, h i hi]

theorem values_kept_off {μ μ' : Mem F} {s : List Nat} {T : Int → Prop} {v w : View} {f : List Int → F} (h : HasValues μ s v f) (hp : Parted s v w) (ht : Off T s v) (ho : SameOutside (fun a => InView w s a ∨ T a) μ μ') :
    HasValues μ' s v f := by
  intro i hi
  rw [ho _ ?_, h i hi]
  rintro (⟨j, hj, e⟩ | e)
  · exact hp i j hi hj e
  · exact ht i hi e

theorem parted_symm {s : List Nat} {v w : View} (h : Parted s v w) : Parted s w v := fun i j hi hj e => h j i hj hi e.symm

/-- The row of an array. -/
theorem row_of {a : View} {n : Nat} {s : List Nat} (ha : Shaped a ((n :: s).map some)) (k : Nat) (hk : k < n) :
    ∃ x, a.from [.scalar (.const k)] = .ok x ∧ Shaped x (s.map some) ∧ ∀ j, address x j = address a (k :: j) := by
  obtain ⟨dims, cp⟩ := a
  rcases dims with _ | ⟨d, dims⟩
  · cases ha
  · obtain ⟨hd, hds⟩ := List.forall₂_cons.mp ha
    have hd : d.len = n := hd
    have h2 : inside (k : Int) d.len := by rw [hd]; simp [inside]; omega
    refine ⟨⟨dims, cp + k * d.step⟩, ?_, hds, ?_⟩
    · simp [View.from, fromb, val_const, h2, bind, Except.bind, pure, Except.pure]
    · intro j
      simp only [address, List.map_cons, dot_cons]
      ring

/-- `v OP= x` where `x` doesn't use `v`. -/
theorem update_view (f : F → F → F) (dyn : Bool) (z : List Int) (hz : ∀ i ∈ z, i = 0) (v : View) (s : List Nat) (hv : Shaped v (s.map some)) (hd : Distinct v s) (x : Iter (Act F) (Lv F)) (sx : List Length)
    (hx : HasShape x sx) (hm : Merge [s.map some, sx] (s.map some)) (μ : Mem F) (old val : List Int → F) (hold : HasValues μ s v old)
    (hval : ∀ j, Valid s j → ∀ μ', SameOutside (InView v s) μ μ' → Reads μ' (elem x j) (val j)) :
    ∃ μ', update f dyn z v.refs x μ = (.ok (), μ') ∧ SameOutside (InView v s) μ μ' ∧ HasValues μ' s v (fun i => f (old i) (val i)) := by
  obtain ⟨μ', h1, h2, h3⟩ := C28_prefix f dyn z hz v.refs s [] (address v) μ (places_refs hv hd μ) x sx hx (by simpa using hm) old hold val (fun j hj => hval j (by simpa using hj))
  refine ⟨μ', h1, h2, ?_⟩
  intro i hi
  rw [h3 i hi]
  simp [rowMajor]

variable [Field F] [LinearOrder F]

omit [LinearOrder F] in
theorem foldl_dot (s : List Nat) (u v : List Int → F) : (rowMajor s).foldl (fun c j => c + u j * v j) 0 = dotOn s u v := by
  have : ∀ (l : List (List Int)) (c : F), l.foldl (fun c j => c + u j * v j) c = c + (l.map fun j => u j * v j).sum := by
    intro l
    induction l with
    | nil => simp
    | cons i l ih => intro c; simp [ih, add_assoc]
  rw [this, zero_add, dotOn]

variable [Inhabited F]

theorem dot_run (dyn : Bool) (z : List Int) (hz : ∀ i ∈ z, i = 0) (x y : View) (s : List Nat) (hx : Shaped x (s.map some)) (hy : Shaped y (s.map some)) (μ : Mem F) (f g : List Int → F)
    (hf : HasValues μ s x f) (hg : HasValues μ s y g) : dotViews dyn z x y μ = (.ok (dotOn s f g), μ) := by
  rw [dotViews_run dyn z hz x y s hx hy μ f g hf hg, foldl_dot]

theorem sqrm_run (dyn : Bool) (z : List Int) (hz : ∀ i ∈ z, i = 0) (x : View) (s : List Nat) (hx : Shaped x (s.map some)) (μ : Mem F) (f : List Int → F) (hf : HasValues μ s x f) :
    sqrmView dyn z x μ = (.ok (dotOn s f f), μ) := by
  rw [← foldl_dot]
  refine forEachRef_mem μ dyn z hz _ 0 [x.reads] s [s.map some] ⟨_, _, rfl, hx, rfl⟩ (merge_one _) (fun j => [f j]) ?_ _ (fun _ _ _ => rfl)
  intro j hj c
  simp only [elems, List.mapM_cons, List.mapM_nil, id]
  have e1 : (elem (x.reads : Iter (StateT F (Act F)) F) j).run c μ = (.ok (f j, c), μ) := by
    show (StateT.lift (Act.read (address x j)) : StateT F (Act F) F).run c μ = _
    rw [StateT.run_lift, act_bind_ok (a := f j) (μ' := μ) (by simp [Act.read, hf j hj])]
    rfl
  rw [StateT.run_bind, act_bind_ok e1]
  rfl

/-- The views in the loop. -/
structure Layout (T : Int → Prop) (s : List Nat) (b x g r p : View) : Prop where
  shapeB : Shaped b (s.map some)
  shapeX : Shaped x (s.map some)
  shapeG : Shaped g (s.map some)
  shapeR : Shaped r (s.map some)
  shapeP : Shaped p (s.map some)
  distinctX : Distinct x s
  distinctG : Distinct g s
  distinctR : Distinct r s
  distinctP : Distinct p s
  xg : Parted s x g
  xr : Parted s x r
  xp : Parted s x p
  gr : Parted s g r
  gp : Parted s g p
  rp : Parted s r p
  bx : Parted s b x
  bg : Parted s b g
  br : Parted s b r
  bp : Parted s b p
  tb : Off T s b
  tx : Off T s x
  tg : Off T s g
  tr : Off T s r
  tp : Off T s p

/-- The values in the loop. -/
structure CgState (μ : Mem F) (s : List Nat) (Z : List Int → Prop) (x g r p : View) (vx vg vr vp : List Int → F) : Prop where
  x : HasValues μ s x vx
  g : HasValues μ s g vg
  r : HasValues μ s r vr
  p : HasValues μ s p vp
  zero : Vanishes s Z vp

/-- An iteration. -/
theorem cghs_iter (dyn : Bool) (z : List Int) (hz : ∀ i ∈ z, i = 0) (I : Mem F → Prop) (T : Int → Prop) (mult : View → View → Act F Unit) (s : List Nat) (Z : List Int → Prop) (L : (List Int → F) → List Int → F)
    (hM : Multiplies I T mult s Z L) {b x g r p : View} (hl : Layout T s b x g r p) (μ : Mem F) (hI : I μ) (vx vg vr vp : List Int → F) (h : CgState μ s Z x g r p vx vg vr vp) (err : F) (limit i : Nat) :
    ∃ μ₁ μ', SameOutside (fun a => InView x s a ∨ InView g s a ∨ InView r s a ∨ InView p s a ∨ T a) μ μ' ∧ I μ' ∧
      CgState μ' s Z x g r p (fun k => vx k + (cgStep s L (vg, vr)).1 * vr k) (cgStep s L (vg, vr)).2.2.1 (cgStep s L (vg, vr)).2.2.2 (L vr) ∧
      cghsLoop dyn z mult x g r p err (limit + 1) i μ =
        if err < dotOn s vg vg then
          if dotOn s vr (L vr) = 0 ∨ dotOn s vg vr = 0 then (.error .abort, μ₁) else cghsLoop dyn z mult x g r p err limit (i + 1) μ'
        else (.ok i, μ) := by
  obtain ⟨m1, a1, a2, aI, a3⟩ := hM.run r p μ vr vp hI hl.shapeR hl.shapeP hl.distinctP hl.rp hl.tr hl.tp h.r h.p h.zero
  have x1 := values_kept_off h.x hl.xp hl.tx a2
  have g1 := values_kept_off h.g hl.gp hl.tg a2
  have r1 := values_kept_off h.r hl.rp hl.tr a2
  set t := (cgStep s L (vg, vr)).1 with et
  set gam := (cgStep s L (vg, vr)).2.1 with egam
  -- x += t*r
  obtain ⟨m2, b1, b2, b3⟩ := update_view (· + ·) dyn z hz x s hl.shapeX hl.distinctX (binaryOp (· * ·) (.scalar (pure (.val t))) r.refs) (s.map some)
    (binary_shape _ (rfl : HasShape (.scalar _) []) (refs_shape hl.shapeR) ⟨by simp, ⟨s.map some, by simp, rfl⟩, by simp⟩) (merge_same _) m1 vx (fun k => t * vr k) x1
    (fun j hj μ' ho => reads_binary _ (reads_scalar μ' _ j) (reads_refs (values_kept r1 (parted_symm hl.xr) ho j hj)))
  have g2 := values_kept g1 (parted_symm hl.xg) b2
  have r2 := values_kept r1 (parted_symm hl.xr) b2
  have p2 := values_kept a3 (parted_symm hl.xp) b2
  -- g -= t*p
  obtain ⟨m3, c1, c2, c3⟩ := update_view (· - ·) dyn z hz g s hl.shapeG hl.distinctG (binaryOp (· * ·) (.scalar (pure (.val t))) p.refs) (s.map some)
    (binary_shape _ (rfl : HasShape (.scalar _) []) (refs_shape hl.shapeP) ⟨by simp, ⟨s.map some, by simp, rfl⟩, by simp⟩) (merge_same _) m2 vg (fun k => t * L vr k) g2
    (fun j hj μ' ho => reads_binary _ (reads_scalar μ' _ j) (reads_refs (values_kept p2 (parted_symm hl.gp) ho j hj)))
  have x3 := values_kept b3 hl.xg c2
  have r3 := values_kept r2 (parted_symm hl.gr) c2
  have p3 := values_kept p2 (parted_symm hl.gp) c2
  -- r = r*gam + g
  obtain ⟨m4, d1, d2, d3⟩ := C27_view dyn z hz r s hl.shapeR hl.distinctR (binaryOp (· + ·) (binaryOp (· * ·) r.refs (.scalar (pure (.val gam)))) g.refs) (s.map some)
    (binary_shape _ (binary_shape _ (refs_shape hl.shapeR) (rfl : HasShape (.scalar _) []) (merge_nil _)) (refs_shape hl.shapeG) (merge_same _)) (merge_same _) m3
    (fun j hj => by rw [r3 j hj]; rfl) (fun k => vr k * gam + (vg k - t * L vr k))
    (by
      intro j hj μ' ho
      refine reads_binary _ (reads_binary _ (reads_refs ?_) (reads_scalar μ' _ j)) (reads_refs ?_)
      · rw [ho _ (fun hp => hp.2 rfl), r3 j hj]
      · rw [ho _ (fun hp => ?_), c3 j hj]
        obtain ⟨⟨k, hk, e⟩, _⟩ := hp
        exact hl.gr j k hj hk e)
  refine ⟨m1, m4, ?_, ?_, ⟨values_kept x3 hl.xr d3, values_kept c3 hl.gr d3, d2, values_kept p3 (parted_symm hl.rp) d3, fun i hi hz => hM.zero _ i hi hz⟩, ?_⟩
  · intro a ha
    simp only [not_or] at ha
    rw [d3 a ha.2.2.1, c2 a ha.2.1, b2 a ha.1, a2 a (by simpa using ha.2.2.2)]
  · refine hM.own m1 m4 (fun a ha => ?_) aI
    rw [d3 a, c2 a, b2 a]
    · rintro ⟨i, hi, rfl⟩; exact hl.tx i hi ha
    · rintro ⟨i, hi, rfl⟩; exact hl.tg i hi ha
    · rintro ⟨i, hi, rfl⟩; exact hl.tr i hi ha
  · rw [cghsLoop, act_bind_ok (sqrm_run dyn z hz g s hl.shapeG μ vg h.g)]
    split_ifs with h1 h2
    · rw [act_bind_ok a1, act_bind_ok (sqrm_run dyn z hz p s hl.shapeP m1 _ a3), act_bind_ok (dot_run dyn z hz r p s hl.shapeR hl.shapeP m1 _ _ r1 a3),
        act_bind_ok (dot_run dyn z hz g r s hl.shapeG hl.shapeR m1 _ _ g1 r1), if_pos h2]
      rfl
    · rw [act_bind_ok a1, act_bind_ok (sqrm_run dyn z hz p s hl.shapeP m1 _ a3), act_bind_ok (dot_run dyn z hz r p s hl.shapeR hl.shapeP m1 _ _ r1 a3),
        act_bind_ok (dot_run dyn z hz g r s hl.shapeG hl.shapeR m1 _ _ g1 r1), if_neg h2]
      exact (act_bind_ok b1).trans ((act_bind_ok c1).trans (act_bind_ok d1))
    · rfl

/-- The memory that the loop changes. -/
def loopArea (T : Int → Prop) (s : List Nat) (x g r p : View) (a : Int) : Prop := InView x s a ∨ InView g s a ∨ InView r s a ∨ InView p s a ∨ T a

/-- If the loop ends, the residual is small. -/
theorem cghs_partial (dyn : Bool) (z : List Int) (hz : ∀ i ∈ z, i = 0) (I : Mem F → Prop) (T : Int → Prop) (mult : View → View → Act F Unit) (s : List Nat) (Z : List Int → Prop) (L : (List Int → F) → List Int → F)
    (hM : Multiplies I T mult s Z L) (hL : LinearOn s L) {b x g r p : View} (hl : Layout T s b x g r p) (vb : List Int → F) (err : F) (limit : Nat) :
    ∀ (μ : Mem F) (vx vg vr vp : List Int → F) (i n : Nat) (μ' : Mem F), I μ → CgState μ s Z x g r p vx vg vr vp → (∀ k, Valid s k → vg k = vb k - L vx k) →
      cghsLoop dyn z mult x g r p err limit i μ = (.ok n, μ') →
      SameOutside (loopArea T s x g r p) μ μ' ∧ ∃ vx', HasValues μ' s x vx' ∧ dotOn s (fun k => vb k - L vx' k) (fun k => vb k - L vx' k) ≤ err := by
  induction limit with
  | zero => intro μ vx vg vr vp i n μ' _ _ _ h; simp [cghsLoop, fault, MonadFault.fault] at h
  | succ limit ih =>
    intro μ vx vg vr vp i n μ' hI0 h0 hres hrun
    obtain ⟨μ₁, μ₂, h1, hI1, h2, h3⟩ := cghs_iter dyn z hz I T mult s Z L hM hl μ hI0 vx vg vr vp h0 err limit i
    rw [h3] at hrun
    split_ifs at hrun with c1 c2
    · simp at hrun
    · obtain ⟨e1, e2⟩ := ih μ₂ _ _ _ _ (i + 1) n μ' hI1 h2 (by
        intro k hk
        rw [hL _ _ _ k hk]
        show vg k - (cgStep s L (vg, vr)).1 * L vr k = vb k - (L vx k + (cgStep s L (vg, vr)).1 * L vr k)
        rw [hres k hk]
        ring) hrun
      exact ⟨fun a ha => by rw [e1 a ha, h1 a ha], e2⟩
    · simp only [Prod.mk.injEq, Except.ok.injEq] at hrun
      obtain ⟨_, rfl⟩ := hrun
      refine ⟨fun _ _ => rfl, vx, h0.x, ?_⟩
      rw [dotOn_congr (u' := vg) (v' := vg) (fun k hk => (hres k hk).symm) (fun k hk => (hres k hk).symm)]
      exact not_lt.mp c1

variable [IsStrictOrderedRing F]

/-- The loop ends. -/
theorem cghs_total (dyn : Bool) (z : List Int) (hz : ∀ i ∈ z, i = 0) (I : Mem F → Prop) (T : Int → Prop) (mult : View → View → Act F Unit) (s : List Nat) (Z : List Int → Prop) [DecidablePred Z]
    (L : (List Int → F) → List Int → F) (hM : Multiplies I T mult s Z L) (hD : Definite s Z L) {b x g r p : View} (hl : Layout T s b x g r p)
    (err : F) (he : 0 ≤ err) (g0 : List Int → F) (hg0 : Vanishes s Z g0) (limit : Nat) :
    ∀ (k : Nat) (μ : Mem F) (vx vp : List Int → F), ((rowMajor s).filter fun i => ¬ Z i).length ≤ limit + k → k ≤ ((rowMajor s).filter fun i => ¬ Z i).length → I μ → CgState μ s Z x g r p vx (cgRun s L g0 k).1 (cgRun s L g0 k).2 vp →
      (∀ j < k, 0 < dotOn s (cgRun s L g0 j).1 (cgRun s L g0 j).1) →
      ∃ n μ', cghsLoop dyn z mult x g r p err (limit + 1) k μ = (.ok n, μ') ∧ n ≤ ((rowMajor s).filter fun i => ¬ Z i).length := by
  have key : ∀ (limit k : Nat) (μ : Mem F) (vx vp : List Int → F), I μ → CgState μ s Z x g r p vx (cgRun s L g0 k).1 (cgRun s L g0 k).2 vp →
      (∀ j < k, 0 < dotOn s (cgRun s L g0 j).1 (cgRun s L g0 j).1) → err < dotOn s (cgRun s L g0 k).1 (cgRun s L g0 k).1 →
      k + 1 ≤ ((rowMajor s).filter fun i => ¬ Z i).length ∧ ∃ μ' vx', I μ' ∧ CgState μ' s Z x g r p vx' (cgRun s L g0 (k + 1)).1 (cgRun s L g0 (k + 1)).2 (L (cgRun s L g0 k).2) ∧
        (∀ j < k + 1, 0 < dotOn s (cgRun s L g0 j).1 (cgRun s L g0 j).1) ∧ cghsLoop dyn z mult x g r p err (limit + 1) k μ = cghsLoop dyn z mult x g r p err limit (k + 1) μ' := by
    intro limit k μ vx vp hI0 h0 hpos hlt
    have hpos' : ∀ j < k + 1, 0 < dotOn s (cgRun s L g0 j).1 (cgRun s L g0 j).1 := by
      intro j hj
      rcases Nat.lt_succ_iff_lt_or_eq.mp hj with hj | rfl
      · exact hpos j hj
      · exact lt_of_le_of_lt he hlt
    have facts := cg_facts hD (fun u i hi hz => hM.zero u i hi hz) g0 hg0 (k + 1) hpos'
    refine ⟨ortho_count s Z (fun j => (cgRun s L g0 j).1) (k + 1) (fun j hj => (facts j (by omega)).vg) hpos' fun j hj l hl => (facts j (by omega)).gg l hl, ?_⟩
    obtain ⟨μ₁, μ₂, h1, hI1, h2, h3⟩ := cghs_iter dyn z hz I T mult s Z L hM hl μ hI0 vx _ _ vp h0 err limit k
    obtain ⟨p1, p2⟩ := cg_pos hD (facts k (by omega)).vr (facts k (by omega)).same (hpos' k (by omega))
    refine ⟨μ₂, _, hI1, h2, hpos', ?_⟩
    rw [h3, if_pos hlt, if_neg]
    rintro (e | e)
    · exact p1.ne' e
    · exact p2.ne' e
  induction limit with
  | zero =>
    intro k μ vx vp hk hk' hI0 h0 hpos
    by_cases hlt : err < dotOn s (cgRun s L g0 k).1 (cgRun s L g0 k).1
    · have := (key 0 k μ vx vp hI0 h0 hpos hlt).1
      omega
    · obtain ⟨μ₁, μ₂, h1, hI1, h2, h3⟩ := cghs_iter dyn z hz I T mult s Z L hM hl μ hI0 vx _ _ vp h0 err 0 k
      rw [if_neg hlt] at h3
      exact ⟨k, μ, h3, by omega⟩
  | succ limit ih =>
    intro k μ vx vp hk hk' hI0 h0 hpos
    by_cases hlt : err < dotOn s (cgRun s L g0 k).1 (cgRun s L g0 k).1
    · obtain ⟨a0, μ', vx', a1, a2, a3, a4⟩ := key (limit + 1) k μ vx vp hI0 h0 hpos hlt
      obtain ⟨n, μ'', b1, b2⟩ := ih (k + 1) μ' vx' _ (by omega) a0 a1 a2 a3
      exact ⟨n, μ'', by rw [a4]; exact b1, b2⟩
    · obtain ⟨μ₁, μ₂, h1, hI1, h2, h3⟩ := cghs_iter dyn z hz I T mult s Z L hM hl μ hI0 vx _ _ vp h0 err (limit + 1) k
      rw [if_neg hlt] at h3
      exact ⟨k, μ, h3, by omega⟩

omit [IsStrictOrderedRing F] in
/-- Before the loop. -/
theorem cghs_start (dyn : Bool) (z : List Int) (hz : ∀ i ∈ z, i = 0) (I : Mem F → Prop) (T : Int → Prop) (mult : View → View → Act F Unit) (s : List Nat) (Z : List Int → Prop) (L : (List Int → F) → List Int → F)
    (hM : Multiplies I T mult s Z L) (b x work : View) (μ : Mem F) (vb vx : List Int → F) (h : System μ s b x work vb vx) (hI0 : I μ)
    (hTb : Off T s b) (hTx : Off T s x) (hTw : Off T (3 :: s) work) (eps : F) :
    ∃ g r p μ', Layout T s b x g r p ∧ SameOutside (fun a => InView work (3 :: s) a ∨ T a) μ μ' ∧ I μ' ∧ (∀ a, loopArea T s x g r p a → InView x s a ∨ InView work (3 :: s) a ∨ T a) ∧
      CgState μ' s Z x g r p vx (fun k => vb k - L vx k) (fun k => vb k - L vx k) (fun _ => 0) ∧
      ∀ limit, cghs dyn z limit mult b x work eps μ = cghsLoop dyn z mult x g r p (eps * eps * dotOn s vb vb) limit 0 μ' := by
  obtain ⟨g, g1, g2, g3⟩ := row_of h.shapeW 0 (by omega)
  obtain ⟨r, r1, r2, r3⟩ := row_of h.shapeW 1 (by omega)
  obtain ⟨p, p1, p2, p3⟩ := row_of h.shapeW 2 (by omega)
  have vrow : ∀ (k : Nat) (j : List Int), k < 3 → Valid s j → Valid (3 :: s) ((k : Int) :: j) := fun k j hk hj => ⟨by omega, by omega, hj⟩
  have rows : ∀ (k l : Nat) (u v : View), k < 3 → l < 3 → (∀ j, address u j = address work (k :: j)) → (∀ j, address v j = address work (l :: j)) → ∀ i j, Valid s i → Valid s j → address u i = address v j → k = l ∧ i = j := by
    intro k l u v hk hl hu hv i j hi hj e
    rw [hu, hv] at e
    have := h.distinctW _ _ (vrow k i hk hi) (vrow l j hl hj) e
    simp only [List.cons.injEq] at this
    exact ⟨by omega, this.2⟩
  have apart : ∀ (k l : Nat) (u v : View), k < 3 → l < 3 → k ≠ l → (∀ j, address u j = address work (k :: j)) → (∀ j, address v j = address work (l :: j)) → Parted s u v :=
    fun k l u v hk hl hne hu hv i j hi hj e => hne (rows k l u v hk hl hu hv i j hi hj e).1
  have dist : ∀ (k : Nat) (u : View), k < 3 → (∀ j, address u j = address work (k :: j)) → Distinct u s := fun k u hk hu i j hi hj e => (rows k k u u hk hk hu hu i j hi hj e).2
  have inW : ∀ (k : Nat) (u : View), k < 3 → (∀ j, address u j = address work (k :: j)) → ∀ a, InView u s a → InView work (3 :: s) a := by
    rintro k u hk hu a ⟨j, hj, rfl⟩
    exact ⟨_, vrow k j hk hj, hu j⟩
  have fromB : ∀ (k : Nat) (u : View), k < 3 → (∀ j, address u j = address work (k :: j)) → Parted s b u := by
    intro k u hk hu i j hi hj
    rw [hu]
    exact h.bw i k j hi (vrow k j hk hj)
  have fromX : ∀ (k : Nat) (u : View), k < 3 → (∀ j, address u j = address work (k :: j)) → Parted s x u := by
    intro k u hk hu i j hi hj
    rw [hu]
    exact h.xw i k j hi (vrow k j hk hj)
  have offW : ∀ (k : Nat) (u : View), k < 3 → (∀ j, address u j = address work (k :: j)) → Off T s u := by
    intro k u hk hu j hj
    rw [hu]
    exact hTw _ (vrow k j hk hj)
  have lay : Layout T s b x g r p :=
    { shapeB := h.shapeB, shapeX := h.shapeX, shapeG := g2, shapeR := r2, shapeP := p2
      distinctX := h.distinctX, distinctG := dist 0 g (by omega) g3, distinctR := dist 1 r (by omega) r3, distinctP := dist 2 p (by omega) p3
      xg := fromX 0 g (by omega) g3, xr := fromX 1 r (by omega) r3, xp := fromX 2 p (by omega) p3
      gr := apart 0 1 g r (by omega) (by omega) (by omega) g3 r3, gp := apart 0 2 g p (by omega) (by omega) (by omega) g3 p3, rp := apart 1 2 r p (by omega) (by omega) (by omega) r3 p3
      bx := h.bx, bg := fromB 0 g (by omega) g3, br := fromB 1 r (by omega) r3, bp := fromB 2 p (by omega) p3
      tb := hTb, tx := hTx, tg := offW 0 g (by omega) g3, tr := offW 1 r (by omega) r3, tp := offW 2 p (by omega) p3 }
  -- work = 0
  obtain ⟨m1, a1, a2, a3⟩ := assign_zero dyn z hz work (3 :: s) h.shapeW h.distinctW μ h.hereW (0 : F)
  have vz : ∀ (k : Nat) (u : View), k < 3 → (∀ j, address u j = address work (k :: j)) → HasValues m1 s u (fun _ => 0) := by
    intro k u hk hu j hj
    rw [hu, a3 _ (vrow k j hk hj)]
  have keep : ∀ (v : View) (f : List Int → F), (∀ i k j, Valid s i → Valid (3 :: s) (k :: j) → address v i ≠ address work (k :: j)) → HasValues μ s v f → HasValues m1 s v f := by
    intro v f hv hf i hi
    have hout : ¬ InView work (3 :: s) (address v i) := by
      rintro ⟨j, hj, e⟩
      rcases j with _ | ⟨k, j⟩
      · simp [Valid] at hj
      · exact hv i k j hi hj e
    rw [a2 _ hout, hf i hi]
  have b1 := keep b vb h.bw h.valueB
  have x1 := keep x vx h.xw h.valueX
  have I1 : I m1 := hM.own μ m1 (fun a ha => a2 a fun ⟨j, hj, e⟩ => hTw j hj (e ▸ ha)) hI0
  -- mult(a, x, g)
  obtain ⟨m2, c1, c2, cI, c3⟩ := hM.run x g m1 vx (fun _ => 0) I1 h.shapeX g2 lay.distinctG lay.xg lay.tx lay.tg x1 (vz 0 g (by omega) g3) (fun _ _ _ => rfl)
  have b2 := values_kept_off b1 lay.bg lay.tb c2
  have x2 := values_kept_off x1 lay.xg lay.tx c2
  have r2' := values_kept_off (vz 1 r (by omega) r3) (parted_symm lay.gr) lay.tr c2
  have p2' := values_kept_off (vz 2 p (by omega) p3) (parted_symm lay.gp) lay.tp c2
  -- g = b-g
  obtain ⟨m3, d1, d2, d3⟩ := C27_view dyn z hz g s g2 lay.distinctG (binaryOp (· - ·) b.refs g.refs) (s.map some) (binary_shape _ (refs_shape h.shapeB) (refs_shape g2) (merge_same _)) (merge_same _) m2
    (fun j hj => by rw [c3 j hj]; rfl) (fun k => vb k - L vx k)
    (by
      intro j hj μ' ho
      refine reads_binary _ (reads_refs ?_) (reads_refs ?_)
      · rw [ho _ (fun hp => ?_), b2 j hj]
        obtain ⟨⟨k, hk, e⟩, _⟩ := hp
        exact lay.bg j k hj hk e
      · rw [ho _ (fun hp => hp.2 rfl), c3 j hj])
  have x3 := values_kept x2 lay.xg d3
  have r3' := values_kept r2' (parted_symm lay.gr) d3
  have p3' := values_kept p2' (parted_symm lay.gp) d3
  -- r = g
  obtain ⟨m4, e1, e2, e3⟩ := C27_view dyn z hz r s r2 lay.distinctR g.refs (s.map some) (refs_shape g2) (merge_same _) m3 (fun j hj => by rw [r3' j hj]; rfl) (fun k => vb k - L vx k)
    (by
      intro j hj μ' ho
      refine reads_refs ?_
      rw [ho _ (fun hp => ?_), d2 j hj]
      obtain ⟨⟨k, hk, e⟩, _⟩ := hp
      exact lay.gr j k hj hk e)
  refine ⟨g, r, p, m4, lay, ?_, ?_, ?_, ⟨values_kept x3 lay.xr e3, values_kept d2 lay.gr e3, e2, values_kept p3' (parted_symm lay.rp) e3, fun _ _ _ => rfl⟩, ?_⟩
  · intro a ha
    rw [e3 a fun hi => ha (.inl (inW 1 r (by omega) r3 a hi)), d3 a fun hi => ha (.inl (inW 0 g (by omega) g3 a hi)), c2 a fun hi => ha (hi.imp_left (inW 0 g (by omega) g3 a)), a2 a fun hi => ha (.inl hi)]
  · refine hM.own m2 m4 (fun a ha => ?_) cI
    rw [e3 a fun ⟨j, hj, e⟩ => lay.tr j hj (e ▸ ha), d3 a fun ⟨j, hj, e⟩ => lay.tg j hj (e ▸ ha)]
  · rintro a (ha | ha | ha | ha | ha)
    · exact .inl ha
    · exact .inr (.inl (inW 0 g (by omega) g3 a ha))
    · exact .inr (.inl (inW 1 r (by omega) r3 a ha))
    · exact .inr (.inl (inW 2 p (by omega) p3 a ha))
    · exact .inr (.inr ha)
  · intro limit
    have g1 : work.from [.scalar (.const 0)] = .ok g := g1
    have r1 : work.from [.scalar (.const 1)] = .ok r := r1
    have p1 : work.from [.scalar (.const 2)] = .ok p := p1
    rw [cghs, act_bind_ok a1, lift_bind g1, lift_bind r1, lift_bind p1, act_bind_ok (sqrm_run dyn z hz b s h.shapeB m1 vb b1), act_bind_ok c1, act_bind_ok d1, act_bind_ok e1]

/-! ## C109 -/

omit [IsStrictOrderedRing F] in
/-- C109. If `cghs` returns, then `x` solves the system up to the tolerance, and nothing but `x` and `work` and the memory of `mult` has changed. -/
theorem C109_residual (dyn : Bool) (z : List Int) (hz : ∀ i ∈ z, i = 0) (I : Mem F → Prop) (T : Int → Prop) (mult : View → View → Act F Unit) (s : List Nat) (Z : List Int → Prop) (L : (List Int → F) → List Int → F)
    (hM : Multiplies I T mult s Z L) (hL : LinearOn s L) (b x work : View) (μ : Mem F) (vb vx : List Int → F) (h : System μ s b x work vb vx) (hI0 : I μ)
    (hTb : Off T s b) (hTx : Off T s x) (hTw : Off T (3 :: s) work) (eps : F) (limit n : Nat) (μ' : Mem F) (hrun : cghs dyn z limit mult b x work eps μ = (.ok n, μ')) :
    SameOutside (fun a => InView x s a ∨ InView work (3 :: s) a ∨ T a) μ μ' ∧
      ∃ vx', HasValues μ' s x vx' ∧ dotOn s (fun k => vb k - L vx' k) (fun k => vb k - L vx' k) ≤ eps * eps * dotOn s vb vb := by
  obtain ⟨g, r, p, m, hl, h1, hIm, h2, h3, h4⟩ := cghs_start dyn z hz I T mult s Z L hM b x work μ vb vx h hI0 hTb hTx hTw eps
  rw [h4] at hrun
  obtain ⟨e1, e2⟩ := cghs_partial dyn z hz I T mult s Z L hM hL hl vb _ limit m vx _ _ _ 0 n μ' hIm h3 (fun _ _ => rfl) hrun
  exact ⟨fun a ha => by rw [e1 a fun hp => ha (h2 a hp), h1 a fun hw => ha (.inr hw)], e2⟩

/-- C109. If the matrix is symmetric and positive, then `cghs` returns after at most as many iterations as there are unknowns, and `x` solves the system up to the tolerance. -/
theorem C109_ends (dyn : Bool) (z : List Int) (hz : ∀ i ∈ z, i = 0) (I : Mem F → Prop) (T : Int → Prop) (mult : View → View → Act F Unit) (s : List Nat) (Z : List Int → Prop) [DecidablePred Z]
    (L : (List Int → F) → List Int → F) (hM : Multiplies I T mult s Z L) (hL : LinearOn s L) (hD : Definite s Z L) (b x work : View) (μ : Mem F) (vb vx : List Int → F)
    (h : System μ s b x work vb vx) (hb : Vanishes s Z vb) (hI0 : I μ) (hTb : Off T s b) (hTx : Off T s x) (hTw : Off T (3 :: s) work) (eps : F) (limit : Nat)
    (hlim : ((rowMajor s).filter fun i => ¬ Z i).length ≤ limit) :
    ∃ n μ', cghs dyn z (limit + 1) mult b x work eps μ = (.ok n, μ') ∧ n ≤ ((rowMajor s).filter fun i => ¬ Z i).length ∧
      SameOutside (fun a => InView x s a ∨ InView work (3 :: s) a ∨ T a) μ μ' ∧
      ∃ vx', HasValues μ' s x vx' ∧ dotOn s (fun k => vb k - L vx' k) (fun k => vb k - L vx' k) ≤ eps * eps * dotOn s vb vb := by
  obtain ⟨g, r, p, m, hl, h1, hIm, h2, h3, h4⟩ := cghs_start dyn z hz I T mult s Z L hM b x work μ vb vx h hI0 hTb hTx hTw eps
  obtain ⟨n, μ', e1, e2⟩ := cghs_total dyn z hz I T mult s Z L hM hD hl (eps * eps * dotOn s vb vb)
    (mul_nonneg (mul_self_nonneg eps) (dotOn_nonneg s vb)) (fun k => vb k - L vx k) (fun i hi hz => by beta_reduce; rw [hb i hi hz, hM.zero vx i hi hz, sub_zero]) limit 0 m vx _ (by omega) (by omega) hIm h3 (by simp)
  rw [← h4] at e1
  exact ⟨n, μ', e1, e2, C109_residual dyn z hz I T mult s Z L hM hL b x work μ vb vx h hI0 hTb hTx hTw eps _ n μ' e1⟩

/-- C109. With no tolerance the solution is exact. -/
theorem C109_exact (dyn : Bool) (z : List Int) (hz : ∀ i ∈ z, i = 0) (I : Mem F → Prop) (T : Int → Prop) (mult : View → View → Act F Unit) (s : List Nat) (Z : List Int → Prop) [DecidablePred Z]
    (L : (List Int → F) → List Int → F) (hM : Multiplies I T mult s Z L) (hL : LinearOn s L) (hD : Definite s Z L) (b x work : View) (μ : Mem F) (vb vx : List Int → F)
    (h : System μ s b x work vb vx) (hb : Vanishes s Z vb) (hI0 : I μ) (hTb : Off T s b) (hTx : Off T s x) (hTw : Off T (3 :: s) work) (limit : Nat)
    (hlim : ((rowMajor s).filter fun i => ¬ Z i).length ≤ limit) :
    ∃ n μ', cghs dyn z (limit + 1) mult b x work 0 μ = (.ok n, μ') ∧ ∃ vx', HasValues μ' s x vx' ∧ ∀ i, Valid s i → L vx' i = vb i := by
  obtain ⟨n, μ', e1, _, _, vx', e2, e3⟩ := C109_ends dyn z hz I T mult s Z L hM hL hD b x work μ vb vx h hb hI0 hTb hTx hTw 0 limit hlim
  refine ⟨n, μ', e1, vx', e2, ?_⟩
  rw [zero_mul, zero_mul] at e3
  have := (dotOn_self s _).mp (le_antisymm e3 (dotOn_nonneg s _))
  exact fun i hi => (sub_eq_zero.mp (this i hi)).symm

end
end Ra.Props
