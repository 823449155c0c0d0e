import Verif.Model.Newton
import Verif.Props.Field
import Verif.Props.Frame
import Verif.Props.GemmDot
import Verif.Props.AxisSum
import Verif.Props.WindowSum
import Mathlib.Algebra.BigOperators.Field
import Mathlib.Algebra.BigOperators.Ring.Finset
import Mathlib.Tactic.FieldSimp
/-!
# The motion of bodies in examples/newton.cc: C113
-/

namespace Ra.Spec

section
variable {V : Type}

/-- No place in memory has elements of more than one of these arrays, which are given with their shapes. -/
def ApartAll (vs : List (View × List Nat)) : Prop := vs.Pairwise fun u w => ∀ p, InView u.1 u.2 p → ¬ InView w.1 w.2 p

/-- In memory `μ` there are `n` bodies in `d` dimensions: the body `i` has mass `M i`, is at `X i 0`, `X i 1`, ... and moves with velocity `U i 0`, `U i 1`, ... These numbers are the elements of the arrays `m`, `x`, `v`. There's
also an array `a` for the accelerations and an array `F` for the forces. The elements of each array are in different places and no place has elements of more than one. -/
structure Bodies (μ : Mem V) (n d : Nat) (m x v a F : View) (M : Int → V) (X U : Int → Int → V) : Prop where
  shapeM : Shaped m [some n]
  shapeX : Shaped x [some n, some d]
  shapeV : Shaped v [some n, some d]
  shapeA : Shaped a [some n, some d]
  shapeF : Shaped F [some n, some n, some d]
  distinctX : Distinct x [n, d]
  distinctV : Distinct v [n, d]
  distinctA : Distinct a [n, d]
  distinctF : Distinct F [n, n, d]
  apart : ApartAll [(m, [n]), (x, [n, d]), (v, [n, d]), (a, [n, d]), (F, [n, n, d])]
  valueM : ∀ i, Valid [n] [i] → μ (address m [i]) = some (M i)
  valueX : ∀ i k, Valid [n, d] [i, k] → μ (address x [i, k]) = some (X i k)
  valueV : ∀ i k, Valid [n, d] [i, k] → μ (address v [i, k]) = some (U i k)
  memA : ∀ i, Valid [n, d] i → (μ (address a i)).isSome
  memF : ∀ i, Valid [n, n, d] i → (μ (address F i)).isSome

/-- The place has an element of an array that the program writes to. -/
def InBodies (n d : Nat) (x v a F : View) (p : Int) : Prop := InView x [n, d] p ∨ InView v [n, d] p ∨ InView a [n, d] p ∨ InView F [n, n, d] p

variable [Zero V] [Add V] [_root_.Sub V] [Mul V] [Div V]

/-- The square of the distance from `i` to `j`. -/
def distance2 (d : Nat) (X : Int → Int → V) (i j : Int) : V := accum 0 d fun k => (X j k - X i k) * (X j k - X i k)

/-- The force that body `j` has on body `i`. -/
def attraction (G : V) (w : V → V) (d : Nat) (M : Int → V) (X : Int → Int → V) (i j k : Int) : V :=
  if i = j then 0 else (X j k - X i k) * (G * M i * M j / w (distance2 d X i j))

/-- The acceleration of body `i`. -/
def acceleration (G : V) (w : V → V) (n d : Nat) (M : Int → V) (X : Int → Int → V) (i k : Int) : V := accum 0 n fun j => attraction G w d M X i j k / M i

/-- The positions and the velocities after some steps of length `delta`. -/
def motion (G : V) (w : V → V) (delta : V) (n d : Nat) (M : Int → V) (X U : Int → Int → V) : Nat → (Int → Int → V) × (Int → Int → V)
  | 0 => (X, U)
  | t + 1 =>
    let (X', U') := motion G w delta n d M X U t
    (fun i k => X' i k + (U' i k + acceleration G w n d M X' i k * delta) * delta, fun i k => U' i k + acceleration G w n d M X' i k * delta)

end
end Ra.Spec

namespace Ra.Props
open Spec

section
variable {V : Type} [Inhabited V] [Zero V] [Add V] [_root_.Sub V] [Mul V] [Div V]

omit [Inhabited V] [Zero V] [Add V] [_root_.Sub V] [Mul V] [Div V] in
theorem reads_state {γ : Type} {μ : Mem V} (v : View) (j : List Int) (c : γ) {w : V} (h : μ (address v j) = some w) :
    (elem (v.reads : Iter (StateT γ (Act V)) V) j).run c μ = (.ok (w, c), μ) := by
  show (StateT.lift (Act.read (address v j)) : StateT γ (Act V) V).run c μ = _
  rw [StateT.run_lift, act_bind_ok (a := w) (μ' := μ) (by simp [Act.read, h])]
  rfl

omit [Zero V] [Add V] [Mul V] [Div V] in
theorem smallDiff_run (dyn : Bool) (z : List Int) (hz : ∀ i ∈ z, i = 0) (x y : View) (d : Nat) (hx : Shaped x [some d]) (hy : Shaped y [some d]) (μ : Mem V) (f g : Int → V)
    (hf : ∀ j, Valid [d] [j] → μ (address x [j]) = some (f j)) (hg : ∀ j, Valid [d] [j] → μ (address y [j]) = some (g j)) :
    smallDiff dyn z x y μ = (.ok ((List.range d).map fun (k : Nat) => f k - g k), μ) := by
  have h := forEachRef_mem μ dyn z hz (fun (c : List V) xs => match xs with
    | [x, y] => pure (c ++ [x - y])
    | _ => fault .abort) [] [x.reads, y.reads] [d] [[some d], [some d]] ⟨_, _, rfl, hx, _, _, rfl, hy, rfl⟩ (merge_same _) (fun j => [f (j.getD 0 0), g (j.getD 0 0)]) (by
      intro j hj c
      obtain ⟨j, rfl, h1, h2⟩ := valid_one.mp hj
      simp only [elems, List.mapM_cons, List.mapM_nil, id]
      rw [StateT.run_bind, act_bind_ok (reads_state x [j] c (hf j hj)), StateT.run_bind, StateT.run_bind, act_bind_ok (a := ([g j], c)) (μ' := μ)]
      · rfl
      · rw [act_bind_ok (reads_state y [j] c (hg j hj))]
        rfl) (fun c j => c ++ [f (j.getD 0 0) - g (j.getD 0 0)]) (fun _ _ _ => rfl)
  refine Eq.trans h ?_
  rw [rowMajor_one, List.foldl_map]
  congr 2
  have : ∀ (l : List Nat) (c : List V), l.foldl (fun c (k : Nat) => c ++ [f k - g k]) c = c ++ l.map fun (k : Nat) => f k - g k := by
    intro l
    induction l with
    | nil => simp
    | cons k l ih => intro c; simp [ih]
  simpa using this (List.range d) []

theorem force_run (G : V) (w : V → V) (dyn : Bool) (z : List Int) (hz : ∀ i ∈ z, i = 0) (n d : Nat) (m x : View) (M : Int → V) (X : Int → Int → V) (μ : Mem V) (hm : Shaped m [some n]) (hx : Shaped x [some n, some d])
    (vm : ∀ i, Valid [n] [i] → μ (address m [i]) = some (M i)) (vx : ∀ i k, Valid [n, d] [i, k] → μ (address x [i, k]) = some (X i k)) (i j : Nat) (hi : i < n) (hj : j < n) :
    force G w dyn z d m x i j μ = (.ok ((List.range d).map fun (k : Nat) => attraction G w d M X i j k), μ) := by
  unfold force
  by_cases e : (i : Int) = j
  · rw [if_pos e]
    show (Except.ok _, μ) = _
    congr 2
    simp [attraction, e]
  · rw [if_neg e]
    obtain ⟨xi, i1, i2, i3⟩ := take_row hx i hi
    obtain ⟨xj, j1, j2, j3⟩ := take_row hx j hj
    obtain ⟨mi, p1, p2⟩ := take_one hm i hi
    obtain ⟨mj, q1, q2⟩ := take_one hm j hj
    have v1 : ∀ i : Nat, i < n → Valid [n] [(i : Int)] := fun i hi => valid_one.mpr ⟨_, rfl, by omega, by omega⟩
    have hd := smallDiff_run dyn z hz xj xi d j2 i2 μ (fun k => X j k) (fun k => X i k)
      (fun k hk => by
        obtain ⟨k', e, h1, h2⟩ := valid_one.mp hk
        cases e
        rw [j3]; exact vx _ _ (valid2.mpr ⟨by omega, by omega, h1, h2⟩))
      (fun k hk => by
        obtain ⟨k', e, h1, h2⟩ := valid_one.mp hk
        cases e
        rw [i3]; exact vx _ _ (valid2.mpr ⟨by omega, by omega, h1, h2⟩))
    rw [lift_bind j1, lift_bind i1, act_bind_ok hd, lift_bind p1, act_bind_ok (a := M i) (μ' := μ) (by simp [Act.read, p2, vm i (v1 i hi)]), lift_bind q1, act_bind_ok (a := M j) (μ' := μ) (by simp [Act.read, q2, vm j (v1 j hj)])]
    show (Except.ok _, μ) = _
    congr 2
    simp [attraction, e, smallSquares, distance2, accum, List.foldl_map, Function.comp_def]

omit [Inhabited V] [Add V] [_root_.Sub V] [Mul V] [Div V] in
/-- An array that is assigned to a row. -/
theorem setRow_run (dyn : Bool) (z : List Int) (hz : ∀ i ∈ z, i = 0) (d : Nat) (u : View) (hu : Shaped u [some d]) (hd : Distinct u [d]) (f : Int → V) (μ : Mem V) (hmem : ∀ k, Valid [d] k → (μ (address u k)).isSome) :
    ∃ μ', setRow dyn z [.row u, .vec ((List.range d).map fun (k : Nat) => f k)] μ = (.ok (.row u), μ') ∧ SameOutside (InView u [d]) μ μ' ∧ ∀ k, Valid [d] [k] → μ' (address u [k]) = some (f k) := by
  obtain ⟨μ', h1, h2, h3⟩ := C27_view dyn z hz u [d] hu hd (.cell [⟨d, 1⟩] 0 fun p => pure (.val (((List.range d).map fun (k : Nat) => f k).getD p.toNat 0))) [some d] (.cons rfl .nil) (merge_same _) μ hmem
    (fun k => f (k.getD 0 0)) (by
      intro k hk μ' _
      obtain ⟨k, rfl, k1, k2⟩ := valid_one.mp hk
      obtain ⟨k, rfl⟩ := Int.eq_ofNat_of_zero_le k1
      have : k < d := by omega
      show (Except.ok _, μ') = _
      simp [dot, this])
  refine ⟨μ', ?_, h3, fun k hk => h2 [k] hk⟩
  simp only [setRow, List.length_map, List.length_range]
  rw [act_bind_ok h1]
  rfl

omit [Inhabited V] [Zero V] [Add V] [_root_.Sub V] [Mul V] [Div V] in
theorem body_rows {F : View} {n l d : Nat} (h : Shaped F [some n, some l, some d]) :
    ∃ f : Iter (Act V) (Body V), F.bodyRows = .ok f ∧ HasShape f [some n, some l] ∧
      ∀ i j, ∃ u : View, elem f [i, j] = pure (.row u) ∧ Shaped u [some d] ∧ ∀ k, address u [k] = address F [i, j, k] := by
  obtain ⟨dims, cp⟩ := F
  match dims, h with
  | [⟨_, s⟩, ⟨_, t⟩, ⟨_, r⟩], .cons h1 (.cons h2 (.cons h3 .nil)) =>
    refine ⟨.cell [⟨_, s⟩, ⟨_, t⟩] cp fun p => pure (.row ⟨[⟨_, r⟩], p⟩), rfl, .cons h1 (.cons h2 .nil), fun i j => ⟨⟨[⟨_, r⟩], cp + dot [s, t] [i, j]⟩, rfl, .cons h3 .nil, fun k => ?_⟩⟩
    simp [address, dot]
    ring

/-- examples/newton.cc:57. -/
theorem setForces_run (G : V) (w : V → V) (dyn : Bool) (z : List Int) (hz : ∀ i ∈ z, i = 0) (dyn' : Bool) (z' : List Int) (hz' : ∀ i ∈ z', i = 0) (n d : Nat) (m x F : View) (M : Int → V) (X : Int → Int → V) (μ : Mem V)
    (hm : Shaped m [some n]) (hx : Shaped x [some n, some d]) (hF : Shaped F [some n, some n, some d]) (dF : Distinct F [n, n, d]) (am : ∀ p, InView m [n] p → ¬ InView F [n, n, d] p)
    (ax : ∀ p, InView x [n, d] p → ¬ InView F [n, n, d] p) (vm : ∀ i, Valid [n] [i] → μ (address m [i]) = some (M i)) (vx : ∀ i k, Valid [n, d] [i, k] → μ (address x [i, k]) = some (X i k))
    (memF : ∀ i, Valid [n, n, d] i → (μ (address F i)).isSome) :
    ∃ μ', setForces G w dyn z dyn' z' n d m x F μ = (.ok (), μ') ∧ SameOutside (InView F [n, n, d]) μ μ' ∧
      ∀ i j k, Valid [n, n, d] [i, j, k] → μ' (address F [i, j, k]) = some (attraction G w d M X i j k) := by
  obtain ⟨f, f1, f2, f3⟩ := body_rows (V := V) hF
  have hio : HasShape (bodyIota n : Iter (Act V) (Body V)) [some n] := .cons rfl .nil
  obtain ⟨e, e1, e2, e3⟩ := C16_outer (forceOp G w dyn' z' d m x) [bodyIota n, bodyIota n] (by simp) [[some n], [some n]] ⟨_, _, rfl, hio, _, _, rfl, hio, rfl⟩
  have valid3 : ∀ {i j k : Int}, Valid [n, n] [i, j] → Valid [d] [k] → Valid [n, n, d] [i, j, k] := fun h1 h2 => by
    obtain ⟨a1, a2, b1, b2⟩ := valid2.mp h1
    obtain ⟨k', e, c1, c2⟩ := valid_one.mp h2
    cases e
    exact ⟨a1, a2, b1, b2, c1, c2, trivial⟩
  unfold setForces
  rw [lift_bind f1, e1]
  simp only
  have hsh : HasShape (.node (mapOp (setRow dyn' z')) [f, e]) ([n, n].map some) := ⟨[[some n, some n], [some n, some n]], ⟨_, _, rfl, f2, _, _, rfl, e2, rfl⟩, merge_same _⟩
  rw [ply_never dyn _ [n, n] hsh z hz]
  have key : ∀ (l : List (List Int)), (∀ q ∈ l, Valid [n, n] q) → ∀ μ1 : Mem V, SameOutside (InView F [n, n, d]) μ μ1 → (∀ i, Valid [n, n, d] i → (μ1 (address F i)).isSome) →
      ∃ μ', forAll (elem (.node (mapOp (setRow dyn' z')) [f, e])) l μ1 = (.ok (), μ') ∧ SameOutside (InView F [n, n, d]) μ1 μ' ∧
        (∀ i j k, Valid [n, n, d] [i, j, k] → [i, j] ∈ l ∨ μ1 (address F [i, j, k]) = some (attraction G w d M X i j k) → μ' (address F [i, j, k]) = some (attraction G w d M X i j k)) := by
    intro l
    induction l with
    | nil => exact fun _ μ1 _ _ => ⟨μ1, rfl, fun _ _ => rfl, fun i j k _ h => by simpa using h⟩
    | cons q l ih =>
      intro hl μ1 ho hs
      obtain ⟨i, j, rfl, i1, i2, j1, j2⟩ := valid_two.mp (hl q (by simp))
      obtain ⟨i, rfl⟩ := Int.eq_ofNat_of_zero_le i1
      obtain ⟨j, rfl⟩ := Int.eq_ofNat_of_zero_le j1
      have hij : Valid [n, n] [(i : Int), (j : Int)] := hl _ (by simp)
      obtain ⟨u, u1, u2, u3⟩ := f3 i j
      have hforce := force_run G w dyn' z' hz' n d m x M X μ1 hm hx (fun i hi => by rw [ho _ (am _ ⟨_, hi, rfl⟩), vm i hi]) (fun i k hi => by rw [ho _ (ax _ ⟨_, hi, rfl⟩), vx i k hi]) i j (by omega) (by omega)
      have hu : ∀ k, Valid [d] k → ∃ k', k = [k'] ∧ Valid [n, n, d] [(i : Int), j, k'] ∧ address u k = address F [(i : Int), j, k'] := fun k hk => by
        obtain ⟨k', rfl, _, _⟩ := valid_one.mp hk
        exact ⟨k', rfl, valid3 hij hk, u3 k'⟩
      obtain ⟨μ2, r1, r2, r3⟩ := setRow_run dyn' z' hz' d u u2 (by
          intro a b ha hb h
          obtain ⟨a, rfl, va, ea⟩ := hu a ha
          obtain ⟨b, rfl, vb, eb⟩ := hu b hb
          rw [ea, eb] at h
          simpa using dF _ _ va vb h) (fun k => attraction G w d M X i j k) μ1 (fun k hk => by
          obtain ⟨k', rfl, h1, h2⟩ := hu k hk
          rw [h2]; exact hs _ h1)
      have r2' : SameOutside (InView F [n, n, d]) μ1 μ2 := fun p hp => r2 p fun ⟨k, hk, e⟩ => by
        obtain ⟨k', rfl, h1, h2⟩ := hu k hk
        exact hp ⟨_, h1, by rw [e, h2]⟩
      have hrun : elem (.node (mapOp (setRow dyn' z')) [f, e]) [(i : Int), (j : Int)] μ1 = (.ok (.row u), μ2) := by
        simp only [elem, elems]
        rw [mapM_two, u1, pure_bind, e3 _ (by simp)]
        simp only [pieces, List.map_cons, List.map_nil, List.length_cons, List.length_nil, List.take_succ_cons, List.drop_succ_cons, List.take_zero, List.drop_zero, List.zipWith_cons_cons, List.zipWith_nil_left, Nat.zero_add]
        rw [mapM_two]
        have hn : ∀ i : Int, elem (bodyIota n : Iter (Act V) (Body V)) [i] = pure (.num i) := fun i => by
          show pure (Body.num _) = _
          simp [dot]
        rw [hn, hn, pure_bind, pure_bind]
        simp only [forceOp]
        rw [bind_assoc, act_bind_ok hforce, pure_bind]
        exact r1
      have hs2 : ∀ a, Valid [n, n, d] a → (μ2 (address F a)).isSome := by
        intro a ha
        by_cases h : InView u [d] (address F a)
        · obtain ⟨k, hk, e⟩ := h
          obtain ⟨k', rfl, _, _⟩ := hu k hk
          rw [e, r3 k' hk]; rfl
        · rw [r2 _ h]; exact hs a ha
      obtain ⟨μ3, s1, s2, s3⟩ := ih (fun q hq => hl q (by simp [hq])) μ2 (outside_trans ho r2' (fun _ h => h) (fun _ h => h)) hs2
      refine ⟨μ3, ?_, outside_trans r2' s2 (fun _ h => h) (fun _ h => h), ?_⟩
      · simp only [forAll]
        rw [act_bind_ok hrun]
        exact s1
      · intro a b k hv h
        apply s3 a b k hv
        by_cases e : a = i ∧ b = j
        · obtain ⟨rfl, rfl⟩ := e
          right
          obtain ⟨_, _, _, h, _, _, _, _, k1, k2⟩ := valid_three hv
          cases h
          rw [← u3]
          exact r3 k (valid_one.mpr ⟨k, rfl, k1, k2⟩)
        · rcases h with h | h
          · left
            simp only [List.mem_cons, List.cons.injEq, and_true] at h
            exact h.resolve_left e
          · right
            have hn : ¬ InView u [d] (address F [a, b, k]) := fun ⟨k, hk, e'⟩ => by
              obtain ⟨k', rfl, h1, h2⟩ := hu k hk
              rw [h2] at e'
              have := dF _ _ hv h1 e'
              simp only [List.cons.injEq] at this
              exact e ⟨this.1, this.2.1⟩
            rw [r2 _ hn, h]
  obtain ⟨μ', h1, h2, h3⟩ := key (rowMajor [n, n]) (fun q hq => mem_rowMajor.mp hq) μ (fun _ _ => rfl) memF
  refine ⟨μ', ?_, h2, fun i j k hv => h3 i j k hv (.inl ?_)⟩
  · rw [bind_assoc, act_bind_ok h1]
    rfl
  · obtain ⟨_, _, _, e, a1, a2, b1, b2, _, _⟩ := valid_three hv
    cases e
    exact mem_rowMajor.mpr (valid2.mpr ⟨a1, a2, b1, b2⟩)

omit [Inhabited V] [_root_.Sub V] [Mul V] in
/-- examples/newton.cc:59-60. -/
theorem setAccel_run (dyn : Bool) (z : List Int) (hz : ∀ i ∈ z, i = 0) (n d : Nat) (m a F : View) (M : Int → V) (P : Int → Int → Int → V) (μ : Mem V)
    (hm : Shaped m [some n]) (ha : Shaped a [some n, some d]) (hF : Shaped F [some n, some n, some d]) (da : Distinct a [n, d]) (am : ∀ p, InView m [n] p → ¬ InView a [n, d] p)
    (af : ∀ p, InView a [n, d] p → ¬ InView F [n, n, d] p) (vm : ∀ i, Valid [n] [i] → μ (address m [i]) = some (M i))
    (vf : ∀ i j k, Valid [n, n, d] [i, j, k] → μ (address F [i, j, k]) = some (P i j k)) (mema : ∀ i, Valid [n, d] i → (μ (address a i)).isSome) :
    ∃ μ', setAccel dyn z m a F μ = (.ok (), μ') ∧ SameOutside (InView a [n, d]) μ μ' ∧
      ∀ i k, Valid [n, d] [i, k] → μ' (address a [i, k]) = some (accum 0 n fun j => P i j k / M i) := by
  obtain ⟨μ1, h1, h2, h3⟩ := C27_view dyn z hz a [n, d] ha da (.scalar (pure (.val 0))) [] rfl (merge_nil _) μ mema (fun _ => 0) (fun j _ μ' _ => reads_scalar μ' 0 j)
  obtain ⟨f, f1, f2, f3⟩ := transpose_exact F [n, n, d] [n, d, n] hF [0, 2, 1] rfl (by
      intro k hk
      match k, hk with
      | 0, _ => rfl
      | 1, _ => rfl
      | 2, _ => rfl) (by
      intro a ha
      match a, ha with
      | 0, _ => simp
      | 1, _ => simp
      | 2, _ => simp)
  have hmerge : Merge [[some n, some d, some n], [some n]] [some n, some d, some n] := by
    refine ⟨by simp, by simp, ?_⟩
    intro k l
    rcases k with _ | _ | _ | k <;> simp
  obtain ⟨μ2, g1, g2, g3⟩ := C28_prefix (· + ·) dyn z hz a.refs [n, d] [n] (address a) μ1 ⟨refs_shape ha, da, fun j _ μ' _ => refers_refs μ' a j⟩ (binaryOp (· / ·) f.refs m.refs) [some n, some d, some n]
    (binary_shape _ (refs_shape f2) (refs_shape hm) hmerge) (merge_longer [n, d] [n]) (fun _ => 0) h2 (fun q => P (q.getD 0 0) (q.getD 2 0) (q.getD 1 0) / M (q.getD 0 0)) (by
      intro q hq μ' ho
      obtain ⟨i, k, j, rfl, i1, i2, k1, k2, j1, j2⟩ := valid_three (n := n) (m := d) (l := n) hq
      have e1 : address f [i, k, j] = address F [i, j, k] := by
        rw [f3 _ hq]; rfl
      have v1 : Valid [n, n, d] [i, j, k] := ⟨i1, i2, j1, j2, k1, k2, trivial⟩
      have v2 : Valid [n] [i] := valid_one.mpr ⟨i, rfl, i1, i2⟩
      have e2 : address m [i, k, j] = address m [i] := by
        obtain ⟨s, e⟩ := view_one hm
        rw [e]
        simp [address, dot]
      have o1 : ∀ p, ¬ InView a [n, d] p → μ' p = μ p := fun p hp => by rw [ho p hp, h3 p hp]
      refine reads_binary _ (reads_refs ?_) (reads_refs ?_)
      · rw [e1, o1 _ fun h => af _ h ⟨_, v1, rfl⟩, vf _ _ _ v1]
        rfl
      · rw [e2, o1 _ (am _ ⟨_, v2, rfl⟩), vm _ v2]
        rfl)
  refine ⟨μ2, ?_, outside_trans h3 g2 (fun _ h => h) (fun _ h => h), ?_⟩
  · unfold setAccel
    rw [act_bind_ok h1, lift_bind (show F.transpose [0, 2, 1] = .ok f from f1)]
    exact g1
  · intro i k hv
    rw [g3 _ hv, rowMajor_one]
    simp [accum, List.foldl_map]

/-- C113. The body of the loop in examples/newton.cc. The velocities change by the accelerations and then the positions by the new velocities. -/
theorem C113_step (G : V) (w : V → V) (delta : V) (dyn : Bool) (z : List Int) (hz : ∀ i ∈ z, i = 0) (dyn' : Bool) (z' : List Int) (hz' : ∀ i ∈ z', i = 0) (n d : Nat) (m x v a F : View) (μ : Mem V) (M : Int → V)
    (X U : Int → Int → V) (h : Bodies μ n d m x v a F M X U) :
    ∃ μ', newtonStep G w delta dyn z dyn' z' n d m x v a F μ = (.ok (), μ') ∧ SameOutside (InBodies n d x v a F) μ μ' ∧
      Bodies μ' n d m x v a F M (fun i k => X i k + (U i k + acceleration G w n d M X i k * delta) * delta) (fun i k => U i k + acceleration G w n d M X i k * delta) ∧
      (∀ i k, Valid [n, d] [i, k] → μ' (address a [i, k]) = some (acceleration G w n d M X i k)) ∧
      ∀ i j k, Valid [n, n, d] [i, j, k] → μ' (address F [i, j, k]) = some (attraction G w d M X i j k) := by
  have hap := h.apart
  simp only [ApartAll, List.pairwise_cons, List.mem_cons, List.not_mem_nil, or_false, forall_eq_or_imp, forall_eq, IsEmpty.forall_iff, implies_true, List.Pairwise.nil, and_true] at hap
  obtain ⟨⟨mx, mv, ma, mF⟩, ⟨xv, xa, xF⟩, ⟨va, vF⟩, aF⟩ := hap
  have two : ∀ {i : List Int}, Valid [n, d] i → ∃ a b, i = [a, b] ∧ Valid [n, d] [a, b] := fun hi => by
    obtain ⟨a, b, rfl, _⟩ := valid_two.mp hi
    exact ⟨a, b, rfl, hi⟩
  obtain ⟨μ1, p1, p2, p3⟩ := setForces_run G w dyn z hz dyn' z' hz' n d m x F M X μ h.shapeM h.shapeX h.shapeF h.distinctF mF xF h.valueM h.valueX h.memF
  obtain ⟨μ2, q1, q2, q3⟩ := setAccel_run dyn z hz n d m a F M (attraction G w d M X) μ1 h.shapeM h.shapeA h.shapeF h.distinctA ma aF
    (fun i hi => by rw [p2 _ (mF _ ⟨_, hi, rfl⟩), h.valueM i hi]) p3 (fun i hi => by rw [p2 _ (aF _ ⟨_, hi, rfl⟩)]; exact h.memA i hi)
  have hscale : ∀ (y : View), Shaped y [some n, some d] → HasShape (binaryOp (· * ·) y.refs (.scalar (pure (.val delta)) : Iter (Act V) (Lv V))) [some n, some d] := fun y hy =>
    binary_shape _ (refs_shape hy) (show HasShape (.scalar _) [] from rfl) (merge_nil _)
  have v2 : ElemsAre μ2 v [n, d] fun i => U (i.getD 0 0) (i.getD 1 0) := fun i hi => by
    obtain ⟨i, k, rfl, _⟩ := two hi
    rw [q2 _ (va _ ⟨_, hi, rfl⟩), p2 _ (vF _ ⟨_, hi, rfl⟩)]
    exact h.valueV i k hi
  obtain ⟨μ3, r1, r2, r3⟩ := put_view (some (· + ·)) dyn z hz v [n, d] h.shapeV h.distinctV _ _ (hscale a h.shapeA) (merge_same _) μ2 _ (fun i => acceleration G w n d M X (i.getD 0 0) (i.getD 1 0) * delta) v2
    (fun i hi μ' ho => by
      obtain ⟨i, k, rfl, _⟩ := two hi
      refine reads_binary _ (reads_refs ?_) (reads_scalar μ' delta _)
      rw [ho _ fun hv => va _ hv ⟨_, hi, rfl⟩]
      exact q3 i k hi)
  have x3 : ElemsAre μ3 x [n, d] fun i => X (i.getD 0 0) (i.getD 1 0) := fun i hi => by
    obtain ⟨i, k, rfl, _⟩ := two hi
    rw [r2 _ (xv _ ⟨_, hi, rfl⟩), q2 _ (xa _ ⟨_, hi, rfl⟩), p2 _ (xF _ ⟨_, hi, rfl⟩)]
    exact h.valueX i k hi
  obtain ⟨μ4, s1, s2, s3⟩ := put_view (some (· + ·)) dyn z hz x [n, d] h.shapeX h.distinctX _ _ (hscale v h.shapeV) (merge_same _) μ3 _
    (fun i => (U (i.getD 0 0) (i.getD 1 0) + acceleration G w n d M X (i.getD 0 0) (i.getD 1 0) * delta) * delta) x3
    (fun i hi μ' ho => by
      refine reads_binary _ (reads_refs ?_) (reads_scalar μ' delta _)
      rw [ho _ fun hx => xv _ hx ⟨_, hi, rfl⟩]
      exact r3 i hi)
  have a4 : ∀ i k, Valid [n, d] [i, k] → μ4 (address a [i, k]) = some (acceleration G w n d M X i k) := fun i k hi => by
    rw [s2 _ fun hx => xa _ hx ⟨_, hi, rfl⟩, r2 _ fun hv => va _ hv ⟨_, hi, rfl⟩]
    exact q3 i k hi
  have f4 : ∀ i j k, Valid [n, n, d] [i, j, k] → μ4 (address F [i, j, k]) = some (attraction G w d M X i j k) := fun i j k hi => by
    rw [s2 _ fun hx => xF _ hx ⟨_, hi, rfl⟩, r2 _ fun hv => vF _ hv ⟨_, hi, rfl⟩, q2 _ fun ha => aF _ ha ⟨_, hi, rfl⟩]
    exact p3 i j k hi
  refine ⟨μ4, ?_, ?_, ⟨h.shapeM, h.shapeX, h.shapeV, h.shapeA, h.shapeF, h.distinctX, h.distinctV, h.distinctA, h.distinctF, h.apart, ?_, ?_, ?_, ?_, ?_⟩, a4, f4⟩
  · unfold newtonStep
    rw [act_bind_ok p1, act_bind_ok q1]
    refine Eq.trans (act_bind_ok r1) ?_
    exact s1
  · intro p hp
    simp only [InBodies, not_or] at hp
    rw [s2 _ hp.1, r2 _ hp.2.1, q2 _ hp.2.2.1, p2 _ hp.2.2.2]
  · intro i hi
    rw [s2 _ (mx _ ⟨_, hi, rfl⟩), r2 _ (mv _ ⟨_, hi, rfl⟩), q2 _ (ma _ ⟨_, hi, rfl⟩), p2 _ (mF _ ⟨_, hi, rfl⟩)]
    exact h.valueM i hi
  · exact fun i k hi => s3 [i, k] hi
  · intro i k hi
    rw [s2 _ fun hx => xv _ hx ⟨_, hi, rfl⟩]
    exact r3 [i, k] hi
  · intro i hi
    obtain ⟨i, k, rfl, _⟩ := two hi
    rw [a4 i k hi]
    rfl
  · intro i hi
    obtain ⟨i, j, k, rfl, _⟩ := valid_three hi
    rw [f4 i j k hi]
    rfl

/-- C113. The loop in examples/newton.cc, for any number of steps. -/
theorem C113_loop (G : V) (w : V → V) (delta : V) (dyn : Bool) (z : List Int) (hz : ∀ i ∈ z, i = 0) (dyn' : Bool) (z' : List Int) (hz' : ∀ i ∈ z', i = 0) (n d : Nat) (m x v a F : View) (μ : Mem V) (M : Int → V)
    (X U : Int → Int → V) (h : Bodies μ n d m x v a F M X U) (steps : Nat) :
    ∃ μ', newtonLoop G w delta dyn z dyn' z' n d m x v a F steps μ = (.ok (), μ') ∧ SameOutside (InBodies n d x v a F) μ μ' ∧
      Bodies μ' n d m x v a F M (motion G w delta n d M X U steps).1 (motion G w delta n d M X U steps).2 := by
  unfold newtonLoop
  rw [forLoop_eq]
  induction steps with
  | zero => exact ⟨μ, rfl, fun _ _ => rfl, h⟩
  | succ t ih =>
    obtain ⟨μ1, r1, r2, r3⟩ := ih
    obtain ⟨μ2, q1, q2, q3, _⟩ := C113_step G w delta dyn z hz dyn' z' hz' n d m x v a F μ1 M _ _ r3
    refine ⟨μ2, ?_, outside_trans r2 q2 (fun _ h => h) (fun _ h => h), q3⟩
    rw [List.range_succ, forAll_append, act_bind_ok r1]
    simp only [forAll]
    rw [act_bind_ok q1]
    rfl

end

/-! ## Momentum -/

section
variable {V : Type} [Field V]

/-- A double sum of numbers that change sign when they are transposed. -/
theorem sum_antisymmetric (n : Nat) (f : Nat → Nat → V) (h0 : ∀ i, f i i = 0) (h : ∀ i j, f i j + f j i = 0) : (Finset.range n).sum (fun i => (Finset.range n).sum (f i)) = 0 := by
  induction n with
  | zero => simp
  | succ n ih =>
    simp only [Finset.sum_range_succ, Finset.sum_add_distrib, ih, h0, add_zero, zero_add]
    rw [← Finset.sum_add_distrib]
    exact Finset.sum_eq_zero fun i _ => h n i

theorem accum_finset (n : Nat) (f : Int → V) : accum 0 n f = (Finset.range n).sum fun (i : Nat) => f i := by
  induction n with
  | zero => rfl
  | succ n ih => rw [Finset.sum_range_succ, ← ih]; simp [accum, List.range_succ]

/-- The force of `j` on `i` and the force of `i` on `j` are opposite. -/
theorem attraction_opposite (G : V) (w : V → V) (d : Nat) (M : Int → V) (X : Int → Int → V) (i j k : Int) : attraction G w d M X i j k + attraction G w d M X j i k = 0 := by
  unfold attraction
  by_cases e : i = j
  · subst e; simp
  · rw [if_neg e, if_neg fun h => e h.symm]
    have : distance2 d X i j = distance2 d X j i := by
      unfold distance2
      congr 1
      funext k
      ring
    rw [this]
    ring

/-- C113. The sum of the masses times the velocities doesn't change, after any number of steps. -/
theorem C113_momentum (G : V) (w : V → V) (delta : V) (n d : Nat) (M : Int → V) (hM : ∀ i : Int, 0 ≤ i → i < n → M i ≠ 0) (X U : Int → Int → V) (steps : Nat) (k : Int) :
    (accum 0 n fun i => M i * (motion G w delta n d M X U steps).2 i k) = accum 0 n fun i => M i * U i k := by
  induction steps with
  | zero => rfl
  | succ t ih =>
    rw [← ih]
    simp only [motion, accum_finset, mul_add, Finset.sum_add_distrib]
    generalize (motion G w delta n d M X U t).1 = Y
    have : ((Finset.range n).sum fun (i : Nat) => M i * (acceleration G w n d M Y i k * delta)) = delta * (Finset.range n).sum fun (i : Nat) => (Finset.range n).sum fun (j : Nat) => attraction G w d M Y i j k := by
      rw [Finset.mul_sum]
      refine Finset.sum_congr rfl fun i hi => ?_
      have hi := hM i (by omega) (by have := Finset.mem_range.mp hi; omega)
      unfold acceleration
      rw [accum_finset, ← Finset.sum_div]
      field_simp
    rw [this, sum_antisymmetric n _ (fun i => by simp [attraction]) (fun i j => attraction_opposite G w d M Y i j k), mul_zero, add_zero]

/-- C113. The sum of the masses times the positions moves along a line. -/
theorem C113_centre (G : V) (w : V → V) (delta : V) (n d : Nat) (M : Int → V) (hM : ∀ i : Int, 0 ≤ i → i < n → M i ≠ 0) (X U : Int → Int → V) (steps : Nat) (k : Int) :
    (accum 0 n fun i => M i * (motion G w delta n d M X U steps).1 i k) = (accum 0 n fun i => M i * X i k) + steps * delta * accum 0 n fun i => M i * U i k := by
  induction steps with
  | zero => simp [motion]
  | succ t ih =>
    have h := C113_momentum G w delta n d M hM X U (t + 1) k
    have e : (motion G w delta n d M X U (t + 1)).1 = fun i k => (motion G w delta n d M X U t).1 i k + (motion G w delta n d M X U (t + 1)).2 i k * delta := rfl
    rw [e]
    simp only [accum_finset, mul_add, Finset.sum_add_distrib] at ih h ⊢
    rw [ih, ← h]
    have : ∀ f : Nat → V, ((Finset.range n).sum fun (i : Nat) => M i * (f i * delta)) = delta * (Finset.range n).sum fun (i : Nat) => M i * f i := fun f => by
      rw [Finset.mul_sum]
      exact Finset.sum_congr rfl fun i _ => by ring
    rw [this]
    push_cast
    ring

end

/-- A memory with a different number in each place. -/
def newtonMem : Mem Rat := fun p => some (p + 1)

theorem place_vector {n : Nat} {q p : Int} : InView ⟨[⟨n, 1⟩], q⟩ [n] p → q ≤ p ∧ p < q + n := by
  rintro ⟨i, hi, rfl⟩
  obtain ⟨i, rfl, h1, h2⟩ := valid_one.mp hi
  simp [address, dot]
  omega

theorem place_matrix {q p : Int} : InView ⟨[⟨2, 3⟩, ⟨3, 1⟩], q⟩ [2, 3] p → q ≤ p ∧ p < q + 6 := by
  rintro ⟨i, hi, rfl⟩
  obtain ⟨i, j, rfl, h1, h2, h3, h4⟩ := valid_two.mp hi
  simp [address, dot]
  omega

theorem distinct_matrix (q : Int) : Distinct ⟨[⟨2, 3⟩, ⟨3, 1⟩], q⟩ [2, 3] := by
  intro i j hi hj e
  obtain ⟨i, k, rfl, h1, h2, h3, h4⟩ := valid_two.mp hi
  obtain ⟨i', k', rfl, h1', h2', h3', h4'⟩ := valid_two.mp hj
  simp [address, dot] at e
  simp only [List.cons.injEq, and_true]
  omega

/-- A case with 2 bodies in 3 dimensions. -/
theorem bodies_case : Bodies newtonMem 2 3 ⟨[⟨2, 1⟩], 0⟩ ⟨[⟨2, 3⟩, ⟨3, 1⟩], 2⟩ ⟨[⟨2, 3⟩, ⟨3, 1⟩], 8⟩ ⟨[⟨2, 3⟩, ⟨3, 1⟩], 14⟩ ⟨[⟨2, 6⟩, ⟨2, 3⟩, ⟨3, 1⟩], 20⟩
    (fun i => i + 1) (fun i k => 3 * i + k + 3) (fun i k => 3 * i + k + 9) where
  shapeM := shaped_nat (s := [2]).mpr rfl
  shapeX := shaped_nat (s := [2, 3]).mpr rfl
  shapeV := shaped_nat (s := [2, 3]).mpr rfl
  shapeA := shaped_nat (s := [2, 3]).mpr rfl
  shapeF := shaped_nat (s := [2, 2, 3]).mpr rfl
  distinctX := distinct_matrix _
  distinctV := distinct_matrix _
  distinctA := distinct_matrix _
  distinctF := by
    intro i j hi hj e
    obtain ⟨i, k, l, rfl, h1, h2, h3, h4, h5, h6⟩ := valid_three hi
    obtain ⟨i', k', l', rfl, h1', h2', h3', h4', h5', h6'⟩ := valid_three hj
    simp [address, dot] at e
    simp only [List.cons.injEq, and_true]
    omega
  apart := by
    have hF : ∀ p, InView ⟨[⟨2, 6⟩, ⟨2, 3⟩, ⟨3, 1⟩], 20⟩ [2, 2, 3] p → 20 ≤ p := by
      rintro p ⟨i, hi, rfl⟩
      obtain ⟨i, k, l, rfl, h1, h2, h3, h4, h5, h6⟩ := valid_three hi
      simp [address, dot]
      omega
    simp only [ApartAll, List.pairwise_cons, List.mem_cons, List.not_mem_nil, or_false, forall_eq_or_imp, forall_eq, IsEmpty.forall_iff, implies_true, List.Pairwise.nil, and_true]
    refine ⟨⟨?_, ?_, ?_, ?_⟩, ⟨?_, ?_, ?_⟩, ⟨?_, ?_⟩, ?_⟩
    · intro p h1 h2; have h1 := place_vector (n := 2) h1; have h2 := place_matrix h2; omega
    · intro p h1 h2; have h1 := place_vector (n := 2) h1; have h2 := place_matrix h2; omega
    · intro p h1 h2; have h1 := place_vector (n := 2) h1; have h2 := place_matrix h2; omega
    · intro p h1 h2; have h1 := place_vector (n := 2) h1; have h2 := hF p h2; omega
    · intro p h1 h2; have h1 := place_matrix h1; have h2 := place_matrix h2; omega
    · intro p h1 h2; have h1 := place_matrix h1; have h2 := place_matrix h2; omega
    · intro p h1 h2; have h1 := place_matrix h1; have h2 := hF p h2; omega
    · intro p h1 h2; have h1 := place_matrix h1; have h2 := place_matrix h2; omega
    · intro p h1 h2; have h1 := place_matrix h1; have h2 := hF p h2; omega
    · intro p h1 h2; have h1 := place_matrix h1; have h2 := hF p h2; omega
  valueM := by
    intro i _
    simp [newtonMem, address, dot]
  valueX := by
    intro i k _
    simp [newtonMem, address, dot]
    ring
  valueV := by
    intro i k _
    simp [newtonMem, address, dot]
    ring
  memA := fun _ _ => rfl
  memF := fun _ _ => rfl

/-- One step in this case. The distance is the square root of 27, and with the function that gives 27 for it, the acceleration of the first body is 2/9 in each direction. -/
example : ∃ μ' : Mem Rat, newtonStep 1 id 9 false [] true [] 2 3 ⟨[⟨2, 1⟩], 0⟩ ⟨[⟨2, 3⟩, ⟨3, 1⟩], 2⟩ ⟨[⟨2, 3⟩, ⟨3, 1⟩], 8⟩ ⟨[⟨2, 3⟩, ⟨3, 1⟩], 14⟩ ⟨[⟨2, 6⟩, ⟨2, 3⟩, ⟨3, 1⟩], 20⟩ newtonMem = (.ok (), μ') ∧
    μ' 8 = some 11 ∧ μ' 2 = some 102 := by
  obtain ⟨μ', h1, _, h2, _⟩ := C113_step (1 : Rat) id 9 false [] (by simp) true [] (by simp) 2 3 _ _ _ _ _ newtonMem _ _ _ bodies_case
  refine ⟨μ', h1, ?_, ?_⟩
  · have := h2.valueV 0 0 (valid2.mpr ⟨by omega, by omega, by omega, by omega⟩)
    simp [address, dot] at this
    rw [this]
    norm_num [acceleration, attraction, distance2, accum, List.range_succ]
  · have := h2.valueX 0 0 (valid2.mpr ⟨by omega, by omega, by omega, by omega⟩)
    simp [address, dot] at this
    rw [this]
    norm_num [acceleration, attraction, distance2, accum, List.range_succ]

/-- The masses of this case aren't 0. -/
example (steps : Nat) : (accum 0 2 fun i => ((i : Rat) + 1) * (motion 1 id 9 2 3 (fun i => (i : Rat) + 1) (fun i k => 3 * i + k + 3) (fun i k => 3 * i + k + 9) steps).2 i 0) = 33 := by
  rw [C113_momentum 1 id 9 2 3 (fun i : Int => (i : Rat) + 1) (by
    intro i h1 h2
    have : (0 : Rat) ≤ i := by exact_mod_cast h1
    positivity) _ _ steps 0]
  norm_num [accum, List.range_succ]

end Ra.Props
