import Verif.Props.Dot
/-!
# C117: the ways to add up the elements at a list of positions agree
-/

namespace Ra.Props

open Spec

section
variable {V : Type} [Zero V] [Add V]

/-! ## Specification -/

/-- The position in the row `o` of the array of positions `fi`, for an array of rank `r`. `ix` converts the elements to indices. -/
def positionIn (ix : V → Int) (r : Nat) (fi : Int → Int → V) (o : Nat) : List Int := (List.range r).map fun (k : Nat) => ix (fi o k)

/-- The elements `fc` at each of the positions, added up in order from 0. -/
def totalAt (ix : V → Int) (r : Nat) (fc : List Int → V) (fi : Int → Int → V) (O : Nat) : V := (List.range O).foldl (fun s o => s + fc (positionIn ix r fi o)) 0

omit [Zero V] [Add V] in
/-- `c` is a view of shape `t` with elements `fc`, `i` is a matrix with `O` rows, each a position for `c`, with elements `fi`; `y` is a variable that isn't in either of them. -/
structure Positions (μ : Mem V) (y : Int) (t : List Nat) (O : Nat) (c i : View) (fc : List Int → V) (fi : Int → Int → V) : Prop where
  shapeC : Shaped c (t.map some)
  shapeI : Shaped i [some O, some t.length]
  valueC : ∀ j, Valid t j → μ (address c j) = some (fc j)
  valueI : ∀ o k : Int, Valid [O, t.length] [o, k] → μ (address i [o, k]) = some (fi o k)
  apartC : ∀ j, Valid t j → address c j ≠ y
  apartI : ∀ o k : Int, Valid [O, t.length] [o, k] → address i [o, k] ≠ y
  y : (μ y).isSome

/-- If all of the positions are in `c`, the program gives the total of the elements at these positions. Else a check fails. In any case it changes nothing but its variable `y`. -/
def GivesTotalAt (ix : V → Int) (y : Int) (t : List Nat) (O : Nat) (F : View → View → Act V V) : Prop :=
  ∀ (c i : View) (μ : Mem V) (fc : List Int → V) (fi : Int → Int → V), Positions μ y t O c i fc fi →
    ∃ r μ', F c i μ = (r, μ') ∧ SameOutside (· = y) μ μ' ∧
      ((∀ o < O, Valid t (positionIn ix t.length fi o)) → r = .ok (totalAt ix t.length fc fi O)) ∧
      ((∃ o < O, ¬ Valid t (positionIn ix t.length fi o)) → r = .error .check)

/-! ## Proofs -/

omit [Zero V] [Add V] in
theorem first_bad (P : Nat → Prop) (O : Nat) (h : ∃ o < O, ¬ P o) : ∃ o l2, List.range O = List.range o ++ o :: l2 ∧ o < O ∧ ¬ P o ∧ ∀ k < o, P k := by
  classical
  obtain ⟨h1, h2⟩ := Nat.find_spec h
  refine ⟨Nat.find h, (List.range (O - Nat.find h - 1)).map (fun k => Nat.find h + (k + 1)), ?_, h1, h2, ?_⟩
  · have e : O = Nat.find h + ((O - Nat.find h - 1) + 1) := by omega
    conv_lhs => rw [e, List.range_add, List.range_succ_eq_map]
    simp
  · intro k hk
    by_contra hc
    exact Nat.find_min h hk ⟨by omega, hc⟩

/-- Steps that add a term each, until one that fails. -/
theorem fromZero_rows {β : Type} (F : Nat → Act V β) (t : Nat → V) (P : Nat → Prop) (y : Int) (O : Nat) (μ : Mem V) (hy : (μ y).isSome) (body : Act V Unit) (hb : body = forAll F (List.range O))
    (h : ∀ o < O, P o → ∀ μ', SameOutside (· = y) μ μ' → ∀ u, μ' y = some u → ∃ r, F o μ' = (.ok r, μ'.upd y (u + t o)))
    (hf : ∀ o < O, ¬ P o → ∀ μ', SameOutside (· = y) μ μ' → F o μ' = (.error .check, μ')) :
    ∃ r μ', fromZero y body μ = (r, μ') ∧ SameOutside (· = y) μ μ' ∧ ((∀ o < O, P o) → r = .ok ((List.range O).foldl (fun s o => s + t o) 0)) ∧ ((∃ o < O, ¬ P o) → r = .error .check) := by
  by_cases hp : ∃ o < O, ¬ P o
  · obtain ⟨o, l2, e, ho, hno, hk⟩ := first_bad P O hp
    obtain ⟨w, hw⟩ := Option.isSome_iff_exists.mp hy
    obtain ⟨μ', h1, h2, h3⟩ := plus_run F t y (List.range o) μ (μ.upd y 0) 0 (upd_outside _ _ _) (updVar_same _ _ _)
      (fun k hk' => h k (by have := List.mem_range.mp hk'; omega) (hk k (List.mem_range.mp hk')))
    refine ⟨.error .check, μ', ?_, h2, fun h' => absurd (h' o ho) hno, fun _ => rfl⟩
    simp only [fromZero]
    rw [act_bind_ok (a := ()) (μ' := μ.upd y 0) (by simp [Act.write, hw]), hb, e, forAll_append, act_bind, act_bind_ok h1, forAll, act_bind, hf o ho hno μ' h2]
  · have hp' : ∀ o < O, P o := fun o ho => by
      by_contra hc
      exact hp ⟨o, ho, hc⟩
    obtain ⟨μ', h1, h2⟩ := fromZero_run F t y (List.range O) μ hy body hb (fun o ho => h o (List.mem_range.mp ho) (hp' o (List.mem_range.mp ho)))
    exact ⟨_, μ', h1, h2, fun _ => rfl, fun h' => absurd h' hp⟩

omit [Zero V] [Add V] in
theorem mapM_reads {β : Type} (F : Nat → Act V β) (f : Nat → β) (l : List Nat) (μ : Mem V) (h : ∀ k ∈ l, F k μ = (.ok (f k), μ)) : l.mapM F μ = (.ok (l.map f), μ) := by
  induction l with
  | nil => rfl
  | cons k l ih =>
    rw [List.mapM_cons, act_bind_ok (h k (by simp)), act_bind_ok (ih fun k' hk => h k' (by simp [hk]))]
    rfl

omit [Zero V] [Add V] in
theorem indexer_ok {c : View} {t : List Nat} (hc : Shaped c (t.map some)) {j : List Int} (hj : Valid t j) : indexer c.dims c.cp j = .ok (address c j) := by
  have h := C01_at (m := Except Fault) (.cell c.dims c.cp pure : Iter (Except Fault) Int) (t.map some) hc j (inRange_of_valid hj)
  have e : elem (.cell c.dims c.cp pure : Iter (Except Fault) Int) j = .ok (address c j) := rfl
  rw [e] at h
  simp only [Iter.at] at h
  split at h
  · next p hp =>
    cases h
    exact hp
  · cases h

omit [Zero V] [Add V] in
theorem indexer_bad {c : View} {t : List Nat} (hc : Shaped c (t.map some)) {j : List Int} (hl : j.length = t.length) (hj : ¬ Valid t j) : indexer c.dims c.cp j = .error .check := by
  have h := C59_reject (m := Except Fault) c.dims c.cp (pure : Int → Except Fault Int) (t.map some) hc j (fun hr => hj (valid_of_inRange hl hr))
  simp only [Iter.at] at h
  split at h
  · cases h
  · next f hf =>
    rw [hf]
    exact h

omit [Zero V] [Add V] in
theorem positionIn_length (ix : V → Int) (r : Nat) (fi : Int → Int → V) (o : Nat) : (positionIn ix r fi o).length = r := by simp [positionIn]

omit [Zero V] [Add V] in
theorem atVec_row (ix : V → Int) {μ μ' : Mem V} {y : Int} {t : List Nat} {O : Nat} {c i : View} {fc : List Int → V} {fi : Int → Int → V} (h : Positions μ y t O c i fc fi)
    (hμ : SameOutside (· = y) μ μ') (o : Nat) (ho : o < O) (w : View) (hw : Shaped w [some t.length]) (haw : ∀ j, address w [j] = address i [(o : Int), j]) :
    readIdx ix w μ' = (.ok (positionIn ix t.length fi o), μ') := by
  obtain ⟨s, e⟩ := view_one hw
  have hl : lenOf w.dims 0 = t.length := by rw [e]; rfl
  simp only [readIdx, hl, Int.toNat_natCast, positionIn]
  refine mapM_reads _ _ _ _ ?_
  intro k hk
  have hk := List.mem_range.mp hk
  have hv : Valid [O, t.length] [(o : Int), (k : Int)] := valid_two.mpr ⟨_, _, rfl, by omega, by omega, by omega, by omega⟩
  have ha : w.cp + k * (w.dims.headD ⟨0, 0⟩).step = address i [(o : Int), (k : Int)] := by
    rw [← haw, e]
    simp [address, dot]
  rw [ha, act_bind_ok (a := fi o k) (μ' := μ') (by simp [Act.read, hμ _ (h.apartI _ _ hv), h.valueI _ _ hv])]
  rfl

omit [Zero V] [Add V] in
theorem subscripts_bad {a : View} {s : List Nat} (ha : Shaped a (s.map some)) {j : List Int} (hl : j.length = s.length) (hj : ¬ Valid s j) :
    a.from (j.map fun i => .scalar (.const i)) = .error .check := by
  have hd := ha.length_eq
  simp only [List.length_map] at hd
  rw [← C95_at_view a j (by omega) (by
    intro d hd' hu
    have hn := shaped_nat.mp ha
    have : d.len ∈ s.map (Nat.cast : Nat → Int) := by rw [← hn]; exact List.mem_map_of_mem hd'
    obtain ⟨n, _, e⟩ := List.mem_map.mp this
    simp only [UNB] at hu
    omega)]
  refine C26_at_view_reject a (s.map some) ha j (by simp [hl]) ?_
  rw [List.take_of_length_le (by simp [hl])]
  exact fun hr => hj (valid_of_inRange hl hr)

/-- C117. A loop with `c(i(o, 0), i(o, 1), ...)`. -/
theorem C117_subscripts (ix : V → Int) (y : Int) (t : List Nat) (O : Nat) : GivesTotalAt ix y t O (atSubscripts ix y) := by
  intro c i μ fc fi h
  have hO : lenOf i.dims 0 = O := by obtain ⟨s, u, e⟩ := view_two h.shapeI; rw [e]; rfl
  have hr : c.dims.length = t.length := by simpa using h.shapeC.length_eq
  have key : ∀ o < O, ∀ μ', SameOutside (· = y) μ μ' → ((List.range c.dims.length).mapM fun (k : Nat) => (do
      let p ← Act.lift (i.from [.scalar (.const o), .scalar (.const k)])
      let u ← Act.read p.cp
      pure (ix u) : Act V Int)) μ' = (.ok (positionIn ix t.length fi o), μ') := by
    intro o ho μ' hμ
    rw [hr]
    refine mapM_reads _ _ _ _ ?_
    intro k hk
    have hk := List.mem_range.mp hk
    have hv : Valid [O, t.length] [(o : Int), (k : Int)] := valid_two.mpr ⟨_, _, rfl, by omega, by omega, by omega, by omega⟩
    obtain ⟨p, p1, p2⟩ := take_elem h.shapeI o k ho hk
    rw [lift_bind p1, p2, act_bind_ok (a := fi o k) (μ' := μ') (by simp [Act.read, hμ _ (h.apartI _ _ hv), h.valueI _ _ hv])]
    rfl
  refine fromZero_rows _ (fun o => fc (positionIn ix t.length fi o)) (fun o => Valid t (positionIn ix t.length fi o)) y O μ h.y _ (by rw [hO, forLoop_eq]) ?_ ?_
  · intro o ho hv μ' hμ u hu
    refine ⟨(), ?_⟩
    obtain ⟨q, q1, q2⟩ := subscripts_ok h.shapeC hv
    rw [act_bind_ok (key o ho μ' hμ), lift_bind q1, q2, act_bind_ok (a := fc (positionIn ix t.length fi o)) (μ' := μ') (by simp [Act.read, hμ _ (h.apartC _ hv), h.valueC _ hv])]
    exact plusAt_run hu
  · intro o ho hv μ' hμ
    have e := subscripts_bad h.shapeC (positionIn_length ix t.length fi o) hv
    rw [act_bind_ok (key o ho μ' hμ), e]
    rfl

/-- C117. A loop with `at(c, i(o))`. -/
theorem C117_at (ix : V → Int) (y : Int) (t : List Nat) (O : Nat) : GivesTotalAt ix y t O (atLoop ix y) := by
  intro c i μ fc fi h
  have hO : lenOf i.dims 0 = O := by obtain ⟨s, u, e⟩ := view_two h.shapeI; rw [e]; rfl
  refine fromZero_rows _ (fun o => fc (positionIn ix t.length fi o)) (fun o => Valid t (positionIn ix t.length fi o)) y O μ h.y _ (by rw [hO, forLoop_eq]) ?_ ?_
  · intro o ho hv μ' hμ u hu
    obtain ⟨w, w1, w2, w3⟩ := take_row h.shapeI o ho
    refine ⟨(), ?_⟩
    rw [lift_bind w1, act_bind_ok (a := address c (positionIn ix t.length fi o)) (μ' := μ')]
    · rw [act_bind_ok (a := fc (positionIn ix t.length fi o)) (μ' := μ') (by simp [Act.read, hμ _ (h.apartC _ hv), h.valueC _ hv])]
      exact plusAt_run hu
    · simp only [atVec]
      rw [act_bind_ok (atVec_row ix h hμ o ho w w2 w3), indexer_ok h.shapeC hv]
      rfl
  · intro o ho hv μ' hμ
    obtain ⟨w, w1, w2, w3⟩ := take_row h.shapeI o ho
    have e : atVec ix c w μ' = (.error .check, μ') := by
      simp only [atVec]
      rw [act_bind_ok (atVec_row ix h hμ o ho w w2 w3), indexer_bad h.shapeC (positionIn_length _ _ _ _) hv]
      rfl
    rw [lift_bind w1, act_bind, e]

omit [Zero V] [Add V] in
/-- Reductions of elements that are read from memory, when one of them fails. -/
theorem forEachRef_fail [Inhabited V] {γ : Type} (μ : Mem V) (dyn : Bool) (z : List Int) (hz : ∀ i ∈ z, i = 0) (op : γ → List V → Act V γ) (c : γ) (t : List (Iter (StateT γ (Act V)) V))
    (s : List Nat) (ss : List (List Length)) (hss : HasShapes t ss) (hm : Merge ss (s.map some)) (l1 l2 : List (List Int)) (j0 : List Int) (hl : rowMajor s = l1 ++ j0 :: l2) (e : Fault)
    (vals : List Int → List V) (hv : ∀ j ∈ l1, ∀ c, ((elems t j).mapM id).run c μ = (.ok (vals j, c), μ)) (f : γ → List Int → γ) (hf : ∀ c j, op c (vals j) = pure (f c j))
    (h0 : ∀ c, ((elems t j0).mapM id).run c μ = (.error e, μ)) :
    forEachRef dyn z op c t μ = (.error e, μ) := by
  have hsh : ∀ op : List (StateT γ (Act V) V) → StateT γ (Act V) V, HasShape (Iter.node op t) (s.map some) := fun op => ⟨ss, hss, hm⟩
  unfold forEachRef
  rw [ply_never dyn _ s (hsh _) z hz, hl]
  have step : ∀ (l : List (List Int)) (c : γ), (∀ j ∈ l, j ∈ l1) →
      (forAll (elem (Iter.node (mapOp fun xs => (do
        let c ← get
        let c' ← (op c xs : Act V γ)
        set c'
        pure default : StateT γ (Act V) V)) t)) (l ++ j0 :: l2)).run c μ = (.error e, μ) := by
    intro l
    induction l with
    | nil =>
      intro c _
      rw [List.nil_append, forAll, StateT.run_bind]
      have e1 : (elem (Iter.node (mapOp fun xs => (do
        let c ← get
        let c' ← (op c xs : Act V γ)
        set c'
        pure default : StateT γ (Act V) V)) t) j0).run c μ = (.error e, μ) := by
        simp only [elem, mapOp]
        rw [StateT.run_bind, act_bind, h0 c]
      rw [act_bind, e1]
    | cons j l ih =>
      intro c hl
      have hj := hl j (by simp)
      rw [List.cons_append, forAll, StateT.run_bind]
      have e1 : (elem (Iter.node (mapOp fun xs => (do
        let c ← get
        let c' ← (op c xs : Act V γ)
        set c'
        pure default : StateT γ (Act V) V)) t) j).run c μ = (.ok (default, f c j), μ) := by
        simp only [elem, mapOp]
        rw [StateT.run_bind, act_bind_ok (hv j hj c)]
        simp [hf c j]
        rfl
      rw [act_bind_ok e1]
      exact ih _ fun k hk => hl k (by simp [hk])
  have h1 := step l1 c fun _ h => h
  rw [StateT.run_bind, act_bind, act_bind, h1]

omit [Zero V] [Add V] in
theorem rows_cells {i : View} {O r : Nat} (hi : Shaped i [some O, some r]) :
    ∃ f e, i.cell 1 = .ok (f, e) ∧ (∀ (rd : Int → StateT V (Act V) V), HasShape (.cell f i.cp rd) [some O]) ∧
      ∀ (o : Int), ∃ p, (∀ (rd : Int → StateT V (Act V) V), elem (.cell f i.cp rd) [o] = rd p) ∧ Shaped ⟨e, p⟩ [some r] ∧ ∀ k, address ⟨e, p⟩ [k] = address i [o, k] := by
  obtain ⟨s, u, e⟩ := view_two hi
  refine ⟨[⟨O, s⟩], [⟨r, u⟩], by rw [e]; rfl, fun _ => .cons rfl .nil, fun o => ⟨i.cp + dot [s] [o], fun _ => rfl, .cons rfl .nil, fun k => ?_⟩⟩
  rw [e]
  simp [address, dot]
  ring

/-- C117. `sum(at(c, iter<1>(i)))`. There's no variable, so the memory doesn't change. -/
theorem C117_atSum [Inhabited V] (ix : V → Int) (dyn : Bool) (z : List Int) (hz : ∀ i ∈ z, i = 0) (y : Int) (t : List Nat) (O : Nat) (c i : View) (μ : Mem V) (fc : List Int → V) (fi : Int → Int → V)
    (h : Positions μ y t O c i fc fi) :
    ((∀ o < O, Valid t (positionIn ix t.length fi o)) → atSum ix dyn z c i μ = (.ok (totalAt ix t.length fc fi O), μ)) ∧
    ((∃ o < O, ¬ Valid t (positionIn ix t.length fi o)) → atSum ix dyn z c i μ = (.error .check, μ)) := by
  classical
  obtain ⟨f, e, c1, c2, c3⟩ := rows_cells (V := V) h.shapeI
  have hr : ∀ (o : Nat), o < O → ∀ b : V, ((elems [(.cell f i.cp fun p => StateT.lift do
      let q ← atVec ix c ⟨e, p⟩
      Act.read q : Iter (StateT V (Act V)) V)] [(o : Int)]).mapM id).run b μ =
        if Valid t (positionIn ix t.length fi o) then (.ok ([fc (positionIn ix t.length fi o)], b), μ) else (.error .check, μ) := by
    intro o ho b
    obtain ⟨p, p1, p2, p3⟩ := c3 o
    simp only [elems, p1, List.mapM_cons, List.mapM_nil, id]
    rw [StateT.run_bind]
    have hx := atVec_row ix h (μ' := μ) (fun _ _ => rfl) o ho ⟨e, p⟩ p2 p3
    split
    · next hv =>
      have e1 : (StateT.lift (do
          let q ← atVec ix c ⟨e, p⟩
          Act.read q) : StateT V (Act V) V).run b μ = (.ok (fc (positionIn ix t.length fi o), b), μ) := by
        rw [StateT.run_lift]
        simp only [atVec, bind_assoc]
        rw [act_bind_ok hx, indexer_ok h.shapeC hv, lift_bind rfl, act_bind_ok (a := fc (positionIn ix t.length fi o)) (μ' := μ) (by simp [Act.read, h.valueC _ hv])]
        rfl
      rw [act_bind_ok e1]
      rfl
    · next hv =>
      have e1 : (StateT.lift (do
          let q ← atVec ix c ⟨e, p⟩
          Act.read q) : StateT V (Act V) V).run b μ = (.error .check, μ) := by
        rw [StateT.run_lift]
        simp only [atVec, bind_assoc]
        rw [act_bind_ok hx, indexer_bad h.shapeC (positionIn_length _ _ _ _) hv]
        rfl
      rw [act_bind, e1]
  have hO : rowMajor [O] = (List.range O).map fun (o : Nat) => [(o : Int)] := rowMajor_one O
  constructor
  · intro hv
    simp only [atSum]
    rw [lift_bind c1]
    have := forEachRef_mem μ dyn z hz (fun c xs => match xs with
      | [x] => pure (c + x)
      | _ => fault .abort) (0 : V) [(.cell f i.cp fun p => StateT.lift do
        let q ← atVec ix c ⟨e, p⟩
        Act.read q : Iter (StateT V (Act V)) V)] [O] [[some O]] ⟨_, _, rfl, c2 _, rfl⟩ (merge_one _) (fun j => [fc (positionIn ix t.length fi (j.headD 0).toNat)]) (by
        intro j hj b
        obtain ⟨o, rfl, o1, o2⟩ := valid_one.mp hj
        have := hr o.toNat (by omega) b
        rw [if_pos (hv _ (by omega)), show ((o.toNat : Nat) : Int) = o by omega] at this
        exact this) (fun s j => s + fc (positionIn ix t.length fi (j.headD 0).toNat)) (fun _ _ _ => rfl)
    rw [hO, List.foldl_map] at this
    exact this
  · intro hv
    obtain ⟨o, l2, el, ho, hno, hk⟩ := first_bad _ O hv
    simp only [atSum]
    rw [lift_bind c1]
    refine forEachRef_fail μ dyn z hz _ (0 : V) [(.cell f i.cp fun p => StateT.lift do
        let q ← atVec ix c ⟨e, p⟩
        Act.read q : Iter (StateT V (Act V)) V)] [O] [[some O]] ⟨_, _, rfl, c2 _, rfl⟩ (merge_one _) ((List.range o).map fun (o : Nat) => [(o : Int)]) (l2.map fun (o : Nat) => [(o : Int)]) [(o : Int)]
      (by rw [hO, el]; simp) .check (fun j => [fc (positionIn ix t.length fi (j.headD 0).toNat)]) ?_ (fun s j => s + fc (positionIn ix t.length fi (j.headD 0).toNat)) (fun _ _ => rfl) ?_
    · intro j hj b
      obtain ⟨k, hk', rfl⟩ := List.mem_map.mp hj
      have hk' := List.mem_range.mp hk'
      have := hr k (by omega) b
      rw [if_pos (hk k hk')] at this
      exact this
    · intro b
      have := hr o ho b
      rw [if_neg hno] at this
      exact this

end

/-! A matrix of 2 x 3 by columns, 2 positions in the 4 numbers after it, and a variable. -/

def exAtMem (k : Int) : Mem Int := fun p => if 0 ≤ p ∧ p < 6 then some (p * p - 5) else if p = 6 then some 1 else if p = 7 then some k else if p = 8 then some 0 else if p = 9 then some 1 else if p = 10 then some 99 else none
def exAtI (k : Int) : Int → Int → Int := fun o j => if o = 0 then (if j = 0 then 1 else k) else (if j = 0 then 0 else 1)

theorem exAt (k : Int) : Positions (exAtMem k) 10 [2, 3] 2 exDotA ⟨[⟨2, 2⟩, ⟨2, 1⟩], 6⟩ (fun j => address exDotA j * address exDotA j - 5) (exAtI k) := by
  refine ⟨shaped_nat.mpr rfl, .cons rfl (.cons rfl .nil), ?_, ?_, ?_, ?_, rfl⟩
  · intro j hj
    obtain ⟨i, l, rfl, h1, h2, h3, h4⟩ := valid_two.mp hj
    simp only [address, dot, exDotA, exAtMem, List.map_cons, List.map_nil, List.zipWith_cons_cons, List.zipWith_nil_right, List.sum_cons, List.sum_nil]
    rw [if_pos (by omega)]
  · intro o j hj
    obtain ⟨o', j', e, h1, h2, h3, h4⟩ := valid_two.mp hj
    simp only [List.cons.injEq, and_true] at e
    obtain ⟨rfl, rfl⟩ := e
    have : (o = 0 ∨ o = 1) ∧ (j = 0 ∨ j = 1) := by simp at h2 h4; omega
    rcases this with ⟨rfl | rfl, rfl | rfl⟩ <;> rfl
  · intro j hj
    obtain ⟨i, l, rfl, h1, h2, h3, h4⟩ := valid_two.mp hj
    simp only [address, dot, exDotA, List.map_cons, List.map_nil, List.zipWith_cons_cons, List.zipWith_nil_right, List.sum_cons, List.sum_nil]
    omega
  · intro o j hj
    obtain ⟨o', j', e, h1, h2, h3, h4⟩ := valid_two.mp hj
    simp only [List.cons.injEq, and_true] at e
    obtain ⟨rfl, rfl⟩ := e
    simp at h2 h4
    simp only [address, dot, List.map_cons, List.map_nil, List.zipWith_cons_cons, List.zipWith_nil_right, List.sum_cons, List.sum_nil]
    omega

/-- The elements at (1, 2) and (0, 1). -/
example : atSum id true [0] exDotA ⟨[⟨2, 2⟩, ⟨2, 1⟩], 6⟩ (exAtMem 2) = (.ok 19, exAtMem 2) := (C117_atSum id true [0] (by simp) 10 [2, 3] 2 _ _ _ _ _ (exAt 2)).1 (by
  intro o ho
  have : o = 0 ∨ o = 1 := by omega
  rcases this with rfl | rfl <;> simp [positionIn, exAtI, List.range_succ, Valid])

/-- The position (1, 3) isn't in the matrix. -/
example : atSum id true [0] exDotA ⟨[⟨2, 2⟩, ⟨2, 1⟩], 6⟩ (exAtMem 3) = (.error .check, exAtMem 3) := (C117_atSum id true [0] (by simp) 10 [2, 3] 2 _ _ _ _ _ (exAt 3)).2
  ⟨0, by omega, by simp [positionIn, exAtI, List.range_succ, Valid]⟩

example : ∃ r μ', atSubscripts id 10 exDotA ⟨[⟨2, 2⟩, ⟨2, 1⟩], 6⟩ (exAtMem 2) = (r, μ') ∧ r = .ok 19 := by
  obtain ⟨r, μ', h1, _, h2, _⟩ := C117_subscripts id 10 [2, 3] 2 _ _ _ _ _ (exAt 2)
  refine ⟨r, μ', h1, h2 ?_⟩
  intro o ho
  have : o = 0 ∨ o = 1 := by omega
  rcases this with rfl | rfl <;> simp [positionIn, exAtI, List.range_succ, Valid]

example : ∃ r μ', atLoop id 10 exDotA ⟨[⟨2, 2⟩, ⟨2, 1⟩], 6⟩ (exAtMem 3) = (r, μ') ∧ r = .error .check := by
  obtain ⟨r, μ', h1, _, _, h2⟩ := C117_at id 10 [2, 3] 2 _ _ _ _ _ (exAt 3)
  exact ⟨r, μ', h1, h2 ⟨0, by omega, by simp [positionIn, exAtI, List.range_succ, Valid]⟩⟩

end Ra.Props
