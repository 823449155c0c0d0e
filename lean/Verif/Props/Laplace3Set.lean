import Verif.Props.Laplace3Cube
/-!
# Setting the tables of examples/laplace3d.cc, and the solution, C116
-/

namespace Ra.Props
open Spec

/-! The elements. -/

/-- Write to different places. -/
theorem puts_run {V α : Type} (f : List Int → Act V α) (A : List Int → Int) (val : List Int → V) (l : List (List Int)) (hl : l.Nodup) (hA : ∀ j ∈ l, ∀ k ∈ l, A j = A k → j = k) (W : Int → Prop) (hW : ∀ j ∈ l, W (A j))
    (hf : ∀ j ∈ l, ∀ μ, (μ (A j)).isSome → ∃ r, f j μ = (.ok r, μ.upd (A j) (val j))) (μ : Mem V) (hm : ∀ j ∈ l, (μ (A j)).isSome) :
    ∃ μ', forAll f l μ = (.ok (), μ') ∧ SameOutside W μ μ' ∧ (∀ j ∈ l, μ' (A j) = some (val j)) ∧ ∀ p, (∀ j ∈ l, A j ≠ p) → μ' p = μ p := by
  induction l generalizing μ with
  | nil => exact ⟨μ, rfl, fun _ _ => rfl, by simp, fun _ _ => rfl⟩
  | cons i l ih =>
    obtain ⟨r, hr⟩ := hf i (by simp) μ (hm i (by simp))
    have hn := List.nodup_cons.mp hl
    obtain ⟨μ', h1, h2, h3, h4⟩ := ih hn.2 (fun j hj k hk => hA j (by simp [hj]) k (by simp [hk])) (fun j hj => hW j (by simp [hj])) (fun j hj => hf j (by simp [hj])) (μ.upd (A i) (val i)) (by
      intro j hj
      have := hm j (by simp [hj])
      simp only [Mem.upd]
      split_ifs <;> simp [this])
    refine ⟨μ', ?_, ?_, ?_, ?_⟩
    · simp only [forAll]
      rw [act_bind_ok hr]
      exact h1
    · intro p hp
      rw [h2 p hp, Mem.upd, if_neg]
      rintro rfl
      exact hp (hW i (by simp))
    · intro j hj
      rcases List.mem_cons.mp hj with rfl | hj
      · rw [h4 _ fun k hk e => hn.1 (by rw [hA _ (by simp) k (by simp [hk]) e.symm]; exact hk), Mem.upd, if_pos rfl]
      · exact h3 j hj
    · intro p hp
      rw [h4 p fun j hj => hp j (by simp [hj]), Mem.upd, if_neg fun e => hp i (by simp) e.symm]

theorem isf_corner (a : Nat) (ha : a < 8) : (isfTable.getD a []).getD 0 0 = cornerX a ∧ (isfTable.getD a []).getD 1 0 = cornerY a ∧ (isfTable.getD a []).getD 2 0 = cornerZ a := by
  interval_cases a <;> decide

theorem grid_vertex (n : Nat) (i j k : Int) : gridPos (n + 1) i j k = vertex n i j k := by
  simp only [gridPos, vertex]
  ring

/-- The address of a vertex of the element at `i`, `j`, `k`. -/
def slotOf (n : Nat) (E : View) (q : List Int) : Int := address E [(q.getD 0 0 * n + q.getD 1 0) * n + q.getD 2 0] + q.getD 3 0

/-- What's there. -/
def slotVal (n : Nat) (q : List Int) : Int := vertex n (q.getD 0 0 + cornerX (q.getD 3 0).toNat) (q.getD 1 0 + cornerY (q.getD 3 0).toNat) (q.getD 2 0 + cornerZ (q.getD 3 0).toNat)

theorem valid_four {n m l o : Nat} {i : List Int} (h : Valid [n, m, l, o] i) : ∃ a b c d : Nat, i = [(a : Int), (b : Int), (c : Int), (d : Int)] ∧ a < n ∧ b < m ∧ c < l ∧ d < o := by
  match i, h with
  | [a, b, c, d], ⟨h1, h2, h3, h4, h5, h6, h7, h8, _⟩ =>
    lift a to Nat using h1
    lift b to Nat using h3
    lift c to Nat using h5
    lift d to Nat using h7
    exact ⟨a, b, c, d, rfl, by omega, by omega, by omega, by omega⟩

theorem intIota_elem (n : Nat) (i : Int) : elem (intIota n) [i] = pure (.val i) := by
  show pure (Lv.val _) = _
  simp [dot]

theorem place_lt {n i j k : Nat} (hi : i < n) (hj : j < n) (hk : k < n) : (i * n + j) * n + k < n * n * n := by
  have : i * n + j + 1 ≤ n * n := by nlinarith
  nlinarith

theorem place_inj {n i j k i' j' k' : Nat} (hj : j < n) (hk : k < n) (hj' : j' < n) (hk' : k' < n) (h : (i * n + j) * n + k = (i' * n + j') * n + k') : i = i' ∧ j = j' ∧ k = k' := by
  obtain ⟨m, rfl⟩ : ∃ m, n = m + 1 := ⟨n - 1, by omega⟩
  have : vertex m i j k = vertex m i' j' k' := by
    simp only [vertex]
    exact_mod_cast h
  obtain ⟨e1, e2, e3⟩ := vertex_inj (by omega) (by omega) (by omega) (by omega) this
  omega

/-- C116. The elements are set to the vertices of the small cubes. -/
theorem C116_elements (dyn : Bool) (z : List Int) (hz : ∀ i ∈ z, i = 0) (n : Nat) (E : View) (hE : Shaped E [some (n * n * n)])
    (hd : ∀ e e' : Nat, e < n * n * n → e' < n * n * n → ∀ a a' : Nat, a < 8 → a' < 8 → address E [(e : Int)] + a = address E [(e' : Int)] + a' → e = e' ∧ a = a')
    (μ : Mem Int) (hm : ∀ e : Nat, e < n * n * n → ∀ a : Nat, a < 8 → (μ (address E [(e : Int)] + a)).isSome) :
    ∃ μ', setElements dyn z n E μ = (.ok (), μ') ∧ SameOutside (fun p => ∃ e : Nat, e < n * n * n ∧ ∃ a : Nat, a < 8 ∧ p = address E [(e : Int)] + a) μ μ' ∧
      ∀ i j k : Nat, i < n → j < n → k < n → ∀ a : Nat, a < 8 → μ' (address E [(((i * n + j) * n + k : Nat) : Int)] + a) = some (vertex n (i + cornerX a) (j + cornerY a) (k + cornerZ a)) := by
  have hio : ∀ n, HasShape (intIota n) [some n] := fun n => .cons rfl .nil
  obtain ⟨x, e1, e2, e3⟩ := C16_outer (setVertex n E) [intIota n, intIota n, intIota n, intIota 8] (by simp) [[some n], [some n], [some n], [some 8]]
    ⟨_, _, rfl, hio n, _, _, rfl, hio n, _, _, rfl, hio n, _, _, rfl, hio 8, rfl⟩
  have addr : ∀ a b c d : Nat, slotOf n E [(a : Int), (b : Int), (c : Int), (d : Int)] = address E [(((a * n + b) * n + c : Nat) : Int)] + d := by
    intro a b c d
    simp [slotOf]
  have hstep : ∀ q ∈ rowMajor [n, n, n, 8], ∀ μ : Mem Int, (μ (slotOf n E q)).isSome → ∃ r, elem x q μ = (.ok r, μ.upd (slotOf n E q) (slotVal n q)) := by
    intro q hq μ hs
    obtain ⟨a, b, c, d, rfl, ha, hb, hc, hd⟩ := valid_four (mem_rowMajor.mp hq)
    obtain ⟨w, w1, w2, w3⟩ := row_of (s := []) (by simpa using hE) ((a * n + b) * n + c) (place_lt ha hb hc)
    have hcp : w.cp = address E [(((a * n + b) * n + c : Nat) : Int)] := by
      have := w3 []
      cases w2' : w.dims with
      | nil => simpa [address, w2', dot] using this
      | cons p t => rw [Shaped, w2'] at w2; cases w2
    have hpos : gridPos n a b c = (((a * n + b) * n + c : Nat) : Int) := by
      simp only [gridPos]; push_cast; ring
    rw [addr] at hs ⊢
    obtain ⟨y, hy⟩ := Option.isSome_iff_exists.mp hs
    obtain ⟨q1, q2, q3⟩ := isf_corner d hd
    refine ⟨.ref (w.cp + d), ?_⟩
    rw [e3 _ (by simp)]
    simp only [pieces, List.map_cons, List.map_nil, List.length_cons, List.length_nil, List.take_succ_cons, List.drop_succ_cons, List.take_zero, List.drop_zero, List.zipWith_cons_cons, List.zipWith_nil_left, Nat.zero_add]
    simp only [mapOp, intIota_elem, List.mapM_cons, List.mapM_nil, id_eq, pure_bind, setVertex]
    rw [hpos, lift_bind w1]
    have hw : (Act.write (w.cp + d) (gridPos (n + 1) (a + (isfTable.getD (d : Int).toNat []).getD 0 0) (b + (isfTable.getD (d : Int).toNat []).getD 1 0) (c + (isfTable.getD (d : Int).toNat []).getD 2 0)) : Act Int Unit) μ =
        (.ok (), μ.upd (address E [(((a * n + b) * n + c : Nat) : Int)] + d) (slotVal n [(a : Int), (b : Int), (c : Int), (d : Int)])) := by
      simp only [Act.write, hcp, hy, Int.toNat_natCast, q1, q2, q3, grid_vertex]
      rfl
    rw [act_bind_ok hw]
    rfl
  obtain ⟨μ', h1, h2, h3, _⟩ := puts_run (elem x) (slotOf n E) (slotVal n) (rowMajor [n, n, n, 8]) (nodup_rowMajor _) (by
      intro j hj k hk he
      obtain ⟨a, b, c, d, rfl, ha, hb, hc, hd1⟩ := valid_four (mem_rowMajor.mp hj)
      obtain ⟨a', b', c', d', rfl, ha', hb', hc', hd2⟩ := valid_four (mem_rowMajor.mp hk)
      rw [addr, addr] at he
      obtain ⟨f1, f2⟩ := hd _ _ (place_lt ha hb hc) (place_lt ha' hb' hc') d d' hd1 hd2 he
      obtain ⟨g1, g2, g3⟩ := place_inj hb hc hb' hc' f1
      rw [g1, g2, g3, f2]) (fun p => ∃ e : Nat, e < n * n * n ∧ ∃ a : Nat, a < 8 ∧ p = address E [(e : Int)] + a) (by
      intro j hj
      obtain ⟨a, b, c, d, rfl, ha, hb, hc, hd⟩ := valid_four (mem_rowMajor.mp hj)
      exact ⟨_, place_lt ha hb hc, d, hd, addr a b c d⟩) hstep μ (by
      intro j hj
      obtain ⟨a, b, c, d, rfl, ha, hb, hc, hd⟩ := valid_four (mem_rowMajor.mp hj)
      rw [addr]
      exact hm _ (place_lt ha hb hc) d hd)
  refine ⟨μ', ?_, h2, ?_⟩
  · rw [setElements, e1]
    simp only []
    rw [ply_never dyn x [n, n, n, 8] e2 z hz]
    have : (do forAll (elem x) (rowMajor [n, n, n, 8]); pure (none : Option Unit) : Act Int (Option Unit)) μ = (.ok none, μ') := by
      rw [act_bind_ok h1]
      rfl
    rw [act_bind_ok this]
    rfl
  · intro i j k hi hj hk a ha
    have := h3 [(i : Int), (j : Int), (k : Int), (a : Int)] (mem_rowMajor.mpr ⟨by omega, by omega, by omega, by omega, by omega, by omega, by omega, by omega, trivial⟩)
    rw [addr] at this
    rw [this]
    simp [slotVal]

/-! The boundaries. -/

/-- The first elements of `B` are `l`. -/
def Begins (B : View) (l : List Int) (μ : Mem Int) : Prop := ∀ q : Nat, (h : q < l.length) → μ (address B [(q : Int)]) = some l[q]

theorem putNext_run (B : View) (N : Nat) (hB : Shaped B [some N]) (hd : Distinct B [N]) (l : List Int) (x : Int) (hl : l.length < N) (μ : Mem Int) (hm : ∀ q : Nat, q < N → (μ (address B [(q : Int)])).isSome) (h : Begins B l μ) :
    ∃ μ', putNext B x l.length μ = (.ok ((l ++ [x]).length : Nat), μ') ∧ SameOutside (InView B [N]) μ μ' ∧ (∀ q : Nat, q < N → (μ' (address B [(q : Int)])).isSome) ∧ Begins B (l ++ [x]) μ' := by
  obtain ⟨w, w1, w2, w3⟩ := row_of (s := []) (by simpa using hB) l.length hl
  have hcp : w.cp = address B [(l.length : Int)] := by
    have := w3 []
    cases w2' : w.dims with
    | nil => simpa [address, w2', dot] using this
    | cons p t => rw [Shaped, w2'] at w2; cases w2
  obtain ⟨y, hy⟩ := Option.isSome_iff_exists.mp (hm _ hl)
  have vB : ∀ q : Nat, q < N → Valid [N] [(q : Int)] := fun q hq => valid_one.mpr ⟨_, rfl, by omega, by omega⟩
  refine ⟨μ.upd (address B [(l.length : Int)]) x, ?_, ?_, ?_, ?_⟩
  · rw [putNext, lift_bind w1]
    have hw : (Act.write w.cp x : Act Int Unit) μ = (.ok (), μ.upd (address B [(l.length : Int)]) x) := by simp only [Act.write, hcp, hy]
    rw [act_bind_ok hw]
    simp
    rfl
  · intro p hp
    rw [Mem.upd, if_neg]
    rintro rfl
    exact hp ⟨_, vB _ hl, rfl⟩
  · intro q hq
    simp only [Mem.upd]
    split_ifs
    · rfl
    · exact hm q hq
  · intro q hq
    simp only [List.length_append, List.length_cons, List.length_nil] at hq
    by_cases e : q = l.length
    · subst e
      simp [Mem.upd]
    · rw [List.getElem_append_left (by omega), Mem.upd, if_neg, h q (by omega)]
      intro he
      have := hd _ _ (vB q (by omega)) (vB _ hl) he
      simp at this
      omega

/-- What's put for `i`, `j`. -/
def sidesOf (n : Nat) (i j : Int) : List Int := [vertex n 0 i j, vertex n n i j, vertex n i 0 j, vertex n i n j, vertex n i j 0, vertex n i j n]

theorem putSides_run (n : Nat) (i j : Int) (B : View) (N : Nat) (hB : Shaped B [some N]) (hd : Distinct B [N]) (l : List Int) (hl : l.length + 6 ≤ N) (μ : Mem Int) (hm : ∀ q : Nat, q < N → (μ (address B [(q : Int)])).isSome) (h : Begins B l μ) :
    ∃ μ', putSides n B i j l.length μ = (.ok ((l ++ sidesOf n i j).length : Nat), μ') ∧ SameOutside (InView B [N]) μ μ' ∧ (∀ q : Nat, q < N → (μ' (address B [(q : Int)])).isSome) ∧ Begins B (l ++ sidesOf n i j) μ' := by
  obtain ⟨m1, a1, a2, a3, a4⟩ := putNext_run B N hB hd l (vertex n 0 i j) (by omega) μ hm h
  obtain ⟨m2, b1, b2, b3, b4⟩ := putNext_run B N hB hd _ (vertex n n i j) (by simp; omega) m1 a3 a4
  obtain ⟨m3, c1, c2, c3, c4⟩ := putNext_run B N hB hd _ (vertex n i 0 j) (by simp; omega) m2 b3 b4
  obtain ⟨m4, d1, d2, d3, d4⟩ := putNext_run B N hB hd _ (vertex n i n j) (by simp; omega) m3 c3 c4
  obtain ⟨m5, e1, e2, e3, e4⟩ := putNext_run B N hB hd _ (vertex n i j 0) (by simp; omega) m4 d3 d4
  obtain ⟨m6, f1, f2, f3, f4⟩ := putNext_run B N hB hd _ (vertex n i j n) (by simp; omega) m5 e3 e4
  refine ⟨m6, ?_, ?_, f3, ?_⟩
  · simp only [putSides, grid_vertex]
    rw [act_bind_ok a1, act_bind_ok b1, act_bind_ok c1, act_bind_ok d1, act_bind_ok e1, f1]
    simp [sidesOf]
  · intro p hp
    rw [f2 p hp, e2 p hp, d2 p hp, c2 p hp, b2 p hp, a2 p hp]
  · simpa [sidesOf] using f4

theorem loop_run (B : View) (N : Nat) (g : Int → Nat → Act Int Int) (c : Nat → List Int) (k : Nat) (hc : ∀ j, (c j).length = k)
    (hg : ∀ j (l : List Int) (μ : Mem Int), l.length + k ≤ N → (∀ q : Nat, q < N → (μ (address B [(q : Int)])).isSome) → Begins B l μ →
      ∃ μ', g l.length j μ = (.ok ((l ++ c j).length : Nat), μ') ∧ SameOutside (InView B [N]) μ μ' ∧ (∀ q : Nat, q < N → (μ' (address B [(q : Int)])).isSome) ∧ Begins B (l ++ c j) μ')
    (js : List Nat) (l : List Int) (μ : Mem Int) (hl : l.length + js.length * k ≤ N) (hm : ∀ q : Nat, q < N → (μ (address B [(q : Int)])).isSome) (h : Begins B l μ) :
    ∃ μ', js.foldlM g (l.length : Int) μ = (.ok ((l ++ js.flatMap c).length : Nat), μ') ∧ SameOutside (InView B [N]) μ μ' ∧ (∀ q : Nat, q < N → (μ' (address B [(q : Int)])).isSome) ∧ Begins B (l ++ js.flatMap c) μ' := by
  induction js generalizing l μ with
  | nil => exact ⟨μ, by simp; rfl, fun _ _ => rfl, hm, by simpa using h⟩
  | cons j js ih =>
    have : l.length + k + js.length * k ≤ N := by
      simp only [List.length_cons] at hl
      nlinarith
    obtain ⟨m1, a1, a2, a3, a4⟩ := hg j l μ (by omega) hm h
    obtain ⟨m2, b1, b2, b3, b4⟩ := ih (l ++ c j) m1 (by rw [List.length_append, hc]; exact this) a3 a4
    refine ⟨m2, ?_, fun p hp => by rw [b2 p hp, a2 p hp], b3, by simpa using b4⟩
    rw [List.foldlM_cons, act_bind_ok a1, b1]
    simp

theorem sides_length (n : Nat) : ((List.range (n + 1)).flatMap fun (i : Nat) => (List.range (n + 1)).flatMap fun (j : Nat) => sidesOf n i j).length = 6 * (n + 1) * (n + 1) := by
  simp [List.length_flatMap, sidesOf]
  ring

theorem sides_list (n : Nat) (p : Int) : (∃ q : Nat, q < 6 * (n + 1) * (n + 1) ∧ ((List.range (n + 1)).flatMap fun (i : Nat) => (List.range (n + 1)).flatMap fun (j : Nat) => sidesOf n i j).getD q 0 = p) ↔ OnFace n p := by
  have hlen := sides_length n
  have hmem : (∃ q : Nat, q < 6 * (n + 1) * (n + 1) ∧ ((List.range (n + 1)).flatMap fun (i : Nat) => (List.range (n + 1)).flatMap fun (j : Nat) => sidesOf n i j).getD q 0 = p) ↔
      p ∈ (List.range (n + 1)).flatMap fun (i : Nat) => (List.range (n + 1)).flatMap fun (j : Nat) => sidesOf n i j := by
    rw [List.mem_iff_getElem]
    constructor
    · rintro ⟨q, hq, e⟩
      exact ⟨q, by rw [hlen]; exact hq, by simpa [List.getD_eq_getElem?_getD, hlen, hq] using e⟩
    · rintro ⟨q, hq, e⟩
      exact ⟨q, by rw [hlen] at hq; exact hq, by rw [List.getD_eq_getElem?_getD, List.getElem?_eq_getElem hq]; simpa using e⟩
  rw [hmem]
  simp only [List.mem_flatMap, List.mem_range, sidesOf, List.mem_cons, List.not_mem_nil, or_false]
  constructor
  · rintro ⟨i, hi, j, hj, h⟩
    rcases h with h | h | h | h | h | h
    · exact ⟨0, i, j, by omega, by omega, by omega, by omega, h⟩
    · exact ⟨n, i, j, by omega, by omega, by omega, by omega, h⟩
    · exact ⟨i, 0, j, by omega, by omega, by omega, by omega, h⟩
    · exact ⟨i, n, j, by omega, by omega, by omega, by omega, h⟩
    · exact ⟨i, j, 0, by omega, by omega, by omega, by omega, h⟩
    · exact ⟨i, j, n, by omega, by omega, by omega, by omega, h⟩
  · rintro ⟨i, j, k, hi, hj, hk, hf, rfl⟩
    lift i to Nat using hi.1
    lift j to Nat using hj.1
    lift k to Nat using hk.1
    rcases hf with h | h | h | h | h | h
    · exact ⟨j, by omega, k, by omega, by simp [h]⟩
    · exact ⟨j, by omega, k, by omega, by simp [h]⟩
    · exact ⟨i, by omega, k, by omega, by simp [h]⟩
    · exact ⟨i, by omega, k, by omega, by simp [h]⟩
    · exact ⟨i, by omega, j, by omega, by simp [h]⟩
    · exact ⟨i, by omega, j, by omega, by simp [h]⟩

/-- C116. The boundaries are the vertices on the faces and no others, and they fill the table. -/
theorem C116_bounds (n : Nat) (B : View) (hB : Shaped B [some (6 * (n + 1) * (n + 1))]) (hd : Distinct B [6 * (n + 1) * (n + 1)]) (μ : Mem Int) (hm : ∀ q : Nat, q < 6 * (n + 1) * (n + 1) → (μ (address B [(q : Int)])).isSome) :
    ∃ μ', setBounds n B μ = (.ok (), μ') ∧ SameOutside (InView B [6 * (n + 1) * (n + 1)]) μ μ' ∧
      ∃ b : Nat → Int, (∀ q : Nat, q < 6 * (n + 1) * (n + 1) → μ' (address B [(q : Int)]) = some (b q)) ∧ ∀ p, (∃ q : Nat, q < 6 * (n + 1) * (n + 1) ∧ b q = p) ↔ OnFace n p := by
  have hrow : ∀ i : Nat, ((List.range (n + 1)).flatMap fun (j : Nat) => sidesOf n i j).length = 6 * (n + 1) := by
    intro i
    simp [List.length_flatMap, sidesOf]
    ring
  obtain ⟨μ', h1, h2, h3, h4⟩ := loop_run B _ (fun (k : Int) (i : Nat) => (List.range (n + 1)).foldlM (fun (k : Int) (j : Nat) => putSides n B i j k) k) (fun i => (List.range (n + 1)).flatMap fun (j : Nat) => sidesOf n i j)
    (6 * (n + 1)) hrow (fun i l μ hl hm hb => loop_run B _ (fun (k : Int) (j : Nat) => putSides n B i j k) (fun j => sidesOf n i j) 6 (fun j => rfl)
      (fun j l μ hl hm hb => putSides_run n i j B _ hB hd l hl μ hm hb) (List.range (n + 1)) l μ (by simp; omega) hm hb) (List.range (n + 1)) [] μ (by simp; nlinarith) hm (fun q h => absurd h (by simp))
  have hlen := sides_length n
  refine ⟨μ', ?_, h2, fun q => ((List.range (n + 1)).flatMap fun (i : Nat) => (List.range (n + 1)).flatMap fun (j : Nat) => sidesOf n i j).getD q 0, ?_, ?_⟩
  · rw [setBounds]
    exact (act_bind_ok h1).trans rfl
  · intro q hq
    have := h4 q (by simpa only [List.nil_append, hlen] using hq)
    rw [this]
    simp [List.getD_eq_getElem?_getD, hlen, hq]
  · exact fun p => sides_list n p

/-- C116. A matrix with these tables is that of the cube. -/
theorem C116_set {F : Type} (dyn : Bool) (z : List Int) (hz : ∀ i ∈ z, i = 0) (n : Nat) (E : View) (hE : Shaped E [some (n * n * n)])
    (hd : ∀ e e' : Nat, e < n * n * n → e' < n * n * n → ∀ a a' : Nat, a < 8 → a' < 8 → address E [(e : Int)] + a = address E [(e' : Int)] + a' → e = e' ∧ a = a')
    (B : View) (hB : Shaped B [some (6 * (n + 1) * (n + 1))]) (hdB : Distinct B [6 * (n + 1) * (n + 1)])
    (hp : ∀ e : Nat, e < n * n * n → ∀ a : Nat, a < 8 → ∀ q : Nat, q < 6 * (n + 1) * (n + 1) → address E [(e : Int)] + a ≠ address B [(q : Int)])
    (μ : Mem Int) (hm : ∀ e : Nat, e < n * n * n → ∀ a : Nat, a < 8 → (μ (address E [(e : Int)] + a)).isSome) (hmB : ∀ q : Nat, q < 6 * (n + 1) * (n + 1) → (μ (address B [(q : Int)])).isSome) :
    ∃ μ', (do setElements dyn z n E; setBounds n B) μ = (.ok (), μ') ∧
      ∀ A : Matrix0bnd F, Shaped A.M [some 8, some 8] → A.nE = n * n * n → A.nB = 6 * (n + 1) * (n + 1) → (∀ e : Nat, e < n * n * n → ∀ a : Nat, a < 8 → μ' (address E [(e : Int)] + a) = some ((A.E e).v a)) →
        (∀ q : Nat, q < 6 * (n + 1) * (n + 1) → μ' (address B [(q : Int)]) = some (A.B q)) → Cube n A := by
  obtain ⟨m, a1, a2, a3⟩ := C116_elements dyn z hz n E hE hd μ hm
  obtain ⟨m', b1, b2, b, b3, b4⟩ := C116_bounds n B hB hdB m (by
    intro q hq
    rw [a2 _ ?_]
    · exact hmB q hq
    · rintro ⟨e, he, a, ha, h⟩
      exact hp e he a ha q hq h.symm)
  refine ⟨m', by rw [act_bind_ok a1]; exact b1, ?_⟩
  intro A h1 h2 h3 h4 h5
  refine ⟨h1, h2, ?_, ?_⟩
  · intro i j k hi hj hk a ha
    have := h4 _ (place_lt hi hj hk) a ha
    rw [b2, a3 i j k hi hj hk a ha] at this
    · exact (Option.some.inj this).symm
    · rintro ⟨q, hq, h⟩
      obtain ⟨q, rfl, hq⟩ := valid_one.mp hq
      lift q to Nat using hq.1
      exact hp _ (place_lt hi hj hk) a ha q (by omega) h
  · intro p
    rw [← b4 p, h3]
    refine exists_congr fun q => and_congr_right fun hq => ?_
    have := h5 q hq
    rw [b3 q hq] at this
    rw [Option.some.inj this]

/-! The solution. -/

section
variable {F : Type} [Field F] [LinearOrder F] [IsStrictOrderedRing F] [Inhabited F]

/-- C116. With `mult0`, `cghs` solves the equations of the elements up to the tolerance, in at most as many iterations as there are vertices inside. -/
theorem C116_solves0 (ix : IndexLike F) (dyn : Bool) (z : List Int) (hz : ∀ i ∈ z, i = 0) (dyn' : Bool) (z' : List Int) (hz' : ∀ i ∈ z', i = 0) (n : Nat) (A : Matrix0bnd F) (hA : Cube n A) (hh : 0 < A.h) (b x work : View) (μ : Mem F)
    (vb vx : List Int → F) (h : System μ [(n + 1) ^ 3] b x work vb vx) (hM : MatrixIs A stiff μ) (hTb : Off (InView A.M [8, 8]) [(n + 1) ^ 3] b) (hTx : Off (InView A.M [8, 8]) [(n + 1) ^ 3] x)
    (hTw : Off (InView A.M [8, 8]) [3, (n + 1) ^ 3] work) (hb : ∀ p : Int, 0 ≤ p → p < ((n + 1) ^ 3 : Nat) → OnFace n p → vb [p] = 0) (eps : F) (limit : Nat) (hlim : (n - 1) ^ 3 ≤ limit) :
    ∃ k μ' vx', cghs dyn z (limit + 1) (mult0 ix dyn z dyn' z' A) b x work eps μ = (.ok k, μ') ∧ k ≤ (n - 1) ^ 3 ∧ HasValues μ' [(n + 1) ^ 3] x vx' ∧
      dotOn [(n + 1) ^ 3] (fun i => vb i - assembled stiff A.h A.nE (fun e a => (A.E e).v a) (OnFace n) vx' i) (fun i => vb i - assembled stiff A.h A.nE (fun e a => (A.E e).v a) (OnFace n) vx' i) ≤
        eps * eps * dotOn [(n + 1) ^ 3] vb vb := by
  have hc := cube_count n
  obtain ⟨k, μ', e1, e2, _, vx', e4, e5⟩ := C109_ends dyn z hz _ _ _ _ _ _ (C116_mult0 ix dyn z hz dyn' z' hz' A _ (C116_cube n A hA) stiff (OnFace n) (fun p _ _ => (hA.bounds p).symm)) (assembled_linear _ _ _ _ _ _)
    (C116_definite n A hA A.h hh) b x work μ vb vx h (fun i hi hz => by obtain ⟨p, rfl, hp⟩ := valid_one.mp hi; exact hb p hp.1 hp.2 hz) hM hTb hTx hTw eps limit (le_trans hc hlim)
  exact ⟨k, μ', vx', e1, le_trans e2 hc, e4, e5⟩

/-- C116. And the same with `mult1`. -/
theorem C116_solves1 (ix : IndexLike F) (dyn : Bool) (z : List Int) (hz : ∀ i ∈ z, i = 0) (dyn' : Bool) (z' : List Int) (hz' : ∀ i ∈ z', i = 0) (n : Nat) (A : Matrix0bnd F) (hA : Cube n A) (hR : Registers A) (hh : 0 < A.h) (b x work : View)
    (μ : Mem F) (vb vx : List Int → F) (h : System μ [(n + 1) ^ 3] b x work vb vx) (hM : MatrixIs A stiff μ) (hI : RegistersIn A μ) (hTb : Off (fun p => InView A.M [8, 8] p ∨ InRegister A p) [(n + 1) ^ 3] b)
    (hTx : Off (fun p => InView A.M [8, 8] p ∨ InRegister A p) [(n + 1) ^ 3] x) (hTw : Off (fun p => InView A.M [8, 8] p ∨ InRegister A p) [3, (n + 1) ^ 3] work)
    (hb : ∀ p : Int, 0 ≤ p → p < ((n + 1) ^ 3 : Nat) → OnFace n p → vb [p] = 0) (eps : F) (limit : Nat) (hlim : (n - 1) ^ 3 ≤ limit) :
    ∃ k μ' vx', cghs dyn z (limit + 1) (mult1 ix dyn z dyn' z' A) b x work eps μ = (.ok k, μ') ∧ k ≤ (n - 1) ^ 3 ∧ HasValues μ' [(n + 1) ^ 3] x vx' ∧
      dotOn [(n + 1) ^ 3] (fun i => vb i - assembled stiff A.h A.nE (fun e a => (A.E e).v a) (OnFace n) vx' i) (fun i => vb i - assembled stiff A.h A.nE (fun e a => (A.E e).v a) (OnFace n) vx' i) ≤
        eps * eps * dotOn [(n + 1) ^ 3] vb vb := by
  have hc := cube_count n
  obtain ⟨k, μ', e1, e2, _, vx', e4, e5⟩ := C109_ends dyn z hz _ _ _ _ _ _ (C116_mult1 ix dyn z hz dyn' z' hz' A _ (C116_cube n A hA) hR stiff (OnFace n) (fun p _ _ => (hA.bounds p).symm)) (assembled_linear _ _ _ _ _ _)
    (C116_definite n A hA A.h hh) b x work μ vb vx h (fun i hi hz => by obtain ⟨p, rfl, hp⟩ := valid_one.mp hi; exact hb p hp.1 hp.2 hz) ⟨hM, hI⟩ hTb hTx hTw eps limit (le_trans hc hlim)
  exact ⟨k, μ', vx', e1, le_trans e2 hc, e4, e5⟩

end

/-! A cube with two elements along each edge, and one unknown. -/

/-- The vertices of the element `e`. -/
def exCubeV (n : Nat) (e a : Int) : Int := vertex n (e.toNat / n / n + cornerX a.toNat) (e.toNat / n % n + cornerY a.toNat) (e.toNat % n + cornerZ a.toNat)

/-- The matrix is at 0, and the temporaries are after it. -/
def exCube (n : Nat) (h : Rat) : Matrix0bnd Rat :=
  ⟨⟨[⟨8, 8⟩, ⟨8, 1⟩], 0⟩, h, n * n * n, fun e => ⟨exCubeV n e, ⟨[⟨8, 1⟩], 64 + 16 * e⟩, ⟨[⟨8, 1⟩], 72 + 16 * e⟩⟩, 6 * (n + 1) * (n + 1),
    fun q => ((List.range (n + 1)).flatMap fun (i : Nat) => (List.range (n + 1)).flatMap fun (j : Nat) => sidesOf n i j).getD q.toNat 0⟩

theorem exCube_cube (n : Nat) (h : Rat) : Cube n (exCube n h) where
  shapeM := .cons rfl (.cons rfl .nil)
  count := rfl
  vertices := by
    intro i j k hi hj hk a ha
    have e1 : ((i * n + j) * n + k) / n = i * n + j := by rw [Nat.add_comm, Nat.add_mul_div_right _ _ (by omega), Nat.div_eq_of_lt hk, Nat.zero_add]
    have e2 : ((i * n + j) * n + k) % n = k := by rw [Nat.add_comm, Nat.add_mul_mod_self_right, Nat.mod_eq_of_lt hk]
    have e3 : (i * n + j) / n = i := by rw [Nat.add_comm, Nat.add_mul_div_right _ _ (by omega), Nat.div_eq_of_lt hj, Nat.zero_add]
    have e4 : (i * n + j) % n = j := by rw [Nat.add_comm, Nat.add_mul_mod_self_right, Nat.mod_eq_of_lt hj]
    show exCubeV n _ _ = _
    rw [exCubeV, Int.toNat_natCast, Int.toNat_natCast]
    rw [← Int.natCast_div, ← Int.natCast_div, ← Int.natCast_emod, ← Int.natCast_emod, e1, e2, e3, e4]
  bounds := by
    intro p
    exact sides_list n p

/-- An address in the matrix. -/
theorem exCube_matrix {n : Nat} {h : Rat} {p : Int} (hp : InView (exCube n h).M [8, 8] p) : 0 ≤ p ∧ p < 64 := by
  obtain ⟨i, hi, rfl⟩ := hp
  obtain ⟨a, b, rfl, _⟩ := valid_two.mp hi
  simp [exCube, address, dot]
  omega

theorem exReg {c p : Int} (hp : InView ⟨[⟨8, 1⟩], c⟩ [8] p) : c ≤ p ∧ p < c + 8 := by
  obtain ⟨i, hi, rfl⟩ := hp
  obtain ⟨a, rfl, _⟩ := valid_one.mp hi
  simp [address, dot]
  omega

theorem exReg_distinct (c : Int) : Distinct ⟨[⟨8, 1⟩], c⟩ [8] := by
  intro i j hi hj e
  obtain ⟨a, rfl, _⟩ := valid_one.mp hi
  obtain ⟨b, rfl, _⟩ := valid_one.mp hj
  simpa [address, dot] using e

theorem exCube_registers (n : Nat) (h : Rat) : Registers (exCube n h) where
  shape1 := fun _ _ => .cons rfl .nil
  shape2 := fun _ _ => .cons rfl .nil
  distinct1 := fun _ _ => exReg_distinct _
  distinct2 := fun _ _ => exReg_distinct _
  parted := by
    intro e _ i j hi hj q
    have h1 := exReg (c := 64 + 16 * e) ⟨i, hi, rfl⟩
    have h2 := exReg (c := 72 + 16 * e) ⟨j, hj, rfl⟩
    have q : address ⟨[⟨8, 1⟩], 64 + 16 * (e : Int)⟩ i = address ⟨[⟨8, 1⟩], 72 + 16 * (e : Int)⟩ j := q
    omega
  off1 := by
    intro e _ i hi hp
    have h1 := exReg (c := 64 + 16 * e) ⟨i, hi, rfl⟩
    have h2 : 0 ≤ address ⟨[⟨8, 1⟩], 64 + 16 * (e : Int)⟩ i ∧ address ⟨[⟨8, 1⟩], 64 + 16 * (e : Int)⟩ i < 64 := exCube_matrix hp
    omega
  off2 := by
    intro e _ i hi hp
    have h1 := exReg (c := 72 + 16 * e) ⟨i, hi, rfl⟩
    have h2 : 0 ≤ address ⟨[⟨8, 1⟩], 72 + 16 * (e : Int)⟩ i ∧ address ⟨[⟨8, 1⟩], 72 + 16 * (e : Int)⟩ i < 64 := exCube_matrix hp
    omega

/-- `b` is 1 in the middle. -/
def exCubeMem : Mem Rat := fun a =>
  if 0 ≤ a ∧ a < 64 then some (stiff (a / 8).toNat (a % 8).toNat) else if 0 ≤ a ∧ a < 327 then some (if a = 205 then 1 else 0) else none

def exCubeB : View := ⟨[⟨27, 1⟩], 192⟩
def exCubeX : View := ⟨[⟨27, 1⟩], 219⟩
def exCubeW : View := ⟨[⟨3, 27⟩, ⟨27, 1⟩], 246⟩

theorem exCubeIn {c p : Int} (hp : InView ⟨[⟨27, 1⟩], c⟩ [27] p) : c ≤ p ∧ p < c + 27 := by
  obtain ⟨i, hi, rfl⟩ := hp
  obtain ⟨a, rfl, _⟩ := valid_one.mp hi
  simp [address, dot]
  omega

theorem exCubeInW {p : Int} (hp : InView exCubeW [3, 27] p) : 246 ≤ p ∧ p < 327 := by
  obtain ⟨i, hi, rfl⟩ := hp
  obtain ⟨a, b, rfl, _⟩ := valid_two.mp hi
  simp [exCubeW, address, dot]
  omega

theorem exCubeSystem : System exCubeMem [27] exCubeB exCubeX exCubeW (fun i => if i.headD 0 = 13 then 1 else 0) (fun _ => 0) where
  shapeB := .cons rfl .nil
  shapeX := .cons rfl .nil
  shapeW := .cons rfl (.cons rfl .nil)
  distinctX := by
    intro i j hi hj e
    obtain ⟨a, rfl, _⟩ := valid_one.mp hi
    obtain ⟨b, rfl, _⟩ := valid_one.mp hj
    simpa [exCubeX, address, dot] using e
  distinctW := by
    intro i j hi hj e
    obtain ⟨a, b, rfl, h⟩ := valid_two.mp hi
    obtain ⟨c, d, rfl, k⟩ := valid_two.mp hj
    simp [exCubeW, address, dot] at e
    have : a = c := by omega
    have : b = d := by omega
    simp [*]
  bx := by
    intro i j hi hj e
    have h1 := exCubeIn (c := 192) ⟨i, hi, rfl⟩
    have h2 := exCubeIn (c := 219) ⟨j, hj, rfl⟩
    simp only [exCubeB, exCubeX] at e
    omega
  bw := by
    intro i k j hi hj e
    have h1 := exCubeIn (c := 192) ⟨i, hi, rfl⟩
    have h2 := exCubeInW ⟨_, hj, rfl⟩
    simp only [exCubeB] at e
    omega
  xw := by
    intro i k j hi hj e
    have h1 := exCubeIn (c := 219) ⟨i, hi, rfl⟩
    have h2 := exCubeInW ⟨_, hj, rfl⟩
    simp only [exCubeX] at e
    omega
  valueB := by
    intro i hi
    obtain ⟨a, rfl, h⟩ := valid_one.mp hi
    have e : address exCubeB [a] = 192 + a := by simp [exCubeB, address, dot]
    rw [e, exCubeMem, if_neg (by omega), if_pos (by omega)]
    show _ = some (if a = 13 then (1 : Rat) else 0)
    by_cases q : a = 13
    · rw [if_pos (by omega), if_pos q]
    · rw [if_neg (by omega), if_neg q]
  valueX := by
    intro i hi
    obtain ⟨a, rfl, h⟩ := valid_one.mp hi
    have e : address exCubeX [a] = 219 + a := by simp [exCubeX, address, dot]
    rw [e, exCubeMem, if_neg (by omega), if_pos (by omega), if_neg (by omega)]
  hereW := by
    intro i hi
    have h := exCubeInW ⟨i, hi, rfl⟩
    rw [exCubeMem, if_neg (by omega), if_pos (by omega)]
    rfl

theorem exCubeMatrix : MatrixIs (exCube 2 (1 / 2)) stiff exCubeMem := by
  intro a b ha hb
  have e : address (exCube 2 (1 / 2)).M [(a : Int), (b : Int)] = 8 * a + b := by simp [exCube, address, dot]; omega
  rw [e, exCubeMem, if_pos (by omega)]
  have e1 : (8 * (a : Int) + b) / 8 = a := by omega
  have e2 : (8 * (a : Int) + b) % 8 = b := by omega
  rw [e1, e2]
  rfl

theorem exCubeOwn {p : Int} (hp : InView (exCube 2 (1 / 2)).M [8, 8] p ∨ InRegister (exCube 2 (1 / 2)) p) : 0 ≤ p ∧ p < 192 := by
  rcases hp with hp | ⟨e, he, hp | hp⟩
  · have := exCube_matrix hp
    omega
  · have he : e < 2 * 2 * 2 := he
    have := exReg (c := 64 + 16 * e) hp
    omega
  · have he : e < 2 * 2 * 2 := he
    have := exReg (c := 72 + 16 * e) hp
    omega

theorem exCubeFace (p : Int) (h : OnFace 2 p) : (if p = 13 then (1 : Rat) else 0) = 0 := by
  refine if_neg ?_
  rintro rfl
  obtain ⟨i, j, k, hi, hj, hk, hf, e⟩ := h
  simp only [vertex] at e
  push_cast at hi hj hk hf e
  omega

/-- There's one unknown, so there's at most one iteration. -/
example : ∃ k μ' vx', cghs true [0] 2 (mult1 (F := Rat) ⟨fun q => q.num, fun i => i, fun _ => rfl⟩ true [0] false [] (exCube 2 (1 / 2))) exCubeB exCubeX exCubeW 0 exCubeMem = (.ok k, μ') ∧ k ≤ 1 ∧ HasValues μ' [27] exCubeX vx' ∧
    dotOn [27] (fun i => (if i.headD 0 = 13 then 1 else 0) - assembled stiff (1 / 2) 8 (fun e a => exCubeV 2 e a) (OnFace 2) vx' i)
      (fun i => (if i.headD 0 = 13 then 1 else 0) - assembled stiff (1 / 2) 8 (fun e a => exCubeV 2 e a) (OnFace 2) vx' i) ≤ 0 * 0 * dotOn [27] (fun i => if i.headD 0 = 13 then 1 else 0) (fun i => if i.headD 0 = 13 then 1 else 0) :=
  C116_solves1 (F := Rat) ⟨fun q => q.num, fun i => i, fun _ => rfl⟩ true [0] (by simp) false [] (by simp) 2 (exCube 2 (1 / 2)) (exCube_cube 2 _) (exCube_registers 2 _) (by show (0 : Rat) < 1 / 2; norm_num) exCubeB exCubeX exCubeW exCubeMem _ _
    exCubeSystem exCubeMatrix (by
      intro p hp
      have := exCubeOwn (.inr hp)
      rw [exCubeMem]
      split_ifs <;> first | rfl | omega)
    (fun i hi hp => by
      have h1 := exCubeIn (c := 192) ⟨i, hi, rfl⟩
      have h2 := exCubeOwn hp
      simp only [exCubeB] at h2
      omega)
    (fun i hi hp => by
      have h1 := exCubeIn (c := 219) ⟨i, hi, rfl⟩
      have h2 := exCubeOwn hp
      simp only [exCubeX] at h2
      omega)
    (fun i hi hp => by
      have h1 := exCubeInW ⟨i, hi, rfl⟩
      have h2 := exCubeOwn hp
      omega) (fun p _ _ h => exCubeFace p h) 0 1 (by norm_num)

/-- The tables of that cube are set: the elements are at 0 and the boundaries at 64. -/
example : ∃ μ', (do setElements true [0, 0, 0, 0] 2 ⟨[⟨8, 8⟩], 0⟩; setBounds 2 ⟨[⟨54, 1⟩], 64⟩) (fun p => if 0 ≤ p ∧ p < 118 then some 0 else none) = (.ok (), μ') ∧
    ∀ A : Matrix0bnd Rat, Shaped A.M [some 8, some 8] → A.nE = 2 * 2 * 2 → A.nB = 6 * (2 + 1) * (2 + 1) → (∀ e : Nat, e < 2 * 2 * 2 → ∀ a : Nat, a < 8 → μ' (address ⟨[⟨8, 8⟩], 0⟩ [(e : Int)] + a) = some ((A.E e).v a)) →
      (∀ q : Nat, q < 6 * (2 + 1) * (2 + 1) → μ' (address ⟨[⟨54, 1⟩], 64⟩ [(q : Int)]) = some (A.B q)) → Cube 2 A := by
  refine C116_set true [0, 0, 0, 0] (by simp) 2 ⟨[⟨8, 8⟩], 0⟩ (.cons rfl .nil) ?_ ⟨[⟨54, 1⟩], 64⟩ (.cons rfl .nil) ?_ ?_ _ ?_ ?_
  · intro e e' h h' a a' ha ha' q
    simp [address, dot] at q
    omega
  · intro i j hi hj e
    obtain ⟨a, rfl, _⟩ := valid_one.mp hi
    obtain ⟨b, rfl, _⟩ := valid_one.mp hj
    simpa [address, dot] using e
  · intro e he a ha q hq h
    simp [address, dot] at h
    omega
  · intro e he a ha
    simp [address, dot]
    omega
  · intro q hq
    simp [address, dot]
    omega

end Ra.Props
