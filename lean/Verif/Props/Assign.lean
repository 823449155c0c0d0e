import Verif.Spec.Memory
import Verif.Props.Reduce
import Verif.Props.Nested
import Verif.Props.Slice
import Verif.Props.Reshape
/-!
# Assignment: C27, C28
-/

namespace Ra.Props
open Spec

section
variable {V : Type}

theorem act_bind {α β : Type} (x : Act V α) (f : α → Act V β) (μ : Mem V) : (x >>= f) μ = match x μ with
    | (.ok a, μ') => f a μ'
    | (.error e, μ') => (.error e, μ') := rfl

theorem act_pure {α : Type} (a : α) (μ : Mem V) : (pure a : Act V α) μ = (.ok a, μ) := rfl

theorem act_bind_ok {α β : Type} {x : Act V α} {f : α → Act V β} {μ μ' : Mem V} {a : α} (h : x μ = (.ok a, μ')) : (x >>= f) μ = f a μ' := by
  rw [act_bind, h]

theorem reads_iff (μ : Mem V) (e : Act V (Lv V)) (x : V) : Reads μ e x ↔ ∃ r μ', e μ = (.ok r, μ') ∧ r.get μ' = (.ok x, μ) := by
  unfold Reads
  rw [act_bind]
  constructor
  · intro h
    split at h
    · next r μ' he => exact ⟨r, μ', he, h⟩
    · simp at h
  · rintro ⟨r, μ', he, hr⟩
    rw [he]; exact hr

theorem get_mem (r : Lv V) (μ : Mem V) : (r.get μ).2 = μ := by
  cases r with
  | val v => rfl
  | ref p => simp only [Lv.get, Act.read]; split <;> rfl
  | view v => rfl

theorem reads_elim {μ : Mem V} {e : Act V (Lv V)} {x : V} (h : Reads μ e x) : ∃ r, e μ = (.ok r, μ) ∧ r.get μ = (.ok x, μ) := by
  obtain ⟨r, μ', he, hr⟩ := (reads_iff _ _ _).mp h
  have := get_mem r μ'
  rw [hr] at this
  subst this
  exact ⟨r, he, hr⟩

/-! Elements of the assignment. -/

theorem mapM_two {m : Type → Type} {α : Type} [Monad m] [LawfulMonad m] (x y : m α) (f : List α → m α) :
    mapOp f [x, y] = (do let a ← x; let b ← y; f [a, b]) := by
  simp [mapOp]

theorem set_run {μ : Mem V} {d x : Act V (Lv V)} {p : Int} {v : V} (hd : Refers μ d p) (hx : Reads μ x v) (hp : (μ p).isSome) :
    mapOp setOp [d, x] μ = (.ok (.ref p), μ.upd p v) := by
  obtain ⟨r, hr, hv⟩ := reads_elim hx
  obtain ⟨w, hw⟩ := Option.isSome_iff_exists.mp hp
  rw [mapM_two, act_bind_ok hd, act_bind_ok hr, setOp, act_bind_ok hv, act_bind_ok (a := ()) (μ' := μ.upd p v)]
  · rfl
  · simp [Act.write, hw]

theorem upd_run {μ : Mem V} {d x : Act V (Lv V)} {p : Int} {v y : V} (f : V → V → V) (hd : Refers μ d p) (hx : Reads μ x v) (hp : μ p = some y) :
    mapOp (updOp f) [d, x] μ = (.ok (.ref p), μ.upd p (f y v)) := by
  obtain ⟨r, hr, hv⟩ := reads_elim hx
  rw [mapM_two, act_bind_ok hd, act_bind_ok hr, updOp, act_bind_ok hv, act_bind_ok (a := y) (μ' := μ), act_bind_ok (a := ()) (μ' := μ.upd p (f y v))]
  · rfl
  · simp [Act.write, hp]
  · simp [Act.read, hp]

theorem run_forAll {β : Type} (dyn : Bool) (z : List Int) (hz : ∀ i ∈ z, i = 0) (op : List (Act V (Lv V)) → Act V (Lv V))
    (dst x : Iter (Act V) (Lv V)) (sd sx : List Length) (s : List Nat) (hd : HasShape dst sd) (hx : HasShape x sx) (hm : Merge [sd, sx] (s.map some)) :
    (do let _ ← ply (β := β) dyn never z (.node op [dst, x]); pure ()) = forAll (fun j => op [elem dst j, elem x j]) (rowMajor s) := by
  rw [ply_never dyn _ s (shape_two hd hx hm) z hz]
  simp only [elem, elems, bind_assoc, pure_bind]
  exact bind_pure_unit

/-! ## C27 -/

/-- C27. After `dst = x`, where the shape of `x` fits in that of `dst`, `dst` has no repeated elements, and the element of `x` at `j` depends at most on memory
that isn't in `dst` and on the element of `dst` at `j`: each element of `dst` has the value that the element of `x` had, and other memory
is the same as before. -/
theorem C27_assign (dyn : Bool) (z : List Int) (hz : ∀ i ∈ z, i = 0) (dst x : Iter (Act V) (Lv V)) (s : List Nat) (sx : List Length)
    (hd : HasShape dst (s.map some)) (hx : HasShape x sx) (hm : Merge [s.map some, sx] (s.map some)) (μ : Mem V) (A : List Int → Int)
    (f : List Int → V) (hinj : ∀ j k, Valid s j → Valid s k → A j = A k → j = k) (hmem : ∀ j, Valid s j → (μ (A j)).isSome)
    (hA : ∀ j, Valid s j → ∀ μ', SameOutside (fun p => ∃ k, Valid s k ∧ k ≠ j ∧ p = A k) μ μ' → Refers μ' (elem dst j) (A j))
    (hf : ∀ j, Valid s j → ∀ μ', SameOutside (fun p => ∃ k, Valid s k ∧ k ≠ j ∧ p = A k) μ μ' → Reads μ' (elem x j) (f j)) :
    ∃ μ', assign dyn z dst x μ = (.ok (), μ') ∧ (∀ j, Valid s j → μ' (A j) = some (f j)) ∧ SameOutside (fun p => ∃ j, Valid s j ∧ p = A j) μ μ' := by
  unfold assign
  rw [run_forAll dyn z hz _ dst x _ sx s hd hx hm]
  have key : ∀ (l : List (List Int)), l.Nodup → (∀ j ∈ l, Valid s j) → ∀ μ1 : Mem V, (∀ p, (μ1 p).isSome = (μ p).isSome) →
      (∀ j ∈ l, SameOutside (fun p => ∃ k, Valid s k ∧ k ≠ j ∧ p = A k) μ μ1) →
      ∃ μ', forAll (fun j => mapOp setOp [elem dst j, elem x j]) l μ1 = (.ok (), μ') ∧ (∀ j ∈ l, μ' (A j) = some (f j)) ∧
        SameOutside (fun p => ∃ j ∈ l, p = A j) μ1 μ' := by
    intro l
    induction l with
    | nil => intro _ _ μ1 _ _; exact ⟨μ1, rfl, by simp, fun _ _ => rfl⟩
    | cons j l ih =>
      intro hn hv μ1 hs ho
      rw [List.nodup_cons] at hn
      have hj := hv j (by simp)
      have hrun : mapOp setOp [elem dst j, elem x j] μ1 = (.ok (.ref (A j)), μ1.upd (A j) (f j)) :=
        set_run (hA j hj μ1 (ho j (by simp))) (hf j hj μ1 (ho j (by simp))) (by rw [hs]; exact hmem j hj)
      obtain ⟨μ', h1, h2, h3⟩ := ih hn.2 (fun k hk => hv k (by simp [hk])) (μ1.upd (A j) (f j))
        (by
          intro p
          simp only [Mem.upd]
          split
          · next h => subst h; simp [hmem j hj]
          · exact hs p)
        (by
          intro k hk p hp
          have hne : j ≠ k := fun h => hn.1 (h ▸ hk)
          have hpj : p ≠ A j := fun h => hp ⟨j, hj, hne, h⟩
          simp only [Mem.upd, if_neg hpj]
          exact ho k (by simp [hk]) p hp)
      refine ⟨μ', ?_, ?_, ?_⟩
      · simp only [forAll]
        rw [act_bind_ok hrun, h1]
      · intro k hk
        rcases List.mem_cons.mp hk with rfl | hk
        · by_cases h : ∃ i ∈ l, A k = A i
          · obtain ⟨i, hi, he⟩ := h
            exact absurd (hinj k i hj (hv i (by simp [hi])) he ▸ hi) hn.1
          · rw [h3 _ h]; simp [Mem.upd]
        · exact h2 k hk
      · intro p hp
        rw [h3 p (fun ⟨i, hi, he⟩ => hp ⟨i, by simp [hi], he⟩)]
        have : p ≠ A j := fun h => hp ⟨j, by simp, h⟩
        simp [Mem.upd, this]
  obtain ⟨μ', h1, h2, h3⟩ := key (rowMajor s) (nodup_rowMajor s) (fun j hj => mem_rowMajor.mp hj) μ (fun _ => rfl) (fun _ _ _ _ => rfl)
  exact ⟨μ', h1, fun j hj => h2 j (mem_rowMajor.mpr hj), fun p hp => h3 p fun ⟨j, hj, he⟩ => hp ⟨j, mem_rowMajor.mp hj, he⟩⟩

/-- C27. If the shapes don't agree, then the check fails and the memory is as it was. -/
theorem C27_reject (dyn : Bool) (z : List Int) (dst x : Iter (Act V) (Lv V)) (sd sx : List Length) (hd : HasShape dst sd) (hx : HasShape x sx)
    (hm : ¬ ∃ s : List Nat, Merge [sd, sx] (s.map some)) (μ : Mem V) (f : V → V → V) :
    assign dyn z dst x μ = (.error .check, μ) ∧ update f dyn z dst x μ = (.error .check, μ) := by
  have h : HasShapes [dst, x] [sd, sx] := ⟨_, _, rfl, hd, _, _, rfl, hx, rfl⟩
  unfold assign update ply
  obtain ⟨h1, h2, _⟩ := C03_rejects (β := Unit) never (mapOp setOp) _ _ h (by simp) hm z
  obtain ⟨h3, h4, _⟩ := C03_rejects (β := Unit) never (mapOp (updOp f)) _ _ h (by simp) hm z
  rw [h1, h2, h3, h4]
  cases dyn <;> exact ⟨rfl, rfl⟩

/-- C27. As before for expressions of any depth: if a match anywhere in the expression is of shapes that don't agree, or if they don't agree with the
destination, then the check fails and the memory is as it was. -/
theorem C27_reject_tree (dyn : Bool) (z : List Int) (dst x : Iter (Act V) (Lv V)) (hd : dst.WF) (hx : x.WF)
    (hm : ¬ ∃ (sd sx : List Length) (s : List Nat), HasShape dst sd ∧ HasShape x sx ∧ Merge [sd, sx] (s.map some)) (μ : Mem V) (f : V → V → V) :
    assign dyn z dst x μ = (.error .check, μ) ∧ update f dyn z dst x μ = (.error .check, μ) := by
  have key : ∀ op : List (Act V (Lv V)) → Act V (Lv V), plyRavel (β := Unit) never z (.node op [dst, x]) = fault .check ∧
      plyFixed (β := Unit) never (.node op [dst, x]) = fault .check := by
    intro op
    rcases C03_tree (β := Unit) never (.node op [dst, x]) ⟨by simp, hd, hx, trivial⟩ z with ⟨s, ss, ⟨sd, _, rfl, h1, sx, _, rfl, h2, rfl⟩, h3⟩ | h
    · exact absurd ⟨sd, sx, s, h1, h2, h3⟩ hm
    · exact ⟨h.1, h.2.1⟩
  unfold assign update ply
  rw [(key _).1, (key _).2, (key _).1, (key _).2]
  cases dyn <;> exact ⟨rfl, rfl⟩

/-! ## C28 -/

/-- C28. `dst OP= x` applies the operation once for each element of the match of `dst` and `x`, in row-major order. The elements of `dst` that aren't
distinct for different indices (missing axes, or axes from `insert`) get all of the updates. `x` doesn't depend on the memory in `dst`. -/
theorem C28_update (f : V → V → V) (dyn : Bool) (z : List Int) (hz : ∀ i ∈ z, i = 0) (dst x : Iter (Act V) (Lv V)) (sd sx : List Length) (s : List Nat)
    (hd : HasShape dst sd) (hx : HasShape x sx) (hm : Merge [sd, sx] (s.map some)) (μ : Mem V) (A : List Int → Int)
    (v : List Int → V) (hmem : ∀ j, Valid s j → (μ (A j)).isSome)
    (hA : ∀ j, Valid s j → ∀ μ', SameOutside (fun p => ∃ k, Valid s k ∧ p = A k) μ μ' → Refers μ' (elem dst j) (A j))
    (hv : ∀ j, Valid s j → ∀ μ', SameOutside (fun p => ∃ k, Valid s k ∧ p = A k) μ μ' → Reads μ' (elem x j) (v j)) :
    ∃ μ', update f dyn z dst x μ = (.ok (), μ') ∧
      ∀ p, μ' p = (μ p).map fun y => (((rowMajor s).filter fun j => A j = p).map v).foldl f y := by
  unfold update
  rw [run_forAll dyn z hz _ dst x sd sx s hd hx hm]
  have key : ∀ (l : List (List Int)), (∀ j ∈ l, Valid s j) → ∀ μ1 : Mem V, (∀ p, (μ1 p).isSome = (μ p).isSome) →
      SameOutside (fun p => ∃ k, Valid s k ∧ p = A k) μ μ1 →
      ∃ μ', forAll (fun j => mapOp (updOp f) [elem dst j, elem x j]) l μ1 = (.ok (), μ') ∧
        ∀ p, μ' p = (μ1 p).map fun y => ((l.filter fun j => A j = p).map v).foldl f y := by
    intro l
    induction l with
    | nil => intro _ μ1 _ _; exact ⟨μ1, rfl, fun p => by simp⟩
    | cons j l ih =>
      intro hl μ1 hs ho
      have hj := hl j (by simp)
      obtain ⟨y, hy⟩ : ∃ y, μ1 (A j) = some y := Option.isSome_iff_exists.mp (by rw [hs]; exact hmem j hj)
      have hrun : mapOp (updOp f) [elem dst j, elem x j] μ1 = (.ok (.ref (A j)), μ1.upd (A j) (f y (v j))) :=
        upd_run f (hA j hj μ1 ho) (hv j hj μ1 ho) hy
      obtain ⟨μ', h1, h2⟩ := ih (fun k hk => hl k (by simp [hk])) (μ1.upd (A j) (f y (v j)))
        (by
          intro p
          simp only [Mem.upd]
          split
          · next h => subst h; simp [hmem j hj]
          · exact hs p)
        (by
          intro p hp
          have hpj : p ≠ A j := fun h => hp ⟨j, hj, h⟩
          simp only [Mem.upd, if_neg hpj]
          exact ho p hp)
      refine ⟨μ', ?_, ?_⟩
      · simp only [forAll]
        rw [act_bind_ok hrun, h1]
      · intro p
        rw [h2 p]
        by_cases h : A j = p
        · subst h
          simp [Mem.upd, hy]
        · have : p ≠ A j := fun e => h e.symm
          simp [Mem.upd, this, h]
  exact key (rowMajor s) (fun j hj => mem_rowMajor.mp hj) μ (fun _ => rfl) (fun _ _ => rfl)

/-! Values of views, scalars and operations. -/

theorem elem_refs (v : View) (j : List Int) : elem (v.refs : Iter (Act V) (Lv V)) j = pure (.ref (address v j)) := rfl

theorem refs_shape {v : View} {s : List Length} (h : Shaped v s) : HasShape (v.refs : Iter (Act V) (Lv V)) s := h

theorem refers_refs (μ : Mem V) (v : View) (j : List Int) : Refers μ (elem v.refs j) (address v j) := rfl

theorem reads_refs {μ : Mem V} {v : View} {j : List Int} {x : V} (h : μ (address v j) = some x) : Reads μ (elem v.refs j) x := by
  simp only [Reads, elem_refs, pure_bind, Lv.get, Act.read, h]

theorem reads_scalar (μ : Mem V) (x : V) (j : List Int) : Reads μ (elem (.scalar (pure (.val x))) j) x := rfl

theorem reads_reframe {μ : Mem V} {dest : List Nat} {a : Iter (Act V) (Lv V)} {j : List Int} {x : V}
    (h : Reads μ (elem a (dest.map fun d => j.getD d 0)) x) : Reads μ (elem (.reframe dest a) j) x := h

theorem reads_binary {μ : Mem V} {a b : Iter (Act V) (Lv V)} {j : List Int} {x y : V} (f : V → V → V) (ha : Reads μ (elem a j) x)
    (hb : Reads μ (elem b j) y) : Reads μ (elem (binaryOp f a b) j) (f x y) := by
  obtain ⟨r, h1, h2⟩ := reads_elim ha
  obtain ⟨t, h3, h4⟩ := reads_elim hb
  simp only [Reads, elem, elems, binaryOp, valOp]
  rw [mapM_two]
  simp only [bind_assoc, List.mapM_cons, List.mapM_nil, pure_bind]
  rw [act_bind_ok h1, act_bind_ok h3, act_bind_ok h2, act_bind_ok h4]
  rfl

theorem binary_shape {a b : Iter (Act V) (Lv V)} {sa sb s : List Length} (f : V → V → V) (ha : HasShape a sa) (hb : HasShape b sb)
    (hm : Merge [sa, sb] s) : HasShape (binaryOp f a b) s := shape_two ha hb hm

/-- C27 when the destination is a view. -/
theorem C27_view (dyn : Bool) (z : List Int) (hz : ∀ i ∈ z, i = 0) (v : View) (s : List Nat) (hv : Shaped v (s.map some)) (hd : Distinct v s)
    (x : Iter (Act V) (Lv V)) (sx : List Length) (hx : HasShape x sx) (hm : Merge [s.map some, sx] (s.map some)) (μ : Mem V)
    (hmem : ∀ j, Valid s j → (μ (address v j)).isSome) (f : List Int → V)
    (hf : ∀ j, Valid s j → ∀ μ', SameOutside (fun p => InView v s p ∧ p ≠ address v j) μ μ' → Reads μ' (elem x j) (f j)) :
    ∃ μ', assign dyn z v.refs x μ = (.ok (), μ') ∧ (∀ j, Valid s j → μ' (address v j) = some (f j)) ∧ SameOutside (InView v s) μ μ' := by
  refine C27_assign dyn z hz v.refs x s sx (refs_shape hv) hx hm μ (address v) f hd hmem (fun j _ μ' _ => refers_refs μ' v j) ?_
  intro j hj μ' h
  refine hf j hj μ' fun p hp => h p ?_
  rintro ⟨k, hk, hne, rfl⟩
  exact hp ⟨⟨k, hk, rfl⟩, fun e => hne (hd k j hk hj e)⟩

/-! Elements selected by prefix matching. -/

theorem filter_rowMajor {s : List Nat} {P : List Int → Bool} {l : List (List Int)} (hl : l.Pairwise (Before s)) (h : ∀ j, j ∈ l ↔ Valid s j ∧ P j = true) :
    (rowMajor s).filter P = l := by
  have hlt : ∀ {j k}, Before s j k → j ≠ k := by
    rintro j k h rfl
    exact lt_irrefl _ h
  refine List.Perm.eq_of_pairwise (le := Before s) (fun a b _ _ h1 h2 => absurd (lt_trans h1 h2) (lt_irrefl _)) ((pairwise_before s).filter _) hl ?_
  rw [List.perm_ext_iff_of_nodup ((nodup_rowMajor s).filter _) (hl.imp hlt)]
  intro j
  rw [List.mem_filter, mem_rowMajor, h]

theorem length_of_valid {s : List Nat} {j : List Int} (h : Valid s j) : j.length = s.length := by
  induction s generalizing j with
  | nil => cases j <;> simp_all [Valid]
  | cons n s ih => cases j with
    | nil => simp [Valid] at h
    | cons i j => simp [ih h.2.2]

/-- The indices that have `i` before and `j` after. -/
theorem filter_middle {p r q : List Nat} {i j : List Int} (hi : Valid p i) (hj : Valid q j) :
    (rowMajor (p ++ r ++ q)).filter (fun k => k.take p.length = i ∧ k.drop (p.length + r.length) = j) = (rowMajor r).map fun k => i ++ k ++ j := by
  have hli := length_of_valid hi
  refine filter_rowMajor ?_ ?_
  · rw [List.pairwise_map]
    refine (pairwise_before r).imp_of_mem ?_
    intro a b ha hb hab
    have hla := length_of_valid (mem_rowMajor.mp ha)
    have hlb := length_of_valid (mem_rowMajor.mp hb)
    simp only [Before] at hab ⊢
    rw [position_append (p := p ++ r) (i := i ++ a) (by simp [hli, hla]), position_append (p := p ++ r) (i := i ++ b) (by simp [hli, hlb]),
      position_append hli, position_append hli]
    have hq : (0 : Int) < size q := by
      have := position_bounds hj
      omega
    have := mul_lt_mul_of_pos_right hab hq
    linarith [this, add_mul (position p i * (size r : Int)) (position r a) (size q), add_mul (position p i * (size r : Int)) (position r b) (size q)]
  · intro k
    simp only [List.mem_map, mem_rowMajor, decide_eq_true_eq]
    constructor
    · rintro ⟨a, ha, rfl⟩
      have hla := length_of_valid ha
      refine ⟨valid_append (valid_append hi ha) hj, ?_, ?_⟩
      · rw [← hli, List.append_assoc]; simp
      · rw [← hli, ← hla, ← List.length_append]; simp
    · rintro ⟨hk, h1, h2⟩
      obtain ⟨a, c, rfl, ha, hc⟩ := valid_split hk
      obtain ⟨a, b, rfl, ha, hb⟩ := valid_split ha
      have hla := length_of_valid ha
      have hlb := length_of_valid hb
      rw [← hla, List.append_assoc] at h1
      rw [← hla, ← hlb, ← List.length_append] at h2
      simp only [List.take_left, List.drop_left] at h1 h2
      subst h1 h2
      exact ⟨b, hb, rfl⟩

theorem address_take {v : View} {s : List Length} (hv : Shaped v s) (j : List Int) : address v j = address v (j.take s.length) := by
  have hl : v.dims.length = s.length := hv.length_eq
  simp only [address, dot]
  rw [← hl]
  congr 2
  generalize v.dims = d
  clear hl hv
  induction d generalizing j with
  | nil => simp
  | cons a d ih => cases j with
    | nil => simp
    | cons i j => simpa using ih j

theorem elem_append {dst : Iter (Act V) (Lv V)} {s : List Nat} (hd : HasShape dst (s.map some)) {i : List Int} (hi : Valid s i) (k : List Int) :
    elem dst (i ++ k) = elem dst i := by
  rw [← elem_take dst _ hd (i ++ k)]
  congr 1
  simp [← length_of_valid hi]

/-- C28. If `x` has more axes than `dst`, then each element of `dst` is updated with all the elements of `x` that have its index as prefix, in row-major order. Other
memory doesn't change. -/
theorem C28_prefix (f : V → V → V) (dyn : Bool) (z : List Int) (hz : ∀ i ∈ z, i = 0) (dst : Iter (Act V) (Lv V)) (s r : List Nat) (A : List Int → Int)
    (μ : Mem V) (hd : Places μ dst s A) (x : Iter (Act V) (Lv V)) (sx : List Length) (hx : HasShape x sx) (hm : Merge [s.map some, sx] ((s ++ r).map some))
    (old : List Int → V) (hold : ∀ i, Valid s i → μ (A i) = some (old i)) (val : List Int → V)
    (hval : ∀ j, Valid (s ++ r) j → ∀ μ', SameOutside (fun p => ∃ k, Valid s k ∧ p = A k) μ μ' → Reads μ' (elem x j) (val j)) :
    ∃ μ', update f dyn z dst x μ = (.ok (), μ') ∧ SameOutside (fun p => ∃ k, Valid s k ∧ p = A k) μ μ' ∧
      ∀ i, Valid s i → μ' (A i) = some (((rowMajor r).map fun k => val (i ++ k)).foldl f (old i)) := by
  obtain ⟨hds, hinj, hA⟩ := hd
  have htake : ∀ j, Valid (s ++ r) j → ∃ i k, j = i ++ k ∧ j.take s.length = i ∧ Valid s i := by
    intro j hj
    obtain ⟨a, b, rfl, ha, _⟩ := valid_split hj
    refine ⟨a, b, rfl, ?_, ha⟩
    rw [← length_of_valid ha]; simp
  obtain ⟨μ', h1, h2⟩ := C28_update f dyn z hz dst x _ sx (s ++ r) hds hx hm μ (fun j => A (j.take s.length)) val
    (by
      intro j hj
      obtain ⟨i, k, rfl, e, hi⟩ := htake j hj
      rw [e, hold _ hi]; rfl)
    (by
      intro j hj μ' h
      obtain ⟨i, k, rfl, e, hi⟩ := htake j hj
      rw [e, elem_append hds hi]
      refine hA i hi μ' fun p hp => h p ?_
      rintro ⟨k', hk', rfl⟩
      obtain ⟨i', k', rfl, e', hi'⟩ := htake k' hk'
      exact hp ⟨i', hi', by rw [e']⟩)
    (by
      intro j hj μ' h
      refine hval j hj μ' fun p hp => h p ?_
      rintro ⟨k, hk, rfl⟩
      obtain ⟨i, k, rfl, e, hi⟩ := htake k hk
      exact hp ⟨_, hi, by rw [e]⟩)
  refine ⟨μ', h1, ?_, ?_⟩
  · intro p hp
    rw [h2 p]
    have : (rowMajor (s ++ r)).filter (fun j => A (j.take s.length) = p) = [] := by
      rw [List.filter_eq_nil_iff]
      intro j hj
      simp only [decide_eq_true_eq]
      rintro rfl
      obtain ⟨i, k, rfl, e, hi⟩ := htake j (mem_rowMajor.mp hj)
      exact hp ⟨_, hi, by rw [e]⟩
    rw [this]
    simp
  · intro i hi
    rw [h2, hold i hi]
    simp only [Option.map_some, Option.some.injEq]
    have hfm := filter_middle (p := s) (r := r) (q := []) (i := i) (j := []) hi trivial
    simp only [List.append_nil] at hfm
    rw [show (fun k => val (i ++ k)) = val ∘ fun k => i ++ k from rfl, ← List.map_map, ← hfm]
    congr 2
    refine List.filter_congr fun j hj => ?_
    have hj' := mem_rowMajor.mp hj
    have hlj := length_of_valid hj'
    rw [List.length_append] at hlj
    simp only [decide_eq_decide]
    rw [List.drop_eq_nil_of_le (by omega)]
    simp only [and_true]
    obtain ⟨i', k', rfl, e', hi'⟩ := htake j hj'
    rw [e']
    exact ⟨fun h => hinj _ _ hi' hi h, fun h => by rw [h]⟩

theorem places_refs {v : View} {s : List Nat} (hv : Shaped v (s.map some)) (hd : Distinct v s) (μ : Mem V) : Places μ v.refs s (address v) :=
  ⟨refs_shape hv, hd, fun j _ μ' _ => refers_refs μ' v j⟩

/-- C28. If the view `v` is extended with `insert`, then each element of `v` is updated with all the elements of `x` that match it on the other axes, in row-major order. Other
memory doesn't change. -/
theorem C28_insert (f : V → V → V) (dyn : Bool) (z : List Int) (hz : ∀ i ∈ z, i = 0) (v : View) (p r q : List Nat) (hv : Shaped v ((p ++ q).map some))
    (hd : Distinct v (p ++ q)) (d : View) (hfrom : v.from [.dots (some p.length), .insert r.length] = .ok d) (x : Iter (Act V) (Lv V)) (sx : List Length)
    (hx : HasShape x sx) (hm : Merge [p.map some ++ List.replicate r.length none ++ q.map some, sx] ((p ++ r ++ q).map some)) (μ : Mem V)
    (old : List Int → V) (hold : ∀ i, Valid (p ++ q) i → μ (address v i) = some (old i)) (val : List Int → V)
    (hval : ∀ j, Valid (p ++ r ++ q) j → ∀ μ', SameOutside (InView v (p ++ q)) μ μ' → Reads μ' (elem x j) (val j)) :
    ∃ μ', update f dyn z d.refs x μ = (.ok (), μ') ∧ SameOutside (InView v (p ++ q)) μ μ' ∧
      ∀ i j, Valid p i → Valid q j →
        μ' (address v (i ++ j)) = some (((rowMajor r).map fun k => val (i ++ k ++ j)).foldl f (old (i ++ j))) := by
  obtain ⟨b, hb1, hb2, hb3⟩ := C13_insert v _ hv p.length r.length (by simp)
  rw [hfrom] at hb1
  simp only [Except.ok.injEq] at hb1
  subst hb1
  have hb2' : Shaped d (p.map some ++ List.replicate r.length none ++ q.map some) := by
    have h1 : ((p ++ q).map (some : Nat → Length)).take p.length = p.map some := by
      rw [List.map_append, List.take_left' (by simp)]
    have h2 : ((p ++ q).map (some : Nat → Length)).drop p.length = q.map some := by
      rw [List.map_append, List.drop_left' (by simp)]
    rwa [h1, h2] at hb2
  have hadd : ∀ i k j, Valid p i → Valid r k → Valid q j → address d (i ++ k ++ j) = address v (i ++ j) := fun i k j hi hk hj =>
    hb3 i k j (length_of_valid hi) (length_of_valid hk) (valid_append hi hj).inRange
  have hsplit : ∀ j, Valid (p ++ r ++ q) j → ∃ a b c, j = a ++ b ++ c ∧ Valid p a ∧ Valid r b ∧ Valid q c := by
    intro j hj
    obtain ⟨a, c, rfl, ha, hc⟩ := valid_split hj
    obtain ⟨a, b, rfl, ha, hb⟩ := valid_split ha
    exact ⟨a, b, c, rfl, ha, hb, hc⟩
  obtain ⟨μ', h1, h2⟩ := C28_update f dyn z hz d.refs x _ sx (p ++ r ++ q) (refs_shape hb2') hx hm μ (address d) val
    (by
      intro j hj
      obtain ⟨a, b, c, rfl, ha, hb, hc⟩ := hsplit j hj
      rw [hadd a b c ha hb hc, hold _ (valid_append ha hc)]; rfl)
    (fun j _ μ' _ => refers_refs μ' d j)
    (by
      intro j hj μ' h
      refine hval j hj μ' fun o ho => h o ?_
      rintro ⟨k, hk, rfl⟩
      obtain ⟨a, b, c, rfl, ha, hb, hc⟩ := hsplit k hk
      exact ho ⟨_, valid_append ha hc, hadd a b c ha hb hc⟩)
  refine ⟨μ', h1, ?_, ?_⟩
  · intro o ho
    rw [h2 o]
    have : (rowMajor (p ++ r ++ q)).filter (fun j => address d j = o) = [] := by
      rw [List.filter_eq_nil_iff]
      intro j hj
      simp only [decide_eq_true_eq]
      rintro rfl
      obtain ⟨a, b, c, rfl, ha, hb, hc⟩ := hsplit j (mem_rowMajor.mp hj)
      exact ho ⟨_, valid_append ha hc, hadd a b c ha hb hc⟩
    rw [this]
    simp
  · intro i j hi hj
    rw [h2, hold _ (valid_append hi hj)]
    simp only [Option.map_some, Option.some.injEq]
    rw [show (fun k => val (i ++ k ++ j)) = val ∘ fun k => i ++ k ++ j from rfl, ← List.map_map, ← filter_middle (r := r) hi hj]
    congr 2
    refine List.filter_congr fun o ho => ?_
    obtain ⟨a, b, c, rfl, ha, hb, hc⟩ := hsplit o (mem_rowMajor.mp ho)
    simp only [decide_eq_decide]
    rw [hadd a b c ha hb hc, ← length_of_valid ha, ← length_of_valid hb, ← List.length_append, List.drop_left, List.append_assoc, List.take_left]
    constructor
    · intro h
      have := hd _ _ (valid_append ha hc) (valid_append hi hj) h
      exact List.append_inj this (by rw [length_of_valid ha, length_of_valid hi])
    · rintro ⟨rfl, rfl⟩; rfl

end

/-! The hypotheses hold for these views, in memory that has `p` at `p`: `sqV` is 2 x 2 by columns at 0, `pairV` has two elements at 4. -/
def egMem : Mem Int := fun p => if 0 ≤ p ∧ p < 10 then some p else none
def sqV : View := ⟨[⟨2, 1⟩, ⟨2, 2⟩], 0⟩
def pairV : View := ⟨[⟨2, 1⟩], 4⟩

theorem sq_valid {i : List Int} (h : Valid [2, 2] i) : ∃ a b, i = [a, b] ∧ 0 ≤ a ∧ a < 2 ∧ 0 ≤ b ∧ b < 2 := by
  match i, h with
  | [a, b], ⟨h1, h2, h3, h4, _⟩ => exact ⟨a, b, rfl, h1, h2, h3, h4⟩

theorem pair_valid {i : List Int} (h : Valid [2] i) : ∃ a, i = [a] ∧ 0 ≤ a ∧ a < 2 := by
  match i, h with
  | [a], ⟨h1, h2, _⟩ => exact ⟨a, rfl, h1, h2⟩

theorem sqV_distinct : Distinct sqV [2, 2] := by
  intro j k hj hk h
  obtain ⟨a, b, rfl, _, _, _, _⟩ := sq_valid hj
  obtain ⟨c, d, rfl, _, _, _, _⟩ := sq_valid hk
  simp [address, dot, sqV] at h
  simp
  omega

theorem pairV_distinct : Distinct pairV [2] := by
  intro j k hj hk h
  obtain ⟨a, rfl, _, _⟩ := pair_valid hj
  obtain ⟨c, rfl, _, _⟩ := pair_valid hk
  simp [address, dot, pairV] at h
  simp
  omega

theorem merge_pair_sq : Merge [[some 2, some 2], [some 2]] [some 2, some 2] := by
  refine ⟨by simp, by simp, ?_⟩
  intro k n
  rcases k with _ | _ | k <;> simp

theorem merge_sq_pair : Merge [[some 2], [some 2, some 2]] [some 2, some 2] := by
  refine ⟨by simp, by simp, ?_⟩
  intro k n
  rcases k with _ | _ | k <;> simp

/-- `sq = pair`, so each row gets an element of `pair`. -/
example : ∃ μ', assign true [] sqV.refs pairV.refs egMem = (.ok (), μ') ∧ μ' 0 = some 4 ∧ μ' 1 = some 5 ∧ μ' 2 = some 4 ∧ μ' 3 = some 5 ∧ μ' 4 = some 4 := by
  obtain ⟨μ', h1, h2, h3⟩ := C27_view true [] (by simp) sqV [2, 2] (.cons rfl (.cons rfl .nil)) sqV_distinct pairV.refs [some 2]
    (refs_shape (v := pairV) (.cons rfl .nil)) merge_pair_sq egMem
    (by intro j hj; obtain ⟨a, b, rfl, _, _, _, _⟩ := sq_valid hj; simp [egMem, address, dot, sqV]; omega)
    (address pairV)
    (by
      intro j hj μ' hμ
      obtain ⟨a, b, rfl, _, _, _, _⟩ := sq_valid hj
      refine reads_refs ?_
      rw [hμ]
      · simp [egMem, address, dot, pairV]; omega
      · rintro ⟨⟨k, hk, h⟩, _⟩
        obtain ⟨c, d, rfl, _, _, _, _⟩ := sq_valid hk
        simp [address, dot, sqV, pairV] at h
        omega)
  refine ⟨μ', h1, h2 [0, 0] (by simp [Valid]), h2 [1, 0] (by simp [Valid]), h2 [0, 1] (by simp [Valid]), h2 [1, 1] (by simp [Valid]), ?_⟩
  rw [h3]
  · rfl
  · rintro ⟨k, hk, h⟩
    obtain ⟨c, d, rfl, _, _, _, _⟩ := sq_valid hk
    simp [address, dot, sqV] at h
    omega

/-- `sq = x` where `x` has three rows. -/
example : assign true [] sqV.refs (View.refs ⟨[⟨3, 1⟩], 4⟩) egMem = (.error .check, egMem) :=
  (C27_reject true [] sqV.refs _ [some 2, some 2] [some 3] (refs_shape (v := sqV) (.cons rfl (.cons rfl .nil)))
    (refs_shape (v := ⟨[⟨3, 1⟩], 4⟩) (.cons rfl .nil)) (by
      rintro ⟨s, hs⟩
      have e1 := (hs.2.2 0 2).mpr ⟨[some 2, some 2], by simp, rfl⟩
      have e2 := (hs.2.2 0 3).mpr ⟨[some 3], by simp, rfl⟩
      simp_all) egMem (· + ·)).1

/-- `pair += sq` adds the rows of `sq`. -/
example : ∃ μ', update (· + ·) true [] pairV.refs sqV.refs egMem = (.ok (), μ') ∧ μ' 4 = some (4 + 0 + 2) ∧ μ' 5 = some (5 + 1 + 3) := by
  obtain ⟨μ', h1, h2, h3⟩ := C28_prefix (· + ·) true [] (by simp) pairV.refs [2] [2] (address pairV) egMem
    (places_refs (v := pairV) (s := [2]) (.cons rfl .nil) pairV_distinct _) sqV.refs [some 2, some 2] (refs_shape (v := sqV) (.cons rfl (.cons rfl .nil))) merge_sq_pair
    (address pairV) (by intro j hj; obtain ⟨a, rfl, _, _⟩ := pair_valid hj; simp [egMem, address, dot, pairV]; omega) (address sqV)
    (by
      intro j hj μ' hμ
      obtain ⟨a, b, rfl, _, _, _, _⟩ := sq_valid hj
      refine reads_refs ?_
      rw [hμ]
      · simp [egMem, address, dot, sqV]; omega
      · rintro ⟨k, hk, h⟩
        obtain ⟨c, rfl, _, _⟩ := pair_valid hk
        simp [address, dot, sqV, pairV] at h
        omega)
  exact ⟨μ', h1, h3 [0] (by simp [Valid]), h3 [1] (by simp [Valid])⟩

/-- The hypothesis of `C27_view` about `x` is needed: with `a = reverse(a)` some elements are overwritten before they are read. -/
example : (assign true [] pairV.refs (View.refs ⟨[⟨2, -1⟩], 5⟩) egMem).2 4 = some 5 ∧ (assign true [] pairV.refs (View.refs ⟨[⟨2, -1⟩], 5⟩) egMem).2 5 = some 5 := by
  unfold assign
  rw [run_forAll (β := Unit) true [] (by simp) _ pairV.refs _ [some 2] [some 2] [2] (refs_shape (v := pairV) (.cons rfl .nil))
    (refs_shape (v := ⟨[⟨2, -1⟩], 5⟩) (.cons rfl .nil)) (merge_same [some 2])]
  exact ⟨rfl, rfl⟩

end Ra.Props
