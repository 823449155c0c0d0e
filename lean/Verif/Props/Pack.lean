import Verif.Model.Pack
import Verif.Props.Complex
import Verif.Props.AtArray
import Verif.Props.GemmLoops
import Verif.Props.Frame
import Mathlib.Tactic.Ring
/-!
# Arrays of tuples: C115
-/

namespace Ra.Spec

section
variable {V : Type}

/-- `e` gives the number `x`, or a reference to it. -/
def GivesNumber (μ : Mem V) (e : Act V (PackEl V)) (x : V) : Prop := ∃ y, e μ = (.ok (.lv y), μ) ∧ y.get μ = (.ok x, μ)

/-- `e` gives the tuple `l`, or a tuple of references to its parts, as long as the memory is the same as `μ` outside of `X`. -/
def GivesTuple (X : Int → Prop) (μ : Mem V) (e : Act V (PackEl V)) (l : List V) : Prop :=
  (∀ μ', SameOutside X μ μ' → e μ' = (.ok (.tup l), μ')) ∨ ∃ ps : List Int, ∀ μ', SameOutside X μ μ' → e μ' = (.ok (.refs ps), μ') ∧ ps.map μ' = l.map some

/-- The tuple at `p` has these parts. -/
def TupleAt (μ : Mem V) (p : Int) (l : List V) : Prop := ∀ (m : Nat) (h : m < l.length), μ (l.length * p + m) = some l[m]

/-- The places of the tuples, with `k` parts each, in a view. -/
def InTuples (k : Nat) (v : View) (s : List Nat) (p : Int) : Prop := ∃ j, Valid s j ∧ ∃ m : Nat, m < k ∧ p = k * address v j + m

/-- No two elements of these views, all of shape `s`, are in the same place. -/
def AllApart (vs : List View) (s : List Nat) : Prop :=
  ∀ (m m' : Nat) (h : m < vs.length) (h' : m' < vs.length) (j j' : List Int), Valid s j → Valid s j' → address vs[m] j = address vs[m'] j' → m = m' ∧ j = j'

/-- The places of all of the elements of these views. -/
def InViews (vs : List View) (s : List Nat) (p : Int) : Prop := ∃ v ∈ vs, InView v s p

/-- Memory `μ'` has the complex numbers `f 0`, `f 1`, ... at `p`, `p+1`, ..., and is the same as `μ` in any other place. -/
def CxFilled (n : Nat) (p : Int) (f : Nat → Cx V) (μ μ' : Mem V) : Prop := (∀ i : Nat, i < n → HoldsCx μ' (p + i) (f i)) ∧ SameOutside (fun q => 2 * p ≤ q ∧ q < 2 * p + 2 * n) μ μ'

end
end Ra.Spec

namespace Ra.Props
open Spec

section
variable {V : Type}

theorem writeParts_run (ps : List Int) (vs : List V) (hl : ps.length = vs.length) (nd : ps.Nodup) (μ : Mem V) (hs : ∀ p ∈ ps, (μ p).isSome) :
    ∃ μ', writeParts ps vs μ = (.ok (), μ') ∧ ps.map μ' = vs.map some ∧ SameOutside (· ∈ ps) μ μ' := by
  induction ps generalizing vs μ with
  | nil =>
    cases vs with
    | nil => exact ⟨μ, rfl, rfl, fun _ _ => rfl⟩
    | cons _ _ => simp at hl
  | cons p ps ih =>
    cases vs with
    | nil => simp at hl
    | cons v vs =>
      rw [List.nodup_cons] at nd
      have hw : Act.write p v μ = (.ok (), μ.upd p v) := by
        obtain ⟨x, hx⟩ := Option.isSome_iff_exists.mp (hs p (by simp))
        simp [Act.write, hx]
      obtain ⟨μ', h1, h2, h3⟩ := ih vs (by simpa using hl) nd.2 (μ.upd p v) (fun q hq => by
        rw [Mem.upd]; split
        · rfl
        · exact hs q (by simp [hq]))
      refine ⟨μ', ?_, ?_, ?_⟩
      · rw [writeParts, act_bind_ok hw, h1]
      · rw [List.map_cons, List.map_cons, h2, h3 p nd.1]
        simp [Mem.upd]
      · intro q hq
        simp only [List.mem_cons, not_or] at hq
        rw [h3 q hq.2, Mem.upd, if_neg hq.1]

theorem copyParts_run (ps qs : List Int) (vs : List V) (hl : ps.length = vs.length) (nd : ps.Nodup) (X : Int → Prop) (hX : ∀ p ∈ ps, X p) (μ : Mem V) (hq : ∀ μ', SameOutside X μ μ' → qs.map μ' = vs.map some)
    (μ1 : Mem V) (ho : SameOutside X μ μ1) (hs : ∀ p ∈ ps, (μ1 p).isSome) :
    ∃ μ', copyParts ps qs μ1 = (.ok (), μ') ∧ ps.map μ' = vs.map some ∧ SameOutside (· ∈ ps) μ1 μ' := by
  induction ps generalizing vs qs μ1 with
  | nil =>
    cases vs with
    | nil =>
      have := hq μ1 ho
      simp only [List.map_nil, List.map_eq_nil_iff] at this
      subst this
      exact ⟨μ1, rfl, rfl, fun _ _ => rfl⟩
    | cons _ _ => simp at hl
  | cons p ps ih =>
    cases vs with
    | nil => simp at hl
    | cons v vs =>
      rw [List.nodup_cons] at nd
      cases qs with
      | nil => have := hq μ1 ho; simp at this
      | cons q qs =>
        have hq1 := hq μ1 ho
        simp only [List.map_cons, List.cons.injEq] at hq1
        have hr : Act.read q μ1 = (.ok v, μ1) := by simp [Act.read, hq1.1]
        have hw : Act.write p v μ1 = (.ok (), μ1.upd p v) := by
          obtain ⟨x, hx⟩ := Option.isSome_iff_exists.mp (hs p (by simp))
          simp [Act.write, hx]
        obtain ⟨μ', h1, h2, h3⟩ := ih qs vs (by simpa using hl) nd.2 (fun p hp => hX p (by simp [hp])) (fun μ' h => by have := hq μ' h; simp at this; exact this.2) (μ1.upd p v)
          (fun r hr => by rw [Mem.upd, if_neg (by rintro rfl; exact hr (hX _ (by simp))), ho r hr]) (fun q hq => by
          rw [Mem.upd]; split
          · rfl
          · exact hs q (by simp [hq]))
        refine ⟨μ', ?_, ?_, ?_⟩
        · rw [copyParts, act_bind_ok hr, act_bind_ok hw, h1]
        · rw [List.map_cons, List.map_cons, h2, h3 p nd.1]
          simp [Mem.upd]
        · intro q hq
          simp only [List.mem_cons, not_or] at hq
          rw [h3 q hq.2, Mem.upd, if_neg hq.1]

/-- The assignment of one tuple. -/
theorem setTuple_run (ps : List Int) (l : List V) (hl : ps.length = l.length) (nd : ps.Nodup) (X : Int → Prop) (hX : ∀ p ∈ ps, X p) (μ : Mem V) (d e : Act V (PackEl V)) (hd : ∀ μ', d μ' = (.ok (.refs ps), μ')) (he : GivesTuple X μ e l)
    (μ1 : Mem V) (ho : SameOutside X μ μ1) (hs : ∀ p ∈ ps, (μ1 p).isSome) :
    ∃ μ', mapOp setTuple [d, e] μ1 = (.ok (.refs ps), μ') ∧ ps.map μ' = l.map some ∧ SameOutside (· ∈ ps) μ1 μ' := by
  rw [mapM_two, act_bind_ok (hd μ1)]
  rcases he with he | ⟨qs, he⟩
  · obtain ⟨μ', h1, h2, h3⟩ := writeParts_run ps l hl nd μ1 hs
    refine ⟨μ', ?_, h2, h3⟩
    rw [act_bind_ok (he μ1 ho)]
    simp only [setTuple]
    rw [act_bind_ok h1]
    rfl
  · obtain ⟨μ', h1, h2, h3⟩ := copyParts_run ps qs l hl nd X hX μ (fun μ' h => (he μ' h).2) μ1 ho hs
    refine ⟨μ', ?_, h2, h3⟩
    rw [act_bind_ok (he μ1 ho).1]
    simp only [setTuple]
    rw [act_bind_ok h1]
    rfl

/-- The assignments of a traversal. -/
theorem tuples_run (s : List Nat) (d e : List Int → Act V (PackEl V)) (P : List Int → List Int) (F : List Int → List V) (μ : Mem V) (hd : ∀ j, Valid s j → ∀ μ', d j μ' = (.ok (.refs (P j)), μ'))
    (he : ∀ j, Valid s j → GivesTuple (fun p => ∃ j, Valid s j ∧ p ∈ P j) μ (e j) (F j)) (hl : ∀ j, Valid s j → (P j).length = (F j).length) (nd : ∀ j, Valid s j → (P j).Nodup)
    (ap : ∀ j j', Valid s j → Valid s j' → ∀ p, p ∈ P j → p ∈ P j' → j = j') (l : List (List Int)) (ln : l.Nodup) (lv : ∀ j ∈ l, Valid s j) (μ1 : Mem V)
    (ho : SameOutside (fun p => ∃ j, Valid s j ∧ p ∈ P j) μ μ1) (hs : ∀ j, Valid s j → ∀ p ∈ P j, (μ1 p).isSome) :
    ∃ μ', forAll (fun j => mapOp setTuple [d j, e j]) l μ1 = (.ok (), μ') ∧ (∀ j ∈ l, (P j).map μ' = (F j).map some) ∧ SameOutside (fun p => ∃ j ∈ l, p ∈ P j) μ1 μ' := by
  induction l generalizing μ1 with
  | nil => exact ⟨μ1, rfl, by simp, fun _ _ => rfl⟩
  | cons j l ih =>
    rw [List.nodup_cons] at ln
    have hj := lv j (by simp)
    obtain ⟨μ2, r1, r2, r3⟩ := setTuple_run (P j) (F j) (hl j hj) (nd j hj) _ (fun p hp => ⟨j, hj, hp⟩) μ (d j) (e j) (hd j hj) (he j hj) μ1 ho (hs j hj)
    obtain ⟨μ3, s1, s2, s3⟩ := ih ln.2 (fun k hk => lv k (by simp [hk])) μ2 (outside_trans ho r3 (fun _ h => h) fun p hp => ⟨j, hj, hp⟩) (fun k hk p hp => by
      by_cases h : p ∈ P j
      · obtain ⟨m, hm, rfl⟩ := List.getElem_of_mem h
        have h1 : ((P j).map μ2)[m]? = ((F j).map some)[m]? := by rw [r2]
        have hm' : m < (F j).length := hl j hj ▸ hm
        simp only [List.getElem?_map, List.getElem?_eq_getElem hm, List.getElem?_eq_getElem hm', Option.map_some, Option.some.injEq] at h1
        rw [h1]; rfl
      · rw [r3 p h]
        exact hs k hk p hp)
    refine ⟨μ3, ?_, ?_, ?_⟩
    · rw [forAll, act_bind_ok r1]
      exact s1
    · intro k hk
      rw [List.mem_cons] at hk
      rcases hk with rfl | hk
      · rw [← r2]
        refine List.map_congr_left fun p hp => s3 p ?_
        rintro ⟨k', hk', hp'⟩
        have := ap k k' hj (lv k' (by simp [hk'])) p hp hp'
        subst this
        exact ln.1 hk'
      · exact s2 k hk
    · intro p hp
      rw [s3 p fun ⟨k, hk, h⟩ => hp ⟨k, by simp [hk], h⟩, r3 p fun h => hp ⟨j, by simp, h⟩]

/-- The assignment of an array of tuples. -/
theorem assignTuples_run (dyn : Bool) (z : List Int) (hz : ∀ i ∈ z, i = 0) (y x : Iter (Act V) (PackEl V)) (s : List Nat) (sx : List Length) (hy : HasShape y (s.map some)) (hx : HasShape x sx) (hm : Merge [s.map some, sx] (s.map some))
    (P : List Int → List Int) (F : List Int → List V) (μ : Mem V) (hd : ∀ j, Valid s j → ∀ μ', elem y j μ' = (.ok (.refs (P j)), μ'))
    (he : ∀ j, Valid s j → GivesTuple (fun p => ∃ j, Valid s j ∧ p ∈ P j) μ (elem x j) (F j)) (hl : ∀ j, Valid s j → (P j).length = (F j).length) (nd : ∀ j, Valid s j → (P j).Nodup)
    (ap : ∀ j j', Valid s j → Valid s j' → ∀ p, p ∈ P j → p ∈ P j' → j = j') (hs : ∀ j, Valid s j → ∀ p ∈ P j, (μ p).isSome) :
    ∃ μ', assignTuples dyn z y x μ = (.ok (), μ') ∧ (∀ j, Valid s j → (P j).map μ' = (F j).map some) ∧ SameOutside (fun p => ∃ j, Valid s j ∧ p ∈ P j) μ μ' := by
  obtain ⟨μ', h1, h2, h3⟩ := tuples_run s (elem y) (elem x) P F μ hd he hl nd ap (rowMajor s) (nodup_rowMajor s) (fun j hj => Spec.mem_rowMajor.mp hj) μ (fun _ _ => rfl) hs
  refine ⟨μ', ?_, fun j hj => h2 j (Spec.mem_rowMajor.mpr hj), fun p hp => h3 p fun ⟨j, hj, h⟩ => hp ⟨j, Spec.mem_rowMajor.mp hj, h⟩⟩
  have hsh : HasShape (.node (mapOp setTuple) [y, x]) (s.map some) := shape_two hy hx hm
  unfold assignTuples
  rw [ply_never dyn _ s hsh z hz]
  simp only [elem, elems, bind_assoc, pure_bind]
  rw [bind_pure_unit]
  exact h1

theorem get_all {μ : Mem V} {es : List (Act V (PackEl V))} {l : List V} (h : List.Forall₂ (GivesNumber μ) es l) : mapOp packOp es μ = (.ok (.tup l), μ) := by
  have key : ∃ ys, es.mapM id μ = (.ok ys, μ) ∧ ys.mapM PackEl.get μ = (.ok l, μ) := by
    induction h with
    | nil => exact ⟨[], rfl, rfl⟩
    | cons h _ ih =>
      obtain ⟨y, h1, h2⟩ := h
      obtain ⟨ys, h3, h4⟩ := ih
      refine ⟨.lv y :: ys, ?_, ?_⟩
      · rw [List.mapM_cons, id, act_bind_ok h1, act_bind_ok h3]; rfl
      · rw [List.mapM_cons, PackEl.get, act_bind_ok h2, act_bind_ok h4]; rfl
  obtain ⟨ys, h1, h2⟩ := key
  rw [mapOp, act_bind_ok h1, packOp, act_bind_ok h2]
  rfl

/-- C115. `pack<T>(e ...)` has the shape of `e ...`, matched. Its element at `j` is made with the elements of each of `e ...` at `j`, in the same order. -/
theorem C115_elem (es : List (Iter (Act V) (PackEl V))) (ss : List (List Length)) (s : List Length) (hs : HasShapes es ss) (hm : Merge ss s) :
    HasShape (pack es) s ∧ ∀ j μ l, List.Forall₂ (fun e x => GivesNumber μ (elem e j) x) es l → elem (pack es) j μ = (.ok (.tup l), μ) := by
  refine ⟨⟨ss, hs, hm⟩, fun j μ l h => ?_⟩
  show mapOp packOp (elems es j) μ = _
  rw [elems_eq_map]
  exact get_all (by rw [List.forall₂_map_left_iff]; exact h)

theorem tuples_elem (k : Nat) (v : View) (j : List Int) (μ : Mem V) : elem (v.tuples k) j μ = (.ok (.refs ((List.range k).map fun (m : Nat) => k * address v j + m)), μ) := rfl

theorem tupleAt_iff {k : Nat} {l : List V} (hl : l.length = k) (μ : Mem V) (p : Int) : ((List.range k).map fun (m : Nat) => (k * p + m : Int)).map μ = l.map some ↔ TupleAt μ p l := by
  subst hl
  constructor
  · intro h m hm
    have : (((List.range l.length).map fun (m : Nat) => (l.length * p + m : Int)).map μ)[m]? = (l.map some)[m]? := by rw [h]
    simpa [List.getElem?_map, hm] using this
  · intro h
    apply List.ext_getElem
    · simp
    · intro m h1 h2
      simp at h1 h2
      simpa using h m h2

theorem tuple_place {k : Nat} {p p' : Int} {m m' : Nat} (hm : m < k) (hm' : m' < k) (h : (k : Int) * p + m = k * p' + m') : p = p' := by
  have h1 : ((k : Int) * p + m) / k = p := by
    rw [Int.add_comm, Int.add_mul_ediv_left _ _ (by omega), Int.ediv_eq_zero_of_lt (by omega) (by omega)]; omega
  have h2 : ((k : Int) * p' + m') / k = p' := by
    rw [Int.add_comm, Int.add_mul_ediv_left _ _ (by omega), Int.ediv_eq_zero_of_lt (by omega) (by omega)]; omega
  rw [← h1, h, h2]

/-- The assignment to a view of tuples. -/
theorem toTuples_run (dyn : Bool) (z : List Int) (hz : ∀ i ∈ z, i = 0) (k : Nat) (v : View) (s : List Nat) (hv : Shaped v (s.map some)) (hd : Distinct v s) (x : Iter (Act V) (PackEl V)) (sx : List Length) (hx : HasShape x sx)
    (hm : Merge [s.map some, sx] (s.map some)) (F : List Int → List V) (μ : Mem V) (hs : ∀ p, InTuples k v s p → (μ p).isSome) (hl : ∀ j, Valid s j → (F j).length = k)
    (he : ∀ j, Valid s j → GivesTuple (InTuples k v s) μ (elem x j) (F j)) :
    ∃ μ', assignTuples dyn z (v.tuples k) x μ = (.ok (), μ') ∧ (∀ j, Valid s j → TupleAt μ' (address v j) (F j)) ∧ SameOutside (InTuples k v s) μ μ' := by
  have hX : (fun p => ∃ j, Valid s j ∧ p ∈ (List.range k).map fun (m : Nat) => (k * address v j + m : Int)) = InTuples k v s := by
    funext p
    simp only [InTuples, List.mem_map, List.mem_range, eq_iff_iff]
    exact ⟨fun ⟨j, hj, m, h1, h2⟩ => ⟨j, hj, m, h1, h2.symm⟩, fun ⟨j, hj, m, h1, h2⟩ => ⟨j, hj, m, h1, h2.symm⟩⟩
  obtain ⟨μ', h1, h2, h3⟩ := assignTuples_run dyn z hz (v.tuples k) x s sx hv hx hm (fun j => (List.range k).map fun (m : Nat) => k * address v j + m) F μ (fun j _ μ' => tuples_elem k v j μ') (by rw [hX]; exact he)
    (fun j hj => by simp [hl j hj]) (fun j _ => List.Nodup.map (fun a b h => by simpa using h) List.nodup_range) (by
      intro j j' hj hj' p hp hp'
      simp only [List.mem_map, List.mem_range] at hp hp'
      obtain ⟨m, hm, rfl⟩ := hp
      obtain ⟨m', hm', h⟩ := hp'
      exact hd j j' hj hj' (tuple_place hm hm' h.symm)) (fun j hj p hp => hs p (by rw [← hX]; exact ⟨j, hj, hp⟩))
  rw [hX] at h3
  exact ⟨μ', h1, fun j hj => (tupleAt_iff (hl j hj) _ _).mp (h2 j hj), h3⟩

/-- C115. `v = pack<T>(e ...)`, where `v` is a view of tuples that has no repeated elements and that `e ...` don't depend on, sets each tuple to the elements of `e ...` and changes nothing else. -/
theorem C115_pack (dyn : Bool) (z : List Int) (hz : ∀ i ∈ z, i = 0) (v : View) (s : List Nat) (hv : Shaped v (s.map some)) (hd : Distinct v s) (es : List (Iter (Act V) (PackEl V))) (ss : List (List Length)) (sx : List Length)
    (hes : HasShapes es ss) (hmx : Merge ss sx) (hm : Merge [s.map some, sx] (s.map some)) (F : List Int → List V) (μ : Mem V) (hs : ∀ p, InTuples es.length v s p → (μ p).isSome)
    (he : ∀ j, Valid s j → ∀ μ', SameOutside (InTuples es.length v s) μ μ' → List.Forall₂ (fun e x => GivesNumber μ' (elem e j) x) es (F j)) :
    ∃ μ', assignTuples dyn z (v.tuples es.length) (pack es) μ = (.ok (), μ') ∧ (∀ j, Valid s j → TupleAt μ' (address v j) (F j)) ∧ SameOutside (InTuples es.length v s) μ μ' := by
  obtain ⟨h1, h2⟩ := C115_elem es ss sx hes hmx
  exact toTuples_run dyn z hz es.length v s hv hd (pack es) sx h1 hm F μ hs (fun j hj => (he j hj μ fun _ _ => rfl).length_eq.symm) fun j hj => .inl fun μ' ho => h2 j μ' (F j) (he j hj μ' ho)

theorem refs_all (vs : List View) (j : List Int) (μ : Mem V) : elem (packRefs (vs.map View.numbers)) j μ = (.ok (.refs (vs.map fun v => address v j)), μ) := by
  show mapOp packRefsOp (elems (vs.map View.numbers) j) μ = _
  rw [elems_eq_map, List.map_map]
  have key : ∀ vs : List View, (vs.map ((fun a => elem a j) ∘ View.numbers)).mapM id μ = (.ok (vs.map fun v => (.lv (.ref (address v j)) : PackEl V)), μ) ∧
      (vs.map fun v => (.lv (.ref (address v j)) : PackEl V)).mapM PackEl.place μ = (.ok (vs.map fun v => address v j), μ) := by
    intro vs
    induction vs with
    | nil => exact ⟨rfl, rfl⟩
    | cons v vs ih =>
      constructor
      · rw [List.map_cons, List.mapM_cons]
        refine Eq.trans (act_bind_ok (x := id (elem (View.numbers v) j)) (a := .lv (.ref (address v j))) rfl) ?_
        rw [act_bind_ok ih.1]; rfl
      · rw [List.map_cons, List.mapM_cons]
        refine Eq.trans (act_bind_ok (x := PackEl.place (.lv (.ref (address v j)) : PackEl V)) (a := address v j) rfl) ?_
        rw [act_bind_ok ih.2]; rfl
  rw [mapOp, act_bind_ok (key vs).1, packRefsOp, act_bind_ok (key vs).2]
  rfl

theorem numbers_shapes (vs : List View) (s : List Length) (hv : ∀ v ∈ vs, Shaped v s) : HasShapes (vs.map (View.numbers (V := V))) (vs.map fun _ => s) := by
  induction vs with
  | nil => rfl
  | cons v vs ih => exact ⟨s, _, rfl, hv v (by simp), ih fun w hw => hv w (by simp [hw])⟩

theorem merge_const (vs : List View) (s : List Length) (h : vs ≠ []) : Merge (vs.map fun _ => s) s := by
  obtain ⟨v, hv⟩ := List.exists_mem_of_ne_nil vs h
  refine ⟨by simp, ⟨s, by simpa using h, rfl⟩, fun k n => ⟨fun hk => ⟨s, by simpa using h, hk⟩, ?_⟩⟩
  rintro ⟨x, hx, hk⟩
  simp only [List.mem_map] at hx
  obtain ⟨_, _, rfl⟩ := hx
  exact hk

/-- C115. `pack<tuple<T & ...>>(v ...) = x`, where `v ...` are views of the same shape without any repeated elements between them, and `x` is an array of tuples that doesn't depend on them. Each of the views gets its part of the elements of
`x`, and nothing else changes. -/
theorem C115_unpack (dyn : Bool) (z : List Int) (hz : ∀ i ∈ z, i = 0) (vs : List View) (hne : vs ≠ []) (s : List Nat) (hv : ∀ v ∈ vs, Shaped v (s.map some)) (hd : AllApart vs s) (x : Iter (Act V) (PackEl V)) (sx : List Length)
    (hx : HasShape x sx) (hm : Merge [s.map some, sx] (s.map some)) (F : List Int → List V) (μ : Mem V) (hs : ∀ p, InViews vs s p → (μ p).isSome) (hl : ∀ j, Valid s j → (F j).length = vs.length)
    (he : ∀ j, Valid s j → GivesTuple (InViews vs s) μ (elem x j) (F j)) :
    ∃ μ', assignTuples dyn z (packRefs (vs.map View.numbers)) x μ = (.ok (), μ') ∧ (∀ j, Valid s j → vs.map (fun v => μ' (address v j)) = (F j).map some) ∧ SameOutside (InViews vs s) μ μ' := by
  have hX : (fun p => ∃ j, Valid s j ∧ p ∈ vs.map fun v => address v j) = InViews vs s := by
    funext p
    simp only [InViews, InView, List.mem_map, eq_iff_iff]
    exact ⟨fun ⟨j, hj, v, h1, h2⟩ => ⟨v, h1, j, hj, h2.symm⟩, fun ⟨v, h1, j, hj, h2⟩ => ⟨j, hj, v, h1, h2.symm⟩⟩
  obtain ⟨μ', h1, h2, h3⟩ := assignTuples_run dyn z hz (packRefs (vs.map View.numbers)) x s sx ⟨_, numbers_shapes vs _ hv, merge_const vs _ hne⟩ hx hm (fun j => vs.map fun v => address v j) F μ (fun j _ μ' => refs_all vs j μ') (by rw [hX]; exact he)
    (fun j hj => by simp [hl j hj]) (fun j hj => by
      rw [List.nodup_iff_injective_get]
      intro a b h
      have ha := a.2
      have hb := b.2
      simp only [List.length_map] at ha hb
      simp only [List.get_eq_getElem, List.getElem_map] at h
      exact Fin.ext (hd _ _ ha hb j j hj hj h).1) (by
      intro j j' hj hj' p hp hp'
      obtain ⟨m, hm, rfl⟩ := List.getElem_of_mem hp
      obtain ⟨m', hm', h⟩ := List.getElem_of_mem hp'
      simp only [List.length_map] at hm hm'
      simp only [List.getElem_map] at h
      exact (hd _ _ hm' hm j' j hj' hj h).2.symm) (fun j hj p hp => hs p (by rw [← hX]; exact ⟨j, hj, hp⟩))
  rw [hX] at h3
  exact ⟨μ', h1, fun j hj => by rw [← h2 j hj, List.map_map]; rfl, h3⟩

/-- C115. `a = pack<T>(e ...)` followed by `pack<tuple<T & ...>>(v ...) = a` is the same for each of `v ...` as `v = e`. -/
theorem C115_round (dyn : Bool) (z : List Int) (hz : ∀ i ∈ z, i = 0) (a : View) (s : List Nat) (ha : Shaped a (s.map some)) (da : Distinct a s) (es : List (Iter (Act V) (PackEl V))) (ss : List (List Length)) (sx : List Length)
    (hes : HasShapes es ss) (hmx : Merge ss sx) (hm : Merge [s.map some, sx] (s.map some)) (F : List Int → List V) (μ : Mem V) (hs : ∀ p, InTuples es.length a s p → (μ p).isSome)
    (he : ∀ j, Valid s j → ∀ μ', SameOutside (InTuples es.length a s) μ μ' → List.Forall₂ (fun e x => GivesNumber μ' (elem e j) x) es (F j))
    (vs : List View) (hne : vs ≠ []) (hlen : vs.length = es.length) (hv : ∀ v ∈ vs, Shaped v (s.map some)) (hd : AllApart vs s) (hsv : ∀ p, InViews vs s p → (μ p).isSome) (hap : ∀ p, InViews vs s p → ¬ InTuples es.length a s p) :
    ∃ μ', (do assignTuples dyn z (a.tuples es.length) (pack es); assignTuples dyn z (packRefs (vs.map View.numbers)) (a.tuples es.length) : Act V Unit) μ = (.ok (), μ') ∧
      (∀ j, Valid s j → vs.map (fun v => μ' (address v j)) = (F j).map some) ∧ SameOutside (fun p => InTuples es.length a s p ∨ InViews vs s p) μ μ' := by
  obtain ⟨μ1, h1, h2, h3⟩ := C115_pack dyn z hz a s ha da es ss sx hes hmx hm F μ hs he
  have hF : ∀ j, Valid s j → (F j).length = es.length := fun j hj => (he j hj μ fun _ _ => rfl).length_eq.symm
  obtain ⟨μ2, r1, r2, r3⟩ := C115_unpack dyn z hz vs hne s hv hd (a.tuples es.length) (s.map some) ha (merge_same _) F μ1 (fun p hp => by rw [h3 p (hap p hp)]; exact hsv p hp) (fun j hj => by rw [hF j hj, hlen])
    (fun j hj => .inr ⟨_, fun μ' ho => ⟨tuples_elem es.length a j μ', by
      rw [tupleAt_iff (hF j hj)]
      intro m hm
      rw [ho _ fun h => hap _ h ⟨j, hj, m, hF j hj ▸ hm, by rw [hF j hj]⟩]
      exact h2 j hj m hm⟩⟩)
  refine ⟨μ2, ?_, r2, outside_trans h3 r3 (fun _ h => .inl h) (fun _ h => .inr h)⟩
  rw [act_bind_ok h1]
  exact r1

/-- C115. `at(a, pack<Small<int, k>>(e ...))` has the shape of `e ...`, matched, and its element at `j` is the element of `a` at the index made with the elements of each of `e ...` at `j`. If it isn't in range then the check fails. -/
theorem C115_gather (ix : V → Int) (a : View) (t : List Nat) (ha : Shaped a (t.map some)) (es : List (Iter (Act V) (PackEl V))) (ss : List (List Length)) (s : List Length) (hs : HasShapes es ss) (hm : Merge ss s) (hr : es.length = t.length) :
    HasShape (atTuples ix a (pack es)) s ∧ ∀ j μ l, List.Forall₂ (fun e x => GivesNumber μ (elem e j) x) es l →
      (Valid t (l.map ix) → elem (atTuples ix a (pack es)) j μ = (.ok (.lv (.ref (address a (l.map ix)))), μ)) ∧
      (¬ Valid t (l.map ix) → elem (atTuples ix a (pack es)) j μ = (.error .check, μ)) := by
  obtain ⟨h1, h2⟩ := C115_elem es ss s hs hm
  refine ⟨shape_one h1, fun j μ l hl => ?_⟩
  have hlen : (l.map ix).length = t.length := by rw [List.length_map, ← hl.length_eq, hr]
  have e : elem (atTuples ix a (pack es)) j μ = (a.refs.at (l.map ix) >>= fun x => pure (.lv x) : Act V (PackEl V)) μ := by
    simp only [atTuples, elem, elems, mapOp, List.mapM_cons, List.mapM_nil, id, bind_assoc, pure_bind]
    rw [act_bind_ok (h2 j μ l hl)]
    rfl
  constructor
  · intro hv
    rw [e, C01_at a.refs (t.map some) (refs_shape ha) _ (inRange_of_valid hv)]
    rfl
  · intro hv
    rw [e, act_bind, show a.refs.at (l.map ix) μ = (.error .check, μ) from congrFun (C59_reject a.dims a.cp _ (t.map some) ha _ fun h => hv (valid_of_inRange hlen h)) μ]

end

section
variable {R : Type}

theorem filled_unique {n : Nat} {p : Int} {f : Nat → Cx R} {μ μ1 μ2 : Mem R} (h1 : CxFilled n p f μ μ1) (h2 : CxFilled n p f μ μ2) : μ1 = μ2 := by
  funext q
  by_cases h : 2 * p ≤ q ∧ q < 2 * p + 2 * n
  · obtain ⟨i, hi⟩ : ∃ i : Nat, q = 2 * p + i := ⟨(q - 2 * p).toNat, by omega⟩
    have a1 := h1.1 (i / 2) (by omega)
    have a2 := h2.1 (i / 2) (by omega)
    rcases Nat.mod_two_eq_zero_or_one i with hm | hm
    · have e : q = 2 * (p + ((i / 2 : Nat) : Int)) := by omega
      rw [e, a1.1, a2.1]
    · have e : q = 2 * (p + ((i / 2 : Nat) : Int)) + 1 := by omega
      rw [e, a1.2, a2.2]
  · rw [h1.2 q h, h2.2 q h]

variable [Ring R]

theorem iota_reads (n : Nat) (i : Nat) (μ : Mem R) : Reads μ (elem (packIota n) [(i : Int)]) (i : R) := by
  simp [packIota, elem, dot, Reads, Lv.get]
  rfl

theorem down_reads (n : Nat) (i : Nat) (μ : Mem R) : Reads μ (elem (packDown n) [(i : Int)]) ((n : R) - i) := by
  simp [packDown, packIota, elem, elems, dot, Reads, Lv.get, valOp, mapOp]
  rfl

theorem iota_gives (n : Nat) (i : Nat) (μ : Mem R) : GivesNumber μ (elem (packIota' n) [(i : Int)]) (i : R) := by
  refine ⟨.val (i : R), ?_, rfl⟩
  simp [packIota', elem, dot]
  rfl

theorem down_gives (n : Nat) (i : Nat) (μ : Mem R) : GivesNumber μ (elem (packDown' n) [(i : Int)]) ((n : R) - i) := by
  refine ⟨.val ((n : R) - i), ?_, rfl⟩
  simp [packDown', packIota', elem, elems, dot, PackEl.get, Lv.get, numOp, mapOp]
  rfl

theorem packIota_shape (n : Nat) : HasShape (packIota (R := R) n) [some n] := .cons rfl .nil
theorem packDown_shape (n : Nat) : HasShape (packDown (R := R) n) [some n] := shape_two (sa := []) rfl (packIota_shape n) ⟨by simp, ⟨[some n], by simp, rfl⟩, by simp⟩
theorem packIota_shape' (n : Nat) : HasShape (packIota' (R := R) n) [some n] := .cons rfl .nil
theorem packDown_shape' (n : Nat) : HasShape (packDown' (R := R) n) [some n] := shape_two (sa := []) rfl (packIota_shape' n) ⟨by simp, ⟨[some n], by simp, rfl⟩, by simp⟩

omit [Ring R] in
theorem vector_distinct (n : Nat) (p : Int) : Distinct ⟨[⟨n, 1⟩], p⟩ [n] := by
  intro a b ha hb h
  obtain ⟨i, rfl, _⟩ := valid_one.mp ha
  obtain ⟨j, rfl, _⟩ := valid_one.mp hb
  simpa [address, dot] using h

/-- bench/bench-pack.cc:33-39. -/
theorem fillRaw_run (n : Nat) (p : Int) (μ : Mem R) (hs : ∀ q, 2 * p ≤ q ∧ q < 2 * p + 2 * n → (μ q).isSome) :
    ∃ μ', fillRaw n ⟨[⟨n, 1⟩], p⟩ μ = (.ok (), μ') ∧ CxFilled n p (fun i => ⟨(i : R), n - i⟩) μ μ' := by
  unfold fillRaw
  rw [forLoop_eq]
  have key : ∀ m, m ≤ n → ∃ μ', forAll (fun (i : Nat) => (do Act.write (2 * p + 2 * i) ((i : Int) : R); Act.write (2 * p + 2 * i + 1) ((n : R) - ((i : Int) : R)) : Act R Unit)) (List.range m) μ = (.ok (), μ') ∧
      CxFilled m p (fun i => ⟨(i : R), n - i⟩) μ μ' := by
    intro m
    induction m with
    | zero => exact fun _ => ⟨μ, rfl, by simp, fun _ _ => rfl⟩
    | succ m ih =>
      intro hm
      obtain ⟨μ1, h1, h2, h3⟩ := ih (by omega)
      have a0 : (μ1 (2 * p + 2 * m)).isSome := by rw [h3 _ (by omega)]; exact hs _ (by omega)
      have a1 : (μ1 (2 * p + 2 * m + 1)).isSome := by rw [h3 _ (by omega)]; exact hs _ (by omega)
      obtain ⟨x0, e0⟩ := Option.isSome_iff_exists.mp a0
      obtain ⟨x1, e1⟩ := Option.isSome_iff_exists.mp a1
      refine ⟨(μ1.upd (2 * p + 2 * m) (m : R)).upd (2 * p + 2 * m + 1) (n - m), ?_, ?_, ?_⟩
      · rw [List.range_succ, forAll_append, act_bind_ok h1, forAll]
        have w0 : Act.write (2 * p + 2 * (m : Int)) ((m : Int) : R) μ1 = (.ok (), μ1.upd (2 * p + 2 * m) (m : R)) := by simp [Act.write, e0]
        have w1 : Act.write (2 * p + 2 * (m : Int) + 1) ((n : R) - ((m : Int) : R)) (μ1.upd (2 * p + 2 * m) (m : R)) = (.ok (), (μ1.upd (2 * p + 2 * m) (m : R)).upd (2 * p + 2 * m + 1) (n - m)) := by
          simp [Act.write, e1, Mem.upd]
        rw [bind_assoc, act_bind_ok w0, act_bind_ok w1]
        rfl
      · intro i hi
        by_cases him : i = m
        · subst him
          constructor
          · simp only [Mem.upd]
            rw [if_neg (by omega), if_pos (by omega)]
          · simp only [Mem.upd]
            rw [if_pos (by omega)]
        · obtain ⟨b1, b2⟩ := h2 i (by omega)
          constructor
          · simp only [Mem.upd]
            rw [if_neg (by omega), if_neg (by omega), b1]
          · simp only [Mem.upd]
            rw [if_neg (by omega), if_neg (by omega), b2]
      · intro q hq
        simp only [Mem.upd]
        rw [if_neg (by omega), if_neg (by omega), h3 q (by omega)]
  exact key n (le_refl n)

/-- Two assignments, to the real parts and to the imaginary parts. -/
theorem fillParts_run (dyn : Bool) (z : List Int) (hz : ∀ i ∈ z, i = 0) (n : Nat) (p : Int) (re im : Iter (Act R) (Lv R)) (hre : HasShape re [some n]) (him : HasShape im [some n])
    (rre : ∀ (i : Nat) μ, Refers μ (elem re [(i : Int)]) (2 * (p + i))) (rim : ∀ (i : Nat) μ, Refers μ (elem im [(i : Int)]) (2 * (p + i) + 1)) (μ : Mem R) (hs : ∀ q, 2 * p ≤ q ∧ q < 2 * p + 2 * n → (μ q).isSome) :
    ∃ μ1 μ', assign dyn z re (packIota n) μ = (.ok (), μ1) ∧ assign dyn z im (packDown n) μ1 = (.ok (), μ') ∧ CxFilled n p (fun i => ⟨(i : R), n - i⟩) μ μ' := by
  have hv : ∀ j, Valid [n] j → ∃ i : Nat, j = [(i : Int)] ∧ i < n := by
    intro j hj
    obtain ⟨i, rfl, h0, h1⟩ := valid_one.mp hj
    exact ⟨i.toNat, by simp [h0], by omega⟩
  have hv' : ∀ i : Nat, i < n → Valid [n] [(i : Int)] := fun i hi => valid_one.mpr ⟨i, rfl, by omega, by omega⟩
  obtain ⟨μ1, h1, h2, h3⟩ := C27_assign dyn z hz re (packIota n) [n] [some n] hre (packIota_shape n) (merge_same _) μ (fun j => 2 * (p + j.getD 0 0)) (fun j => ((j.getD 0 0 : Int) : R))
    (fun j k hj hk h => by
      obtain ⟨a, rfl, _⟩ := hv j hj
      obtain ⟨b, rfl, _⟩ := hv k hk
      simpa using h)
    (fun j hj => by
      obtain ⟨a, rfl, _⟩ := hv j hj
      exact hs _ (by simp; omega))
    (fun j hj μ' _ => by
      obtain ⟨a, rfl, _⟩ := hv j hj
      exact rre a μ')
    (fun j hj μ' _ => by
      obtain ⟨a, rfl, _⟩ := hv j hj
      simpa using iota_reads n a μ')
  obtain ⟨μ2, r1, r2, r3⟩ := C27_assign dyn z hz im (packDown n) [n] [some n] him (packDown_shape n) (merge_same _) μ1 (fun j => 2 * (p + j.getD 0 0) + 1) (fun j => (n : R) - ((j.getD 0 0 : Int) : R))
    (fun j k hj hk h => by
      obtain ⟨a, rfl, _⟩ := hv j hj
      obtain ⟨b, rfl, _⟩ := hv k hk
      simpa using h)
    (fun j hj => by
      obtain ⟨a, rfl, _⟩ := hv j hj
      rw [h3 _ (by
        rintro ⟨k, hk, h⟩
        omega)]
      exact hs _ (by simp; omega))
    (fun j hj μ' _ => by
      obtain ⟨a, rfl, _⟩ := hv j hj
      exact rim a μ')
    (fun j hj μ' _ => by
      obtain ⟨a, rfl, _⟩ := hv j hj
      simpa using down_reads n a μ')
  refine ⟨μ1, μ2, h1, r1, ?_, ?_⟩
  · intro i hi
    have b1 := h2 [(i : Int)] (hv' i hi)
    have b2 := r2 [(i : Int)] (hv' i hi)
    simp only [List.getD_cons_zero, Int.cast_natCast] at b1 b2
    exact ⟨by rw [r3 _ (by rintro ⟨k, hk, h⟩; omega)]; exact b1, b2⟩
  · intro q hq
    rw [r3 q ?_, h3 q ?_]
    · rintro ⟨k, hk, rfl⟩
      obtain ⟨a, rfl, _⟩ := hv k hk
      simp at hq
      omega
    · rintro ⟨k, hk, rfl⟩
      obtain ⟨a, rfl, _⟩ := hv k hk
      simp at hq
      omega

/-- bench/bench-pack.cc:40-43. -/
theorem fillReim_run (dyn : Bool) (z : List Int) (hz : ∀ i ∈ z, i = 0) (n : Nat) (p : Int) (μ : Mem R) (hs : ∀ q, 2 * p ≤ q ∧ q < 2 * p + 2 * n → (μ q).isSome) :
    ∃ μ', fillReim dyn z n ⟨[⟨n, 1⟩], p⟩ μ = (.ok (), μ') ∧ CxFilled n p (fun i => ⟨(i : R), n - i⟩) μ μ' := by
  obtain ⟨μ1, μ2, h1, h2, h3⟩ := fillParts_run dyn z hz n p (View.part ⟨[⟨n, 1⟩], p⟩ 0) (View.part ⟨[⟨n, 1⟩], p⟩ 1) (part_shape _ _ [n] (.cons rfl .nil)) (part_shape _ _ [n] (.cons rfl .nil))
    (fun i μ => by have := refers_part μ ⟨[⟨n, 1⟩], p⟩ 0 [(i : Int)]; simpa [address, dot] using this) (fun i μ => by have := refers_part μ ⟨[⟨n, 1⟩], p⟩ 1 [(i : Int)]; simpa [address, dot] using this) μ hs
  refine ⟨μ2, ?_, h3⟩
  rw [fillReim, act_bind_ok h1]
  exact h2

/-- bench/bench-pack.cc:44-48. -/
theorem fillCollapse_run (dyn : Bool) (z : List Int) (hz : ∀ i ∈ z, i = 0) (n : Nat) (p : Int) (μ : Mem R) (hs : ∀ q, 2 * p ≤ q ∧ q < 2 * p + 2 * n → (μ q).isSome) :
    ∃ μ', fillCollapse dyn z n ⟨[⟨n, 1⟩], p⟩ μ = (.ok (), μ') ∧ CxFilled n p (fun i => ⟨(i : R), n - i⟩) μ μ' := by
  have hc : (⟨[⟨n, 1⟩], p⟩ : View).collapse ⟨[], 8, 8⟩ ⟨[], 16, 16⟩ = .ok ⟨[⟨n, 2⟩, ⟨2, 1⟩], p⟩ := rfl
  obtain ⟨re, a1, a2, a3⟩ := take_col (a := ⟨[⟨n, 2⟩, ⟨2, 1⟩], 2 * p⟩) (n := n) (m := 2) (.cons rfl (.cons rfl .nil)) 0 (by omega)
  obtain ⟨im, b1, b2, b3⟩ := take_col (a := ⟨[⟨n, 2⟩, ⟨2, 1⟩], 2 * p⟩) (n := n) (m := 2) (.cons rfl (.cons rfl .nil)) 1 (by omega)
  obtain ⟨μ1, μ2, h1, h2, h3⟩ := fillParts_run dyn z hz n p re.refs im.refs (refs_shape a2) (refs_shape b2)
    (fun i μ => by have := refers_refs μ re [(i : Int)]; rw [a3] at this; convert this using 1; simp [address, dot]; ring)
    (fun i μ => by have := refers_refs μ im [(i : Int)]; rw [b3] at this; convert this using 1; simp [address, dot]; ring) μ hs
  refine ⟨μ2, ?_, h3⟩
  simp only [fillCollapse]
  rw [lift_bind hc]
  dsimp only
  simp only [Nat.cast_zero, Nat.cast_one] at a1 b1
  rw [lift_bind a1, act_bind_ok h1, lift_bind b1]
  exact h2

/-- Assignment of tuples of two numbers. -/
theorem fillTuples_run (dyn : Bool) (z : List Int) (hz : ∀ i ∈ z, i = 0) (n : Nat) (p : Int) (x : Iter (Act R) (PackEl R)) (hx : HasShape x [some n]) (μ : Mem R) (hs : ∀ q, 2 * p ≤ q ∧ q < 2 * p + 2 * n → (μ q).isSome)
    (he : ∀ (i : Nat) μ', elem x [(i : Int)] μ' = (.ok (.tup [(i : R), n - i]), μ')) :
    ∃ μ', assignTuples dyn z (View.tuples 2 ⟨[⟨n, 1⟩], p⟩) x μ = (.ok (), μ') ∧ CxFilled n p (fun i => ⟨(i : R), n - i⟩) μ μ' := by
  have hv : ∀ j, Valid [n] j → ∃ i : Nat, j = [(i : Int)] ∧ i < n := by
    intro j hj
    obtain ⟨i, rfl, h0, h1⟩ := valid_one.mp hj
    exact ⟨i.toNat, by simp [h0], by omega⟩
  have hin : ∀ q, InTuples 2 ⟨[⟨n, 1⟩], p⟩ [n] q → 2 * p ≤ q ∧ q < 2 * p + 2 * n := by
    rintro q ⟨j, hj, m, hm, rfl⟩
    obtain ⟨i, rfl, hi⟩ := hv j hj
    simp [address, dot]
    omega
  obtain ⟨μ', h1, h2, h3⟩ := toTuples_run dyn z hz 2 ⟨[⟨n, 1⟩], p⟩ [n] (.cons rfl .nil) (vector_distinct n p) x [some n] hx (merge_same _) (fun j => [((j.getD 0 0 : Int) : R), n - ((j.getD 0 0 : Int) : R)]) μ (fun q hq => hs q (hin q hq)) (by simp)
    (fun j hj => .inl fun μ' _ => by
      obtain ⟨i, rfl, hi⟩ := hv j hj
      rw [he]; simp)
  refine ⟨μ', h1, ?_, fun q hq => h3 q fun h => hq (hin q h)⟩
  intro i hi
  have := h2 [(i : Int)] (valid_one.mpr ⟨i, rfl, by omega, by omega⟩)
  have e0 := this 0 (by simp)
  have e1 := this 1 (by simp)
  simp [address, dot] at e0 e1
  exact ⟨e0, e1⟩

/-- C115. The five ways in bench/bench-pack.cc to fill a vector of complex numbers (a loop over memory; assignment to the real and to the imaginary parts; assignment to the columns of the collapsed array; `pack`; and a sum with `xi`)
leave the memory in the same way: element `i` is `(i, n-i)`, and nothing else changes. -/
theorem C115_ways (dyn : Bool) (z : List Int) (hz : ∀ i ∈ z, i = 0) (n : Nat) (p : Int) (μ : Mem R) (hs : ∀ q, 2 * p ≤ q ∧ q < 2 * p + 2 * n → (μ q).isSome) :
    ∃ μ', CxFilled n p (fun i => ⟨(i : R), n - i⟩) μ μ' ∧
      fillRaw n ⟨[⟨n, 1⟩], p⟩ μ = (.ok (), μ') ∧ fillReim dyn z n ⟨[⟨n, 1⟩], p⟩ μ = (.ok (), μ') ∧ fillCollapse dyn z n ⟨[⟨n, 1⟩], p⟩ μ = (.ok (), μ') ∧
      fillPack dyn z n ⟨[⟨n, 1⟩], p⟩ μ = (.ok (), μ') ∧ fillXi dyn z n ⟨[⟨n, 1⟩], p⟩ μ = (.ok (), μ') := by
  obtain ⟨μ1, a1, b1⟩ := fillRaw_run n p μ hs
  obtain ⟨μ2, a2, b2⟩ := fillReim_run dyn z hz n p μ hs
  obtain ⟨μ3, a3, b3⟩ := fillCollapse_run dyn z hz n p μ hs
  have hshape : HasShapes [packIota' (R := R) n, packDown' n] [[some n], [some n]] := ⟨_, _, rfl, packIota_shape' n, _, _, rfl, packDown_shape' n, rfl⟩
  obtain ⟨μ4, a4, b4⟩ := fillTuples_run dyn z hz n p (pack [packIota' n, packDown' n]) ⟨_, hshape, merge_same _⟩ μ hs (fun i μ' =>
    (C115_elem _ _ _ hshape (merge_same _)).2 _ _ _ (.cons (iota_gives n i μ') (.cons (down_gives n i μ') .nil)))
  obtain ⟨μ5, a5, b5⟩ := fillTuples_run dyn z hz n p (.node (mapOp addCxOp) [packIota' n, .node (mapOp xiOp) [packDown' n]]) (shape_two (packIota_shape' n) (shape_one (packDown_shape' n)) (merge_same _)) μ hs (fun i μ' => by
    obtain ⟨y, h1, h2⟩ := down_gives (R := R) n i μ'
    obtain ⟨w, h3, h4⟩ := iota_gives (R := R) n i μ'
    have hxi : elem (.node (mapOp xiOp) [packDown' (R := R) n]) [(i : Int)] μ' = (.ok (.tup [0, (n : R) - i]), μ') := by
      simp only [elem, elems, mapOp, List.mapM_cons, List.mapM_nil, id, bind_assoc, pure_bind]
      rw [act_bind_ok h1]
      simp only [xiOp, PackEl.get]
      rw [act_bind_ok h2]
      rfl
    show mapOp addCxOp [elem (packIota' n) [(i : Int)], elem (.node (mapOp xiOp) [packDown' n]) [(i : Int)]] μ' = _
    rw [mapM_two, act_bind_ok h3, act_bind_ok hxi]
    simp only [addCxOp, PackEl.get]
    rw [act_bind_ok h4, zero_add]
    rfl)
  obtain rfl := filled_unique b1 b2
  obtain rfl := filled_unique b1 b3
  obtain rfl := filled_unique b1 b4
  obtain rfl := filled_unique b1 b5
  exact ⟨_, b1, a1, a2, a3, a4, a5⟩

end
/-- The hypotheses of `C115_round`, and so of `C115_pack` and `C115_unpack`: two vectors at 10 and 20 are packed into a vector of tuples at 0, which is then unpacked into two vectors at 30 and 40. -/
example (dyn : Bool) : ∃ μ' : Mem Int, (do
      assignTuples dyn [] (View.tuples 2 ⟨[⟨2, 1⟩], 0⟩) (pack [View.numbers ⟨[⟨2, 1⟩], 10⟩, View.numbers ⟨[⟨2, -1⟩], 21⟩])
      assignTuples dyn [] (packRefs ([⟨[⟨2, 1⟩], 30⟩, ⟨[⟨2, 1⟩], 40⟩].map View.numbers)) (View.tuples 2 ⟨[⟨2, 1⟩], 0⟩) : Act Int Unit) some = (.ok (), μ') ∧
    μ' 30 = some 10 ∧ μ' 31 = some 11 ∧ μ' 40 = some 21 ∧ μ' 41 = some 20 ∧ μ' 50 = some 50 := by
  have hj : ∀ j, Valid [2] j → j = [0] ∨ j = [1] := fun j h => by
    have : ∀ j ∈ rowMajor [2], j = [0] ∨ j = [1] := by decide +kernel
    exact this j (Spec.mem_rowMajor.2 h)
  have ht : ∀ p, InTuples 2 ⟨[⟨2, 1⟩], 0⟩ [2] p → 0 ≤ p ∧ p < 4 := by
    rintro p ⟨j, h, m, hm, rfl⟩
    rcases hj j h with rfl | rfl <;> simp [address, dot] <;> omega
  have hv : ∀ p, InViews [⟨[⟨2, 1⟩], 30⟩, ⟨[⟨2, 1⟩], 40⟩] [2] p → 30 ≤ p ∧ p < 42 := by
    rintro p ⟨v, hv, j, h, rfl⟩
    simp only [List.mem_cons, List.not_mem_nil, or_false] at hv
    rcases hv with rfl | rfl <;> rcases hj j h with rfl | rfl <;> simp [address, dot]
  obtain ⟨μ', h1, h2, h3⟩ := C115_round dyn [] (by simp) ⟨[⟨2, 1⟩], 0⟩ [2] (.cons rfl .nil) (vector_distinct 2 0) [View.numbers ⟨[⟨2, 1⟩], 10⟩, View.numbers ⟨[⟨2, -1⟩], 21⟩] [[some 2], [some 2]] [some 2]
    ⟨_, _, rfl, .cons rfl .nil, _, _, rfl, .cons rfl .nil, rfl⟩ (merge_same _) (merge_same _) (fun j => [10 + j.getD 0 0, 21 - j.getD 0 0]) (some : Mem Int) (fun _ _ => rfl)
    (by
      intro j h μ' ho
      have hr : ∀ p, 4 ≤ p → μ' p = some p := fun p hp => ho p fun h => absurd (ht p h) (by omega)
      rcases hj j h with rfl | rfl
      · refine .cons ⟨.ref 10, rfl, ?_⟩ (.cons ⟨.ref 21, rfl, ?_⟩ .nil) <;> simp [Lv.get, Act.read, hr]
      · refine .cons ⟨.ref 11, rfl, ?_⟩ (.cons ⟨.ref 20, rfl, ?_⟩ .nil) <;> simp [Lv.get, Act.read, hr])
    [⟨[⟨2, 1⟩], 30⟩, ⟨[⟨2, 1⟩], 40⟩] (by simp) rfl (by
      intro v hv
      simp only [List.mem_cons, List.not_mem_nil, or_false] at hv
      rcases hv with rfl | rfl <;> exact .cons rfl .nil) (by
      intro m m' hm hm' j j' h h'
      have hm : m = 0 ∨ m = 1 := by simp at hm; omega
      have hm' : m' = 0 ∨ m' = 1 := by simp at hm'; omega
      rcases hm with rfl | rfl <;> rcases hm' with rfl | rfl <;> rcases hj j h with rfl | rfl <;> rcases hj j' h' with rfl | rfl <;> simp [address, dot]) (fun _ _ => rfl)
    (fun p hp h => by have := hv p hp; have := ht p h; omega)
  have a0 := h2 [0] (Spec.mem_rowMajor.1 (by decide +kernel))
  have a1 := h2 [1] (Spec.mem_rowMajor.1 (by decide +kernel))
  simp [address, dot] at a0 a1
  refine ⟨μ', h1, a0.1, a1.1, a0.2, a1.2, ?_⟩
  refine h3 50 ?_
  rintro (h | h)
  · have := ht _ h; omega
  · have := hv _ h; omega

/-- examples/indirect.cc:158-172, with an index in range and another that isn't. -/
example : (elem (atTuples id ⟨[⟨3, 3⟩, ⟨3, 1⟩], 0⟩ (pack [View.numbers ⟨[⟨2, 1⟩], 1⟩, View.numbers ⟨[⟨2, 1⟩], 2⟩])) [0] (some : Mem Int)).1.toOption.isSome ∧
    (elem (atTuples id ⟨[⟨3, 3⟩, ⟨3, 1⟩], 0⟩ (pack [View.numbers ⟨[⟨2, 1⟩], 1⟩, View.numbers ⟨[⟨2, 1⟩], 2⟩])) [1] (some : Mem Int)).1 matches .error .check := by
  decide +kernel

/-- Two of the ways of `C115_ways`, and the hypothesis on the memory. -/
example : (List.range 10).map (fun (i : Nat) => (fillXi true [] 4 ⟨[⟨4, 1⟩], 1⟩ (fun p => if 2 ≤ p ∧ p < 10 then some 99 else none : Mem Int)).2 i) = [none, none, some 0, some 4, some 1, some 3, some 2, some 2, some 3, some 1] ∧
    (List.range 10).map (fun (i : Nat) => (fillCollapse true [] 4 ⟨[⟨4, 1⟩], 1⟩ (fun p => if 2 ≤ p ∧ p < 10 then some 99 else none : Mem Int)).2 i) = [none, none, some 0, some 4, some 1, some 3, some 2, some 2, some 3, some 1] := by
  decide +kernel

end Ra.Props
