import Verif.Model.Indirect
import Verif.Props.AtView
import Verif.Props.Slice
import Verif.Props.Dot
import Mathlib.Tactic.Linarith
import Mathlib.Tactic.Positivity
import Mathlib.Tactic.FieldSimp
/-!
# C119: copies to and from lists of positions and lists of strips
-/

namespace Ra.Spec

section
variable {V : Type} [MultiIndex V]

/-- `i` is a view of shape `s` apart from `a`, whose elements are `I`. -/
structure ListOf (μ : Mem V) (a : View) (t : List Nat) (i : View) (s : List Nat) (I : List Int → V) : Prop where
  shape : Shaped i (s.map some)
  value : ElemsAre μ i s I
  apart : ∀ j, Valid s j → ¬ InView a t (address i j)

/-- `a` and `b` are views of shape `t`, apart. The elements of `a` are different places, and those of `b` are `fb`. -/
structure Pairing (μ : Mem V) (t : List Nat) (a b : View) (fb : List Int → V) : Prop where
  shapeA : Shaped a (t.map some)
  shapeB : Shaped b (t.map some)
  distinct : Distinct a t
  memory : ∀ k, Valid t k → (μ (address a k)).isSome
  valueB : ElemsAre μ b t fb
  apart : ∀ j, Valid t j → ¬ InView a t (address b j)

/-- From `μ` to `μ'` the elements of `a` at the indices in `P` have become `fb`, and nothing else has changed. -/
def Copied (μ μ' : Mem V) (t : List Nat) (a : View) (fb : List Int → V) (P : List Int → Prop) : Prop :=
  SameOutside (InView a t) μ μ' ∧ ∀ k, Valid t k → (P k → μ' (address a k) = some (fb k)) ∧ (¬ P k → μ' (address a k) = μ (address a k))

/-- The index `k` is in the strip `c`, which is a row, a first column and a last column. -/
def InStrip (c k : List Int) : Prop := ∃ i j0 j1 j, c = [i, j0, j1] ∧ k = [i, j] ∧ j0 ≤ j ∧ j ≤ j1

/-- A strip, maybe empty. -/
def IsStrip (c : List Int) : Prop := ∃ i j0 j1, c = [i, j0, j1] ∧ j0 ≤ j1 + 1

/-- A strip in a matrix of `n` rows and `m` columns. -/
def StripIn (n m : Nat) (c : List Int) : Prop := (∀ i ∈ c.head?, 0 ≤ i ∧ i < n) ∧ ∀ k, InStrip c k → Valid [n, m] k

end
end Ra.Spec

namespace Ra.Props
open Spec

section
variable {V : Type}

/-! ## Both at once -/

/-- Two maps of the same element, and then an operation, do the same as a single map. -/
theorem twice (p : Int) (fa fb : V → Act V (Lv V)) (op : List (Lv V) → Act V (Lv V)) (ha : ∀ x μ, (fa x μ).2 = μ) :
    mapOp op [(mapOp (fun l => match l with | [c] => do let x ← Lv.get c; fa x | _ => fault .abort) [pure (Lv.ref p)]), (mapOp (fun l => match l with | [c] => do let x ← Lv.get c; fb x | _ => fault .abort) [pure (Lv.ref p)])] =
      (mapOp (fun l => match l with | [c] => do let x ← Lv.get c; let u ← fa x; let w ← fb x; op [u, w] | _ => fault .abort) [pure (Lv.ref p)] : Act V (Lv V)) := by
  funext μ
  rw [mapM_two]
  simp only [mapOp, List.mapM_cons, List.mapM_nil, id_eq, pure_bind, bind_assoc, Lv.get]
  cases hp : μ p with
  | none => simp [act_bind, Act.read, hp]
  | some x =>
    have hr : Act.read p μ = (.ok x, μ) := by simp [Act.read, hp]
    rw [act_bind_ok hr, act_bind_ok hr]
    have h := ha x μ
    cases hfa : fa x μ with
    | mk r μ1 =>
      rw [hfa] at h
      simp only at h
      subst h
      cases r with
      | error e => simp [act_bind, hfa]
      | ok u => rw [act_bind_ok hfa, act_bind_ok hfa, act_bind_ok hr]

theorem at_keeps (a : View) (t : List Nat) (ha : Shaped a (t.map some)) (i : List Int) (μ : Mem V) : ((a.refs : Iter (Act V) (Lv V)).at i μ).2 = μ := by
  by_cases h : InRange (t.map some) i
  · rw [C01_at (a.refs : Iter (Act V) (Lv V)) (t.map some) (refs_shape ha) i h]
    rfl
  · rw [show (a.refs : Iter (Act V) (Lv V)).at i μ = (.error .check, μ) from congrFun (C59_reject a.dims a.cp _ (t.map some) (refs_shape ha) _ h) μ]

variable [MultiIndex V]

theorem one_shape (op : List (Act V (Lv V)) → Act V (Lv V)) {i : Iter (Act V) (Lv V)} {s : List Length} (h : HasShape i s) : HasShape (.node op [i]) s :=
  ⟨[s], ⟨_, _, rfl, h, rfl⟩, merge_one _⟩

/-- C119. The three ways to copy the elements at a list of positions are the same program: for any positions, in range or not, repeated or not, and whatever the arrays share. -/
theorem C119_points_same (dyn : Bool) (z : List Int) (hz : ∀ i ∈ z, i = 0) (a b i : View) (t s : List Nat) (ha : Shaped a (t.map some)) (hi : Shaped i (s.map some)) (μ : Mem V) :
    copyAtEach dyn z a b i μ = copyAt dyn z a b i μ := by
  unfold copyAtEach copyAt assign
  rw [ply_forAll dyn z hz _ s (one_shape _ (refs_shape hi)), run_forAll dyn z hz _ _ _ (s.map some) (s.map some) s (atArray_shape _ (refs_shape hi)) (atArray_shape _ (refs_shape hi)) (merge_same _)]
  refine congrFun (forAll_congr fun j hj => ?_) μ
  have := twice (V := V) (address i j) (fun x => (a.refs : Iter (Act V) (Lv V)).at (index x)) (fun x => (b.refs : Iter (Act V) (Lv V)).at (index x)) setOp (fun x μ => at_keeps a t ha _ μ)
  exact this.symm

/-- C119. And so are the two ways to copy a list of strips. -/
theorem C119_strips_same (dyn : Bool) (z : List Int) (hz : ∀ i ∈ z, i = 0) (dyn' : Bool) (z' : List Int) (a b i : View) (s : List Nat) (hi : Shaped i (s.map some)) (μ : Mem V) :
    copyStripsEach dyn z dyn' z' a b i μ = copyStrips dyn z dyn' z' a b i μ := by
  unfold copyStripsEach copyStrips
  rw [ply_forAll dyn z hz _ s (one_shape _ (refs_shape hi)), ply_forAll dyn z hz _ s (shape_two (one_shape _ (refs_shape hi)) (one_shape _ (refs_shape hi)) (merge_same _))]
  refine congrFun (forAll_congr fun j hj => ?_) μ
  have := twice (V := V) (address i j) (fun x => (do let w ← Act.lift (a.strip (index x)); pure (.view w))) (fun x => (do let w ← Act.lift (b.strip (index x)); pure (.view w))) (cellPut none dyn' z') (by
    intro x μ
    cases h : a.strip (index x) <;> rfl)
  simp only [bind_assoc, pure_bind, cellPut, put] at this
  exact this.symm

/-! ## What they do -/

/-- A sequence of copies, up to the first that isn't possible. -/
theorem copies_run {α : Type} (f : List Int → Act V α) (a : View) (t : List Nat) (fb : List Int → V) (S : List Int → List Int → Prop) (μ0 : Mem V) (l1 l2 : List (List Int))
    (hgood : ∀ j ∈ l1, ∀ μ1, SameOutside (InView a t) μ0 μ1 → (∀ k, Valid t k → (μ1 (address a k)).isSome) → ∃ r μ', f j μ1 = (.ok r, μ') ∧ Copied μ1 μ' t a fb (S j))
    (hbad : ∀ j ∈ l2.head?, ∀ μ1, SameOutside (InView a t) μ0 μ1 → f j μ1 = (.error .check, μ1)) (μ : Mem V) (ho : SameOutside (InView a t) μ0 μ) (hm : ∀ k, Valid t k → (μ (address a k)).isSome) :
    ∃ μ', forAll f (l1 ++ l2) μ = (if l2 = [] then .ok () else .error .check, μ') ∧ Copied μ μ' t a fb fun k => ∃ j ∈ l1, S j k := by
  induction l1 generalizing μ with
  | nil =>
    refine ⟨μ, ?_, fun _ _ => rfl, fun k hk => by simp⟩
    cases l2 with
    | nil => rfl
    | cons j l2 =>
      simp only [List.nil_append, forAll, reduceCtorEq, if_false]
      rw [act_bind, hbad j (by simp) μ ho]
  | cons j l1 ih =>
    obtain ⟨r, μ1, h1, h2, h3⟩ := hgood j (by simp) μ ho hm
    obtain ⟨μ', h4, h5, h6⟩ := ih (fun j hj => hgood j (by simp [hj])) μ1 (outside_trans ho h2 (fun _ h => h) (fun _ h => h)) (fun k hk => by
      by_cases e : S j k
      · rw [(h3 k hk).1 e]; rfl
      · rw [(h3 k hk).2 e]; exact hm k hk)
    refine ⟨μ', ?_, outside_trans h2 h5 (fun _ h => h) (fun _ h => h), fun k hk => ⟨?_, fun hn => ?_⟩⟩
    · rw [List.cons_append, forAll, act_bind_ok h1, h4]
    · rintro ⟨j', hj', h⟩
      by_cases e1 : ∃ j ∈ l1, S j k
      · exact (h6 k hk).1 e1
      · rw [(h6 k hk).2 e1]
        rcases List.mem_cons.1 hj' with rfl | hj'
        · exact (h3 k hk).1 h
        · exact absurd ⟨j', hj', h⟩ e1
    · rw [(h6 k hk).2 (by rintro ⟨j', hj', h⟩; exact hn ⟨j', by simp [hj'], h⟩), (h3 k hk).2 (fun h => hn ⟨j, by simp, h⟩)]

theorem mem_of_head {α : Type} {l : List α} {x : α} (h : x ∈ l.head?) : x ∈ l := by
  cases l with
  | nil => simp at h
  | cons y l => simp at h; simp [h]

/-- C119. Any of the ways to copy the elements at a list of positions `i`. The elements of `a` at the positions that come before the first that's out of range (all of them if there isn't any; these are `l1`) become those of `b`. Nothing else changes. If there's
a position out of range then the check fails. -/
theorem C119_points (dyn : Bool) (z : List Int) (hz : ∀ i ∈ z, i = 0) (a b i : View) (t s : List Nat) (μ : Mem V) (fb I : List Int → V) (h : Pairing μ t a b fb) (hi : ListOf μ a t i s I)
    (hlen : ∀ j, Valid s j → (index (I j)).length = t.length)
    (l1 l2 : List (List Int)) (hl : rowMajor s = l1 ++ l2) (h1 : ∀ j ∈ l1, Valid t (index (I j))) (h2 : ∀ j ∈ l2.head?, ¬ Valid t (index (I j))) :
    ∀ way ∈ [copyAt dyn z a b i, copyAtEach dyn z a b i],
      ∃ μ', way μ = (if l2 = [] then .ok () else .error .check, μ') ∧ Copied μ μ' t a fb fun k => ∃ j ∈ l1, index (I j) = k := by
  have key : ∃ μ', copyAt dyn z a b i μ = (if l2 = [] then .ok () else .error .check, μ') ∧ Copied μ μ' t a fb fun k => ∃ j ∈ l1, index (I j) = k := by
    have hmem : ∀ j, j ∈ l1 ++ l2 → Valid s j := fun j hj => mem_rowMajor.1 (hl ▸ hj)
    unfold copyAt assign
    rw [run_forAll dyn z hz _ _ _ (s.map some) (s.map some) s (atArray_shape _ (refs_shape hi.shape)) (atArray_shape _ (refs_shape hi.shape)) (merge_same _), hl]
    have hread : ∀ j, Valid s j → ∀ μ1, SameOutside (InView a t) μ μ1 → Reads μ1 (elem i.refs j) (I j) := fun j hj μ1 ho => reads_refs (by rw [ho _ (hi.apart j hj)]; exact hi.value j hj)
    refine copies_run _ a t fb (fun j k => index (I j) = k) μ l1 l2 ?_ ?_ μ (fun _ _ => rfl) h.memory
    · intro j hj μ1 ho hm
      have hr := hread j (hmem j (by simp [hj])) μ1 ho
      have hv := h1 j hj
      have e1 := ((C90_gather a.refs i.refs _ _ (refs_shape h.shapeA) (refs_shape hi.shape)).2 j μ1 _ hr).1 (inRange_of_valid hv)
      have e2 := ((C90_gather b.refs i.refs _ _ (refs_shape h.shapeB) (refs_shape hi.shape)).2 j μ1 _ hr).1 (inRange_of_valid hv)
      refine ⟨_, _, set_run (p := address a (index (I j))) (v := fb (index (I j))) e1 ?_ (hm _ hv), ?_, fun k hk => ⟨?_, fun e => ?_⟩⟩
      · have : μ1 (address b (index (I j))) = some (fb (index (I j))) := by rw [ho _ (h.apart _ hv)]; exact h.valueB _ hv
        have e3 : Reads μ1 (elem b.refs (index (I j))) (fb (index (I j))) := reads_refs this
        unfold Reads at e3 ⊢
        rw [act_bind] at e3 ⊢
        rw [e2]
        exact e3
      · intro p hp
        simp only [Mem.upd]
        rw [if_neg]
        rintro rfl
        exact hp ⟨_, hv, rfl⟩
      · rintro rfl
        simp [Mem.upd]
      · simp only [Mem.upd]
        rw [if_neg (fun h' => e (h.distinct _ _ hv hk h'.symm))]
    · intro j hj μ1 ho
      have hr := hread j (hmem j (by simp [mem_of_head hj])) μ1 ho
      have e1 := ((C90_gather a.refs i.refs _ _ (refs_shape h.shapeA) (refs_shape hi.shape)).2 j μ1 _ hr).2 a rfl (fun hin => h2 j hj (valid_of_inRange (hlen j (hmem j (by simp [mem_of_head hj]))) hin))
      rw [mapM_two, act_bind, e1]
  intro way hw
  rcases List.mem_cons.1 hw with rfl | hw
  · exact key
  · rw [List.mem_singleton.1 hw, C119_points_same dyn z hz a b i t s h.shapeA hi.shape μ]
    exact key

theorem inStrip_iff (i j0 j1 : Int) (k : List Int) : InStrip [i, j0, j1] k ↔ ∃ j, k = [i, j] ∧ j0 ≤ j ∧ j ≤ j1 := by
  constructor
  · rintro ⟨_, _, _, j, h, rfl, h1, h2⟩
    cases h
    exact ⟨j, rfl, h1, h2⟩
  · rintro ⟨j, rfl, h1, h2⟩
    exact ⟨_, _, _, j, rfl, rfl, h1, h2⟩

theorem stripIn_iff (n m : Nat) (i j0 j1 : Int) : StripIn n m [i, j0, j1] ↔ (0 ≤ i ∧ i < n) ∧ ∀ j, j0 ≤ j → j ≤ j1 → 0 ≤ j ∧ j < m := by
  unfold StripIn
  constructor
  · rintro ⟨h1, h2⟩
    refine ⟨h1 i (by simp), fun j h3 h4 => ?_⟩
    exact (h2 [i, j] ((inStrip_iff _ _ _ _).2 ⟨j, rfl, h3, h4⟩)).2.2 |> fun h => ⟨h.1, h.2.1⟩
  · rintro ⟨h1, h2⟩
    refine ⟨by simpa using h1, fun k hk => ?_⟩
    obtain ⟨j, rfl, h3, h4⟩ := (inStrip_iff _ _ _ _).1 hk
    have := h2 j h3 h4
    exact ⟨h1.1, h1.2, this.1, this.2, trivial⟩

theorem strip_accepts (a : View) (n m : Nat) (ha : Shaped a ([n, m].map some)) (i j0 j1 : Int) (r : Nat) (hr : (r : Int) = j1 - j0 + 1) :
    Accepts a.dims [.at i, .range r j0 1] ↔ StripIn n m [i, j0, j1] := by
  obtain ⟨d, e, hv⟩ := view_two ha
  rw [stripIn_iff, hv]
  simp only [Accepts, and_true]
  have hu : ¬ ((n : Int) = UNB ∧ d = 0) := by simp [UNB]
  constructor
  · rintro ⟨h1, h2⟩
    refine ⟨h1.resolve_right hu, fun j h3 h4 => ?_⟩
    have := h2 (j - j0).toNat (by omega)
    omega
  · rintro ⟨h1, h2⟩
    refine ⟨.inl h1, fun k hk => ?_⟩
    have := h2 (j0 + k) (by omega) (by omega)
    omega

theorem strip_in (a : View) (n m : Nat) (ha : Shaped a ([n, m].map some)) (i j0 j1 : Int) (r : Nat) (hr : (r : Int) = j1 - j0 + 1) (h : StripIn n m [i, j0, j1]) :
    ∃ w, a.strip [i, j0, j1] = .ok w ∧ Shaped w (([r] : List Nat).map some) ∧ ∀ k, Valid [r] k → address w k = address a [i, j0 + k.getD 0 0] ∧ Valid [n, m] [i, j0 + k.getD 0 0] := by
  obtain ⟨w, h1, h2, h3⟩ := C13_slice a _ ha [.at i, .range r j0 1] (by simp [axes]) ((strip_accepts a n m ha i j0 j1 r hr).2 h)
  refine ⟨w, ?_, h2, fun k hk => ?_⟩
  · rw [← h1]
    simp only [View.strip, List.map_cons, List.map_nil, write, hr]
  · obtain ⟨h4, h5⟩ := h3 k (inRange_of_valid hk)
    have e : sliceIndex [.at i, .range r j0 1] k = [i, j0 + k.getD 0 0] := by
      obtain ⟨x, rfl, _⟩ := valid_one.1 hk
      simp [sliceIndex]
    rw [e] at h4 h5
    exact ⟨h4, valid_of_inRange (by simp) h5⟩

theorem strip_out (a : View) (n m : Nat) (ha : Shaped a ([n, m].map some)) (c : List Int) (hc : IsStrip c) (h : ¬ StripIn n m c) : a.strip c = .error .check := by
  obtain ⟨i, j0, j1, rfl, h0⟩ := hc
  obtain ⟨r, hr⟩ : ∃ r : Nat, (r : Int) = j1 - j0 + 1 := ⟨(j1 - j0 + 1).toNat, by omega⟩
  rw [← C11_reject a _ ha [.at i, .range r j0 1] (by simp [axes]) (fun h' => h ((strip_accepts a n m ha i j0 j1 r hr).1 h'))]
  simp only [View.strip, List.map_cons, List.map_nil, write, hr]

/-- C119. Any of the ways to copy the elements on a list of strips `i`, each of which is a row, the first column and the last. The elements of `a` on the strips that come before the first that isn't in the matrix (all of them if there isn't any; these are
`l1`) become those of `b`. Nothing else changes. If there's a strip that isn't in the matrix then the check fails. -/
theorem C119_strips (dyn : Bool) (z : List Int) (hz : ∀ i ∈ z, i = 0) (dyn' : Bool) (z' : List Int) (hz' : ∀ i ∈ z', i = 0) (a b i : View) (n m : Nat) (s : List Nat) (μ : Mem V) (fb I : List Int → V)
    (h : Pairing μ [n, m] a b fb) (hi : ListOf μ a [n, m] i s I) (hs : ∀ j, Valid s j → IsStrip (index (I j)))
    (l1 l2 : List (List Int)) (hl : rowMajor s = l1 ++ l2) (h1 : ∀ j ∈ l1, StripIn n m (index (I j))) (h2 : ∀ j ∈ l2.head?, ¬ StripIn n m (index (I j))) :
    ∀ way ∈ [copyStrips dyn z dyn' z' a b i, copyStripsEach dyn z dyn' z' a b i],
      ∃ μ', way μ = (if l2 = [] then .ok () else .error .check, μ') ∧ Copied μ μ' [n, m] a fb fun k => ∃ j ∈ l1, InStrip (index (I j)) k := by
  have key : ∃ μ', copyStrips dyn z dyn' z' a b i μ = (if l2 = [] then .ok () else .error .check, μ') ∧ Copied μ μ' [n, m] a fb fun k => ∃ j ∈ l1, InStrip (index (I j)) k := by
    have hmem : ∀ j, j ∈ l1 ++ l2 → Valid s j := fun j hj => mem_rowMajor.1 (hl ▸ hj)
    unfold copyStrips
    rw [ply_forAll dyn z hz _ s (shape_two (one_shape _ (refs_shape hi.shape)) (one_shape _ (refs_shape hi.shape)) (merge_same _)), hl]
    have hread : ∀ (c : View) j, Valid s j → ∀ μ1, SameOutside (InView a [n, m]) μ μ1 →
        elem (Iter.node (mapOp (stripOp c)) [i.refs]) j μ1 = (do let w ← Act.lift (c.strip (index (I j))); pure (Lv.view w) : Act V (Lv V)) μ1 := by
      intro c j hj μ1 ho
      show mapOp (stripOp c) [pure (Lv.ref (address i j))] μ1 = _
      simp only [mapOp, List.mapM_cons, List.mapM_nil, id_eq, pure_bind, stripOp, Lv.get]
      rw [act_bind_ok (a := I j) (μ' := μ1)]
      simp [Act.read, ho _ (hi.apart j hj), hi.value j hj]
    refine copies_run _ a [n, m] fb (fun j k => InStrip (index (I j)) k) μ l1 l2 ?_ ?_ μ (fun _ _ => rfl) h.memory
    · intro j hj μ1 ho hm
      have hv := hmem j (by simp [hj])
      have hsi := h1 j hj
      obtain ⟨i', j0, j1, e, h0⟩ := hs j hv
      obtain ⟨r, hr⟩ : ∃ r : Nat, (r : Int) = j1 - j0 + 1 := ⟨(j1 - j0 + 1).toNat, by omega⟩
      rw [e] at hsi
      obtain ⟨w, hw1, hw2, hw3⟩ := strip_in a n m h.shapeA i' j0 j1 r hr hsi
      obtain ⟨u, hu1, hu2, hu3⟩ := strip_in b n m h.shapeB i' j0 j1 r hr hsi
      have hX : ∀ p, InView w [r] p → InView a [n, m] p := by
        rintro p ⟨k, hk, rfl⟩
        exact ⟨_, (hw3 k hk).2, (hw3 k hk).1⟩
      have hone : ∀ k k' : List Int, Valid [r] k → Valid [r] k' → k.getD 0 0 = k'.getD 0 0 → k = k' := by
        intro k k' hk hk' hkk
        obtain ⟨x, rfl, _⟩ := valid_one.1 hk
        obtain ⟨y, rfl, _⟩ := valid_one.1 hk'
        simpa using hkk
      obtain ⟨old, hold⟩ : ∃ old, ElemsAre μ1 w [r] old := ⟨fun k => (μ1 (address w k)).getD (fb []), fun k hk => by
        obtain ⟨x, hx⟩ := Option.isSome_iff_exists.mp (hm _ (hw3 k hk).2)
        simp only [(hw3 k hk).1, hx, Option.getD_some]⟩
      obtain ⟨μ', h3, h4, h5⟩ := cellPut_run none dyn' z' hz' w [r] hw2 (by
          intro k k' hk hk' hkk
          rw [(hw3 k hk).1, (hw3 k' hk').1] at hkk
          have := h.distinct _ _ (hw3 k hk).2 (hw3 k' hk').2 hkk
          exact hone k k' hk hk' (by simpa using this)) (InView a [n, m]) hX μ μ1 ho old (fun k => fb [i', j0 + k.getD 0 0]) hold (elem (Iter.node (mapOp (stripOp a)) [i.refs]) j)
        (elem (Iter.node (mapOp (stripOp b)) [i.refs]) j) (by
          rw [hread a j hv μ1 ho, e, hw1]; rfl) (by
          intro μ2 ho2
          refine ⟨.view u, by rw [hread b j hv μ2 ho2, e, hu1]; rfl, .inl ⟨u, rfl, hu2, fun μ3 ho3 k hk => ?_⟩⟩
          rw [(hu3 k hk).1, ho3 _ (h.apart _ (hu3 k hk).2)]
          exact h.valueB _ (hu3 k hk).2)
      refine ⟨_, μ', h3, outside_trans (fun _ _ => rfl) h4 (fun _ h => h) hX, fun k hk => ⟨?_, fun hn => ?_⟩⟩
      · beta_reduce
        rw [e, inStrip_iff]
        rintro ⟨x, rfl, hx1, hx2⟩
        have hvx : Valid [r] [x - j0] := valid_one.2 ⟨_, rfl, by omega, by omega⟩
        have := h5 _ hvx
        rw [(hw3 _ hvx).1] at this
        simpa [putVal] using this
      · refine h4 _ ?_
        rintro ⟨k', hk', he⟩
        rw [(hw3 k' hk').1] at he
        have := h.distinct _ _ hk (hw3 k' hk').2 he
        refine hn ?_
        beta_reduce
        rw [e, inStrip_iff]
        refine ⟨_, this, ?_⟩
        obtain ⟨y, rfl, hy⟩ := valid_one.1 hk'
        simp only [List.getD_cons_zero]
        omega
    · intro j hj μ1 ho
      have hv := hmem j (by simp [mem_of_head hj])
      show mapOp (cellPut none dyn' z') [elem (Iter.node (mapOp (stripOp a)) [i.refs]) j, _] μ1 = _
      rw [mapM_two, act_bind, hread a j hv μ1 ho, strip_out a n m h.shapeA _ (hs j hv) (h2 j hj)]
      rfl
  intro way hw
  rcases List.mem_cons.1 hw with rfl | hw
  · exact key
  · rw [List.mem_singleton.1 hw, C119_strips_same dyn z hz dyn' z' a b i s hi.shape μ]
    exact key

/-! ## The circle -/

theorem ratInt_int (x : Int) : ratInt (x : Rat) = x := by
  unfold ratInt
  split_ifs <;> simp

theorem root_iff (q : Rat) (hq : 0 ≤ q) (e : Int) : -((Nat.sqrt ⌊q⌋.toNat : Nat) : Int) ≤ e ∧ e ≤ (Nat.sqrt ⌊q⌋.toNat : Nat) ↔ (e : Rat) * e ≤ q := by
  have h0 : 0 ≤ ⌊q⌋ := Int.floor_nonneg.2 hq
  have h1 : (e : Rat) * e ≤ q ↔ e * e ≤ ⌊q⌋ := by
    rw [Int.le_floor]; push_cast; rfl
  have h2 : e * e ≤ ⌊q⌋ ↔ e.natAbs * e.natAbs ≤ ⌊q⌋.toNat := by
    have := Int.natAbs_mul_self (a := e)
    omega
  rw [h1, h2, ← Nat.le_sqrt]
  omega

theorem circleStrip_odd (h : Nat) (r : Rat) (i : Nat) (hi : i < 2 * h + 1) :
    circleStrip (2 * h + 1) r i = if r * r - (((i : Int) - h : Int) : Rat) * (((i : Int) - h : Int) : Rat) < 0 then [] else
      let d : Int := Nat.sqrt ⌊r * r - (((i : Int) - h : Int) : Rat) * (((i : Int) - h : Int) : Rat)⌋.toNat
      [[(i : Int), h - d, h + d]] := by
  have e1 : (((2 * h + 1 : Nat) : Rat) - 1) / 2 = h := by push_cast; ring
  have e2 : ((i : Rat) - h) = (((i : Int) - h : Int) : Rat) := by push_cast; ring
  unfold circleStrip
  simp only [e1, e2]
  split_ifs with hq
  · rfl
  · set d : Int := ((Nat.sqrt ⌊r * r - (((i : Int) - h : Int) : Rat) * (((i : Int) - h : Int) : Rat)⌋.toNat : Nat) : Int)
    have e3 : (h : Rat) - (d : Rat) = ((h - d : Int) : Rat) := by push_cast; ring
    have e4 : (h : Rat) + (d : Rat) = ((h + d : Int) : Rat) := by push_cast; ring
    rw [e3, e4, ratInt_int, ratInt_int]

/-- C119. In a square of odd side, the strips that the loop lists are the disc: an element is in one of them if its distance to the centre isn't more than the radius. They are all in the square. -/
theorem C119_circle (h : Nat) (r : Rat) (hr : 0 ≤ r) (hlt : r < h + 1) :
    (∀ c ∈ circleStrips (2 * h + 1) r, IsStrip c ∧ StripIn (2 * h + 1) (2 * h + 1) c) ∧
    ∀ i j : Int, 0 ≤ i → i < 2 * h + 1 → ((∃ c ∈ circleStrips (2 * h + 1) r, InStrip c [i, j]) ↔ ((i - h : Int) : Rat) ^ 2 + ((j - h : Int) : Rat) ^ 2 ≤ r ^ 2) := by
  have hmem : ∀ c, c ∈ circleStrips (2 * h + 1) r ↔ ∃ i : Nat, i < 2 * h + 1 ∧ c ∈ circleStrip (2 * h + 1) r i := by
    intro c
    simp [circleStrips, List.mem_flatMap]
  constructor
  · intro c hc
    obtain ⟨i, hi, hc⟩ := (hmem c).1 hc
    rw [circleStrip_odd h r i hi] at hc
    split_ifs at hc with hq
    · simp at hc
    · simp only [List.mem_singleton] at hc
      subst hc
      set q := r * r - (((i : Int) - h : Int) : Rat) * (((i : Int) - h : Int) : Rat)
      have hd : ((Nat.sqrt ⌊q⌋.toNat : Nat) : Int) ≤ h := by
        have h1 := (root_iff q (not_lt.1 hq) (Nat.sqrt ⌊q⌋.toNat : Nat)).1 ⟨by omega, le_refl _⟩
        by_contra hn
        have h2 : ((h + 1 : Nat) : Rat) ≤ (((Nat.sqrt ⌊q⌋.toNat : Nat) : Int) : Rat) := by
          have : (((h + 1 : Nat) : Int)) ≤ ((Nat.sqrt ⌊q⌋.toNat : Nat) : Int) := by omega
          exact_mod_cast this
        have h3 : q ≤ r * r := by
          have := mul_self_nonneg ((((i : Int) - h : Int) : Rat))
          simp only [q]; linarith
        push_cast at h2
        have h4 : r * r < ((h : Rat) + 1) * (h + 1) := by nlinarith
        push_cast at h1
        nlinarith
      refine ⟨⟨_, _, _, rfl, by omega⟩, (stripIn_iff _ _ _ _ _).2 ⟨by omega, fun j h1 h2 => ?_⟩⟩
      push_cast
      omega
  · intro i j h0 h1
    obtain ⟨i, rfl⟩ : ∃ n : Nat, i = n := ⟨i.toNat, by omega⟩
    have key : (∃ c ∈ circleStrips (2 * h + 1) r, InStrip c [(i : Int), j]) ↔ ∃ c ∈ circleStrip (2 * h + 1) r i, InStrip c [(i : Int), j] := by
      constructor
      · rintro ⟨c, hc, hs⟩
        obtain ⟨i', hi', hc⟩ := (hmem c).1 hc
        have : i' = i := by
          rw [circleStrip_odd h r i' hi'] at hc
          split_ifs at hc with hq
          · simp at hc
          · simp only [List.mem_singleton] at hc
            subst hc
            obtain ⟨x, e, _⟩ := (inStrip_iff _ _ _ _).1 hs
            simp only [List.cons.injEq] at e
            omega
        subst this
        exact ⟨c, hc, hs⟩
      · rintro ⟨c, hc, hs⟩
        exact ⟨c, (hmem c).2 ⟨i, by omega, hc⟩, hs⟩
    rw [key, circleStrip_odd h r i (by omega)]
    set q := r * r - (((i : Int) - h : Int) : Rat) * (((i : Int) - h : Int) : Rat) with hqd
    have goal : (((i : Int) - h : Int) : Rat) ^ 2 + ((j - h : Int) : Rat) ^ 2 ≤ r ^ 2 ↔ ((j - h : Int) : Rat) * ((j - h : Int) : Rat) ≤ q := by
      rw [hqd, sq, sq, sq]
      constructor <;> intro h <;> linarith
    rw [goal]
    split_ifs with hq
    · simp only [List.not_mem_nil, false_and, exists_false, false_iff, not_le]
      exact lt_of_lt_of_le hq (mul_self_nonneg _)
    · rw [← root_iff q (not_lt.1 hq)]
      simp only [List.mem_singleton, exists_eq_left, inStrip_iff, List.cons.injEq, and_true, true_and]
      constructor
      · rintro ⟨x, rfl, h2, h3⟩
        omega
      · intro h2
        exact ⟨j, rfl, by omega, by omega⟩

/-- C119. If the side is even then the strips aren't the disc, because the ends are converted to integers one by one. -/
theorem C119_circle_even : ∃ (N : Nat) (r : Rat), 0 ≤ r ∧ r < N / 2 ∧ ∃ i j : Int, (∃ c ∈ circleStrips N r, InStrip c [i, j]) ∧ r ^ 2 < ((i : Rat) - (N - 1) / 2) ^ 2 + ((j : Rat) - (N - 1) / 2) ^ 2 :=
  ⟨6, 12/5, by norm_num, by norm_num, 2, 0, ⟨[2, 0, 4], by decide +kernel, ⟨2, 0, 4, 0, rfl, rfl, by omega, by omega⟩⟩, by norm_num⟩

/-- C119. So the copy of the strips is a copy of the disc. -/
theorem C119_disc (dyn : Bool) (z : List Int) (hz : ∀ i ∈ z, i = 0) (dyn' : Bool) (z' : List Int) (hz' : ∀ i ∈ z', i = 0) (a b i : View) (h : Nat) (r : Rat) (hr : 0 ≤ r) (hlt : r < h + 1) (μ : Mem V) (fb I : List Int → V)
    (hab : Pairing μ [2 * h + 1, 2 * h + 1] a b fb) (hi : ListOf μ a [2 * h + 1, 2 * h + 1] i [(circleStrips (2 * h + 1) r).length] I)
    (hI : ∀ (k : Nat) (hk : k < (circleStrips (2 * h + 1) r).length), index (I [(k : Int)]) = (circleStrips (2 * h + 1) r)[k]) :
    ∀ way ∈ [copyStrips dyn z dyn' z' a b i, copyStripsEach dyn z dyn' z' a b i],
      ∃ μ', way μ = (.ok (), μ') ∧ Copied μ μ' [2 * h + 1, 2 * h + 1] a fb fun k => ((k.getD 0 0 - h : Int) : Rat) ^ 2 + ((k.getD 1 0 - h : Int) : Rat) ^ 2 ≤ r ^ 2 := by
  obtain ⟨h1, h2⟩ := C119_circle h r hr hlt
  have hidx : ∀ j, Valid [(circleStrips (2 * h + 1) r).length] j → index (I j) ∈ circleStrips (2 * h + 1) r := by
    intro j hj
    obtain ⟨x, rfl, h3, h4⟩ := valid_one.1 hj
    obtain ⟨k, rfl⟩ : ∃ k : Nat, x = k := ⟨x.toNat, by omega⟩
    rw [hI k (by omega)]
    exact List.getElem_mem _
  intro way hw
  obtain ⟨μ', h3, h4, h5⟩ := C119_strips dyn z hz dyn' z' hz' a b i _ _ _ μ fb I hab hi (fun j hj => (h1 _ (hidx j hj)).1) (rowMajor [(circleStrips (2 * h + 1) r).length]) [] (by simp)
    (fun j hj => (h1 _ (hidx j (mem_rowMajor.1 hj))).2) (by simp) way hw
  refine ⟨μ', by simpa using h3, h4, fun k hk => ?_⟩
  obtain ⟨x, y, rfl, hx, hx', hy, hy'⟩ : ∃ x y : Int, k = [x, y] ∧ 0 ≤ x ∧ x < 2 * h + 1 ∧ 0 ≤ y ∧ y < 2 * h + 1 := by
    match k, hk with
    | [x, y], ⟨h1, h2, h3, h4, _⟩ => exact ⟨x, y, rfl, h1, by push_cast at h2; omega, h3, by push_cast at h4; omega⟩
  have e : (∃ j ∈ rowMajor [(circleStrips (2 * h + 1) r).length], InStrip (index (I j)) [x, y]) ↔ ((x - h : Int) : Rat) ^ 2 + ((y - h : Int) : Rat) ^ 2 ≤ r ^ 2 := by
    rw [← h2 x y hx hx']
    constructor
    · rintro ⟨j, hj, h6⟩
      exact ⟨_, hidx j (mem_rowMajor.1 hj), h6⟩
    · rintro ⟨c, hc, h6⟩
      obtain ⟨k, hk', rfl⟩ := List.getElem_of_mem hc
      exact ⟨[(k : Int)], mem_rowMajor.2 (valid_one.2 ⟨_, rfl, by omega, by omega⟩), by rw [hI k hk']; exact h6⟩
  have := h5 _ hk
  beta_reduce at this
  rw [e] at this
  exact this

end

/-! ## Examples -/

/-- examples/indirect.cc example1: `A` is 4 x 4 at 0, `B` at 16, and the positions are at 32. -/
def egPoints : Mem NumOrIndex := fun p =>
  if 0 ≤ p ∧ p < 16 then some (.num 0) else if 16 ≤ p ∧ p < 32 then some (.num (10 * ((p - 16) / 4) + (p - 16) % 4)) else if p = 32 then some (.idx [1, 1]) else if p = 33 then some (.idx [2, 2]) else
    if p = 34 then some (.idx [4, 0]) else none

example : (copyAt true [] ⟨[⟨4, 4⟩, ⟨4, 1⟩], 0⟩ ⟨[⟨4, 4⟩, ⟨4, 1⟩], 16⟩ ⟨[⟨2, 1⟩], 32⟩ egPoints).1 = .ok () ∧
    (List.range 16).map (fun p => (copyAt true [] ⟨[⟨4, 4⟩, ⟨4, 1⟩], 0⟩ ⟨[⟨4, 4⟩, ⟨4, 1⟩], 16⟩ ⟨[⟨2, 1⟩], 32⟩ egPoints).2 (p : Nat)) =
      [0, 0, 0, 0, 0, 11, 0, 0, 0, 0, 22, 0, 0, 0, 0, 0].map (fun x : Int => some (NumOrIndex.num x)) ∧
    (copyAtEach true [] ⟨[⟨4, 4⟩, ⟨4, 1⟩], 0⟩ ⟨[⟨4, 4⟩, ⟨4, 1⟩], 16⟩ ⟨[⟨3, 1⟩], 32⟩ egPoints).1 = .error .check := by
  decide +kernel

theorem egPoints_pairing : Pairing egPoints [4, 4] ⟨[⟨4, 4⟩, ⟨4, 1⟩], 0⟩ ⟨[⟨4, 4⟩, ⟨4, 1⟩], 16⟩ (fun k => .num (10 * k.getD 0 0 + k.getD 1 0)) where
  shapeA := .cons rfl (.cons rfl .nil)
  shapeB := .cons rfl (.cons rfl .nil)
  distinct j k hj hk h := by
    have : ∀ a ∈ rowMajor [4, 4], ∀ b ∈ rowMajor [4, 4], address ⟨[⟨4, 4⟩, ⟨4, 1⟩], 0⟩ a = address ⟨[⟨4, 4⟩, ⟨4, 1⟩], 0⟩ b → a = b := by decide +kernel
    exact this j (mem_rowMajor.2 hj) k (mem_rowMajor.2 hk) h
  memory k hk := by
    have : ∀ k ∈ rowMajor [4, 4], (egPoints (address ⟨[⟨4, 4⟩, ⟨4, 1⟩], 0⟩ k)).isSome = true := by decide +kernel
    exact this k (mem_rowMajor.2 hk)
  valueB k hk := by
    have : ∀ k ∈ rowMajor [4, 4], egPoints (address ⟨[⟨4, 4⟩, ⟨4, 1⟩], 16⟩ k) = some (.num (10 * k.getD 0 0 + k.getD 1 0)) := by decide +kernel
    exact this k (mem_rowMajor.2 hk)
  apart k hk := by
    rintro ⟨j, hj, h⟩
    have : ∀ k ∈ rowMajor [4, 4], ∀ j ∈ rowMajor [4, 4], address ⟨[⟨4, 4⟩, ⟨4, 1⟩], 16⟩ k ≠ address ⟨[⟨4, 4⟩, ⟨4, 1⟩], 0⟩ j := by decide +kernel
    exact this k (mem_rowMajor.2 hk) j (mem_rowMajor.2 hj) h

theorem egPoints_list (n : Nat) (hn : n ≤ 3) : ListOf egPoints ⟨[⟨4, 4⟩, ⟨4, 1⟩], 0⟩ [4, 4] ⟨[⟨n, 1⟩], 32⟩ [n] (fun j => if j = [0] then .idx [1, 1] else if j = [1] then .idx [2, 2] else .idx [4, 0]) where
  shape := shaped_nat.mpr rfl
  value j hj := by
    obtain ⟨x, rfl, h0, h1⟩ := valid_one.1 hj
    obtain rfl | rfl | rfl : x = 0 ∨ x = 1 ∨ x = 2 := by omega
    · show egPoints 32 = _; decide +kernel
    · show egPoints 33 = _; decide +kernel
    · show egPoints 34 = _; decide +kernel
  apart j hj := by
    rintro ⟨k, hk, h⟩
    obtain ⟨x, rfl, h0, h1⟩ := valid_one.1 hj
    have : ∀ k ∈ rowMajor [4, 4], address ⟨[⟨4, 4⟩, ⟨4, 1⟩], 0⟩ k < 16 := by decide +kernel
    have h2 := this k (mem_rowMajor.2 hk)
    rw [← h] at h2
    simp only [address, dot, List.map_cons, List.map_nil, List.zipWith_cons_cons, List.zipWith_nil_right, List.sum_cons, List.sum_nil] at h2
    omega

/-- With 3 positions, the last out of range, the other two are copied and the check fails. -/
example (dyn : Bool) : ∃ μ', copyAtEach dyn [0] ⟨[⟨4, 4⟩, ⟨4, 1⟩], 0⟩ ⟨[⟨4, 4⟩, ⟨4, 1⟩], 16⟩ ⟨[⟨3, 1⟩], 32⟩ egPoints = (.error .check, μ') ∧ μ' 10 = some (.num 22) ∧ μ' 11 = some (.num 0) := by
  obtain ⟨μ', h1, _, h2⟩ := C119_points dyn [0] (by simp) _ _ _ [4, 4] [3] egPoints _ _ egPoints_pairing (egPoints_list 3 (by omega)) (by
    intro j hj
    split_ifs <;> rfl) [[0], [1]] [[2]] (by decide +kernel) (by
    intro j hj
    refine mem_rowMajor.1 ?_
    revert j
    decide +kernel) (by
    intro j hj hv
    have h := mem_rowMajor.2 hv
    clear hv
    revert h
    revert j
    decide +kernel) _ (List.mem_cons_of_mem _ (List.mem_singleton.2 rfl))
  refine ⟨μ', by simpa using h1, ?_, ?_⟩
  · exact (h2 [2, 2] (mem_rowMajor.1 (by decide +kernel))).1 ⟨[1], by simp, by decide +kernel⟩
  · exact ((h2 [2, 3] (mem_rowMajor.1 (by decide +kernel))).2 (by decide +kernel)).trans (by decide +kernel)

/-- examples/indirect.cc example4. -/
example : circleStrips 7 (28/10) = [[1, 2, 4], [2, 1, 5], [3, 1, 5], [4, 1, 5], [5, 2, 4]] := by decide +kernel

/-- A square of side 7 at 0 and another at 49, and the strips at 98. -/
def egDisc : Mem NumOrIndex := fun p =>
  if 0 ≤ p ∧ p < 49 then some (.num 0) else if 49 ≤ p ∧ p < 98 then some (.num 1) else ((circleStrips 7 (28/10))[(p - 98).toNat]?).map .idx

theorem egDisc_pairing : Pairing egDisc [7, 7] ⟨[⟨7, 7⟩, ⟨7, 1⟩], 0⟩ ⟨[⟨7, 7⟩, ⟨7, 1⟩], 49⟩ (fun _ => .num 1) where
  shapeA := .cons rfl (.cons rfl .nil)
  shapeB := .cons rfl (.cons rfl .nil)
  distinct j k hj hk h := by
    have : ∀ a ∈ rowMajor [7, 7], ∀ b ∈ rowMajor [7, 7], address ⟨[⟨7, 7⟩, ⟨7, 1⟩], 0⟩ a = address ⟨[⟨7, 7⟩, ⟨7, 1⟩], 0⟩ b → a = b := by decide +kernel
    exact this j (mem_rowMajor.2 hj) k (mem_rowMajor.2 hk) h
  memory k hk := by
    have : ∀ k ∈ rowMajor [7, 7], (egDisc (address ⟨[⟨7, 7⟩, ⟨7, 1⟩], 0⟩ k)).isSome = true := by decide +kernel
    exact this k (mem_rowMajor.2 hk)
  valueB k hk := by
    have : ∀ k ∈ rowMajor [7, 7], egDisc (address ⟨[⟨7, 7⟩, ⟨7, 1⟩], 49⟩ k) = some (.num 1) := by decide +kernel
    exact this k (mem_rowMajor.2 hk)
  apart k hk := by
    rintro ⟨j, hj, h⟩
    have : ∀ k ∈ rowMajor [7, 7], ∀ j ∈ rowMajor [7, 7], address ⟨[⟨7, 7⟩, ⟨7, 1⟩], 49⟩ k ≠ address ⟨[⟨7, 7⟩, ⟨7, 1⟩], 0⟩ j := by decide +kernel
    exact this k (mem_rowMajor.2 hk) j (mem_rowMajor.2 hj) h

theorem egDisc_list : ListOf egDisc ⟨[⟨7, 7⟩, ⟨7, 1⟩], 0⟩ [7, 7] ⟨[⟨5, 1⟩], 98⟩ [(circleStrips 7 (28/10)).length] (fun j => .idx ((circleStrips 7 (28/10)).getD (j.getD 0 0).toNat [])) where
  shape := by
    have : (circleStrips 7 (28/10)).length = 5 := by decide +kernel
    rw [this]
    exact .cons rfl .nil
  value j hj := by
    have : ∀ j ∈ rowMajor [(circleStrips 7 (28/10)).length], egDisc (address ⟨[⟨5, 1⟩], 98⟩ j) = some (.idx ((circleStrips 7 (28/10)).getD (j.getD 0 0).toNat [])) := by decide +kernel
    exact this j (mem_rowMajor.2 hj)
  apart j hj := by
    rintro ⟨k, hk, h⟩
    have : ∀ j ∈ rowMajor [(circleStrips 7 (28/10)).length], ∀ k ∈ rowMajor [7, 7], address ⟨[⟨5, 1⟩], 98⟩ j ≠ address ⟨[⟨7, 7⟩, ⟨7, 1⟩], 0⟩ k := by decide +kernel
    exact this j (mem_rowMajor.2 hj) k (mem_rowMajor.2 hk) h

/-- After the copy, the element at `[1, 2]` is 1, and that at `[1, 1]` is 0. -/
example (dyn dyn' : Bool) : ∃ μ', copyStripsEach dyn [] dyn' [] ⟨[⟨7, 7⟩, ⟨7, 1⟩], 0⟩ ⟨[⟨7, 7⟩, ⟨7, 1⟩], 49⟩ ⟨[⟨5, 1⟩], 98⟩ egDisc = (.ok (), μ') ∧ μ' 9 = some (.num 1) ∧ μ' 8 = some (.num 0) := by
  obtain ⟨μ', h1, _, h2⟩ := C119_disc dyn [] (by simp) dyn' [] (by simp) _ _ _ 3 (28/10) (by norm_num) (by norm_num) egDisc _ _ egDisc_pairing egDisc_list (by
    intro k hk
    simp only [MultiIndex.index, List.getD_cons_zero, Int.toNat_natCast]
    rw [List.getD_eq_getElem?_getD, List.getElem?_eq_getElem hk]
    rfl) _ (List.mem_cons_of_mem _ (List.mem_singleton.2 rfl))
  refine ⟨μ', h1, ?_, ?_⟩
  · exact (h2 [1, 2] (mem_rowMajor.1 (by decide +kernel))).1 (by norm_num)
  · exact ((h2 [1, 1] (mem_rowMajor.1 (by decide +kernel))).2 (by norm_num)).trans (by decide +kernel)

end Ra.Props
