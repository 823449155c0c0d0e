import Verif.Model.Where
import Verif.Props.Deriv
import Verif.Props.Indirect
/-!
# C121: `pick` and `where` are places to assign to, and masks
-/

namespace Ra.Spec

section
variable {V : Type}

/-- The array `k` of `as`, which is `⟨[], 0⟩` if there are not so many. -/
def alternative (as : List View) (k : Nat) : View := as.getD k ⟨[], 0⟩

/-- The memory where the assignment puts element `j`, if the selector is `P`. -/
def chosenPlace (as : List View) (P : List Int → Nat) (j : List Int) : Int := address (alternative as (P j)) j

/-- The arrays `as` have shape `s`, and the elements chosen by `P` at the indices in `l` are different places in memory. -/
structure Choices (μ : Mem V) (s : List Nat) (as : List View) (P : List Int → Nat) (l : List (List Int)) : Prop where
  shape : ∀ a ∈ as, Shaped a (s.map some)
  inside : ∀ j ∈ l, P j < as.length
  distinct : ∀ j ∈ l, ∀ k ∈ l, chosenPlace as P j = chosenPlace as P k → j = k
  memory : ∀ j ∈ l, (μ (chosenPlace as P j)).isSome

/-- The element at `j` of `e` has the value `x`, and the assignments at the other indices in `l` don't change this. -/
def Steady (μ : Mem V) (A : List Int → Int) (l : List (List Int)) (e : Iter (Act V) (Lv V)) (j : List Int) (x : V) : Prop :=
  ∀ μ', SameOutside (fun p => ∃ k ∈ l, k ≠ j ∧ p = A k) μ μ' → Reads μ' (elem e j) x

end
end Ra.Spec

namespace Ra.Props
open Spec

section
variable {V : Type}

theorem pickViews_shape (sel : V → Nat) {p : Iter (Act V) (Lv V)} {sp : List Length} (hp : HasShape p sp) {s : List Nat} {as : List View} (ha : ∀ a ∈ as, Shaped a (s.map some)) (hne : as ≠ [])
    (hm : Merge [sp, s.map some] (s.map some)) : HasShape (pickViews sel p as) (s.map some) := by
  have h1 : HasShapes (as.map (View.refs (V := V))) (as.map fun _ => s.map some) := by
    clear hne
    induction as with
    | nil => rfl
    | cons a as ih => exact ⟨_, _, rfl, refs_shape (ha a (by simp)), ih fun b hb => ha b (by simp [hb])⟩
  refine ⟨sp :: as.map fun _ => s.map some, ⟨_, _, rfl, hp, h1⟩, ?_⟩
  obtain ⟨a, ha'⟩ := List.exists_mem_of_ne_nil as hne
  obtain ⟨h2, _, h3⟩ := hm
  have hmem : ∀ x, x ∈ (sp :: as.map fun _ => s.map some) ↔ x ∈ [sp, s.map some] := by
    intro x
    simp only [List.mem_cons, List.mem_map, List.not_mem_nil, or_false]
    constructor
    · rintro (h | ⟨_, _, h⟩)
      · exact .inl h
      · exact .inr h.symm
    · rintro (h | h)
      · exact .inl h
      · exact .inr ⟨a, ha', h.symm⟩
  refine ⟨fun x hx => h2 x ((hmem x).1 hx), ⟨s.map some, (hmem _).2 (by simp), rfl⟩, fun k n => ?_⟩
  rw [h3]
  exact exists_congr fun x => and_congr_left fun _ => (hmem x).symm

theorem pickStar_refs {m : Type → Type} [MonadFault m] {α : Type} (I k : Nat) (l : List (m α)) (d : m α) (h : k < l.length) : pickStar I (I + k) l = l.getD k d := by
  induction l generalizing I k with
  | nil => simp at h
  | cons x l ih =>
    rcases k with _ | k
    · simp [pickStar]
    · rw [pickStar, if_neg (by omega), show I + (k + 1) = I + 1 + k by omega, ih (I + 1) k (by simpa using h)]
      rfl

theorem pickStar_none {m : Type → Type} [MonadFault m] {α : Type} (I k : Nat) (l : List (m α)) (h : l.length ≤ k) : pickStar I (I + k) l = fault .check := by
  induction l generalizing I k with
  | nil => rfl
  | cons x l ih =>
    simp only [List.length_cons] at h
    obtain ⟨k, rfl⟩ : ∃ i, k = i + 1 := ⟨k - 1, by omega⟩
    rw [pickStar, if_neg (by omega), show I + (k + 1) = I + 1 + k by omega, ih (I + 1) k (by omega)]

theorem elems_refs (as : List View) (j : List Int) : elems (as.map (View.refs (V := V))) j = as.map fun a => (elem a.refs j : Act V (Lv V)) := by
  induction as with
  | nil => rfl
  | cons a as ih => simp only [List.map_cons, elems, ih]

/-- The element of `pick` at `j` is a reference to that of the array chosen. -/
theorem pick_refers {sel : V → Nat} {p : Iter (Act V) (Lv V)} {as : List View} {μ : Mem V} {j : List Int} {x : V} (hp : Reads μ (elem p j) x) (h : sel x < as.length) :
    Refers μ (elem (pickViews sel p as) j) (address (alternative as (sel x)) j) := by
  obtain ⟨r, h1, h2⟩ := reads_elim hp
  simp only [Refers, pickViews, elem, elems, elems_refs, pickIn]
  rw [act_bind_ok h1]
  show (r.get >>= fun x => pickStar 0 (sel x) _) μ = _
  rw [act_bind_ok h2]
  have h3 := pickStar_refs 0 (sel x) (as.map fun a => (elem a.refs j : Act V (Lv V))) (elem (View.refs ⟨[], 0⟩) j) (by simpa using h)
  rw [Nat.zero_add] at h3
  have h4 : (as.map fun a => (elem a.refs j : Act V (Lv V))).getD (sel x) (elem (View.refs ⟨[], 0⟩) j) = elem (alternative as (sel x)).refs j := by
    simp [alternative, List.getD, List.getElem?_eq_getElem h]
  rw [h3, h4]
  exact refers_refs μ _ j

theorem pick_fails {sel : V → Nat} {p : Iter (Act V) (Lv V)} {as : List View} {μ : Mem V} {j : List Int} {x : V} (hp : Reads μ (elem p j) x) (h : as.length ≤ sel x) :
    elem (pickViews sel p as) j μ = (.error .check, μ) := by
  obtain ⟨r, h1, h2⟩ := reads_elim hp
  simp only [pickViews, elem, elems, elems_refs, pickIn]
  rw [act_bind_ok h1]
  show (r.get >>= fun x => pickStar 0 (sel x) _) μ = _
  rw [act_bind_ok h2]
  have h3 := pickStar_none 0 (sel x) (as.map fun a => (elem a.refs j : Act V (Lv V))) (by simpa using h)
  rw [Nat.zero_add] at h3
  rw [h3]
  rfl

/-- The assignments at the indices in a list. -/
theorem sets_run (dst x : Iter (Act V) (Lv V)) (A : List Int → Int) (f : List Int → V) (l0 : List (List Int)) (μ : Mem V)
    (hinj : ∀ j ∈ l0, ∀ k ∈ l0, A j = A k → j = k) (hmem : ∀ j ∈ l0, (μ (A j)).isSome)
    (hA : ∀ j ∈ l0, ∀ μ', SameOutside (fun p => ∃ k ∈ l0, k ≠ j ∧ p = A k) μ μ' → Refers μ' (elem dst j) (A j))
    (hf : ∀ j ∈ l0, Steady μ A l0 x j (f j)) : ∀ (l : List (List Int)), l.Nodup → (∀ j ∈ l, j ∈ l0) → ∀ μ1 : Mem V, (∀ p, (μ1 p).isSome = (μ p).isSome) →
      (∀ j ∈ l, SameOutside (fun p => ∃ k ∈ l0, k ≠ j ∧ p = A k) μ μ1) →
      ∃ μ', forAll (fun j => mapOp setOp [elem dst j, elem x j]) l μ1 = (.ok (), μ') ∧ (∀ j ∈ l, μ' (A j) = some (f j)) ∧ SameOutside (fun p => ∃ j ∈ l, p = A j) μ1 μ' := by
  intro l
  induction l with
  | nil => intro _ _ μ1 _ _; exact ⟨μ1, rfl, by simp, fun _ _ => rfl⟩
  | cons j l ih =>
    intro hn hv μ1 hs ho
    rw [List.nodup_cons] at hn
    have hj := hv j (by simp)
    have hrun : mapOp setOp [elem dst j, elem x j] μ1 = (.ok (.ref (A j)), μ1.upd (A j) (f j)) :=
      set_run (hA j hj μ1 (ho j (by simp))) (hf j hj μ1 (ho j (by simp))) (by rw [hs]; exact hmem j hj)
    obtain ⟨μ', h1, h2, h3⟩ := ih hn.2 (fun k hk => hv k (by simp [hk])) (μ1.upd (A j) (f j))
      (by
        intro p
        simp only [Mem.upd]
        split
        · next h => subst h; simp [hmem j hj]
        · exact hs p)
      (by
        intro k hk p hp
        have hne : j ≠ k := fun h => hn.1 (h ▸ hk)
        have hpj : p ≠ A j := fun h => hp ⟨j, hj, hne, h⟩
        simp only [Mem.upd, if_neg hpj]
        exact ho k (by simp [hk]) p hp)
    refine ⟨μ', ?_, ?_, ?_⟩
    · simp only [forAll]
      rw [act_bind_ok hrun, h1]
    · intro k hk
      rcases List.mem_cons.mp hk with rfl | hk
      · by_cases h : ∃ i ∈ l, A k = A i
        · obtain ⟨i, hi, he⟩ := h
          exact absurd (hinj k hj i (hv i (by simp [hi])) he ▸ hi) hn.1
        · rw [h3 _ h]; simp [Mem.upd]
      · exact h2 k hk
    · intro p hp
      rw [h3 p (fun ⟨i, hi, he⟩ => hp ⟨i, by simp [hi], he⟩)]
      have : p ≠ A j := fun h => hp ⟨j, by simp, h⟩
      simp [Mem.upd, this]

/-- C121. `pick(p, a0, a1, ...) = x` sets, for each index, the element of the array that `p` has there, and nothing else. -/
theorem C121_pick (dyn : Bool) (z : List Int) (hz : ∀ i ∈ z, i = 0) (sel : V → Nat) (p x : Iter (Act V) (Lv V)) (as : List View) (s : List Nat) (sp sx : List Length) (μ : Mem V) (P f : List Int → V) (hne : as ≠ [])
    (hp : HasShape p sp) (hmp : Merge [sp, s.map some] (s.map some)) (hx : HasShape x sx) (hmx : Merge [s.map some, sx] (s.map some))
    (hc : Choices μ s as (fun j => sel (P j)) (rowMajor s)) (hP : ∀ j, Valid s j → Steady μ (chosenPlace as fun j => sel (P j)) (rowMajor s) p j (P j))
    (hf : ∀ j, Valid s j → Steady μ (chosenPlace as fun j => sel (P j)) (rowMajor s) x j (f j)) :
    ∃ μ', assign dyn z (pickViews sel p as) x μ = (.ok (), μ') ∧ (∀ j, Valid s j → μ' (address (alternative as (sel (P j))) j) = some (f j)) ∧
      SameOutside (fun q => ∃ j, Valid s j ∧ q = address (alternative as (sel (P j))) j) μ μ' := by
  unfold assign
  rw [run_forAll dyn z hz _ _ x _ sx s (pickViews_shape sel hp hc.shape hne hmp) hx hmx]
  obtain ⟨μ', h1, h2, h3⟩ := sets_run (pickViews sel p as) x (chosenPlace as fun j => sel (P j)) f (rowMajor s) μ hc.distinct hc.memory
    (fun j hj μ1 h => pick_refers (hP j (mem_rowMajor.1 hj) μ1 h) (hc.inside j hj)) (fun j hj => hf j (mem_rowMajor.1 hj)) (rowMajor s) (nodup_rowMajor s) (fun _ h => h) μ (fun _ => rfl) (fun _ _ _ _ => rfl)
  exact ⟨μ', h1, fun j hj => h2 j (mem_rowMajor.2 hj), fun q hq => h3 q fun ⟨j, hj, e⟩ => hq ⟨j, mem_rowMajor.1 hj, e⟩⟩

/-- C121. If there is no such array as `p` says, then the check fails there. The elements before have been set, and nothing else. -/
theorem C121_bad (dyn : Bool) (z : List Int) (hz : ∀ i ∈ z, i = 0) (sel : V → Nat) (p x : Iter (Act V) (Lv V)) (as : List View) (s : List Nat) (sp sx : List Length) (μ : Mem V) (P f : List Int → V) (hne : as ≠ [])
    (hp : HasShape p sp) (hmp : Merge [sp, s.map some] (s.map some)) (hx : HasShape x sx) (hmx : Merge [s.map some, sx] (s.map some))
    (l r : List (List Int)) (b : List Int) (hl : rowMajor s = l ++ b :: r) (hb : as.length ≤ sel (P b))
    (hc : Choices μ s as (fun j => sel (P j)) l) (hP : ∀ j ∈ l ++ [b], Steady μ (chosenPlace as fun j => sel (P j)) l p j (P j))
    (hf : ∀ j ∈ l, Steady μ (chosenPlace as fun j => sel (P j)) l x j (f j)) :
    ∃ μ', assign dyn z (pickViews sel p as) x μ = (.error .check, μ') ∧ (∀ j ∈ l, μ' (address (alternative as (sel (P j))) j) = some (f j)) ∧
      SameOutside (fun q => ∃ j ∈ l, q = address (alternative as (sel (P j))) j) μ μ' := by
  unfold assign
  rw [run_forAll dyn z hz _ _ x _ sx s (pickViews_shape sel hp hc.shape hne hmp) hx hmx, hl]
  have hn := nodup_rowMajor s
  rw [hl, List.nodup_append] at hn
  obtain ⟨μ', h1, h2, h3⟩ := sets_run (pickViews sel p as) x (chosenPlace as fun j => sel (P j)) f l μ hc.distinct hc.memory
    (fun j hj μ1 h => pick_refers (hP j (by simp [hj]) μ1 h) (hc.inside j hj)) (fun j hj => hf j hj) l hn.1 (fun _ h => h) μ (fun _ => rfl) (fun _ _ _ _ => rfl)
  refine ⟨μ', ?_, h2, h3⟩
  rw [forAll_append, act_bind_ok h1]
  have h4 : Reads μ' (elem p b) (P b) := by
    refine hP b (by simp) μ' fun q hq => h3 q ?_
    rintro ⟨j, hj, e⟩
    exact hq ⟨j, hj, fun e' => hn.2.2 j hj b (by simp) e', e⟩
  have h5 := pick_fails (as := as) h4 hb
  have h6 : mapOp setOp [elem (pickViews sel p as) b, elem x b] μ' = (.error .check, μ') := by
    rw [mapM_two, act_bind, h5]
  simp only [forAll]
  rw [act_bind, h6]

theorem filter_only {l : List (List Int)} (hn : l.Nodup) {j : List Int} (hj : j ∈ l) : l.filter (fun k => decide (k = j)) = [j] := by
  induction l with
  | nil => simp at hj
  | cons a l ih =>
    rw [List.nodup_cons] at hn
    by_cases e : a = j
    · subst e
      rw [List.filter_cons_of_pos (by simp), List.filter_eq_nil_iff.2]
      intro k hk hk'
      exact hn.1 (of_decide_eq_true hk' ▸ hk)
    · rw [List.filter_cons_of_neg (by simpa using e)]
      exact ih hn.2 ((List.mem_cons.1 hj).resolve_left fun h => e h.symm)

/-- C121. `pick(p, a0, a1, ...) OP= x` updates these elements, and nothing else. -/
theorem C121_update (g : V → V → V) (dyn : Bool) (z : List Int) (hz : ∀ i ∈ z, i = 0) (sel : V → Nat) (p x : Iter (Act V) (Lv V)) (as : List View) (s : List Nat) (sp sx : List Length) (μ : Mem V) (P f : List Int → V)
    (hne : as ≠ []) (hp : HasShape p sp) (hmp : Merge [sp, s.map some] (s.map some)) (hx : HasShape x sx) (hmx : Merge [s.map some, sx] (s.map some))
    (hc : Choices μ s as (fun j => sel (P j)) (rowMajor s))
    (hP : ∀ j, Valid s j → ∀ μ', SameOutside (fun q => ∃ k, Valid s k ∧ q = address (alternative as (sel (P k))) k) μ μ' → Reads μ' (elem p j) (P j))
    (hf : ∀ j, Valid s j → ∀ μ', SameOutside (fun q => ∃ k, Valid s k ∧ q = address (alternative as (sel (P k))) k) μ μ' → Reads μ' (elem x j) (f j)) :
    ∃ μ', update g dyn z (pickViews sel p as) x μ = (.ok (), μ') ∧
      (∀ j, Valid s j → ∃ y, μ (address (alternative as (sel (P j))) j) = some y ∧ μ' (address (alternative as (sel (P j))) j) = some (g y (f j))) ∧
      SameOutside (fun q => ∃ j, Valid s j ∧ q = address (alternative as (sel (P j))) j) μ μ' := by
  obtain ⟨μ', h1, h2⟩ := C28_update g dyn z hz (pickViews sel p as) x _ sx s (pickViews_shape sel hp hc.shape hne hmp) hx hmx μ (fun j => address (alternative as (sel (P j))) j) f
    (fun j hj => hc.memory j (mem_rowMajor.2 hj)) (fun j hj μ1 h => pick_refers (hP j hj μ1 h) (hc.inside j (mem_rowMajor.2 hj))) hf
  refine ⟨μ', h1, fun j hj => ?_, fun q hq => ?_⟩
  · obtain ⟨y, hy⟩ := Option.isSome_iff_exists.1 (hc.memory j (mem_rowMajor.2 hj))
    change μ (address (alternative as (sel (P j))) j) = some y at hy
    refine ⟨y, hy, ?_⟩
    have e : ((rowMajor s).filter fun k => address (alternative as (sel (P k))) k = address (alternative as (sel (P j))) j) = [j] := by
      rw [List.filter_congr (q := fun k => decide (k = j)) (fun k hk => by
        rw [decide_eq_decide]
        exact ⟨fun e => hc.distinct k hk j (mem_rowMajor.2 hj) e, fun e => by rw [e]⟩)]
      exact filter_only (nodup_rowMajor s) (mem_rowMajor.2 hj)
    rw [h2, hy, e]
    rfl
  · rw [h2]
    have e : ((rowMajor s).filter fun k => address (alternative as (sel (P k))) k = q) = [] := by
      rw [List.filter_eq_nil_iff]
      intro k hk e
      exact hq ⟨k, mem_rowMajor.1 hk, (of_decide_eq_true e).symm⟩
    rw [e]
    simp

variable [Boolean V]

theorem reads_castBool {μ : Mem V} {w : Iter (Act V) (Lv V)} {j : List Int} {x : V} (h : Reads μ (elem w j) x) : Reads μ (elem (castBoolIn w) j) (ofBool (toBool x)) := by
  obtain ⟨r, h1, h2⟩ := reads_elim h
  simp only [Reads, elem, elems, castBoolIn, valOp, mapOp, List.mapM_cons, List.mapM_nil, id_eq, bind_assoc, pure_bind]
  rw [act_bind_ok h1, act_bind_ok h2]
  rfl

/-- What `where` chooses is what it reads, and the other isn't read. -/
theorem reads_where {μ : Mem V} {w t f : Iter (Act V) (Lv V)} {j : List Int} {x v : V} (h : Reads μ (elem w j) x) (hv : Reads μ (elem (if toBool x then t else f) j) v) : Reads μ (elem (whereIn w t f) j) v := by
  obtain ⟨r, h1, h2⟩ := reads_elim (reads_castBool h)
  unfold Reads at hv ⊢
  simp only [whereIn, elem, elems, pickIn, bind_assoc]
  rw [act_bind_ok h1]
  show (r.get >>= fun x => pickStar 0 (if toBool x then 1 else 0) [elem f j, elem t j] >>= fun r : Lv V => r.get) μ = _
  rw [act_bind_ok h2, Boolean.toBool_ofBool]
  rw [← hv]
  cases toBool x <;> rfl

theorem castBoolIn_shape {w : Iter (Act V) (Lv V)} {sw : List Length} (h : HasShape w sw) : HasShape (castBoolIn w) sw := ⟨[sw], ⟨_, _, rfl, h, rfl⟩, merge_one _⟩

/-- C121. `where(w, a, b) = x` sets the element of `a` where `w` is true and that of `b` where it's false, and nothing else. -/
theorem C121_where (dyn : Bool) (z : List Int) (hz : ∀ i ∈ z, i = 0) (w x : Iter (Act V) (Lv V)) (a b : View) (s : List Nat) (sw sx : List Length) (μ : Mem V) (W f : List Int → V)
    (ha : Shaped a (s.map some)) (hb : Shaped b (s.map some)) (hw : HasShape w sw) (hmw : Merge [sw, s.map some] (s.map some)) (hx : HasShape x sx) (hmx : Merge [s.map some, sx] (s.map some))
    (hda : Distinct a s) (hdb : Distinct b s) (hab : ∀ j k, Valid s j → Valid s k → address a j ≠ address b k) (hma : ∀ j, Valid s j → (μ (address a j)).isSome) (hmb : ∀ j, Valid s j → (μ (address b j)).isSome)
    (hW : ∀ j, Valid s j → Steady μ (fun j => if toBool (W j) then address a j else address b j) (rowMajor s) w j (W j))
    (hf : ∀ j, Valid s j → Steady μ (fun j => if toBool (W j) then address a j else address b j) (rowMajor s) x j (f j)) :
    ∃ μ', assign dyn z (whereIn w a.refs b.refs) x μ = (.ok (), μ') ∧ SameOutside (fun p => InView a s p ∨ InView b s p) μ μ' ∧
      ∀ j, Valid s j → if toBool (W j) then μ' (address a j) = some (f j) ∧ μ' (address b j) = μ (address b j) else μ' (address b j) = some (f j) ∧ μ' (address a j) = μ (address a j) := by
  have hp : ∀ j, chosenPlace [b, a] (fun j => if toBool (ofBool (toBool (W j)) : V) then 1 else 0) j = if toBool (W j) then address a j else address b j := by
    intro j
    simp only [chosenPlace, alternative, Boolean.toBool_ofBool]
    cases toBool (W j) <;> rfl
  have hp' : (chosenPlace [b, a] fun j => if toBool (ofBool (toBool (W j)) : V) then 1 else 0) = fun j => if toBool (W j) then address a j else address b j := funext hp
  obtain ⟨μ', h1, h2, h3⟩ := C121_pick dyn z hz (fun v => if toBool v then 1 else 0) (castBoolIn w) x [b, a] s sw sx μ (fun j => ofBool (toBool (W j))) f (by simp) (castBoolIn_shape hw) hmw hx hmx
    { shape := by simp [ha, hb]
      inside := by intro j _; split_ifs <;> simp
      distinct := by
        intro j hj k hk e
        rw [hp, hp] at e
        have hj' := mem_rowMajor.1 hj
        have hk' := mem_rowMajor.1 hk
        split_ifs at e
        · exact hda j k hj' hk' e
        · exact absurd e (hab j k hj' hk')
        · exact absurd e.symm (hab k j hk' hj')
        · exact hdb j k hj' hk' e
      memory := by
        intro j hj
        rw [hp]
        split_ifs
        · exact hma j (mem_rowMajor.1 hj)
        · exact hmb j (mem_rowMajor.1 hj) }
    (by
      intro j hj
      rw [hp']
      exact fun μ1 h => reads_castBool (hW j hj μ1 h))
    (by
      intro j hj
      rw [hp']
      exact hf j hj)
  have hq : ∀ j, address (alternative [b, a] (if toBool (ofBool (toBool (W j)) : V) then 1 else 0)) j = if toBool (W j) then address a j else address b j := hp
  simp only [hq] at h2 h3
  refine ⟨μ', h1, fun q hq => h3 q ?_, fun j hj => ?_⟩
  · rintro ⟨j, hj, rfl⟩
    split_ifs at hq
    · exact hq (.inl ⟨j, hj, rfl⟩)
    · exact hq (.inr ⟨j, hj, rfl⟩)
  · have h4 := h2 j hj
    split_ifs at h4 ⊢ with hc
    · refine ⟨h4, h3 _ ?_⟩
      rintro ⟨k, hk, e⟩
      split_ifs at e with hc'
      · exact hab k j hk hj e.symm
      · rw [hdb j k hj hk e] at hc
        exact hc' hc
    · refine ⟨h4, h3 _ ?_⟩
      rintro ⟨k, hk, e⟩
      split_ifs at e with hc'
      · rw [hda j k hj hk e] at hc
        exact hc hc'
      · exact hab j k hj hk e

/-- C121. `a = where(w, x, a)` sets the elements of `a` where `w` is true, and nothing else. `x` isn't read elsewhere. -/
theorem C121_mask (dyn : Bool) (z : List Int) (hz : ∀ i ∈ z, i = 0) (a : View) (w x : Iter (Act V) (Lv V)) (s : List Nat) (sw sx : List Length) (μ : Mem V) (W f : List Int → V)
    (ha : Shaped a (s.map some)) (hda : Distinct a s) (hma : ∀ j, Valid s j → (μ (address a j)).isSome) (hw : HasShape w sw) (hx : HasShape x sx) (hm : Merge [sw, s.map some, sx] (s.map some))
    (hW : ∀ j, Valid s j → Steady μ (address a) (rowMajor s) w j (W j)) (hf : ∀ j, Valid s j → toBool (W j) → Steady μ (address a) (rowMajor s) x j (f j)) :
    ∃ μ', maskAssign dyn z a w x μ = (.ok (), μ') ∧ Copied μ μ' s a f fun j => toBool (W j) = true := by
  have hshape : HasShape (whereIn w x a.refs) (s.map some) := ⟨[sw, s.map some, sx], ⟨_, _, rfl, castBoolIn_shape hw, _, _, rfl, refs_shape ha, _, _, rfl, hx, rfl⟩, hm⟩
  have hold : ∀ j, Valid s j → ∃ y, μ (address a j) = some y := fun j hj => Option.isSome_iff_exists.1 (hma j hj)
  obtain ⟨μ', h1, h2, h3⟩ := C27_view dyn z hz a s ha hda (whereIn w x a.refs) _ hshape (merge_same _) μ hma (fun j => if toBool (W j) then f j else (μ (address a j)).getD (f j)) (by
    intro j hj μ1 h
    have h' : SameOutside (fun p => ∃ k ∈ rowMajor s, k ≠ j ∧ p = address a k) μ μ1 := by
      intro p hp
      refine h p ?_
      rintro ⟨⟨k, hk, rfl⟩, hne⟩
      exact hp ⟨k, mem_rowMajor.2 hk, fun e => hne (by rw [e]), rfl⟩
    refine reads_where (hW j hj μ1 h') ?_
    split_ifs with hc
    · exact hf j hj hc μ1 h'
    · obtain ⟨y, hy⟩ := hold j hj
      refine reads_refs ?_
      rw [hy, h (address a j) (fun h => h.2 rfl), hy]
      rfl)
  refine ⟨μ', h1, h3, fun k hk => ⟨fun hc => ?_, fun hc => ?_⟩⟩
  · rw [h2 k hk, if_pos hc]
  · obtain ⟨y, hy⟩ := hold k hk
    rw [h2 k hk, if_neg hc, hy]
    rfl

end

section
variable {V : Type} [Field V] [LinearOrder V] [Boolean V]

omit [LinearOrder V] [Boolean V] in
theorem discIndex_reads (w : Nat) (μ : Mem V) (j : List Int) (h : w < j.length) (c : V) :
    Reads μ (elem (mapVal (fun x => x * x) (binaryOp (· - ·) (tindexVal w) (.scalar (pure (.val c))))) j) ((((j.getD w 0 : Int) : V) - c) * (((j.getD w 0 : Int) : V) - c)) := by
  refine mapVal_reads _ (reads_binary (· - ·) ?_ (reads_scalar _ _ _))
  rw [(tindexVal_shape (V := V) w).2 j h]
  rfl

/-- C121. The elements of `a` less than `r` away from the center are those of `b`, and nothing else has changed. -/
theorem C121_disc (dyn : Bool) (z : List Int) (hz : ∀ i ∈ z, i = 0) (n : Nat) (r : V) (a b : View) (μ : Mem V) (fb : List Int → V) (hab : Pairing μ [n, n] a b fb) :
    ∃ μ', discWhere dyn z n r a b μ = (.ok (), μ') ∧
      Copied μ μ' [n, n] a fb fun k => (((k.getD 0 0 : Int) : V) - ((n : V) - 1) / 2) ^ 2 + (((k.getD 1 0 : Int) : V) - ((n : V) - 1) / 2) ^ 2 < r ^ 2 := by
  set c : V := ((n : V) - 1) / 2 with hcdef
  have hs0 : HasShape (discTest c c r) [none, none] :=
    shape_two (shape_two (mapVal_shape _ (shape_two (tindexVal_shape 0).1 scalar_none (merge_nil _))) (mapVal_shape _ (shape_two (tindexVal_shape 1).1 scalar_none (merge_nil _)))
      (s := [none, none]) ⟨by simp, by simp, fun k n => by rcases k with _ | _ | k <;> simp⟩) scalar_none (merge_nil _)
  obtain ⟨μ', h1, h2, h3⟩ := C121_mask dyn z hz a (discTest c c r) b.refs [n, n] [none, none] [some n, some n] μ
    (fun j => ofBool (decide ((((j.getD 0 0 : Int) : V) - c) * (((j.getD 0 0 : Int) : V) - c) + (((j.getD 1 0 : Int) : V) - c) * (((j.getD 1 0 : Int) : V) - c) < r * r))) fb
    hab.shapeA hab.distinct hab.memory hs0 (refs_shape hab.shapeB) ⟨by simp, by simp, fun k n => by rcases k with _ | _ | k <;> simp⟩
    (by
      intro j hj μ1 _
      have hl := length_of_valid hj
      simp only [List.length_cons, List.length_nil] at hl
      exact reads_binary _ (reads_binary _ (discIndex_reads 0 μ1 j (by omega) c) (discIndex_reads 1 μ1 j (by omega) c)) (reads_scalar _ _ _))
    (by
      intro j hj _ μ1 h
      refine reads_refs ?_
      rw [h _ fun ⟨k, hk, _, e⟩ => hab.apart j hj ⟨k, mem_rowMajor.1 hk, e⟩]
      exact hab.valueB j hj)
  refine ⟨μ', h1, h2, fun k hk => ?_⟩
  have h4 := h3 k hk
  simpa only [Boolean.toBool_ofBool, decide_eq_true_eq, pow_two] using h4

/-- C121. The disc of `where` is that of the strips of the example if and only if no element is at the radius: the strips have these elements (C119), and `where` doesn't. -/
theorem C121_strips (h : Nat) (r : Rat) (hr : 0 ≤ r) (hlt : r < h + 1) :
    (∀ i j : Int, Valid [2 * h + 1, 2 * h + 1] [i, j] →
      ((∃ c ∈ circleStrips (2 * h + 1) r, InStrip c [i, j]) ↔ ((i : Rat) - (((2 * h + 1 : Nat) : Rat) - 1) / 2) ^ 2 + ((j : Rat) - (((2 * h + 1 : Nat) : Rat) - 1) / 2) ^ 2 < r ^ 2)) ↔
    ∀ i j : Int, Valid [2 * h + 1, 2 * h + 1] [i, j] → ((i - h : Int) : Rat) ^ 2 + ((j - h : Int) : Rat) ^ 2 ≠ r ^ 2 := by
  obtain ⟨_, h2⟩ := C119_circle h r hr hlt
  have e : (((2 * h + 1 : Nat) : Rat) - 1) / 2 = h := by push_cast; ring
  refine forall_congr' fun i => forall_congr' fun j => forall_congr' fun hv => ?_
  obtain ⟨a, b, e', hv1, hv2, _⟩ := valid_two.1 hv
  obtain ⟨rfl, rfl⟩ : i = a ∧ j = b := by simpa using e'
  rw [h2 i j (by omega) (by push_cast at hv2; omega), e]
  push_cast
  generalize ((i : Rat) - h) ^ 2 + ((j : Rat) - h) ^ 2 = d
  constructor
  · intro h he
    rw [he] at h
    exact lt_irrefl _ (h.1 le_rfl)
  · intro hne
    exact ⟨fun h => lt_of_le_of_ne h hne, le_of_lt⟩

end
/-! ## Cases -/

/-- Two vectors of 4 at 0 and 4, a selector `0 1 1 0` at 8, and another, `0 1 2 0`, at 12. -/
def egPicked : Mem Rat := fun p => if 0 ≤ p ∧ p < 8 then some 0 else if p = 9 ∨ p = 10 ∨ p = 13 then some 1 else if p = 14 then some 2 else if 8 ≤ p ∧ p < 16 then some 0 else none

/-- A number as selector. -/
def egSel (x : Rat) : Nat := x.num.toNat

/-- The selector at 8. -/
def egChoice (j : List Int) : Rat := if j.getD 0 0 = 1 ∨ j.getD 0 0 = 2 then 1 else 0

/-- The selector at 12. -/
def egChoiceBad (j : List Int) : Rat := if j.getD 0 0 = 1 then 1 else if j.getD 0 0 = 2 then 2 else 0

theorem eg_steady (l : List (List Int)) (A : List Int → Int) (o : Int) (P : List Int → Rat) (hl : ∀ j ∈ l, ∃ k : Int, j = [k] ∧ 0 ≤ k ∧ k < 4) (hA : ∀ j ∈ l, A j < 8) (ho : 8 ≤ o) (k : Int) (h0 : 0 ≤ k)
    (hP : egPicked (o + k) = some (P [k])) : Steady egPicked A l (View.refs ⟨[⟨4, 1⟩], o⟩) [k] (P [k]) := by
  intro μ' h
  refine reads_refs ?_
  have e : address ⟨[⟨4, 1⟩], o⟩ [k] = o + k := by
    simp only [address, dot, List.map_cons, List.map_nil, List.zipWith_cons_cons, List.zipWith_nil_right, List.sum_cons, List.sum_nil]
    omega
  rw [e, h _ fun ⟨k', hk', _, e'⟩ => by have := hA k' hk'; omega, hP]

theorem eg_choices : Choices egPicked [4] [⟨[⟨4, 1⟩], 0⟩, ⟨[⟨4, 1⟩], 4⟩] (fun j => egSel (egChoice j)) (rowMajor [4]) where
  shape := by intro a ha; simp only [List.mem_cons, List.not_mem_nil, or_false] at ha; rcases ha with rfl | rfl <;> exact .cons rfl .nil
  inside := by decide +kernel
  distinct := by decide +kernel
  memory := by decide +kernel

theorem eg_choice_read (k : Int) (h0 : 0 ≤ k) (h1 : k < 4) : egPicked (8 + k) = some (egChoice [k]) := by
  obtain rfl | rfl | rfl | rfl : k = 0 ∨ k = 1 ∨ k = 2 ∨ k = 3 := by omega
  all_goals decide +kernel

theorem eg_places (j : List Int) (hj : j ∈ rowMajor [4]) : chosenPlace [⟨[⟨4, 1⟩], 0⟩, ⟨[⟨4, 1⟩], 4⟩] (fun j => egSel (egChoice j)) j < 8 := by
  revert j
  decide +kernel

theorem eg_selector (j : List Int) (hj : Valid [4] j) : Steady egPicked (chosenPlace [⟨[⟨4, 1⟩], 0⟩, ⟨[⟨4, 1⟩], 4⟩] fun j => egSel (egChoice j)) (rowMajor [4]) (View.refs ⟨[⟨4, 1⟩], 8⟩) j (egChoice j) := by
  obtain ⟨k, rfl, h0, h1⟩ := valid_one.1 hj
  exact eg_steady _ _ 8 egChoice (fun j hj => by obtain ⟨k, rfl, h0, h1⟩ := valid_one.1 (mem_rowMajor.1 hj); exact ⟨k, rfl, h0, h1⟩) eg_places le_rfl k h0 (eg_choice_read k h0 (by exact_mod_cast h1))

/-- `pick(p, a, b) = 7`. -/
example (dyn : Bool) : ∃ μ', assign dyn [0] (pickViews egSel (View.refs ⟨[⟨4, 1⟩], 8⟩) [⟨[⟨4, 1⟩], 0⟩, ⟨[⟨4, 1⟩], 4⟩]) (.scalar (pure (.val 7))) egPicked = (.ok (), μ') ∧ μ' 0 = some 7 ∧ μ' 1 = some 0 ∧ μ' 5 = some 7 := by
  obtain ⟨μ', h1, h2, h3⟩ := C121_pick dyn [0] (by simp) egSel (View.refs ⟨[⟨4, 1⟩], 8⟩) (.scalar (pure (.val 7))) [⟨[⟨4, 1⟩], 0⟩, ⟨[⟨4, 1⟩], 4⟩] [4] [some 4] [] egPicked egChoice (fun _ => 7) (by simp)
    (refs_shape (.cons rfl .nil)) (merge_same _) scalar_none (merge_nil _) eg_choices eg_selector (fun j _ μ' _ => reads_scalar μ' 7 j)
  refine ⟨μ', h1, h2 [0] (mem_rowMajor.1 (by decide +kernel)), ?_, h2 [1] (mem_rowMajor.1 (by decide +kernel))⟩
  rw [h3 1]
  · rfl
  · rintro ⟨j, hj, e⟩
    have : ∀ j ∈ rowMajor [4], (1 : Int) ≠ address (alternative [⟨[⟨4, 1⟩], 0⟩, ⟨[⟨4, 1⟩], 4⟩] (egSel (egChoice j))) j := by decide +kernel
    exact this j (mem_rowMajor.2 hj) e

/-- `pick(p, a, b) += 7`. -/
example (dyn : Bool) : ∃ μ', update (· + ·) dyn [0] (pickViews egSel (View.refs ⟨[⟨4, 1⟩], 8⟩) [⟨[⟨4, 1⟩], 0⟩, ⟨[⟨4, 1⟩], 4⟩]) (.scalar (pure (.val 7))) egPicked = (.ok (), μ') ∧ μ' 5 = some (0 + 7) := by
  obtain ⟨μ', h1, h2, _⟩ := C121_update (· + ·) dyn [0] (by simp) egSel (View.refs ⟨[⟨4, 1⟩], 8⟩) (.scalar (pure (.val 7))) [⟨[⟨4, 1⟩], 0⟩, ⟨[⟨4, 1⟩], 4⟩] [4] [some 4] [] egPicked egChoice (fun _ => 7) (by simp)
    (refs_shape (.cons rfl .nil)) (merge_same _) scalar_none (merge_nil _) eg_choices (by
      intro j hj μ1 h
      obtain ⟨k, rfl, h0, h1⟩ := valid_one.1 hj
      refine reads_refs ?_
      have e : address ⟨[⟨4, 1⟩], 8⟩ [k] = 8 + k := by
        simp only [address, dot, List.map_cons, List.map_nil, List.zipWith_cons_cons, List.zipWith_nil_right, List.sum_cons, List.sum_nil]
        omega
      rw [e, h, eg_choice_read k h0 (by exact_mod_cast h1)]
      rintro ⟨k', hk', e'⟩
      have := eg_places k' (mem_rowMajor.2 hk')
      simp only [chosenPlace] at this
      omega) (fun j _ μ' _ => reads_scalar μ' 7 j)
  obtain ⟨y, hy, h3⟩ := h2 [1] (mem_rowMajor.1 (by decide +kernel))
  have : y = 0 := (Option.some.inj (hy.symm.trans (by decide +kernel : egPicked 5 = some 0)))
  exact ⟨μ', h1, this ▸ h3⟩

/-- The selector at 12 says 2 at index 2. -/
example (dyn : Bool) : ∃ μ', assign dyn [0] (pickViews egSel (View.refs ⟨[⟨4, 1⟩], 12⟩) [⟨[⟨4, 1⟩], 0⟩, ⟨[⟨4, 1⟩], 4⟩]) (.scalar (pure (.val 7))) egPicked = (.error .check, μ') ∧ μ' 0 = some 7 ∧ μ' 5 = some 7 := by
  have hread : ∀ k : Int, 0 ≤ k → k < 4 → egPicked (12 + k) = some (egChoiceBad [k]) := by
    intro k h0 h1
    obtain rfl | rfl | rfl | rfl : k = 0 ∨ k = 1 ∨ k = 2 ∨ k = 3 := by omega
    all_goals decide +kernel
  obtain ⟨μ', h1, h2, _⟩ := C121_bad dyn [0] (by simp) egSel (View.refs ⟨[⟨4, 1⟩], 12⟩) (.scalar (pure (.val 7))) [⟨[⟨4, 1⟩], 0⟩, ⟨[⟨4, 1⟩], 4⟩] [4] [some 4] [] egPicked egChoiceBad (fun _ => 7) (by simp)
    (refs_shape (.cons rfl .nil)) (merge_same _) scalar_none (merge_nil _) [[0], [1]] [[3]] [2] (by decide +kernel) (by decide +kernel)
    { shape := eg_choices.shape, inside := by decide +kernel, distinct := by decide +kernel, memory := by decide +kernel }
    (by
      intro j hj
      obtain ⟨k, rfl, h0, h1⟩ : ∃ k : Int, j = [k] ∧ 0 ≤ k ∧ k < 4 := by
        simp only [List.cons_append, List.nil_append, List.mem_cons, List.not_mem_nil, or_false] at hj
        rcases hj with rfl | rfl | rfl
        exacts [⟨0, rfl, by decide, by decide⟩, ⟨1, rfl, by decide, by decide⟩, ⟨2, rfl, by decide, by decide⟩]
      refine eg_steady _ _ 12 egChoiceBad ?_ (by decide +kernel) (by decide) k h0 (hread k h0 h1)
      intro j hj
      simp only [List.mem_cons, List.not_mem_nil, or_false] at hj
      rcases hj with rfl | rfl
      exacts [⟨0, rfl, by decide, by decide⟩, ⟨1, rfl, by decide, by decide⟩])
    (fun j _ μ' _ => reads_scalar μ' 7 j)
  exact ⟨μ', h1, h2 [0] (by simp), h2 [1] (by simp)⟩

/-- `where(p, a, b) = 7`, and `a = where(p, 7, a)`. -/
example (dyn : Bool) : (∃ μ', assign dyn [0] (whereIn (View.refs ⟨[⟨4, 1⟩], 8⟩) (View.refs ⟨[⟨4, 1⟩], 0⟩) (View.refs ⟨[⟨4, 1⟩], 4⟩)) (.scalar (pure (.val 7))) egPicked = (.ok (), μ') ∧ μ' 1 = some 7 ∧ μ' 5 = some 0) ∧
    ∃ μ', maskAssign dyn [0] ⟨[⟨4, 1⟩], 0⟩ (View.refs ⟨[⟨4, 1⟩], 8⟩) (.scalar (pure (.val 7))) egPicked = (.ok (), μ') ∧ μ' 1 = some 7 ∧ μ' 3 = some 0 := by
  have hd : ∀ o, Distinct ⟨[⟨4, 1⟩], o⟩ [4] := by
    intro o j k hj hk e
    obtain ⟨x, rfl, _⟩ := valid_one.1 hj
    obtain ⟨y, rfl, _⟩ := valid_one.1 hk
    simp only [address, dot, List.map_cons, List.map_nil, List.zipWith_cons_cons, List.zipWith_nil_right, List.sum_cons, List.sum_nil] at e
    rw [show x = y by omega]
  have hin : ∀ j ∈ rowMajor [4], ∃ k : Int, j = [k] ∧ 0 ≤ k ∧ k < 4 := fun j hj => by obtain ⟨k, rfl, h0, h1⟩ := valid_one.1 (mem_rowMajor.1 hj); exact ⟨k, rfl, h0, h1⟩
  have hm : ∀ o ∈ [(0 : Int), 4], ∀ j, Valid [4] j → (egPicked (address ⟨[⟨4, 1⟩], o⟩ j)).isSome := by
    have : ∀ o ∈ [(0 : Int), 4], ∀ j ∈ rowMajor [4], (egPicked (address ⟨[⟨4, 1⟩], o⟩ j)).isSome := by decide +kernel
    exact fun o ho j hj => this o ho j (mem_rowMajor.2 hj)
  constructor
  · obtain ⟨μ', h1, _, h2⟩ := C121_where dyn [0] (by simp) (View.refs ⟨[⟨4, 1⟩], 8⟩) (.scalar (pure (.val 7))) ⟨[⟨4, 1⟩], 0⟩ ⟨[⟨4, 1⟩], 4⟩ [4] [some 4] [] egPicked egChoice (fun _ => 7)
      (.cons rfl .nil) (.cons rfl .nil) (refs_shape (.cons rfl .nil)) (merge_same _) scalar_none (merge_nil _) (hd 0) (hd 4) (by
        have : ∀ j ∈ rowMajor [4], ∀ k ∈ rowMajor [4], address ⟨[⟨4, 1⟩], 0⟩ j ≠ address ⟨[⟨4, 1⟩], 4⟩ k := by decide +kernel
        exact fun j k hj hk => this j (mem_rowMajor.2 hj) k (mem_rowMajor.2 hk)) (hm 0 (by simp)) (hm 4 (by simp)) (by
        intro j hj
        obtain ⟨k, rfl, h0, h1⟩ := valid_one.1 hj
        exact eg_steady _ _ 8 egChoice hin (by decide +kernel) le_rfl k h0 (eg_choice_read k h0 (by exact_mod_cast h1))) (fun j _ μ' _ => reads_scalar μ' 7 j)
    have h3 := h2 [1] (mem_rowMajor.1 (by decide +kernel))
    rw [if_pos (by decide +kernel)] at h3
    exact ⟨μ', h1, h3.1, h3.2⟩
  · obtain ⟨μ', h1, _, h2⟩ := C121_mask dyn [0] (by simp) ⟨[⟨4, 1⟩], 0⟩ (View.refs ⟨[⟨4, 1⟩], 8⟩) (.scalar (pure (.val 7))) [4] [some 4] [] egPicked egChoice (fun _ => 7)
      (.cons rfl .nil) (hd 0) (hm 0 (by simp)) (refs_shape (.cons rfl .nil)) scalar_none ⟨by simp, by simp, fun k n => by rcases k with _ | k <;> simp⟩ (by
        intro j hj
        obtain ⟨k, rfl, h0, h1⟩ := valid_one.1 hj
        exact eg_steady _ _ 8 egChoice hin (by decide +kernel) le_rfl k h0 (eg_choice_read k h0 (by exact_mod_cast h1))) (fun j _ _ μ' _ => reads_scalar μ' 7 j)
    exact ⟨μ', h1, (h2 [1] (mem_rowMajor.1 (by decide +kernel))).1 (by decide +kernel), (h2 [3] (mem_rowMajor.1 (by decide +kernel))).2 (by decide +kernel)⟩

/-- test/where.cc:149-157, with vectors at 0 and 4. -/
example : (List.range 8).map (fun p => ((do
      assign true [] (whereIn (binaryOp (fun x y => ofBool (toBool x && toBool y)) (mapVal (fun x : Rat => ofBool (decide (0 < x))) (tindexVal 0)) (mapVal (fun x => ofBool (decide (x < 3))) (tindexVal 0)))
        (View.refs ⟨[⟨4, 1⟩], 0⟩) (View.refs ⟨[⟨4, 1⟩], 4⟩)) (.scalar (pure (.val 7)))
      update (· + ·) true [] (whereIn (mapVal (fun x : Rat => ofBool (decide (x ≤ 0 ∨ 3 ≤ x))) (tindexVal 0)) (View.refs ⟨[⟨4, 1⟩], 0⟩) (View.refs ⟨[⟨4, 1⟩], 4⟩)) (.scalar (pure (.val 2))) : Act Rat Unit)
      egPicked).2 (p : Nat)) = [2, 7, 7, 2, 7, 2, 2, 7].map fun x : Rat => some x := by
  decide +kernel

/-- Squares of side 7, with 0 and 1. -/
def egDisc7 : Mem Rat := fun p => if 0 ≤ p ∧ p < 49 then some 0 else if 49 ≤ p ∧ p < 98 then some 1 else none

theorem egDisc7_pairing : Pairing egDisc7 [7, 7] ⟨[⟨7, 7⟩, ⟨7, 1⟩], 0⟩ ⟨[⟨7, 7⟩, ⟨7, 1⟩], 49⟩ (fun _ => 1) where
  shapeA := .cons rfl (.cons rfl .nil)
  shapeB := .cons rfl (.cons rfl .nil)
  distinct := egDisc_pairing.distinct
  memory k hk := by
    have : ∀ k ∈ rowMajor [7, 7], (egDisc7 (address ⟨[⟨7, 7⟩, ⟨7, 1⟩], 0⟩ k)).isSome = true := by decide +kernel
    exact this k (mem_rowMajor.2 hk)
  valueB k hk := by
    have : ∀ k ∈ rowMajor [7, 7], egDisc7 (address ⟨[⟨7, 7⟩, ⟨7, 1⟩], 49⟩ k) = some 1 := by decide +kernel
    exact this k (mem_rowMajor.2 hk)
  apart := egDisc_pairing.apart

example (dyn : Bool) : ∃ μ', discWhere dyn [] 7 (28/10) ⟨[⟨7, 7⟩, ⟨7, 1⟩], 0⟩ ⟨[⟨7, 7⟩, ⟨7, 1⟩], 49⟩ egDisc7 = (.ok (), μ') ∧ μ' 9 = some 1 ∧ μ' 8 = some 0 := by
  obtain ⟨μ', h1, _, h2⟩ := C121_disc dyn [] (by simp) 7 (28/10) _ _ egDisc7 _ egDisc7_pairing
  exact ⟨μ', h1, (h2 [1, 2] (mem_rowMajor.1 (by decide +kernel))).1 (by norm_num), (h2 [1, 1] (mem_rowMajor.1 (by decide +kernel))).2 (by norm_num)⟩

/-- The radius of the example isn't the distance to any element, and 2 is. -/
example : (∀ i ∈ List.range 7, ∀ j ∈ List.range 7, ((i : Rat) - 3) ^ 2 + ((j : Rat) - 3) ^ 2 ≠ (28/10) ^ 2) ∧ ((5 - (3 : Nat) : Int) : Rat) ^ 2 + ((3 - (3 : Nat) : Int) : Rat) ^ 2 = 2 ^ 2 := by
  decide +kernel

end Ra.Props
