import Mathlib.Data.List.Induction
import Verif.Props.Assign
/-!
# C64: what an assignment leaves when it's interrupted
-/

namespace Ra.Props
open Spec

section
variable {V : Type}

/-- The row-major indices are those before `j`, then `j`, then others. -/
theorem rowMajor_split {s : List Nat} {j : List Int} (hj : Valid s j) :
    ∃ l l', rowMajor s = l ++ j :: l' ∧ ∀ k, k ∈ l ↔ Valid s k ∧ Before s k j := by
  obtain ⟨l, l', hl⟩ := List.append_of_mem (mem_rowMajor.mpr hj)
  refine ⟨l, l', hl, ?_⟩
  have hpw := pairwise_before s
  rw [hl, List.pairwise_append] at hpw
  intro k
  constructor
  · intro hk
    exact ⟨mem_rowMajor.mp (by rw [hl]; simp [hk]), hpw.2.2 k hk j (by simp)⟩
  · rintro ⟨hk, hb⟩
    have hk' : k ∈ l ++ j :: l' := by rw [← hl]; exact mem_rowMajor.mpr hk
    rcases List.mem_append.mp hk' with h | h
    · exact h
    · rcases List.mem_cons.mp h with rfl | h
      · exact absurd hb (lt_irrefl _)
      · exact absurd (lt_trans hb (List.rel_of_pairwise_cons hpw.2.1 h)) (lt_irrefl _)

theorem forAll_append_act {α : Type} (f : List Int → Act V α) (l l' : List (List Int)) (μ μ1 : Mem V) (h : forAll f l μ = (.ok (), μ1)) :
    forAll f (l ++ l') μ = forAll f l' μ1 := by
  induction l generalizing μ with
  | nil =>
    have : μ = μ1 := congrArg Prod.snd h
    rw [this]; rfl
  | cons a l ih =>
    simp only [List.cons_append, forAll] at h ⊢
    rw [act_bind] at h ⊢
    split at h
    · next b μ2 hb => exact ih μ2 h
    · simp at h

/-- In memory `μ`, finding the value of `e` fails with `err`, and the memory doesn't change. -/
def Fails (μ : Mem V) (e : Act V (Lv V)) (err : Fault) : Prop := (do let r ← e; r.get) μ = (.error err, μ)

theorem fails_cases {μ : Mem V} {e : Act V (Lv V)} {err : Fault} (h : Fails μ e err) :
    e μ = (.error err, μ) ∨ ∃ r, e μ = (.ok r, μ) ∧ r.get μ = (.error err, μ) := by
  unfold Fails at h
  rw [act_bind] at h
  split at h
  · next r μ' he =>
    right
    have := get_mem r μ'
    rw [h] at this
    subst this
    exact ⟨r, he, h⟩
  · next e' μ' he =>
    left
    simp only [Prod.mk.injEq, Except.error.injEq] at h
    rw [he, h.1, h.2]

theorem set_fail {μ : Mem V} {d x : Act V (Lv V)} {p : Int} {err : Fault} (hd : Refers μ d p) (hx : Fails μ x err) :
    mapOp setOp [d, x] μ = (.error err, μ) := by
  rw [mapM_two, act_bind_ok hd]
  rcases fails_cases hx with h | ⟨r, h1, h2⟩
  · rw [act_bind, h]
  · rw [act_bind_ok h1, setOp, act_bind, h2]

theorem upd_fail {μ : Mem V} {d x : Act V (Lv V)} {p : Int} {err : Fault} (f : V → V → V) (hd : Refers μ d p) (hx : Fails μ x err) :
    mapOp (updOp f) [d, x] μ = (.error err, μ) := by
  rw [mapM_two, act_bind_ok hd]
  rcases fails_cases hx with h | ⟨r, h1, h2⟩
  · rw [act_bind, h]
  · rw [act_bind_ok h1, updOp, act_bind, h2]

/-- Updates for the first part of the indices. -/
theorem upd_prefix (f : V → V → V) (dst x : Iter (Act V) (Lv V)) (A : List Int → Int) (v : List Int → V) (l : List (List Int)) :
    ∀ μ1 : Mem V, (∀ j ∈ l, (μ1 (A j)).isSome) →
      (∀ (l1 l2 : List (List Int)) (j : List Int), l = l1 ++ j :: l2 → ∀ μ', SameOutside (fun p => ∃ k ∈ l1, p = A k) μ1 μ' →
        Refers μ' (elem dst j) (A j) ∧ Reads μ' (elem x j) (v j)) →
      ∃ μ', forAll (fun j => mapOp (updOp f) [elem dst j, elem x j]) l μ1 = (.ok (), μ') ∧
        ∀ p, μ' p = (μ1 p).map fun y => ((l.filter fun j => A j = p).map v).foldl f y := by
  induction l with
  | nil => intro μ1 _ _; exact ⟨μ1, rfl, fun p => by simp⟩
  | cons j l ih =>
    intro μ1 hm h
    obtain ⟨y, hy⟩ := Option.isSome_iff_exists.mp (hm j (by simp))
    obtain ⟨hA, hv⟩ := h [] l j rfl μ1 (fun _ _ => rfl)
    have hrun := upd_run f hA hv hy
    obtain ⟨μ', h1, h2⟩ := ih (μ1.upd (A j) (f y (v j)))
      (by
        intro k hk
        simp only [Mem.upd]
        split
        · rfl
        · exact hm k (by simp [hk]))
      (by
        intro l1 l2 k hl μ' hμ
        refine h (j :: l1) l2 k (by rw [hl]; rfl) μ' fun p hp => ?_
        rw [hμ p (fun ⟨i, hi, e⟩ => hp ⟨i, by simp [hi], e⟩)]
        have : p ≠ A j := fun e => hp ⟨j, by simp, e⟩
        simp [Mem.upd, this])
    refine ⟨μ', ?_, ?_⟩
    · simp only [forAll]
      rw [act_bind_ok hrun, h1]
    · intro p
      rw [h2 p]
      by_cases e : A j = p
      · subst e
        simp [Mem.upd, hy]
      · have e' : p ≠ A j := fun h => e h.symm
        simp [Mem.upd, e, e']

/-- C64. `dst = x` when the element of `x` at `j0` can't be evaluated (it throws, or a check fails). The elements of `dst` before `j0` in row-major order have been assigned.
The rest, and other memory, are as they were. -/
theorem C64_assign (dyn : Bool) (z : List Int) (hz : ∀ i ∈ z, i = 0) (dst x : Iter (Act V) (Lv V)) (s : List Nat) (sx : List Length)
    (hd : HasShape dst (s.map some)) (hx : HasShape x sx) (hm : Merge [s.map some, sx] (s.map some)) (μ : Mem V) (A : List Int → Int)
    (f : List Int → V) (hinj : ∀ j k, Valid s j → Valid s k → A j = A k → j = k) (hmem : ∀ j, Valid s j → (μ (A j)).isSome)
    (j0 : List Int) (hj0 : Valid s j0) (err : Fault)
    (hA : ∀ j, Valid s j → ∀ μ', SameOutside (fun p => ∃ k, Valid s k ∧ Before s k j ∧ p = A k) μ μ' → Refers μ' (elem dst j) (A j))
    (hf : ∀ j, Valid s j → Before s j j0 → ∀ μ', SameOutside (fun p => ∃ k, Valid s k ∧ Before s k j ∧ p = A k) μ μ' → Reads μ' (elem x j) (f j))
    (he : ∀ μ', SameOutside (fun p => ∃ k, Valid s k ∧ Before s k j0 ∧ p = A k) μ μ' → Fails μ' (elem x j0) err) :
    ∃ μ', assign dyn z dst x μ = (.error err, μ') ∧ (∀ j, Valid s j → Before s j j0 → μ' (A j) = some (f j)) ∧
      SameOutside (fun p => ∃ j, Valid s j ∧ Before s j j0 ∧ p = A j) μ μ' := by
  unfold assign
  rw [run_forAll dyn z hz _ dst x _ sx s hd hx hm]
  obtain ⟨l, l', hl, hmeml⟩ := rowMajor_split hj0
  have hpw := pairwise_before s
  rw [hl, List.pairwise_append] at hpw
  have key : ∀ (l1 l2 : List (List Int)), l = l1 ++ l2 →
      ∃ μ', forAll (fun j => mapOp setOp [elem dst j, elem x j]) l1 μ = (.ok (), μ') ∧ (∀ j ∈ l1, μ' (A j) = some (f j)) ∧
        SameOutside (fun p => ∃ j ∈ l1, p = A j) μ μ' := by
    intro l1
    induction l1 using List.reverseRecOn with
    | nil => intro _ _; exact ⟨μ, rfl, by simp, fun _ _ => rfl⟩
    | append_singleton l1 j ih =>
      intro l2 h12
      obtain ⟨μ1, h1, h2, h3⟩ := ih (j :: l2) (by rw [h12]; simp)
      obtain ⟨hj, hjb⟩ := (hmeml j).mp (by rw [h12]; simp)
      have hbef : ∀ k ∈ l1, Valid s k ∧ Before s k j := by
        intro k hk
        refine ⟨((hmeml k).mp (by rw [h12]; simp [hk])).1, ?_⟩
        have h := hpw.1
        rw [h12, List.append_assoc, List.pairwise_append] at h
        exact h.2.2 k hk j (by simp)
      have hso : SameOutside (fun p => ∃ k, Valid s k ∧ Before s k j ∧ p = A k) μ μ1 :=
        fun p hp => h3 p fun ⟨k, hk, e⟩ => hp ⟨k, (hbef k hk).1, (hbef k hk).2, e⟩
      have hjn : ∀ k ∈ l1, A j ≠ A k := by
        intro k hk e
        have := hinj j k hj (hbef k hk).1 e
        subst this
        exact lt_irrefl _ (hbef j hk).2
      have hrun : mapOp setOp [elem dst j, elem x j] μ1 = (.ok (.ref (A j)), μ1.upd (A j) (f j)) :=
        set_run (hA j hj μ1 hso) (hf j hj hjb μ1 hso) (by
          rw [h3 (A j) (fun ⟨k, hk, e⟩ => hjn k hk e)]; exact hmem j hj)
      refine ⟨μ1.upd (A j) (f j), ?_, ?_, ?_⟩
      · rw [forAll_append_act _ _ _ _ _ h1]
        simp only [forAll]
        rw [act_bind_ok hrun]; rfl
      · intro k hk
        rcases List.mem_append.mp hk with hk | hk
        · have : A k ≠ A j := fun e => hjn k hk e.symm
          simp only [Mem.upd, if_neg this]
          exact h2 k hk
        · simp only [List.mem_singleton] at hk
          subst hk
          simp [Mem.upd]
      · intro p hp
        have : p ≠ A j := fun e => hp ⟨j, by simp, e⟩
        simp only [Mem.upd, if_neg this]
        exact h3 p fun ⟨k, hk, e⟩ => hp ⟨k, by simp [hk], e⟩
  obtain ⟨μ', h1, h2, h3⟩ := key l [] (by simp)
  have hso : SameOutside (fun p => ∃ k, Valid s k ∧ Before s k j0 ∧ p = A k) μ μ' :=
    fun p hp => h3 p fun ⟨k, hk, e⟩ => hp ⟨k, ((hmeml k).mp hk).1, ((hmeml k).mp hk).2, e⟩
  refine ⟨μ', ?_, fun j hj hb => h2 j ((hmeml j).mpr ⟨hj, hb⟩), hso⟩
  rw [hl, forAll_append_act _ _ _ _ _ h1]
  simp only [forAll]
  rw [act_bind, set_fail (hA j0 hj0 μ' hso) (he μ' hso)]

/-- C64. `dst OP= x` when the element of `x` at `j0` can't be evaluated: the updates for the indices before `j0` have been done, and no other. -/
theorem C64_update (f : V → V → V) (dyn : Bool) (z : List Int) (hz : ∀ i ∈ z, i = 0) (dst x : Iter (Act V) (Lv V)) (sd sx : List Length) (s : List Nat)
    (hd : HasShape dst sd) (hx : HasShape x sx) (hm : Merge [sd, sx] (s.map some)) (μ : Mem V) (A : List Int → Int)
    (v : List Int → V) (hmem : ∀ j, Valid s j → (μ (A j)).isSome) (j0 : List Int) (hj0 : Valid s j0) (err : Fault)
    (hA : ∀ j, Valid s j → ∀ μ', SameOutside (fun p => ∃ k, Valid s k ∧ Before s k j ∧ p = A k) μ μ' → Refers μ' (elem dst j) (A j))
    (hv : ∀ j, Valid s j → Before s j j0 → ∀ μ', SameOutside (fun p => ∃ k, Valid s k ∧ Before s k j ∧ p = A k) μ μ' → Reads μ' (elem x j) (v j))
    (he : ∀ μ', SameOutside (fun p => ∃ k, Valid s k ∧ Before s k j0 ∧ p = A k) μ μ' → Fails μ' (elem x j0) err) :
    ∃ μ', update f dyn z dst x μ = (.error err, μ') ∧
      ∀ p, μ' p = (μ p).map fun y => (((rowMajor s).filter fun j => decide (position s j < position s j0) && decide (A j = p)).map v).foldl f y := by
  unfold update
  rw [run_forAll dyn z hz _ dst x _ sx s hd hx hm]
  obtain ⟨l, l', hl, hmeml⟩ := rowMajor_split hj0
  have hpw := pairwise_before s
  rw [hl, List.pairwise_append] at hpw
  obtain ⟨μ', h1, h2⟩ := upd_prefix f dst x A v l μ (fun j hj => hmem j ((hmeml j).mp hj).1) (by
    intro l1 l2 j h12 μ' hμ
    obtain ⟨hj, hjb⟩ := (hmeml j).mp (by rw [h12]; simp)
    have hso : SameOutside (fun p => ∃ k, Valid s k ∧ Before s k j ∧ p = A k) μ μ' := by
      refine fun p hp => hμ p fun ⟨k, hk, e⟩ => hp ⟨k, ((hmeml k).mp (by rw [h12]; simp [hk])).1, ?_, e⟩
      have h := hpw.1
      rw [h12, List.pairwise_append] at h
      exact h.2.2 k hk j (by simp)
    exact ⟨hA j hj μ' hso, hv j hj hjb μ' hso⟩)
  have hso : SameOutside (fun p => ∃ k, Valid s k ∧ Before s k j0 ∧ p = A k) μ μ' := by
    intro p hp
    rw [h2 p]
    have : l.filter (fun j => decide (A j = p)) = [] := by
      rw [List.filter_eq_nil_iff]
      intro k hk
      simp only [decide_eq_true_eq]
      intro e
      exact hp ⟨k, ((hmeml k).mp hk).1, ((hmeml k).mp hk).2, e.symm⟩
    rw [this]
    simp
  refine ⟨μ', ?_, ?_⟩
  · rw [hl, forAll_append_act _ _ _ _ _ h1]
    simp only [forAll]
    rw [act_bind, upd_fail f (hA j0 hj0 μ' hso) (he μ' hso)]
  · intro p
    rw [h2 p]
    have : (rowMajor s).filter (fun j => decide (position s j < position s j0) && decide (A j = p)) = l.filter (fun j => decide (A j = p)) := by
      have hlt : ∀ k ∈ l, position s k < position s j0 := fun k hk => ((hmeml k).mp hk).2
      have hge : ∀ k ∈ j0 :: l', ¬ position s k < position s j0 := by
        intro k hk
        rcases List.mem_cons.mp hk with rfl | hk
        · exact lt_irrefl _
        · exact not_lt_of_gt (List.rel_of_pairwise_cons hpw.2.1 hk)
      rw [hl, List.filter_append]
      have e1 : l.filter (fun j => decide (position s j < position s j0) && decide (A j = p)) = l.filter (fun j => decide (A j = p)) := by
        apply List.filter_congr
        intro k hk
        simp [hlt k hk]
      have e2 : (j0 :: l').filter (fun j => decide (position s j < position s j0) && decide (A j = p)) = [] := by
        rw [List.filter_eq_nil_iff]
        intro k hk
        have := hge k hk
        simp only [this, decide_false, Bool.false_and]
        simp
      rw [e1, e2, List.append_nil]
    rw [this]

end

/-! The hypotheses hold for `a = map(f, pair)` and `a += map(f, pair)` where `a` is at 0 and 1, and `f` throws for the second element of `pair`. -/

def fallV : View := ⟨[⟨2, 1⟩], 0⟩

def fallOp : List (Act Int (Lv Int)) → Act Int (Lv Int) := valOp fun (vs : List Int) => match vs with
  | [v] => if v = 5 then fault .check else pure v
  | _ => fault .abort

theorem fall_elem (μ' : Mem Int) (a : Int) (v : Int) (h : μ' (4 + a) = some v) :
    (do let r ← elem (Iter.node fallOp [pairV.refs]) [a]; r.get) μ' = if v = 5 then (.error .check, μ') else (.ok v, μ') := by
  have hp : pairV.cp + dot (pairV.dims.map Dim.step) [a] = 4 + a := by simp [dot, pairV]
  simp only [elem, elems, fallOp, valOp, mapOp, View.refs, List.mapM_cons, List.mapM_nil, bind_assoc, pure_bind, id]
  rw [show (4 + a) = _ from hp.symm] at h
  simp only [Lv.get]
  rw [act_bind_ok (a := v) (μ' := μ') (by simp only [Act.read, h])]
  by_cases hv : v = 5
  · rw [if_pos hv, if_pos hv]; rfl
  · rw [if_neg hv, if_neg hv]; rfl

theorem fall_valid {j : List Int} (h : Valid [2] j) : j = [0] ∨ j = [1] := by
  obtain ⟨a, rfl, h0, h1⟩ := pair_valid h
  rcases (by omega : a = 0 ∨ a = 1) with rfl | rfl <;> simp

theorem fall_keeps {μ' : Mem Int} {P : List Int → Prop} (hμ : SameOutside (fun p => ∃ k, Valid [2] k ∧ P k ∧ p = address fallV k) egMem μ') (a : Int)
    (ha : 0 ≤ a ∧ a < 2) : μ' (4 + a) = some (4 + a) := by
  rw [hμ]
  · simp [egMem]; omega
  · rintro ⟨k, hk, _, h⟩
    rcases fall_valid hk with rfl | rfl <;> simp [address, dot, fallV] at h <;> omega

example : ∃ μ', assign true [] fallV.refs (.node fallOp [pairV.refs]) egMem = (.error .check, μ') ∧ μ' 0 = some 4 ∧ μ' 1 = some 1 := by
  obtain ⟨μ', h1, h2, h3⟩ := C64_assign true [] (by simp) fallV.refs (.node fallOp [pairV.refs]) [2] [some 2] (refs_shape (v := fallV) (.cons rfl .nil))
    (shape_one (refs_shape (v := pairV) (.cons rfl .nil))) (merge_same _) egMem (address fallV) (fun _ => 4)
    (by intro j k hj hk h; rcases fall_valid hj with rfl | rfl <;> rcases fall_valid hk with rfl | rfl <;> simp [address, dot, fallV] at h ⊢)
    (by intro j hj; rcases fall_valid hj with rfl | rfl <;> decide) [1] (by simp [Valid]) .check (fun j _ μ' _ => refers_refs μ' fallV j)
    (by
      intro j hj hb μ' hμ
      rcases fall_valid hj with rfl | rfl
      · exact fall_elem μ' 0 4 (fall_keeps hμ 0 (by omega))
      · exact absurd hb (lt_irrefl _))
    (fun μ' hμ => fall_elem μ' 1 5 (fall_keeps hμ 1 (by omega)))
  refine ⟨μ', h1, h2 [0] (by simp [Valid]) (by simp [Before, position, size]), ?_⟩
  rw [h3]
  · rfl
  · rintro ⟨k, hk, hb, h⟩
    rcases fall_valid hk with rfl | rfl
    · simp [address, dot, fallV] at h
    · exact lt_irrefl _ hb

example : ∃ μ', update (· + ·) true [] fallV.refs (.node fallOp [pairV.refs]) egMem = (.error .check, μ') ∧ μ' 0 = some (0 + 4) ∧ μ' 1 = some 1 := by
  obtain ⟨μ', h1, h2⟩ := C64_update (· + ·) true [] (by simp) fallV.refs (.node fallOp [pairV.refs]) [some 2] [some 2] [2] (refs_shape (v := fallV) (.cons rfl .nil))
    (shape_one (refs_shape (v := pairV) (.cons rfl .nil))) (merge_same _) egMem (address fallV) (fun _ => 4)
    (by intro j hj; rcases fall_valid hj with rfl | rfl <;> decide) [1] (by simp [Valid]) .check (fun j _ μ' _ => refers_refs μ' fallV j)
    (by
      intro j hj hb μ' hμ
      rcases fall_valid hj with rfl | rfl
      · exact fall_elem μ' 0 4 (fall_keeps hμ 0 (by omega))
      · exact absurd hb (lt_irrefl _))
    (fun μ' hμ => fall_elem μ' 1 5 (fall_keeps hμ 1 (by omega)))
  exact ⟨μ', h1, by rw [h2]; rfl, by rw [h2]; rfl⟩

end Ra.Props
