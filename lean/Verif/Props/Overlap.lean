import Verif.Props.Assign
import Verif.Props.Slice
import Verif.Props.ViewOps
import Verif.Props.Fill
import Verif.Props.FullExp
import Mathlib.Algebra.BigOperators.Group.Finset.Basic
/-!
# C129: assignments to arrays that overlap
-/

namespace Ra.Spec

section
variable {V : Type}

/-- The memory after the places `A j` have been set to `f j`, for each `j` in `l` in order. -/
def afterSet (A : List Int → Int) (f : List Int → V) (l : List (List Int)) (μ : Mem V) : Mem V := fun p =>
  match (l.filter fun j => A j = p).getLast? with
  | some j => some (f j)
  | none => μ p

/-- The memory after the places `A j` have been updated with `f j`, for each `j` in `l` in order. -/
def afterUpd (g : V → V → V) (A : List Int → Int) (f : List Int → V) (l : List (List Int)) (μ : Mem V) : Mem V := fun p => (μ p).map fun y => ((l.filter fun j => A j = p).map f).foldl g y

/-- `c 0`, `g (c 1) (c 0)`, `g (c 2) (g (c 1) (c 0))` ... -/
def running (g : V → V → V) (c : Nat → V) : Nat → V
  | 0 => c 0
  | i + 1 => g (c (i + 1)) (running g c i)

end
end Ra.Spec

namespace Ra.Props
open Spec

section
variable {V : Type}

theorem afterSet_nil (A : List Int → Int) (f : List Int → V) (μ : Mem V) : afterSet A f [] μ = μ := rfl

theorem afterSet_concat (A : List Int → Int) (f : List Int → V) (l : List (List Int)) (k : List Int) (μ : Mem V) : afterSet A f (l ++ [k]) μ = (afterSet A f l μ).upd (A k) (f k) := by
  funext p
  by_cases h : A k = p
  · simp [afterSet, Mem.upd, h, List.filter_append]
  · simp [afterSet, Mem.upd, h, List.filter_append, Ne.symm h]

theorem afterSet_some {A : List Int → Int} {f : List Int → V} {l : List (List Int)} {μ : Mem V} {p : Int} (h : (μ p).isSome) : (afterSet A f l μ p).isSome := by
  simp only [afterSet]
  split
  · rfl
  · exact h

/-- C129. An assignment to any array, of any expression, sets one element after another in row-major order. An element of the right side is found with all the elements that come before already set. If an element is set more than once, the
last one stays. Nothing else changes. -/
theorem C129_assign (dyn : Bool) (z : List Int) (hz : ∀ i ∈ z, i = 0) (dst x : Iter (Act V) (Lv V)) (sd sx : List Length) (s : List Nat) (hd : HasShape dst sd) (hx : HasShape x sx) (hm : Merge [sd, sx] (s.map some)) (μ : Mem V)
    (A : List Int → Int) (f : List Int → V) (hmem : ∀ j, Valid s j → (μ (A j)).isSome) (hA : ∀ l k l', rowMajor s = l ++ k :: l' → Refers (afterSet A f l μ) (elem dst k) (A k))
    (hf : ∀ l k l', rowMajor s = l ++ k :: l' → Reads (afterSet A f l μ) (elem x k) (f k)) :
    assign dyn z dst x μ = (.ok (), afterSet A f (rowMajor s) μ) := by
  rw [assign, run_forAll dyn z hz _ dst x _ sx s hd hx hm]
  have key : ∀ l' l, rowMajor s = l ++ l' → forAll (fun j => mapOp setOp [elem dst j, elem x j]) l' (afterSet A f l μ) = (.ok (), afterSet A f (rowMajor s) μ) := by
    intro l'
    induction l' with
    | nil => intro l h; rw [h, List.append_nil]; rfl
    | cons k l' ih =>
      intro l h
      have hk : Valid s k := mem_rowMajor.1 (by rw [h]; simp)
      rw [forAll, act_bind_ok (set_run (hA l k l' h) (hf l k l' h) (afterSet_some (hmem k hk))), ← afterSet_concat]
      exact ih _ (by rw [h]; simp)
  exact key _ [] rfl

theorem afterSet_at {A : List Int → Int} {f : List Int → V} {l : List (List Int)} {μ : Mem V} {s : List Nat} (hl : ∀ j ∈ l, Valid s j) (hinj : ∀ i j, Valid s i → Valid s j → A i = A j → i = j) {j : List Int} (hj : j ∈ l) :
    afterSet A f l μ (A j) = some (f j) := by
  simp only [afterSet]
  cases h : (l.filter fun i => A i = A j).getLast? with
  | none =>
    rw [List.getLast?_eq_none_iff, List.filter_eq_nil_iff] at h
    exact absurd (decide_eq_true rfl) (h j hj)
  | some i =>
    have := List.mem_of_getLast? h
    rw [List.mem_filter] at this
    rw [hinj i j (hl i this.1) (hl j hj) (of_decide_eq_true this.2)]

theorem afterSet_not {A : List Int → Int} {f : List Int → V} {l : List (List Int)} {μ : Mem V} {p : Int} (h : ∀ j ∈ l, A j ≠ p) : afterSet A f l μ p = μ p := by
  simp only [afterSet]
  rw [List.filter_eq_nil_iff.2 fun j hj => by rw [decide_eq_true_eq]; exact h j hj]
  rfl

/-- C129. `b = a` for two arrays that may overlap. If no element of `a` is read after it has been set as an element of `b`, the elements of `b` end with the values that those of `a` had before. -/
theorem C129_copy (dyn : Bool) (z : List Int) (hz : ∀ i ∈ z, i = 0) (b a : View) (s : List Nat) (sa : List Length) (hb : Shaped b (s.map some)) (ha : Shaped a sa) (hm : Merge [s.map some, sa] (s.map some)) (hd : Distinct b s)
    (μ : Mem V) (c : List Int → V) (hmem : ∀ j, Valid s j → (μ (address b j)).isSome) (hc : ∀ j, Valid s j → μ (address a j) = some (c j))
    (hlate : ∀ l k l', rowMajor s = l ++ k :: l' → ∀ j ∈ l, address b j ≠ address a k) :
    ∃ μ', assign dyn z b.refs a.refs μ = (.ok (), μ') ∧ (∀ j, Valid s j → μ' (address b j) = some (c j)) ∧ SameOutside (InView b s) μ μ' := by
  refine ⟨_, C129_assign dyn z hz b.refs a.refs _ sa s (refs_shape hb) (refs_shape ha) hm μ (address b) c hmem (fun l k l' _ => by rw [elem_refs]; rfl) (fun l k l' h => reads_refs ?_), fun j hj => ?_, fun p hp => ?_⟩
  · rw [afterSet_not (hlate l k l' h)]
    exact hc k (mem_rowMajor.1 (by rw [h]; simp))
  · exact afterSet_at (fun j hj => mem_rowMajor.1 hj) hd (mem_rowMajor.2 hj)
  · exact afterSet_not fun j hj h => hp ⟨j, mem_rowMajor.1 hj, h.symm⟩

theorem rowMajor_heads (n : Nat) (t : List Nat) : (rowMajor (n :: t)).Pairwise fun i j => i.headD 0 ≤ j.headD 0 := by
  rw [rowMajor, List.pairwise_flatMap]
  refine ⟨fun i _ => ?_, ?_⟩
  · rw [List.pairwise_map]
    exact List.pairwise_of_forall fun _ _ => le_refl _
  · refine List.pairwise_lt_range.imp fun {a b} h x hx y hy => ?_
    obtain ⟨_, _, rfl⟩ := List.mem_map.1 hx
    obtain ⟨_, _, rfl⟩ := List.mem_map.1 hy
    simp only [List.headD_cons]
    omega

theorem rowMajor_before {n : Nat} {t : List Nat} {l l' : List (List Int)} {k : List Int} (h : rowMajor (n :: t) = l ++ k :: l') :
    (∀ j ∈ l, j.headD 0 ≤ k.headD 0) ∧ ∀ j, Valid (n :: t) j → j.headD 0 < k.headD 0 → j ∈ l := by
  have hp := rowMajor_heads n t
  rw [h, List.pairwise_append, List.pairwise_cons] at hp
  refine ⟨fun j hj => hp.2.2 j hj k (by simp), fun j hj hlt => ?_⟩
  have := mem_rowMajor.2 hj
  rw [h, List.mem_append, List.mem_cons] at this
  rcases this with h | rfl | h
  · exact h
  · omega
  · have := hp.2.1.1 j h
    omega

/-- `a(iota(m, o))`, where that's in range of the first axis. -/
theorem shift_slice (v : View) (n m o : Nat) (t : List Nat) (hv : Shaped v (((n :: t)).map some)) (h : m + o ≤ n) :
    ∃ b, v.from [write (.range m o 1)] = .ok b ∧ Shaped b ((m :: t).map some) ∧ ∀ i r, Valid (m :: t) (i :: r) → address b (i :: r) = address v ((i + o) :: r) := by
  obtain ⟨d, d1⟩ : ∃ d ds, v.dims = d :: ds ∧ d.len = n := by
    have := hv
    unfold Shaped at this
    cases hds : v.dims with
    | nil => rw [hds] at this; cases this
    | cons d ds =>
      rw [hds] at this
      cases this with
      | cons h h' => exact ⟨d, ds, rfl, by simpa [DimLen] using h⟩
  obtain ⟨ds, d1, d2⟩ := d1
  obtain ⟨b, b1, b2, b3⟩ := C13_slice v _ hv [.range m o 1] (by simp [axes]) (by
    rw [d1]
    simp only [Accepts, and_true, d2]
    intro k hk
    omega)
  refine ⟨b, b1, by simpa [sliceShape] using b2, fun i r hj => ?_⟩
  rw [(b3 _ (by simpa [sliceShape] using inRange_of_valid hj)).1]
  simp [sliceIndex, add_comm]

theorem valid_shift {n m o : Nat} {t : List Nat} {i : Int} {r : List Int} (h : m + o ≤ n) (hj : Valid (m :: t) (i :: r)) : Valid (n :: t) ((i + o) :: r) := by
  obtain ⟨h1, h2, h3⟩ := hj
  exact ⟨by omega, by omega, h3⟩

/-- C129. `a(iota(m)) = a(iota(m, d))` moves the elements of `a` to the beginning. -/
theorem C129_forward (dyn : Bool) (z : List Int) (hz : ∀ i ∈ z, i = 0) (v : View) (m d : Nat) (t : List Nat) (hv : Shaped v (((m + d) :: t).map some)) (hd : Distinct v ((m + d) :: t)) (μ : Mem V) (c : List Int → V)
    (hc : ∀ j, Valid ((m + d) :: t) j → μ (address v j) = some (c j)) :
    ∃ b a, v.from [write (.range m (0 : Nat) 1)] = .ok b ∧ v.from [write (.range m d 1)] = .ok a ∧ ∃ μ', assign dyn z b.refs a.refs μ = (.ok (), μ') ∧
      (∀ i r, Valid ((m + d) :: t) (i :: r) → μ' (address v (i :: r)) = some (if i < m then c ((i + d) :: r) else c (i :: r))) ∧ SameOutside (InView v ((m + d) :: t)) μ μ' := by
  obtain ⟨b, b1, b2, b3⟩ := shift_slice v (m + d) m 0 t hv (by omega)
  obtain ⟨a, a1, a2, a3⟩ := shift_slice v (m + d) m d t hv (by omega)
  simp only [Nat.cast_zero, add_zero] at b3
  have hin : ∀ i r, Valid (m :: t) (i :: r) → Valid ((m + d) :: t) (i :: r) := fun i r h => by simpa using valid_shift (o := 0) (n := m + d) (by omega) h
  have hdb : Distinct b (m :: t) := by
    intro i j hi hj h
    match i, j, hi, hj, h with
    | i :: r, j :: r', hi, hj, h =>
      rw [b3 i r hi, b3 j r' hj] at h
      exact hd _ _ (hin i r hi) (hin j r' hj) h
  obtain ⟨μ', h1, h2, h3⟩ := C129_copy dyn z hz b a (m :: t) _ b2 a2 (merge_same _) hdb μ (fun j => c ((j.headD 0 + d) :: j.tail))
    (fun j hj => by
      match j, hj with
      | i :: r, hj => rw [b3 i r hj, hc _ (hin i r hj)]; rfl)
    (fun j hj => by
      match j, hj with
      | i :: r, hj => rw [a3 i r hj, hc _ (valid_shift (by omega) hj)]; rfl)
    (fun l k l' h j hj e => by
      have hk : Valid (m :: t) k := mem_rowMajor.1 (by rw [h]; simp)
      have hj' : Valid (m :: t) j := mem_rowMajor.1 (by rw [h]; simp [hj])
      have hle := (rowMajor_before h).1 j hj
      have hn := nodup_rowMajor (m :: t)
      rw [h, List.nodup_append] at hn
      match j, k, hj', hk with
      | i :: r, k :: r', hj', hk =>
        rw [b3 i r hj', a3 k r' hk] at e
        have := hd _ _ (hin i r hj') (valid_shift (by omega) hk) e
        injection this with e1 e2
        simp only [List.headD_cons] at hle
        have : d = 0 := by omega
        subst this
        exact hn.2.2 _ hj _ (List.mem_cons_self) (by rw [e1, e2]; simp))
  refine ⟨b, a, b1, a1, μ', h1, fun i r hi => ?_, fun p hp => h3 p fun ⟨j, hj, e⟩ => ?_⟩
  · by_cases him : i < m
    · have hv' : Valid (m :: t) (i :: r) := ⟨hi.1, him, hi.2.2⟩
      rw [if_pos him, ← b3 i r hv', h2 _ hv']
      rfl
    · have hnot : ¬ InView b (m :: t) (address v (i :: r)) := by
        rintro ⟨j, hj, e⟩
        match j, hj with
        | j :: r', hj =>
          rw [b3 j r' hj] at e
          have := hd _ _ hi (hin j r' hj) e
          injection this with e1 _
          have := hj.2.1
          omega
      rw [if_neg him, h3 _ hnot, hc _ hi]
  · match j, hj with
    | j :: r', hj => exact hp ⟨_, hin j r' hj, by rw [e, b3 j r' hj]⟩

/-- C129. `a(iota(m, d)) = a(iota(m))` doesn't move the elements to the end, if the two overlap. It repeats the first `d` of them. -/
theorem C129_smear (dyn : Bool) (z : List Int) (hz : ∀ i ∈ z, i = 0) (v : View) (m d : Nat) (h0 : 0 < d) (t : List Nat) (hv : Shaped v (((m + d) :: t).map some)) (hd : Distinct v ((m + d) :: t)) (μ : Mem V) (c : List Int → V)
    (hc : ∀ j, Valid ((m + d) :: t) j → μ (address v j) = some (c j)) :
    ∃ b a, v.from [write (.range m d 1)] = .ok b ∧ v.from [write (.range m (0 : Nat) 1)] = .ok a ∧ ∃ μ', assign dyn z b.refs a.refs μ = (.ok (), μ') ∧
      (∀ i r, Valid ((m + d) :: t) (i :: r) → μ' (address v (i :: r)) = some (c (i % d :: r))) ∧ SameOutside (InView v ((m + d) :: t)) μ μ' := by
  obtain ⟨a, a1, a2, a3⟩ := shift_slice v (m + d) m 0 t hv (by omega)
  obtain ⟨b, b1, b2, b3⟩ := shift_slice v (m + d) m d t hv (by omega)
  simp only [Nat.cast_zero, add_zero] at a3
  have hin : ∀ i r, Valid (m :: t) (i :: r) → Valid ((m + d) :: t) (i :: r) := fun i r h => by simpa using valid_shift (o := 0) (n := m + d) (by omega) h
  have hout : ∀ i r, Valid (m :: t) (i :: r) → Valid ((m + d) :: t) ((i + d) :: r) := fun i r h => valid_shift (by omega) h
  have hdb : ∀ i j, Valid (m :: t) i → Valid (m :: t) j → address b i = address b j → i = j := by
    intro i j hi hj h
    match i, j, hi, hj, h with
    | i :: r, j :: r', hi, hj, h =>
      rw [b3 i r hi, b3 j r' hj] at h
      have := hd _ _ (hout i r hi) (hout j r' hj) h
      injection this with e1 e2
      rw [e2, show i = j by omega]
  let f : List Int → V := fun j => c (j.headD 0 % d :: j.tail)
  have hrun := C129_assign dyn z hz b.refs a.refs _ _ (m :: t) (refs_shape b2) (refs_shape a2) (merge_same _) μ (address b) f
    (fun j hj => by
      match j, hj with
      | i :: r, hj => rw [b3 i r hj, hc _ (hout i r hj)]; rfl)
    (fun l k l' _ => by rw [elem_refs]; rfl)
    (fun l k l' h => by
      have hk : Valid (m :: t) k := mem_rowMajor.1 (by rw [h]; simp)
      have hl : ∀ j ∈ l, Valid (m :: t) j := fun j hj => mem_rowMajor.1 (by rw [h]; simp [hj])
      have hb := rowMajor_before h
      match k, hk, hb with
      | k :: r, hk, hb =>
        refine reads_refs ?_
        rw [a3 k r hk]
        by_cases hkd : k < d
        · rw [afterSet_not (fun j hj e => ?_), hc _ (hin k r hk)]
          · show _ = some (c (k % d :: r))
            rw [Int.emod_eq_of_lt hk.1 hkd]
          · match j, hl j hj with
            | j :: r', hj' =>
              rw [b3 j r' hj'] at e
              have := hd _ _ (hout j r' hj') (hin k r hk) e
              injection this with e1 _
              have := hj'.1
              omega
        · have hp : Valid (m :: t) ((k - d) :: r) := ⟨by omega, by have := hk.2.1; omega, hk.2.2⟩
          have hmem := hb.2 _ hp (by simp; omega)
          have := afterSet_at (f := f) (μ := μ) hl hdb hmem
          rw [b3 _ r hp, sub_add_cancel] at this
          rw [this]
          show some (c ((k - d) % d :: r)) = some (c (k % d :: r))
          rw [Int.sub_emod_right])
  refine ⟨b, a, b1, a1, _, hrun, fun i r hi => ?_, fun p hp => afterSet_not fun j hj e => ?_⟩
  · by_cases hid : i < d
    · rw [afterSet_not fun j hj e => ?_, hc _ hi, Int.emod_eq_of_lt hi.1 hid]
      match j, mem_rowMajor.1 hj with
      | j :: r', hj =>
        rw [b3 j r' hj] at e
        have := hd _ _ (hout j r' hj) hi e
        injection this with e1 _
        have := hj.1
        omega
    · have hp : Valid (m :: t) ((i - d) :: r) := ⟨by omega, by have := hi.2.1; push_cast at this; omega, hi.2.2⟩
      have := afterSet_at (f := f) (μ := μ) (fun j hj => mem_rowMajor.1 hj) hdb (mem_rowMajor.2 hp)
      rw [b3 _ r hp, sub_add_cancel] at this
      rw [this]
      show some (c ((i - d) % d :: r)) = some (c (i % d :: r))
      rw [Int.sub_emod_right]
  · match j, mem_rowMajor.1 hj with
    | j :: r', hj => exact hp ⟨_, hout j r' hj, by rw [← e, b3 j r' hj]⟩

/-- C129. `reverse(a(iota(m, d))) = reverse(a(iota(m)))` moves the elements to the end, even if the two overlap. -/
theorem C129_backward (dyn : Bool) (z : List Int) (hz : ∀ i ∈ z, i = 0) (v : View) (m d : Nat) (t : List Nat) (hv : Shaped v (((m + d) :: t).map some)) (hd : Distinct v ((m + d) :: t)) (μ : Mem V) (c : List Int → V)
    (hc : ∀ j, Valid ((m + d) :: t) j → μ (address v j) = some (c j)) :
    ∃ b a rb ra, v.from [write (.range m d 1)] = .ok b ∧ v.from [write (.range m (0 : Nat) 1)] = .ok a ∧ b.reverse 0 = .ok rb ∧ a.reverse 0 = .ok ra ∧ ∃ μ', assign dyn z rb.refs ra.refs μ = (.ok (), μ') ∧
      (∀ i r, Valid ((m + d) :: t) (i :: r) → μ' (address v (i :: r)) = some (if i < d then c (i :: r) else c ((i - d) :: r))) ∧ SameOutside (InView v ((m + d) :: t)) μ μ' := by
  obtain ⟨a, a1, a2, a3⟩ := shift_slice v (m + d) m 0 t hv (by omega)
  obtain ⟨b, b1, b2, b3⟩ := shift_slice v (m + d) m d t hv (by omega)
  obtain ⟨ra, r1, r2, r3, _⟩ := C19_reverse a _ a2 0 m rfl
  obtain ⟨rb, q1, q2, q3, _⟩ := C19_reverse b _ b2 0 m rfl
  have flip : ∀ i r, Valid (m :: t) (i :: r) → Valid (m :: t) ((m - 1 - i) :: r) := fun i r h => ⟨by have := h.2.1; omega, by have := h.1; omega, h.2.2⟩
  have ea : ∀ i r, Valid (m :: t) (i :: r) → address ra (i :: r) = address v ((m - 1 - i) :: r) := by
    intro i r h
    rw [r3 _ (inRange_of_valid h)]
    have := a3 _ r (flip i r h)
    simpa using this
  have eb : ∀ i r, Valid (m :: t) (i :: r) → address rb (i :: r) = address v ((m - 1 - i + d) :: r) := by
    intro i r h
    rw [q3 _ (inRange_of_valid h)]
    have := b3 _ r (flip i r h)
    simpa using this
  have hin : ∀ i r, Valid (m :: t) (i :: r) → Valid ((m + d) :: t) ((m - 1 - i) :: r) := fun i r h => by simpa using valid_shift (o := 0) (n := m + d) (by omega) (flip i r h)
  have hout : ∀ i r, Valid (m :: t) (i :: r) → Valid ((m + d) :: t) ((m - 1 - i + d) :: r) := fun i r h => valid_shift (by omega) (flip i r h)
  have hdb : Distinct rb (m :: t) := by
    intro i j hi hj h
    match i, j, hi, hj, h with
    | i :: r, j :: r', hi, hj, h =>
      rw [eb i r hi, eb j r' hj] at h
      have := hd _ _ (hout i r hi) (hout j r' hj) h
      injection this with e1 e2
      rw [e2, show i = j by omega]
  obtain ⟨μ', h1, h2, h3⟩ := C129_copy dyn z hz rb ra (m :: t) _ q2 r2 (merge_same _) hdb μ (fun j => c ((m - 1 - j.headD 0) :: j.tail))
    (fun j hj => by
      match j, hj with
      | i :: r, hj => rw [eb i r hj, hc _ (hout i r hj)]; rfl)
    (fun j hj => by
      match j, hj with
      | i :: r, hj => rw [ea i r hj, hc _ (hin i r hj)]; rfl)
    (fun l k l' h j hj e => by
      have hk : Valid (m :: t) k := mem_rowMajor.1 (by rw [h]; simp)
      have hj' : Valid (m :: t) j := mem_rowMajor.1 (by rw [h]; simp [hj])
      have hle := (rowMajor_before h).1 j hj
      have hn := nodup_rowMajor (m :: t)
      rw [h, List.nodup_append] at hn
      match j, k, hj', hk with
      | i :: r, k :: r', hj', hk =>
        rw [eb i r hj', ea k r' hk] at e
        have := hd _ _ (hout i r hj') (hin k r' hk) e
        injection this with e1 e2
        simp only [List.headD_cons] at hle
        exact hn.2.2 _ hj _ (List.mem_cons_self) (by rw [e2, show i = k by omega]))
  refine ⟨b, a, rb, ra, b1, a1, q1, r1, μ', h1, fun i r hi => ?_, fun p hp => h3 p fun ⟨j, hj, e⟩ => ?_⟩
  · by_cases hid : i < d
    · have hnot : ¬ InView rb (m :: t) (address v (i :: r)) := by
        rintro ⟨j, hj, e⟩
        match j, hj with
        | j :: r', hj =>
          rw [eb j r' hj] at e
          have := hd _ _ hi (hout j r' hj) e
          injection this with e1 _
          have := hj.2.1
          omega
      rw [if_pos hid, h3 _ hnot, hc _ hi]
    · have hv' : Valid (m :: t) ((m - 1 - (i - d)) :: r) := flip _ r ⟨by omega, by have := hi.2.1; push_cast at this; omega, hi.2.2⟩
      have := h2 _ hv'
      rw [eb _ r hv', show (m : Int) - 1 - (m - 1 - (i - d)) + d = i by omega] at this
      rw [if_neg hid, this]
      simp only [List.headD_cons, List.tail_cons]
      rw [show (m : Int) - 1 - (m - 1 - (i - d)) = i - d by omega]
  · match j, hj with
    | j :: r', hj => exact hp ⟨_, hout j r' hj, by rw [e, eb j r' hj]⟩

theorem afterUpd_concat (g : V → V → V) (A : List Int → Int) (f : List Int → V) (l : List (List Int)) (k : List Int) (μ : Mem V) (y : V) (h : afterUpd g A f l μ (A k) = some y) :
    afterUpd g A f (l ++ [k]) μ = (afterUpd g A f l μ).upd (A k) (g y (f k)) := by
  funext p
  by_cases e : p = A k
  · subst e
    simp only [afterUpd, Option.map_eq_some_iff] at h
    obtain ⟨w, h1, h2⟩ := h
    simp [afterUpd, Mem.upd, List.filter_append, h1, h2]
  · simp [afterUpd, Mem.upd, e, Ne.symm e, List.filter_append]

/-- C129. `b OP= x`, in the same way. -/
theorem C129_update (g : V → V → V) (dyn : Bool) (z : List Int) (hz : ∀ i ∈ z, i = 0) (dst x : Iter (Act V) (Lv V)) (sd sx : List Length) (s : List Nat) (hd : HasShape dst sd) (hx : HasShape x sx) (hm : Merge [sd, sx] (s.map some))
    (μ : Mem V) (A : List Int → Int) (f : List Int → V) (hmem : ∀ j, Valid s j → (μ (A j)).isSome) (hA : ∀ l k l', rowMajor s = l ++ k :: l' → Refers (afterUpd g A f l μ) (elem dst k) (A k))
    (hf : ∀ l k l', rowMajor s = l ++ k :: l' → Reads (afterUpd g A f l μ) (elem x k) (f k)) :
    update g dyn z dst x μ = (.ok (), afterUpd g A f (rowMajor s) μ) := by
  rw [update, run_forAll dyn z hz _ dst x _ sx s hd hx hm]
  have key : ∀ l' l, rowMajor s = l ++ l' → forAll (fun j => mapOp (updOp g) [elem dst j, elem x j]) l' (afterUpd g A f l μ) = (.ok (), afterUpd g A f (rowMajor s) μ) := by
    intro l'
    induction l' with
    | nil => intro l h; rw [h, List.append_nil]; rfl
    | cons k l' ih =>
      intro l h
      have hk : Valid s k := mem_rowMajor.1 (by rw [h]; simp)
      obtain ⟨y, hy⟩ : ∃ y, afterUpd g A f l μ (A k) = some y := by
        obtain ⟨w, hw⟩ := Option.isSome_iff_exists.1 (hmem k hk)
        exact ⟨_, by simp only [afterUpd, hw]; rfl⟩
      rw [forAll, act_bind_ok (upd_run g (hA l k l' h) (hf l k l' h) hy), ← afterUpd_concat g A f l k μ y hy]
      exact ih _ (by rw [h]; simp)
  have h0 : afterUpd g A f [] μ = μ := by funext p; simp [afterUpd]
  have := key _ [] rfl
  rwa [h0] at this

theorem filter_place {A : List Int → Int} {l : List (List Int)} {s : List Nat} (hn : l.Nodup) (hl : ∀ j ∈ l, Valid s j) (hinj : ∀ i j, Valid s i → Valid s j → A i = A j → i = j) {j : List Int} (hj : j ∈ l) :
    l.filter (fun i => A i = A j) = [j] := by
  have : l.filter (fun i => decide (A i = A j)) = l.filter (fun i => i == j) := List.filter_congr fun i hi => by
    rw [Bool.eq_iff_iff, decide_eq_true_eq, beq_iff_eq]
    exact ⟨fun h => hinj i j (hl i hi) (hl j hj) h, fun h => by rw [h]⟩
  rw [this, List.filter_beq, List.count_eq_one_of_mem hn hj]
  rfl

/-- C129. `a(iota(m, 1)) OP= a(iota(m))`, where `a` has length `m+1`, leaves in each element the result of the operation on it and on the result for the one before. -/
theorem C129_scan (g : V → V → V) (dyn : Bool) (z : List Int) (hz : ∀ i ∈ z, i = 0) (v : View) (m : Nat) (t : List Nat) (hv : Shaped v (((m + 1) :: t).map some)) (hd : Distinct v ((m + 1) :: t)) (μ : Mem V) (c : Nat → List Int → V)
    (hc : ∀ (i : Nat) r, Valid ((m + 1) :: t) (i :: r) → μ (address v (i :: r)) = some (c i r)) :
    ∃ b a, v.from [write (.range m (1 : Nat) 1)] = .ok b ∧ v.from [write (.range m (0 : Nat) 1)] = .ok a ∧ ∃ μ', update g dyn z b.refs a.refs μ = (.ok (), μ') ∧
      (∀ (i : Nat) r, Valid ((m + 1) :: t) (i :: r) → μ' (address v (i :: r)) = some (running g (fun i => c i r) i)) ∧ SameOutside (InView v ((m + 1) :: t)) μ μ' := by
  obtain ⟨a, a1, a2, a3⟩ := shift_slice v (m + 1) m 0 t hv (by omega)
  obtain ⟨b, b1, b2, b3⟩ := shift_slice v (m + 1) m 1 t hv (by omega)
  simp only [Nat.cast_zero, add_zero, Nat.cast_one] at a3 b3
  have hin : ∀ i r, Valid (m :: t) (i :: r) → Valid ((m + 1) :: t) (i :: r) := fun i r h => by simpa using valid_shift (o := 0) (n := m + 1) (by omega) h
  have hout : ∀ i r, Valid (m :: t) (i :: r) → Valid ((m + 1) :: t) ((i + 1) :: r) := fun i r h => valid_shift (o := 1) (by omega) h
  have hdb : ∀ i j, Valid (m :: t) i → Valid (m :: t) j → address b i = address b j → i = j := by
    intro i j hi hj h
    match i, j, hi, hj, h with
    | i :: r, j :: r', hi, hj, h =>
      rw [b3 i r hi, b3 j r' hj] at h
      have := hd _ _ (hout i r hi) (hout j r' hj) h
      injection this with e1 e2
      rw [e2, show i = j by omega]
  let f : List Int → V := fun j => running g (fun i => c i j.tail) (j.headD 0).toNat
  -- what's in an element after the indices in `l`
  have hval : ∀ l : List (List Int), l.Nodup → (∀ j ∈ l, Valid (m :: t) j) → ∀ (i : Nat) r, Valid ((m + 1) :: t) (i :: r) → (∀ i' : Nat, i = i' + 1 → (i' : Int) :: r ∈ l) →
      afterUpd g (address b) f l μ (address v (i :: r)) = some (running g (fun i => c i r) i) := by
    intro l hn hl i r hi hmem
    simp only [afterUpd]
    rw [hc i r hi]
    cases i with
    | zero =>
      rw [List.filter_eq_nil_iff.2 fun j hj => ?_]
      · rfl
      · rw [decide_eq_true_eq]
        intro e
        match j, hl j hj with
        | j :: r', hj' =>
          rw [b3 j r' hj'] at e
          have := hd _ _ (hout j r' hj') hi e
          injection this with e1 _
          have := hj'.1
          omega
    | succ i =>
      have hp : Valid (m :: t) ((i : Int) :: r) := ⟨by omega, by have := hi.2.1; push_cast at this; omega, hi.2.2⟩
      have e := b3 _ r hp
      rw [show ((i + 1 : Nat) : Int) = (i : Int) + 1 by push_cast; rfl, ← e, filter_place hn hl hdb (hmem i rfl)]
      simp [f, running]
  have hrun := C129_update g dyn z hz b.refs a.refs _ _ (m :: t) (refs_shape b2) (refs_shape a2) (merge_same _) μ (address b) f
    (fun j hj => by
      match j, hj with
      | i :: r, hj =>
        obtain ⟨i, rfl⟩ := Int.eq_ofNat_of_zero_le hj.1
        have := hc (i + 1) r (by simpa using hout i r hj)
        rw [b3 _ r hj]
        push_cast at this
        rw [this]
        rfl)
    (fun l k l' _ => by rw [elem_refs]; rfl)
    (fun l k l' h => by
      have hk : Valid (m :: t) k := mem_rowMajor.1 (by rw [h]; simp)
      have hl : ∀ j ∈ l, Valid (m :: t) j := fun j hj => mem_rowMajor.1 (by rw [h]; simp [hj])
      have hn := nodup_rowMajor (m :: t)
      rw [h, List.nodup_append] at hn
      have hb := rowMajor_before h
      match k, hk, hb with
      | k :: r, hk, hb =>
        obtain ⟨k, rfl⟩ := Int.eq_ofNat_of_zero_le hk.1
        refine reads_refs ?_
        rw [a3 k r hk, hval l hn.1 hl k r (hin k r hk) fun i' hi' => hb.2 _ ⟨by omega, by have := hk.2.1; omega, hk.2.2⟩ (by simp; omega)]
        simp [f])
  refine ⟨b, a, b1, a1, _, hrun, fun i r hi => ?_, fun p hp => ?_⟩
  · refine hval _ (nodup_rowMajor _) (fun j hj => mem_rowMajor.1 hj) i r hi fun i' hi' => mem_rowMajor.2 ⟨by omega, by have := hi.2.1; push_cast at this; omega, hi.2.2⟩
  · simp only [afterUpd]
    rw [List.filter_eq_nil_iff.2 fun j hj => ?_]
    · simp
    · rw [decide_eq_true_eq]
      intro e
      match j, mem_rowMajor.1 hj with
      | j :: r', hj => exact hp ⟨_, hout j r' hj, by rw [← e, b3 j r' hj]⟩

/-- C129. For `+=` these are the sums of the elements up to each one. -/
theorem C129_sums {R : Type} [AddCommMonoid R] (c : Nat → R) (i : Nat) : running (· + ·) c i = ∑ k ∈ Finset.range (i + 1), c k := by
  induction i with
  | zero => simp [running]
  | succ i ih => rw [running, ih, Finset.sum_range_succ _ (i + 1), add_comm]

end

/-! ## The statements on a vector -/

/-- 10 20 30 40 50 at 0. -/
def shiftMem : Mem Int := fun p => if 0 ≤ p ∧ p < 5 then some (10 * p + 10) else none

def shiftVec : View := ⟨[⟨5, 1⟩], 0⟩

theorem shiftVec_shape : Shaped shiftVec (([3 + 2] : List Nat).map some) := shaped_nat.mpr rfl

theorem shiftVec_address (i : Int) : address shiftVec [i] = i := by simp [shiftVec, address, dot]

theorem shiftVec_distinct : Distinct shiftVec [3 + 2] := by
  intro i j hi hj h
  obtain ⟨i, rfl, _⟩ := valid_one.1 hi
  obtain ⟨j, rfl, _⟩ := valid_one.1 hj
  rw [shiftVec_address, shiftVec_address] at h
  rw [h]

theorem shiftVec_values (j : List Int) (hj : Valid [3 + 2] j) : shiftMem (address shiftVec j) = some (10 * j.headD 0 + 10) := by
  obtain ⟨j, rfl, h1, h2⟩ := valid_one.1 hj
  rw [shiftVec_address]
  exact if_pos ⟨h1, by omega⟩

theorem shift_valid (i : Int) (h : 0 ≤ i ∧ i < 5) : Valid [3 + 2] [i] := valid_one.2 ⟨i, rfl, h.1, by omega⟩

/- 30 40 50 40 50 -/
example : ∃ b a μ', shiftVec.from [write (.range 3 0 1)] = .ok b ∧ shiftVec.from [write (.range 3 2 1)] = .ok a ∧ assign true [0] b.refs a.refs shiftMem = (.ok (), μ') ∧ μ' 0 = some 30 ∧ μ' 2 = some 50 ∧ μ' 3 = some 40 := by
  obtain ⟨b, a, h1, h2, μ', h3, h4, _⟩ := C129_forward true [0] (by simp) shiftVec 3 2 [] shiftVec_shape shiftVec_distinct shiftMem _ shiftVec_values
  have h := fun i hi => (congrArg μ' (shiftVec_address i)).symm.trans (h4 i [] (shift_valid i hi))
  exact ⟨b, a, μ', h1, h2, h3, h 0 (by decide), h 2 (by decide), h 3 (by decide)⟩

/- 10 20 10 20 10 -/
example : ∃ b a μ', shiftVec.from [write (.range 3 2 1)] = .ok b ∧ shiftVec.from [write (.range 3 0 1)] = .ok a ∧ assign true [0] b.refs a.refs shiftMem = (.ok (), μ') ∧ μ' 1 = some 20 ∧ μ' 2 = some 10 ∧ μ' 4 = some 10 := by
  obtain ⟨b, a, h1, h2, μ', h3, h4, _⟩ := C129_smear true [0] (by simp) shiftVec 3 2 (by omega) [] shiftVec_shape shiftVec_distinct shiftMem _ shiftVec_values
  have h := fun i hi => (congrArg μ' (shiftVec_address i)).symm.trans (h4 i [] (shift_valid i hi))
  exact ⟨b, a, μ', h1, h2, h3, h 1 (by decide), h 2 (by decide), h 4 (by decide)⟩

/- 10 20 10 20 30 -/
example : ∃ rb ra μ', assign true [0] (View.refs rb) (View.refs ra) shiftMem = (.ok (), μ') ∧ μ' 1 = some 20 ∧ μ' 2 = some 10 ∧ μ' 4 = some 30 := by
  obtain ⟨b, a, rb, ra, _, _, _, _, μ', h3, h4, _⟩ := C129_backward true [0] (by simp) shiftVec 3 2 [] shiftVec_shape shiftVec_distinct shiftMem _ shiftVec_values
  have h := fun i hi => (congrArg μ' (shiftVec_address i)).symm.trans (h4 i [] (shift_valid i hi))
  exact ⟨rb, ra, μ', h3, h 1 (by decide), h 2 (by decide), h 4 (by decide)⟩

/- 10 30 60 100 150 -/
example : ∃ b a μ', shiftVec.from [write (.range 4 1 1)] = .ok b ∧ shiftVec.from [write (.range 4 0 1)] = .ok a ∧ update (· + ·) true [0] b.refs a.refs shiftMem = (.ok (), μ') ∧ μ' 0 = some 10 ∧ μ' 3 = some 100 ∧ μ' 4 = some 150 := by
  obtain ⟨b, a, h1, h2, μ', h3, h4, _⟩ := C129_scan (· + ·) true [0] (by simp) shiftVec 4 [] (shaped_nat.mpr rfl) shiftVec_distinct shiftMem (fun i _ => 10 * (i : Int) + 10) fun i r hi => shiftVec_values _ hi
  have h := fun (i : Nat) hi => (congrArg μ' (shiftVec_address i)).symm.trans (h4 i [] (shift_valid i hi))
  exact ⟨b, a, μ', h1, h2, h3, h 0 (by decide), h 3 (by decide), h 4 (by decide)⟩

end Ra.Props
