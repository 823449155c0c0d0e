import Verif.Props.Views
import Verif.Props.AssignLast
import Verif.Props.Fill
import Verif.Props.FullExp
/-!
# C131: the same operations on the views on both sides
-/

namespace Ra.Spec

/-- The operations `ops` take any array of shape `s` to a view of shape `t`, whose element at `j` is the element of the array at `sel j`. -/
def TakesAlike (ops : List ViewOp) (s t : List Nat) (sel : List Int → List Int) : Prop :=
  (∀ j, Valid t j → Valid s (sel j)) ∧ ∀ (V : Type) (a : Arr) (μ : Mem V), Container a μ s → ∃ w, runOps ops a.view = .ok w ∧ Shaped w (t.map some) ∧ ∀ j, Valid t j → address w j = address a.view (sel j)

end Ra.Spec

namespace Ra.Props
open Ra.Spec

section
variable {V : Type}

/-- C131. Which elements are taken by operations on views depends on the shape of the array, but not on which array it is. -/
theorem C131_select (s t : List Nat) (ops : List ViewOp) (h : opsShape true (s.map some) ops = some (t.map some)) : ∃ sel, TakesAlike ops s t sel := by
  have key : ∀ (V : Type) (a : Arr) (μ : Mem V), Container a μ s → ∃ w, runOps ops a.view = .ok w ∧ Shaped w (t.map some) ∧
      ∀ j, Valid t j → Valid s ((opsIndex true (s.map some) ops j).take s.length) ∧ address w j = address a.view ((opsIndex true (s.map some) ops j).take s.length) := by
    intro V a μ hc
    obtain ⟨w, h1, h2, h3⟩ := C78_views a μ s hc ops _ h
    have hl : a.view.dims.length = s.length := by simpa using (C30_elements a μ _ hc).1.length_eq
    refine ⟨w, h1, h2, fun j hj => ⟨inRange_valid (h3 j (inRange_of_valid hj)).1, ?_⟩⟩
    rw [(h3 j (inRange_of_valid hj)).2, address_cut, hl]
  obtain ⟨a, ha⟩ := some_container s
  obtain ⟨_, _, _, h4⟩ := key _ a _ ha
  refine ⟨fun j => (opsIndex true (s.map some) ops j).take s.length, fun j hj => (h4 j hj).1, fun V a μ hc => ?_⟩
  obtain ⟨w, h1, h2, h3⟩ := key V a μ hc
  exact ⟨w, h1, h2, fun j hj => (h3 j hj).2⟩

/-- C131, the general case. If the elements of `x` have the values that `f` has at the elements of `c` that go with them, and don't depend on `c`, then the elements that are taken from `c` get the values of `f` there, once or more times; the
other elements of `c` and the rest of memory don't change. -/
theorem C131_assign (dyn : Bool) (z : List Int) (hz : ∀ i ∈ z, i = 0) (c : Arr) (s t : List Nat) (ops : List ViewOp) (sel : List Int → List Int) (hs : TakesAlike ops s t sel) (μ : Mem V) (hc : Container c μ s)
    (x : Iter (Act V) (Lv V)) (sx : List Length) (hx : HasShape x sx) (hm : Merge [t.map some, sx] (t.map some)) (f : List Int → V)
    (hf : ∀ j, Valid t j → ∀ μ', SameOutside (Owns c) μ μ' → Reads μ' (elem x j) (f (sel j))) :
    ∃ w μ', runOps ops c.view = .ok w ∧ assign dyn z w.refs x μ = (.ok (), μ') ∧ (∀ j, Valid t j → μ' (address c.view (sel j)) = some (f (sel j))) ∧
      SameOutside (fun p => ∃ j, Valid t j ∧ p = address c.view (sel j)) μ μ' := by
  obtain ⟨h1, h2⟩ := hs
  obtain ⟨w, h3, h4, h5⟩ := h2 V c μ hc
  obtain ⟨μ', h6, h7⟩ := C28_assign dyn z hz w.refs x _ sx t (refs_shape h4) hx hm μ (address w) (fun j => f (sel j)) (fun j hj => by rw [h5 j hj]; exact container_mem hc (h1 j hj))
    (fun j _ μ' _ => refers_refs μ' w j) fun j hj μ' hs => hf j hj μ' fun p hp => hs p (by
      rintro ⟨k, hk, rfl⟩
      rw [h5 k hk] at hp
      exact hp (container_owns hc (h1 k hk)))
  refine ⟨w, μ', h3, h6, fun j hj => ?_, fun p hp => ?_⟩
  · rw [h7]
    obtain ⟨y, hy⟩ := Option.isSome_iff_exists.1 (container_mem hc (h1 j hj))
    rw [hy, Option.map_some, Option.some.injEq]
    generalize hl : ((rowMajor t).filter fun k => decide (address w k = address c.view (sel j))) = l
    have hne : l ≠ [] := by
      rw [← hl]
      refine List.ne_nil_of_mem (a := j) (List.mem_filter.2 ⟨mem_rowMajor.2 hj, by simpa using h5 j hj⟩)
    have hall : ∀ k ∈ l, sel k = sel j := by
      intro k hk
      rw [← hl, List.mem_filter] at hk
      have hv := mem_rowMajor.1 hk.1
      exact container_distinct hc _ _ (h1 k hv) (h1 j hj) (by rw [← h5 k hv]; simpa using hk.2)
    rw [List.getLast?_map, List.getLast?_eq_some_getLast hne, Option.map_some, Option.getD_some, hall _ (List.getLast_mem hne)]
  · rw [h7]
    have : ((rowMajor t).filter fun k => decide (address w k = p)) = [] := by
      rw [List.filter_eq_nil_iff]
      intro k hk
      have hv := mem_rowMajor.1 hk
      simp only [decide_eq_true_eq]
      rintro rfl
      exact hp ⟨k, hv, h5 k hv⟩
    rw [this]
    cases μ p <;> rfl

/-- C131. `V(c) = V(a)`, for arrays of the same shape and the same operations on the views: the elements of `c` that are taken are those of `a`. -/
theorem C131_copy (dyn : Bool) (z : List Int) (hz : ∀ i ∈ z, i = 0) (c a : Arr) (s t : List Nat) (ops : List ViewOp) (sel : List Int → List Int) (hs : TakesAlike ops s t sel) (μ : Mem V) (hc : Container c μ s)
    (ha : Container a μ s) (hca : ∀ p, Owns a p → ¬ Owns c p) (A : List Int → V) (hA : ∀ i, Valid s i → μ (address a.view i) = some (A i)) :
    ∃ w wa μ', runOps ops c.view = .ok w ∧ runOps ops a.view = .ok wa ∧ assign dyn z w.refs wa.refs μ = (.ok (), μ') ∧ (∀ j, Valid t j → μ' (address c.view (sel j)) = some (A (sel j))) ∧
      SameOutside (fun p => ∃ j, Valid t j ∧ p = address c.view (sel j)) μ μ' := by
  obtain ⟨wa, a1, a2, a3⟩ := hs.2 V a μ ha
  obtain ⟨w, μ', h1, h2, h3, h4⟩ := C131_assign dyn z hz c s t ops sel hs μ hc wa.refs _ (refs_shape a2) (merge_same _) A fun j hj μ' hs' => reads_refs (by
    rw [a3 j hj, hs' _ (hca _ (container_owns ha (hs.1 j hj))), hA _ (hs.1 j hj)])
  exact ⟨w, wa, μ', h1, a1, h2, h3, h4⟩

/-- C131. `V(c) = V(a) OP V(b)` in the same way: an operation on views is the view of the operation. -/
theorem C131_operation (g : V → V → V) (dyn : Bool) (z : List Int) (hz : ∀ i ∈ z, i = 0) (c a b : Arr) (s t : List Nat) (ops : List ViewOp) (sel : List Int → List Int) (hs : TakesAlike ops s t sel) (μ : Mem V)
    (hc : Container c μ s) (ha : Container a μ s) (hb : Container b μ s) (hca : ∀ p, Owns a p → ¬ Owns c p) (hcb : ∀ p, Owns b p → ¬ Owns c p) (A B : List Int → V)
    (hA : ∀ i, Valid s i → μ (address a.view i) = some (A i)) (hB : ∀ i, Valid s i → μ (address b.view i) = some (B i)) :
    ∃ w wa wb μ', runOps ops c.view = .ok w ∧ runOps ops a.view = .ok wa ∧ runOps ops b.view = .ok wb ∧ assign dyn z w.refs (binaryOp g wa.refs wb.refs) μ = (.ok (), μ') ∧
      (∀ j, Valid t j → μ' (address c.view (sel j)) = some (g (A (sel j)) (B (sel j)))) ∧ SameOutside (fun p => ∃ j, Valid t j ∧ p = address c.view (sel j)) μ μ' := by
  obtain ⟨wa, a1, a2, a3⟩ := hs.2 V a μ ha
  obtain ⟨wb, b1, b2, b3⟩ := hs.2 V b μ hb
  obtain ⟨w, μ', h1, h2, h3, h4⟩ := C131_assign dyn z hz c s t ops sel hs μ hc (binaryOp g wa.refs wb.refs) _ (binary_shape g (refs_shape a2) (refs_shape b2) (merge_same _)) (merge_same _)
    (fun i => g (A i) (B i)) fun j hj μ' hs' => reads_binary g
      (reads_refs (by rw [a3 j hj, hs' _ (hca _ (container_owns ha (hs.1 j hj))), hA _ (hs.1 j hj)]))
      (reads_refs (by rw [b3 j hj, hs' _ (hcb _ (container_owns hb (hs.1 j hj))), hB _ (hs.1 j hj)]))
  exact ⟨w, wa, wb, μ', h1, a1, b1, h2, h3, h4⟩

/-- C131. If the view takes all of the elements, as with `reverse`, `reshape` and permutations of the axes, then `V(c) = V(a) OP V(b)` leaves the same memory as `c = a OP b`. -/
theorem C131_whole (g : V → V → V) (dyn dyn' : Bool) (z z' : List Int) (hz : ∀ i ∈ z, i = 0) (hz' : ∀ i ∈ z', i = 0) (c a b : Arr) (s t : List Nat) (ops : List ViewOp) (sel : List Int → List Int) (hs : TakesAlike ops s t sel)
    (hon : ∀ i, Valid s i → ∃ j, Valid t j ∧ sel j = i) (μ : Mem V) (hc : Container c μ s) (ha : Container a μ s) (hb : Container b μ s) (hca : ∀ p, Owns a p → ¬ Owns c p) (hcb : ∀ p, Owns b p → ¬ Owns c p)
    (A B : List Int → V) (hA : ∀ i, Valid s i → μ (address a.view i) = some (A i)) (hB : ∀ i, Valid s i → μ (address b.view i) = some (B i)) :
    ∃ w wa wb μ', runOps ops c.view = .ok w ∧ runOps ops a.view = .ok wa ∧ runOps ops b.view = .ok wb ∧ assign dyn z w.refs (binaryOp g wa.refs wb.refs) μ = (.ok (), μ') ∧
      assign dyn' z' c.view.refs (binaryOp g a.view.refs b.view.refs) μ = (.ok (), μ') := by
  obtain ⟨w, wa, wb, μ1, h1, h2, h3, h4, h5, h6⟩ := C131_operation g dyn z hz c a b s t ops sel hs μ hc ha hb hca hcb A B hA hB
  obtain ⟨id', hid⟩ := C131_select s s [] rfl
  have e : ∀ i, Valid s i → id' i = i := by
    intro i hi
    obtain ⟨w', k1, _, k3⟩ := hid.2 V c μ hc
    cases k1
    exact (container_distinct hc _ _ hi (hid.1 i hi) (k3 i hi)).symm
  obtain ⟨v, va, vb, μ2, k1, k2, k3, k4, k5, k6⟩ := C131_operation g dyn' z' hz' c a b s s [] id' hid μ hc ha hb hca hcb A B hA hB
  cases k1; cases k2; cases k3
  refine ⟨w, wa, wb, μ1, h1, h2, h3, h4, ?_⟩
  rw [k4]
  have : μ2 = μ1 := by
    funext p
    by_cases hin : InView c.view s p
    · obtain ⟨i, hi, rfl⟩ := hin
      obtain ⟨j, hj, rfl⟩ := hon i hi
      have := k5 (sel j) hi
      rw [e _ hi] at this
      rw [this, h5 j hj]
    · rw [k6 p, h6 p]
      · rintro ⟨j, hj, rfl⟩
        exact hin ⟨_, hs.1 j hj, rfl⟩
      · rintro ⟨j, hj, rfl⟩
        exact hin ⟨_, hid.1 j hj, rfl⟩
  rw [this]

/-- A view that takes some elements of a 3 x 4 array more than once. -/
example : opsShape true ([3, 4].map some) [.ravel, .stencil [1] [1]] = some ([10, 3].map some) := by decide +kernel
/-- One that takes all. -/
example : opsShape true ([3, 4].map some) [.reshape [2, 6], .transpose [1, 0], .reverse 0] = some ([6, 2].map some) := by decide +kernel

/-- A 3 x 4 array at `p`. -/
def alikeArr (p : Int) : Arr := ⟨some 2, [⟨3, 4⟩, ⟨4, 1⟩], p, 12⟩
/-- Memory for 36 elements. -/
def alikeMem : Mem Int := fun p => if 0 ≤ p ∧ p < 36 then some (p * p) else none

theorem alike_container (k : Nat) (hk : k < 3) : Container (alikeArr (12 * k)) alikeMem [3, 4] := by
  refine ⟨rfl, ⟨.inl rfl, .inl rfl, trivial⟩, rfl, fun i hi => ?_, fun r hr => by cases hr; rfl⟩
  have : i < 12 := hi
  have h : 0 ≤ (alikeArr (12 * k)).base + i ∧ (alikeArr (12 * k)).base + i < 36 := by simp only [alikeArr]; omega
  rw [alikeMem, if_pos h]
  rfl

/-- The hypotheses hold for three arrays one after another, and the elements of `stencil(ravel(c), 1, 1) = stencil(ravel(a), 1, 1) + stencil(ravel(b), 1, 1)`. -/
example : ∃ sel, TakesAlike [.ravel, .stencil [1] [1]] [3, 4] [10, 3] sel ∧ ∃ w wa wb μ', runOps [.ravel, .stencil [1] [1]] (alikeArr 0).view = .ok w ∧ runOps [.ravel, .stencil [1] [1]] (alikeArr 12).view = .ok wa ∧
    runOps [.ravel, .stencil [1] [1]] (alikeArr 24).view = .ok wb ∧ assign true [] w.refs (binaryOp (· + ·) wa.refs wb.refs) alikeMem = (.ok (), μ') := by
  obtain ⟨sel, hs⟩ := C131_select [3, 4] [10, 3] [.ravel, .stencil [1] [1]] (by decide +kernel)
  have hA : ∀ k : Nat, k < 3 → ∀ i, Valid [3, 4] i → alikeMem (address (alikeArr (12 * k)).view i) = some (address (alikeArr (12 * k)).view i * address (alikeArr (12 * k)).view i) := by
    intro k hk i hi
    have := container_owns (alike_container k hk) hi
    simp only [Owns, alikeArr] at this
    rw [alikeMem, if_pos ⟨by simp only [alikeArr]; omega, by simp only [alikeArr]; omega⟩]
  obtain ⟨w, wa, wb, μ', h1, h2, h3, h4, _⟩ := C131_operation (· + ·) true [] (by simp) (alikeArr 0) (alikeArr 12) (alikeArr 24) [3, 4] [10, 3] _ sel hs alikeMem (alike_container 0 (by omega))
    (alike_container 1 (by omega)) (alike_container 2 (by omega)) (by simp only [Owns, alikeArr]; omega) (by simp only [Owns, alikeArr]; omega) _ _ (hA 1 (by omega)) (hA 2 (by omega))
  exact ⟨sel, hs, w, wa, wb, μ', h1, h2, h3, h4⟩

end
end Ra.Props
