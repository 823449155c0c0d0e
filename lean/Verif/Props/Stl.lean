import Verif.Props.Traversal
/-!
# C10: increments of the range iterator
-/

namespace Ra.Props
open Ra Ra.Spec

variable {m : Type → Type} {α : Type} [Monad m] [LawfulMonad m] [MonadFault m]

theorem chain_get {f : List Int → Option (List Int)} {l : List (List Int)} (h : Chain f l) (k : Nat) (o : List Int) (ho : l[k]? = some o) :
    f o = l[k+1]? := by
  induction l generalizing k with
  | nil => simp at ho
  | cons x l ih =>
    cases k with
    | zero =>
      simp only [List.getElem?_cons_zero, Option.some.injEq] at ho
      subst ho
      rw [h.1, List.getElem?_cons_succ, List.head?_eq_getElem?]
    | succ k => exact ih h.2 k (by simpa using ho)

omit [Monad m] [LawfulMonad m] [MonadFault m] in
theorem over_next (p : Stl m α) (h : p.over = true) (n : Nat) : (Stl.next^[n] p).over = true := by
  induction n generalizing p with
  | zero => exact h
  | succ n ih => exact ih _ (by simp [Stl.next, h])

/-- C10. After `k` increments from `begin(a)`, the iterator is at the end if and only if `k` is at least the size. Otherwise it's at the `k`-th index in row-major order.
So an object with no elements is at the end already, and else the end is reached after exactly `size(a)` increments. -/
theorem C10_increments (a : Iter m α) (s : List Nat) (h : HasShape a (s.map some)) :
    ∃ p, Stl.begin a = .ok p ∧ ∀ k, ((Stl.next^[k] p).over = true ↔ size s ≤ k) ∧
      ∀ j, (rowMajor s)[k]? = some j → (Stl.next^[k] p).a.deref = elem a j := by
  have ha := h.wf
  have hb := h.bounded
  have hn := h.natShape
  have hlens : outerLens a a.rank.toNat = s.reverse := by
    rw [outerLens_eq a (le_refl _), List.take_of_length_le (by rw [length_natShape]), hn]
  have hrm : rowMajor s = (rowMajorR s.reverse).map List.reverse := by
    rw [rowMajorR_eq, List.reverse_reverse, List.map_map]; simp
  simp only [Stl.begin, (validate_iff a).mpr hb, if_true]
  refine ⟨_, rfl, ?_⟩
  by_cases h0 : 0 ∈ s
  · have hr := rowMajor_nil_of_zero h0
    have hsz : size s = 0 := by rw [← length_rowMajor, hr]; rfl
    intro k
    refine ⟨?_, by simp [hr]⟩
    simp only [hsz, Nat.zero_le, iff_true]
    apply over_next
    simp [size_eq hb, hn, hsz]
  · have hpos : ∀ k ∈ s.reverse, 0 < k := by
      intro k hk
      rw [List.mem_reverse] at hk
      rcases Nat.eq_zero_or_pos k with h | h
      · subst h; exact absurd hk h0
      · exact h
    have hchain := chain_rowMajorR _ hpos
    have hlen : (rowMajorR s.reverse).length = size s := by rw [← length_rowMajor s, hrm, List.length_map]
    obtain ⟨l, hl⟩ := head_rowMajorR _ hpos
    have hsz : size s = l.length + 1 := by rw [← hlen, hl]; rfl
    have hat : ∀ k o, (rowMajorR s.reverse)[k]? = some o →
        Stl.next^[k] ⟨a, a.shape.reverse, a.size == 0⟩ = ⟨a.shift (disp o.reverse), cdown s.reverse o, false⟩ := by
      intro k
      induction k with
      | zero =>
        intro o ho
        rw [hl] at ho
        simp only [List.getElem?_cons_zero, Option.some.injEq] at ho
        subst ho
        have hd0 : disp (List.replicate s.reverse.length (0 : Int)).reverse = fun _ => 0 := by
          funext k; simp only [disp, List.reverse_replicate, List.getD_eq_getElem?_getD, List.getElem?_replicate]; split <;> rfl
        have hz : (a.size == 0) = false := by
          rw [size_eq hb, hn, hsz]; simp; omega
        rw [hd0, Iter.shift_zero, Function.iterate_zero, id, hz]
        congr 1
        rw [hb.cast, hn, ← List.map_reverse, cdown]
        generalize s.reverse = t
        induction t with
        | nil => rfl
        | cons x t ih => simp [List.replicate_succ, ← ih]
      | succ k ih =>
        intro o ho
        have hk : k < (rowMajorR s.reverse).length := by
          have := (List.getElem?_eq_some_iff.mp ho).1; omega
        have hik := ih _ (List.getElem?_eq_getElem hk)
        have hnx := chain_get hchain k _ (List.getElem?_eq_getElem hk)
        rw [ho] at hnx
        rw [Function.iterate_succ_apply', hik]
        have hv : Valid s.reverse (rowMajorR s.reverse)[k] := mem_rowMajorR.mp (List.getElem_mem hk)
        simp only [Stl.next, Iter.rank_shift]
        rw [disp_eq]
        have := stlNext_eq a ha hb a.rank.toNat (le_refl _) (rowMajorR s.reverse)[k] (fun _ => 0) (by rw [hlens]; exact hv)
        rw [hlens, hnx] at this
        rw [this, disp_eq]
        rfl
    have hend : (Stl.next^[size s] ⟨a, a.shape.reverse, a.size == 0⟩).over = true := by
      have hk : l.length < (rowMajorR s.reverse).length := by omega
      rw [hsz, Function.iterate_succ_apply', hat _ _ (List.getElem?_eq_getElem hk)]
      have hnx := chain_get hchain _ _ (List.getElem?_eq_getElem hk)
      rw [List.getElem?_eq_none (by omega)] at hnx
      have hv : Valid s.reverse (rowMajorR s.reverse)[l.length] := mem_rowMajorR.mp (List.getElem_mem hk)
      simp only [Stl.next, Iter.rank_shift]
      rw [disp_eq]
      have := stlNext_eq a ha hb a.rank.toNat (le_refl _) (rowMajorR s.reverse)[l.length] (fun _ => 0) (by rw [hlens]; exact hv)
      rw [hlens, hnx] at this
      rw [this]
      rfl
    intro k
    constructor
    · constructor
      · intro ho
        by_contra hk
        have hk' : k < (rowMajorR s.reverse).length := by omega
        rw [hat _ _ (List.getElem?_eq_getElem hk')] at ho
        cases ho
      · intro hk
        obtain ⟨d, rfl⟩ := Nat.exists_eq_add_of_le hk
        rw [Nat.add_comm, Function.iterate_add_apply]
        exact over_next _ hend d
    · intro j hj
      rw [hrm, List.getElem?_map] at hj
      obtain ⟨o, ho, rfl⟩ := Option.map_eq_some_iff.mp hj
      rw [hat k o ho, a.deref_shift]

/-- The end of the 2x3 tree is reached after 6 increments. -/
example (op : List (m α) → m α) (rd : Int → m α) (c : m α) : ∃ p, Stl.begin (exTree op rd c) = .ok p ∧ ¬ (Stl.next^[5] p).over = true ∧ (Stl.next^[6] p).over = true := by
  obtain ⟨p, hp, h⟩ := C10_increments (exTree op rd c) _ (exTree_shape op rd c)
  exact ⟨p, hp, fun h5 => by have := (h 5).1.mp h5; simp [size] at this, (h 6).1.mpr (by simp [size])⟩

end Ra.Props
