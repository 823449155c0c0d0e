import Verif.Lemmas.Search
/-!
# Successive indices

Indices here are written innermost axis first.
-/

namespace Ra

/-- The index after `o`, if any. -/
def nextIx : List Nat → List Int → Option (List Int)
  | n :: s, i :: o => if i + 1 < n then some ((i + 1) :: o) else (nextIx s o).map (0 :: ·)
  | _, _ => none

/-- The indices of a shape given innermost axis first, in row-major order. -/
def rowMajorR : List Nat → List (List Int)
  | [] => [[]]
  | n :: s => (rowMajorR s).flatMap fun o => (List.range n).map fun (i : Nat) => (i : Int) :: o

/-- Each item is followed by the next one, and after the last one there is none. -/
def Chain (f : List Int → Option (List Int)) : List (List Int) → Prop
  | [] => True
  | o :: l => f o = l.head? ∧ Chain f l

theorem rowMajor_concat (s : List Nat) (n : Nat) :
    Spec.rowMajor (s ++ [n]) = (Spec.rowMajor s).flatMap fun o => (List.range n).map fun (i : Nat) => o ++ [(i : Int)] := by
  rw [Spec.rowMajor_append]
  congr 1; funext o
  simp [Spec.rowMajor, List.map_flatMap]
  rw [List.flatMap_def]
  induction List.range n with
  | nil => rfl
  | cons a l ih => simp [ih]

theorem rowMajorR_eq (s : List Nat) : rowMajorR s = (Spec.rowMajor s.reverse).map List.reverse := by
  induction s with
  | nil => rfl
  | cons n s ih =>
    simp only [rowMajorR, ih, List.reverse_cons, rowMajor_concat, List.map_flatMap, List.flatMap_map, List.map_map]
    congr 1; funext o
    apply List.map_congr_left
    intro i _; simp

theorem chain_block (n : Nat) (s : List Nat) (o : List Int) (rest : List (List Int))
    (hrest : Chain (nextIx (n :: s)) rest) (hn : (nextIx s o).map (0 :: ·) = rest.head?) (k i : Nat) (hk : i + k = n) :
    Chain (nextIx (n :: s)) (((List.range' i k).map fun (i : Nat) => (i : Int) :: o) ++ rest) := by
  induction k generalizing i with
  | zero => simpa using hrest
  | succ k ih =>
    simp only [List.range'_succ, List.map_cons, List.cons_append, Chain]
    refine ⟨?_, ih (i+1) (by omega)⟩
    simp only [nextIx]
    cases k with
    | zero =>
      rw [if_neg (by omega)]
      simpa using hn
    | succ k =>
      rw [if_pos (by omega)]
      simp [List.range'_succ]

theorem chain_flatMap (n : Nat) (hn : 0 < n) (s : List Nat) (l : List (List Int)) (h : Chain (nextIx s) l) :
    Chain (nextIx (n :: s)) (l.flatMap fun o => (List.range n).map fun (i : Nat) => (i : Int) :: o) := by
  induction l with
  | nil => trivial
  | cons o l ih =>
    simp only [Chain] at h
    simp only [List.flatMap_cons, List.range_eq_range']
    refine chain_block n s o _ (by simpa [List.range_eq_range'] using ih h.2) ?_ n 0 (by omega)
    rw [h.1]
    cases l with
    | nil => rfl
    | cons o' l =>
      obtain ⟨n', rfl⟩ : ∃ n', n = n' + 1 := ⟨n - 1, by omega⟩
      simp [List.range'_succ]

theorem chain_rowMajorR (s : List Nat) (h : ∀ n ∈ s, 0 < n) : Chain (nextIx s) (rowMajorR s) := by
  induction s with
  | nil => simp [rowMajorR, Chain, nextIx]
  | cons n s ih =>
    exact chain_flatMap n (h n (by simp)) s _ (ih fun k hk => h k (List.mem_cons_of_mem _ hk))

theorem head_rowMajorR (s : List Nat) (h : ∀ n ∈ s, 0 < n) : ∃ l, rowMajorR s = List.replicate s.length 0 :: l := by
  induction s with
  | nil => exact ⟨[], rfl⟩
  | cons n s ih =>
    obtain ⟨l, hl⟩ := ih fun k hk => h k (List.mem_cons_of_mem _ hk)
    have hn := h n (by simp)
    obtain ⟨n', rfl⟩ : ∃ n', n = n' + 1 := ⟨n - 1, by omega⟩
    rw [rowMajorR, hl]
    simp [List.range_succ_eq_map, List.replicate_succ]

theorem length_rowMajorR (s : List Nat) : (rowMajorR s).length = Spec.size s := by
  rw [rowMajorR_eq, List.length_map, Spec.length_rowMajor]
  induction s with
  | nil => rfl
  | cons n s ih => simp [Spec.size_append, Spec.size, ih, Nat.mul_comm]

/-- Members are valid indices, innermost first. -/
theorem mem_rowMajorR {s : List Nat} {o : List Int} : o ∈ rowMajorR s ↔ Spec.Valid s o := by
  induction s generalizing o with
  | nil => cases o <;> simp [rowMajorR, Spec.Valid]
  | cons n s ih =>
    cases o with
    | nil => simp [rowMajorR, Spec.Valid]
    | cons i o =>
      simp only [rowMajorR, List.mem_flatMap, List.mem_range, List.mem_map, Spec.Valid]
      constructor
      · rintro ⟨a, ha, b, hb, h⟩
        injection h with h1 h2
        subst h1 h2
        exact ⟨by omega, by omega, ih.mp ha⟩
      · rintro ⟨h1, h2, h3⟩
        exact ⟨o, ih.mpr h3, i.toNat, by omega, by simp; omega⟩

end Ra
