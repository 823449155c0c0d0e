import Verif.Spec.Index
import Mathlib.Data.List.Nodup
import Mathlib.Tactic.Ring
import Mathlib.Tactic.Linarith
/-!
# Lemmas about the index specification
-/

namespace Ra.Spec

variable {m : Type → Type} [Monad m] [LawfulMonad m] {ι κ β γ : Type}

theorem search_append (f : ι → m (Option β)) (l1 l2 : List ι) :
    search f (l1 ++ l2) = search f l1 >>= fun r => match r with | some x => pure (some x) | none => search f l2 := by
  induction l1 with
  | nil => simp [search]
  | cons a l ih =>
    simp only [List.cons_append, search, bind_assoc]
    congr 1; funext r
    cases r with
    | none => simp only [ih]
    | some b => simp

theorem search_map (g : κ → ι) (f : ι → m (Option β)) (l : List κ) :
    search f (l.map g) = search (fun k => f (g k)) l >>= fun r => pure (r.map fun x => (x.1, g x.2)) := by
  induction l with
  | nil => simp [search]
  | cons a l ih =>
    simp only [List.map_cons, search, bind_assoc]
    congr 1; funext r
    cases r with
    | none => simp only [ih]
    | some b => simp

omit [LawfulMonad m] in
theorem search_congr {f g : ι → m (Option β)} {l : List ι} (h : ∀ i ∈ l, f i = g i) : search f l = search g l := by
  induction l with
  | nil => rfl
  | cons a l ih =>
    simp only [search]
    rw [h a (by simp), ih (fun i hi => h i (List.mem_cons_of_mem _ hi))]

/-- Without a stop, `search` is `forAll`. -/
theorem search_none (f : ι → m γ) (l : List ι) :
    search (fun i => f i >>= fun _ => pure (none : Option β)) l = forAll f l >>= fun _ => pure none := by
  induction l with
  | nil => simp [search, forAll]
  | cons a l ih => simp only [search, forAll, ih, bind_assoc, pure_bind]

theorem forAll_append (f : ι → m γ) (l1 l2 : List ι) : forAll f (l1 ++ l2) = forAll f l1 >>= fun _ => forAll f l2 := by
  induction l1 with
  | nil => simp [forAll]
  | cons a l ih => simp [forAll, ih]

omit [LawfulMonad m] in
theorem forAll_map (g : κ → ι) (f : ι → m γ) (l : List κ) : forAll f (l.map g) = forAll (fun k => f (g k)) l := by
  induction l with
  | nil => rfl
  | cons a l ih => simp only [List.map_cons, forAll, ih]

omit [LawfulMonad m] in
theorem forAll_congr {f g : ι → m γ} {l : List ι} (h : ∀ i ∈ l, f i = g i) : forAll f l = forAll g l := by
  induction l with
  | nil => rfl
  | cons a l ih =>
    simp only [forAll]
    rw [h a (by simp), ih (fun i hi => h i (List.mem_cons_of_mem _ hi))]

theorem mem_rowMajor {s : List Nat} {j : List Int} : j ∈ rowMajor s ↔ Valid s j := by
  induction s generalizing j with
  | nil => cases j <;> simp [rowMajor, Valid]
  | cons n s ih =>
    cases j with
    | nil => simp [rowMajor, Valid]
    | cons i j =>
      simp only [rowMajor, List.mem_flatMap, List.mem_range, List.mem_map, Valid]
      constructor
      · rintro ⟨a, ha, b, hb, h⟩
        injection h with h1 h2
        subst h1 h2
        exact ⟨by omega, by omega, ih.mp hb⟩
      · rintro ⟨h1, h2, h3⟩
        exact ⟨i.toNat, by omega, j, ih.mpr h3, by simp; omega⟩

theorem Valid.length {s : List Nat} {j : List Int} (h : Valid s j) : j.length = s.length := by
  induction s generalizing j with
  | nil => cases j <;> simp_all [Valid]
  | cons n s ih =>
    cases j with
    | nil => simp [Valid] at h
    | cons i j => simp only [Valid] at h; simp [ih h.2.2]

theorem size_append (s t : List Nat) : size (s ++ t) = size s * size t := by
  induction s with
  | nil => simp [size]
  | cons n s ih => simp [size, ih, Nat.mul_assoc]

theorem length_rowMajor (s : List Nat) : (rowMajor s).length = size s := by
  induction s with
  | nil => rfl
  | cons n s ih =>
    simp only [rowMajor, size, List.length_flatMap, List.length_map, ih]
    simp

theorem rowMajor_append (s t : List Nat) : rowMajor (s ++ t) = (rowMajor s).flatMap fun o => (rowMajor t).map fun j => o ++ j := by
  induction s with
  | nil => simp [rowMajor]
  | cons n s ih =>
    simp only [List.cons_append, rowMajor, ih, List.flatMap_assoc]
    congr 1; funext i
    simp only [List.map_flatMap, List.flatMap_map, List.map_map]
    rfl

/-- Positions of the row-major indices are 0, 1, 2 ... -/
theorem map_position (s : List Nat) : (rowMajor s).map (position s) = (List.range (size s)).map fun (i : Nat) => (i : Int) := by
  induction s with
  | nil => simp [rowMajor, position, size]
  | cons n s ih =>
    simp only [rowMajor, List.map_flatMap, List.map_map, size]
    have h : ∀ i : Nat, (rowMajor s).map (position (n :: s) ∘ fun j => (i : Int) :: j)
        = (List.range (size s)).map fun (p : Nat) => ((i * size s + p : Nat) : Int) := by
      intro i
      have : (position (n :: s) ∘ fun j => (i : Int) :: j) = (fun p => (i : Int) * size s + p) ∘ position s := by
        funext j; simp [position]
      rw [this, ← List.map_map, ih, List.map_map]
      apply List.map_congr_left
      intro p _; simp
    simp only [h]
    clear h ih
    induction n with
    | zero => simp
    | succ n ihn =>
      rw [List.range_succ, List.flatMap_append, ihn, Nat.succ_mul, List.range_add, List.map_append]
      simp

theorem position_nonneg {s : List Nat} {j : List Int} (h : Valid s j) : 0 ≤ position s j := by
  induction s generalizing j with
  | nil => cases j <;> simp_all [Valid, position]
  | cons n s ih =>
    cases j with
    | nil => simp [Valid] at h
    | cons i j =>
      simp only [Valid] at h
      simp only [position]
      have := ih h.2.2
      have h2 : 0 ≤ i * (size s : Int) := Int.mul_nonneg h.1 (by omega)
      omega

theorem position_lt {s : List Nat} {j : List Int} (h : Valid s j) : position s j < size s := by
  induction s generalizing j with
  | nil => cases j <;> simp_all [Valid, position, size]
  | cons n s ih =>
    cases j with
    | nil => simp [Valid] at h
    | cons i j =>
      simp only [Valid] at h
      simp only [position, size]
      have := ih h.2.2
      push_cast
      have h2 : (i + 1) * (size s : Int) ≤ n * size s := Int.mul_le_mul_of_nonneg_right (by omega) (by omega)
      linarith [h2, this, Int.add_mul i 1 (size s : Int)]

theorem position_inj {s : List Nat} {j k : List Int} (hj : Valid s j) (hk : Valid s k) (h : position s j = position s k) : j = k := by
  induction s generalizing j k with
  | nil => cases j <;> cases k <;> simp_all [Valid]
  | cons n s ih =>
    cases j with
    | nil => simp [Valid] at hj
    | cons a j =>
      cases k with
      | nil => simp [Valid] at hk
      | cons b k =>
        simp only [Valid] at hj hk
        simp only [position] at h
        have h1 := position_nonneg hj.2.2
        have h2 := position_nonneg hk.2.2
        have h3 := position_lt hj.2.2
        have h4 := position_lt hk.2.2
        have hab : a = b := by
          by_contra hne
          rcases lt_or_gt_of_ne hne with hlt | hlt
          · have : (a + 1) * (size s : Int) ≤ b * size s := Int.mul_le_mul_of_nonneg_right (by omega) (by omega)
            linarith [Int.add_mul a 1 (size s : Int)]
          · have : (b + 1) * (size s : Int) ≤ a * size s := Int.mul_le_mul_of_nonneg_right (by omega) (by omega)
            linarith [Int.add_mul b 1 (size s : Int)]
        subst hab
        rw [ih hj.2.2 hk.2.2 (by omega)]

theorem nodup_rowMajor (s : List Nat) : (rowMajor s).Nodup := by
  have h : ((rowMajor s).map (position s)).Nodup := by
    rw [map_position]
    exact List.Nodup.map (fun a b h => by simpa using h) List.nodup_range
  exact List.Nodup.of_map _ h

end Ra.Spec
