import Verif.Model.Bindings
import Verif.Props.Slice
import Verif.Props.ViewOps
import Verif.Props.Reshape
/-!
# Structured bindings: C97
-/

namespace Ra.Props
open Spec

theorem bind_ones {s : List Nat} (h : size s = 1) : rowMajor s = [List.replicate s.length (0 : Int)] := by
  induction s with
  | nil => rfl
  | cons n s ih =>
    simp only [size] at h
    have h1 := Nat.eq_one_of_mul_eq_one_right h
    have h2 := Nat.eq_one_of_mul_eq_one_left h
    subst h1
    simp [rowMajor, ih h2, List.replicate_succ]

theorem bind_size (s : List Nat) : (s.map (Nat.cast : Nat → Int)).prod = size s := by
  induction s with
  | nil => rfl
  | cons n s ih => simp [size, ih]

/-- The name `i` is the element that has `i` as first subscript and 0 for the other axes, that have length 1. -/
theorem bindOne_ok (v : View) (n : Nat) (s : List Nat) (hv : Shaped v ((n :: s).map some)) (h1 : size s = 1) (i : Nat) (hi : i < n) :
    bindOne v i = some (.ok (address v ((i : Int) :: List.replicate s.length 0))) := by
  obtain ⟨b, hb, hbs, hba⟩ := C11_scalar v (n :: s) hv [(i : Int)] (by simp) (by simp; omega)
  obtain ⟨dims, cp⟩ := v
  cases hv with
  | cons hd ht =>
    rename_i d ds
    have hs : dimvSize ds = 1 := by
      rw [C61_size ⟨ds, cp⟩ s ht, bind_size, h1]; rfl
    have hb' : View.from ⟨d :: ds, cp⟩ [.scalar (.const (i : Int))] = .ok b := hb
    simp only [bindOne, tupleGet, List.tail_cons, hs, if_true, hb', Except.map, bind, Option.bind]
    have := hba (List.replicate s.length 0) ⟨by simp, by
      intro k m hk
      simp only [List.drop_succ_cons, List.drop_zero, List.length_singleton] at hk
      have hm : s[k]? = some m := by simpa using hk
      have hk' : k < s.length := (List.getElem?_eq_some_iff.mp hm).1
      have hpos : m ≠ 0 := by
        rintro rfl
        have : 0 ∈ s := List.mem_of_getElem? hm
        clear hm hk hba hbs ht hk'
        induction s with
        | nil => simp at this
        | cons a s ih =>
          simp only [size] at h1
          rcases List.mem_cons.mp this with h | h
          · simp [← h] at h1
          · exact ih (Nat.eq_one_of_mul_eq_one_left h1) h
      simp [List.getD, hk']; omega⟩
    simp only [List.singleton_append] at this
    rw [← this]
    have hz : dot (List.map Dim.step b.dims) (List.replicate s.length 0) = 0 := dot_zeros_right _ _
    simp [address, hz]

theorem mapM_bind_some {α β : Type} (f : α → Option β) (g : α → β) (l : List α) (h : ∀ x ∈ l, f x = some (g x)) : l.mapM f = some (l.map g) := by
  induction l with
  | nil => rfl
  | cons x l ih =>
    rw [List.mapM_cons, h x (by simp), ih fun y hy => h y (List.mem_cons_of_mem _ hy)]
    rfl

theorem mapM_id_ok {α β : Type} (g : α → β) (l : List α) : (l.map fun x => (Except.ok (g x) : Except Fault β)).mapM id = .ok (l.map g) := by
  induction l with
  | nil => rfl
  | cons x l ih =>
    rw [List.map_cons, List.mapM_cons, ih]
    rfl

theorem bindings_ok (v : View) (n : Nat) (s : List Nat) (hv : Shaped v ((n :: s).map some)) (hn : 0 < n) (h1 : size s = 1) :
    bindings v = some (.ok ((rowMajor (n :: s)).map (address v))) := by
  have hs : tupleSize v = n := by
    rw [tupleSize, C61_size v (n :: s) hv, bind_size]; simp [size, h1]
  simp only [bindings, hs, Int.toNat_natCast]
  rw [if_neg (by omega), mapM_bind_some _ (fun i => .ok (address v ((i : Int) :: List.replicate s.length 0)))
    _ fun i hi => bindOne_ok v n s hv h1 i (List.mem_range.mp hi)]
  simp only [bind, Option.bind, pure, mapM_id_ok]
  simp [rowMajor, bind_ones h1, List.map_flatMap, ← List.map_eq_flatMap]

/-- C97. `auto & [x0, x1 ...] = v` compiles if and only if `v` has at least one element, at least one axis, and length 1 on all the axes but the first. -/
theorem C97_compiles (v : View) (s : List Nat) (hv : Shaped v (s.map some)) :
    bindings v ≠ none ↔ ∃ n t, s = n :: t ∧ 0 < n ∧ size t = 1 := by
  constructor
  · intro h
    by_cases hp : tupleSize v ≤ 0
    · simp [bindings, hp] at h
    obtain ⟨dims, cp⟩ := v
    have h0 : 0 ∈ List.range (tupleSize ⟨dims, cp⟩).toNat := by simp; omega
    have hb : bindOne ⟨dims, cp⟩ 0 ≠ none := by
      intro hn
      apply h
      rw [bindings, if_neg hp]
      obtain ⟨k, hk⟩ : ∃ k, (tupleSize ⟨dims, cp⟩).toNat = k + 1 := ⟨(tupleSize ⟨dims, cp⟩).toNat - 1, by omega⟩
      rw [hk, List.range_succ_eq_map, List.mapM_cons, hn]
      rfl
    cases s with
    | nil =>
      cases hv
      simp [bindOne, tupleGet] at hb
    | cons n t =>
      cases hv with
      | cons hd ht =>
        rename_i d ds
        refine ⟨n, t, rfl, ?_, ?_⟩
        · rw [tupleSize, C61_size ⟨d :: ds, cp⟩ (n :: t) (.cons hd ht), bind_size] at hp
          simp only [size] at hp
          by_contra hz
          have : n = 0 := by omega
          simp [this] at hp
        · by_contra hz
          apply hb
          have : dimvSize ds ≠ 1 := by
            rw [C61_size ⟨ds, cp⟩ t ht, bind_size]
            exact_mod_cast hz
          simp [bindOne, tupleGet, this]
  · rintro ⟨n, t, rfl, hn, h1⟩
    rw [bindings_ok v n t hv hn h1]
    simp

/-- C97. The names in `auto & [x0, x1 ...] = v` refer to the elements of `v`, all of them, once each, in row-major order. -/
theorem C97_bindings (v : View) (s : List Nat) (hv : Shaped v (s.map some)) (r : Except Fault (List Int)) (h : bindings v = some r) :
    r = .ok ((rowMajor s).map (address v)) := by
  obtain ⟨n, t, rfl, hn, h1⟩ := (C97_compiles v s hv).mp (by simp [h])
  rw [bindings_ok v n t hv hn h1] at h
  exact (Option.some.inj h).symm

/-- C97. For a vector of static length, other than 0, there's a name for each element. -/
theorem C97_vector (v : View) (n : Nat) (hv : Shaped v [some n]) (hn : 0 < n) :
    bindings v = some (.ok ((List.range n).map fun i : Nat => address v [(i : Int)])) := by
  rw [bindings_ok v n [] hv hn rfl]
  simp [rowMajor, List.map_flatMap, ← List.map_eq_flatMap]

/-- A column of a 3x2 matrix, that's a vector with step 2, and the matrix with the column as its only one. -/
example : bindings ⟨[⟨3, 2⟩], 11⟩ = some (.ok [11, 13, 15]) ∧ bindings ⟨[⟨3, 2⟩, ⟨1, 1⟩], 11⟩ = some (.ok [11, 13, 15]) := by decide

/-- Other matrices, and arrays of rank 0, don't compile. -/
example : bindings ⟨[⟨3, 2⟩, ⟨2, 1⟩], 10⟩ = none ∧ bindings ⟨[⟨1, 2⟩, ⟨2, 1⟩], 10⟩ = none ∧ bindings ⟨[], 10⟩ = none := by decide

example : Shaped ⟨[⟨3, 2⟩, ⟨1, 1⟩], 11⟩ ([3, 1].map some) ∧ size [1] = 1 := ⟨.cons (by simp [DimLen]) (.cons (by simp [DimLen]) .nil), rfl⟩

end Ra.Props
