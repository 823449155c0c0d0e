import Verif.Props.Assign
/-!
# C28: assignment to an expression with fewer axes

docs/ra-ra.texi:1986-2007.
-/

namespace Ra.Props
open Spec

variable {V : Type}

theorem setOp_updOp : (setOp : List (Lv V) → Act V (Lv V)) = updOp fun _ v => v := by
  funext l
  match l with
  | [] => rfl
  | [.ref p] => rfl
  | [.ref p, x] =>
    simp only [setOp, updOp]
    congr 1
    funext v μ
    simp only [bind, Act.andThen, Act.write, Act.read]
    cases h : μ p <;> simp [h]
  | [.val v] => rfl
  | [.view v] => rfl
  | [.val v, x] => rfl
  | [.view v, x] => rfl
  | .val _ :: _ :: _ :: _ => rfl
  | .view _ :: _ :: _ :: _ => rfl
  | .ref _ :: _ :: _ :: _ => rfl

theorem assign_update (dyn : Bool) (z : List Int) (dst x : Iter (Act V) (Lv V)) : assign dyn z dst x = update (fun _ v => v) dyn z dst x := by
  simp only [assign, update, setOp_updOp]

theorem foldl_last (l : List V) (y : V) : l.foldl (fun _ v => v) y = l.getLast?.getD y := by
  induction l generalizing y with
  | nil => rfl
  | cons x l ih =>
    rw [List.foldl_cons, ih]
    cases l with
    | nil => rfl
    | cons w l => rw [List.getLast?_cons_cons, List.getLast?_eq_some_getLast (List.cons_ne_nil w l)]; rfl

/-- The last index in row-major order. -/
theorem last_rowMajor (r : List Nat) (h : 0 ∉ r) : (rowMajor r).getLast? = some (r.map fun n => (n : Int) - 1) := by
  induction r with
  | nil => rfl
  | cons n r ih =>
    simp only [List.mem_cons, not_or] at h
    obtain ⟨m, rfl⟩ : ∃ m, n = m + 1 := ⟨n - 1, by omega⟩
    have e := ih h.2
    simp only [rowMajor, List.range_succ, List.flatMap_append, List.getLast?_append, List.flatMap_cons, List.flatMap_nil, List.append_nil, List.getLast?_map, e]
    simp

/-- C28. `dst = x` assigns once for each element of the match of `dst` and `x`, in row-major order. The elements of `dst` that aren't distinct for different indices keep the last value that was
assigned to them, and those that don't appear keep the one they had. -/
theorem C28_assign (dyn : Bool) (z : List Int) (hz : ∀ i ∈ z, i = 0) (dst x : Iter (Act V) (Lv V)) (sd sx : List Length) (s : List Nat)
    (hd : HasShape dst sd) (hx : HasShape x sx) (hm : Merge [sd, sx] (s.map some)) (μ : Mem V) (A : List Int → Int)
    (v : List Int → V) (hmem : ∀ j, Valid s j → (μ (A j)).isSome)
    (hA : ∀ j, Valid s j → ∀ μ', SameOutside (fun p => ∃ k, Valid s k ∧ p = A k) μ μ' → Refers μ' (elem dst j) (A j))
    (hv : ∀ j, Valid s j → ∀ μ', SameOutside (fun p => ∃ k, Valid s k ∧ p = A k) μ μ' → Reads μ' (elem x j) (v j)) :
    ∃ μ', assign dyn z dst x μ = (.ok (), μ') ∧ ∀ p, μ' p = (μ p).map fun y => (((rowMajor s).filter fun j => A j = p).map v).getLast?.getD y := by
  obtain ⟨μ', h1, h2⟩ := C28_update (fun _ v => v) dyn z hz dst x sd sx s hd hx hm μ A v hmem hA hv
  refine ⟨μ', by rw [assign_update]; exact h1, ?_⟩
  intro p
  rw [h2 p]
  simp only [foldl_last]

/-- C28. If `x` has more axes than `dst`, then after `dst = x` each element of `dst` has the value of the last element of `x` that has its index as prefix. -/
theorem C28_last (dyn : Bool) (z : List Int) (hz : ∀ i ∈ z, i = 0) (dst : Iter (Act V) (Lv V)) (s r : List Nat) (h0 : 0 ∉ r) (A : List Int → Int)
    (μ : Mem V) (hd : Places μ dst s A) (x : Iter (Act V) (Lv V)) (sx : List Length) (hx : HasShape x sx) (hm : Merge [s.map some, sx] ((s ++ r).map some))
    (hmem : ∀ i, Valid s i → (μ (A i)).isSome) (val : List Int → V)
    (hval : ∀ j, Valid (s ++ r) j → ∀ μ', SameOutside (fun p => ∃ k, Valid s k ∧ p = A k) μ μ' → Reads μ' (elem x j) (val j)) :
    ∃ μ', assign dyn z dst x μ = (.ok (), μ') ∧ SameOutside (fun p => ∃ k, Valid s k ∧ p = A k) μ μ' ∧
      ∀ i, Valid s i → μ' (A i) = some (val (i ++ r.map fun n => (n : Int) - 1)) := by
  by_cases hne : ∃ i, Valid s i
  · obtain ⟨i0, hi0⟩ := hne
    obtain ⟨w, _⟩ := Option.isSome_iff_exists.mp (hmem i0 hi0)
    obtain ⟨μ', h1, h2, h3⟩ := C28_prefix (fun _ v => v) dyn z hz dst s r A μ hd x sx hx hm (fun i => (μ (A i)).getD w)
      (by intro i hi; obtain ⟨y, hy⟩ := Option.isSome_iff_exists.mp (hmem i hi); simp [hy]) val hval
    refine ⟨μ', by rw [assign_update]; exact h1, h2, ?_⟩
    intro i hi
    rw [h3 i hi, foldl_last, List.getLast?_map, last_rowMajor r h0]
    rfl
  · obtain ⟨hds, _, hA⟩ := hd
    have hn : ∀ j, ¬ Valid (s ++ r) j := by
      intro j hj
      obtain ⟨a, b, rfl, ha, _⟩ := valid_split hj
      exact hne ⟨a, ha⟩
    obtain ⟨μ', h1, h2⟩ := C28_assign dyn z hz dst x _ sx (s ++ r) hds hx hm μ A val (fun j hj => absurd hj (hn j)) (fun j hj => absurd hj (hn j)) (fun j hj => absurd hj (hn j))
    refine ⟨μ', h1, ?_, fun i hi => absurd ⟨i, hi⟩ hne⟩
    intro p _
    rw [h2 p]
    have : rowMajor (s ++ r) = [] := by
      rw [List.eq_nil_iff_forall_not_mem]
      exact fun j hj => hn j (mem_rowMajor.mp hj)
    rw [this]
    simp

/-- `pair = sq` leaves the last column of `sq` in `pair`. -/
example : ∃ μ', assign true [] pairV.refs sqV.refs egMem = (.ok (), μ') ∧ μ' 4 = some 2 ∧ μ' 5 = some 3 := by
  obtain ⟨μ', h1, h2, h3⟩ := C28_last true [] (by simp) pairV.refs [2] [2] (by simp) (address pairV) egMem
    (places_refs (v := pairV) (s := [2]) (.cons rfl .nil) pairV_distinct _) sqV.refs [some 2, some 2] (refs_shape (v := sqV) (.cons rfl (.cons rfl .nil))) merge_sq_pair
    (by intro j hj; obtain ⟨a, rfl, _, _⟩ := pair_valid hj; simp [egMem, address, dot, pairV]; omega) (address sqV)
    (by
      intro j hj μ' hμ
      obtain ⟨a, b, rfl, _, _, _, _⟩ := sq_valid hj
      refine reads_refs ?_
      rw [hμ]
      · simp [egMem, address, dot, sqV]; omega
      · rintro ⟨k, hk, h⟩
        obtain ⟨c, rfl, _, _⟩ := pair_valid hk
        simp [address, dot, sqV, pairV] at h
        omega)
  exact ⟨μ', h1, h3 [0] (by simp [Valid]), h3 [1] (by simp [Valid])⟩

/-- The example of the manual: `int a = 0; ra::scalar(a) = 3 + ra::Small<int, 3> {4, 5, 6}` leaves 9 in `a`. -/
example : (assign (V := Int) true [] (.scalar (pure (.ref 7))) (binaryOp (· + ·) (.scalar (pure (.val 3))) (View.refs ⟨[⟨3, 1⟩], 4⟩)) fun p => if 4 ≤ p ∧ p ≤ 7 then some (if p = 7 then 0 else p) else none).2 7 =
    some 9 := by decide +kernel

end Ra.Props
