import Verif.Lemmas.Iter
/-!
# Folding lengths and ranks
-/

namespace Ra

theorem UNB_val : UNB = -1988888888 := rfl
theorem MIS_val : MIS = -1922222222 := rfl
theorem ANY_val : ANY = -1944444444 := rfl

/-- What a length can be at run time. -/
def LenVal (x : Int) : Prop := 0 ≤ x ∨ x = UNB ∨ x = MIS

/-- Length contributions of arguments at run time. -/
def LensVal (l : List (Option Int)) : Prop := ∀ x, some x ∈ l → LenVal x

theorem LensVal.tail {o : Option Int} {l : List (Option Int)} (h : LensVal (o :: l)) : LensVal l :=
  fun x hx => h x (List.mem_cons_of_mem _ hx)

/-- `colen` when the running length is finite or unbounded. -/
theorem colen_cases {x s : Int} (hx : LenVal x) (hm : x ≠ MIS) (hs : 0 ≤ s ∨ s = UNB) :
    (colen x s = MIS ∧ 0 ≤ x ∧ 0 ≤ s ∧ x ≠ s) ∨
    (0 ≤ s ∧ colen x s = s ∧ (x = s ∨ x = UNB)) ∨
    (s = UNB ∧ colen x s = x ∧ (0 ≤ x ∨ x = UNB)) := by
  have hU := UNB_val; have hM := MIS_val
  unfold LenVal at hx
  unfold colen
  split_ifs <;> omega

theorem colens_val {s : Int} {l : List (Option Int)} (hs : 0 ≤ s ∨ s = UNB) (hl : LensVal l) : LenVal (colens s l) := by
  have hU := UNB_val; have hM := MIS_val
  induction l generalizing s with
  | nil => unfold LenVal; simp only [colens]; omega
  | cons o l ih =>
    cases o with
    | none =>
      have hm : s ≠ MIS := by omega
      simp only [colens, if_neg hm]; exact ih hs hl.tail
    | some x =>
      have hx := hl x (by simp)
      simp only [colens]
      by_cases hm : x = MIS
      · simp only [hm, if_true]; right; right; rfl
      · simp only [hm, if_false]
        rcases colen_cases hx hm hs with h | h | h
        · simp only [h.1, if_true]; right; right; rfl
        · have : colen x s ≠ MIS := by omega
          rw [if_neg this]; exact ih (by omega) hl.tail
        · have : colen x s ≠ MIS := by omega
          rw [if_neg this]; exact ih (by omega) hl.tail

theorem colens_finite_iff {s : Int} {l : List (Option Int)} (hs : 0 ≤ s ∨ s = UNB) (hl : LensVal l) {n : Int} (hn : 0 ≤ n) :
    colens s l = n ↔ (s = UNB ∨ s = n) ∧ (∀ x, some x ∈ l → x = UNB ∨ x = n) ∧ (s = n ∨ some n ∈ l) := by
  have hU := UNB_val; have hM := MIS_val
  induction l generalizing s with
  | nil => simp only [colens, List.not_mem_nil, or_false, false_imp_iff, implies_true, true_and]; omega
  | cons o l ih =>
    cases o with
    | none =>
      have : s ≠ MIS := by omega
      simp only [colens, if_neg this, ih hs hl.tail]
      simp
    | some x =>
      have hx := hl x (by simp)
      simp only [colens, List.mem_cons, Option.some.injEq]
      by_cases hm : x = MIS
      · simp only [hm, if_true]
        constructor
        · intro h; omega
        · rintro ⟨_, h, _⟩
          have := h MIS (Or.inl rfl)
          omega
      · simp only [if_neg hm]
        rcases colen_cases hx hm hs with h | h | h
        · simp only [h.1, if_true]
          constructor
          · intro h; omega
          · rintro ⟨h1, h', _⟩
            have := h' x (Or.inl rfl)
            omega
        · have hne : colen x s ≠ MIS := by omega
          simp only [if_neg hne]
          have hs2 : 0 ≤ colen x s ∨ colen x s = UNB := by omega
          refine (ih hs2 hl.tail).trans ?_
          constructor
          · rintro ⟨h1, h2, h3⟩
            refine ⟨by omega, ?_, by rcases h3 with h3 | h3; · left; omega
                                     · right; right; exact h3⟩
            rintro y (hy | hy)
            · omega
            · exact h2 y hy
          · rintro ⟨h1, h2, h3⟩
            refine ⟨by omega, fun y hy => h2 y (Or.inr hy), ?_⟩
            left; omega
        · have hne : colen x s ≠ MIS := by omega
          simp only [if_neg hne]
          have hs2 : 0 ≤ colen x s ∨ colen x s = UNB := by omega
          refine (ih hs2 hl.tail).trans ?_
          constructor
          · rintro ⟨h1, h2, h3⟩
            refine ⟨by omega, ?_, by rcases h3 with h3 | h3; · right; left; omega
                                     · right; right; exact h3⟩
            rintro y (hy | hy)
            · omega
            · exact h2 y hy
          · rintro ⟨h1, h2, h3⟩
            have h2x := h2 x (Or.inl rfl)
            refine ⟨by omega, fun y hy => h2 y (Or.inr hy), ?_⟩
            rcases h3 with h3 | h3 | h3
            · omega
            · left; omega
            · right; exact h3

theorem colens_unb_iff {s : Int} {l : List (Option Int)} (hs : 0 ≤ s ∨ s = UNB) (hl : LensVal l) :
    colens s l = UNB ↔ s = UNB ∧ ∀ x, some x ∈ l → x = UNB := by
  have hU := UNB_val; have hM := MIS_val
  induction l generalizing s with
  | nil => simp [colens]
  | cons o l ih =>
    cases o with
    | none =>
      have : s ≠ MIS := by omega
      simp only [colens, if_neg this, ih hs hl.tail]
      simp
    | some x =>
      have hx := hl x (by simp)
      simp only [colens, List.mem_cons, Option.some.injEq]
      by_cases hm : x = MIS
      · simp only [hm, if_true]
        constructor
        · intro h; omega
        · rintro ⟨_, h⟩
          have := h MIS (Or.inl rfl)
          omega
      · simp only [if_neg hm]
        rcases colen_cases hx hm hs with h | h | h
        · simp only [h.1, if_true]
          constructor
          · intro h; omega
          · omega
        · have hne : colen x s ≠ MIS := by omega
          simp only [if_neg hne]
          have hs2 : 0 ≤ colen x s ∨ colen x s = UNB := by omega
          refine (ih hs2 hl.tail).trans ?_
          constructor
          · omega
          · omega
        · have hne : colen x s ≠ MIS := by omega
          simp only [if_neg hne]
          have hs2 : 0 ≤ colen x s ∨ colen x s = UNB := by omega
          refine (ih hs2 hl.tail).trans ?_
          constructor
          · rintro ⟨h1, h2⟩
            refine ⟨by omega, ?_⟩
            rintro y (hy | hy)
            · omega
            · exact h2 y hy
          · rintro ⟨h1, h2⟩
            have h2x := h2 x (Or.inl rfl)
            exact ⟨by omega, fun y hy => h2 y (Or.inr hy)⟩

/-- The largest rank in a list, or `r` if they're all below. -/
theorem coranks_eq {r : Int} {l : List Int} (hr : 0 ≤ r) (hl : ∀ x ∈ l, 0 ≤ x) : coranks r l = l.foldl max r := by
  have hA := ANY_val
  induction l generalizing r with
  | nil => rfl
  | cons a l ih =>
    have ha := hl a (by simp)
    simp only [coranks, List.foldl_cons]
    have : corank a r = max r a := by
      unfold corank
      rw [if_neg (by omega), if_neg (by omega), if_pos (by omega), if_pos (by omega)]
      omega
    rw [this, ih (by omega) (fun x hx => hl x (List.mem_cons_of_mem _ hx))]

theorem coranks_unb {l : List Int} (hne : l ≠ []) (hl : ∀ x ∈ l, 0 ≤ x) : coranks UNB l = l.foldl max 0 := by
  have hA := ANY_val; have hU := UNB_val
  cases l with
  | nil => exact absurd rfl hne
  | cons a l =>
    have ha := hl a (by simp)
    simp only [coranks, List.foldl_cons]
    have : corank a UNB = max 0 a := by
      unfold corank
      rw [if_neg (by omega), if_neg (by omega), if_pos (by omega), if_neg (by omega)]
      omega
    rw [this, coranks_eq (by omega) (fun x hx => hl x (List.mem_cons_of_mem _ hx))]

theorem foldl_max_ge (l : List Int) (r : Int) : r ≤ l.foldl max r ∧ ∀ x ∈ l, x ≤ l.foldl max r := by
  induction l generalizing r with
  | nil => simp
  | cons a l ih =>
    simp only [List.foldl_cons, List.mem_cons, forall_eq_or_imp]
    obtain ⟨h1, h2⟩ := ih (max r a)
    exact ⟨by omega, by omega, h2⟩

theorem foldl_max_le (l : List Int) (r b : Int) (hr : r ≤ b) (h : ∀ x ∈ l, x ≤ b) : l.foldl max r ≤ b := by
  induction l generalizing r with
  | nil => simpa
  | cons a l ih =>
    simp only [List.foldl_cons]
    exact ih _ (by have := h a (by simp); omega) (fun x hx => h x (List.mem_cons_of_mem _ hx))

theorem foldl_max_mem (l : List Int) (r : Int) : l.foldl max r = r ∨ l.foldl max r ∈ l := by
  induction l generalizing r with
  | nil => simp
  | cons a l ih =>
    simp only [List.foldl_cons, List.mem_cons]
    rcases ih (max r a) with h | h
    · rcases le_total r a with h' | h'
      · right; left; rw [h]; exact max_eq_right h'
      · left; rw [h]; exact max_eq_left h'
    · right; right; exact h

end Ra
