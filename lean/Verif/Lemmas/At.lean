import Verif.Lemmas.Match
import Verif.Lemmas.Search
/-!
# `at(j)` is the element after moving to `j`
-/

namespace Ra

/-- Displacement of an index. -/
def disp (j : List Int) : Nat → Int := fun k => j.getD k 0

section
variable {m : Type → Type} {α : Type}

theorem reframeRank_gt {dest : List Nat} {k : Nat} (h : k ∈ dest) : (k : Int) < reframeRank dest := by
  have hne : dest ≠ [] := by rintro rfl; simp at h
  simp only [reframeRank, if_neg hne]
  have : ∀ (l : List Nat) (r : Nat), r ≤ l.foldl max r ∧ ∀ x ∈ l, x ≤ l.foldl max r := by
    intro l
    induction l with
    | nil => simp
    | cons a l ih =>
      intro r
      obtain ⟨h1, h2⟩ := ih (max r a)
      simp only [List.foldl_cons, List.mem_cons, forall_eq_or_imp]
      exact ⟨by omega, by omega, h2⟩
  have := (this dest 0).2 k h
  omega

theorem reframeRank_nonneg (dest : List Nat) : 0 ≤ reframeRank dest := by
  unfold reframeRank; split <;> omega

mutual
theorem Iter.rank_nonneg (a : Iter m α) (h : a.WF) : 0 ≤ a.rank := by
  cases a with
  | scalar c => simp [Iter.rank]
  | cell dims cp rd => simp [Iter.rank]
  | reframe dest a => exact reframeRank_nonneg dest
  | node op t =>
    simp only [Iter.WF] at h
    simp only [Iter.rank]
    have hl := rankList_nonneg t h.2
    have hne : rankList t ≠ [] := by
      cases t with
      | nil => exact absurd rfl h.1
      | cons a t => simp [rankList]
    rw [coranks_unb hne hl]
    exact (foldl_max_ge _ 0).1
theorem rankList_nonneg (t : List (Iter m α)) (h : WFList t) : ∀ r ∈ rankList t, 0 ≤ r := by
  cases t with
  | nil => simp [rankList]
  | cons a t =>
    simp only [WFList] at h
    simp only [rankList, List.mem_cons, forall_eq_or_imp]
    exact ⟨a.rank_nonneg h.1, rankList_nonneg t h.2⟩
end

theorem rank_node_eq {op : List (m α) → m α} {t : List (Iter m α)} (h : (Iter.node op t).WF) :
    (Iter.node op t).rank = (rankList t).foldl max 0 := by
  simp only [Iter.WF] at h
  have hne : rankList t ≠ [] := by
    cases t with
    | nil => exact absurd rfl h.1
    | cons a t => simp [rankList]
  simp only [Iter.rank]
  exact coranks_unb hne (rankList_nonneg t h.2)

theorem rank_child_le {op : List (m α) → m α} {t : List (Iter m α)} (h : (Iter.node op t).WF) {a : Iter m α} (ha : a ∈ t) :
    a.rank ≤ (Iter.node op t).rank := by
  rw [rank_node_eq h]
  refine (foldl_max_ge _ 0).2 _ ?_
  clear h
  induction t with
  | nil => simp at ha
  | cons b t ih =>
    simp only [rankList, List.mem_cons] at ha ⊢
    rcases ha with rfl | ha
    · left; rfl
    · right; exact ih ha

theorem lenOf_mem {dims : List Dim} {k : Nat} (h : k < dims.length) : ∃ d ∈ dims, lenOf dims k = d.len := by
  refine ⟨dims[k], List.getElem_mem h, ?_⟩
  simp [lenOf, h]

mutual
theorem Iter.len_val (a : Iter m α) (h : a.WF) (k : Nat) (hk : (k : Int) < a.rank) : LenVal (a.len k) := by
  cases a with
  | scalar c => simp [Iter.rank] at hk; omega
  | cell dims cp rd =>
    simp only [Iter.rank] at hk
    obtain ⟨d, hd, hl⟩ := lenOf_mem (dims := dims) (k := k) (by omega)
    simp only [Iter.len, hl]
    simp only [Iter.WF] at h
    rcases h d hd with h | h
    · left; exact h
    · right; left; exact h
  | reframe dest a =>
    simp only [Iter.WF] at h
    simp only [Iter.len]
    cases h' : orig dest k with
    | none => right; left; rfl
    | some l => exact a.len_val h.2.2 l (by have := orig_lt h'; omega)
  | node op t =>
    simp only [Iter.WF] at h
    exact colens_val (Or.inr rfl) (lenList_val t h.2 k)
theorem lenList_val (t : List (Iter m α)) (h : WFList t) (k : Nat) : LensVal (lenList t k) := by
  cases t with
  | nil => intro x hx; simp [lenList] at hx
  | cons a t =>
    simp only [WFList] at h
    intro x hx
    simp only [lenList, List.mem_cons] at hx
    rcases hx with hx | hx
    · split at hx
      · rename_i hk
        injection hx with hx
        rw [hx]; exact a.len_val h.1 k hk
      · simp at hx
    · exact lenList_val t h.2 k x hx
end

theorem mem_lenList {t : List (Iter m α)} {a : Iter m α} (ha : a ∈ t) {k : Nat} (hk : (k : Int) < a.rank) :
    some (a.len k) ∈ lenList t k := by
  induction t with
  | nil => simp at ha
  | cons b t ih =>
    simp only [lenList, List.mem_cons] at ha ⊢
    rcases ha with rfl | ha
    · left; simp [hk]
    · right; exact ih ha

/-- `j` can be used to subscript `a`. Entries over the rank are ignored. -/
def Ok (a : Iter m α) (j : List Int) : Prop :=
  a.rank ≤ j.length ∧ ∀ k : Nat, (k : Int) < a.rank → a.len k = UNB ∨ (0 ≤ j.getD k 0 ∧ j.getD k 0 < a.len k)

theorem WFList_mem {t : List (Iter m α)} (h : WFList t) {a : Iter m α} (ha : a ∈ t) : a.WF := by
  induction t with
  | nil => simp at ha
  | cons b t ih =>
    simp only [WFList, List.mem_cons] at h ha
    rcases ha with rfl | ha
    · exact h.1
    · exact ih h.2 ha

theorem Ok.child {op : List (m α) → m α} {t : List (Iter m α)} (h : (Iter.node op t).WF) {j : List Int}
    (hj : Ok (.node op t) j) {a : Iter m α} (ha : a ∈ t) : Ok a j := by
  have hU := UNB_val; have hM := MIS_val
  have hr := rank_child_le h ha
  refine ⟨by have := hj.1; omega, fun k hk => ?_⟩
  have hwf := h
  simp only [Iter.WF] at hwf
  have hv := lenList_val t hwf.2 k
  have hm := mem_lenList ha hk
  rcases hj.2 k (by omega) with h' | h'
  · simp only [Iter.len] at h'
    rw [colens_unb_iff (Or.inr rfl) hv] at h'
    left; exact h'.2 _ hm
  · have hn : 0 ≤ (Iter.node op t).len k := by omega
    have h2 := (colens_finite_iff (s := UNB) (l := lenList t k) (Or.inr rfl) hv hn).mp (by simp only [Iter.len])
    rcases h2.2.1 _ hm with h3 | h3
    · left; exact h3
    · right; rw [h3]; exact h'

theorem Ok.reframe {dest : List Nat} {a : Iter m α} (h : (Iter.reframe dest a).WF) {j : List Int} (hj : Ok (.reframe dest a) j) :
    (∀ d ∈ dest, d < j.length) ∧ Ok a (dest.map fun d => j.getD d 0) := by
  simp only [Iter.WF] at h
  have hd : ∀ d ∈ dest, d < j.length := by
    intro d hd
    have := reframeRank_gt hd
    have := hj.1
    simp only [Iter.rank] at this
    omega
  refine ⟨hd, by simp [h.2.1], fun l hl => ?_⟩
  have hl' : l < dest.length := by omega
  have hk : dest[l]? = some dest[l] := List.getElem?_eq_getElem hl'
  have ho := orig_of_nodup h.1 hk
  have := hj.2 dest[l] (by simpa [Iter.rank] using reframeRank_gt (List.getElem_mem hl'))
  simp only [Iter.len, ho] at this
  simpa [List.getD_eq_getElem?_getD, hl'] using this

theorem disp_reframe {dest : List Nat} (j : List Int) : disp (dest.map fun d => j.getD d 0) = reframeDisp dest (disp j) := by
  funext l
  simp only [disp, reframeDisp, List.getD_eq_getElem?_getD, List.getElem?_map]
  cases dest[l]? <;> simp

theorem disp_cons (i : Int) (j : List Int) : (fun k => disp (i :: j) (k+1)) = disp j := by
  funext k; simp [disp]

theorem indexLoop_ok {dims : List Dim} {cp : Int} {j : List Int} (hl : dims.length ≤ j.length)
    (h : ∀ k, k < dims.length → lenOf dims k = UNB ∨ (0 ≤ j.getD k 0 ∧ j.getD k 0 < lenOf dims k)) :
    indexLoop dims cp j = .ok (cp + offset dims (disp j)) := by
  induction dims generalizing cp j with
  | nil => simp [indexLoop, offset]
  | cons d ds ih =>
    cases j with
    | nil => simp at hl
    | cons i j =>
      have h0 := h 0 (by simp)
      simp only [lenOf, List.getElem?_cons_zero, Option.map_some, Option.getD_some, List.getD_cons_zero] at h0
      have hc : inside i d.len = true ∨ UNB = d.len := by
        rcases h0 with h0 | h0
        · right; exact h0.symm
        · left; simpa using h0
      simp only [indexLoop, if_pos hc, offset, disp_cons]
      rw [ih (by simpa using hl)]
      · congr 1; simp [disp]; ring
      · intro k hk
        have := h (k+1) (by simpa using hk)
        simpa [lenOf] using this

variable [MonadFault m]

mutual
theorem Iter.at_eq (a : Iter m α) (h : a.WF) (j : List Int) (hj : Ok a j) : a.at j = (a.shift (disp j)).deref := by
  cases a with
  | scalar c => rfl
  | cell dims cp rd =>
    have h1 := hj.1
    simp only [Iter.rank] at h1
    have : indexer dims cp j = .ok (cp + offset dims (disp j)) := by
      rw [indexer, if_pos (by omega)]
      refine indexLoop_ok (by omega) fun k hk => ?_
      exact hj.2 k (by simpa [Iter.rank] using hk)
    simp only [Iter.at, this, Iter.shift, Iter.deref]
  | reframe dest a =>
    obtain ⟨hd, ho⟩ := hj.reframe h
    simp only [Iter.WF] at h
    simp only [Iter.at, Iter.shift, Iter.deref]
    rw [if_pos (by simpa using hd), a.at_eq h.2.2 _ ho, disp_reframe]
  | node op t =>
    simp only [Iter.at, Iter.shift, Iter.deref]
    have hwf := h
    simp only [Iter.WF] at hwf
    rw [atList_eq t hwf.2 j (fun a ha => hj.child h ha)]
theorem atList_eq (t : List (Iter m α)) (h : WFList t) (j : List Int) (hj : ∀ a ∈ t, Ok a j) :
    atList t j = derefList (shiftList t (disp j)) := by
  cases t with
  | nil => rfl
  | cons a t =>
    simp only [WFList] at h
    simp only [atList, shiftList, derefList]
    rw [a.at_eq h.1 j (hj a (by simp)), atList_eq t h.2 j (fun b hb => hj b (List.mem_cons_of_mem _ hb))]
end

end
end Ra
