import Verif.Model.Static
import Verif.Props.Expr
import Verif.Props.ViewOps
/-!
# Compile time and run time: C04, C61
-/
set_option linter.unusedSectionVars false

namespace Ra.Spec

variable {m : Type → Type} {α : Type}

/-- A run time length `n` of an axis that is `l` in the type. -/
def InstLen (l n : Int) : Prop := (l = ANY ∧ (0 ≤ n ∨ n = UNB)) ∨ (l = n ∧ (0 ≤ n ∨ n = UNB))

mutual
/-- `a` is a value of type `d`. -/
def Inst : STree → Iter m α → Prop
  | .scalar, .scalar _ => True
  | .cell none, .cell dims _ _ => ∀ d ∈ dims, 0 ≤ d.len ∨ d.len = UNB
  | .cell (some lens), .cell dims _ _ => List.Forall₂ (fun l d => InstLen l d.len) lens dims
  | .reframe dest d, .reframe dest' a => dest = dest' ∧ dest.Nodup ∧ (dest.length : Int) = a.rank ∧ Inst d a
  | .node ds, .node _ t => t ≠ [] ∧ Insts ds t
  | _, _ => False
def Insts : List STree → List (Iter m α) → Prop
  | [], [] => True
  | d :: ds, a :: t => Inst d a ∧ Insts ds t
  | _, _ => False
end

mutual
/-- No prefix matching inside of a rank conjunction. -/
def Plain : STree → Prop
  | .scalar => True
  | .cell _ => True
  | .reframe _ a => Leaf a
  | .node t => Plains t
def Plains : List STree → Prop
  | [] => True
  | d :: ds => Plain d ∧ Plains ds
/-- No prefix matching. -/
def Leaf : STree → Prop
  | .scalar => True
  | .cell _ => True
  | .reframe _ a => Leaf a
  | .node _ => False
end

end Ra.Spec

namespace Ra.Props
open Spec (Length DimLen Shaped InRange address dot HasShape elem Valid rowMajor size position Inst Insts InstLen Plain Plains Leaf Merge HasShapes)

variable {m : Type → Type} {α : Type}

mutual
theorem inst_wf (d : STree) (a : Iter m α) (h : Inst d a) : a.WF := by
  cases d with
  | scalar => cases a <;> simp_all [Inst, Iter.WF]
  | cell lens =>
    cases a <;> cases lens <;> simp_all [Inst, Iter.WF]
    rename_i dims cp rd lens
    intro x hx
    obtain ⟨k, hk, rfl⟩ := List.getElem_of_mem hx
    have := h.get (by rw [h.length_eq]; exact hk) hk
    simp only [List.get_eq_getElem, InstLen] at this
    rcases this with h | h <;> exact h.2
  | reframe dest d =>
    cases a with
    | reframe dest' a =>
      simp only [Inst] at h
      obtain ⟨rfl, h1, h2, h3⟩ := h
      simp only [Iter.WF]
      exact ⟨h1, h2, inst_wf d a h3⟩
    | _ => simp [Inst] at h
  | node ds =>
    cases a with
    | node op t =>
      simp only [Inst] at h
      exact ⟨h.1, insts_wf ds t h.2⟩
    | _ => simp [Inst] at h
theorem insts_wf (ds : List STree) (t : List (Iter m α)) (h : Insts ds t) : WFList t := by
  cases ds with
  | nil => cases t <;> simp_all [Insts, WFList]
  | cons d ds =>
    cases t with
    | nil => simp [Insts] at h
    | cons a t =>
      simp only [Insts] at h
      exact ⟨inst_wf d a h.1, insts_wf ds t h.2⟩
end

/-- Ranks that can be in a type. -/
theorem coranks_any {r : Int} {l : List Int} (h : coranks r l ≠ ANY) : r ≠ ANY ∧ ∀ x ∈ l, x ≠ ANY := by
  induction l generalizing r with
  | nil => simpa [coranks] using h
  | cons a l ih =>
    simp only [coranks] at h
    obtain ⟨h1, h2⟩ := ih h
    have key : a ≠ ANY ∧ r ≠ ANY := by
      constructor
      · rintro rfl; apply h1; simp [corank]
      · rintro rfl
        apply h1
        unfold corank
        split_ifs <;> simp_all
    refine ⟨key.2, ?_⟩
    intro x hx
    rcases List.mem_cons.mp hx with rfl | hx
    · exact key.1
    · exact h2 x hx

mutual
theorem srank_eq (d : STree) (a : Iter m α) (h : Inst d a) (hr : d.rank ≠ ANY) : d.rank = a.rank := by
  cases d with
  | scalar => cases a <;> simp_all [Inst, Iter.rank, STree.rank]
  | cell lens =>
    cases a <;> cases lens <;> simp_all [Inst, Iter.rank, STree.rank]
    exact h.length_eq
  | reframe dest d =>
    cases a with
    | reframe dest' a =>
      simp only [Inst] at h
      simp [Iter.rank, STree.rank, h.1]
    | _ => simp [Inst] at h
  | node ds =>
    cases a with
    | node op t =>
      simp only [Inst] at h
      simp only [STree.rank] at hr
      simp only [STree.rank, Iter.rank]
      rw [srankList_eq ds t h.2 (coranks_any hr).2]
    | _ => simp [Inst] at h
theorem srankList_eq (ds : List STree) (t : List (Iter m α)) (h : Insts ds t) (hr : ∀ x ∈ srankList ds, x ≠ ANY) : srankList ds = rankList t := by
  cases ds with
  | nil => cases t <;> simp_all [Insts, srankList, rankList]
  | cons d ds =>
    cases t with
    | nil => simp [Insts] at h
    | cons a t =>
      simp only [Insts] at h
      simp only [srankList, rankList]
      rw [srank_eq d a h.1 (hr _ (by simp [srankList])), srankList_eq ds t h.2 (fun x hx => hr x (by simp [srankList, hx]))]
end

/-- What a static length `l` says about the run time length `n`. If `x` isn't set, then a finite length may still be a mismatch. -/
def Says (x : Bool) (l n : Int) : Prop := (l = MIS ∧ n = MIS) ∨ (0 ≤ l ∧ (n = l ∨ (x = false ∧ n = MIS))) ∨ (l = UNB ∧ n = UNB) ∨ (l = ANY ∧ LenVal n)

/-- What an argument contributes to the length. -/
def SaysO (x : Bool) : Option Int → Option Int → Prop
  | none, none => True
  | some l, some n => Says x l n
  | some l, none => l = ANY
  | none, some _ => False

theorem says_false {l n : Int} : Says false l n ↔ (l = MIS ∧ n = MIS) ∨ (0 ≤ l ∧ (n = l ∨ n = MIS)) ∨ (l = UNB ∧ n = UNB) ∨ (l = ANY ∧ (0 ≤ n ∨ n = UNB ∨ n = MIS)) := by
  simp [Says, LenVal]

theorem says_true {l n : Int} : Says true l n ↔ (l = MIS ∧ n = MIS) ∨ (0 ≤ l ∧ n = l) ∨ (l = UNB ∧ n = UNB) ∨ (l = ANY ∧ (0 ≤ n ∨ n = UNB ∨ n = MIS)) := by
  simp [Says, LenVal]

theorem Says.weaken {x : Bool} {l n : Int} (h : Says x l n) : Says false l n := by
  cases x
  · exact h
  · rw [says_true] at h; rw [says_false]; omega

theorem Says.lens {x : Bool} {l n : Int} (h : Says x l n) : (l = MIS ∨ 0 ≤ l ∨ l = UNB ∨ l = ANY) ∧ (0 ≤ n ∨ n = UNB ∨ n = MIS) := by
  have := h.weaken
  rw [says_false] at this
  omega

/-- One step of the fold. -/
def snext (c : Bool) (l s : Int) : Int := if c && (ANY = l || ANY = s) then ANY else colen l s

theorem scolens_none (c : Bool) (s : Int) (t : List (Option Int)) (hs : s ≠ MIS) : scolens c s (none :: t) = scolens c s t := by
  simp [scolens, hs]

theorem scolens_some (c : Bool) (s l : Int) (t : List (Option Int)) (hl : l ≠ MIS) (hn : snext c l s ≠ MIS) :
    scolens c s (some l :: t) = scolens c (snext c l s) t := by
  simp only [scolens]
  rw [if_neg (Ne.symm hl)]
  change (if snext c l s = MIS then snext c l s else scolens c (snext c l s) t) = _
  rw [if_neg hn]

theorem scolens_some_mis (c : Bool) (s l : Int) (t : List (Option Int)) (h : l = MIS ∨ snext c l s = MIS) :
    scolens c s (some l :: t) = MIS := by
  simp only [scolens]
  by_cases hl : l = MIS
  · simp [hl]
  · have hn := h.resolve_left hl
    rw [if_neg (Ne.symm hl)]
    change (if snext c l s = MIS then snext c l s else scolens c (snext c l s) t) = _
    rw [if_pos hn, hn]

theorem snext_true (l s : Int) : snext true l s = if ANY = l ∨ ANY = s then ANY else colen l s := by
  simp [snext]

theorem snext_false (l s : Int) : snext false l s = colen l s := by
  simp [snext]

theorem colen_spec (a b : Int) : (0 ≤ a ∧ a = b ∧ colen a b = a) ∨ (0 ≤ a ∧ 0 ≤ b ∧ a ≠ b ∧ colen a b = MIS) ∨ (0 ≤ a ∧ b < 0 ∧ colen a b = a) ∨
    (a = UNB ∧ colen a b = b) ∨ (a < 0 ∧ a ≠ UNB ∧ b = UNB ∧ colen a b = a) ∨ (a < 0 ∧ a ≠ UNB ∧ b ≠ UNB ∧ colen a b = b) := by
  have hU := UNB_val
  unfold colen
  split_ifs <;> omega

theorem snext_spec (c : Bool) (l s : Int) : (c = true ∧ (l = ANY ∨ s = ANY) ∧ snext c l s = ANY) ∨
    ((c = true → l ≠ ANY ∧ s ≠ ANY) ∧ snext c l s = colen l s) := by
  cases c
  · right; exact ⟨by simp, snext_false l s⟩
  · rw [snext_true]
    split_ifs <;> simp <;> omega

/-- When the run time length is a mismatch already. -/
theorem scolens_after (x c : Bool) (s : Int) (L L' : List (Option Int)) (hL : List.Forall₂ (SaysO x) L L')
    (hs : s = ANY ∨ (0 ≤ s ∧ x = false)) (hx : x = true → c = true) : Says x (scolens c s L) MIS := by
  have hU := UNB_val; have hM := MIS_val; have hA := ANY_val
  induction hL generalizing s with
  | nil =>
    cases x
    · simp only [and_true] at hs; rw [says_false]; simp only [scolens, and_true, or_true]; omega
    · simp only [reduceCtorEq, and_false, or_false] at hs; rw [says_true]; simp only [scolens, and_true, or_true]; omega
  | cons h1 h2 ih =>
    rename_i o o' L L'
    cases o with
    | none =>
      rw [scolens_none _ _ _ (by omega)]
      exact ih s hs
    | some l =>
      by_cases hm : l = MIS ∨ snext c l s = MIS
      · rw [scolens_some_mis _ _ _ _ hm]; left; exact ⟨rfl, rfl⟩
      · push Not at hm
        have hl : l = ANY ∨ l = UNB ∨ 0 ≤ l := by
          cases o' with
          | none => left; exact h1
          | some y => have := (Says.lens h1).1; omega
        rw [scolens_some _ _ _ _ hm.1 hm.2]
        apply ih
        have hm2 := hm.2
        cases c
        · have : x = false := by cases x <;> simp_all
          rw [snext_false] at hm2 ⊢
          unfold colen at hm2 ⊢
          simp only [this, and_true] at hs ⊢
          split_ifs at hm2 ⊢ <;> omega
        · rw [snext_true] at hm2 ⊢
          unfold colen at hm2 ⊢
          cases x
          · simp only [and_true] at hs ⊢
            split_ifs at hm2 ⊢ <;> omega
          · simp only [reduceCtorEq, and_false, or_false] at hs ⊢
            rw [if_pos (by omega)]

theorem says_next (x c : Bool) (s n l y : Int) (h1 : Says x l y) (hs : Says x s n) (hy : y ≠ MIS) (hnm : n ≠ MIS)
    (hx : x = true → c = true) (hm : snext c l s ≠ MIS) (hn : colen y n ≠ MIS) : Says x (snext c l s) (colen y n) := by
  have hU := UNB_val; have hM := MIS_val; have hA := ANY_val
  have hc : (c = false ∧ x = false) ∨ c = true := by cases c <;> cases x <;> simp_all
  have e1 : (0 ≤ l ∧ y = l) ∨ (l = UNB ∧ y = UNB) ∨ (l = ANY ∧ (0 ≤ y ∨ y = UNB)) := by
    have := h1.weaken; rw [says_false] at this; omega
  have e2 : (0 ≤ s ∧ n = s) ∨ (s = UNB ∧ n = UNB) ∨ (s = ANY ∧ (0 ≤ n ∨ n = UNB)) := by
    have := hs.weaken; rw [says_false] at this; omega
  clear h1 hs hx
  have key : (0 ≤ snext c l s ∧ colen y n = snext c l s) ∨ (snext c l s = UNB ∧ colen y n = UNB) ∨ (snext c l s = ANY ∧ (0 ≤ colen y n ∨ colen y n = UNB)) := by
    have k1 := colen_spec y n
    have k2 := colen_spec l s
    rcases hc with ⟨rfl, rfl⟩ | rfl
    · rw [snext_false] at hm ⊢
      omega
    · have k3 := snext_spec true l s
      simp only [true_and, forall_const] at k3
      rcases k3 with k3 | k3
      · rw [k3.2]
        right; right
        refine ⟨rfl, ?_⟩
        clear k2 hm k3
        omega
      · rw [k3.2] at hm ⊢
        clear hM
        rcases e1 with e1 | e1 | e1 <;> rcases e2 with e2 | e2 | e2 <;> omega
  rcases key with h | h | h
  · right; left; exact ⟨h.1, .inl h.2⟩
  · right; right; left; exact h
  · right; right; right; exact ⟨h.1, by unfold LenVal; omega⟩

theorem scolens_says (x c : Bool) (s n : Int) (L L' : List (Option Int)) (hL : List.Forall₂ (SaysO x) L L')
    (hs : Says x s n) (hsm : s ≠ MIS) (hnm : n ≠ MIS) (hx : x = true → c = true) : Says x (scolens c s L) (colens n L') := by
  have hU := UNB_val; have hM := MIS_val; have hA := ANY_val
  induction hL generalizing s n with
  | nil => exact hs
  | cons h1 h2 ih =>
    rename_i o o' L L'
    cases o with
    | none =>
      cases o' with
      | some _ => exact h1.elim
      | none =>
        rw [scolens_none _ _ _ hsm]
        simp only [colens]
        rw [if_neg hnm]
        exact ih s n hs hsm hnm
    | some l =>
      cases o' with
      | none =>
        simp only [SaysO] at h1
        have key : snext c l s = s ∨ snext c l s = ANY := by
          have := hs.lens.1
          cases c
          · rw [snext_false, h1]; unfold colen; split_ifs <;> omega
          · rw [snext_true, h1]; simp
        have k1 : snext c l s ≠ MIS := by omega
        have k2 : Says x (snext c l s) n := by
          rcases key with h | h
          · rw [h]; exact hs
          · rw [h]; right; right; right; exact ⟨rfl, hs.lens.2⟩
        rw [scolens_some _ _ _ _ (by omega) k1]
        simp only [colens]
        rw [if_neg hnm]
        exact ih _ n k2 k1 hnm
      | some y =>
        simp only [SaysO] at h1
        have hle := h1.lens
        have hse := hs.lens
        have w1 := h1.weaken
        have w2 := hs.weaken
        rw [says_false] at w1 w2
        simp only [colens]
        by_cases hm : l = MIS ∨ snext c l s = MIS
        · rw [scolens_some_mis _ _ _ _ hm]
          have : (if y = MIS then MIS else colen y n) = MIS := by
            rcases hm with hm | hm
            · rw [if_pos (by omega)]
            · by_cases hy : y = MIS
              · rw [if_pos hy]
              · rw [if_neg hy]
                unfold colen
                cases c
                · rw [snext_false] at hm
                  unfold colen at hm
                  split_ifs at hm ⊢ <;> omega
                · rw [snext_true] at hm
                  unfold colen at hm
                  split_ifs at hm ⊢ <;> omega
          rw [this, if_pos rfl]
          left; exact ⟨rfl, rfl⟩
        · push Not at hm
          rw [scolens_some _ _ _ _ hm.1 hm.2]
          generalize hnv : (if y = MIS then MIS else colen y n) = n'
          obtain ⟨hm1, hm2⟩ := hm
          by_cases hn'm : n' = MIS
          · rw [if_pos hn'm, hn'm]
            apply scolens_after x c _ L L' h2 _ hx
            subst hn'm
            have k1 := colen_spec y n
            have k2 := colen_spec l s
            have k4 : y = MIS ∨ colen y n = MIS := by split_ifs at hnv <;> omega
            cases c
            · have hxf : x = false := by cases x <;> simp_all
              simp only [hxf, and_true]
              rw [snext_false] at hm2 ⊢
              omega
            · have k3 := snext_spec true l s
              simp only [true_and, forall_const] at k3
              cases x
              · simp only [and_true]
                omega
              · rw [says_true] at h1 hs
                simp only [reduceCtorEq, and_false, or_false]
                omega
          · rw [if_neg hn'm]
            apply ih _ n' _ hm2 hn'm
            have hy : y ≠ MIS := by rintro rfl; simp at hnv; exact hn'm hnv.symm
            rw [if_neg hy] at hnv
            rw [← hnv]
            exact says_next x c s n l y h1 hs hy hnm hx hm2 (by rw [hnv]; exact hn'm)

theorem scolens_any (c : Bool) (s : Int) (L : List (Option Int)) (hL : ∀ l, some l ∈ L → l = ANY) (hs : s = ANY ∨ (s = UNB ∧ some ANY ∈ L)) : scolens c s L = ANY := by
  have hU := UNB_val; have hM := MIS_val; have hA := ANY_val
  induction L generalizing s with
  | nil => simp at hs; simpa [scolens] using hs
  | cons o L ih =>
    cases o with
    | none =>
      rw [scolens_none _ _ _ (by omega)]
      exact ih s (fun l hl => hL l (by simp [hl])) (by simpa using hs)
    | some l =>
      have hl : l = ANY := hL l (by simp)
      have : snext c l s = ANY := by
        have hs' : s = ANY ∨ s = UNB := by tauto
        cases c
        · rw [snext_false, hl]; unfold colen; split_ifs <;> omega
        · rw [snext_true, hl]; simp
      rw [scolens_some _ _ _ _ (by omega) (by omega), this]
      exact ih ANY (fun l hl => hL l (by simp [hl])) (.inl rfl)

theorem coranks_any' {r : Int} {l : List Int} (h : coranks r l = ANY) : r = ANY ∨ ANY ∈ l := by
  have hU := UNB_val; have hM := MIS_val; have hA := ANY_val
  induction l generalizing r with
  | nil => exact .inl h
  | cons a l ih =>
    simp only [coranks] at h
    rcases ih h with h1 | h1
    · unfold corank at h1
      by_cases ha : ANY = a
      · right; simp [ha]
      · by_cases hr : ANY = r
        · left; exact hr.symm
        · rw [if_neg ha, if_neg hr] at h1
          split_ifs at h1
          · omega
          · omega
          · left; exact h1
    · right; simp [h1]

theorem rank_le_coranks (t : List (Iter m α)) (hw : WFList t) (a : Iter m α) (ha : a ∈ t) (op : List (m α) → m α) : a.rank ≤ (Iter.node op t).rank :=
  rank_child_le ⟨by rintro rfl; simp at ha, hw⟩ ha

/-- Static contribution of an argument to the length. -/
def scontrib (d : STree) (c : Bool) (k : Nat) : Option Int := if d.rank < 0 ∨ (k : Int) < d.rank then some (d.len c k) else none
def contrib (a : Iter m α) (k : Nat) : Option Int := if (k : Int) < a.rank then some (a.len k) else none

theorem saysO_of (x : Bool) (d : STree) (a : Iter m α) (c : Bool) (k : Nat) (hi : Inst d a) (h1 : (k : Int) < a.rank → Says x (d.len c k) (a.len k))
    (h2 : d.rank = ANY → a.rank ≤ k → d.len c k = ANY) : SaysO x (scontrib d c k) (contrib a k) := by
  have hA := ANY_val
  have hr0 := Iter.rank_nonneg a (inst_wf d a hi)
  unfold scontrib contrib
  by_cases hr : d.rank = ANY
  · rw [if_pos (by omega)]
    by_cases hk : (k : Int) < a.rank
    · rw [if_pos hk]; exact h1 hk
    · rw [if_neg hk]; exact h2 hr (by omega)
  · rw [srank_eq d a hi hr]
    by_cases hk : (k : Int) < a.rank
    · rw [if_pos hk, if_pos (.inr hk)]; exact h1 hk
    · rw [if_neg hk, if_neg (by omega)]; trivial

theorem says_cell (x : Bool) (lens : Option (List Int)) (dims : List Dim) (cp : Int) (rd : Int → m α) (h : Inst (.cell lens) (Iter.cell dims cp rd)) (c : Bool) (k : Nat) :
    ((k : Int) < dims.length → Says x ((STree.cell lens).len c k) ((Iter.cell dims cp rd).len k)) ∧
    ((STree.cell lens).rank = ANY → (STree.cell lens).len c k = ANY) := by
  have hU := UNB_val; have hM := MIS_val; have hA := ANY_val
  cases lens with
  | none =>
    simp only [Inst] at h
    refine ⟨fun hk => ?_, fun _ => rfl⟩
    have hk' : k < dims.length := by omega
    simp only [STree.len, Iter.len, lenOf, List.getElem?_eq_getElem hk', Option.map_some, Option.getD_some, Says]
    have := h _ (List.getElem_mem hk')
    right; right; right
    simp only [LenVal, true_and]
    omega
  | some lens =>
    simp only [Inst] at h
    refine ⟨fun hk => ?_, fun hr => by simp only [STree.rank] at hr; omega⟩
    have hk' : k < dims.length := by omega
    have hk'' : k < lens.length := by rw [h.length_eq]; exact hk'
    have := h.get hk'' hk'
    simp only [List.get_eq_getElem, InstLen] at this
    simp only [STree.len, Iter.len, lenOf, List.getElem?_eq_getElem hk', Option.map_some, Option.getD_some, List.getD_eq_getElem?_getD,
      List.getElem?_eq_getElem hk'', Says, LenVal]
    rcases this with h | h
    · right; right; right; omega
    · rcases h.2 with h' | h'
      · right; left; exact ⟨by omega, .inl h.1.symm⟩
      · right; right; left; omega

theorem contribs_none (t : List (Iter m α)) (hw : WFList t) (k : Nat) (h : ∀ a ∈ t, a.rank ≤ k) : ∀ o ∈ lenList t k, o = none := by
  induction t with
  | nil => simp [lenList]
  | cons a t ih =>
    simp only [lenList, List.mem_cons]
    rintro o (rfl | ho)
    · rw [if_neg (by have := h a (by simp); omega)]
    · exact ih hw.2 (fun b hb => h b (by simp [hb])) o ho

theorem slenList_any (ds : List STree) (c : Bool) (k : Nat) (h : ANY ∈ srankList ds) : ∃ l, some l ∈ slenList ds c k := by
  have hA := ANY_val
  induction ds with
  | nil => simp [srankList] at h
  | cons d ds ih =>
    simp only [srankList, List.mem_cons] at h
    rcases h with h | h
    · refine ⟨d.len c k, ?_⟩
      simp only [slenList]
      rw [if_pos (by omega)]
      simp
    · obtain ⟨l, hl⟩ := ih h
      exact ⟨l, by simp [slenList, hl]⟩

mutual
theorem says_contrib (d : STree) (a : Iter m α) (h : Inst d a) (c : Bool) (k : Nat) : SaysO false (scontrib d c k) (contrib a k) := by
  have hU := UNB_val; have hM := MIS_val; have hA := ANY_val
  cases d with
  | scalar =>
    cases a <;> simp only [Inst] at h
    have e1 : scontrib .scalar c k = none := by unfold scontrib; rw [if_neg]; simp only [STree.rank]; omega
    rename_i y
    have e2 : contrib (Iter.scalar y) k = none := by unfold contrib; rw [if_neg]; simp only [Iter.rank]; omega
    rw [e1, e2]; trivial
  | cell lens =>
    cases a with
    | cell dims cp rd =>
      obtain ⟨h1, h2⟩ := says_cell false lens dims cp rd h c k
      exact saysO_of _ _ _ _ _ h (by simpa [Iter.rank] using h1) (fun hr _ => h2 hr)
    | _ => cases lens <;> simp [Inst] at h
  | reframe dest d =>
    cases a with
    | reframe dest' a =>
      have hI := h
      simp only [Inst] at h
      obtain ⟨rfl, h1, h2, h3⟩ := h
      apply saysO_of _ _ _ _ _ hI
      · intro hk
        simp only [STree.len, Iter.len]
        cases ho : orig dest k with
        | none => right; right; left; exact ⟨rfl, rfl⟩
        | some l =>
          have hl := orig_lt ho
          have := says_contrib d a h3 false l
          simp only [contrib] at this
          rw [if_pos (by omega)] at this
          simp only [scontrib] at this
          split at this
          · exact this
          · exact this.elim
      · intro hr
        simp only [STree.rank, reframeRank] at hr
        split at hr <;> omega
    | _ => simp [Inst] at h
  | node ds =>
    cases a with
    | node op t =>
      have hI := h
      simp only [Inst] at h
      have hF := says_contribs ds t h.2 c k
      apply saysO_of _ _ _ _ _ hI
      · intro _
        simp only [STree.len, Iter.len]
        exact scolens_says false c UNB UNB _ _ hF (.inr (.inr (.inl ⟨rfl, rfl⟩))) (by omega) (by omega) (by simp)
      · intro hr hk
        simp only [STree.len]
        have hnone := contribs_none t (insts_wf ds t h.2) k (fun a ha => le_trans (rank_le_coranks t (insts_wf ds t h.2) a ha op) hk)
        have hall : ∀ l, some l ∈ slenList ds c k → l = ANY := by
          intro l hl
          obtain ⟨i, hi, he⟩ := List.getElem_of_mem hl
          have := hF.get hi (by rw [← hF.length_eq]; exact hi)
          simp only [List.get_eq_getElem, he, hnone _ (List.getElem_mem _)] at this
          exact this
        apply scolens_any _ _ _ hall
        right
        refine ⟨rfl, ?_⟩
        have hm : ANY ∈ srankList ds := by
          rcases coranks_any' (by simpa [STree.rank] using hr) with h | h
          · omega
          · exact h
        obtain ⟨l, hl⟩ := slenList_any ds c k hm
        rwa [hall l hl] at hl
    | _ => simp [Inst] at h
theorem says_contribs (ds : List STree) (t : List (Iter m α)) (h : Insts ds t) (c : Bool) (k : Nat) :
    List.Forall₂ (SaysO false) (slenList ds c k) (lenList t k) := by
  cases ds with
  | nil => cases t <;> simp_all [Insts, slenList, lenList]
  | cons d ds =>
    cases t with
    | nil => simp [Insts] at h
    | cons a t =>
      simp only [Insts] at h
      exact .cons (says_contrib d a h.1 c k) (says_contribs ds t h.2 c k)
end

/-- Without prefix matching, static lengths don't depend on `check`, and if known, they are right. -/
theorem says_leaf (d : STree) (a : Iter m α) (h : Inst d a) (hl : Leaf d) (c : Bool) (k : Nat) : SaysO true (scontrib d c k) (contrib a k) := by
  have hU := UNB_val; have hM := MIS_val; have hA := ANY_val
  cases d with
  | scalar =>
    cases a <;> simp only [Inst] at h
    have e1 : scontrib .scalar c k = none := by unfold scontrib; rw [if_neg]; simp only [STree.rank]; omega
    rename_i y
    have e2 : contrib (Iter.scalar y) k = none := by unfold contrib; rw [if_neg]; simp only [Iter.rank]; omega
    rw [e1, e2]; trivial
  | cell lens =>
    cases a with
    | cell dims cp rd =>
      obtain ⟨h1, h2⟩ := says_cell true lens dims cp rd h c k
      exact saysO_of _ _ _ _ _ h (by simpa [Iter.rank] using h1) (fun hr _ => h2 hr)
    | _ => cases lens <;> simp [Inst] at h
  | reframe dest d =>
    cases a with
    | reframe dest' a =>
      have hI := h
      simp only [Inst] at h
      simp only [Leaf] at hl
      obtain ⟨rfl, h1, h2, h3⟩ := h
      apply saysO_of _ _ _ _ _ hI
      · intro hk
        simp only [STree.len, Iter.len]
        cases ho : orig dest k with
        | none => right; right; left; exact ⟨rfl, rfl⟩
        | some l =>
          have hlt := orig_lt ho
          have := says_leaf d a h3 hl false l
          simp only [contrib] at this
          rw [if_pos (by omega)] at this
          simp only [scontrib] at this
          split at this
          · exact this
          · exact this.elim
      · intro hr
        simp only [STree.rank, reframeRank] at hr
        split at hr <;> omega
    | _ => simp [Inst] at h
  | node ds => simp [Leaf] at hl

mutual
theorem says_plain (d : STree) (a : Iter m α) (h : Inst d a) (hp : Plain d) (k : Nat) : SaysO true (scontrib d true k) (contrib a k) := by
  have hU := UNB_val; have hM := MIS_val; have hA := ANY_val
  cases d with
  | scalar => exact says_leaf _ a h trivial true k
  | cell lens => exact says_leaf _ a h trivial true k
  | reframe dest d => exact says_leaf _ a h (by simpa [Plain, Leaf] using hp) true k
  | node ds =>
    cases a with
    | node op t =>
      have hI := h
      simp only [Inst] at h
      simp only [Plain] at hp
      have hF := says_plains ds t h.2 hp k
      have hc := says_contrib (.node ds) (.node op t) hI true k
      apply saysO_of _ _ _ _ _ hI
      · intro _
        simp only [STree.len, Iter.len]
        exact scolens_says true true UNB UNB _ _ hF (.inr (.inr (.inl ⟨rfl, rfl⟩))) (by omega) (by omega) (by simp)
      · intro hr hk
        unfold scontrib contrib at hc
        rw [if_pos (by omega), if_neg (by omega)] at hc
        exact hc
    | _ => simp [Inst] at h
theorem says_plains (ds : List STree) (t : List (Iter m α)) (h : Insts ds t) (hp : Plains ds) (k : Nat) :
    List.Forall₂ (SaysO true) (slenList ds true k) (lenList t k) := by
  cases ds with
  | nil => cases t <;> simp_all [Insts, slenList, lenList]
  | cons d ds =>
    cases t with
    | nil => simp [Insts] at h
    | cons a t =>
      simp only [Insts] at h
      simp only [Plains] at hp
      exact .cons (says_plain d a h.1 hp.1 k) (says_plains ds t h.2 hp.2 k)
end

theorem checkLoop_zero (t : List STree) (val : Nat) (ks : List Nat) (h : checkLoop t val ks = 0) :
    ∃ k ∈ ks, (STree.node t).len true k = MIS ∨ (STree.node t).len true k = UNB := by
  induction ks generalizing val with
  | nil => simp only [checkLoop] at h; split at h <;> simp at h
  | cons k ks ih =>
    simp only [checkLoop] at h
    split_ifs at h with h1 h2
    · exact ⟨k, by simp, h1.imp Eq.symm Eq.symm⟩
    · obtain ⟨k', hk', e⟩ := ih _ h; exact ⟨k', by simp [hk'], e⟩
    · obtain ⟨k', hk', e⟩ := ih _ h; exact ⟨k', by simp [hk'], e⟩

theorem checkLoop_two (t : List STree) (val : Nat) (ks : List Nat) (h : checkLoop t val ks = 2) : val = 0 ∧
    ∀ k ∈ ks, (STree.node t).len true k ≠ MIS ∧ (STree.node t).len true k ≠ UNB ∧ (STree.node t).len true k ≠ ANY := by
  induction ks generalizing val with
  | nil => simp only [checkLoop] at h; split at h <;> simp_all
  | cons k ks ih =>
    simp only [checkLoop] at h
    split_ifs at h with h1 h2
    · have := (ih _ h).1; omega
    · refine ⟨(ih _ h).1, ?_⟩
      intro k' hk'
      rcases List.mem_cons.mp hk' with rfl | hk'
      · push Not at h1
        exact ⟨h1.1.symm, h1.2.symm, Ne.symm h2⟩
      · exact (ih _ h).2 k' hk'

theorem checkLoop_le (t : List STree) (val : Nat) (ks : List Nat) : checkLoop t val ks ≤ 2 := by
  induction ks generalizing val with
  | nil => simp only [checkLoop]; split <;> omega
  | cons k ks ih =>
    simp only [checkLoop]
    split_ifs
    · omega
    · exact ih _
    · exact ih _

/-- C04. If the static check rejects the arguments, then there is no value of those types that the run time check accepts. -/
theorem C04_reject (ds : List STree) (t : List (Iter m α)) (hi : Insts ds t) (h : checkS ds = 0) : agree t = false := by
  have hU := UNB_val; have hM := MIS_val; have hA := ANY_val
  unfold checkS at h
  split_ifs at h with hr
  obtain ⟨k, hk, hl⟩ := checkLoop_zero _ _ _ h
  rw [List.mem_range] at hk
  have hr' : (STree.node ds).rank = coranks UNB (rankList t) := by
    simp only [STree.rank] at hr ⊢
    rw [srankList_eq ds t hi (coranks_any hr).2]
  rw [hr'] at hk
  have hs := scolens_says false true UNB UNB _ _ (says_contribs ds t hi true k) (.inr (.inr (.inl ⟨rfl, rfl⟩))) (by omega) (by omega) (by simp)
  simp only [STree.len] at hl
  rw [says_false] at hs
  have : ¬ (0 ≤ colens UNB (lenList t k)) := by omega
  by_contra hag
  rw [Bool.not_eq_false] at hag
  simp only [agree, matchCheck, List.all_eq_true, List.mem_range, decide_eq_true_eq] at hag
  exact this (hag k hk)

/-- C04. If the static check passes the arguments without asking for a run time check, then the run time check would accept all the values of those types.
Here rank conjunctions have no prefix matching inside; see `C04_negation` for the other ones. -/
theorem C04_pass_partial (ds : List STree) (hp : Plains ds) (t : List (Iter m α)) (hi : Insts ds t) (h : checkS ds = 2) : agree t = true := by
  have hU := UNB_val; have hM := MIS_val; have hA := ANY_val
  unfold checkS at h
  split_ifs at h with hr
  · omega
  have hl := (checkLoop_two _ _ _ h).2
  have hr' : (STree.node ds).rank = coranks UNB (rankList t) := by
    simp only [STree.rank] at hr ⊢
    rw [srankList_eq ds t hi (coranks_any hr).2]
  simp only [agree, matchCheck, List.all_eq_true, List.mem_range, decide_eq_true_eq]
  intro k hk
  have hl := hl k (by rw [List.mem_range, hr']; exact hk)
  have hs := scolens_says true true UNB UNB _ _ (says_plains ds t hi hp k) (.inr (.inr (.inl ⟨rfl, rfl⟩))) (by omega) (by omega) (by simp)
  simp only [STree.len] at hl
  rw [says_true] at hs
  omega

/-- C04. So doing the check when compiling or when running makes no difference. -/
theorem C04_check_partial (ds : List STree) (hp : Plains ds) (t : List (Iter m α)) (hi : Insts ds t) : fullCheck ds t = agree t := by
  unfold fullCheck
  have hle : checkS ds ≤ 2 := by
    unfold checkS
    split
    · omega
    · exact checkLoop_le _ _ _
  split
  · rfl
  · by_cases h0 : checkS ds = 0
    · rw [C04_reject ds t hi h0]; simp [h0]
    · have : checkS ds = 2 := by omega
      rw [C04_pass_partial ds hp t hi this]; simp [this]

/-- A vector of length `n`. -/
def vecN (n : Int) : Iter (Except Fault) Int := .cell [⟨n, 1⟩] 0 (fun _ => .ok 0)

/-- C04 fails for prefix matching inside of a rank conjunction: in `map(wrank<0, 1>(f), Small<int, 2>, a+b)`, where `b` is `Small<int, 3>` and the size of `a` isn't static,
the static check passes although the check when running fails, if the size of `a` isn't 3. -/
theorem C04_negation : ∃ (ds : List STree) (t : List (Iter (Except Fault) Int)), Insts ds t ∧ checkS ds = 2 ∧ fullCheck ds t = true ∧ agree t = false := by
  refine ⟨[.cell (some [2]), .reframe [1] (.node [.cell (some [ANY]), .cell (some [3])])],
    [vecN 2, .reframe [1] (.node (fun l => l.headD (.ok 0)) [vecN 2, vecN 3])], ?_, ?_, ?_, ?_⟩
  · simp [Insts, Inst, InstLen, vecN, Iter.rank, rankList, coranks, corank, UNB, ANY]
  · decide +kernel
  · decide +kernel
  · decide +kernel

/-- The cases of the static check. `Small<2, 3> + Small<2>` passes. -/
example : checkS [.cell (some [2, 3]), .cell (some [2])] = 2 := by decide +kernel
/-- `Small<2, 3> + Small<3>` is rejected. -/
example : checkS [.cell (some [2, 3]), .cell (some [3])] = 0 := by decide +kernel
/-- `Small<2> + iota()` passes. -/
example : checkS [.cell (some [2]), .cell (some [UNB])] = 2 := by decide +kernel
/-- `iota() + iota()` is rejected (as an argument of `agree`). -/
example : checkS [.cell (some [UNB]), .cell (some [UNB])] = 0 := by decide +kernel
/-- `Big<1> + Small<2>` asks for a run time check. -/
example : checkS [.cell (some [ANY]), .cell (some [2])] = 1 := by decide +kernel
/-- The static check rejects even if some axes aren't known. -/
example : checkS [.cell (some [ANY, 3]), .cell (some [ANY, 4])] = 0 := by decide +kernel
example : Insts [.cell (some [ANY, 3]), .cell (some [ANY, 4])]
    [(Iter.cell [⟨7, 3⟩, ⟨3, 1⟩] 0 (fun _ => .ok 0) : Iter (Except Fault) Int), .cell [⟨7, 4⟩, ⟨4, 1⟩] 0 (fun _ => .ok 0)] := by
  simp [Insts, Inst, InstLen]
/-- Outer product `from(f, Small<2>, Small<3>)`. -/
example : checkS [.reframe [0] (.cell (some [2])), .reframe [1] (.cell (some [3]))] = 2 := by decide +kernel
example : Plains [.reframe [0] (.cell (some [2])), .reframe [1] (.cell (some [3]))] := by simp [Plains, Plain, Leaf]
example : Insts [.reframe [0] (.cell (some [2])), .reframe [1] (.cell (some [3]))] [Iter.reframe [0] (vecN 2), .reframe [1] (vecN 3)] := by
  simp [Insts, Inst, InstLen, vecN, Iter.rank]

/-! C61 -/

theorem sizeLoop_says (L L' : List Int) (s : Int) (hs : 0 ≤ s) (h : List.Forall₂ (fun l n => Says false l n ∧ n ≠ MIS) L L') (hn : sizeLoop L s ≠ ANY) :
    sizeLoop L' s = sizeLoop L s := by
  have hU := UNB_val; have hM := MIS_val; have hA := ANY_val
  induction h generalizing s with
  | nil => rfl
  | cons h1 h2 ih =>
    rename_i l n L L'
    obtain ⟨h1, hm⟩ := h1
    rw [says_false] at h1
    simp only [sizeLoop] at hn ⊢
    by_cases hl : l < 0
    · rw [if_pos hl] at hn ⊢
      have : n = l := by omega
      rw [if_pos (by omega), this]
    · rw [if_neg hl] at hn ⊢
      have : n = l := by omega
      rw [if_neg (by omega), this]
      exact ih _ (Int.mul_nonneg hs (by omega)) hn

theorem lenVal_ne_mis (o : Length) : lenVal o ≠ MIS := by
  have hU := UNB_val; have hM := MIS_val
  cases o <;> simp [lenVal] <;> omega

/-- C61. If the size is known from the type, then it's the size. -/
theorem C61_static (d : STree) (a : Iter m α) (s : List Length) (hi : Inst d a) (h : HasShape a s) (hk : d.size ≠ ANY) : a.size = d.size := by
  have hU := UNB_val; have hM := MIS_val; have hA := ANY_val
  unfold STree.size at hk ⊢
  split_ifs at hk ⊢ with hr
  · exact absurd rfl hk
  have hra := srank_eq d a hi hr
  unfold Iter.size Iter.shape
  rw [hra] at hk ⊢
  apply sizeLoop_says _ _ _ (by omega) _ hk
  rw [List.forall₂_map_left_iff, List.forall₂_map_right_iff, List.forall₂_same]
  intro k hk
  rw [List.mem_range] at hk
  have hka : (k : Int) < a.rank := by omega
  have := says_contrib d a hi false k
  unfold scontrib contrib at this
  rw [if_pos hka, if_pos (by omega)] at this
  refine ⟨this, ?_⟩
  have hks : k < s.length := by have := h.fits.1; omega
  rw [h.fits.len (List.getElem?_eq_getElem hks)]
  exact lenVal_ne_mis _

theorem sizeLoop_lenVal (s : List Length) (c : Int) (hc : 0 ≤ c) : (sizeLoop (s.map lenVal) c < 0 ↔ none ∈ s) := by
  have hU := UNB_val
  induction s generalizing c with
  | nil => simp [sizeLoop]; omega
  | cons o s ih =>
    cases o with
    | none => simp [sizeLoop, lenVal, hU]
    | some n =>
      simp only [List.map_cons, sizeLoop, lenVal]
      have := ih (c * (n : Int)) (Int.mul_nonneg hc (by omega))
      rw [if_neg (by omega)]
      simpa using this

theorem shape_eq_of_hasShape (a : Iter m α) (s : List Length) (h : HasShape a s) : a.shape = s.map lenVal := by
  unfold Iter.shape
  apply List.ext_getElem
  · have := h.fits.1; simp; omega
  · intro k h1 h2
    simp only [List.length_map] at h2
    simp only [List.getElem_map, List.getElem_range]
    exact h.fits.len (List.getElem?_eq_getElem h2)

/-- C61. The size of an expression is the product of its lengths. -/
theorem C61_expr_size (a : Iter m α) (s : List Nat) (h : HasShape a (s.map some)) : a.size = (s.map Nat.cast).prod := by
  unfold Iter.size
  rw [shape_eq_of_hasShape a _ h]
  have : ∀ c : Int, sizeLoop ((s.map some).map lenVal) c = c * (s.map Nat.cast).prod := by
    clear h
    induction s with
    | nil => simp [sizeLoop]
    | cons n s ih =>
      intro c
      simp only [List.map_cons, sizeLoop, lenVal, List.prod_cons]
      rw [if_neg (by omega), ih]
      ring
  rw [this, one_mul]

/-- C61. The size of an expression is negative if and only if some axis is unbounded. -/
theorem C61_expr_unbounded (a : Iter m α) (s : List Length) (h : HasShape a s) : a.size < 0 ↔ none ∈ s := by
  unfold Iter.size
  rw [shape_eq_of_hasShape a _ h]
  exact sizeLoop_lenVal s 1 (by omega)

/-- `Small<2, 3> + Small<2>`. -/
example : (STree.node [.cell (some [2, 3]), .cell (some [2])]).size = 6 := by decide +kernel
/-- `Small<2, 3> + iota()` with any rank. -/
example : (STree.node [.cell (some [2, 3]), .cell (some [UNB])]).size = 6 := by decide +kernel
example : (STree.node [.cell (some [2, ANY]), .cell (some [2])]).size = ANY := by decide +kernel
example : Inst (.node [.cell (some [ANY, 3]), .cell (some [2])])
    (Iter.node (fun l => l.headD (.ok 0)) [(Iter.cell [⟨2, 3⟩, ⟨3, 1⟩] 0 (fun _ => .ok 0) : Iter (Except Fault) Int), .cell [⟨2, 1⟩] 0 (fun _ => .ok 0)]) := by
  simp [Insts, Inst, InstLen]
example : (STree.node [.cell (some [ANY, 3]), .cell (some [2])]).size = 6 := by decide +kernel

end Ra.Props
