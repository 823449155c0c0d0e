import Verif.Model.Iter
import Mathlib.Data.List.Nodup
import Mathlib.Tactic.Ring
import Mathlib.Tactic.Linarith
/-!
# Moving an iterator to a position

`shift v a` is the iterator `a` after moving `v k` steps along each axis `k`. All the motions in the code (`adv`, `mov`, `load`) are shifts.
-/

namespace Ra

/-- Displacement with `d` more steps on axis `k`. -/
def bump (v : Nat → Int) (k : Nat) (d : Int) : Nat → Int := fun i => if i = k then v i + d else v i

theorem bump_zero (v : Nat → Int) (k : Nat) : bump v k 0 = v := by
  funext i; simp [bump]

theorem bump_bump (v : Nat → Int) (k : Nat) (d e : Int) : bump (bump v k d) k e = bump v k (d + e) := by
  funext i; simp only [bump]; split <;> ring

/-- Offset of a displacement. -/
def offset : List Dim → (Nat → Int) → Int
  | [], _ => 0
  | d :: ds, v => v 0 * d.step + offset ds (fun k => v (k+1))

theorem stepOf_nil (k : Nat) : stepOf [] k = 0 := by simp [stepOf]
theorem stepOf_cons_zero (d : Dim) (ds : List Dim) : stepOf (d :: ds) 0 = d.step := by simp [stepOf]
theorem stepOf_cons_succ (d : Dim) (ds : List Dim) (k : Nat) : stepOf (d :: ds) (k+1) = stepOf ds k := by simp [stepOf]

theorem offset_bump (ds : List Dim) (v : Nat → Int) (k : Nat) (d : Int) :
    offset ds (bump v k d) = offset ds v + stepOf ds k * d := by
  induction ds generalizing v k with
  | nil => simp [offset, stepOf_nil]
  | cons x ds ih =>
    cases k with
    | zero =>
      have h : (fun i => bump v 0 d (i+1)) = fun i => v (i+1) := by funext i; simp [bump]
      simp only [offset, h, stepOf_cons_zero]
      simp only [bump]; simp; ring
    | succ k =>
      have h : (fun i => bump v (k+1) d (i+1)) = bump (fun i => v (i+1)) k d := by funext i; simp [bump]
      simp only [offset, h, stepOf_cons_succ, ih]
      simp only [bump]; simp; ring

theorem offset_zero (ds : List Dim) : offset ds (fun _ => 0) = 0 := by
  induction ds with
  | nil => rfl
  | cons x ds ih => simp [offset, ih]

/-- The displacement that a reframed iterator sees. -/
def reframeDisp (dest : List Nat) (v : Nat → Int) : Nat → Int := fun l => match dest[l]? with | some k => v k | none => 0

section
variable {m : Type → Type} {α : Type}

mutual
/-- `a` after moving `v k` steps along each axis `k`. -/
def Iter.shift : Iter m α → (Nat → Int) → Iter m α
  | .scalar c, _ => .scalar c
  | .cell dims cp rd, v => .cell dims (cp + offset dims v) rd
  | .reframe dest a, v => .reframe dest (a.shift (reframeDisp dest v))
  | .node op t, v => .node op (shiftList t v)
def shiftList : List (Iter m α) → (Nat → Int) → List (Iter m α)
  | [], _ => []
  | a :: t, v => a.shift v :: shiftList t v
end

mutual
/-- The trees that the library builds: lengths are nonnegative or unbounded, and `reframe` has one destination axis for each axis of its
argument, without repeats (repeats are a TODO on expr.hh:397). A match has at least one argument (`map(op)` isn't defined, cf
ply.hh:546). -/
def Iter.WF : Iter m α → Prop
  | .scalar _ => True
  | .cell dims _ _ => ∀ d ∈ dims, 0 ≤ d.len ∨ d.len = UNB
  | .reframe dest a => dest.Nodup ∧ (dest.length : Int) = a.rank ∧ a.WF
  | .node _ t => t ≠ [] ∧ WFList t
def WFList : List (Iter m α) → Prop
  | [] => True
  | a :: t => a.WF ∧ WFList t
end

theorem orig_none {dest : List Nat} {k : Nat} (h : orig dest k = none) : k ∉ dest := by
  simp only [orig, List.findIdx?_eq_none_iff] at h
  intro hk
  have := h k hk
  simp at this

theorem orig_some {dest : List Nat} {k l : Nat} (h : orig dest k = some l) : dest[l]? = some k := by
  rw [orig, List.findIdx?_eq_some_iff_getElem] at h
  obtain ⟨hl, h1, _⟩ := h
  simp only [beq_iff_eq] at h1
  rw [List.getElem?_eq_getElem hl, h1]

theorem orig_lt {dest : List Nat} {k l : Nat} (h : orig dest k = some l) : l < dest.length := by
  have := orig_some h
  exact (List.getElem?_eq_some_iff.mp this).1

theorem orig_of_nodup {dest : List Nat} (hd : dest.Nodup) {k l : Nat} (h : dest[l]? = some k) : orig dest k = some l := by
  cases h' : orig dest k with
  | none =>
    exact absurd (List.mem_of_getElem? h) (orig_none h')
  | some l' =>
    have h2 := orig_some h'
    obtain ⟨hl, h3⟩ := List.getElem?_eq_some_iff.mp h
    obtain ⟨hl', h4⟩ := List.getElem?_eq_some_iff.mp h2
    have : l = l' := (List.Nodup.getElem_inj_iff hd).mp (by rw [h3, h4])
    rw [this]

theorem reframeDisp_bump_live {dest : List Nat} (hd : dest.Nodup) {k l : Nat} (h : orig dest k = some l) (v : Nat → Int) (d : Int) :
    reframeDisp dest (bump v k d) = bump (reframeDisp dest v) l d := by
  have hl := orig_some h
  funext i
  simp only [reframeDisp, bump]
  by_cases hi : i = l
  · subst hi; simp [hl]
  · simp only [hi, if_false]
    cases hx : dest[i]? with
    | none => rfl
    | some k' =>
      have : k' ≠ k := by
        intro hk; subst hk
        have h5 := orig_of_nodup hd hx
        rw [h] at h5
        exact hi (by injection h5 with h5; exact h5.symm)
      simp [this]

theorem reframeDisp_bump_dead {dest : List Nat} {k : Nat} (h : orig dest k = none) (v : Nat → Int) (d : Int) :
    reframeDisp dest (bump v k d) = reframeDisp dest v := by
  have hk := orig_none h
  funext i
  simp only [reframeDisp, bump]
  cases hx : dest[i]? with
  | none => rfl
  | some k' =>
    have : k' ≠ k := by
      intro e; subst e; exact hk (List.mem_of_getElem? hx)
    simp [this]

mutual
theorem Iter.shift_zero (a : Iter m α) : a.shift (fun _ => 0) = a := by
  cases a with
  | scalar c => rfl
  | cell dims cp rd => simp [Iter.shift, offset_zero]
  | reframe dest a =>
    have : reframeDisp dest (fun _ => 0) = fun _ => 0 := by funext l; simp only [reframeDisp]; split <;> rfl
    simp only [Iter.shift, this, a.shift_zero]
  | node op t => simp only [Iter.shift, shiftList_zero t]
theorem shiftList_zero (t : List (Iter m α)) : shiftList t (fun _ => 0) = t := by
  cases t with
  | nil => rfl
  | cons a t => simp only [shiftList, a.shift_zero, shiftList_zero t]
end

mutual
theorem Iter.rank_shift (a : Iter m α) (v) : (a.shift v).rank = a.rank := by
  cases a with
  | scalar c => rfl
  | cell dims cp rd => rfl
  | reframe dest a => rfl
  | node op t => simp only [Iter.shift, Iter.rank, rankList_shift t v]
theorem rankList_shift (t : List (Iter m α)) (v) : rankList (shiftList t v) = rankList t := by
  cases t with
  | nil => rfl
  | cons a t => simp only [shiftList, rankList, a.rank_shift v, rankList_shift t v]
end

mutual
theorem Iter.len_shift (a : Iter m α) (v k) : (a.shift v).len k = a.len k := by
  cases a with
  | scalar c => rfl
  | cell dims cp rd => rfl
  | reframe dest a =>
    simp only [Iter.shift, Iter.len]
    cases orig dest k with
    | none => rfl
    | some l => exact a.len_shift _ l
  | node op t => simp only [Iter.shift, Iter.len, lenList_shift t v]
theorem lenList_shift (t : List (Iter m α)) (v k) : lenList (shiftList t v) k = lenList t k := by
  cases t with
  | nil => rfl
  | cons a t => simp only [shiftList, lenList, a.rank_shift v, a.len_shift v, lenList_shift t v]
end

mutual
theorem Iter.step_shift (a : Iter m α) (v k) : (a.shift v).step k = a.step k := by
  cases a with
  | scalar c => rfl
  | cell dims cp rd => rfl
  | reframe dest a =>
    simp only [Iter.shift, Iter.step]
    cases orig dest k with
    | none => simp only [a.step_shift]
    | some l => exact a.step_shift _ l
  | node op t => simp only [Iter.shift, Iter.step, stepList_shift t v]
theorem stepList_shift (t : List (Iter m α)) (v k) : stepList (shiftList t v) k = stepList t k := by
  cases t with
  | nil => rfl
  | cons a t => simp only [shiftList, stepList, a.step_shift v, stepList_shift t v]
end

mutual
theorem Iter.keep_shift (a : Iter m α) (v st z j) : (a.shift v).keep st z j = a.keep st z j := by
  cases a with
  | scalar c => rfl
  | cell dims cp rd => rfl
  | reframe dest a =>
    simp only [Iter.shift, Iter.keep]
    cases orig dest z with
    | none => rfl
    | some wz =>
      cases orig dest j with
      | none => rfl
      | some wj => exact a.keep_shift _ _ _ _
  | node op t => simp only [Iter.shift, Iter.keep, keepList_shift t v]
theorem keepList_shift (t : List (Iter m α)) (v st z j) : keepList (shiftList t v) st z j = keepList t st z j := by
  cases t with
  | nil => rfl
  | cons a t => simp only [shiftList, keepList, a.keep_shift v, keepList_shift t v]
end

mutual
theorem Iter.adv_shift (a : Iter m α) (h : a.WF) (v k d) : (a.shift v).adv k d = a.shift (bump v k d) := by
  cases a with
  | scalar c => rfl
  | cell dims cp rd => simp only [Iter.shift, Iter.adv, offset_bump]; congr 1; ring
  | reframe dest a =>
    simp only [Iter.WF] at h
    simp only [Iter.shift, Iter.adv]
    cases h' : orig dest k with
    | none => simp only [reframeDisp_bump_dead h']
    | some l => simp only [a.adv_shift h.2.2, reframeDisp_bump_live h.1 h']
  | node op t => simp only [Iter.WF] at h; simp only [Iter.shift, Iter.adv, advList_shift t h.2]
theorem advList_shift (t : List (Iter m α)) (h : WFList t) (v k d) : advList (shiftList t v) k d = shiftList t (bump v k d) := by
  cases t with
  | nil => rfl
  | cons a t => simp only [WFList] at h; simp only [shiftList, advList, a.adv_shift h.1, advList_shift t h.2]
end

mutual
theorem Iter.load_save (a : Iter m α) (v w) : (a.shift w).load (a.shift v).save = a.shift v := by
  cases a with
  | scalar c => rfl
  | cell dims cp rd => rfl
  | reframe dest a => simp only [Iter.shift, Iter.load, Iter.save, a.load_save]
  | node op t => simp only [Iter.shift, Iter.load, Iter.save, loadList_save t]
theorem loadList_save (t : List (Iter m α)) (v w) : loadList (shiftList t w) (saveList (shiftList t v)) = shiftList t v := by
  cases t with
  | nil => rfl
  | cons a t => simp only [shiftList, loadList, saveList, a.load_save, loadList_save t]
end

mutual
theorem Iter.mov_zeroLike (a b : Iter m α) (v : Nat → Int) (h : b = a.shift v) (k) : b.mov (a.step k).zeroLike = b := by
  subst h
  cases a with
  | scalar c => rfl
  | cell dims cp rd => simp [Iter.shift, Iter.step, Tree.zeroLike, Iter.mov]
  | reframe dest a =>
    simp only [Iter.shift, Iter.step, Iter.mov]
    cases orig dest k with
    | none =>
      have := a.mov_zeroLike _ (reframeDisp dest v) rfl 0
      simp only [Tree.zeroLike_zeroLike, this]
    | some l =>
      have := a.mov_zeroLike _ (reframeDisp dest v) rfl l
      simp only [this]
  | node op t => simp only [Iter.shift, Iter.step, Iter.mov, Tree.zeroLike, movList_zeroLike t]
theorem movList_zeroLike (t : List (Iter m α)) (v k) : movList (shiftList t v) (zeroLikes (stepList t k)) = shiftList t v := by
  cases t with
  | nil => rfl
  | cons a t => simp only [shiftList, stepList, zeroLikes, movList, a.mov_zeroLike _ v rfl, movList_zeroLike t]
theorem Tree.zeroLike_zeroLike (t : Tree) : t.zeroLike.zeroLike = t.zeroLike := by
  cases t with
  | leaf x => rfl
  | node t => simp only [Tree.zeroLike, zeroLikes_zeroLikes t]
theorem zeroLikes_zeroLikes (t : List Tree) : zeroLikes (zeroLikes t) = zeroLikes t := by
  cases t with
  | nil => rfl
  | cons a t => simp only [zeroLikes, a.zeroLike_zeroLike, zeroLikes_zeroLikes t]
end

mutual
theorem Iter.mov_shift (a : Iter m α) (h : a.WF) (v k) : (a.shift v).mov (a.step k) = a.shift (bump v k 1) := by
  cases a with
  | scalar c => rfl
  | cell dims cp rd => simp only [Iter.shift, Iter.step, Iter.mov, offset_bump]; congr 1; ring
  | reframe dest a =>
    simp only [Iter.WF] at h
    simp only [Iter.shift, Iter.step, Iter.mov]
    cases h' : orig dest k with
    | none => simp only [reframeDisp_bump_dead h', a.mov_zeroLike _ (reframeDisp dest v) rfl]
    | some l => simp only [a.mov_shift h.2.2, reframeDisp_bump_live h.1 h']
  | node op t => simp only [Iter.WF] at h; simp only [Iter.shift, Iter.step, Iter.mov, movList_shift t h.2]
theorem movList_shift (t : List (Iter m α)) (h : WFList t) (v k) : movList (shiftList t v) (stepList t k) = shiftList t (bump v k 1) := by
  cases t with
  | nil => rfl
  | cons a t => simp only [WFList] at h; simp only [shiftList, stepList, movList, a.mov_shift h.1, movList_shift t h.2]
end

mutual
/-- The meaning of `keep`: one step on axis `j` is the same motion as `st` steps on axis `z`. -/
theorem Iter.keep_spec (a : Iter m α) (h : a.WF) (st z j) (hk : a.keep st z j = true) (v) :
    a.shift (bump v z st) = a.shift (bump v j 1) := by
  cases a with
  | scalar c => rfl
  | cell dims cp rd =>
    simp only [Iter.keep, beq_iff_eq] at hk
    simp only [Iter.shift, offset_bump]
    congr 2
    rw [← hk]; ring
  | reframe dest a =>
    simp only [Iter.WF] at h
    simp only [Iter.keep] at hk
    cases hz : orig dest z with
    | none => simp [hz] at hk
    | some wz =>
      cases hj : orig dest j with
      | none => simp [hz, hj] at hk
      | some wj =>
        simp only [hz, hj] at hk
        simp only [Iter.shift, reframeDisp_bump_live h.1 hz, reframeDisp_bump_live h.1 hj, a.keep_spec h.2.2 st wz wj hk]
  | node op t =>
    simp only [Iter.WF] at h; simp only [Iter.keep] at hk
    simp only [Iter.shift, keepList_spec t h.2 st z j hk]
theorem keepList_spec (t : List (Iter m α)) (h : WFList t) (st z j) (hk : keepList t st z j = true) (v) :
    shiftList t (bump v z st) = shiftList t (bump v j 1) := by
  cases t with
  | nil => rfl
  | cons a t =>
    simp only [WFList] at h
    simp only [keepList, Bool.and_eq_true] at hk
    simp only [shiftList, a.keep_spec h.1 st z j hk.1, keepList_spec t h.2 st z j hk.2]
end

end
end Ra
