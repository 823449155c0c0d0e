import Verif.Model.LenTree
import Verif.Props.Slice
/-!
# C43 for array subscripts
-/

namespace Ra.Spec

section
variable {m : Type → Type} {α : Type} [Monad m] [IndexLike α]

mutual
/-- The value of an integer expression when `ra::len` is `n`. The first argument of `pick` selects among the others. -/
def lenValue (n : Int) : LenExpr → Except Fault Int
  | .const x => .ok x
  | .len => .ok n
  | .map op t => do return op (← lenValues n t)
  | .pick t =>
    match t with
    | [] => .error .abort
    | p :: ts => do
      let i ← lenValue n p
      lenPick n 0 i ts
def lenValues (n : Int) : List LenExpr → Except Fault (List Int)
  | [] => .ok []
  | e :: t => do return (← lenValue n e) :: (← lenValues n t)
def lenPick (n : Int) (k i : Int) : List LenExpr → Except Fault Int
  | [] => .error .check
  | e :: t => if i = k then lenValue n e else lenPick n (k+1) i t
end

mutual
/-- The expression when `ra::len` is `n`. -/
def lenMeans (n : Int) : LTree m α → Except Fault (Iter m α)
  | .base t => .ok t
  | .len => .ok (.scalar (pure (ofIdx n)))
  | .node op t => do return .node op (← lenMeansAll n t)
  | .seq k o s => do
    let o ← lenValue n o
    let k ← lenValue n k
    let s ← lenValue n s
    if k < 0 then .error .check else return .cell [⟨k, s⟩] o fun i => pure (ofIdx i)
def lenMeansAll (n : Int) : List (LTree m α) → Except Fault (List (Iter m α))
  | [] => .ok []
  | e :: t => do return (← lenMeans n e) :: (← lenMeansAll n t)
end

/-- The lengths of the axes of the source that the array subscripts apply to. -/
def arrayLens : List Dim → List Sub → List Int
  | _, [] => []
  | dims, .scalar _ :: is => arrayLens (dims.drop 1) is
  | dims, .iota _ _ :: is => arrayLens (dims.drop 1) is
  | dims, .dots (some k) :: is => arrayLens (dims.drop k) is
  | dims, .dots none :: is => arrayLens (dims.drop (dims.length - (is.map fsrc).sum)) is
  | dims, .insert _ :: is => arrayLens dims is
  | dims, .array :: is => (dims.map Dim.len).headD 0 :: arrayLens (dims.drop 1) is

/-- Each of the expressions with `ra::len` as the number that goes with it. -/
def lenMeansEach : List Int → List (LTree m α) → Except Fault (List (Iter m α))
  | n :: ns, e :: es => do return (← lenMeans n e) :: (← lenMeansEach ns es)
  | _, _ => .ok []

end
end Ra.Spec

namespace Ra.Props
open Spec

section
variable {m : Type → Type} {α : Type} [Monad m] [IndexLike α]

mutual
theorem val_subst (n : Int) (e : LenExpr) : (subst n e).val = lenValue n e := by
  cases e with
  | const x => rfl
  | len => rfl
  | map op t => simp only [subst, LenExpr.val, lenValue, vals_substs n t]
  | pick t =>
    cases t with
    | nil => rfl
    | cons p ts =>
      simp only [subst, substs, LenExpr.val, lenValue, val_subst n p]
      cases lenValue n p with
      | error f => rfl
      | ok i => exact pick_substs n 0 i ts
theorem vals_substs (n : Int) (t : List LenExpr) : vals (substs n t) = lenValues n t := by
  cases t with
  | nil => rfl
  | cons e t => simp only [substs, vals, lenValues, val_subst n e, vals_substs n t]
theorem pick_substs (n k i : Int) (t : List LenExpr) : pickVal k i (substs n t) = lenPick n k i t := by
  cases t with
  | nil => rfl
  | cons e t => simp only [substs, pickVal, lenPick, val_subst n e, pick_substs n (k+1) i t]
end

/-- C43. The value of an integer expression with `ra::len` is that of the expression when `ra::len` is the length of the axis. -/
theorem C43_meaning (n : Int) (e : LenExpr) : (e.wlen n).val = lenValue n e := by rw [wlen_eq_subst, val_subst]

theorem val_not_len (n : Int) (e : LenExpr) (h : e.hasLen = false) : e.val = lenValue n e := by
  rw [← val_subst, subst_of_not n e h]

mutual
theorem iter_wlen (n : Int) (e : LTree m α) : (e.wlen n).iter = lenMeans n e := by
  cases e with
  | base t => rfl
  | len => rfl
  | node op t =>
    simp only [LTree.wlen, lenMeans]
    split
    · simp only [LTree.iter, iterAll_wlen n t]
    · next h => simp only [LTree.iter, iterAll_not_len n t (by simpa using h)]
  | seq k o s =>
    simp only [LTree.wlen, lenMeans]
    split
    · simp only [LTree.iter, C43_meaning]
    · next h =>
      simp only [Bool.or_eq_true, not_or, Bool.not_eq_true] at h
      simp only [LTree.iter, val_not_len n k h.1.1, val_not_len n o h.1.2, val_not_len n s h.2]
theorem iterAll_wlen (n : Int) (t : List (LTree m α)) : iterAll (wlenAll n t) = lenMeansAll n t := by
  cases t with
  | nil => rfl
  | cons e t => simp only [wlenAll, iterAll, lenMeansAll, iter_wlen n e, iterAll_wlen n t]
theorem iter_not_len (n : Int) (e : LTree m α) (h : e.hasLen = false) : e.iter = lenMeans n e := by
  cases e with
  | base t => rfl
  | len => simp [LTree.hasLen] at h
  | node op t =>
    simp only [LTree.hasLen] at h
    simp only [LTree.iter, lenMeans, iterAll_not_len n t h]
  | seq k o s =>
    simp only [LTree.hasLen, Bool.or_eq_false_iff] at h
    simp only [LTree.iter, lenMeans, val_not_len n k h.1.1, val_not_len n o h.1.2, val_not_len n s h.2]
theorem iterAll_not_len (n : Int) (t : List (LTree m α)) (h : hasLenAll t = false) : iterAll t = lenMeansAll n t := by
  cases t with
  | nil => rfl
  | cons e t =>
    simp only [hasLenAll, Bool.or_eq_false_iff] at h
    simp only [iterAll, lenMeansAll, iter_not_len n e h.1, iterAll_not_len n t h.2]
end

/-- C43, for expressions of any rank: what replaces an expression with `ra::len` is the expression when `ra::len` is the length. -/
theorem C43_tree (n : Int) (e : LTree m α) : (e.wlen n).iter = lenMeans n e := iter_wlen n e

theorem getD_append_right' {β : Type} (a b : List β) (k : Nat) (d : β) (h : a.length ≤ k) : (a ++ b).getD k d = b.getD (k - a.length) d := by
  simp [List.getD, List.getElem?_append_right h]

theorem lens_shift {bk : Nat} (pre : List Dim) {n : Nat} (hn : pre.length = n) {bv : List Dim} {ds : List Nat} {L : List Int} (h1 : ∀ d ∈ ds, bk + n ≤ d)
    (h2 : ds.map (fun d => (bv.getD (d - (bk + n)) ⟨0, 0⟩).len) = L) : (∀ d ∈ ds, bk ≤ d) ∧ ds.map (fun d => ((pre ++ bv).getD (d - bk) ⟨0, 0⟩).len) = L := by
  subst hn
  refine ⟨fun d hd => by have := h1 d hd; omega, ?_⟩
  rw [← h2]
  apply List.map_congr_left
  intro d hd
  have := h1 d hd
  rw [getD_append_right' pre bv (d - bk) _ (by omega), Nat.sub_sub]

/-- The axes of the beaten view that are left for the arrays have the lengths of the source. -/
theorem fromb_lens (is : List Sub) (pl : Int) (bk : Nat) (dims : List Dim) (cp : Int) (bv : List Dim) (ds : List Nat) (h : fromb pl bk dims is = .ok (cp, bv, ds)) :
    (∀ d ∈ ds, bk ≤ d) ∧ ds.map (fun d => (bv.getD (d - bk) ⟨0, 0⟩).len) = arrayLens dims is := by
  induction is generalizing pl bk dims cp bv ds with
  | nil =>
    simp only [fromb, Except.ok.injEq, Prod.mk.injEq] at h
    obtain ⟨_, _, rfl⟩ := h
    simp [arrayLens]
  | cons i is ih =>
    cases i with
    | scalar e =>
      cases dims with
      | nil => cases h
      | cons d dims =>
        simp only [fromb, bind, Except.bind] at h
        split at h
        · cases h
        · split at h
          · exact ih _ _ _ _ _ _ h
          · cases h
    | iota iz o =>
      cases dims with
      | nil => cases h
      | cons d dims =>
        simp only [fromb, bind, Except.bind] at h
        split at h
        · cases h
        · next iz' hz =>
          split at h
          · cases h
          · split at h
            · cases h
            · split at h
              · cases h
              · next q hq =>
                split at h
                · cases h
                · next r hr =>
                  simp only [pure, Except.pure, Except.ok.injEq, Prod.mk.injEq] at h
                  obtain ⟨_, rfl, rfl⟩ := h
                  obtain ⟨h1, h2⟩ := ih _ _ _ _ _ _ hr
                  exact lens_shift q.2 (length_iotaLoop (pl' := q.1) (b0 := q.2) hq) h1 h2
    | dots n =>
      cases n with
      | none =>
        simp only [fromb, bind, Except.bind] at h
        split at h
        · cases h
        · split at h
          · cases h
          · next r hr =>
            simp only [pure, Except.pure, Except.ok.injEq, Prod.mk.injEq] at h
            obtain ⟨_, rfl, rfl⟩ := h
            obtain ⟨h1, h2⟩ := ih _ _ _ _ _ _ hr
            exact lens_shift _ (by simp) h1 h2
      | some n =>
        simp only [fromb, bind, Except.bind] at h
        split at h
        · cases h
        · split at h
          · cases h
          · next hlt _ r hr =>
            simp only [pure, Except.pure, Except.ok.injEq, Prod.mk.injEq] at h
            obtain ⟨_, rfl, rfl⟩ := h
            obtain ⟨h1, h2⟩ := ih _ _ _ _ _ _ hr
            exact lens_shift _ (by simp; omega) h1 h2
    | insert n =>
      simp only [fromb, bind, Except.bind] at h
      split at h
      · cases h
      · next r hr =>
        simp only [pure, Except.pure, Except.ok.injEq, Prod.mk.injEq] at h
        obtain ⟨_, rfl, rfl⟩ := h
        obtain ⟨h1, h2⟩ := ih _ _ _ _ _ _ hr
        exact lens_shift _ (by simp) h1 h2
    | array =>
      cases dims with
      | nil => cases h
      | cons d dims =>
        simp only [fromb, bind, Except.bind] at h
        split at h
        · cases h
        · next r hr =>
          simp only [pure, Except.pure, Except.ok.injEq, Prod.mk.injEq] at h
          obtain ⟨_, rfl, rfl⟩ := h
          obtain ⟨h1, h2⟩ := ih _ _ _ _ _ _ hr
          obtain ⟨g1, g2⟩ := lens_shift [d] (n := 1) rfl h1 h2
          refine ⟨by simpa using g1, ?_⟩
          simp only [List.map_cons, Nat.sub_self, List.getD_cons_zero, arrayLens, List.headD_cons, List.drop_succ_cons, List.drop_zero]
          congr 1

theorem fromuLen_ok (dims : List Dim) (p : Nat) (ds : List Nat) (es : List (LTree m α)) (hl : es.length = ds.length) (ts : List (Iter m α))
    (h : lenMeansEach (ds.map fun d => (dims.getD d ⟨0, 0⟩).len) es = .ok ts) : fromuLen dims p (ds.zip es) = fromuArgs dims p (ds.zip ts) := by
  induction ds generalizing p es ts with
  | nil => simp [fromuLen, fromuArgs]
  | cons d ds ih =>
    match es, hl with
    | e :: es, hl =>
      simp only [List.map_cons, lenMeansEach, bind, Except.bind, pure, Except.pure] at h
      split at h
      · cases h
      · next t ht =>
        split at h
        · cases h
        · next ts' hts =>
          simp only [Except.ok.injEq] at h
          subst h
          simp only [List.zip_cons_cons, fromuLen, fromuArgs, iter_wlen, ht, ih (d+1) es (by simpa using hl) ts' hts]
          rfl

theorem fromuLen_fails (dims : List Dim) (p : Nat) (ds : List Nat) (es : List (LTree m α)) (hl : es.length = ds.length) (f : Fault)
    (h : lenMeansEach (ds.map fun d => (dims.getD d ⟨0, 0⟩).len) es = .error f) : ∃ f', fromuLen dims p (ds.zip es) = .error f' := by
  induction ds generalizing p es with
  | nil => simp [lenMeansEach] at h
  | cons d ds ih =>
    match es, hl with
    | e :: es, hl =>
      simp only [List.map_cons, lenMeansEach, bind, Except.bind, pure, Except.pure] at h
      simp only [List.zip_cons_cons, fromuLen, iter_wlen, bind, Except.bind]
      cases spacer (m := m) (α := α) dims p d with
      | error f' => exact ⟨f', rfl⟩
      | ok sp =>
        split at h
        · next f' hf => exact ⟨f', by simp only [hf]⟩
        · next t ht =>
          split at h
          · next f' hf =>
            obtain ⟨f'', h2⟩ := ih (d+1) es (by simpa using hl) (by rw [hf]; simpa using h)
            exact ⟨f'', by simp only [ht, h2]⟩
          · cases h

/-- C43. Array subscripts with `ra::len` are the same as the arrays where `ra::len` is the length of the axis that each applies to. -/
theorem C43_arrays [MonadFault m] (v : View) (rd : Int → m α) (is : List Sub) (es : List (LTree m α)) (hl : es.length = (arrayLens v.dims is).length) (ts : List (Iter m α))
    (h : lenMeansEach (arrayLens v.dims is) es = .ok ts) : v.fromArraysLen rd is es = v.fromArrays rd is ts := by
  simp only [View.fromArraysLen, View.fromArrays]
  cases hb : fromb v.cp 0 v.dims is with
  | error f => rfl
  | ok r =>
    obtain ⟨cp, dims, ds⟩ := r
    obtain ⟨_, h2⟩ := fromb_lens is _ _ _ _ _ _ hb
    simp only [Nat.sub_zero] at h2
    rw [← h2] at h hl
    simp only [bind, Except.bind]
    rw [fromuLen_ok dims 0 ds es (by simpa using hl) ts h]

/-- C43. If one of the arrays can't be made when `ra::len` is the length, then neither can the result. -/
theorem C43_arrays_fails [MonadFault m] (v : View) (rd : Int → m α) (is : List Sub) (es : List (LTree m α)) (hl : es.length = (arrayLens v.dims is).length) (f : Fault)
    (h : lenMeansEach (arrayLens v.dims is) es = .error f) : ∃ f', v.fromArraysLen rd is es = .error f' := by
  simp only [View.fromArraysLen]
  cases hb : fromb v.cp 0 v.dims is with
  | error f => exact ⟨f, rfl⟩
  | ok r =>
    obtain ⟨cp, dims, ds⟩ := r
    obtain ⟨_, h2⟩ := fromb_lens is _ _ _ _ _ _ hb
    simp only [Nat.sub_zero] at h2
    rw [← h2] at h hl
    simp only [bind, Except.bind]
    obtain ⟨f', h3⟩ := fromuLen_fails dims 0 ds es (by simpa using hl) f h
    exact ⟨f', by rw [h3]⟩

theorem range_pre {bk : Nat} (a : List Dim) {b : List Dim} {ds : List Nat} {n : Nat} (hn : a.length = n) (h : ds.length ≤ b.length ∧ (ds.length = b.length → ds = List.range' (bk + n) ds.length)) :
    ds.length ≤ (a ++ b).length ∧ (ds.length = (a ++ b).length → ds = List.range' bk ds.length) := by
  obtain ⟨h1, h2⟩ := h
  refine ⟨by simp; omega, fun e => ?_⟩
  simp only [List.length_append] at e
  have : n = 0 := by omega
  subst this
  exact h2 (by omega)

/-- If the arrays take all the axes of the beaten view, then they take them in order. -/
theorem fromb_range (is : List Sub) (pl : Int) (bk : Nat) (dims : List Dim) (cp : Int) (bv : List Dim) (ds : List Nat) (h : fromb pl bk dims is = .ok (cp, bv, ds)) :
    ds.length ≤ bv.length ∧ (ds.length = bv.length → ds = List.range' bk ds.length) := by
  induction is generalizing pl bk dims cp bv ds with
  | nil =>
    simp only [fromb, Except.ok.injEq, Prod.mk.injEq] at h
    obtain ⟨_, _, rfl⟩ := h
    simp
  | cons i is ih =>
    cases i with
    | scalar e =>
      cases dims with
      | nil => cases h
      | cons d dims =>
        simp only [fromb, bind, Except.bind] at h
        split at h
        · cases h
        · split at h
          · exact ih _ _ _ _ _ _ h
          · cases h
    | iota iz o =>
      cases dims with
      | nil => cases h
      | cons d dims =>
        simp only [fromb, bind, Except.bind] at h
        split at h
        · cases h
        · next iz' hz =>
          split at h
          · cases h
          · split at h
            · cases h
            · split at h
              · cases h
              · next q hq =>
                split at h
                · cases h
                · next r hr =>
                  simp only [pure, Except.pure, Except.ok.injEq, Prod.mk.injEq] at h
                  obtain ⟨_, rfl, rfl⟩ := h
                  exact range_pre q.2 (length_iotaLoop (pl' := q.1) (b0 := q.2) hq) (ih _ _ _ _ _ _ hr)
    | dots n =>
      cases n with
      | none =>
        simp only [fromb, bind, Except.bind] at h
        split at h
        · cases h
        · split at h
          · cases h
          · next r hr =>
            simp only [pure, Except.pure, Except.ok.injEq, Prod.mk.injEq] at h
            obtain ⟨_, rfl, rfl⟩ := h
            exact range_pre _ (by simp) (ih _ _ _ _ _ _ hr)
      | some n =>
        simp only [fromb, bind, Except.bind] at h
        split at h
        · cases h
        · split at h
          · cases h
          · next hlt _ r hr =>
            simp only [pure, Except.pure, Except.ok.injEq, Prod.mk.injEq] at h
            obtain ⟨_, rfl, rfl⟩ := h
            exact range_pre _ (by simp; omega) (ih _ _ _ _ _ _ hr)
    | insert n =>
      simp only [fromb, bind, Except.bind] at h
      split at h
      · cases h
      · next r hr =>
        simp only [pure, Except.pure, Except.ok.injEq, Prod.mk.injEq] at h
        obtain ⟨_, rfl, rfl⟩ := h
        exact range_pre _ (by simp) (ih _ _ _ _ _ _ hr)
    | array =>
      cases dims with
      | nil => cases h
      | cons d dims =>
        simp only [fromb, bind, Except.bind] at h
        split at h
        · cases h
        · next r hr =>
          simp only [pure, Except.pure, Except.ok.injEq, Prod.mk.injEq] at h
          obtain ⟨_, rfl, rfl⟩ := h
          obtain ⟨h1, h2⟩ := ih _ _ _ _ _ _ hr
          refine ⟨by simp; omega, fun e => ?_⟩
          simp only [List.length_cons, Nat.add_right_cancel_iff] at e
          simp only [List.length_cons, List.range'_succ]
          rw [← h2 e]

/-- C43, on views of run time rank, when not all the subscripts are arrays. What's missing are those for which all are (`C43_any_negation`). -/
theorem C43_any_partial [MonadFault m] (v : View) (rd : Int → m α) (is : List Sub) (hs : is.all Sub.unbeaten = false) (es : List (LTree m α)) (hl : es.length = (arrayLens v.dims is).length)
    (ts : List (Iter m α)) (h : lenMeansEach (arrayLens v.dims is) es = .ok ts) : v.fromAnyLen rd is es = v.fromAny rd is ts := by
  have hts : ts.length = es.length := by
    generalize arrayLens v.dims is = ns at h hl
    clear hs
    induction es generalizing ns ts with
    | nil => cases ns <;> simp [lenMeansEach] at h <;> simp [← h]
    | cons e es ih =>
      match ns, hl with
      | n :: ns, hl =>
        simp only [lenMeansEach, bind, Except.bind, pure, Except.pure] at h
        split at h
        · cases h
        · split at h
          · cases h
          · next ts' hts =>
            simp only [Except.ok.injEq] at h
            subst h
            simp [ih ts' ns hts (by simpa using hl)]
  simp only [View.fromAnyLen, View.fromAny, hs, Bool.false_eq_true, if_false, hts]
  split
  · next hr =>
    cases hb : fromb v.cp 0 v.dims is with
    | error f => rfl
    | ok r =>
      obtain ⟨cp, dims, ds⟩ := r
      obtain ⟨_, h2⟩ := fromb_lens is _ _ _ _ _ _ hb
      obtain ⟨_, h3⟩ := fromb_range is _ _ _ _ _ _ hb
      have hrank := C13_rank v ⟨dims, cp⟩ is (by simp [View.from, hb, bind, Except.bind, pure, Except.pure])
      simp only [Nat.sub_zero] at h2
      rw [← h2] at h hl
      simp only [List.length_map] at hl
      simp only at hrank
      have h4 := h3 (by omega)
      rw [List.range_eq_range', hl, ← h4]
      simp only [bind, Except.bind]
      rw [fromuLen_ok dims 0 ds es hl ts h]
  · rfl

/-- C43. On views of run time rank, if no array has `ra::len`, then any subscripts mean the same as the arrays themselves. -/
theorem C43_any_none [MonadFault m] (v : View) (rd : Int → m α) (is : List Sub) (hs : is.all Sub.unbeaten = true) (es : List (LTree m α)) (he : hasLenAll es = false) (ts : List (Iter m α))
    (h : lenMeansAll 0 es = .ok ts) : v.fromAnyLen rd is es = v.fromAny rd is ts := by
  rw [← iterAll_not_len 0 es he] at h
  simp only [View.fromAnyLen, View.fromAny, hs, if_true, h]
  split <;> rfl

/-- C43. On views of run time rank, if all the subscripts are arrays and there aren't as many as axes, then the check fails, with or without `ra::len`. -/
theorem C43_any_count [MonadFault m] (v : View) (rd : Int → m α) (is : List Sub) (hs : is.all Sub.unbeaten = true) (hl : is.length ≠ v.dims.length) (es : List (LTree m α)) :
    v.fromAnyLen rd is es = .error .check := by
  simp only [View.fromAnyLen, hs, if_true]
  rw [if_neg (Ne.symm hl)]

/-- B34. C43 fails on views of run time rank when all the subscripts are arrays: `a(len-1-I)` is rejected, for any `a` of rank 1 and any array `I`. -/
theorem C43_any_negation [MonadFault m] (d : Dim) (cp : Int) (rd : Int → m α) (op : List (m α) → m α) (I : Iter m α) :
    (View.mk [d] cp).fromAnyLen rd [.array] [.node op [.len, .base I]] = .error .abort ∧
    ∃ r, (View.mk [d] cp).fromArraysLen rd [.array] [.node op [.len, .base I]] = .ok r := by
  constructor
  · rfl
  · have h : lenMeansEach (arrayLens [d] [.array]) [(.node op [.len, .base I] : LTree m α)] = .ok [.node op [.scalar (pure (ofIdx d.len)), I]] := rfl
    rw [C43_arrays _ rd [.array] _ (by rfl) _ h]
    exact ⟨_, rfl⟩

end

/-- `a(len-1-I, all, J)` for `a` of shape (4, 2, 3), where `I` has 2 elements and `J` is an iota of `len-1`. -/
example : arrayLens [⟨4, 6⟩, ⟨2, 3⟩, ⟨3, 1⟩] [.array, .dots (some 1), .array] = [4, 3] := by rfl
example : (lenMeansEach (m := Except Fault) (α := Int) [4, 3] [.node (mapOp fun x => pure (x.getD 0 0 - 1 - x.getD 1 0)) [.len, .base (.cell [⟨2, 1⟩] 0 pure)],
    .seq (.map (fun x => x.getD 0 0 - 1) [.len]) (.const 0) (.const 1)]).isOk = true := by decide +kernel
example : ((View.mk [⟨4, 6⟩, ⟨2, 3⟩, ⟨3, 1⟩] 0).fromArraysLen (m := Except Fault) (α := Int) pure [.array, .dots (some 1), .array] [.node (mapOp fun x => pure (x.getD 0 0 - 1 - x.getD 1 0))
    [.len, .base (.cell [⟨2, 1⟩] 0 pure)], .seq (.map (fun x => x.getD 0 0 - 1) [.len]) (.const 0) (.const 1)]).isOk = true := by decide +kernel

end Ra.Props
