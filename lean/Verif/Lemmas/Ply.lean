import Verif.Model.Ply
import Verif.Lemmas.At
import Verif.Lemmas.Odometer
/-!
# Traversals visit the row-major indices
-/

set_option linter.unusedSectionVars false

namespace Ra
open Spec (rowMajor search position Valid)

/-- Displacement `v` and then `j` on the axes from `n`. -/
def addAt (v : Nat → Int) (n : Nat) (j : List Int) : Nat → Int := fun k => v k + if n ≤ k then j.getD (k-n) 0 else 0

theorem addAt_nil (v n) : addAt v n [] = v := by
  funext k; simp [addAt]

theorem addAt_cons (v n i j) : addAt v n (i :: j) = addAt (bump v n i) (n+1) j := by
  funext k
  simp only [addAt, bump]
  rcases lt_trichotomy k n with h | h | h
  · simp [show ¬ n ≤ k by omega, show ¬ n + 1 ≤ k by omega, show k ≠ n by omega]
  · subst h; simp
  · obtain ⟨d, rfl⟩ : ∃ d, k = n + 1 + d := ⟨k - (n+1), by omega⟩
    simp [show n ≤ n + 1 + d by omega, show n + 1 + d - n = d + 1 by omega, show n + 1 + d ≠ n by omega]

theorem addAt_append (v n o j) : addAt v n (o ++ j) = addAt (addAt v n o) (n + o.length) j := by
  induction o generalizing v n with
  | nil => simp [addAt_nil]
  | cons i o ih => simp only [List.cons_append, addAt_cons, ih, List.length_cons]; congr 1; omega

theorem addAt_concat (v n o i) : addAt v n (o ++ [i]) = bump (addAt v n o) (n + o.length) i := by
  rw [addAt_append, addAt_cons, addAt_nil]

theorem disp_eq (j) : disp j = addAt (fun _ => 0) 0 j := by
  funext k; simp [disp, addAt]

theorem bump_comm (v : Nat → Int) (j k d e) : bump (bump v j d) k e = bump (bump v k e) j d := by
  funext i; simp only [bump]; split <;> split <;> ring

section
variable {m : Type → Type} {α β : Type}

/-- All the lengths are finite. -/
def Iter.Bounded (a : Iter m α) : Prop := ∀ k : Nat, (k : Int) < a.rank → 0 ≤ a.len k

/-- The shape of a bounded expression. -/
def Iter.natShape (a : Iter m α) : List Nat := a.shape.map Int.toNat

theorem length_shape (a : Iter m α) : a.shape.length = a.rank.toNat := by simp [Iter.shape]
theorem length_natShape (a : Iter m α) : a.natShape.length = a.rank.toNat := by simp [Iter.natShape, Iter.shape]

theorem natShape_get (a : Iter m α) {k : Nat} (h : k < a.rank.toNat) : a.natShape[k]? = some (a.len k).toNat := by
  simp [Iter.natShape, Iter.shape, h]

theorem Iter.Bounded.cast {a : Iter m α} (h : a.Bounded) : a.shape = a.natShape.map fun (n : Nat) => (n : Int) := by
  simp only [Iter.natShape, List.map_map, Iter.shape]
  apply List.map_congr_left
  intro k hk
  have := h k (by simp at hk; omega)
  simp only [Function.comp]
  omega

theorem sizeLoop_neg (l : List Int) (s : Int) (hs : 0 ≤ s) : 0 ≤ sizeLoop l s ↔ ∀ x ∈ l, 0 ≤ x := by
  induction l generalizing s with
  | nil => simpa [sizeLoop] using hs
  | cons a l ih =>
    simp only [sizeLoop, List.mem_cons, forall_eq_or_imp]
    split
    · constructor
      · intro; omega
      · rintro ⟨h, _⟩; omega
    · rw [ih _ (Int.mul_nonneg hs (by omega))]
      constructor
      · intro h; exact ⟨by omega, h⟩
      · intro h; exact h.2

theorem sizeLoop_nat (l : List Nat) (s : Int) : sizeLoop (l.map fun (n : Nat) => (n : Int)) s = s * Spec.size l := by
  induction l generalizing s with
  | nil => simp [sizeLoop, Spec.size]
  | cons a l ih =>
    simp only [List.map_cons, sizeLoop]
    rw [if_neg (by omega), ih, Spec.size]; push_cast; ring

theorem mem_shape {a : Iter m α} {x : Int} : x ∈ a.shape ↔ ∃ k : Nat, k < a.rank.toNat ∧ a.len k = x := by
  simp [Iter.shape]

theorem bounded_iff {a : Iter m α} : a.Bounded ↔ ∀ x ∈ a.shape, 0 ≤ x := by
  constructor
  · intro h x hx
    obtain ⟨k, hk, rfl⟩ := mem_shape.mp hx
    exact h k (by omega)
  · intro h k hk
    exact h _ (mem_shape.mpr ⟨k, by omega, rfl⟩)

theorem validate_iff (a : Iter m α) : a.validate = true ↔ a.Bounded := by
  rw [bounded_iff]
  have h1 : 0 ≤ a.size ↔ ∀ x ∈ a.shape, 0 ≤ x := sizeLoop_neg a.shape 1 (by omega)
  cases a with
  | node op t => simp [Iter.validate, matchCheck, Iter.shape, Iter.rank, Iter.len]
  | _ => simp only [Iter.validate, decide_eq_true_eq, h1]

theorem size_eq {a : Iter m α} (h : a.Bounded) : a.size = Spec.size a.natShape := by
  rw [Iter.size, h.cast, sizeLoop_nat]; simp

theorem ok_of_valid {a : Iter m α} {j : List Int} (hj : Valid a.natShape j) : Ok a j := by
  have hl := hj.length
  rw [length_natShape] at hl
  refine ⟨by omega, fun k hk => Or.inr ?_⟩
  have hk' : k < a.rank.toNat := by omega
  have hg := natShape_get a hk'
  have : ∀ (s : List Nat) (j : List Int) (k n : Nat), Valid s j → s[k]? = some n → 0 ≤ j.getD k 0 ∧ j.getD k 0 < n := by
    intro s
    induction s with
    | nil => intro j k n _ h; simp at h
    | cons b s ih =>
      intro j k n hv h
      cases j with
      | nil => simp [Valid] at hv
      | cons i j =>
        simp only [Valid] at hv
        cases k with
        | zero => simp at h; subst h; simpa using ⟨hv.1, hv.2.1⟩
        | succ k => simpa using ih j k n hv.2.2 (by simpa using h)
  have := this _ _ _ _ hj hg
  omega

variable [Monad m] [LawfulMonad m]

/-- Evaluate the element at a displacement. -/
def evalAt (stop : α → Option β) (a : Iter m α) (v : Nat → Int) : m (Option β) := do
  let x ← (a.shift v).deref
  pure (stop x)

theorem inner_eq (stop : α → Option β) (a : Iter m α) (ha : a.WF) (v : Nat → Int) (z n i : Nat) :
    inner stop (a.step z) n (a.shift (bump v z i)) =
      search (fun p => evalAt stop a (bump v z p)) ((List.range' i n).map fun (i : Nat) => (i : Int)) >>= fun r =>
        match r with
        | none => pure (none, a.shift (bump v z ((i + n : Nat) : Int)))
        | some (b, p) => pure (some b, a.shift (bump v z p)) := by
  induction n generalizing i with
  | zero => simp [inner, search]
  | succ n ih =>
    simp only [inner, List.range'_succ, List.map_cons, search, evalAt, bind_assoc, pure_bind]
    congr 1; funext x
    cases stop x with
    | some b => simp
    | none =>
      have := ih (i+1)
      simp only [a.mov_shift ha, bump_bump]
      push_cast at this
      simp only [this, evalAt]
      congr 1; funext r
      cases r with
      | none => simp only; congr 4; push_cast; ring
      | some x => rfl

/-- Axes from `n` on are the same as axis `z` with the row-major position. -/
def Raveled (a : Iter m α) (z n : Nat) : Prop :=
  ∀ v j, Valid (a.natShape.drop n) j → a.shift (addAt v n j) = a.shift (bump v z (position (a.natShape.drop n) j))

omit [Monad m] [LawfulMonad m] in
theorem drop_shape {a : Iter m α} {n : Nat} (h : n < a.rank.toNat) :
    a.natShape.drop n = (a.len n).toNat :: a.natShape.drop (n+1) := by
  have h1 : n < a.natShape.length := by rw [length_natShape]; exact h
  rw [List.drop_eq_getElem_cons h1]
  congr 1
  have := natShape_get a h
  rw [List.getElem?_eq_getElem h1] at this
  injection this

omit [Monad m] [LawfulMonad m] in
theorem keep_many (a : Iter m α) (ha : a.WF) {st : Int} {z n : Nat} (hk : a.keep st z n = true) (v : Nat → Int) (i : Nat) :
    a.shift (bump v n i) = a.shift (bump v z (i * st)) := by
  induction i with
  | zero => simp [bump_zero]
  | succ i ih =>
    have h1 := a.keep_spec ha st z n hk (bump v n i)
    rw [bump_bump] at h1
    push_cast
    rw [← h1, bump_comm]
    have h2 : ∀ w w' : Nat → Int, a.shift w = a.shift w' → ∀ k d, a.shift (bump w k d) = a.shift (bump w' k d) := by
      intro w w' h k d
      rw [← a.adv_shift ha, ← a.adv_shift ha, h]
    rw [bump_comm, h2 _ _ ih z st, bump_bump]
    congr 2; ring

omit [Monad m] [LawfulMonad m] in
theorem shift_bump_congr (a : Iter m α) (ha : a.WF) {w w' : Nat → Int} (h : a.shift w = a.shift w') (k d) :
    a.shift (bump w k d) = a.shift (bump w' k d) := by
  rw [← a.adv_shift ha, ← a.adv_shift ha, h]

omit [Monad m] [LawfulMonad m] in
theorem compact_spec (a : Iter m α) (ha : a.WF) (hb : a.Bounded) {r : Nat} (hr : a.rank.toNat = r + 1) (n : Nat) (hn : n ≤ r) (ss : Int)
    (hs : ss = Spec.size (a.natShape.drop n)) (hrav : Raveled a r n) :
    (compact a r n ss).1 ≤ n ∧ (compact a r n ss).2 = Spec.size (a.natShape.drop (compact a r n ss).1) ∧
      Raveled a r (compact a r n ss).1 := by
  induction n generalizing ss with
  | zero => exact ⟨by simp [compact], by simpa [compact] using hs, by simpa [compact] using hrav⟩
  | succ n ih =>
    simp only [compact]
    split
    · rename_i hk
      have hd := drop_shape (a := a) (n := n) (by omega)
      have hlen := hb n (by omega)
      have := ih (by omega) (ss * a.len n) (by
          rw [hd, Spec.size, hs]; push_cast; rw [Int.toNat_of_nonneg hlen]; ring) (by
          intro v j hj
          rw [hd] at hj ⊢
          cases j with
          | nil => simp [Valid] at hj
          | cons i j =>
            simp only [Valid] at hj
            rw [addAt_cons, hrav _ _ hj.2.2, bump_comm]
            obtain ⟨i', rfl⟩ : ∃ i' : Nat, i = i' := ⟨i.toNat, by omega⟩
            rw [keep_many a ha hk, bump_bump]
            simp only [position]
            rw [hs]; congr 2; ring)
      exact ⟨by omega, this.2⟩
    · exact ⟨by omega, hs, hrav⟩

omit [Monad m] [LawfulMonad m] in
theorem raveled_init (a : Iter m α) {r : Nat} (hr : a.rank.toNat = r + 1) : Raveled a r r := by
  intro v j hj
  have hd := drop_shape (a := a) (n := r) (by omega)
  have hd' : a.natShape.drop (r+1) = [] := List.drop_eq_nil_of_le (by rw [length_natShape]; omega)
  rw [hd, hd'] at hj ⊢
  match j, hj with
  | [i], _ => simp [addAt_cons, addAt_nil, position, Spec.size]
  | [], hj => simp [Valid] at hj
  | _ :: _ :: _, hj => simp [Valid] at hj

/-- The axes that aren't raveled, innermost first. -/
def outerAxes (a : Iter m α) (n : Nat) : List (Nat × Int) := (List.range n).reverse.map fun o => (o, a.len o)

/-- Their lengths. -/
def outerLens (a : Iter m α) (n : Nat) : List Nat := (List.range n).reverse.map fun o => (a.len o).toNat

omit [Monad m] [LawfulMonad m] in
theorem outerAxes_succ (a : Iter m α) (n : Nat) : outerAxes a (n+1) = (n, a.len n) :: outerAxes a n := by
  simp [outerAxes, List.range_succ]

omit [Monad m] [LawfulMonad m] in
theorem outerLens_succ (a : Iter m α) (n : Nat) : outerLens a (n+1) = (a.len n).toNat :: outerLens a n := by
  simp [outerLens, List.range_succ]

omit [Monad m] [LawfulMonad m] in
theorem outerLens_eq (a : Iter m α) {n : Nat} (h : n ≤ a.rank.toNat) : outerLens a n = (a.natShape.take n).reverse := by
  simp only [outerLens, Iter.natShape, Iter.shape, List.map_map, ← List.map_take, List.map_reverse]
  rw [List.take_range, Nat.min_eq_left h]; rfl

omit [LawfulMonad m] in
theorem carry_eq (a : Iter m α) (ha : a.WF) (n : Nat) (o : List Int) (rest : List Int) (w : Nat → Int) (ho : Valid (outerLens a n) o) :
    carry (outerAxes a n) (o ++ rest) (a.shift (addAt w 0 o.reverse)) =
      match nextIx (outerLens a n) o with
      | some o' => (false, o' ++ rest, a.shift (addAt w 0 o'.reverse))
      | none => (true, List.replicate n 0 ++ rest, a.shift w) := by
  induction n generalizing o with
  | zero =>
    cases o with
    | nil => simp [outerAxes, outerLens, carry, nextIx, addAt_nil]
    | cons i o => simp [outerLens, Valid] at ho
  | succ n ih =>
    rw [outerLens_succ] at ho ⊢
    cases o with
    | nil => simp [Valid] at ho
    | cons i o =>
      simp only [Valid] at ho
      rw [outerAxes_succ]
      have hlen : o.length = n := by rw [ho.2.2.length]; simp [outerLens]
      have hs : ∀ i : Int, addAt w 0 (i :: o).reverse = bump (addAt w 0 o.reverse) n i := by
        intro i; rw [List.reverse_cons, addAt_concat]; simp [hlen]
      simp only [List.cons_append, carry, nextIx, hs]
      by_cases h : i + 1 < a.len n
      · rw [if_pos h, if_pos (by omega)]
        simp only [List.cons_append, hs, a.adv_shift ha, bump_bump]
      · rw [if_neg h, if_neg (by omega), a.adv_shift ha, bump_bump]
        have : i + (1 - a.len n) = 0 := by omega
        rw [this, bump_zero, ih o ho.2.2]
        cases nextIx (outerLens a n) o with
        | none => simp [List.replicate_succ]
        | some o' => simp only [Option.map_some, List.cons_append]; rw [List.reverse_cons, addAt_append, addAt_cons, bump_zero, addAt_nil]

variable [MonadFault m]

omit [LawfulMonad m] [MonadFault m] in
theorem ravelFuel_eq (a : Iter m α) (n : Nat) : ravelFuel (outerAxes a n) = Spec.size (outerLens a n) := by
  induction n with
  | zero => rfl
  | succ n ih => rw [outerAxes_succ, outerLens_succ]; simp [ravelFuel, Spec.size, ih]

theorem ravelLoop_eq (stop : α → Option β) (a : Iter m α) (ha : a.WF) (r n : Nat) (rest : List Int)
    (hrav : Raveled a r n) (l : List (List Int)) :
    ∀ (o : List Int) (fuel : Nat), l.length + 1 ≤ fuel → Chain (nextIx (outerLens a n)) (o :: l) →
    (∀ o' ∈ o :: l, Valid (outerLens a n) o') →
    ravelLoop stop (Spec.size (a.natShape.drop n)) (a.step r) (outerAxes a n) fuel (o ++ rest) (a.shift (disp o.reverse)) =
      search (fun j => evalAt stop a (disp j)) ((o :: l).flatMap fun o => (rowMajor (a.natShape.drop n)).map fun j => o.reverse ++ j)
      >>= fun x => match x with
        | none => pure (none, List.replicate n 0 ++ rest, a)
        | some (b, j) => pure (some b, (j.take n).reverse ++ rest, a.shift (disp j)) := by
  induction l with
  | nil =>
    intro o fuel hf hc hv
    obtain ⟨fuel, rfl⟩ : ∃ f, fuel = f + 1 := ⟨fuel - 1, by omega⟩
    exact ravelStep o [] fuel hc hv (by intro h; simp at h)
  | cons o' l ih =>
    intro o fuel hf hc hv
    obtain ⟨fuel, rfl⟩ : ∃ f, fuel = f + 1 := ⟨fuel - 1, by omega⟩
    refine ravelStep o (o' :: l) fuel hc hv ?_
    intro _
    exact ⟨o', l, rfl, ih o' fuel (by simpa using hf) hc.2 (fun x hx => hv x (List.mem_cons_of_mem _ hx))⟩
where
  ravelStep (o : List Int) (l : List (List Int)) (fuel : Nat) (hc : Chain (nextIx (outerLens a n)) (o :: l))
      (hv : ∀ o' ∈ o :: l, Valid (outerLens a n) o')
      (hrec : l ≠ [] → ∃ o' l', l = o' :: l' ∧
        ravelLoop stop (Spec.size (a.natShape.drop n)) (a.step r) (outerAxes a n) fuel (o' ++ rest) (a.shift (disp o'.reverse)) =
          search (fun j => evalAt stop a (disp j)) (l.flatMap fun o => (rowMajor (a.natShape.drop n)).map fun j => o.reverse ++ j)
          >>= fun x => match x with
            | none => pure (none, List.replicate n 0 ++ rest, a)
            | some (b, j) => pure (some b, (j.take n).reverse ++ rest, a.shift (disp j))) :
    ravelLoop stop (Spec.size (a.natShape.drop n)) (a.step r) (outerAxes a n) (fuel+1) (o ++ rest) (a.shift (disp o.reverse)) =
      search (fun j => evalAt stop a (disp j)) ((o :: l).flatMap fun o => (rowMajor (a.natShape.drop n)).map fun j => o.reverse ++ j)
      >>= fun x => match x with
        | none => pure (none, List.replicate n 0 ++ rest, a)
        | some (b, j) => pure (some b, (j.take n).reverse ++ rest, a.shift (disp j)) := by
    have hov := hv o (by simp)
    have holen : o.reverse.length = n := by rw [List.length_reverse, hov.length]; simp [outerLens]
    have hmove : ∀ j, Valid (a.natShape.drop n) j →
        a.shift (bump (disp o.reverse) r (position (a.natShape.drop n) j)) = a.shift (disp (o.reverse ++ j)) := by
      intro j hj
      rw [← hrav _ _ hj, disp_eq (o.reverse ++ j), addAt_append, holen, disp_eq]; simp
    -- the inner loop
    have hinner : inner stop (a.step r) (Spec.size (a.natShape.drop n)) (a.shift (disp o.reverse)) =
        search (fun j => evalAt stop a (disp (o.reverse ++ j))) (rowMajor (a.natShape.drop n)) >>= fun x =>
          match x with
          | none => pure (none, a.shift (bump (disp o.reverse) r (Spec.size (a.natShape.drop n) : Int)))
          | some (b, j) => pure (some b, a.shift (bump (disp o.reverse) r (position (a.natShape.drop n) j))) := by
      have h0 := inner_eq stop a ha (disp o.reverse) r (Spec.size (a.natShape.drop n)) 0
      rw [← List.range_eq_range', ← Spec.map_position, Spec.search_map] at h0
      simp only [Nat.cast_zero, bump_zero, Nat.zero_add, bind_assoc, pure_bind] at h0
      rw [h0]
      rw [Spec.search_congr (g := fun j => evalAt stop a (disp (o.reverse ++ j)))]
      · congr 1; funext x
        cases x with
        | none => rfl
        | some y => rfl
      · intro j hj
        simp only [evalAt]
        rw [hmove j (Spec.mem_rowMajor.mp hj)]
    have hload : ∀ w, (a.shift w).load (a.shift (disp o.reverse)).save = a.shift (disp o.reverse) := fun w => a.load_save _ _
    simp only [ravelLoop, Int.toNat_natCast, hinner, List.flatMap_cons, Spec.search_append, Spec.search_map, bind_assoc]
    -- replace each stop by the index where it happened
    have hstop : ∀ {γ : Type} (k : Option (β × List Int) → m γ) (k' : Option (β × List Int) → m γ),
        (k none = k' none) → (∀ b j, Valid (a.natShape.drop n) j → k (some (b, j)) = k' (some (b, j))) →
        (search (fun j => evalAt stop a (disp (o.reverse ++ j))) (rowMajor (a.natShape.drop n)) >>= k) =
        (search (fun j => evalAt stop a (disp (o.reverse ++ j))) (rowMajor (a.natShape.drop n)) >>= k') := by
      intro γ k k' hn hs
      have : ∀ l : List (List Int), (∀ j ∈ l, Valid (a.natShape.drop n) j) →
          (search (fun j => evalAt stop a (disp (o.reverse ++ j))) l >>= k) =
          (search (fun j => evalAt stop a (disp (o.reverse ++ j))) l >>= k') := by
        intro l
        induction l with
        | nil => intro _; simp [search, hn]
        | cons j l ih =>
          intro hl
          simp only [search, bind_assoc]
          congr 1; funext x
          cases x with
          | none => exact ih fun j hj => hl j (List.mem_cons_of_mem _ hj)
          | some b => simp only [pure_bind]; exact hs b j (hl j (by simp))
      exact this _ fun j hj => Spec.mem_rowMajor.mp hj
    apply hstop
    · simp only [pure_bind, hload, Option.map_none]
      rw [disp_eq, carry_eq a ha n o rest _ hov]
      have hc1 := hc.1
      cases l with
      | nil =>
        rw [hc1]
        simp [search, Iter.shift_zero]
      | cons o' l =>
        rw [hc1]
        obtain ⟨o'', l', heq, hrec⟩ := hrec (by simp)
        injection heq with h1 h2
        subst h1 h2
        simp only [List.head?_cons]
        rw [← disp_eq, hrec]
        simp
    · intro b j hj
      simp only [pure_bind, Option.map_some, hmove j hj]
      rw [List.take_append_of_le_length (by omega), List.take_of_length_le (by omega), List.reverse_reverse]

omit [Monad m] [LawfulMonad m] [MonadFault m] in
theorem rowMajor_nil_of_zero {s : List Nat} (h : 0 ∈ s) : rowMajor s = [] := by
  induction s with
  | nil => simp at h
  | cons n s ih =>
    rcases List.mem_cons.mp h with h | h
    · subst h; simp [rowMajor]
    · simp [rowMajor, ih h]

omit [Monad m] [LawfulMonad m] [MonadFault m] in
theorem resizeZ_zero {z : List Int} (hz : ∀ i ∈ z, i = 0) (r : Nat) : resizeZ z r = List.replicate r 0 := by
  obtain ⟨k, rfl⟩ : ∃ k, z = List.replicate k 0 := ⟨z.length, List.eq_replicate_of_mem hz⟩
  simp [resizeZ, List.replicate_append_replicate]

/-- Number of axes that `ply_ravel` doesn't ravel. -/
def outerRank (a : Iter m α) : Nat := (compact a (a.rank.toNat - 1) (a.rank.toNat - 1) (a.len (a.rank.toNat - 1))).1

/-- The counters after a traversal. -/
def countersEnd (a : Iter m α) (z : List Int) (x : Option (β × List Int)) : List Int :=
  if a.rank = 0 then z else
    match x with
    | none => List.replicate a.rank.toNat 0
    | some (_, j) => (j.take (outerRank a)).reverse ++ List.replicate (a.rank.toNat - outerRank a) 0

/-- The iterator after a traversal. -/
def iterEnd (a : Iter m α) (x : Option (β × List Int)) : Iter m α :=
  match x with
  | none => a
  | some (_, j) => a.shift (disp j)

theorem plyRavel_eq (stop : α → Option β) (a : Iter m α) (ha : a.WF) (hb : a.Bounded) (z : List Int) (hz : ∀ i ∈ z, i = 0) :
    plyRavel stop z a = search (fun j => evalAt stop a (disp j)) (rowMajor a.natShape)
      >>= fun x => pure (x.map Prod.fst, countersEnd a z x, iterEnd a x) := by
  have hr0 := a.rank_nonneg ha
  rw [plyRavel, if_pos ((validate_iff a).mpr hb)]
  cases hr : a.rank.toNat with
  | zero =>
    have hs : a.natShape = [] := List.eq_nil_of_length_eq_zero (by rw [length_natShape, hr])
    have h0 : a.rank = 0 := by omega
    have hd : disp [] = fun _ => 0 := by funext k; simp [disp]
    simp only [hs, rowMajor, search, evalAt, hd, Iter.shift_zero, bind_assoc, pure_bind, countersEnd, h0, if_true]
    congr 1; funext x
    cases stop x with
    | none => simp [iterEnd]
    | some b => simp [iterEnd, hd, Iter.shift_zero]
  | succ r =>
    have hne : a.rank ≠ 0 := by omega
    simp only []
    rw [resizeZ_zero hz]
    have hd := drop_shape (a := a) (n := r) (by omega)
    have hd' : a.natShape.drop (r+1) = [] := List.drop_eq_nil_of_le (by rw [length_natShape]; omega)
    have hlen := hb r (by omega)
    obtain ⟨hcn, hcs, hcr⟩ := compact_spec a ha hb hr r (by omega) (a.len r)
      (by rw [hd, hd']; simp [Spec.size, Int.toNat_of_nonneg hlen]) (raveled_init a hr)
    have hor : outerRank a = (compact a r r (a.len r)).1 := by simp [outerRank, hr]
    rw [hcs]
    generalize hn : (compact a r r (a.len r)).1 = n at *
    have hsplit : rowMajor a.natShape =
        (rowMajorR (outerLens a n)).flatMap fun o => (rowMajor (a.natShape.drop n)).map fun j => o.reverse ++ j := by
      rw [outerLens_eq a (by omega), rowMajorR_eq, List.reverse_reverse, List.flatMap_map]
      conv_lhs => rw [← List.take_append_drop n a.natShape, Spec.rowMajor_append]
      simp
    have hax : ((List.range n).reverse.map fun o => (o, a.len o)) = outerAxes a n := rfl
    rw [hax]
    by_cases hany : (outerAxes a n).any (fun x => decide (x.2 ≤ 0)) = true
    · rw [if_pos hany]
      have hmem : 0 ∈ a.natShape := by
        simp only [List.any_eq_true, outerAxes, List.mem_map, List.mem_reverse, List.mem_range, decide_eq_true_eq] at hany
        obtain ⟨x, ⟨k, hk, rfl⟩, hx⟩ := hany
        have h1 := natShape_get a (k := k) (by omega)
        have h2 : (a.len k).toNat = 0 := by simp only at hx; omega
        rw [h2] at h1
        exact List.mem_of_getElem? h1
      rw [rowMajor_nil_of_zero hmem]
      simp [search, countersEnd, hne, iterEnd, hr]
    · rw [if_neg hany]
      have hpos : ∀ k ∈ outerLens a n, 0 < k := by
        intro k hk
        simp only [outerLens, List.mem_map, List.mem_reverse, List.mem_range] at hk
        obtain ⟨q, hq, rfl⟩ := hk
        by_contra hneg
        apply hany
        simp only [List.any_eq_true, outerAxes, List.mem_map, List.mem_reverse, List.mem_range, decide_eq_true_eq]
        exact ⟨_, ⟨q, hq, rfl⟩, by simp only; omega⟩
      obtain ⟨l, hl⟩ := head_rowMajorR _ hpos
      have hchain := chain_rowMajorR _ hpos
      have hllen := length_rowMajorR (outerLens a n)
      have hvalid : ∀ o ∈ rowMajorR (outerLens a n), Valid (outerLens a n) o := fun o ho => mem_rowMajorR.mp ho
      rw [hl] at hchain hllen hvalid
      have holen : (outerLens a n).length = n := by simp [outerLens]
      have hfuel : l.length + 1 ≤ ravelFuel (outerAxes a n) := by
        rw [ravelFuel_eq, ← hllen]; simp
      have := ravelLoop_eq stop a ha r n (List.replicate (r+1-n) 0) hcr l _ _ hfuel hchain hvalid
      have hzz : List.replicate n (0 : Int) ++ List.replicate (r+1-n) 0 = List.replicate (r+1) 0 := by
        rw [List.replicate_append_replicate]; congr 1; omega
      rw [holen] at this
      have hd0 : disp (List.replicate n (0 : Int)).reverse = fun _ => 0 := by
        funext k; simp only [disp, List.reverse_replicate, List.getD_eq_getElem?_getD, List.getElem?_replicate]; split <;> rfl
      rw [hd0, Iter.shift_zero, hzz] at this
      rw [this, hsplit, hl, holen]
      congr 1; funext x
      cases x with
      | none => simp [countersEnd, hne, iterEnd, hr]
      | some y => simp [countersEnd, hne, iterEnd, hr, hor]

theorem subplyLoop_eq (stop : α → Option β) (a : Iter m α) (ha : a.WF) (body : Iter m α → m (Option β × Iter m α)) (o : Nat)
    (S : List (List Int))
    (hbody : ∀ w, body (a.shift w) = search (fun j => evalAt stop a (addAt w (o+1) j)) S >>= fun x => match x with
      | none => pure (none, a.shift w)
      | some (b, j) => pure (some b, a.shift (addAt w (o+1) j))) (v : Nat → Int) (n i : Nat) :
    subplyLoop body o n (a.shift (bump v o i)) =
      search (fun j => evalAt stop a (addAt v o j)) ((List.range' i n).flatMap fun (i : Nat) => S.map fun j => (i : Int) :: j)
      >>= fun x => match x with
        | none => pure (none, a.shift (bump v o ((i + n : Nat) : Int)))
        | some (b, j) => pure (some b, a.shift (addAt v o j)) := by
  induction n generalizing i with
  | zero => simp [subplyLoop, search]
  | succ n ih =>
    simp only [subplyLoop, hbody, List.range'_succ, List.flatMap_cons, Spec.search_append, Spec.search_map, bind_assoc, addAt_cons]
    congr 1; funext x
    cases x with
    | some y => simp [addAt_cons]
    | none =>
      have := ih (i+1)
      simp only [pure_bind, a.adv_shift ha, bump_bump, Option.map_none]
      push_cast at this
      rw [this]
      congr 1; funext x
      cases x with
      | none => simp only; congr 4; push_cast; ring
      | some y => rfl

theorem subply_eq (stop : α → Option β) (a : Iter m α) (ha : a.WF) (hb : a.Bounded) {r : Nat} (hr : a.rank.toNat = r + 1) (k : Nat)
    (hk : k ≤ r) (v : Nat → Int) :
    subply stop (r+1) (a.len r) (a.step r) k (a.shift v) =
      search (fun j => evalAt stop a (addAt v (r-k) j)) (rowMajor (a.natShape.drop (r-k))) >>= fun x => match x with
        | none => pure (none, a.shift v)
        | some (b, j) => pure (some b, a.shift (addAt v (r-k) j)) := by
  induction k generalizing v with
  | zero =>
    have hd := drop_shape (a := a) (n := r) (by omega)
    have hd' : a.natShape.drop (r+1) = [] := List.drop_eq_nil_of_le (by rw [length_natShape]; omega)
    have h0 := inner_eq stop a ha v r (a.len r).toNat 0
    have hrm : rowMajor [(a.len r).toNat] = ((List.range (a.len r).toNat).map fun (i : Nat) => (i : Int)).map fun i => [i] := by
      simp only [rowMajor, List.map_cons, List.map_nil, List.map_map]
      rw [List.flatMap_def]
      induction List.range (a.len r).toNat with
      | nil => rfl
      | cons b l ih => simp [ih]
    rw [← List.range_eq_range', Nat.cast_zero, bump_zero] at h0
    simp only [subply, Nat.sub_zero, h0, hd, hd', hrm, bind_assoc]
    generalize (List.range (a.len r).toNat).map (fun (i : Nat) => (i : Int)) = L
    rw [Spec.search_map]
    simp only [addAt_cons, addAt_nil, bind_assoc, pure_bind]
    congr 1; funext x
    cases x with
    | none => simp [a.load_save]
    | some y => simp [addAt_cons, addAt_nil]
  | succ k ih =>
    have ho : r + 1 - 1 - (k + 1) = r - (k+1) := by omega
    have ho' : r - (k + 1) + 1 = r - k := by omega
    have hd := drop_shape (a := a) (n := r - (k+1)) (by omega)
    rw [ho'] at hd
    have hlen := hb (r - (k+1)) (by omega)
    have h0 := subplyLoop_eq stop a ha (subply stop (r+1) (a.len r) (a.step r) k) (r-(k+1)) (rowMajor (a.natShape.drop (r-k)))
      (by rw [ho']; exact fun w => ih (by omega) w) v (a.len (r-(k+1))).toNat 0
    rw [← List.range_eq_range', Nat.cast_zero, bump_zero] at h0
    simp only [subply, ho, a.len_shift, h0, hd, rowMajor, bind_assoc]
    congr 1; funext x
    cases x with
    | none =>
      simp only [pure_bind, a.adv_shift ha, bump_bump, Nat.zero_add, Int.toNat_of_nonneg hlen]
      rw [show a.len (r-(k+1)) + -a.len (r-(k+1)) = 0 by omega, bump_zero]
    | some y => simp

theorem plyFixed_eq (stop : α → Option β) (a : Iter m α) (ha : a.WF) (hb : a.Bounded) :
    plyFixed stop a = search (fun j => evalAt stop a (disp j)) (rowMajor a.natShape)
      >>= fun x => pure (x.map Prod.fst, iterEnd a x) := by
  have hr0 := a.rank_nonneg ha
  rw [plyFixed, if_pos ((validate_iff a).mpr hb)]
  cases hr : a.rank.toNat with
  | zero =>
    have hs : a.natShape = [] := List.eq_nil_of_length_eq_zero (by rw [length_natShape, hr])
    have hd : disp [] = fun _ => 0 := by funext k; simp [disp]
    simp only [hs, rowMajor, search, evalAt, hd, Iter.shift_zero, bind_assoc, pure_bind]
    congr 1; funext x
    cases stop x with
    | none => simp [iterEnd]
    | some b => simp [iterEnd, hd, Iter.shift_zero]
  | succ r =>
    simp only []
    have := subply_eq stop a ha hb hr r (by omega) (fun _ => 0)
    rw [Iter.shift_zero, Nat.sub_self, List.drop_zero] at this
    rw [this]
    simp only [← disp_eq]
    congr 1; funext x
    cases x with
    | none => simp [iterEnd]
    | some y => simp [iterEnd]

/-- Counters of the STL iterator at an index (innermost first). -/
def cdown (s : List Nat) (o : List Int) : List Int := List.zipWith (fun (n : Nat) i => (n : Int) - i) s o

theorem stlNext_eq (a : Iter m α) (ha : a.WF) (hb : a.Bounded) (n : Nat) (hn : n ≤ a.rank.toNat) (o : List Int) (w : Nat → Int)
    (ho : Valid (outerLens a n) o) :
    stlNext (cdown (outerLens a n) o) n (a.shift (addAt w 0 o.reverse)) =
      match nextIx (outerLens a n) o with
      | some o' => (false, cdown (outerLens a n) o', a.shift (addAt w 0 o'.reverse))
      | none => (true, cdown (outerLens a n) (List.replicate n 0), a.shift w) := by
  induction n generalizing o with
  | zero =>
    cases o with
    | nil => simp [outerLens, stlNext, nextIx, addAt_nil, cdown]
    | cons i o => simp [outerLens, Valid] at ho
  | succ n ih =>
    have hlen := hb n (by omega)
    rw [outerLens_succ] at ho ⊢
    cases o with
    | nil => simp [Valid] at ho
    | cons i o =>
      simp only [Valid] at ho
      have holen : o.length = n := by rw [ho.2.2.length]; simp [outerLens]
      have hs : ∀ i : Int, addAt w 0 (i :: o).reverse = bump (addAt w 0 o.reverse) n i := by
        intro i; rw [List.reverse_cons, addAt_concat]; simp [holen]
      simp only [cdown, List.zipWith_cons_cons, stlNext, nextIx, hs]
      by_cases h : i + 1 < a.len n
      · rw [if_pos (by omega), if_pos (by omega)]
        simp only [List.zipWith_cons_cons, hs, a.adv_shift ha, bump_bump]
        congr 2; congr 1; ring
      · rw [if_neg (by omega), if_neg (by omega)]
        simp only [a.len_shift, a.adv_shift ha, bump_bump]
        have : i + (1 - a.len n) = 0 := by omega
        rw [this, bump_zero]
        have := ih (by omega) o ho.2.2
        simp only [cdown] at this
        rw [this]
        cases nextIx (outerLens a n) o with
        | none =>
          simp only [Option.map_none, List.replicate_succ, List.zipWith_cons_cons, Prod.mk.injEq, true_and, and_true,
            List.cons.injEq]
          omega
        | some o' =>
          simp only [Option.map_some, List.zipWith_cons_cons]
          rw [List.reverse_cons, addAt_append, addAt_cons, bump_zero, addAt_nil]
          simp only [Prod.mk.injEq, true_and, and_true, List.cons.injEq]
          omega

theorem stlLoop_eq (f : α → m β) (a : Iter m α) (ha : a.WF) (hb : a.Bounded) (l : List (List Int)) :
    ∀ (o : List Int) (fuel : Nat), l.length + 2 ≤ fuel → Chain (nextIx (outerLens a a.rank.toNat)) (o :: l) →
    (∀ o' ∈ o :: l, Valid (outerLens a a.rank.toNat) o') →
    stlLoop f fuel ⟨a.shift (disp o.reverse), cdown (outerLens a a.rank.toNat) o, false⟩ =
      Spec.forAll (fun o => (a.shift (disp o.reverse)).deref >>= f) (o :: l) := by
  induction l with
  | nil =>
    intro o fuel hf hc hv
    obtain ⟨fuel, rfl⟩ : ∃ f, fuel = f + 2 := ⟨fuel - 2, by simp at hf; omega⟩
    simp only [stlLoop, Spec.forAll, bind_assoc, Stl.next, Iter.rank_shift]
    rw [disp_eq, stlNext_eq a ha hb _ (by omega) o _ (hv o (by simp)), hc.1]
    simp
  | cons o' l ih =>
    intro o fuel hf hc hv
    obtain ⟨fuel, rfl⟩ : ∃ f, fuel = f + 1 := ⟨fuel - 1, by omega⟩
    have := ih o' fuel (by simpa using hf) hc.2 (fun x hx => hv x (List.mem_cons_of_mem _ hx))
    rw [Spec.forAll, ← this]
    simp only [stlLoop, Stl.next, Iter.rank_shift, bind_assoc]
    rw [disp_eq o.reverse, stlNext_eq a ha hb _ (by omega) o _ (hv o (by simp)), hc.1]
    simp [disp_eq]

theorem stlFor_eq (f : α → m β) (a : Iter m α) (ha : a.WF) (hb : a.Bounded) :
    stlFor f a = Spec.forAll (fun j => (a.shift (disp j)).deref >>= f) (rowMajor a.natShape) := by
  have hlens : outerLens a a.rank.toNat = a.natShape.reverse := by
    rw [outerLens_eq a (le_refl _), List.take_of_length_le (by rw [length_natShape])]
  have hrm : rowMajor a.natShape = (rowMajorR (outerLens a a.rank.toNat)).map List.reverse := by
    rw [hlens, rowMajorR_eq, List.reverse_reverse, List.map_map]; simp
  simp only [stlFor, Stl.begin, (validate_iff a).mpr hb, if_true]
  rw [size_eq hb, Int.toNat_natCast]
  by_cases h0 : 0 ∈ a.natShape
  · have hsz : Spec.size a.natShape = 0 := by
      rw [← Spec.length_rowMajor, rowMajor_nil_of_zero h0]; rfl
    rw [hsz, rowMajor_nil_of_zero h0]
    simp [stlLoop, Spec.forAll]
  · have hpos : ∀ k ∈ outerLens a a.rank.toNat, 0 < k := by
      intro k hk
      rw [hlens, List.mem_reverse] at hk
      rcases Nat.eq_zero_or_pos k with h | h
      · subst h; exact absurd hk h0
      · exact h
    obtain ⟨l, hl⟩ := head_rowMajorR _ hpos
    have hchain := chain_rowMajorR _ hpos
    have hllen := length_rowMajorR (outerLens a a.rank.toNat)
    have hvalid : ∀ o ∈ rowMajorR (outerLens a a.rank.toNat), Valid (outerLens a a.rank.toNat) o := fun o ho => mem_rowMajorR.mp ho
    have hszl : Spec.size a.natShape = l.length + 1 := by
      rw [← Spec.length_rowMajor, hrm, List.length_map, hl]; simp
    rw [hrm, Spec.forAll_map]
    rw [hl] at hchain hvalid ⊢
    have := stlLoop_eq f a ha hb l _ (l.length + 1 + 1) (by omega) hchain hvalid
    have hd0 : disp (List.replicate (outerLens a a.rank.toNat).length (0 : Int)).reverse = fun _ => 0 := by
      funext k; simp only [disp, List.reverse_replicate, List.getD_eq_getElem?_getD, List.getElem?_replicate]; split <;> rfl
    rw [hd0, Iter.shift_zero] at this
    rw [← this, hszl]
    have hne : ((((l.length + 1 : Nat)) : Int) == 0) = false := by simp; omega
    rw [hne]
    congr 2
    rw [hb.cast, ← List.map_reverse, ← hlens]
    simp only [cdown]
    generalize outerLens a a.rank.toNat = s
    clear this hne hd0 hszl hvalid hchain hllen hl hpos hrm hlens
    induction s with
    | nil => rfl
    | cons n s ih => simp [List.replicate_succ, ← ih]

end
end Ra
