import Verif.Model.Tls
import Verif.Props.Traversal
/-!
# C65: traversals don't depend on other traversals of the same thread
-/

namespace Ra.Spec
section
variable {σ α : Type}

/-- The action doesn't use the counters of `ply_ravel`. -/
def Untouched (e : TAct σ α) : Prop := ∃ x : σ → Except Fault α × σ, ∀ s z, e (s, z) = ((x s).1, ((x s).2, z))

mutual
/-- The evaluation of the elements of the expression doesn't use the counters of `ply_ravel`. -/
def Quiet : Iter (TAct σ) α → Prop
  | .scalar c => Untouched c
  | .cell _ _ rd => ∀ p, Untouched (rd p)
  | .reframe _ a => Quiet a
  | .node op t => (∀ l, (∀ x ∈ l, Untouched x) → Untouched (op l)) ∧ QuietList t
def QuietList : List (Iter (TAct σ) α) → Prop
  | [] => True
  | a :: t => Quiet a ∧ QuietList t
end

end
end Ra.Spec

namespace Ra.Props
open Spec

section
variable {σ α β : Type}

theorem tact_bind (x : TAct σ α) (f : α → TAct σ β) (s : σ × List Zt) : (x >>= f) s = match x s with
    | (.ok a, s') => f a s'
    | (.error e, s') => (.error e, s') := rfl

theorem tact_pure (a : α) (s : σ × List Zt) : (pure a : TAct σ α) s = (.ok a, s) := rfl

theorem untouched_pure (a : α) : Untouched (pure a : TAct σ α) := ⟨fun s => (.ok a, s), fun _ _ => rfl⟩

theorem untouched_fault (e : Fault) : Untouched (fault e : TAct σ α) := ⟨fun s => (.error e, s), fun _ _ => rfl⟩

theorem untouched_bind {x : TAct σ α} {f : α → TAct σ β} (hx : Untouched x) (hf : ∀ a, Untouched (f a)) : Untouched (x >>= f) := by
  obtain ⟨g, hg⟩ := hx
  choose h hh using hf
  refine ⟨fun s => match g s with
    | (.ok a, s') => h a s'
    | (.error e, s') => (.error e, s'), ?_⟩
  intro s z
  rw [tact_bind, hg]
  rcases hs : g s with ⟨_ | a, s'⟩
  · simp only [hs]
  · simp only [hs, hh]

mutual
theorem quiet_deref (a : Iter (TAct σ) α) (h : Quiet a) : Untouched a.deref := by
  cases a with
  | scalar c => exact h
  | cell d p rd => exact h p
  | reframe d a => exact quiet_deref a h
  | node op t => exact h.1 _ (quiet_derefList t h.2)
theorem quiet_derefList (t : List (Iter (TAct σ) α)) (h : QuietList t) : ∀ x ∈ derefList t, Untouched x := by
  cases t with
  | nil => simp [derefList]
  | cons a t =>
    intro x hx
    simp only [derefList, List.mem_cons] at hx
    rcases hx with rfl | hx
    · exact quiet_deref a h.1
    · exact quiet_derefList t h.2 x hx
end

mutual
theorem quiet_adv (a : Iter (TAct σ) α) (h : Quiet a) (k : Nat) (d : Int) : Quiet (a.adv k d) := by
  cases a with
  | scalar c => exact h
  | cell ds p rd => exact h
  | reframe dest a =>
    simp only [Iter.adv]
    split
    · exact quiet_adv a h _ d
    · exact h
  | node op t => exact ⟨h.1, quiet_advList t h.2 k d⟩
theorem quiet_advList (t : List (Iter (TAct σ) α)) (h : QuietList t) (k : Nat) (d : Int) : QuietList (advList t k d) := by
  cases t with
  | nil => trivial
  | cons a t => exact ⟨quiet_adv a h.1 k d, quiet_advList t h.2 k d⟩
end

mutual
theorem quiet_mov (a : Iter (TAct σ) α) (h : Quiet a) (s : Tree) : Quiet (a.mov s) := by
  cases a with
  | scalar c => simpa only [Iter.mov] using h
  | cell ds p rd => cases s <;> simpa only [Iter.mov, Quiet] using h
  | reframe dest a => simp only [Iter.mov]; exact quiet_mov a h s
  | node op t =>
    cases s with
    | leaf x => simpa only [Iter.mov] using h
    | node s => simp only [Iter.mov]; exact ⟨h.1, quiet_movList t h.2 s⟩
theorem quiet_movList (t : List (Iter (TAct σ) α)) (h : QuietList t) (s : List Tree) : QuietList (movList t s) := by
  cases t with
  | nil => simp [movList, QuietList]
  | cons a t =>
    cases s with
    | nil => simpa only [movList] using h
    | cons x s => simp only [movList]; exact ⟨quiet_mov a h.1 x, quiet_movList t h.2 s⟩
end

mutual
theorem quiet_load (a : Iter (TAct σ) α) (h : Quiet a) (s : Tree) : Quiet (a.load s) := by
  cases a with
  | scalar c => simpa only [Iter.load] using h
  | cell ds p rd => cases s <;> simpa only [Iter.load, Quiet] using h
  | reframe dest a => simp only [Iter.load]; exact quiet_load a h s
  | node op t =>
    cases s with
    | leaf x => simpa only [Iter.load] using h
    | node s => simp only [Iter.load]; exact ⟨h.1, quiet_loadList t h.2 s⟩
theorem quiet_loadList (t : List (Iter (TAct σ) α)) (h : QuietList t) (s : List Tree) : QuietList (loadList t s) := by
  cases t with
  | nil => simp [loadList, QuietList]
  | cons a t =>
    cases s with
    | nil => simpa only [loadList] using h
    | cons x s => simp only [loadList]; exact ⟨quiet_load a h.1 x, quiet_loadList t h.2 s⟩
end

theorem quiet_inner (stop : α → Option β) (ss0 : Tree) (n : Nat) (a : Iter (TAct σ) α) (h : Quiet a) :
    ∃ x : σ → Except Fault (Option β × Iter (TAct σ) α) × σ, (∀ s z, inner stop ss0 n a (s, z) = ((x s).1, ((x s).2, z))) ∧
      ∀ s r, (x s).1 = .ok r → Quiet r.2 := by
  induction n generalizing a with
  | zero => exact ⟨fun s => (.ok (none, a), s), fun _ _ => rfl, by rintro s r ⟨⟩; exact h⟩
  | succ n ih =>
    obtain ⟨d, hd⟩ := quiet_deref a h
    obtain ⟨y, hy, hq⟩ := ih (a.mov ss0) (quiet_mov a h ss0)
    refine ⟨fun s => match d s with
      | (.ok v, s') => (match stop v with
        | some b => (.ok (some b, a), s')
        | none => y s')
      | (.error e, s') => (.error e, s'), ?_, ?_⟩
    · intro s z
      rw [inner, tact_bind, hd]
      rcases hds : d s with ⟨_ | v, s'⟩
      · simp only [hds]
      · simp only [hds]
        cases stop v with
        | none => exact hy s' z
        | some b => rfl
    · intro s r
      simp only []
      rcases d s with ⟨_ | v, s'⟩
      · rintro ⟨⟩
      · simp only []
        cases stop v with
        | none => exact hq s' r
        | some b => rintro ⟨⟩; exact h

/-- The vector has the axes in order, as `ply_ravel` leaves them. -/
def OrderOk (r : Nat) (Z : List Zt) : Prop := Z.length = r + 1 ∧ ∀ i (h : i < Z.length), Z[i].order = r - i

theorem order_set {r : Nat} {Z : List Zt} (h : OrderOk r Z) (k : Nat) (x : Zt) (hx : x.order = r - k) : OrderOk r (Z.set k x) := by
  refine ⟨by rw [List.length_set, h.1], ?_⟩
  intro i hi
  rw [List.getElem_set]
  split
  · next e => subst e; exact hx
  · exact h.2 i (by simpa using hi)

theorem order_get {r n : Nat} {Z : List Zt} (h : OrderOk r Z) (hn : n ≤ r) {k : Nat} (hk : k < n) :
    ∃ zk o, Z[k]? = some zk ∧ Z[r + 1 - n + k]? = some o ∧ zk.order = r - k ∧ o.order = n - 1 - k := by
  have h1 : k < Z.length := by rw [h.1]; omega
  have h2 : r + 1 - n + k < Z.length := by rw [h.1]; omega
  refine ⟨Z[k], Z[r + 1 - n + k], List.getElem?_eq_getElem h1, List.getElem?_eq_getElem h2, h.2 k h1, ?_⟩
  rw [h.2 _ h2]
  omega

theorem ind_set (Z : List Zt) (k : Nat) (x : Zt) : (Z.set k x).map Zt.ind = (Z.map Zt.ind).set k x.ind := by
  rw [List.map_set]

theorem shaZ_sim (a : Iter (TAct σ) α) (r n : Nat) (hn : n ≤ r) (s : σ) (q k : Nat) (hq : k + q = n) (Z : List Zt) (hZ : OrderOk r Z)
    (hs : ∀ i (h : i < Z.length), i < k → Z[i].sha = a.len (n - 1 - i)) :
    ∃ Z', shaZ a (r + 1 - n) q k (s, Z) = (.ok ((outerAxes a q).any fun x => decide (x.2 ≤ 0)), (s, Z')) ∧ OrderOk r Z' ∧ Z'.map Zt.ind = Z.map Zt.ind ∧
      (¬ (outerAxes a q).any (fun x => decide (x.2 ≤ 0)) = true → ∀ i (h : i < Z'.length), i < n → Z'[i].sha = a.len (n - 1 - i)) := by
  induction q generalizing k Z with
  | zero =>
    refine ⟨Z, rfl, hZ, rfl, ?_⟩
    intro _ i hi hin
    exact hs i hi (by omega)
  | succ q ih =>
    obtain ⟨zk, o, h1, h2, h3, h4⟩ := order_get hZ hn (k := k) (by omega)
    have ho : o.order = q := by omega
    have hax : outerAxes a (q+1) = (q, a.len q) :: outerAxes a q := outerAxes_succ a q
    have hstep : shaZ a (r + 1 - n) (q+1) k (s, Z) =
        (if a.len o.order ≤ 0 then pure true else shaZ a (r + 1 - n) q (k+1) : TAct σ Bool) (s, Z.set k { zk with sha := a.len o.order }) := by
      rw [shaZ, tact_bind]
      simp only [TAct.getZ, h1, h2]
      rw [tact_bind]
      rfl
    rw [hstep, hax, ho]
    have hind : (Z.set k { zk with sha := a.len q }).map Zt.ind = Z.map Zt.ind := by
      rw [ind_set]
      have : (Z.map Zt.ind)[k]? = some zk.ind := by rw [List.getElem?_map, h1]; rfl
      obtain ⟨hk, he⟩ := List.getElem?_eq_some_iff.mp this
      simp only
      rw [← he, List.set_getElem_self]
    have hord := order_set hZ k { zk with sha := a.len q } h3
    by_cases h0 : a.len q ≤ 0
    · refine ⟨_, by rw [if_pos h0, tact_pure]; simp [h0], hord, hind, ?_⟩
      intro hne
      exact absurd (by simp [h0]) hne
    · rw [if_neg h0]
      obtain ⟨Z', e1, e2, e3, e4⟩ := ih (k+1) (by omega) (Z.set k { zk with sha := a.len q }) hord (by
        intro i hi hik
        rw [List.getElem_set]
        split
        · next e => subst e; simp only; congr 1; omega
        · exact hs i (by simpa using hi) (by omega))
      refine ⟨Z', by rw [e1]; simp [h0], e2, by rw [e3, hind], ?_⟩
      intro hne
      apply e4
      simpa [h0] using hne

theorem carryZ_sim (L : Nat → Int) (r n : Nat) (hn : n ≤ r) (s : σ) (q k : Nat) (hq : k + q = n) (a : Iter (TAct σ) α) (Z : List Zt) (hZ : OrderOk r Z)
    (hs : ∀ i (h : i < Z.length), i < n → Z[i].sha = L (n - 1 - i)) :
    ∃ Z', carryZ (r + 1 - n) q k a (s, Z) = (.ok ((carry ((List.range q).reverse.map fun o => (o, L o)) ((Z.map Zt.ind).drop k) a).1,
        (carry ((List.range q).reverse.map fun o => (o, L o)) ((Z.map Zt.ind).drop k) a).2.2), (s, Z')) ∧ OrderOk r Z' ∧
      Z'.map Zt.ind = (Z.map Zt.ind).take k ++ (carry ((List.range q).reverse.map fun o => (o, L o)) ((Z.map Zt.ind).drop k) a).2.1 ∧
      (∀ i (h : i < Z'.length), i < n → Z'[i].sha = L (n - 1 - i)) ∧
      (Quiet a → Quiet (carry ((List.range q).reverse.map fun o => (o, L o)) ((Z.map Zt.ind).drop k) a).2.2) := by
  induction q generalizing k a Z with
  | zero => exact ⟨Z, rfl, hZ, by simp [carry], hs, fun h => h⟩
  | succ q ih =>
    obtain ⟨zk, o, h1, h2, h3, h4⟩ := order_get hZ hn (k := k) (by omega)
    have ho : o.order = q := by omega
    have hax : ((List.range (q+1)).reverse.map fun o => (o, L o)) = (q, L q) :: ((List.range q).reverse.map fun o => (o, L o)) := by
      simp [List.range_succ]
    obtain ⟨hk, he⟩ := List.getElem?_eq_some_iff.mp h1
    have hki : k < (Z.map Zt.ind).length := by simpa using hk
    have hgi : (Z.map Zt.ind)[k] = zk.ind := by rw [List.getElem_map, he]
    have hsha : zk.sha = L q := by
      rw [← he, hs k hk (by omega)]
      congr 1; omega
    have hdrop : (Z.map Zt.ind).drop k = zk.ind :: (Z.map Zt.ind).drop (k+1) := by
      rw [List.drop_eq_getElem_cons hki, hgi]
    have hset : ∀ x : Int, (Z.set k { zk with ind := x }).map Zt.ind = (Z.map Zt.ind).take k ++ x :: (Z.map Zt.ind).drop (k+1) := by
      intro x
      rw [ind_set, List.set_eq_take_append_cons_drop, if_pos hki]
    have hsha' : ∀ x : Int, ∀ i (h : i < (Z.set k { zk with ind := x }).length), i < n → (Z.set k { zk with ind := x })[i].sha = L (n - 1 - i) := by
      intro x i hi hin
      rw [List.getElem_set]
      split
      · next e => subst e; rw [← hs _ hk hin, he]
      · exact hs i (by simpa using hi) hin
    rw [hax, hdrop]
    simp only [carry]
    have hstep : carryZ (r + 1 - n) (q+1) k a (s, Z) =
        if zk.ind + 1 < zk.sha then (.ok (false, a.adv o.order 1), (s, Z.set k { zk with ind := zk.ind + 1 }))
        else carryZ (r + 1 - n) q (k+1) (a.adv o.order (1 - zk.sha)) (s, Z.set k { zk with ind := 0 }) := by
      rw [carryZ, tact_bind]
      simp only [TAct.getZ, h1, h2]
      split
      · rw [tact_bind]; rfl
      · rw [tact_bind]; rfl
    rw [hstep, ho, ← hsha]
    by_cases hc : zk.ind + 1 < zk.sha
    · rw [if_pos hc, if_pos hc]
      exact ⟨_, rfl, order_set hZ k _ h3, hset _, hsha' _, fun h => quiet_adv a h _ _⟩
    · rw [if_neg hc, if_neg hc]
      obtain ⟨Z', e1, e2, e3, e4, e5⟩ := ih (k+1) (by omega) (a.adv q (1 - zk.sha)) (Z.set k { zk with ind := 0 }) (order_set hZ k _ h3) (hsha' 0)
      have hd' : ((Z.set k { zk with ind := 0 }).map Zt.ind).drop (k+1) = (Z.map Zt.ind).drop (k+1) := by
        rw [hset]
        have hl : ((Z.map Zt.ind).take k).length = k := by rw [List.length_take]; omega
        rw [List.drop_append, hl]
        simp [List.drop_eq_nil_of_le (as := (Z.map Zt.ind).take k) (i := k + 1) (by omega)]
      have ht' : ((Z.set k { zk with ind := 0 }).map Zt.ind).take (k+1) = (Z.map Zt.ind).take k ++ [0] := by
        rw [hset]
        have hl : ((Z.map Zt.ind).take k).length = k := by rw [List.length_take]; omega
        rw [List.take_append, hl]
        simp [List.take_of_length_le (l := (Z.map Zt.ind).take k) (i := k + 1) (by omega)]
      rw [hd'] at e1 e3 e5
      rw [ht'] at e3
      refine ⟨Z', e1, e2, ?_, e4, fun h => e5 (quiet_adv a h _ _)⟩
      rw [e3]
      simp

theorem ravelLoopZ_sim (stop : α → Option β) (ss : Int) (ss0 : Tree) (L : Nat → Int) (r n : Nat) (hn : n ≤ r) (z0 : List Zt) (fuel : Nat) :
    ∀ (s : σ) (a : Iter (TAct σ) α) (_ : Quiet a) (Z : List Zt) (_ : OrderOk r Z) (_ : ∀ i (h : i < Z.length), i < n → Z[i].sha = L (n - 1 - i)),
    ∃ Z', match ravelLoop stop ss ss0 ((List.range n).reverse.map fun o => (o, L o)) fuel (Z.map Zt.ind) a (s, z0) with
      | (.ok (b, zi, _), (s', _)) => ravelLoopZ stop ss ss0 (r + 1 - n) n fuel a (s, Z) = (.ok b, (s', Z')) ∧ Z'.map Zt.ind = zi
      | (.error e, (s', _)) => ravelLoopZ stop ss ss0 (r + 1 - n) n fuel a (s, Z) = (.error e, (s', Z')) := by
  induction fuel with
  | zero => intro s a _ Z _ _; exact ⟨Z, rfl⟩
  | succ fuel ih =>
    intro s a ha Z hZ hs
    obtain ⟨x, hx, hq⟩ := quiet_inner stop ss0 ss.toNat a ha
    simp only [ravelLoop, ravelLoopZ, tact_bind, hx]
    rcases hxs : x s with ⟨_ | ⟨b, a'⟩, s'⟩
    · exact ⟨Z, rfl⟩
    · cases b with
      | some b => exact ⟨Z, rfl, rfl⟩
      | none =>
        have ha' : Quiet (a'.load a.save) := quiet_load a' (hq s (none, a') (by rw [hxs])) _
        obtain ⟨Z1, e1, e2, e3, e4, e5⟩ := carryZ_sim L r n hn s' n 0 (by omega) (a'.load a.save) Z hZ hs
        simp only [List.drop_zero, List.take_zero, List.nil_append] at e1 e3 e5
        simp only [tact_bind, e1]
        generalize hc : carry ((List.range n).reverse.map fun o => (o, L o)) (Z.map Zt.ind) (a'.load a.save) = c at e1 e3 e5 ⊢
        cases hc1 : c.1 with
        | true => exact ⟨Z1, rfl, e3⟩
        | false =>
          have := ih s' c.2.2 (e5 ha') Z1 e2 e4
          rw [e3] at this
          exact this

/-- More iterations than needed make no difference. -/
theorem ravelLoop_fuel {m : Type → Type} [Monad m] [LawfulMonad m] [MonadFault m] (stop : α → Option β) (a : Iter m α) (ha : a.WF) (hb : a.Bounded) {r : Nat}
    (hr : a.rank.toNat = r + 1) (hpos' : ¬ (outerAxes a (compact a r r (a.len r)).1).any (fun x => decide (x.2 ≤ 0)) = true) (fuel : Nat)
    (hf : ravelFuel (outerAxes a (compact a r r (a.len r)).1) ≤ fuel) :
    ravelLoop stop (compact a r r (a.len r)).2 (a.step r) (outerAxes a (compact a r r (a.len r)).1) fuel (List.replicate (r+1) 0) a =
    ravelLoop stop (compact a r r (a.len r)).2 (a.step r) (outerAxes a (compact a r r (a.len r)).1) (ravelFuel (outerAxes a (compact a r r (a.len r)).1)) (List.replicate (r+1) 0) a := by
  have hd := drop_shape (a := a) (n := r) (by omega)
  have hd' : a.natShape.drop (r+1) = [] := List.drop_eq_nil_of_le (by rw [length_natShape]; omega)
  have hlen := hb r (by omega)
  obtain ⟨hcn, hcs, hcr⟩ := compact_spec a ha hb hr r (by omega) (a.len r)
    (by rw [hd, hd']; simp [Spec.size, Int.toNat_of_nonneg hlen]) (raveled_init a hr)
  rw [hcs]
  generalize hn : (compact a r r (a.len r)).1 = n at *
  have hpos : ∀ k ∈ outerLens a n, 0 < k := by
    intro k hk
    simp only [outerLens, List.mem_map, List.mem_reverse, List.mem_range] at hk
    obtain ⟨q, hq, rfl⟩ := hk
    by_contra hneg
    apply hpos'
    simp only [List.any_eq_true, outerAxes, List.mem_map, List.mem_reverse, List.mem_range, decide_eq_true_eq]
    exact ⟨_, ⟨q, hq, rfl⟩, by simp only; omega⟩
  obtain ⟨l, hl⟩ := head_rowMajorR _ hpos
  have hchain := chain_rowMajorR _ hpos
  have hllen := length_rowMajorR (outerLens a n)
  have hvalid : ∀ o ∈ rowMajorR (outerLens a n), Valid (outerLens a n) o := fun o ho => mem_rowMajorR.mp ho
  rw [hl] at hchain hvalid hllen
  rw [ravelFuel_eq] at hf ⊢
  have hol : (outerLens a n).length = n := by simp [outerLens]
  have hsplit : List.replicate (r+1) (0 : Int) = List.replicate (outerLens a n).length 0 ++ List.replicate (r + 1 - n) 0 := by
    rw [hol, List.replicate_append_replicate]; congr 1; omega
  have hd0 : disp (List.replicate (outerLens a n).length (0 : Int)).reverse = fun _ => 0 := by
    funext k; simp only [disp, List.reverse_replicate, List.getD_eq_getElem?_getD, List.getElem?_replicate]; split <;> rfl
  have h1 := ravelLoop_eq stop a ha r n (List.replicate (r + 1 - n) 0) hcr l _ fuel (by simp at hllen; omega) hchain hvalid
  have h2 := ravelLoop_eq stop a ha r n (List.replicate (r + 1 - n) 0) hcr l _ (Spec.size (outerLens a n)) (by simp at hllen; omega) hchain hvalid
  rw [hd0, Iter.shift_zero, ← hsplit] at h1 h2
  rw [h1, h2]

theorem inds_zero {Z : List Zt} (h : ∀ x ∈ Z, x.ind = 0) : ∀ i ∈ Z.map Zt.ind, i = 0 := by
  intro i hi
  obtain ⟨x, hx, rfl⟩ := List.mem_map.mp hi
  exact h x hx

theorem resize_inds (Z : List Zt) (r : Nat) : (orderZ r (resizeZt Z r)).map Zt.ind = resizeZ (Z.map Zt.ind) r := by
  apply List.ext_getElem
  · simp [orderZ, resizeZt, resizeZ]
  · intro i h1 h2
    simp [orderZ, resizeZt, resizeZ, List.getElem_append]
    split <;> simp_all

theorem resize_order (Z : List Zt) (r : Nat) : OrderOk r (orderZ (r+1) (resizeZt Z (r+1))) := by
  refine ⟨by simp [orderZ, resizeZt], ?_⟩
  intro i hi
  simp only [orderZ, List.getElem_mapIdx]
  omega

/-- C65 when the counters are as a completed traversal leaves them and the elements don't use them. The traversal evaluates the elements in row-major order until one stops or fails,
and it has the result and the effects that this says. If it's completed, then the counters are zero for the next one. What's missing: if it's not completed (an exception, or an early
stop, as in `C09_negation`) then the counters may be different from zero, and the next traversal isn't correct (`C65_exception_negation`); and elements whose evaluation runs another
traversal of the same type (`C65_nested_negation`). -/
theorem C65_partial (stop : α → Option β) (a : Iter (TAct σ) α) (s : List Nat) (h : HasShape a (s.map some)) (hq : Quiet a) (st : σ) (z : List Zt)
    (hz : ∀ x ∈ z, x.ind = 0) (fuel : Nat) (hf : ∀ n, size (s.take n) ≤ fuel) :
    (plyRavelZ fuel stop a (st, z)).1 = (search (fun j => do let x ← elem a j; pure (stop x)) (rowMajor s) (st, z)).1.map (Option.map Prod.fst) ∧
    (plyRavelZ fuel stop a (st, z)).2.1 = (search (fun j => do let x ← elem a j; pure (stop x)) (rowMajor s) (st, z)).2.1 ∧
    ((plyRavelZ fuel stop a (st, z)).1 = .ok none → ∀ x ∈ (plyRavelZ fuel stop a (st, z)).2.2, x.ind = 0) := by
  have ha := h.wf
  have hb := h.bounded
  have key : ∃ Z', match plyRavel stop (z.map Zt.ind) a (st, z) with
      | (.ok (b, zi, _), (s', _)) => plyRavelZ fuel stop a (st, z) = (.ok b, (s', Z')) ∧ Z'.map Zt.ind = zi
      | (.error e, (s', _)) => plyRavelZ fuel stop a (st, z) = (.error e, (s', Z')) := by
    rw [plyRavel, plyRavelZ, if_pos ((validate_iff a).mpr hb), if_pos ((validate_iff a).mpr hb)]
    cases hr : a.rank.toNat with
    | zero =>
      obtain ⟨d, hd⟩ := quiet_deref a hq
      simp only [tact_bind, hd]
      rcases d st with ⟨_ | v, s'⟩
      · exact ⟨z, rfl⟩
      · exact ⟨z, rfl, rfl⟩
    | succ r =>
      simp only [tact_bind, TAct.getZ, TAct.setZ]
      have hcn : (compact a r r (a.len r)).1 ≤ r := by
        have hd := drop_shape (a := a) (n := r) (by omega)
        have hd' : a.natShape.drop (r+1) = [] := List.drop_eq_nil_of_le (by rw [length_natShape]; omega)
        have hlen := hb r (by omega)
        exact (compact_spec a ha hb hr r (by omega) (a.len r)
          (by rw [hd, hd']; simp [Spec.size, Int.toNat_of_nonneg hlen]) (raveled_init a hr)).1
      obtain ⟨Z1, e1, e2, e3, e4⟩ := shaZ_sim a r _ hcn st (compact a r r (a.len r)).1 0 (by omega) _ (resize_order z r) (by simp)
      rw [resize_inds, resizeZ_zero (inds_zero hz)] at e3
      rw [e1, resizeZ_zero (inds_zero hz)]
      have hax : ((List.range (compact a r r (a.len r)).1).reverse.map fun o => (o, a.len o)) = outerAxes a (compact a r r (a.len r)).1 := rfl
      rw [hax]
      by_cases hany : (outerAxes a (compact a r r (a.len r)).1).any (fun x => decide (x.2 ≤ 0)) = true
      · simp only [hany, if_true]
        exact ⟨Z1, rfl, e3⟩
      · simp only [hany, Bool.false_eq_true, if_false]
        have hfuel : ravelFuel (outerAxes a (compact a r r (a.len r)).1) ≤ fuel := by
          rw [ravelFuel_eq, outerLens_eq a (by omega)]
          have h1 : Spec.size (a.natShape.take (compact a r r (a.len r)).1).reverse = Spec.size (a.natShape.take (compact a r r (a.len r)).1) := by
            rw [← length_rowMajorR, rowMajorR_eq, List.length_map, List.reverse_reverse, length_rowMajor]
          rw [h1]
          rw [h.natShape]
          exact hf _
        rw [← ravelLoop_fuel stop a ha hb hr hany fuel hfuel, ← e3]
        exact ravelLoopZ_sim stop _ (a.step r) a.len r _ hcn z fuel st a hq Z1 e2 (e4 hany)
  obtain ⟨Z', hk⟩ := key
  rw [plyRavel_eq stop a ha hb _ (inds_zero hz), h.natShape, evalAt_elem, tact_bind] at hk
  generalize (search (fun j => do let x ← elem a j; pure (stop x)) (rowMajor s) : TAct σ _) (st, z) = q at hk ⊢
  generalize plyRavelZ fuel stop a (st, z) = p at hk ⊢
  obtain ⟨_ | x, s', z'⟩ := q
  · replace hk : p = _ := hk
    rw [hk]
    exact ⟨rfl, rfl, by simp⟩
  · replace hk : p = (.ok (x.map Prod.fst), (s', Z')) ∧ Z'.map Zt.ind = countersEnd a (z.map Zt.ind) x := hk
    rw [hk.1]
    refine ⟨rfl, rfl, ?_⟩
    intro hx
    simp only [Except.ok.injEq, Option.map_eq_none_iff] at hx
    subst hx
    intro y hy
    have : y.ind ∈ countersEnd a (z.map Zt.ind) (none : Option (β × List Int)) := by
      rw [← hk.2]; exact List.mem_map_of_mem hy
    unfold countersEnd at this
    split at this
    · exact inds_zero hz _ this
    · exact (List.mem_replicate.mp this).2

/-- A function that logs its argument, and that may fail on 3. -/
def visitZ (bad : Bool) (p : Int) : TAct (List Int) Unit := fun s => if bad ∧ p = 3 then (.error .check, s) else (.ok (), (s.1 ++ [p], s.2))

/-- That function on the elements 0, 1, 3, 4 of a 2x2 view with a gap between rows. -/
def gapZ (bad : Bool) : Iter (TAct (List Int)) Unit := .cell [⟨2, 3⟩, ⟨2, 1⟩] 0 (visitZ bad)

theorem gapZ_quiet (bad : Bool) : Quiet (gapZ bad) := by
  intro p
  refine ⟨fun s => if bad ∧ p = 3 then (.error .check, s) else (.ok (), s ++ [p]), ?_⟩
  intro s z
  simp only [visitZ]
  split <;> rfl

theorem gapZ_shape (bad : Bool) : HasShape (gapZ bad) ([2, 2].map some) := .cons rfl (.cons rfl .nil)

/-- The hypotheses of `C65_partial` for a traversal that fails in the middle. -/
example : (plyRavelZ (β := Unit) 4 never (gapZ true) ([], [])).1 = .error .check ∧ (plyRavelZ (β := Unit) 4 never (gapZ true) ([], [])).2.1 = [0, 1] := by
  have h := C65_partial (β := Unit) never (gapZ true) [2, 2] (gapZ_shape true) (gapZ_quiet true) [] [] (by simp) 4
    (by intro n; rcases n with _ | _ | n <;> simp [size])
  exact ⟨h.1.trans rfl, h.2.1.trans rfl⟩

/-- C65 after a failure: whatever another traversal `a` did, the traversal of `b` visits all the elements. -/
def VisitsAfter (a b : Iter (TAct (List Int)) Unit) (s : List Nat) (fuel : Nat) : Prop :=
  (forEachZ fuel b ([], (forEachZ fuel a ([], [])).2.2)).2.1 = (forAll (fun j => elem b j) (rowMajor s) ([], [])).2.1

/-- C65 is false of the code after a failure. The function fails on the third element of the first traversal; the second traversal visits only the first row and returns as if nothing
happened. -/
theorem C65_exception_negation :
    ¬ ∀ (a b : Iter (TAct (List Int)) Unit) (s : List Nat) (fuel : Nat), HasShape a (s.map some) → HasShape b (s.map some) → Quiet a → Quiet b → (∀ n, size (s.take n) ≤ fuel) →
      VisitsAfter a b s fuel := by
  intro h
  have h1 := h (gapZ true) (gapZ false) [2, 2] 4 (gapZ_shape _) (gapZ_shape _) (gapZ_quiet _) (gapZ_quiet _) (by intro n; rcases n with _ | _ | n <;> simp [size])
  have h2 : (forEachZ 4 (gapZ false) ([], (forEachZ 4 (gapZ true) ([], [])).2.2)).2.1 = [0, 1] := rfl
  have h3 : (forAll (fun j => elem (gapZ false) j) (rowMajor [2, 2]) (([], []) : List Int × List Zt)).2.1 = [0, 1, 3, 4] := rfl
  rw [VisitsAfter, h2, h3] at h1
  simp at h1

/-- Log the address and do a traversal of another view; or fail, outside of the array. -/
def nestZ (p : Int) : TAct (List Int) Unit := do
  if 0 ≤ p ∧ p < 5 then visitZ false (100 + p) else fault .ub
  forEachZ 4 (gapZ false)

/-- A traversal with other traversals inside of it. -/
def outerZ : Iter (TAct (List Int)) Unit := .cell [⟨2, 3⟩, ⟨2, 1⟩] 0 nestZ

/-- C65 is false of the code for traversals inside of others. The inner traversal at the third element visits one row only, and the outer one continues outside of the array. -/
theorem C65_nested_negation :
    (forAll (fun j => elem outerZ j) (rowMajor [2, 2]) (([], []) : List Int × List Zt)).1 = .ok () ∧
    (forEachZ 4 outerZ ([], [])).1 = .error .ub ∧
    (forEachZ 4 outerZ ([], [])).2.1 = [100, 0, 1, 3, 4, 101, 0, 1, 3, 4, 103, 0, 1, 104, 0, 1, 3, 4] := by
  refine ⟨?_, ?_, ?_⟩ <;> decide +kernel

end
end Ra.Props
