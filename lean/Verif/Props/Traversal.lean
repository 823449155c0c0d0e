import Verif.Lemmas.Shape
/-!
# Traversal of expressions: C05-C10

`HasShape a (s.map some)` says that `a` is a valid expression with finite shape `s` (Spec/Elem.lean), `rowMajor s` are the indices of that
shape in row-major order, and `elem a j` is the action of evaluating element `j` of `a` (Spec/Index.lean, Spec/Elem.lean).

The equations are between programs in an arbitrary lawful monad `m`, so they fix which elements are evaluated, how many times, and in
which order.
-/
set_option linter.unusedSectionVars false

namespace Ra.Props
open Spec (HasShape rowMajor search forAll elem Valid)

variable {m : Type → Type} [Monad m] [LawfulMonad m] [MonadFault m] {α β : Type}

theorem evalAt_elem (stop : α → Option β) (a : Iter m α) :
    (fun j => evalAt stop a (disp j)) = fun j => (do let x ← elem a j; pure (stop x)) := by
  funext j; simp only [evalAt, Iter.deref_shift]

/-! ## An expression to try the hypotheses on -/

/-- `A + b + 7 + transposed(c)` with `A` of shape 2x3 in column-major order, `b` of shape 2 with negative step, and `c` of shape 3 moved to
axis 1. -/
def exTree (op : List (m α) → m α) (rd : Int → m α) (c : m α) : Iter m α :=
  .node op [.cell [⟨2, 1⟩, ⟨3, 2⟩] 0 rd, .cell [⟨2, -1⟩] 1 rd, .scalar c, .reframe [1] (.cell [⟨3, 5⟩] 3 rd)]

theorem exTree_shape (op : List (m α) → m α) (rd : Int → m α) (c : m α) : HasShape (exTree op rd c) ([2, 3].map some) := by
  refine ⟨[[some 2, some 3], [some 2], [], [none, some 3]], ?_, ?_⟩
  · refine ⟨_, _, rfl, ?_, _, _, rfl, ?_, _, _, rfl, ?_, _, _, rfl, ?_, rfl⟩
    · exact .cons rfl (.cons rfl .nil)
    · exact .cons rfl .nil
    · rfl
    · refine ⟨by simp, [some 3], .cons rfl .nil, by simp, by simp, by simp, ?_, ?_⟩
      · intro l k h
        rcases l with _ | l
        · simp at h; subst h; rfl
        · simp at h
      · intro k hk hk'
        simp at hk hk'
        have : k = 0 := by omega
        subst this; rfl
  · refine ⟨by simp, ⟨[some 2, some 3], by simp, rfl⟩, ?_⟩
    intro k n
    rcases k with _ | _ | k <;> simp

/-! ## C05 -/

/-- C05. From clean counters, a dynamic traversal (`for_each` on an expression of dynamic size) evaluates each element once, in row-major
order. `hz` holds for the first traversal in a thread (the counters start at 0) and after any completed one, see `C05_history`. -/
theorem C05_ravel_visits (a : Iter m α) (s : List Nat) (h : HasShape a (s.map some)) (z : List Int) (hz : ∀ i ∈ z, i = 0) :
    (do let _ ← plyRavel (β := β) never z a; pure ()) = forAll (elem a) (rowMajor s) := by
  rw [plyRavel_eq _ a h.wf h.bounded z hz, h.natShape, evalAt_elem]
  have := Spec.search_none (β := β) (elem a) (rowMajor s)
  simp only [never] at this ⊢
  rw [this]
  simp

/-- Run `for_each` on each expression, one after the other. They share the thread local counters `z` of one instantiation. -/
def forEachAll : List Int → List (Iter m α) → m Unit
  | _, [] => pure ()
  | z, a :: as => do
    let r ← plyRavel (β := Unit) never z a
    forEachAll r.2.1 as

/-- C05 for any sequence of traversals of the same type in a thread: any ranks and shapes, each visits all its elements once in row-major
order. -/
theorem C05_history (as : List (Iter m α × List Nat)) (h : ∀ p ∈ as, HasShape p.1 (p.2.map some)) (z : List Int) (hz : ∀ i ∈ z, i = 0) :
    forEachAll z (as.map Prod.fst) = forAll (fun p => forAll (elem p.1) (rowMajor p.2)) as := by
  induction as generalizing z with
  | nil => rfl
  | cons p as ih =>
    have hp := h p (by simp)
    simp only [List.map_cons, forEachAll, forAll]
    rw [plyRavel_eq _ p.1 hp.wf hp.bounded z hz, hp.natShape, evalAt_elem]
    have := Spec.search_none (β := Unit) (elem p.1) (rowMajor p.2)
    simp only [never] at this ⊢
    rw [this]
    simp only [bind_assoc, pure_bind]
    congr 1; funext _
    rw [← ih (fun q hq => h q (List.mem_cons_of_mem _ hq)) (countersEnd p.1 z none)]
    unfold countersEnd
    split
    · exact hz
    · intro i hi; exact (List.mem_replicate.mp hi).2

example (op : List (m α) → m α) (rd : Int → m α) (c : m α) :
    (do let _ ← plyRavel (β := Unit) never [0, 0, 0, 0] (exTree op rd c); pure ())
      = forAll (elem (exTree op rd c)) [[0, 0], [0, 1], [0, 2], [1, 0], [1, 1], [1, 2]] :=
  C05_ravel_visits _ _ (exTree_shape op rd c) _ (by simp)

/-! ## C06 -/

/-- C06. A static traversal evaluates each element once, in row-major order. -/
theorem C06_fixed_visits (a : Iter m α) (s : List Nat) (h : HasShape a (s.map some)) :
    (do let _ ← plyFixed (β := β) never a; pure ()) = forAll (elem a) (rowMajor s) := by
  rw [plyFixed_eq _ a h.wf h.bounded, h.natShape, evalAt_elem]
  have := Spec.search_none (β := β) (elem a) (rowMajor s)
  simp only [never] at this ⊢
  rw [this]
  simp

/-- C06. The two traversals have the same effects and the same result, also with early stops. -/
theorem C06_fixed_eq_ravel (stop : α → Option β) (a : Iter m α) (s : List Nat) (h : HasShape a (s.map some)) (z : List Int)
    (hz : ∀ i ∈ z, i = 0) : ply false stop z a = ply true stop z a := by
  simp only [ply, plyRavel_eq _ a h.wf h.bounded z hz, plyFixed_eq _ a h.wf h.bounded, bind_assoc, pure_bind]
  rfl

example (op : List (m α) → m α) (rd : Int → m α) (c : m α) :
    (do let _ ← plyFixed (β := Unit) never (exTree op rd c); pure ())
      = forAll (elem (exTree op rd c)) [[0, 0], [0, 1], [0, 2], [1, 0], [1, 1], [1, 2]] :=
  C06_fixed_visits _ _ (exTree_shape op rd c)

/-! ## C07 -/

/-- C07, dynamic. A traversal without early stop gives back the same iterator, position included. -/
theorem C07_ravel_restores (a : Iter m α) (s : List Nat) (h : HasShape a (s.map some)) (z : List Int) (hz : ∀ i ∈ z, i = 0) :
    (do let r ← plyRavel (β := β) never z a; pure r.2.2) = (do forAll (elem a) (rowMajor s); pure a) := by
  rw [plyRavel_eq _ a h.wf h.bounded z hz, h.natShape, evalAt_elem]
  have := Spec.search_none (β := β) (elem a) (rowMajor s)
  simp only [never] at this ⊢
  rw [this]
  simp [iterEnd]

/-- C07, static. -/
theorem C07_fixed_restores (a : Iter m α) (s : List Nat) (h : HasShape a (s.map some)) :
    (do let r ← plyFixed (β := β) never a; pure r.2) = (do forAll (elem a) (rowMajor s); pure a) := by
  rw [plyFixed_eq _ a h.wf h.bounded, h.natShape, evalAt_elem]
  have := Spec.search_none (β := β) (elem a) (rowMajor s)
  simp only [never] at this ⊢
  rw [this]
  simp [iterEnd]

/-- C07. Traversing an iterator twice visits its elements twice. -/
theorem C07_twice (a : Iter m α) (s : List Nat) (h : HasShape a (s.map some)) (z : List Int) (hz : ∀ i ∈ z, i = 0) :
    (do let r ← plyRavel (β := β) never z a; let _ ← plyRavel (β := β) never z r.2.2; pure ()) =
    (do forAll (elem a) (rowMajor s); forAll (elem a) (rowMajor s)) := by
  have h1 := C07_ravel_restores (β := β) a s h z hz
  have h2 := C05_ravel_visits (β := β) a s h z hz
  calc _ = (do let b ← (do let r ← plyRavel (β := β) never z a; pure r.2.2); (do let _ ← plyRavel (β := β) never z b; pure ())) := by simp
    _ = _ := by rw [h1]; simp only [bind_assoc, pure_bind, h2]

example (op : List (m α) → m α) (rd : Int → m α) (c : m α) :=
  C07_twice (β := Unit) _ _ (exTree_shape op rd c) [0, 0, 0, 0] (by simp)

/-! ## C08 -/

/-- C08. `early` gives the first value that stops in row-major order, and evaluates nothing after it; if there is none, it evaluates
everything and gives the default. -/
theorem C08_early (dyn : Bool) (stop : α → Option β) (a : Iter m α) (s : List Nat) (h : HasShape a (s.map some)) (dft : β)
    (z : List Int) (hz : ∀ i ∈ z, i = 0) :
    earlyOf dyn stop z a dft = (do
      let r ← search (fun j => do let x ← elem a j; pure (stop x)) (rowMajor s)
      match r with
      | some (b, _) => pure b
      | none => pure dft) := by
  have hx : ∀ r : Option (β × List Int),
      (match r with | some (b, _) => pure b | none => pure dft : m β) = pure ((r.map Prod.fst).getD dft) := by
    intro r; cases r <;> rfl
  cases dyn
  · simp only [earlyOf, ply, plyFixed_eq _ a h.wf h.bounded, h.natShape, evalAt_elem, bind_assoc, pure_bind, hx]
    simp
  · simp only [earlyOf, ply, plyRavel_eq _ a h.wf h.bounded z hz, h.natShape, evalAt_elem, bind_assoc, pure_bind, hx]
    simp

/-- `search` at work: with pure elements, it is the first item that stops. -/
theorem search_pure {ι : Type} (f : ι → Option β) (l : List ι) :
    search (m := m) (fun i => pure (f i)) l = pure ((l.find? fun i => (f i).isSome).bind fun i => (f i).map fun b => (b, i)) := by
  induction l with
  | nil => rfl
  | cons i l ih =>
    simp only [search, pure_bind, List.find?_cons]
    cases hf : f i with
    | none => simp [ih]
    | some b => simp [hf]

example (op : List (m α) → m α) (rd : Int → m α) (c : m α) (stop : α → Option β) (dft : β) :=
  C08_early true stop _ _ (exTree_shape op rd c) dft [0, 0, 0, 0] (by simp)

/-! ## C09 -/

/-- Reductions with early stop, one after the other in a thread, on expressions of the same type. -/
def reduceAll (stop : α → Option β) : List Int → List (Iter m α) → m (List (Option β))
  | _, [] => pure []
  | z, a :: as => do
    let r ← plyRavel stop z a
    let rs ← reduceAll stop r.2.1 as
    pure (r.1 :: rs)

/-- The elements of a 2x2 view with a gap between rows are 0, 1, 3, 4, and the search is for 3. -/
def exGap : Iter (Except Fault) Int := .cell [⟨2, 3⟩, ⟨2, 1⟩] 0 pure
def exStop : Int → Option Int := fun x => if x = 3 then some x else none

/-- C09 is false of the code. Two equal reductions in sequence, and the second one doesn't find what the first one did. The first one
leaves a counter at 1 when it stops in the second row, so the next traversal thinks that it's in the last row when it's in the first. -/
theorem C09_fails : reduceAll exStop [0, 0, 0, 0] [exGap, exGap] = .ok [some 3, none] := by rfl

/-- C09 as it should be: each reduction gives what it gives by itself. -/
def HistoryIndependent (stop : α → Option β) (z : List Int) : Prop :=
  ∀ as : List (Iter m α × List Nat), (∀ p ∈ as, HasShape p.1 (p.2.map some)) →
    reduceAll stop z (as.map Prod.fst) = as.mapM fun p => do let r ← plyRavel stop [0, 0, 0, 0] p.1; pure r.1

theorem C09_negation : ¬ HistoryIndependent (m := Except Fault) exStop [0, 0, 0, 0] := by
  intro h
  have hs : HasShape exGap ([2, 2].map some) := .cons rfl (.cons rfl .nil)
  have h1 := h [(exGap, [2, 2]), (exGap, [2, 2])] (by intro p hp; simp at hp; subst hp; exact hs)
  have h2 := C09_fails
  simp only [List.map_cons, List.map_nil] at h1
  rw [h2] at h1
  have h3 : ([(exGap, [2, 2]), (exGap, [2, 2])] : List (Iter (Except Fault) Int × List Nat)).mapM
    (fun p => do let r ← plyRavel exStop [0, 0, 0, 0] p.1; pure r.1) = .ok [some 3, some 3] := by rfl
  rw [h3] at h1
  injection h1 with h1
  simp at h1

/-- It can be worse: the second reduction can read outside of the array. The array is 2x2x2 in column-major order, the elements are at
addresses 0 to 7 and reading elsewhere is undefined behaviour. -/
def exCol : Iter (Except Fault) Int :=
  .cell [⟨2, 1⟩, ⟨2, 2⟩, ⟨2, 4⟩] 0 fun p => if 0 ≤ p ∧ p < 8 then .ok p else .error .ub

theorem C09_outside :
    reduceAll (fun x => if x = 2 then some x else none) [0, 0, 0, 0] [exCol] = .ok [some 2] ∧
    reduceAll (fun x => if x = 2 then some x else none) [0, 0, 0, 0] [exCol, exCol] = .error .ub := by
  constructor <;> rfl

/-- All the views in the expression go through memory with a fixed step in row-major order (eg arrays in default storage order),
`s` being the shape. -/
def Contiguous (s : List Nat) : Iter m α → Prop
  | .scalar _ => True
  | .cell dims _ _ => dims.length = s.length ∧ ∀ k, k < s.length → stepOf dims k = Spec.size (s.drop (k+1)) * stepOf dims (s.length - 1)
  | _ => False

/-- A view or a map over contiguous views. -/
def AllContiguous (s : List Nat) : Iter m α → Prop
  | .node _ t => ∀ a ∈ t, Contiguous s a
  | a => Contiguous s a

theorem keep_contiguous (s : List Nat) (a : Iter m α) (h : AllContiguous s a) (k : Nat) (hk : k < s.length) :
    a.keep (Spec.size (s.drop (k+1))) (s.length - 1) k = true := by
  have h1 : ∀ a : Iter m α, Contiguous s a → a.keep (Spec.size (s.drop (k+1))) (s.length - 1) k = true := by
    intro a h
    match a, h with
    | .scalar _, _ => rfl
    | .cell dims cp rd, h =>
      simp only [Iter.keep, beq_iff_eq]
      exact (h.2 k hk).symm
  match a, h with
  | .scalar c, h => exact h1 _ h
  | .cell dims cp rd, h => exact h1 _ h
  | .reframe dest a, h => exact absurd h (by simp [AllContiguous, Contiguous])
  | .node op t, h =>
    simp only [AllContiguous] at h
    simp only [Iter.keep]
    induction t with
    | nil => rfl
    | cons b t ih =>
      simp only [keepList, Bool.and_eq_true]
      exact ⟨h1 b (h b (by simp)), ih fun x hx => h x (List.mem_cons_of_mem _ hx)⟩

theorem outerRank_contiguous (a : Iter m α) (s : List Nat) (h : HasShape a (s.map some)) (hc : AllContiguous s a) : outerRank a = 0 := by
  have hr : a.rank.toNat = s.length := by rw [h.fits.1]; simp
  have hlen : ∀ k (hk : k < s.length), a.len k = s[k] := by
    intro k hk
    have := h.fits.len (k := k) (o := some s[k]) (by simp [hk])
    simpa [lenVal] using this
  have : ∀ n, n < s.length → (compact a (s.length - 1) n (Spec.size (s.drop n))).1 = 0 := by
    intro n
    induction n with
    | zero => intro _; rfl
    | succ n ih =>
      intro hn
      simp only [compact]
      rw [if_pos (keep_contiguous s a hc n (by omega)), hlen n (by omega)]
      have hd : s.drop n = s[n] :: s.drop (n+1) := List.drop_eq_getElem_cons (by omega)
      have := ih (by omega)
      rw [hd, Spec.size] at this
      rw [← this]
      push_cast
      rw [Int.mul_comm]
  rw [outerRank, hr]
  rcases Nat.eq_zero_or_pos s.length with h0 | h0
  · rw [h0]; rfl
  · have h1 := this (s.length - 1) (by omega)
    rw [hlen _ (by omega)]
    have hd : s.drop (s.length - 1) = [s[s.length - 1]] := by
      rw [List.drop_eq_getElem_cons (by omega), List.drop_eq_nil_of_le (by omega)]
    rw [hd] at h1
    simpa [Spec.size] using h1

/-- C09, the part that holds: for contiguous arrays (or rank 0 or 1), or when nothing stops, any sequence of reductions gives each the result
that it gives by itself, namely the first stop in row-major order.
Missing: expressions where not all the axes can be raveled, for which it's false (`C09_negation`). -/
theorem C09_partial (stop : α → Option β) (as : List (Iter m α × List Nat)) (h : ∀ p ∈ as, HasShape p.1 (p.2.map some))
    (hc : (∀ p ∈ as, AllContiguous p.2 p.1) ∨ stop = never) (z : List Int) (hz : ∀ i ∈ z, i = 0) :
    reduceAll stop z (as.map Prod.fst) = as.mapM (fun p => do
      let r ← search (fun j => do let x ← elem p.1 j; pure (stop x)) (rowMajor p.2)
      pure (r.map Prod.fst)) := by
  induction as generalizing z with
  | nil => rfl
  | cons p as ih =>
    have hp := h p (by simp)
    have ih' := fun z' hz' => ih (fun q hq => h q (List.mem_cons_of_mem _ hq))
      (hc.imp (fun hc q hq => hc q (List.mem_cons_of_mem _ hq)) id) z' hz'
    simp only [List.map_cons, List.mapM_cons, reduceAll]
    rw [plyRavel_eq _ p.1 hp.wf hp.bounded z hz, hp.natShape, evalAt_elem]
    simp only [bind_assoc, pure_bind]
    rcases hc with hc | hc
    · congr 1; funext x
      rw [ih']
      have ho := outerRank_contiguous p.1 p.2 hp (hc p (by simp))
      unfold countersEnd
      split
      · exact hz
      · intro i hi
        cases x with
        | none => exact (List.mem_replicate.mp hi).2
        | some y =>
          simp only [ho, List.take_zero, List.reverse_nil, List.nil_append] at hi
          exact (List.mem_replicate.mp hi).2
    · subst hc
      have := Spec.search_none (β := β) (elem p.1) (rowMajor p.2)
      simp only [never] at this ⊢
      rw [this]
      simp only [bind_assoc, pure_bind]
      congr 1; funext x
      have h2 := ih' (countersEnd p.1 z (none : Option (β × List Int))) (by
        unfold countersEnd
        split
        · exact hz
        · intro i hi; exact (List.mem_replicate.mp hi).2)
      simp only [never] at h2
      rw [h2]

/-- A 2x2 array in storage order meets the hypothesis. -/
example : AllContiguous (m := Except Fault) (α := Int) [2, 2] (.cell [⟨2, 2⟩, ⟨2, 1⟩] 0 pure) := by
  refine ⟨rfl, ?_⟩
  intro k hk
  rcases k with _ | _ | k
  · decide
  · decide
  · simp only [List.length_cons, List.length_nil] at hk; omega

/-! ## C10 -/

/-- C10. A range-for loop runs its body on each element once, in row-major order. -/
theorem C10_stl_visits (f : α → m β) (a : Iter m α) (s : List Nat) (h : HasShape a (s.map some)) :
    stlFor f a = forAll (fun j => do let x ← elem a j; f x) (rowMajor s) := by
  rw [stlFor_eq f a h.wf h.bounded, h.natShape]
  congr 1
  funext j
  rw [a.deref_shift]

example (op : List (m α) → m α) (rd : Int → m α) (c : m α) (f : α → m β) :
    stlFor f (exTree op rd c) = forAll (fun j => do let x ← elem (exTree op rd c) j; f x)
      [[0, 0], [0, 1], [0, 2], [1, 0], [1, 1], [1, 2]] :=
  C10_stl_visits f _ _ (exTree_shape op rd c)

end Ra.Props
