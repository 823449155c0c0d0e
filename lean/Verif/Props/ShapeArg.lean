import Verif.Model.ShapeArg
import Verif.Props.Static
import Verif.Props.Nested
import Verif.Props.Array
/-!
# C105: shapes and indices that are given by expressions
-/

namespace Ra.Spec

/-- The elements of `p`, along its axis, are `xs`. They're read in memory `μ`, and they're the same whatever the dims that are being filled. -/
def GivesLens {V : Type} (p : Iter (DimAct V) Int) (μ : Mem V) (xs : List Int) : Prop :=
  ∀ (k : Nat) (x : Int), xs[k]? = some x → ∀ dv : List Dim, elem p [(k : Int)] (dv, μ) = (.ok x, (dv, μ))

/-- `p` gives the lengths `xs` for something with static rank `rk`: it's a list of that many lengths, or it's as long as needed, or it's a single length. -/
def GivesShape {V : Type} (rk : Option Nat) (p : Iter (DimAct V) Int) (μ : Mem V) (xs : List Int) : Prop :=
  (HasShape p [some xs.length] ∨ (HasShape p [none] ∧ rk = some xs.length) ∨ (HasShape p [] ∧ xs.length = 1)) ∧ GivesLens p μ xs ∧ ∀ r, rk = some r → xs.length = r

/-- An expression with shape `s` cannot be the shape of something with static rank `rk`: it isn't a list or a single length, or it doesn't say the rank, or its length isn't the rank. -/
def NoShapeFor (rk : Option Nat) (s : List Length) : Prop :=
  2 ≤ s.length ∨ (s = [none] ∧ rk = none) ∨ (∃ n r : Nat, s = [some n] ∧ rk = some r ∧ n ≠ r) ∨ (s = [] ∧ ∃ r : Nat, rk = some r ∧ r ≠ 1)

/-- The elements of the index `p` are `xs`, read in memory `μ`. -/
def GivesIndex {V : Type} (p : Iter (Act V) Int) (μ : Mem V) (xs : List Int) : Prop := ∀ (k : Nat) (x : Int), xs[k]? = some x → elem p [(k : Int)] μ = (.ok x, μ)

end Ra.Spec

namespace Ra.Props
open Spec

section
variable {V α β : Type}

theorem DimAct.bind_def (x : DimAct V α) (f : α → DimAct V β) (s : List Dim × Mem V) : (x >>= f) s = match x s with | (.ok a, s') => f a s' | (.error e, s') => (.error e, s') := rfl

theorem disp_one (k : Int) : disp [k] = bump (fun _ => 0) 0 k := by
  funext i
  rcases i with _ | i <;> simp [disp, bump]

theorem disp_zero : disp [0] = disp [] := by
  funext i
  rcases i with _ | i <;> simp [disp]

theorem elem_origin {m : Type → Type} {α : Type} (p : Iter m α) : elem p [0] = elem p [] := by
  rw [← Iter.deref_shift, ← Iter.deref_shift, disp_zero]

theorem shift_next {m : Type → Type} {α : Type} (p : Iter m α) (h : p.WF) (k : Nat) : (p.shift (disp [(k : Int)])).mov ((p.shift (disp [(k : Int)])).step 0) = p.shift (disp [((k + 1 : Nat) : Int)]) := by
  rw [Iter.step_shift, Iter.mov_shift p h, disp_one, disp_one, bump_bump]
  push_cast
  rfl

/-- The dims after `l` is put in. -/
def putLen (l : Int) (d : Dim) : Dim := ⟨l, d.step⟩

theorem fillLens_eq (p : Iter (DimAct V) Int) (hp : p.WF) (μ : Mem V) (x : Nat → Int) (n k : Nat) (dv : List Dim) (hl : dv.length = k + n)
    (hx : ∀ i, k ≤ i → i < k + n → ∀ dv' : List Dim, dv'.length = dv.length → dv'.drop i = dv.drop i → elem p [(i : Int)] (dv', μ) = (.ok (x i), (dv', μ))) :
    fillLens k n (p.shift (disp [(k : Int)])) (dv, μ) = (.ok (), (dv.take k ++ List.zipWith putLen ((List.range' k n).map x) (dv.drop k), μ)) := by
  induction n generalizing k dv with
  | zero => simp [fillLens, pure, List.range', show dv.length ≤ k by omega]
  | succ n ih =>
    have hk : k < dv.length := by omega
    simp only [fillLens, DimAct.bind_def, Iter.deref_shift, hx k (by omega) (by omega) dv rfl rfl, shift_next p hp, DimAct.setLen]
    rw [ih (k+1) _ (by rw [List.length_modify]; omega) (fun i hi hi' dv' h1 h2 => hx i (by omega) (by omega) dv' (by rw [h1, List.length_modify]) (by
      rw [h2]
      refine List.ext_getElem? fun j => ?_
      simp only [List.getElem?_drop, List.getElem?_modify]
      simp [show k ≠ i + j by omega]))]
    refine Prod.ext rfl (Prod.ext ?_ rfl)
    simp only
    rw [List.modify_eq_take_cons_drop hk, List.range'_succ]
    have h1 : (List.take k dv ++ putLen (x k) dv[k] :: List.drop (k+1) dv).take (k+1) = List.take k dv ++ [putLen (x k) dv[k]] := by
      rw [List.take_append]
      simp [Nat.min_eq_left hk.le, List.take_of_length_le]
    have h2 : (List.take k dv ++ putLen (x k) dv[k] :: List.drop (k+1) dv).drop (k+1) = List.drop (k+1) dv := by
      rw [List.drop_append]
      simp [Nat.min_eq_left hk.le, List.drop_of_length_le]
    show (List.take k dv ++ putLen (x k) dv[k] :: List.drop (k+1) dv).take (k+1) ++ List.zipWith putLen _ ((List.take k dv ++ putLen (x k) dv[k] :: List.drop (k+1) dv).drop (k+1)) = _
    have h3 : dv.drop k = dv[k] :: dv.drop (k+1) := List.drop_eq_getElem_cons hk
    rw [h1, h2, h3, List.map_cons, List.zipWith_cons_cons, List.append_assoc]
    rfl

theorem fillRest_eq (s : List Int) (dv dv' : List Dim) (μ : Mem V) (hl : s.length ≤ dv.length) (h : dv' = List.zipWith putLen s dv) :
    fillRest (dv', μ) = ((fillSteps (s.zip (dv.map Dim.step))).1, ((fillSteps (s.zip (dv.map Dim.step))).2, μ)) := by
  subst h
  unfold fillRest
  have : (List.zipWith putLen s dv).map (fun d => (d.len, d.step)) = s.zip (dv.map Dim.step) := by
    induction s generalizing dv with
    | nil => simp
    | cons a s ih =>
      cases dv with
      | nil => simp
      | cons d dv => simp only [List.length_cons] at hl; simp [putLen, ih dv (by omega)]
  simp only [this]

theorem zip_resized (s : List Int) (dv : List Dim) : s.zip ((dv.take s.length ++ List.replicate (s.length - dv.length) (⟨0, 0⟩ : Dim)).map Dim.step) = s.zip (dv.map Dim.step ++ List.replicate (s.length - dv.length) 0) := by
  induction s generalizing dv with
  | nil => simp
  | cons a s ih =>
    cases dv with
    | nil =>
      have := ih []
      simp only [List.take_nil, List.length_nil, List.nil_append, List.map_nil, Nat.sub_zero, List.length_cons, List.replicate_succ, List.map_cons, List.zip_cons_cons] at this ⊢
      rw [this]
    | cons d dv =>
      have := ih dv
      simp only [List.length_cons, List.take_succ_cons, List.cons_append, List.map_cons, List.zip_cons_cons, Nat.add_sub_add_right]
      rw [this]

/-- The dims when their lengths start being set. -/
def sizedDims (rk : Option Nat) (dv : List Dim) (n : Nat) : List Dim := if rk.isSome then dv else dv.take n ++ List.replicate (n - dv.length) ⟨0, 0⟩

/-- What `fillFrom` does after the checks on the rank, when there's a value for each axis. -/
theorem fillFrom_eq (rk : Option Nat) (t : STree) (p : Iter (DimAct V) Int) (hp : p.WF) (dv : List Dim) (μ : Mem V) (x : Nat → Int) (n : Nat) (b : Int) (c : Nat)
    (hr : t.rank = 0 ∨ t.rank = 1 ∨ (t.rank = ANY ∧ (p.rank = 0 ∨ p.rank = 1)))
    (hn : (if t.size = ANY then p.size else t.size) = n ∨ (rk.isSome ∧ (if t.size = ANY then p.size else t.size) = UNB))
    (hd : rk.isSome → dv.length = n)
    (hx : ∀ i, i < n → ∀ dv' : List Dim, dv'.length = n → dv'.drop i = (sizedDims rk dv n).drop i → elem p [(i : Int)] (dv', μ) = (.ok (x i), (dv', μ))) :
    fillFrom rk t p (dv, μ) = ((Arr.fill ⟨rk, dv, b, c⟩ ((List.range n).map x)).1, ((Arr.fill ⟨rk, dv, b, c⟩ ((List.range n).map x)).2.dims, μ)) := by
  unfold fillFrom
  rw [if_neg (by rintro ⟨h1, h2, h3⟩; rcases hr with h | h | ⟨h, _⟩ <;> contradiction)]
  rw [if_neg (by
    rintro ⟨h1, h2⟩
    rcases hr with h | h | ⟨h, h'⟩
    · rw [h1] at h; exact absurd h (by decide)
    · rw [h1] at h; exact absurd h (by decide)
    · exact h2 h')]
  have hs : (p.shift (disp [((0 : Nat) : Int)])) = p := by
    rw [show disp [((0 : Nat) : Int)] = fun _ => 0 from by funext i; rcases i with _ | i <;> simp [disp]]
    exact p.shift_zero
  have key : ∀ dv' : List Dim, dv' = sizedDims rk dv n → dv'.length = n → (do fillLens 0 dv'.length p; fillRest : DimAct V Int) (dv', μ) =
      ((fillSteps (((List.range n).map x).zip (dv'.map Dim.step))).1, ((fillSteps (((List.range n).map x).zip (dv'.map Dim.step))).2, μ)) := by
    intro dv' hz hl
    have h1 := fillLens_eq p hp μ x n 0 dv' (by omega) (fun i _ hi dv'' h1 h2 => hx i (by omega) dv'' (by omega) (by rw [h2, hz]))
    rw [hs] at h1
    simp only [DimAct.bind_def, hl, h1]
    refine fillRest_eq _ dv' _ μ (by simp [hl]) ?_
    simp [List.range_eq_range']
  cases rk with
  | none =>
    have hn' : (if t.size = ANY then p.size else t.size) = n := by rcases hn with h | h <;> simp_all
    simp only [resizeDims, hn', if_pos (Int.natCast_nonneg n), Int.toNat_natCast]
    rw [key _ (by simp [sizedDims]) (by simp; omega)]
    have hz := zip_resized ((List.range n).map x) dv
    simp only [List.length_map, List.length_range] at hz
    rw [hz]
    simp [Arr.fill]
  | some r =>
    have hd' := hd rfl
    have hn' : (if t.size = ANY then p.size else t.size) = dv.length ∨ (if t.size = ANY then p.size else t.size) = UNB := by
      rcases hn with h | h
      · left; rw [h, hd']
      · right; exact h.2
    simp only [resizeDims, if_pos hn']
    rw [key dv (by simp [sizedDims]) hd']
    simp [Arr.fill, hd']


theorem filldimv_steps (s : List Int) (st : List Int) (h : s.length ≤ st.length) :
    filldimv s = match fillSteps (s.zip st) with | (.ok n, dv) => .ok (dv, n) | (.error e, _) => .error e := by
  induction s generalizing st with
  | nil => simp [filldimv, fillSteps]
  | cons a s ih =>
    cases st with
    | nil => simp at h
    | cons b st =>
      have := ih st (by simpa using h)
      simp only [List.zip_cons_cons, fillSteps, filldimv, this]
      rcases fillSteps (s.zip st) with ⟨e | n, dv⟩
      · rfl
      · by_cases ha : 0 ≤ a
        · simp [bind, Except.bind, ha, pure, Except.pure]
        · simp [bind, Except.bind, ha]

/-- Static and run time rank. -/
theorem inst_rank {m : Type → Type} {α : Type} (t : STree) (p : Iter m α) (hi : Inst t p) : t.rank = ANY ∨ t.rank = p.rank := by
  by_cases h : t.rank = ANY
  · exact .inl h
  · exact .inr (srank_eq t p hi h)

theorem inst_size {m : Type → Type} {α : Type} (t : STree) (p : Iter m α) (s : List Length) (hi : Inst t p) (h : HasShape p s) : (if t.size = ANY then p.size else t.size) = p.size := by
  split_ifs with hk
  · rfl
  · exact (C61_static t p s hi h hk).symm

theorem size_finite {m : Type → Type} {α : Type} (p : Iter m α) (n : Nat) (h : HasShape p [some n]) : p.size = n := by
  have := C61_expr_size p [n] h
  simpa using this

theorem size_unbounded {m : Type → Type} {α : Type} (p : Iter m α) (h : HasShape p [none]) : p.size = UNB := by
  unfold Iter.size
  rw [shape_eq_of_hasShape p _ h]
  decide

theorem size_scalar {m : Type → Type} {α : Type} (p : Iter m α) (h : HasShape p []) : p.size = 1 := by
  unfold Iter.size
  rw [shape_eq_of_hasShape p _ h]
  rfl

theorem rank_ok {m : Type → Type} {α : Type} (t : STree) (p : Iter m α) (s : List Length) (hi : Inst t p) (h : HasShape p s) (hs : s.length ≤ 1) :
    t.rank = 0 ∨ t.rank = 1 ∨ (t.rank = ANY ∧ (p.rank = 0 ∨ p.rank = 1)) := by
  have h1 := h.fits.1
  rcases inst_rank t p hi with h2 | h2 <;> omega

theorem fillFrom_gives (rk : Option Nat) (t : STree) (p : Iter (DimAct V) Int) (xs : List Int) (dv : List Dim) (μ : Mem V) (b : Int) (c : Nat) (hi : Inst t p)
    (h : GivesShape rk p μ xs) (hd : ∀ r, rk = some r → dv.length = r) :
    fillFrom rk t p (dv, μ) = ((Arr.fill ⟨rk, dv, b, c⟩ xs).1, ((Arr.fill ⟨rk, dv, b, c⟩ xs).2.dims, μ)) := by
  obtain ⟨h1, h2, h3⟩ := h
  have he : (List.range xs.length).map (fun k => xs.getD k 0) = xs := by
    refine List.ext_getElem (by simp) fun k hk hk' => ?_
    simp at hk ⊢
    simp [hk]
  have hx : ∀ i, i < xs.length → ∀ dv : List Dim, elem p [(i : Int)] (dv, μ) = (.ok (xs.getD i 0), (dv, μ)) := by
    intro i hi dv
    exact h2 i _ (by simp [List.getElem?_eq_getElem hi]) dv
  have hd' : rk.isSome → dv.length = xs.length := by
    intro hr
    obtain ⟨r, rfl⟩ := Option.isSome_iff_exists.mp hr
    rw [hd r rfl, h3 r rfl]
  have := fillFrom_eq rk t p (inst_wf t p hi) dv μ (fun k => xs.getD k 0) xs.length b c
  rw [he] at this
  rcases h1 with h1 | ⟨h1, h4⟩ | ⟨h1, h4⟩
  · exact this (rank_ok t p _ hi h1 (by simp)) (.inl (by rw [inst_size t p _ hi h1, size_finite p _ h1])) hd' fun i hi dv _ _ => hx i hi dv
  · exact this (rank_ok t p _ hi h1 (by simp)) (.inr ⟨by simp [h4], by rw [inst_size t p _ hi h1, size_unbounded p h1]⟩) hd' fun i hi dv _ _ => hx i hi dv
  · exact this (rank_ok t p _ hi h1 (by simp)) (.inl (by rw [inst_size t p _ hi h1, size_scalar p h1, h4]; rfl)) hd' fun i hi dv _ _ => hx i hi dv

/-- Failures. -/
def Refused (e : Fault) : Prop := e = .check ∨ e = .abort

theorem resizeDims_refused (rk : Option Nat) (s : Int) (b : Bool) (dv : List Dim) (μ : Mem V) (h : (rk = none ∧ s < 0) ∨ (rk.isSome ∧ s ≠ dv.length ∧ s ≠ UNB)) :
    ∃ e, Refused e ∧ resizeDims rk s b (dv, μ) = (.error e, (dv, μ)) := by
  cases rk with
  | none =>
    simp only [true_and, Option.isSome_none, Bool.false_eq_true, false_and, or_false] at h
    exact ⟨.check, .inl rfl, by simp [resizeDims, h]⟩
  | some r =>
    simp only [reduceCtorEq, false_and, Option.isSome_some, true_and, false_or] at h
    refine ⟨if b then .abort else .check, ?_, by simp [resizeDims, h]⟩
    cases b
    · exact .inl rfl
    · exact .inr rfl

theorem fillFrom_refused (rk : Option Nat) (t : STree) (p : Iter (DimAct V) Int) (s : List Length) (dv : List Dim) (μ : Mem V) (hi : Inst t p)
    (h : HasShape p s) (hn : NoShapeFor rk s) (hd : ∀ r, rk = some r → dv.length = r) : ∃ e, Refused e ∧ fillFrom rk t p (dv, μ) = (.error e, (dv, μ)) := by
  unfold fillFrom
  have hr := h.fits.1
  by_cases h1 : t.rank ≠ 0 ∧ t.rank ≠ 1 ∧ t.rank ≠ ANY
  · exact ⟨_, .inr rfl, if_pos h1⟩
  rw [if_neg h1]
  by_cases h2 : t.rank = ANY ∧ ¬ (p.rank = 0 ∨ p.rank = 1)
  · exact ⟨_, .inl rfl, if_pos h2⟩
  rw [if_neg h2, inst_size t p _ hi h]
  have hs : s.length ≤ 1 := by
    rcases inst_rank t p hi with h3 | h3
    · have : p.rank = 0 ∨ p.rank = 1 := by by_contra h4; exact h2 ⟨h3, h4⟩
      omega
    · have : ANY = t.rank ∨ t.rank = 0 ∨ t.rank = 1 := by tauto
      have hA : ANY < 0 := by decide
      omega
  have : ∃ e, Refused e ∧ resizeDims rk p.size (decide (t.size ≠ ANY)) (dv, μ) = (.error e, (dv, μ)) := by
    apply resizeDims_refused
    have hU : UNB < 0 := by decide
    rcases hn with h3 | ⟨rfl, rfl⟩ | ⟨n, r, rfl, rfl, h3⟩ | ⟨rfl, r, rfl, h3⟩
    · omega
    · rw [size_unbounded p h]
      exact .inl ⟨rfl, hU⟩
    · rw [size_finite p n h, hd r rfl]
      exact .inr ⟨rfl, by omega, by omega⟩
    · rw [size_scalar p h, hd r rfl]
      exact .inr ⟨rfl, by omega, by omega⟩
  obtain ⟨e, he, h5⟩ := this
  exact ⟨e, he, by rw [h5]⟩

theorem fillFrom_mismatch (rk : Option Nat) (t : STree) (p : Iter (DimAct V) Int) (dv : List Dim) (μ : Mem V) (hi : Inst t p)
    (h : ∀ s, ¬ HasShape p s) (ht : t.size = ANY) : ∃ e, Refused e ∧ fillFrom rk t p (dv, μ) = (.error e, (dv, μ)) := by
  unfold fillFrom
  by_cases h1 : t.rank ≠ 0 ∧ t.rank ≠ 1 ∧ t.rank ≠ ANY
  · exact ⟨_, .inr rfl, if_pos h1⟩
  rw [if_neg h1]
  by_cases h2 : t.rank = ANY ∧ ¬ (p.rank = 0 ∨ p.rank = 1)
  · exact ⟨_, .inl rfl, if_pos h2⟩
  rw [if_neg h2, if_pos ht]
  have hA : ANY < 0 := by decide
  have hs : p.rank = 0 ∨ p.rank = 1 := by
    rcases inst_rank t p hi with h3 | h3
    · by_contra h4; exact h2 ⟨h3, h4⟩
    · by_cases h4 : t.rank = ANY
      · by_contra h5; exact h2 ⟨h4, h5⟩
      · rw [← h3]; tauto
  have hm : ∃ k : Nat, (k : Int) < p.rank ∧ p.len k = MIS := by
    by_contra hc
    exact h _ (hasShape_of_noMis p (inst_wf t p hi) fun k hk he => hc ⟨k, hk, he⟩)
  obtain ⟨k, hk, hm⟩ := hm
  have hp : p.rank = 1 := by omega
  have hk0 : k = 0 := by omega
  subst hk0
  have hz : p.size = MIS := by
    have hM : MIS < 0 := by decide
    have hm' : p.len 0 = MIS := hm
    simp [Iter.size, Iter.shape, hp, sizeLoop, hm', hM, List.range_succ]
  have : ∃ e, Refused e ∧ resizeDims rk p.size (decide (t.size ≠ ANY)) (dv, μ) = (.error e, (dv, μ)) := by
    apply resizeDims_refused
    have hM : MIS < 0 := by decide
    have hMU : MIS ≠ UNB := by decide
    rw [hz]
    cases rk with
    | none => exact .inl ⟨rfl, hM⟩
    | some r => exact .inr ⟨rfl, by omega, hMU⟩
  obtain ⟨e, he, h5⟩ := this
  exact ⟨e, he, by rw [h5]⟩

/-- C105. An array that's made with a shape given by any expression is the same as if it's made with the list of the elements of the expression. -/
theorem C105_create (rk : Option Nat) (o : Option Int) (fill : Nat → V) (t : STree) (p : Iter (DimAct V) Int) (xs : List Int) (μ : Mem V) (hi : Inst t p)
    (h : GivesShape rk p μ xs) : Arr.createFrom rk o fill t p μ = Arr.create rk o fill xs μ := by
  unfold Arr.createFrom Arr.create
  have hd : ∀ r, rk = some r → (List.replicate (rk.getD 0) (⟨0, 0⟩ : Dim)).length = r := by rintro r rfl; simp
  have hf := fillFrom_gives rk t p xs (List.replicate (rk.getD 0) ⟨0, 0⟩) μ 0 0 hi h hd
  have ha : (Arr.fill ⟨rk, List.replicate (rk.getD 0) ⟨0, 0⟩, 0, 0⟩ xs).2 = ⟨rk, (Arr.fill ⟨rk, List.replicate (rk.getD 0) ⟨0, 0⟩, 0, 0⟩ xs).2.dims, 0, 0⟩ := by
    unfold Arr.fill; split_ifs <;> rfl
  rw [hf]
  generalize Arr.fill ⟨rk, List.replicate (rk.getD 0) ⟨0, 0⟩, 0, 0⟩ xs = r at ha
  obtain ⟨e | n, a⟩ := r
  · rfl
  · simp only at ha ⊢
    rw [← ha]
    rfl

/-- C105. So is a view. -/
theorem C105_view (rk : Option Nat) (t : STree) (p : Iter (DimAct V) Int) (xs : List Int) (cp : Int) (μ : Mem V) (hi : Inst t p)
    (h : GivesShape rk p μ xs) : View.ofShapeFrom rk t p cp μ = (View.ofShape xs cp, μ) := by
  unfold View.ofShapeFrom View.ofShape
  have hd : ∀ r, rk = some r → (List.replicate (rk.getD 0) (⟨0, 0⟩ : Dim)).length = r := by rintro r rfl; simp
  have hf := fillFrom_gives rk t p xs (List.replicate (rk.getD 0) ⟨0, 0⟩) μ 0 0 hi h hd
  rw [hf]
  have hn : ¬ (rk.isSome ∧ xs.length ≠ (List.replicate (rk.getD 0) (⟨0, 0⟩ : Dim)).length) := by
    rintro ⟨h1, h2⟩
    obtain ⟨r, rfl⟩ := Option.isSome_iff_exists.mp h1
    exact h2 (by rw [hd r rfl]; exact h.2.2 r rfl)
  simp only [Arr.fill, if_neg hn]
  rw [filldimv_steps xs ((List.replicate (rk.getD 0) (⟨0, 0⟩ : Dim)).map Dim.step ++ List.replicate (xs.length - (List.replicate (rk.getD 0) (⟨0, 0⟩ : Dim)).length) 0) (by simp; omega)]
  rcases fillSteps (xs.zip ((List.replicate (rk.getD 0) (⟨0, 0⟩ : Dim)).map Dim.step ++ List.replicate (xs.length - (List.replicate (rk.getD 0) (⟨0, 0⟩ : Dim)).length) 0)) with ⟨e | n, dv⟩ <;> rfl

/-- C105. So is `resize`. -/
theorem C105_resize (o : Option Int) (fill : Nat → V) (t : STree) (p : Iter (DimAct V) Int) (xs : List Int) (a : Arr) (μ : Mem V) (hi : Inst t p)
    (hr : t.rank = 1) (ha : ∀ r, a.rk = some r → a.dims.length = r) (h : GivesShape a.rk p μ xs) : Arr.resizeFrom o fill t p a μ = Arr.resizeShape o fill xs a μ := by
  obtain ⟨rk, dims, b, c⟩ := a
  unfold Arr.resizeFrom Arr.resizeShape
  rw [if_neg (by simp [hr]), fillFrom_gives rk t p xs dims μ b c hi h ha]
  have ha : (Arr.fill ⟨rk, dims, b, c⟩ xs).2 = ⟨rk, (Arr.fill ⟨rk, dims, b, c⟩ xs).2.dims, b, c⟩ := by
    unfold Arr.fill; split_ifs <;> rfl
  generalize Arr.fill ⟨rk, dims, b, c⟩ xs = r at ha
  obtain ⟨e | n, a⟩ := r <;> · simp only at ha ⊢; rw [← ha]

/-- C105. An expression that cannot be a shape is refused. There's no array or view, and with `resize` the array is as it was. Nothing has been read. -/
theorem C105_reject (rk : Option Nat) (t : STree) (p : Iter (DimAct V) Int) (s : List Length) (hi : Inst t p) (h : HasShape p s) (hn : NoShapeFor rk s) (μ : Mem V) :
    (∀ (o : Option Int) (fill : Nat → V), ∃ e, Refused e ∧ Arr.createFrom rk o fill t p μ = (.error e, μ)) ∧
    (∀ cp : Int, ∃ e, Refused e ∧ View.ofShapeFrom rk t p cp μ = (.error e, μ)) ∧
    ∀ (o : Option Int) (fill : Nat → V) (a : Arr), a.rk = rk → (∀ r, rk = some r → a.dims.length = r) → ∃ e, Refused e ∧ Arr.resizeFrom o fill t p a μ = (.error e, a, μ) := by
  refine ⟨fun o fill => ?_, fun cp => ?_, fun o fill a ha hd => ?_⟩
  · obtain ⟨e, he, h1⟩ := fillFrom_refused rk t p s (List.replicate (rk.getD 0) ⟨0, 0⟩) μ hi h hn (by rintro r rfl; simp)
    exact ⟨e, he, by simp only [Arr.createFrom, h1]⟩
  · obtain ⟨e, he, h1⟩ := fillFrom_refused rk t p s (List.replicate (rk.getD 0) ⟨0, 0⟩) μ hi h hn (by rintro r rfl; simp)
    exact ⟨e, he, by simp only [View.ofShapeFrom, h1]⟩
  · unfold Arr.resizeFrom
    by_cases hr : t.rank ≠ 1
    · exact ⟨_, .inr rfl, if_pos hr⟩
    · subst ha
      obtain ⟨e, he, h1⟩ := fillFrom_refused a.rk t p s a.dims μ hi h hn hd
      exact ⟨e, he, by rw [if_neg hr, h1]⟩

/-- C105, in part. An expression whose arguments don't match is refused, if its type doesn't have the number of its elements. Otherwise it isn't; see `C105_shape_negation`. -/
theorem C105_mismatch_partial (rk : Option Nat) (t : STree) (p : Iter (DimAct V) Int) (hi : Inst t p) (h : ∀ s, ¬ HasShape p s) (ht : t.size = ANY) (μ : Mem V) :
    (∀ (o : Option Int) (fill : Nat → V), ∃ e, Refused e ∧ Arr.createFrom rk o fill t p μ = (.error e, μ)) ∧
    (∀ cp : Int, ∃ e, Refused e ∧ View.ofShapeFrom rk t p cp μ = (.error e, μ)) ∧
    ∀ (o : Option Int) (fill : Nat → V) (a : Arr), a.rk = rk → ∃ e, Refused e ∧ Arr.resizeFrom o fill t p a μ = (.error e, a, μ) := by
  refine ⟨fun o fill => ?_, fun cp => ?_, fun o fill a ha => ?_⟩
  · obtain ⟨e, he, h1⟩ := fillFrom_mismatch rk t p (List.replicate (rk.getD 0) ⟨0, 0⟩) μ hi h ht
    exact ⟨e, he, by simp only [Arr.createFrom, h1]⟩
  · obtain ⟨e, he, h1⟩ := fillFrom_mismatch rk t p (List.replicate (rk.getD 0) ⟨0, 0⟩) μ hi h ht
    exact ⟨e, he, by simp only [View.ofShapeFrom, h1]⟩
  · unfold Arr.resizeFrom
    by_cases hr : t.rank ≠ 1
    · exact ⟨_, .inr rfl, if_pos hr⟩
    · subst ha
      obtain ⟨e, he, h1⟩ := fillFrom_mismatch a.rk t p a.dims μ hi h ht
      exact ⟨e, he, by rw [if_neg hr, h1]⟩

theorem range_getD (xs : List Int) : (List.range xs.length).map (fun k => xs.getD k 0) = xs := by
  refine List.ext_getElem (by simp) fun k hk hk' => ?_
  simp at hk ⊢
  simp [hk]

/-- C105. When the type of the expression has the number of its elements, nothing else is checked: whatever the lengths of its arguments, if it has an element for each axis then these are the lengths of the array. -/
theorem C105_unchecked (rk : Option Nat) (o : Option Int) (fill : Nat → V) (t : STree) (p : Iter (DimAct V) Int) (xs : List Int) (μ : Mem V) (hi : Inst t p)
    (hr : t.rank = 1) (ht : t.size = xs.length) (hx : GivesLens p μ xs) (hk : ∀ r, rk = some r → xs.length = r) : Arr.createFrom rk o fill t p μ = Arr.create rk o fill xs μ := by
  have hA : ANY < 0 := by decide
  unfold Arr.createFrom Arr.create
  have hf := fillFrom_eq rk t p (inst_wf t p hi) (List.replicate (rk.getD 0) ⟨0, 0⟩) μ (fun k => xs.getD k 0) xs.length 0 0 (.inr (.inl hr))
    (.inl (by rw [if_neg (by omega), ht]))
    (by intro h; obtain ⟨r, rfl⟩ := Option.isSome_iff_exists.mp h; simp [hk r rfl])
    (fun i hi dv _ _ => hx i _ (by simp [List.getElem?_eq_getElem hi]) dv)
  rw [range_getD] at hf
  have ha : (Arr.fill ⟨rk, List.replicate (rk.getD 0) ⟨0, 0⟩, 0, 0⟩ xs).2 = ⟨rk, (Arr.fill ⟨rk, List.replicate (rk.getD 0) ⟨0, 0⟩, 0, 0⟩ xs).2.dims, 0, 0⟩ := by
    unfold Arr.fill; split_ifs <;> rfl
  rw [hf]
  generalize Arr.fill ⟨rk, List.replicate (rk.getD 0) ⟨0, 0⟩, 0, 0⟩ xs = r at ha
  obtain ⟨e | n, a⟩ := r
  · rfl
  · simp only at ha ⊢
    rw [← ha]
    rfl

theorem axesOf_shape (e : Iter (DimAct V) Int) (n : Nat) (h : HasShape e [some n]) : HasShape (axesOf e) [some n] := by
  refine ⟨[[some n]], ⟨[some n], [], rfl, h, rfl⟩, ?_⟩
  refine ⟨by simp, by simp, fun k n => ?_⟩
  rcases k with _ | k <;> simp

/-- C105, for `a.resize(shape(a, e))`. It has the right effect if no axis of the result has the length of an earlier axis of `a`. Otherwise it may not; see `C105_alias_negation`. -/
theorem C105_self_partial (o : Option Int) (fill : Nat → V) (t : STree) (e : Iter (DimAct V) Int) (ks : List Nat) (a : Arr) (μ : Mem V) (hi : Inst t e) (hr : t.rank = 1)
    (hs : HasShape e [some ks.length]) (he : GivesLens e μ (ks.map Nat.cast)) (ha : ∀ r, a.rk = some r → a.dims.length = r ∧ ks.length = r)
    (hk : ∀ (i k : Nat), ks[i]? = some k → i ≤ k ∧ k < ks.length ∧ k < a.dims.length) :
    Arr.resizeFrom o fill (.node [t]) (axesOf e) a μ = Arr.resizeShape o fill (ks.map (lenOf a.dims)) a μ := by
  have hA : ANY < 0 := by decide
  have hi' : Inst (.node [t]) (axesOf e) := ⟨by simp, hi, trivial⟩
  have hs' := axesOf_shape e _ hs
  have hr' : (STree.node [t]).rank = 1 := by simp [STree.rank, srankList, coranks, corank, hr, UNB, ANY]
  obtain ⟨rk, dims, b, c⟩ := a
  simp only at ha hk
  unfold Arr.resizeFrom Arr.resizeShape
  rw [if_neg (by simp [hr'])]
  have hf := fillFrom_eq rk (.node [t]) (axesOf e) (inst_wf _ _ hi') dims μ (fun k => (ks.map (lenOf dims)).getD k 0) (ks.map (lenOf dims)).length b c (.inr (.inl hr'))
    (.inl (by rw [inst_size _ _ _ hi' hs', size_finite _ _ hs', List.length_map]))
    (by intro h; obtain ⟨r, rfl⟩ := Option.isSome_iff_exists.mp h; simp [ha r rfl])
    (by
      intro i hi dv' hl hd
      rw [List.length_map] at hi hl hd
      obtain ⟨h1, h2, h3⟩ := hk i ks[i] (List.getElem?_eq_getElem hi)
      have h4 := he i ks[i] (by simp [List.getElem?_eq_getElem hi]) dv'
      have h5 : dv'[ks[i]]? = dims[ks[i]]? := by
        have h6 := congrArg (fun l => l[ks[i] - i]?) hd
        simp only [List.getElem?_drop] at h6
        rw [show i + (ks[i] - i) = ks[i] by omega] at h6
        rw [h6]
        unfold sizedDims
        split
        · rfl
        · rw [List.getElem?_append_left (by simp; omega), List.getElem?_take_of_lt h2]
      have h7 : elem (axesOf e) [(i : Int)] (dv', μ) = DimAct.axis (ks[i] : Int) (dv', μ) := by
        simp only [axesOf, elem, elems, mapOp, List.mapM_cons, List.mapM_nil, DimAct.bind_def, id, h4]
        rfl
      rw [h7]
      unfold DimAct.axis
      rw [if_pos (by simp [inside]; omega)]
      simp [lenOf, h5, List.getElem?_eq_getElem hi])
  rw [range_getD] at hf
  rw [hf]
  have ha : (Arr.fill ⟨rk, dims, b, c⟩ (ks.map (lenOf dims))).2 = ⟨rk, (Arr.fill ⟨rk, dims, b, c⟩ (ks.map (lenOf dims))).2.dims, b, c⟩ := by
    unfold Arr.fill; split_ifs <;> rfl
  generalize Arr.fill ⟨rk, dims, b, c⟩ (ks.map (lenOf dims)) = r at ha
  obtain ⟨e | n, a⟩ := r <;> · simp only at ha ⊢; rw [← ha]

theorem shift_start {m : Type → Type} {α : Type} (p : Iter m α) : p.shift (disp [((0 : Nat) : Int)]) = p := by
  rw [show disp [((0 : Nat) : Int)] = fun _ => 0 from by funext i; rcases i with _ | i <;> simp [disp]]
  exact p.shift_zero

theorem indexFrom_eq (p : Iter (Act V) Int) (hp : p.WF) (μ : Mem V) (xs : List Int) (hx : GivesIndex p μ xs) (dims : List Dim) (cp : Int) (k : Nat) (hk : k + dims.length ≤ xs.length) :
    indexFrom dims cp (p.shift (disp [(k : Int)])) μ = (indexLoop dims cp (xs.drop k), μ) := by
  induction dims generalizing cp k with
  | nil => rfl
  | cons d ds ih =>
    simp only [List.length_cons] at hk
    have hk' : k < xs.length := by omega
    have h1 := hx k xs[k] (List.getElem?_eq_getElem hk')
    have h3 : xs.drop k = xs[k] :: xs.drop (k+1) := List.drop_eq_getElem_cons hk'
    rw [h3]
    simp only [indexFrom, indexLoop, bind, Act.andThen, Iter.deref_shift, h1, shift_next p hp]
    split_ifs with h2
    · exact ih _ (k+1) (by omega)
    · rfl

theorem static_len {m : Type → Type} {α : Type} (t : STree) (p : Iter m α) (hi : Inst t p) (hr : p.rank = 1) (hm : p.len 0 ≠ MIS) : t.len false 0 = ANY ∨ t.len false 0 = p.len 0 := by
  have h := says_contrib t p hi false 0
  have hA : ANY < 0 := by decide
  have h1 : contrib p 0 = some (p.len 0) := by simp [contrib, hr]
  have h2 : scontrib t false 0 = some (t.len false 0) := by
    unfold scontrib
    rw [if_pos (by rcases inst_rank t p hi with h3 | h3 <;> omega)]
  rw [h1, h2] at h
  have := says_false.mp h
  rcases this with h | ⟨_, h | h⟩ | h | h
  · exact absurd h.2 hm
  · exact .inr h.symm
  · exact absurd h hm
  · exact .inr (h.1.trans h.2.symm)
  · exact .inl h.1

/-- C105. With an expression as index, `at` gives the same element, or the same failure, as with the list of the elements of the expression. There may be more elements than axes. -/
theorem C105_index (rk : Option Nat) (dims : List Dim) (cp : Int) (t : STree) (p : Iter (Act V) Int) (xs : List Int) (μ : Mem V) (hi : Inst t p) (hs : HasShape p [some xs.length])
    (hx : GivesIndex p μ xs) (hd : ∀ r, rk = some r → dims.length = r) (hl : dims.length ≤ xs.length) : indexerFrom rk dims cp t p μ = (indexer dims cp xs, μ) := by
  have hr : p.rank = 1 := by have := hs.fits.1; simpa using this
  have hlen : p.len 0 = xs.length := hs.fits.len (k := 0) (o := some xs.length) rfl
  have hA : ANY < 0 := by decide
  have hM : MIS < 0 := by decide
  have hgo : indexFrom dims cp p μ = (indexer dims cp xs, μ) := by
    have := indexFrom_eq p (inst_wf t p hi) μ xs hx dims cp 0 (by omega)
    rw [shift_start] at this
    rw [this, indexer, if_pos (by omega)]
    rfl
  unfold indexerFrom
  rw [if_neg (by rcases inst_rank t p hi with h | h <;> omega), if_neg (by omega)]
  cases rk with
  | none =>
    simp only
    rw [if_pos (by omega)]
    exact hgo
  | some r =>
    have := hd r rfl
    simp only
    rcases static_len t p hi hr (by omega) with h | h
    · rw [h, if_pos (by omega), if_neg (by simp), if_pos (by omega)]
      exact hgo
    · rw [h, if_neg (by omega)]
      exact hgo

theorem fault_refused (f : Fault) (hf : Refused f) (μ : Mem V) : ∃ e, Refused e ∧ (fault f : Act V Int) μ = (.error e, μ) := ⟨f, hf, rfl⟩

/-- C105. An index that isn't a list, or that's shorter than there are axes, or unbounded, is refused. -/
theorem C105_index_reject (rk : Option Nat) (dims : List Dim) (cp : Int) (t : STree) (p : Iter (Act V) Int) (s : List Length) (μ : Mem V) (hi : Inst t p) (hs : HasShape p s)
    (hd : ∀ r, rk = some r → dims.length = r) (hl : ∀ n, s = [some n] → n < dims.length) : ∃ e, Refused e ∧ indexerFrom rk dims cp t p μ = (.error e, μ) := by
  have hA : ANY < 0 := by decide
  have hM : MIS < 0 := by decide
  have hU : UNB < 0 := by decide
  have hMU : MIS ≠ UNB := by decide
  have hr := hs.fits.1
  unfold indexerFrom
  by_cases h1 : t.rank ≠ 1 ∧ t.rank ≠ ANY
  · rw [if_pos h1]
    exact fault_refused _ (.inr rfl) μ
  rw [if_neg h1]
  by_cases h2 : t.rank = ANY ∧ p.rank ≠ 1
  · rw [if_pos h2]
    exact fault_refused _ (.inl rfl) μ
  · rw [if_neg h2]
    have hr1 : p.rank = 1 := by
      rcases inst_rank t p hi with h | h
      · by_contra h3; exact h2 ⟨h, h3⟩
      · by_contra h3
        have : t.rank = ANY := by by_contra h4; exact h1 ⟨by omega, h4⟩
        exact h2 ⟨this, h3⟩
    have hlen : p.len 0 < dims.length ∧ p.len 0 ≠ MIS := by
      match s, hr with
      | [none], _ =>
        have : p.len 0 = UNB := hs.fits.len (k := 0) (o := none) rfl
        omega
      | [some n], _ =>
        have : p.len 0 = n := hs.fits.len (k := 0) (o := some n) rfl
        have := hl n rfl
        omega
      | [], hr => simp at hr; omega
      | _ :: _ :: _, hr => simp at hr; omega
    cases rk with
    | none =>
      simp only
      rw [if_neg (by omega)]
      exact fault_refused _ (.inl rfl) μ
    | some r =>
      have := hd r rfl
      simp only
      rcases static_len t p hi hr1 hlen.2 with h | h
      · rw [h, if_pos (by omega), if_neg (by simp), if_neg (by omega)]
        exact fault_refused _ (.inl rfl) μ
      · rw [h, if_pos (by omega)]
        split_ifs
        · exact fault_refused _ (.inr rfl) μ
        · omega
        · exact fault_refused _ (.inl rfl) μ

/-- C105, in part. An index whose arguments don't match is refused if the rank of the array or the length of the index isn't in the types. Otherwise it isn't; see `C105_index_negation`. -/
theorem C105_index_mismatch_partial (rk : Option Nat) (dims : List Dim) (cp : Int) (t : STree) (p : Iter (Act V) Int) (μ : Mem V) (hi : Inst t p) (h : ∀ s, ¬ HasShape p s)
    (ht : rk = none ∨ t.len false 0 < 0) : ∃ e, Refused e ∧ indexerFrom rk dims cp t p μ = (.error e, μ) := by
  have hM : MIS < 0 := by decide
  unfold indexerFrom
  by_cases h1 : t.rank ≠ 1 ∧ t.rank ≠ ANY
  · rw [if_pos h1]
    exact fault_refused _ (.inr rfl) μ
  rw [if_neg h1]
  by_cases h2 : t.rank = ANY ∧ p.rank ≠ 1
  · rw [if_pos h2]
    exact fault_refused _ (.inl rfl) μ
  · rw [if_neg h2]
    have hr1 : p.rank = 1 := by
      rcases inst_rank t p hi with h | h
      · by_contra h3; exact h2 ⟨h, h3⟩
      · by_contra h3
        have : t.rank = ANY := by by_contra h4; exact h1 ⟨by omega, h4⟩
        exact h2 ⟨this, h3⟩
    obtain ⟨k, hk, hm⟩ : ∃ k : Nat, (k : Int) < p.rank ∧ p.len k = MIS := by
      by_contra hc
      exact h _ (hasShape_of_noMis p (inst_wf t p hi) fun k hk he => hc ⟨k, hk, he⟩)
    have hk0 : k = 0 := by omega
    subst hk0
    cases rk with
    | none =>
      simp only
      rw [if_neg (by omega)]
      exact fault_refused _ (.inl rfl) μ
    | some r =>
      simp only [reduceCtorEq, false_or] at ht
      simp only
      rw [if_pos (by omega)]
      split_ifs
      · exact fault_refused _ (.inr rfl) μ
      · omega
      · exact fault_refused _ (.inl rfl) μ

end

/-! ## Examples, and what goes wrong -/

/-- Two numbers at 10 and 11, and another at 20. -/
def argMem : Mem Int := fun q => if q = 10 then some 2 else if q = 11 then some 3 else if q = 20 then some 1 else none

/-- The vector with `n` elements at `cp`. -/
def vecArg (n : Int) (cp : Int) : Iter (DimAct Int) Int := .cell [⟨n, 1⟩] cp DimAct.read
def vecIdx (n : Int) (cp : Int) : Iter (Act Int) Int := .cell [⟨n, 1⟩] cp Act.read

/-- Sums, with expr.hh:661. -/
def plusArg {m : Type → Type} [Monad m] [MonadFault m] (a b : Iter m Int) : Iter m Int := .node (mapOp fun xs => pure xs.sum) [a, b]

/-- test/big-0.cc: `ra::Big<int, 2> a(2+ra::iota(2), 0)`. -/
example : Inst (.node [.scalar, .cell (some [ANY])]) (plusArg (.scalar (pure 2)) (.cell [⟨2, 1⟩] 0 pure) : Iter (DimAct Int) Int) ∧
    GivesShape (some 2) (plusArg (.scalar (pure 2)) (.cell [⟨2, 1⟩] 0 pure) : Iter (DimAct Int) Int) argMem [2, 3] ∧
    GivesShape none (plusArg (.scalar (pure 2)) (.cell [⟨2, 1⟩] 0 pure) : Iter (DimAct Int) Int) argMem [2, 3] ∧
    (Arr.createFrom (some 2) (some 100) (fun _ => (0 : Int)) (.node [.scalar, .cell (some [ANY])]) (plusArg (.scalar (pure 2)) (.cell [⟨2, 1⟩] 0 pure)) argMem).1 =
      .ok ⟨some 2, [⟨2, 3⟩, ⟨3, 1⟩], 100, 6⟩ := by
  have hs : HasShape (plusArg (.scalar (pure 2)) (.cell [⟨2, 1⟩] 0 pure) : Iter (DimAct Int) Int) [some 2] := by
    refine ⟨[[], [some 2]], ⟨[], _, rfl, rfl, [some 2], [], rfl, ?_, rfl⟩, ?_⟩
    · simp [HasShape, DimLen]
    · refine ⟨by simp, by simp, fun k n => ?_⟩
      rcases k with _ | k <;> simp
  have hg : GivesLens (plusArg (.scalar (pure 2)) (.cell [⟨2, 1⟩] 0 pure) : Iter (DimAct Int) Int) argMem [2, 3] := by
    intro k x hx dv
    match k with
    | 0 => simp at hx; subst hx; rfl
    | 1 => simp at hx; subst hx; rfl
    | k+2 => simp at hx
  refine ⟨?_, ⟨.inl hs, hg, by simp⟩, ⟨.inl hs, hg, by simp⟩, rfl⟩
  simp [plusArg, Inst, Insts, InstLen, ANY]

theorem vecArg_shape (n : Nat) (cp : Int) : HasShape (vecArg n cp) [some n] ∧ Inst (.cell (some [ANY])) (vecArg n cp) := by
  simp [vecArg, HasShape, DimLen, Inst, InstLen]

/-- A shape in memory is used by any constructor and by `resize`; it's refused if the array has another rank. -/
example : GivesShape none (vecArg 2 10) argMem [2, 3] ∧ GivesShape (some 2) (vecArg 2 10) argMem [2, 3] ∧ NoShapeFor (some 3) [some 2] ∧
    (Arr.resizeFrom (some 100) (fun _ => (7 : Int)) (.cell (some [ANY])) (vecArg 2 10) ⟨none, [⟨1, 1⟩], 20, 1⟩ argMem).2.1 = ⟨none, [⟨2, 3⟩, ⟨3, 1⟩], 100, 6⟩ := by
  have hg : GivesLens (vecArg 2 10) argMem [2, 3] := by
    intro k x hx dv
    match k with
    | 0 => simp at hx; subst hx; rfl
    | 1 => simp at hx; subst hx; rfl
    | k+2 => simp at hx
  exact ⟨⟨.inl (vecArg_shape 2 10).1, hg, by simp⟩, ⟨.inl (vecArg_shape 2 10).1, hg, by simp⟩, .inr (.inr (.inl ⟨2, 3, rfl, rfl, by decide⟩)), rfl⟩

/-- test/big-0.cc: an unbounded expression, as `ra::_0+2`, is enough if the rank of the array is static, and refused otherwise. -/
example : GivesShape (some 3) (.cell [⟨UNB, 1⟩] 2 pure : Iter (DimAct Int) Int) argMem [2, 3, 4] ∧ NoShapeFor none [none] := by
  refine ⟨⟨.inr (.inl ⟨by simp [HasShape, DimLen], rfl⟩), ?_, by simp⟩, .inr (.inl ⟨rfl, rfl⟩)⟩
  intro k x hx dv
  match k with
  | 0 => simp at hx; subst hx; rfl
  | 1 => simp at hx; subst hx; rfl
  | 2 => simp at hx; subst hx; rfl
  | k+3 => simp at hx

/-- A single length. -/
example : GivesShape none (.scalar (pure 4) : Iter (DimAct Int) Int) argMem [4] ∧ GivesShape (some 1) (.scalar (pure 4) : Iter (DimAct Int) Int) argMem [4] := by
  have hg : GivesLens (.scalar (pure 4) : Iter (DimAct Int) Int) argMem [4] := by
    intro k x hx dv
    match k with
    | 0 => simp at hx; subst hx; rfl
    | k+1 => simp at hx
  exact ⟨⟨.inr (.inr ⟨rfl, rfl⟩), hg, by simp⟩, ⟨.inr (.inr ⟨rfl, rfl⟩), hg, by simp⟩⟩

/-- Sums of vectors with different lengths that aren't in their types don't match, and they're refused. -/
example : Inst (.node [.cell (some [ANY]), .cell (some [ANY])]) (plusArg (vecArg 2 10) (vecArg 1 20)) ∧ (STree.node [.cell (some [ANY]), .cell (some [ANY])]).size = ANY ∧
    (Arr.createFrom (some 2) (some 100) (fun _ => (0 : Int)) (.node [.cell (some [ANY]), .cell (some [ANY])]) (plusArg (vecArg 2 10) (vecArg 1 20)) argMem).1 = .error .check := by
  exact ⟨by simp [plusArg, vecArg, Inst, Insts, InstLen], by decide +kernel, rfl⟩

/-- Indices in memory. -/
example : GivesIndex (vecIdx 2 10) argMem [2, 3] ∧ HasShape (vecIdx 2 10) [some 2] ∧ Inst (.cell (some [2])) (vecIdx 2 10) ∧
    indexerFrom (some 2) [⟨10, 10⟩, ⟨10, 1⟩] 0 (.cell (some [2])) (vecIdx 2 10) argMem = (.ok 23, argMem) := by
  refine ⟨?_, by simp [vecIdx, HasShape, DimLen], by simp [vecIdx, Inst, InstLen], rfl⟩
  intro k x hx
  match k with
  | 0 => simp at hx; subst hx; rfl
  | 1 => simp at hx; subst hx; rfl
  | k+2 => simp at hx

/-- The shape isn't checked if it's known by its type how many lengths there are. In `Big<int, 2> a(Small<int, 2>{2, 3} + n, 0)` with `n` a `Big<int, 1>`, the arguments don't match if the length of `n` isn't 2.
If `n` has one element, there's a read beyond it. If it has more, they are ignored. -/
theorem C105_shape_negation :
    ∃ (t : STree) (p q : Iter (DimAct Int) Int) (a : Arr), Inst t p ∧ Inst t q ∧ (∀ s, ¬ HasShape p s) ∧ (∀ s, ¬ HasShape q s) ∧
      (Arr.createFrom (some 2) (some 100) (fun _ => (0 : Int)) t p argMem).1 = .error .ub ∧ (Arr.createFrom (some 2) (some 100) (fun _ => (0 : Int)) t q argMem).1 = .ok a := by
  refine ⟨.node [.cell (some [2]), .cell (some [ANY])], plusArg (vecArg 2 10) (vecArg 1 20), plusArg (vecArg 2 10) (vecArg 3 10), ⟨some 2, [⟨4, 6⟩, ⟨6, 1⟩], 100, 24⟩, ?_, ?_, ?_, ?_, rfl, rfl⟩
  · simp [plusArg, vecArg, Inst, Insts, InstLen]
  · simp [plusArg, vecArg, Inst, Insts, InstLen]
  · intro s h
    have h1 := h.fits.1
    have h2 : (plusArg (vecArg 2 10) (vecArg 1 20)).rank = 1 := by decide +kernel
    have h3 : (plusArg (vecArg 2 10) (vecArg 1 20)).len 0 = MIS := by decide +kernel
    match s with
    | [o] => exact lenVal_ne_mis o ((h.fits.len (k := 0) (o := o) rfl).symm.trans h3)
    | [] => simp at h1; omega
    | _ :: _ :: _ => simp at h1; omega
  · intro s h
    have h1 := h.fits.1
    have h2 : (plusArg (vecArg 2 10) (vecArg 3 10)).rank = 1 := by decide +kernel
    have h3 : (plusArg (vecArg 2 10) (vecArg 3 10)).len 0 = MIS := by decide +kernel
    match s with
    | [o] => exact lenVal_ne_mis o ((h.fits.len (k := 0) (o := o) rfl).symm.trans h3)
    | [] => simp at h1; omega
    | _ :: _ :: _ => simp at h1; omega

/-- In the same way, in `at(a, Small<int, 2>{2, 3} + n)`. -/
theorem C105_index_negation :
    ∃ (t : STree) (p q : Iter (Act Int) Int) (i : Int), Inst t p ∧ Inst t q ∧ (∀ s, ¬ HasShape p s) ∧ (∀ s, ¬ HasShape q s) ∧
      (indexerFrom (some 2) [⟨10, 10⟩, ⟨10, 1⟩] 0 t p argMem).1 = .error .ub ∧ (indexerFrom (some 2) [⟨10, 10⟩, ⟨10, 1⟩] 0 t q argMem).1 = .ok i := by
  refine ⟨.node [.cell (some [2]), .cell (some [ANY])], plusArg (vecIdx 2 10) (vecIdx 1 20), plusArg (vecIdx 2 10) (vecIdx 3 10), 46, ?_, ?_, ?_, ?_, by decide +kernel, by decide +kernel⟩
  · simp [plusArg, vecIdx, Inst, Insts, InstLen]
  · simp [plusArg, vecIdx, Inst, Insts, InstLen]
  · intro s h
    have h1 := h.fits.1
    have h2 : (plusArg (vecIdx 2 10) (vecIdx 1 20)).rank = 1 := by decide +kernel
    have h3 : (plusArg (vecIdx 2 10) (vecIdx 1 20)).len 0 = MIS := by decide +kernel
    match s with
    | [o] => exact lenVal_ne_mis o ((h.fits.len (k := 0) (o := o) rfl).symm.trans h3)
    | [] => simp at h1; omega
    | _ :: _ :: _ => simp at h1; omega
  · intro s h
    have h1 := h.fits.1
    have h2 : (plusArg (vecIdx 2 10) (vecIdx 3 10)).rank = 1 := by decide +kernel
    have h3 : (plusArg (vecIdx 2 10) (vecIdx 3 10)).len 0 = MIS := by decide +kernel
    match s with
    | [o] => exact lenVal_ne_mis o ((h.fits.len (k := 0) (o := o) rfl).symm.trans h3)
    | [] => simp at h1; omega
    | _ :: _ :: _ => simp at h1; omega

/-- `a.resize(shape(a, Small<int, 2>{1, 1}))`. -/
example : (Arr.resizeFrom (some 100) (fun _ => (0 : Int)) (.node [.cell (some [2])]) (axesOf (.cell [⟨2, 0⟩] 1 pure)) ⟨some 2, [⟨3, 2⟩, ⟨2, 1⟩], 10, 6⟩ argMem).2.1.dims.map Dim.len = [2, 2] ∧
    HasShape (.cell [⟨2, 0⟩] 1 pure : Iter (DimAct Int) Int) [some 2] ∧ GivesLens (.cell [⟨2, 0⟩] 1 pure : Iter (DimAct Int) Int) argMem ([1, 1].map Nat.cast) := by
  refine ⟨by decide +kernel, by simp [HasShape, DimLen], ?_⟩
  intro k x hx dv
  match k with
  | 0 => simp at hx; subst hx; rfl
  | 1 => simp at hx; subst hx; rfl
  | k+2 => simp at hx

/-- The array `a` has shape {3, 2}, so `shape(a, iota(2, 1, -1))` has elements {2, 3}. But `a.resize(shape(a, iota(2, 1, -1)))` gives `a` shape {2, 2}, because the lengths are read from `a` as they're replaced. -/
theorem C105_alias_negation :
    ∃ (t : STree) (p : Iter (DimAct Int) Int) (a : Arr), Inst t p ∧ HasShape p [some 2] ∧ a.dims.map Dim.len = [3, 2] ∧
      (elem p [0] (a.dims, argMem)).1 = .ok 2 ∧ (elem p [1] (a.dims, argMem)).1 = .ok 3 ∧
      (Arr.resizeFrom (some 100) (fun _ => (0 : Int)) t p a argMem).1 = .ok () ∧ (Arr.resizeFrom (some 100) (fun _ => (0 : Int)) t p a argMem).2.1.dims.map Dim.len = [2, 2] := by
  refine ⟨.node [.cell (some [ANY])], axesOf (.cell [⟨2, -1⟩] 1 pure), ⟨some 2, [⟨3, 2⟩, ⟨2, 1⟩], 10, 6⟩, ?_, ?_, rfl, by decide +kernel, by decide +kernel, by decide +kernel, by decide +kernel⟩
  · simp [axesOf, Inst, Insts, InstLen]
  · refine ⟨[[some 2]], ⟨[some 2], [], rfl, by simp [HasShape, DimLen], rfl⟩, ?_⟩
    refine ⟨by simp, by simp, fun k n => ?_⟩
    rcases k with _ | k <;> simp

end Ra.Props
