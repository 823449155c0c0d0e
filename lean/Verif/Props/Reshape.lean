import Verif.Props.ViewOps
import Mathlib.Data.List.TakeWhile
/-!
# Row-major order in views: C21, C22, C23
-/

namespace Ra.Spec

/-- The elements of the shape `s` with the given steps are at equal distances `c` in row-major order. -/
def Evenly (steps : List Int) (s : List Nat) (c : Int) : Prop := ∀ j, Valid s j → dot steps j = c * position s j

/-- The last axis with length other than 1 doesn't have step 0. -/
def InnerMoves (dims : List Dim) : Prop := ∀ p d q, dims = p ++ d :: q → (∀ x ∈ q, x.len = 1) → d.len ≠ 1 → d.step ≠ 0

end Ra.Spec

namespace Ra.Props
open Spec (Length DimLen Shaped InRange address dot HasShape elem Valid rowMajor size position Evenly InnerMoves)

/-- The steps are those of row-major order with distance `c`, except for axes of length 1. The dims are in reverse. -/
def innerR : List Dim → Int → Prop
  | [], _ => True
  | d :: dv, c => (d.len = 1 ∨ d.step = c) ∧ innerR dv (c * d.len)

theorem cOrderLoop_iff (dv : List Dim) (b : Bool) (c : Int) : cOrderLoop b c dv = true ↔ c * (dv.map Dim.len).prod = 0 ∨ (b = true ∧ innerR dv c) := by
  induction dv generalizing b c with
  | nil => simp [cOrderLoop, innerR]
  | cons d dv ih =>
    simp only [cOrderLoop, ih, innerR, List.map_cons, List.prod_cons, mul_assoc, Bool.and_eq_true, Bool.or_eq_true, beq_iff_eq, eq_comm (a := (1 : Int))]
    tauto

theorem innerR_append (xs ys : List Dim) (c : Int) : innerR (xs ++ ys) c ↔ innerR xs c ∧ innerR ys (c * (xs.map Dim.len).prod) := by
  induction xs generalizing c with
  | nil => simp [innerR]
  | cons d xs ih => simp only [List.cons_append, innerR, ih, List.map_cons, List.prod_cons, mul_assoc, and_assoc]

theorem prod_lens {dims : List Dim} {s : List Nat} (h : List.Forall₂ DimLen dims (s.map some)) : (dims.map Dim.len).prod = size s := by
  rw [shaped_nat] at h
  rw [h]
  clear h
  induction s with
  | nil => rfl
  | cons n s ih => simp [size, ih]

theorem prod_reverse (l : List Int) : l.reverse.prod = l.prod := by
  induction l with
  | nil => rfl
  | cons x l ih => simp [ih, mul_comm]

theorem valid_zeros {s : List Nat} (h : size s ≠ 0) : Valid s (List.replicate s.length 0) := by
  induction s with
  | nil => simp [Valid]
  | cons n s ih =>
    simp only [size, mul_ne_zero_iff] at h
    simp only [List.length_cons, List.replicate_succ, Valid]
    exact ⟨le_refl _, by omega, ih h.2⟩

theorem position_zeros (s : List Nat) (k : Nat) : position s (List.replicate k 0) = 0 := by
  induction s generalizing k with
  | nil => simp [position]
  | cons n s ih => cases k <;> simp [position, List.replicate_succ, ih]

theorem dot_zeros_right (st : List Int) (k : Nat) : dot st (List.replicate k 0) = 0 := by
  induction st generalizing k with
  | nil => simp [dot]
  | cons x st ih => cases k <;> (simp [List.replicate_succ, dot_cons, ih]; try simp [dot])

theorem innerR_iff {dims : List Dim} {s : List Nat} (h : List.Forall₂ DimLen dims (s.map some)) (hs : size s ≠ 0) (c : Int) :
    innerR dims.reverse c ↔ Evenly (dims.map Dim.step) s c := by
  induction s generalizing dims with
  | nil =>
    have : dims = [] := by simpa using h
    subst this
    simp [innerR, Evenly, position, dot]
  | cons n s ih =>
    cases h with
    | cons h1 h2 =>
      rename_i d dims
      simp only [DimLen] at h1
      simp only [size, mul_ne_zero_iff] at hs
      simp only [List.reverse_cons, innerR_append, ih h2 hs.2, innerR, List.map_reverse, prod_reverse, prod_lens h2, and_true]
      constructor
      · rintro ⟨hi, ho⟩ j hj
        match j, hj with
        | i :: j, ⟨a1, a2, a3⟩ =>
          simp only [List.map_cons, dot_cons, position, hi j a3]
          rcases ho with ho | ho
          · have : i = 0 := by omega
            subst this; ring
          · rw [ho]; ring
      · intro hE
        refine ⟨?_, ?_⟩
        · intro j hj
          have := hE (0 :: j) ⟨le_refl _, by omega, hj⟩
          simpa [dot_cons, position] using this
        · by_cases h1' : d.len = 1
          · exact .inl h1'
          · right
            have := hE (1 :: List.replicate s.length 0) ⟨by omega, by omega, valid_zeros hs.2⟩
            simpa [dot_cons, position, position_zeros, dot_zeros_right] using this

theorem size_zero_mem {s : List Nat} : size s = 0 ↔ 0 ∈ s := by
  induction s with
  | nil => simp [size]
  | cons n s ih => simp [size, ih, eq_comm]

theorem valid_ne_zero {s : List Nat} {j : List Int} (h : Valid s j) : size s ≠ 0 := by
  induction s generalizing j with
  | nil => simp [size]
  | cons n s ih =>
    match j, h with
    | i :: j, ⟨h1, h2, h3⟩ =>
      simp only [size, mul_ne_zero_iff]
      exact ⟨by omega, ih h3⟩

/-- C23. `c_order(dims)` is true if and only if every element is at its row-major position. -/
theorem C23_unit (dims : List Dim) (s : List Nat) (h : List.Forall₂ DimLen dims (s.map some)) :
    cOrder dims true = true ↔ ∀ j, Valid s j → dot (dims.map Dim.step) j = position s j := by
  simp only [cOrder, if_true, cOrderLoop_iff, List.map_reverse, prod_reverse, prod_lens h, true_and, one_mul]
  by_cases hs : size s = 0
  · simp only [hs, Nat.cast_zero, true_or, true_iff]
    intro j hj
    exact absurd hs (valid_ne_zero hj)
  · rw [innerR_iff h hs]
    simp only [Evenly, one_mul]
    constructor
    · rintro (h | h)
      · exact absurd (by exact_mod_cast h) hs
      · exact h
    · exact .inr

/-- The dims without the trailing axes of length 1, in reverse. -/
def long (dims : List Dim) : List Dim := dims.reverse.dropWhile (·.len == 1)

theorem cOrder_false (dims : List Dim) :
    cOrder dims false = true ↔ ∀ d dv, long dims = d :: dv → d.step * ((d :: dv).map Dim.len).prod = 0 ∨ innerR (d :: dv) d.step := by
  simp only [cOrder, long]
  simp only [Bool.false_eq_true, if_false]
  split
  · rename_i h; simp [h]
  · rename_i d h; simp [h, innerR]
  · rename_i d dv h1 h
    simp [h, cOrderLoop_iff, innerR, mul_assoc]

theorem long_split (dims : List Dim) : ∃ q, dims = (long dims).reverse ++ q ∧ (∀ x ∈ q, x.len = 1) ∧ ∀ c, innerR dims.reverse c ↔ innerR (long dims) c := by
  refine ⟨(dims.reverse.takeWhile (·.len == 1)).reverse, ?_, ?_, ?_⟩
  · rw [← List.reverse_append, long, List.takeWhile_append_dropWhile, List.reverse_reverse]
  · intro x hx
    have := List.mem_takeWhile_imp (List.mem_reverse.mp hx)
    simpa using this
  · intro c
    conv_lhs => rw [← List.takeWhile_append_dropWhile (p := (·.len == 1)) (l := dims.reverse)]
    rw [innerR_append]
    have key : ∀ l : List Dim, (∀ x ∈ l, x.len = 1) → innerR l c ∧ (l.map Dim.len).prod = 1 := by
      intro l
      induction l with
      | nil => simp [innerR]
      | cons d l ih =>
        intro h
        have h1 : d.len = 1 := h d (by simp)
        obtain ⟨h2, h3⟩ := ih (fun x hx => h x (by simp [hx]))
        simp [innerR, h1, h2, h3]
    obtain ⟨h2, h3⟩ := key (dims.reverse.takeWhile (·.len == 1)) (fun x hx => by simpa using List.mem_takeWhile_imp hx)
    rw [h3, mul_one]
    exact ⟨fun h => h.2, fun h => ⟨h2, h⟩⟩

theorem long_head {dims : List Dim} {d : Dim} {dv : List Dim} (h : long dims = d :: dv) : d.len ≠ 1 := by
  have := List.head_dropWhile_not (fun x : Dim => x.len == 1) (by
    intro h0
    unfold long at h
    rw [h0] at h
    exact absurd h (by simp) : List.dropWhile (fun x : Dim => x.len == 1) dims.reverse ≠ [])
  unfold long at h
  simp only [h, List.head_cons] at this
  simpa using this

theorem long_prod (dims : List Dim) : ((long dims).map Dim.len).prod = (dims.map Dim.len).prod := by
  obtain ⟨q, h1, h2, _⟩ := long_split dims
  conv_rhs => rw [h1]
  rw [List.map_append, List.prod_append, List.map_reverse, prod_reverse]
  have : (q.map Dim.len).prod = 1 := by
    clear h1
    induction q with
    | nil => rfl
    | cons x q ih =>
      rw [List.map_cons, List.prod_cons, ih (fun y hy => h2 y (by simp [hy])), h2 x (by simp)]
      rfl
  rw [this, mul_one]

theorem evenly_size_zero (st : List Int) {s : List Nat} (hs : size s = 0) (c : Int) : Evenly st s c := fun _ hj => absurd hs (valid_ne_zero hj)

/-- C23. If the elements are at equal distances in row-major order, then `c_order(dims, false)` is true. -/
theorem C23_strided_complete (dims : List Dim) (s : List Nat) (h : List.Forall₂ DimLen dims (s.map some)) (c : Int) (hE : Evenly (dims.map Dim.step) s c) :
    cOrder dims false = true := by
  rw [cOrder_false]
  intro d dv hd
  by_cases hs : size s = 0
  · left
    rw [← hd, long_prod, prod_lens h, hs]
    simp
  · right
    rw [← innerR_iff h hs] at hE
    obtain ⟨_, _, _, h3⟩ := long_split dims
    rw [h3 c, hd] at hE
    have : d.step = c := hE.1.resolve_left (long_head hd)
    rw [this]
    exact hE

theorem evenly_ravelStep (dims : List Dim) (s : List Nat) (h : List.Forall₂ DimLen dims (s.map some)) (hm : InnerMoves dims) (ho : cOrder dims false = true) :
    Evenly (dims.map Dim.step) s (ravelStep dims) := by
  by_cases hs : size s = 0
  · exact evenly_size_zero _ hs _
  · rw [← innerR_iff h hs]
    obtain ⟨q, h1, h2, h3⟩ := long_split dims
    rw [h3]
    cases hl : long dims with
    | nil => simp [innerR]
    | cons d dv =>
      have hr : ravelStep dims = d.step := by
        unfold long at hl
        simp [ravelStep, hl]
      rw [hr]
      rw [cOrder_false] at ho
      rcases ho d dv hl with h0 | h0
      · exfalso
        rw [← hl, long_prod, prod_lens h, mul_eq_zero] at h0
        rcases h0 with h0 | h0
        · refine hm dv.reverse d q ?_ h2 (long_head hl) h0
          rw [hl] at h1
          simpa using h1
        · exact hs (by exact_mod_cast h0)
      · exact h0

/-- C23 for `c_order(dims, false)`. What's missing are dims where the last axis with length other than 1 has step 0 (`C23_strided_negation`). -/
theorem C23_strided_partial (dims : List Dim) (s : List Nat) (h : List.Forall₂ DimLen dims (s.map some)) (hm : InnerMoves dims) :
    cOrder dims false = true ↔ ∃ c, Evenly (dims.map Dim.step) s c :=
  ⟨fun ho => ⟨_, evenly_ravelStep dims s h hm ho⟩, fun ⟨c, hc⟩ => C23_strided_complete dims s h c hc⟩

/-- B5. C23 fails for `c_order(dims, false)` when the last axis has step 0: it's true, but elements 0 and 3 are at distance 7 and elements 0 and 1 at distance 0. -/
theorem C23_strided_negation : cOrder [⟨2, 7⟩, ⟨3, 0⟩] false = true ∧ ¬ ∃ c, Evenly [7, 0] [2, 3] c := by
  refine ⟨rfl, ?_⟩
  rintro ⟨c, h⟩
  have h1 := h [0, 1] (by simp [Valid])
  have h2 := h [1, 0] (by simp [Valid])
  simp [dot, position, size] at h1 h2
  omega

/-- The columns of a matrix in column-major order aren't in row-major order, but a row with step 2 is evenly spaced. -/
example : cOrder [⟨2, 1⟩, ⟨3, 2⟩] true = false ∧ cOrder [⟨2, 1⟩, ⟨3, 2⟩] false = false ∧ cOrder [⟨2, 6⟩, ⟨3, 2⟩, ⟨1, 9⟩] false = true := by decide
example : InnerMoves [⟨2, 6⟩, ⟨3, 2⟩] := by
  intro p d q h1 h2 h3
  have : d ∈ ([⟨2, 6⟩, ⟨3, 2⟩] : List Dim) := by rw [h1]; simp
  simp at this
  rcases this with rfl | rfl <;> decide

/-! ## C22 -/

/-- C22. The elements of the result are those of the source in row-major order. What's missing are dims where the last axis with length other than 1 has step 0
(`C22_negation`). -/
theorem C22_partial (v : View) (s : List Nat) (hv : Shaped v (s.map some)) (hm : InnerMoves v.dims) :
    (v.ravelFree = .error .check ∧ ¬ ∃ c, Evenly (v.dims.map Dim.step) s c) ∨
    ∃ r, v.ravelFree = .ok r ∧ Shaped r [some (size s)] ∧ ∀ j, Valid s j → address r [position s j] = address v j := by
  simp only [View.ravelFree]
  split
  · rename_i ho
    right
    refine ⟨_, rfl, .cons (dimvSize_eq hv) .nil, ?_⟩
    intro j hj
    simp only [address, List.map_cons, List.map_nil, dot_cons, dot_nil, evenly_ravelStep v.dims s hv hm ho j hj]
    ring
  · rename_i ho
    left
    refine ⟨rfl, ?_⟩
    rintro ⟨c, hc⟩
    exact ho (C23_strided_complete v.dims s hv c hc)

/-- C22. `ravel_free` succeeds if the elements of the source are at equal distances. -/
theorem C22_complete (v : View) (s : List Nat) (hv : Shaped v (s.map some)) (c : Int) (hc : Evenly (v.dims.map Dim.step) s c) : ∃ r, v.ravelFree = .ok r := by
  simp [View.ravelFree, C23_strided_complete v.dims s hv c hc]

/-- B5. C22 fails when the last axis has step 0: the result has element 0 six times. -/
theorem C22_negation : (⟨[⟨2, 7⟩, ⟨3, 0⟩], 0⟩ : View).ravelFree = .ok ⟨[⟨6, 0⟩], 0⟩ ∧
    address ⟨[⟨6, 0⟩], 0⟩ [position [2, 3] [1, 0]] ≠ address ⟨[⟨2, 7⟩, ⟨3, 0⟩], 0⟩ [1, 0] := by decide

example : (⟨[⟨2, 6⟩, ⟨3, 2⟩, ⟨1, 9⟩], 5⟩ : View).ravelFree = .ok ⟨[⟨6, 2⟩], 5⟩ := by decide
example : (⟨[⟨2, 1⟩, ⟨3, 2⟩], 0⟩ : View).ravelFree = .error .check := by decide

/-! ## C21 -/

theorem quotLoop_eq (q : Int) (xs : List Nat) (hq : 0 < q) :
    (size xs ≠ 0 → quotLoop q (xs.map Nat.cast) = .ok (q * size xs)) ∧ (size xs = 0 → quotLoop q (xs.map Nat.cast) = .error .check) := by
  induction xs generalizing q with
  | nil => simp [quotLoop, size]
  | cons x xs ih =>
    simp only [List.map_cons, quotLoop, size, mul_ne_zero_iff]
    by_cases hx : x = 0
    · subst hx
      simp
    · have hp : 0 < q * x := by positivity
      rw [if_pos hp]
      obtain ⟨h1, h2⟩ := ih (q * x) hp
      refine ⟨fun h => ?_, fun h => ?_⟩
      · rw [h1 h.2]; push_cast; congr 1; ring
      · exact h2 (by simpa [hx] using h)

theorem placeholder_prefix (p : List Nat) (la lb : Int) (xs : List Int) :
    placeholder la lb (p.map Nat.cast ++ xs) = (do let (r, l) ← placeholder la (lb * size p) xs; return (p.map Nat.cast ++ r, l)) := by
  induction p generalizing lb with
  | nil => simp [size]
  | cons n p ih =>
    simp only [List.map_cons, List.cons_append, placeholder]
    rw [if_neg (by omega), ih]
    simp only [size, Nat.cast_mul, mul_assoc]
    rcases placeholder la (lb * (n * size p)) xs with _ | ⟨r, l⟩ <;> rfl

theorem placeholder_none (p : List Nat) (la lb : Int) : placeholder la lb (p.map Nat.cast) = .ok (p.map Nat.cast, lb * size p) := by
  have := placeholder_prefix p la lb []
  simpa [placeholder, bind, Except.bind, pure, Except.pure] using this

theorem placeholder_one (p q : List Nat) (la : Nat) (hp : size p ≠ 0) (hq : size q ≠ 0) :
    placeholder la 1 (p.map Nat.cast ++ -1 :: q.map Nat.cast) =
      if size p * size q ∣ la then .ok ((p ++ la / (size p * size q) :: q).map Nat.cast, (la : Int)) else .error .check := by
  rw [placeholder_prefix]
  simp only [placeholder, if_true, one_mul]
  rw [(quotLoop_eq (size p) q (by positivity)).1 hq]
  simp only [bind, Except.bind]
  have hpq : (size p : Int) * size q ≠ 0 := by positivity
  rw [if_neg hpq]
  have e : ((size p : Int) * size q) = ((size p * size q : Nat) : Int) := by push_cast; rfl
  rw [e, ← Int.ofNat_tdiv, ← Int.ofNat_tmod]
  by_cases hd : size p * size q ∣ la
  · rw [if_pos ⟨by exact_mod_cast Nat.mod_eq_zero_of_dvd hd, by positivity⟩, if_pos hd]
    simp [pure, Except.pure]
  · rw [if_neg, if_neg hd]
    rintro ⟨h, _⟩
    exact hd (Nat.dvd_of_mod_eq_zero (by exact_mod_cast h))

/-- C21. The placeholder is the length that makes the sizes equal. -/
theorem C21_placeholder (v : View) (s : List Nat) (hv : Shaped v (s.map some)) (p q : List Nat) (n : Nat) (hpq : size (p ++ q) ≠ 0)
    (hn : size (p ++ n :: q) = size s) :
    v.reshape (p.map Nat.cast ++ -1 :: q.map Nat.cast) = v.reshape ((p ++ n :: q).map Nat.cast) := by
  have size_append : ∀ p q : List Nat, size (p ++ q) = size p * size q := by
    intro p q
    induction p with
    | nil => simp [size]
    | cons x p ih => simp [size, ih, mul_assoc]
  rw [size_append] at hpq hn
  rw [mul_ne_zero_iff] at hpq
  simp only [size] at hn
  have hd : size p * size q * n = size s := by rw [← hn]; ring
  simp only [View.reshape]
  rw [dimvSize_eq hv, placeholder_one p q _ hpq.1 hpq.2, if_pos ⟨n, hd.symm⟩, placeholder_none, ← hd,
    Nat.mul_div_cancel_left n (Nat.pos_of_ne_zero (mul_ne_zero hpq.1 hpq.2)), one_mul]
  simp only [size_append, size]
  rw [show size p * (n * size q) = size p * size q * n by ring]

/-- C21. If no length makes the sizes equal, then the check fails. -/
theorem C21_placeholder_reject (v : View) (s : List Nat) (hv : Shaped v (s.map some)) (p q : List Nat) (hp : size p ≠ 0)
    (hn : ∀ n, size (p ++ n :: q) ≠ size s) :
    v.reshape (p.map Nat.cast ++ -1 :: q.map Nat.cast) = .error .check := by
  have size_append : ∀ p q : List Nat, size (p ++ q) = size p * size q := by
    intro p q
    induction p with
    | nil => simp [size]
    | cons x p ih => simp [size, ih, mul_assoc]
  simp only [View.reshape]
  rw [dimvSize_eq hv]
  by_cases hq : size q = 0
  · rw [placeholder_prefix]
    simp only [placeholder, if_true, one_mul]
    rw [(quotLoop_eq (size p) q (by positivity)).2 hq]
    rfl
  · rw [placeholder_one p q _ hp hq, if_neg]
    · rfl
    · rintro ⟨n, h⟩
      apply hn n
      rw [size_append, h]
      simp only [size]
      ring

/-- B4. C21 fails when there's a 0 before the placeholder and nothing after: division by 0. -/
theorem C21_placeholder_negation (v : View) (s p : List Nat) (hv : Shaped v (s.map some)) (hp : size p = 0) : v.reshape (p.map Nat.cast ++ [-1]) = .error .ub := by
  simp only [View.reshape]
  rw [dimvSize_eq hv, placeholder_prefix]
  simp [placeholder, quotLoop, hp, bind, Except.bind]

theorem reshapeLoop_suffix (xs ys : List Dim) : reshapeLoop (xs ++ ys) (xs.map Dim.len) = some xs := by
  induction xs with
  | nil => cases ys <;> simp [reshapeLoop]
  | cons d xs ih => simp [reshapeLoop, ih]

theorem reshapeLoop_tile (xs : List Dim) (n : List Int) : reshapeLoop xs (xs.map Dim.len ++ n) = some (xs ++ n.map fun n => ⟨n, 0⟩) := by
  induction xs with
  | nil => simp [reshapeLoop]
  | cons d xs ih => simp [reshapeLoop, ih]

theorem reshapeLoop_cases (a : List Dim) (b : List Int) :
    reshapeLoop a b = none ∨ (∃ xs ys, a = xs ++ ys ∧ b = xs.map Dim.len) ∨ (∃ n, b = a.map Dim.len ++ n) := by
  induction a generalizing b with
  | nil => right; right; exact ⟨b, by simp⟩
  | cons d a ih =>
    cases b with
    | nil => right; left; exact ⟨[], d :: a, rfl, rfl⟩
    | cons n b =>
      simp only [reshapeLoop]
      split
      · rename_i hdn
        rcases ih b with h | ⟨xs, ys, h1, h2⟩ | ⟨n', h⟩
        · left; simp [h]
        · right; left; exact ⟨d :: xs, ys, by simp [h1], by simp [h2, hdn]⟩
        · right; right; exact ⟨n', by simp [h, hdn]⟩
      · left; rfl

/-- C21. Tile: leading axes added to `v` repeat it. -/
theorem C21_tile (v : View) (s p : List Nat) (hv : Shaped v (s.map some)) :
    ∃ r, v.reshape ((p ++ s).map Nat.cast) = .ok r ∧ Shaped r ((p ++ s).map some) ∧ ∀ i j, i.length = p.length → address r (i ++ j) = address v j := by
  have hl := shaped_nat.mp hv
  have e : ((p ++ s).map (Nat.cast : Nat → Int)).reverse = v.dims.reverse.map Dim.len ++ (p.map (Nat.cast : Nat → Int)).reverse := by
    rw [List.map_reverse, hl]; simp
  refine ⟨⟨(p.map fun (n : Nat) => (⟨n, 0⟩ : Dim)) ++ v.dims, v.cp⟩, ?_, ?_, ?_⟩
  · simp only [View.reshape]
    rw [dimvSize_eq hv, placeholder_none]
    simp only [bind, Except.bind]
    rw [e, reshapeLoop_tile]
    simp [pure, Except.pure, Function.comp_def]
  · rw [List.map_append]
    refine List.rel_append ?_ hv
    rw [shaped_nat]
    simp [Function.comp_def]
  · intro i j hi
    simp only [address, List.map_append, List.map_map]
    rw [dot_append _ _ _ _ (by simpa using hi)]
    have : (p.map (Dim.step ∘ fun (n : Nat) => (⟨n, 0⟩ : Dim))) = List.replicate p.length 0 := by
      rw [List.eq_replicate_iff]; simp
    rw [this, dot_zeros, zero_add]

theorem position_bounds {s : List Nat} {j : List Int} (h : Valid s j) : 0 ≤ position s j ∧ position s j < size s := by
  induction s generalizing j with
  | nil => cases j <;> simp [position, size] at h ⊢
  | cons n s ih =>
    match j, h with
    | i :: j, ⟨h1, h2, h3⟩ =>
      obtain ⟨a, b⟩ := ih h3
      simp only [position, size]
      have : (0 : Int) ≤ size s := by positivity
      refine ⟨by positivity, ?_⟩
      push_cast
      nlinarith

theorem position_inj {s : List Nat} {i j : List Int} (hi : Valid s i) (hj : Valid s j) (h : position s i = position s j) : i = j := by
  induction s generalizing i j with
  | nil => match i, j, hi, hj with | [], [], _, _ => rfl
  | cons n s ih =>
    match i, j, hi, hj with
    | a :: i, b :: j, ⟨a1, a2, a3⟩, ⟨b1, b2, b3⟩ =>
      simp only [position] at h
      obtain ⟨p1, p2⟩ := position_bounds a3
      obtain ⟨q1, q2⟩ := position_bounds b3
      have hab : a = b := by
        have : (0 : Int) < size s := by omega
        rcases lt_trichotomy a b with hlt | rfl | hlt
        · exfalso; nlinarith
        · rfl
        · exfalso; nlinarith
      subst hab
      rw [ih a3 b3 (by omega)]

theorem size_append' (p q : List Nat) : size (p ++ q) = size p * size q := by
  induction p with
  | nil => simp [size]
  | cons x p ih => simp [size, ih, mul_assoc]

theorem position_append {p q : List Nat} {i j : List Int} (h : i.length = p.length) : position (p ++ q) (i ++ j) = position p i * size q + position q j := by
  induction p generalizing i with
  | nil =>
    have : i = [] := by simpa using h
    subst this
    simp [position]
  | cons n p ih =>
    cases i with
    | nil => simp at h
    | cons a i =>
      simp only [List.cons_append, position, ih (by simpa using h), size_append']
      push_cast; ring

theorem valid_append {p q : List Nat} {i j : List Int} (hi : Valid p i) (hj : Valid q j) : Valid (p ++ q) (i ++ j) := by
  induction p generalizing i with
  | nil => match i, hi with | [], _ => exact hj
  | cons n p ih => match i, hi with | a :: i, ⟨h1, h2, h3⟩ => exact ⟨h1, h2, ih h3⟩

theorem valid_split {p q : List Nat} {k : List Int} (h : Valid (p ++ q) k) : ∃ i j, k = i ++ j ∧ Valid p i ∧ Valid q j := by
  induction p generalizing k with
  | nil => exact ⟨[], k, rfl, trivial, h⟩
  | cons n p ih =>
    match k, h with
    | a :: k, ⟨h1, h2, h3⟩ =>
      obtain ⟨i, j, rfl, hi, hj⟩ := ih h3
      exact ⟨a :: i, j, rfl, ⟨h1, h2, hi⟩, hj⟩

/-- C21. Reshape to a suffix of the shape: the first cell. No condition on the steps. -/
theorem C21_suffix (v : View) (p s : List Nat) (hv : Shaped v ((p ++ s).map some)) :
    ∃ r, v.reshape (s.map Nat.cast) = .ok r ∧ Shaped r (s.map some) ∧ ∀ j, address r j = address v (List.replicate p.length 0 ++ j) := by
  have hv' : Shaped v (p.map some ++ s.map some) := by simpa using hv
  obtain ⟨d1, d2, hd1, hd2, hd⟩ : ∃ d1 d2, List.Forall₂ DimLen d1 (p.map some) ∧ List.Forall₂ DimLen d2 (s.map some) ∧ v.dims = d1 ++ d2 := by
    have h1 := List.forall₂_take p.length hv'
    have h2 := List.forall₂_drop p.length hv'
    refine ⟨v.dims.take p.length, v.dims.drop p.length, ?_, ?_, (List.take_append_drop _ _).symm⟩
    · simpa using h1
    · simpa using h2
  have hl1 : d1.length = p.length := by simpa using hd1.length_eq
  refine ⟨⟨d2, v.cp⟩, ?_, hd2, ?_⟩
  · simp only [View.reshape]
    rw [dimvSize_eq hv, placeholder_none]
    simp only [bind, Except.bind]
    have e : (s.map (Nat.cast : Nat → Int)).reverse = d2.reverse.map Dim.len := by rw [List.map_reverse, shaped_nat.mp hd2]
    rw [e, hd, List.reverse_append, reshapeLoop_suffix]
    simp [pure, Except.pure]
  · intro j
    simp only [address, hd, List.map_append]
    rw [dot_append _ _ _ _ (by simp [hl1]), dot_zeros_right, zero_add]

theorem filldimv_ok (s : List Nat) : ∃ dv, filldimv (s.map Nat.cast) = .ok (dv, (size s : Int)) ∧ List.Forall₂ DimLen dv (s.map some) ∧
      ∀ j, Valid s j → dot (dv.map Dim.step) j = position s j := by
  induction s with
  | nil => exact ⟨[], rfl, .nil, fun j hj => by simp [position]⟩
  | cons n s ih =>
    obtain ⟨dv, h1, h2, h3⟩ := ih
    refine ⟨⟨n, size s⟩ :: dv, ?_, .cons rfl h2, ?_⟩
    · simp [filldimv, h1, bind, Except.bind, pure, Except.pure, size, mul_comm]
    · intro j hj
      match j, hj with
      | i :: j, ⟨_, _, hj⟩ => simp [dot_cons, position, h3 j hj]

theorem dot_scale (st j : List Int) (c : Int) : dot (st.map (· * c)) j = dot st j * c := by
  induction st generalizing j with
  | nil => simp [dot]
  | cons x st ih =>
    cases j with
    | nil => simp [dot]
    | cons i j => simp only [List.map_cons, dot_cons, ih]; ring

/-- C21. The elements are kept in row-major order if those of the source are evenly spaced by the step of the last axis (as in any array). What's missing are
sources where the last axis has length 1 and its step isn't that of the order (`C21_negation`); or where the last axis has step 0. For other sources see `C21_suffix`,
`C21_tile`, `C21_reject`. -/
theorem C21_partial (v : View) (s t : List Nat) (hv : Shaped v (s.map some))
    (hE : ∀ d, v.dims.getLast? = some d → Evenly (v.dims.map Dim.step) s d.step) (ht : size t ≤ size s) :
    ∃ r, v.reshape (t.map Nat.cast) = .ok r ∧ Shaped r (t.map some) ∧
      ∀ i j, Valid s i → Valid t j → position s i = position t j → address r j = address v i := by
  rcases reshapeLoop_cases v.dims.reverse ((t.map (Nat.cast : Nat → Int)).reverse) with hnone | ⟨xs, ys, h1, h2⟩ | ⟨n, h⟩
  · obtain ⟨d, hd⟩ : ∃ d, v.dims.getLast? = some d := by
      cases h : v.dims.getLast? with
      | some d => exact ⟨d, rfl⟩
      | none =>
        rw [List.getLast?_eq_none_iff] at h
        rw [h] at hnone
        simp [reshapeLoop] at hnone
    have hE := hE d hd
    obtain ⟨dv, f1, f2, f3⟩ := filldimv_ok t
    refine ⟨⟨dv.map fun x => ⟨x.len, x.step * d.step⟩, v.cp⟩, ?_, ?_, ?_⟩
    · simp only [View.reshape]
      rw [dimvSize_eq hv, placeholder_none]
      simp only [bind, Except.bind, hnone, one_mul]
      rw [if_pos ⟨C23_strided_complete v.dims s hv d.step hE, by exact_mod_cast ht⟩]
      simp only [f1, hd]
      rfl
    · rw [Shaped, shaped_nat]
      rw [shaped_nat] at f2
      simpa [Function.comp_def] using f2
    · intro i j hi hj hp
      simp only [address, List.map_map, Function.comp_def]
      have := dot_scale (dv.map Dim.step) j d.step
      rw [List.map_map, Function.comp_def] at this
      rw [this, f3 j hj, hE i hi, hp]
      ring
  · -- suffix
    have hd : v.dims = ys.reverse ++ xs.reverse := by
      have := congrArg List.reverse h1
      simpa using this
    have htx : t.map (Nat.cast : Nat → Int) = xs.reverse.map Dim.len := by
      have := congrArg List.reverse h2
      simpa using this
    have hlen : ys.reverse.length + t.length = s.length := by
      have a := hv.length_eq
      have b := congrArg List.length htx
      rw [hd] at a
      simp at a b ⊢
      omega
    have hs : s = s.take ys.reverse.length ++ t := by
      have a := shaped_nat.mp hv
      rw [hd, List.map_append, ← htx] at a
      have a2 := congrArg (List.drop ys.reverse.length) a
      rw [List.drop_left' (by simp), ← List.map_drop] at a2
      have a3 : t = s.drop ys.reverse.length := (List.map_injective_iff.mpr (fun x y h => by exact_mod_cast h)) a2
      conv_lhs => rw [← List.take_append_drop ys.reverse.length s]
      rw [← a3]
    generalize hp0 : s.take ys.reverse.length = p at hs
    subst hs
    obtain ⟨r, r1, r2, r3⟩ := C21_suffix v p t hv
    refine ⟨r, r1, r2, ?_⟩
    intro i j hi hj hp
    have hz : size p ≠ 0 := by
      have := valid_ne_zero hi
      rw [size_append', mul_ne_zero_iff] at this
      exact this.1
    have hv0 := valid_append (valid_zeros hz) hj
    have : i = List.replicate p.length 0 ++ j := by
      apply position_inj hi hv0
      rw [hp, position_append (by simp), position_zeros]
      simp
    rw [r3, this]
  · -- tile
    have htx : t.map (Nat.cast : Nat → Int) = n.reverse ++ s.map Nat.cast := by
      have := congrArg List.reverse h
      rw [← shaped_nat.mp hv]
      simpa using this
    have hts : t = t.take n.length ++ s := by
      have a2 := congrArg (List.drop n.length) htx
      rw [List.drop_left' (by simp), ← List.map_drop] at a2
      have a3 : t.drop n.length = s := (List.map_injective_iff.mpr (fun x y h => by exact_mod_cast h)) a2
      conv_lhs => rw [← List.take_append_drop n.length t]
      rw [a3]
    generalize hp0 : t.take n.length = p at hts
    subst hts
    obtain ⟨r, r1, r2, r3⟩ := C21_tile v s p hv
    refine ⟨r, r1, r2, ?_⟩
    intro i j hi hj hp
    obtain ⟨j1, j2, rfl, k1, k2⟩ := valid_split hj
    have hz := valid_ne_zero hi
    have hz1 := valid_ne_zero k1
    rw [size_append'] at ht
    have hp1 : size p = 1 := by
      have h1 : 0 < size s := Nat.pos_of_ne_zero hz
      have h2 : 0 < size p := Nat.pos_of_ne_zero hz1
      have : size p ≤ 1 := by
        by_contra hc
        have : 2 * size s ≤ size p * size s := Nat.mul_le_mul_right _ (by omega)
        omega
      omega
    have pb := position_bounds k1
    rw [hp1] at pb
    have hp2 : position p j1 = 0 := by
      have := pb.2
      push_cast at this
      omega
    rw [position_append k1.length, hp2, zero_mul, zero_add] at hp
    rw [r3 j1 j2 k1.length, position_inj hi k2 hp]

/-- C21. If the result would need more elements than there are, or elements that aren't evenly spaced, then the check fails. See `C21_suffix` and `C21_tile` for when
one of the shapes is a suffix of the other. -/
theorem C21_reject (v : View) (s t : List Nat) (hv : Shaped v (s.map some)) (hs : ¬ t <:+ s) (ht : ¬ s <:+ t)
    (h : size s < size t ∨ (InnerMoves v.dims ∧ ¬ ∃ c, Evenly (v.dims.map Dim.step) s c)) :
    v.reshape (t.map Nat.cast) = .error .check := by
  have inj : Function.Injective (List.map (Nat.cast : Nat → Int)) := List.map_injective_iff.mpr (fun x y h => by exact_mod_cast h)
  have hnone : reshapeLoop v.dims.reverse ((t.map (Nat.cast : Nat → Int)).reverse) = none := by
    rcases reshapeLoop_cases v.dims.reverse ((t.map (Nat.cast : Nat → Int)).reverse) with h | ⟨xs, ys, h1, h2⟩ | ⟨n, h⟩
    · exact h
    · exfalso
      apply hs
      have hd : v.dims = ys.reverse ++ xs.reverse := by
        have := congrArg List.reverse h1
        simpa using this
      have htx : t.map (Nat.cast : Nat → Int) = xs.reverse.map Dim.len := by
        have := congrArg List.reverse h2
        simpa using this
      have a := shaped_nat.mp hv
      rw [hd, List.map_append, ← htx] at a
      have a2 := congrArg (List.drop ys.reverse.length) a
      rw [List.drop_left' (by simp), ← List.map_drop] at a2
      rw [inj a2]
      exact List.drop_suffix _ _
    · exfalso
      apply ht
      have htx : t.map (Nat.cast : Nat → Int) = n.reverse ++ s.map Nat.cast := by
        have := congrArg List.reverse h
        rw [← shaped_nat.mp hv]
        simpa using this
      have a2 := congrArg (List.drop n.length) htx
      rw [List.drop_left' (by simp), ← List.map_drop] at a2
      rw [← inj a2]
      exact List.drop_suffix _ _
  simp only [View.reshape]
  rw [dimvSize_eq hv, placeholder_none]
  simp only [bind, Except.bind, hnone, one_mul]
  rw [if_neg]
  rintro ⟨a, b⟩
  rcases h with h | ⟨h1, h2⟩
  · have : size t ≤ size s := by exact_mod_cast b
    omega
  · exact h2 ((C23_strided_partial v.dims s hv h1).mp a)

/-- B3. C21 fails when the last axis has length 1: its step is used for the result. Here element 1 of the result (address 9) isn't element 1 of the source (address 1). -/
theorem C21_negation : (⟨[⟨4, 1⟩, ⟨1, 9⟩], 0⟩ : View).reshape [2, 2] = .ok ⟨[⟨2, 18⟩, ⟨2, 9⟩], 0⟩ ∧ Evenly [1, 9] [4, 1] 1 := by
  refine ⟨rfl, ?_⟩
  intro j hj
  match j, hj with
  | [a, b], ⟨_, _, h1, h2, _⟩ =>
    have : b = 0 := by omega
    subst this
    simp [dot, position, size]

example : (⟨[⟨6, 2⟩], 0⟩ : View).reshape [2, -1] = .ok ⟨[⟨2, 6⟩, ⟨3, 2⟩], 0⟩ := by rfl
example : Evenly [2] [6] 2 := by
  intro j hj
  match j, hj with
  | [a], _ => simp [dot, position, size]; ring

end Ra.Props
