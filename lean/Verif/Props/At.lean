import Verif.Props.Expr
import Verif.Props.Frame
import Verif.Spec.At
/-!
# C59: `at` on expressions
-/

namespace Ra.Props
open Spec (HasShape HasShapes Merge Reframed Length elem elems InRange Evaluable dot DimLen)

variable {α : Type}

theorem forall2_dimLen {dims : List Dim} {s t : List Length} (hs : List.Forall₂ DimLen dims s) (ht : List.Forall₂ DimLen dims t) : s = t := by
  induction hs generalizing t with
  | nil => cases ht; rfl
  | @cons d o ds s hd _ ih =>
    cases ht with
    | @cons _ o' _ t hd' ht =>
      rw [ih ht]
      congr 1
      have := UNB_val
      cases o <;> cases o' <;> simp only [DimLen] at hd hd' <;> first | rfl | (exfalso; omega) | (congr 1; omega)

/-- Results that are all values or failed checks. If one isn't a value, then the whole is a failed check. -/
theorem mapM_check (xs : List (Except Fault α)) (h : ∀ x ∈ xs, (∃ v, x = .ok v) ∨ x = .error .check) :
    (∃ vs, xs.mapM id = .ok vs ∧ ∀ x ∈ xs, ∃ v, x = .ok v) ∨ (xs.mapM id = .error .check ∧ ∃ x ∈ xs, x = .error .check) := by
  induction xs with
  | nil => left; exact ⟨[], rfl, by simp⟩
  | cons x xs ih =>
    simp only [List.mapM_cons, id]
    rcases h x (by simp) with ⟨v, rfl⟩ | rfl
    · rcases ih fun y hy => h y (by simp [hy]) with ⟨vs, h1, h2⟩ | ⟨h1, y, hy, h2⟩
      · left
        refine ⟨v :: vs, by rw [h1]; rfl, ?_⟩
        intro y hy
        rcases List.mem_cons.1 hy with rfl | hy
        · exact ⟨v, rfl⟩
        · exact h2 y hy
      · right
        exact ⟨by rw [h1]; rfl, y, by simp [hy], h2⟩
    · right
      exact ⟨rfl, .error .check, by simp, rfl⟩

theorem atList_map (t : List (Iter (Except Fault) α)) (j : List Int) : atList t j = t.map (·.at j) := by
  induction t with
  | nil => rfl
  | cons a t ih => simp [atList, ih]

theorem hasShapes_args {t : List (Iter (Except Fault) α)} {ss : List (List Length)} (h : HasShapes t ss) :
    (∀ x ∈ ss, ∃ a ∈ t, HasShape a x) ∧ ∀ a ∈ t, ∃ x ∈ ss, HasShape a x := by
  induction t generalizing ss with
  | nil => simp only [HasShapes] at h; subst h; simp
  | cons a t ih =>
    simp only [HasShapes] at h
    obtain ⟨s, ss', rfl, h1, h2⟩ := h
    obtain ⟨i1, i2⟩ := ih h2
    constructor
    · intro x hx
      rcases List.mem_cons.1 hx with rfl | hx
      · exact ⟨a, by simp, h1⟩
      · obtain ⟨b, hb, hbx⟩ := i1 x hx
        exact ⟨b, by simp [hb], hbx⟩
    · intro b hb
      rcases List.mem_cons.1 hb with rfl | hb
      · exact ⟨s, by simp, h1⟩
      · obtain ⟨x, hx, hbx⟩ := i2 b hb
        exact ⟨x, by simp [hx], hbx⟩

/-- An index is in range for an expression if and only if it's in range for all the arguments. -/
theorem inRange_merge {ss : List (List Length)} {s : List Length} (h : Merge ss s) (j : List Int) : InRange s j ↔ ∀ x ∈ ss, InRange x j := by
  obtain ⟨h1, ⟨y, hy, hyl⟩, h3⟩ := h
  constructor
  · rintro ⟨hl, hk⟩ x hx
    refine ⟨by have := h1 x hx; omega, fun k n hn => hk k n ((h3 k n).2 ⟨x, hx, hn⟩)⟩
  · intro hx
    refine ⟨by have := (hx y hy).1; omega, fun k n hn => ?_⟩
    obtain ⟨x, hxs, hxn⟩ := (h3 k n).1 hn
    exact (hx x hxs).2 k n hxn

theorem inRange_reframed {dest : List Nat} {s0 s : List Length} (h : Reframed dest s0 s) (j : List Int) (hj : s.length ≤ j.length) :
    InRange s j ↔ InRange s0 (dest.map fun d => j.getD d 0) := by
  obtain ⟨hl, hd, _, hk, hn⟩ := h
  constructor
  · rintro ⟨_, hr⟩
    refine ⟨by simp [hl], fun l n hs => ?_⟩
    have hl' : l < dest.length := by
      rw [hl]
      by_contra hc
      rw [List.getElem?_eq_none (by omega)] at hs
      exact absurd hs (by simp)
    have h1 : dest[l]? = some dest[l] := List.getElem?_eq_getElem hl'
    have h2 := hr dest[l] n (by rw [hk l dest[l] h1, hs])
    rw [List.getD_eq_getElem?_getD, List.getElem?_map, h1]
    simpa using h2
  · rintro ⟨_, hr⟩
    refine ⟨hj, fun k n hs => ?_⟩
    have hk' : k < s.length := by
      by_contra hc
      rw [List.getElem?_eq_none (by omega)] at hs
      exact absurd hs (by simp)
    have hm : k ∈ dest := by
      by_contra hc
      rw [hn k hk' hc] at hs
      exact absurd hs (by simp)
    obtain ⟨l, hl', rfl⟩ := List.getElem_of_mem hm
    have h1 : dest[l]? = some dest[l] := List.getElem?_eq_getElem hl'
    have h2 := hr l n (by rw [← hk l dest[l] h1, hs])
    rw [List.getD_eq_getElem?_getD, List.getElem?_map, h1] at h2
    simpa using h2

theorem at_evaluable (frames : Bool) (a : Iter (Except Fault) α) (he : Evaluable frames a) :
    ∀ (s : List Length) (_ : HasShape a s) (j : List Int) (_ : frames = true → s.length ≤ j.length),
      (InRange s j → ∃ x, a.at j = .ok x) ∧ (¬ InRange s j → a.at j = .error .check) := by
  induction he with
  | scalar x =>
    intro s h j _
    simp only [HasShape] at h
    subst h
    refine ⟨fun _ => ⟨x, rfl⟩, fun hc => absurd ⟨by simp, by simp⟩ hc⟩
  | cell dims cp rd s0 hs h0 =>
    intro s h j _
    constructor
    · intro hj
      rw [C01_at _ s h j hj]
      simp only [HasShape] at h
      cases forall2_dimLen hs h
      exact h0 j hj
    · intro hj
      exact C59_reject dims cp rd s h j hj
  | reframe dest a hf _ ih =>
    intro s h j hj
    obtain ⟨hnd, s0, h0, hr⟩ := h
    have hl := hj hf
    have hd : dest.all (· < j.length) = true := by
      rw [List.all_eq_true]
      intro d hd
      have := hr.2.1 d hd
      simp only [decide_eq_true_eq]
      omega
    simp only [Iter.at, hd, if_true]
    rw [inRange_reframed hr j hl]
    exact ih s0 h0 _ fun _ => by rw [List.length_map, hr.1]
  | map f t _ ih =>
    intro s h j hj
    obtain ⟨ss, hss, hm⟩ := h
    obtain ⟨m1, m2⟩ := hasShapes_args hss
    have hall : ∀ x ∈ atList t j, (∃ v, x = .ok v) ∨ x = .error .check := by
      rw [atList_map]
      intro x hx
      obtain ⟨a, ha, rfl⟩ := List.mem_map.1 hx
      obtain ⟨y, hy, hay⟩ := m2 a ha
      have i := ih a ha y hay j fun hf => by have := hj hf; have := hm.1 y hy; omega
      by_cases hr : InRange y j
      · left; exact i.1 hr
      · right; exact i.2 hr
    have hat : (Iter.node (mapOp fun xs => .ok (f xs)) t).at j = (do let vs ← (atList t j).mapM id; .ok (f vs)) := by simp only [Iter.at, mapOp]
    rw [hat, inRange_merge hm]
    rcases mapM_check _ hall with ⟨vs, h1, h2⟩ | ⟨h1, x, hx, h2⟩
    · rw [h1]
      refine ⟨fun _ => ⟨f vs, rfl⟩, fun hc => absurd ?_ hc⟩
      intro y hy
      obtain ⟨a, ha, hay⟩ := m1 y hy
      by_contra hr
      obtain ⟨v, hv⟩ := h2 (a.at j) (by rw [atList_map]; exact List.mem_map_of_mem ha)
      rw [(ih a ha y hay j fun hf => by have := hj hf; have := hm.1 y hy; omega).2 hr] at hv
      exact absurd hv (by simp)
    · rw [h1]
      refine ⟨fun hr => ?_, fun _ => rfl⟩
      exfalso
      rw [atList_map] at hx
      obtain ⟨a, ha, rfl⟩ := List.mem_map.1 hx
      obtain ⟨y, hy, hay⟩ := m2 a ha
      obtain ⟨v, hv⟩ := (ih a ha y hay j fun hf => by have := hj hf; have := hm.1 y hy; omega).1 (hr y hy)
      rw [hv] at h2
      exact absurd h2 (by simp)

/-- C59 for expressions that are made with `map`, as with the operators. If the index is in range the result is the element of the expression at it, else the check fails.
What's missing: `pick` and the like (`C59_pick_negation`), and an index that's too short when there are reframed arguments (`C59_frame_negation`). -/
theorem C59_expr_partial (frames : Bool) (a : Iter (Except Fault) α) (s : List Length) (h : HasShape a s) (he : Evaluable frames a) (j : List Int)
    (hj : frames = true → s.length ≤ j.length) :
    (InRange s j → ∃ x, a.at j = .ok x ∧ elem a j = .ok x) ∧ (¬ InRange s j → a.at j = .error .check) := by
  have h1 := at_evaluable frames a he s h j hj
  refine ⟨fun hr => ?_, h1.2⟩
  obtain ⟨x, hx⟩ := h1.1 hr
  exact ⟨x, hx, by rw [← C01_at a s h j hr, hx]⟩

/-- The claim of C59 about rejection, for all the expressions whose elements can be evaluated. -/
def AtRejects (a : Iter (Except Fault) Int) : Prop :=
  ∀ s : List Length, HasShape a s → (∀ j, InRange s j → ∃ x, elem a j = .ok x) → ∀ j, ¬ InRange s j → a.at j = .error .check

/-- A vector of 2 zeros, a vector {10, 11} and a 2x2 array {{0, 1}, {2, 3}}. -/
def egPick : Iter (Except Fault) Int :=
  .node (pickOp Int.toNat) [.cell [⟨2, 1⟩] 0 fun _ => .ok 0, .cell [⟨2, 1⟩] 10 .ok, .cell [⟨2, 2⟩, ⟨2, 1⟩] 0 .ok]

theorem egPick_shape : HasShape egPick [some 2, some 2] := by
  refine ⟨[[some 2], [some 2], [some 2, some 2]], ?_, by simp, ⟨[some 2, some 2], by simp, rfl⟩, ?_⟩
  · exact ⟨_, _, rfl, by simp [HasShape, DimLen], _, _, rfl, by simp [HasShape, DimLen], _, _, rfl, by simp [HasShape, DimLen], rfl⟩
  · intro k n
    match k with
    | 0 => simp
    | 1 => simp
    | k+2 => simp

/-- C59 is false of the code for `pick`. Only the argument that's selected checks the index, and it may have fewer axes than the expression: here `at(pick(p, a, b), {1, 99})` gives
11. -/
theorem C59_pick_negation : ¬ AtRejects egPick := by
  intro h
  have h1 := h [some 2, some 2] egPick_shape ?_ [1, 99] ?_
  · have : egPick.at [1, 99] = .ok 11 := by decide +kernel
    rw [this] at h1
    exact absurd h1 (by simp)
  · intro j _
    exact ⟨10 + dot [1] j, by
      simp only [egPick, elem, elems, pickOp, bind, Except.bind]
      rfl⟩
  · intro hc
    have := hc.2 1 2 rfl
    simp at this

/-- A vector {0, 1} on the second axis. -/
def egFrame : Iter (Except Fault) Int := .reframe [1] (.cell [⟨2, 1⟩] 0 .ok)

/-- C59 is false of the code for reframed arguments, when the index is too short: entries past the end of the index are read. -/
theorem C59_frame_negation : ¬ AtRejects egFrame := by
  intro h
  have h1 := h [none, some 2] ?_ ?_ [0] ?_
  · have : egFrame.at [0] = .error .ub := by decide +kernel
    rw [this] at h1
    exact absurd h1 (by simp)
  · refine ⟨by simp, [some 2], by simp [HasShape, DimLen], ?_⟩
    refine ⟨rfl, by simp, by simp, ?_, ?_⟩
    · intro l k hlk
      match l with
      | 0 => simp at hlk; subst hlk; rfl
      | l+1 => simp at hlk
    · intro k hk hd
      match k with
      | 0 => rfl
      | 1 => simp at hd
      | k+2 => simp at hk
  · intro j _
    exact ⟨_, rfl⟩
  · intro hc
    have := hc.1
    simp at this

/-- A vector {0, 1} plus a 2x2 array {{0, 1}, {2, 3}}: the conditions of `C59_expr_partial`. -/
example : Evaluable false (.node (mapOp fun xs => .ok xs.sum) [.cell [⟨2, 1⟩] 0 .ok, .cell [⟨2, 2⟩, ⟨2, 1⟩] 0 .ok] : Iter (Except Fault) Int) := by
  refine .map _ _ fun a ha => ?_
  simp only [List.mem_cons, List.not_mem_nil, or_false] at ha
  rcases ha with rfl | rfl
  · exact .cell _ _ _ [some 2] (by simp [DimLen]) fun j _ => ⟨_, rfl⟩
  · exact .cell _ _ _ [some 2, some 2] (by simp [DimLen]) fun j _ => ⟨_, rfl⟩

example : ((.node (mapOp fun xs => .ok xs.sum) [.cell [⟨2, 1⟩] 0 .ok, .cell [⟨2, 2⟩, ⟨2, 1⟩] 0 .ok] : Iter (Except Fault) Int).at [1, 1]) = .ok 4 := by decide +kernel

example : ((.node (mapOp fun xs => .ok xs.sum) [.cell [⟨2, 1⟩] 0 .ok, .cell [⟨2, 2⟩, ⟨2, 1⟩] 0 .ok] : Iter (Except Fault) Int).at [1]) = .error .check := by decide +kernel

end Ra.Props
