import Verif.Model.DualIO
import Verif.Props.FormatFail
import Mathlib.Data.List.TakeWhile
/-!
# C91: printing and reading dual numbers
-/

namespace Ra.Spec

/-- The parts of a dual number can be read as they're printed if there's a space or a closing bracket after. -/
def RoundTripsIn {T : Type} (print : T → List Char) (rd : List Char → Option (T × List Char)) : Prop :=
  ∀ w x r, White w → rd (w ++ print x ++ ' ' :: r) = some (x, ' ' :: r) ∧ rd (w ++ print x ++ ']' :: r) = some (x, ']' :: r)

/-- The text `t` begins with a dual number: `[`, the two parts, and `]`, with white space anywhere. `r` is the text after. -/
def DualText {T : Type} (rd : List Char → Option (T × List Char)) (t : List Char) (a : Dual T) (r : List Char) : Prop :=
  ∃ w t1 t2 v, White w ∧ White v ∧ t = w ++ '[' :: t1 ∧ rd t1 = some (a.re, t2) ∧ rd t2 = some (a.du, v ++ ']' :: r)

/-- From text `t` the dual numbers `xs` can be read one after the other, and `t'` is left. -/
def DualsText {T : Type} (rd : List Char → Option (T × List Char)) : List Char → List (Dual T) → List Char → Prop
  | t, [], t' => t = t'
  | t, x :: xs, t' => ∃ u, DualText rd t x u ∧ DualsText rd u xs t'

/-- What C91 would say about text that has no dual number in it: that the stream fails. -/
def DualFails {T : Type} (rd : List Char → Option (T × List Char)) : Prop :=
  ∀ t, (∀ a r, ¬ DualText rd t a r) → ∃ x r, Stream.readDual rd ⟨t, true⟩ = .ok (x, ⟨r, false⟩)

end Ra.Spec

namespace Ra.Props
open Spec

section
variable {T : Type} {print : T → List Char} {rd : List Char → Option (T × List Char)}

theorem readChar_white {w : List Char} (hw : White w) {c : Char} (hc : isSpace c = false) (r : List Char) : readChar (w ++ c :: r) = some (c, r) := by
  rw [readChar, dropWhile_white hw (by simpa using hc)]

theorem readChar_inv {t : List Char} {c : Char} {r : List Char} (h : readChar t = some (c, r)) : isSpace c = false ∧ ∃ w, White w ∧ t = w ++ c :: r := by
  rw [readChar] at h
  split at h
  · rename_i d u e
    cases h
    have h1 : isSpace c = false := by
      have := List.head?_dropWhile_not isSpace t
      rw [e] at this
      simpa using this
    refine ⟨h1, t.takeWhile isSpace, fun c hc => List.mem_takeWhile_imp hc, ?_⟩
    rw [← e, List.takeWhile_append_dropWhile]
  · cases h

theorem readChar_none {t : List Char} : readChar t = none ↔ White t := by
  rw [readChar]
  constructor
  · intro h
    split at h
    · cases h
    · rename_i e
      exact List.dropWhile_eq_nil_iff.1 e
  · intro h
    rw [List.dropWhile_eq_nil_iff.2 h]

/-- The exact outcome of reading a dual number. -/
theorem readDual_text {t : List Char} {a : Dual T} {r : List Char} (h : DualText rd t a r) : Stream.readDual rd ⟨t, true⟩ = .ok ((some a.re, some a.du), ⟨r, true⟩) := by
  obtain ⟨w, t1, t2, v, hw, hv, rfl, h1, h2⟩ := h
  simp [Stream.readDual, Stream.read, readChar_white hw (c := '[') (by decide), h1, h2, readChar_white hv (c := ']') (by decide)]

/-- C91. What `<<` prints for a dual number is what `>>` reads, whatever comes after. -/
theorem C91_dual (hrd : RoundTripsIn print rd) (a : Dual T) (w r : List Char) (hw : White w) :
    Stream.readDual rd ⟨w ++ a.print print ++ r, true⟩ = .ok ((some a.re, some a.du), ⟨r, true⟩) := by
  apply readDual_text
  refine ⟨w, print a.re ++ ' ' :: (print a.du ++ ']' :: r), ' ' :: (print a.du ++ ']' :: r), [], hw, by simp [White], by simp [Dual.print], ?_, ?_⟩
  · exact (hrd [] a.re _ (by simp [White])).1
  · have := (hrd [' '] a.du r (by simp [White]; decide)).2
    simpa using this

/-- C91. The stream is good after `>>` exactly when there was a dual number in the text, and then that's what is read. In any other text that isn't only white space the stream fails. -/
theorem C91_text_partial (t : List Char) :
    (∀ a r, Stream.readDual rd ⟨t, true⟩ = .ok ((some a.re, some a.du), ⟨r, true⟩) ↔ DualText rd t a r) ∧
    (¬ White t → (∀ a r, ¬ DualText rd t a r) → ∃ x r, Stream.readDual rd ⟨t, true⟩ = .ok (x, ⟨r, false⟩)) := by
  have key : ¬ White t → (∃ a r, DualText rd t a r) ∨ ∃ x r, Stream.readDual rd ⟨t, true⟩ = .ok (x, ⟨r, false⟩) := by
    intro hw
    cases h : readChar t with
    | none => exact absurd (readChar_none.1 h) hw
    | some cr =>
      obtain ⟨c, t1⟩ := cr
      obtain ⟨hc, w, hw', rfl⟩ := readChar_inv h
      by_cases hb : c = '['
      · subst hb
        cases h1 : rd t1 with
        | none =>
          refine .inr ⟨(none, none), t1, ?_⟩
          simp [Stream.readDual, Stream.read, h, h1]
        | some x =>
          obtain ⟨x, t2⟩ := x
          cases h2 : rd t2 with
          | none =>
            refine .inr ⟨(some x, none), t2, ?_⟩
            simp [Stream.readDual, Stream.read, h, h1, h2]
          | some y =>
            obtain ⟨y, t3⟩ := y
            cases h3 : readChar t3 with
            | none =>
              refine .inr ⟨(some x, some y), t3, ?_⟩
              simp [Stream.readDual, Stream.read, h, h1, h2, h3]
            | some d =>
              obtain ⟨d, r⟩ := d
              obtain ⟨hd, v, hv, rfl⟩ := readChar_inv h3
              by_cases hd : d = ']'
              · subst hd
                exact .inl ⟨⟨x, y⟩, r, w, t1, t2, v, hw', hv, rfl, h1, h2⟩
              · refine .inr ⟨(some x, some y), r, ?_⟩
                simp [Stream.readDual, Stream.read, h, h1, h2, h3, hd]
      · refine .inr ⟨(none, none), t1, ?_⟩
        simp [Stream.readDual, Stream.read, h, hb]
  refine ⟨fun a r => ⟨fun h => ?_, readDual_text⟩, fun hw h => ?_⟩
  · by_cases hw : White t
    · simp [Stream.readDual, Stream.read, readChar_none.2 hw] at h
    · rcases key hw with ⟨b, u, hb⟩ | ⟨x, u, hx⟩
      · have := readDual_text hb
        rw [h] at this
        simp only [Except.ok.injEq, Prod.mk.injEq, Option.some.injEq, Stream.mk.injEq, and_true] at this
        obtain ⟨⟨e1, e2⟩, rfl⟩ := this
        cases a; cases b
        simp only at e1 e2
        subst e1 e2
        exact hb
      · rw [h] at hx
        simp at hx
  · rcases key hw with ⟨b, u, hb⟩ | hx
    · exact absurd hb (h b u)
    · exact hx

/-- C91. When there's nothing but white space, and when the stream wasn't good to begin with, `>>` depends on a variable that was never initialized. -/
theorem C91_end (t : List Char) (good : Bool) (h : good = true → White t) : Stream.readDual rd ⟨t, good⟩ = .error .ub := by
  cases good with
  | true => simp [Stream.readDual, Stream.read, readChar_none.2 (h rfl)]
  | false => simp [Stream.readDual, Stream.read]

/-- Reading dual numbers, as a function of the text. -/
def rdDual (rd : List Char → Option (T × List Char)) (t : List Char) : Option (Dual T × List Char) :=
  match Stream.readDual rd ⟨t, true⟩ with
  | .ok ((some x, some y), ⟨r, true⟩) => some (⟨x, y⟩, r)
  | _ => none

theorem rdDual_some {t : List Char} {a : Dual T} {r : List Char} : rdDual rd t = some (a, r) ↔ Stream.readDual rd ⟨t, true⟩ = .ok ((some a.re, some a.du), ⟨r, true⟩) := by
  constructor
  · intro h
    rw [rdDual] at h
    split at h
    · rename_i e
      cases h
      exact e
    · cases h
  · intro h
    rw [rdDual, h]

theorem roundTrips_dual (hrd : RoundTripsIn print rd) : RoundTrips (Dual.print print) (rdDual rd) :=
  fun w x r hw _ => rdDual_some.2 (C91_dual hrd x w r hw)

theorem readAll_of_readEach : ∀ (n : Nat) (t r : List Char) (xs : List (Dual T)), Stream.readEach (rdDual rd) n ⟨t, true⟩ = (xs.map some, ⟨r, true⟩) →
    Stream.readAll (Stream.readDual rd) n ⟨t, true⟩ = .ok (xs.map fun a => (some a.re, some a.du), ⟨r, true⟩) := by
  intro n
  induction n with
  | zero =>
    intro t r xs h
    simp only [Stream.readEach, Prod.mk.injEq, Stream.mk.injEq, and_true] at h
    obtain ⟨h, rfl⟩ := h
    cases xs with
    | nil => rfl
    | cons x xs => simp at h
  | succ n ih =>
    intro t r xs h
    simp only [Stream.readEach, Stream.read, if_true] at h
    cases h1 : rdDual rd t with
    | none =>
      rw [h1] at h
      simp [readEach_bad] at h
    | some x =>
      obtain ⟨x, u⟩ := x
      rw [h1] at h
      simp only [Prod.mk.injEq] at h
      cases xs with
      | nil => simp at h
      | cons y xs =>
        simp only [List.map_cons, List.cons.injEq, Option.some.injEq] at h
        obtain ⟨⟨rfl, h2⟩, h3⟩ := h
        have := ih u r xs (Prod.ext h2 h3)
        simp [Stream.readAll, rdDual_some.1 h1, this, bind, Except.bind]

theorem readArrayOf_of_readArray {rank : Option Nat} {i : Stream} {l : List Int} {xs : List (Dual T)} {r : List Char}
    (h : Stream.readArray rank (rdDual rd) i = .ok (some (l, xs.map some), ⟨r, true⟩)) :
    Stream.readArrayOf rank (Stream.readDual rd) i = .ok (some (l, xs.map fun a => (some a.re, some a.du)), ⟨r, true⟩) := by
  simp only [Stream.readArray, bind, Except.bind] at h
  simp only [Stream.readArrayOf, bind, Except.bind]
  split at h
  · cases h
  · rename_i v e
    obtain ⟨l', u, g⟩ := v
    dsimp only at h ⊢
    split at h
    · rename_i hg
      subst hg
      split at h
      · rename_i h2
        rw [if_pos rfl, if_pos h2]
        simp only [Except.ok.injEq, Prod.mk.injEq, Option.some.injEq] at h
        obtain ⟨⟨rfl, h3⟩, h4⟩ := h
        rw [readAll_of_readEach _ _ r xs (Prod.ext h3 h4)]
      · cases h
    · simp at h

theorem readAll_pure {V : Type} (rd : List Char → Option (V × List Char)) (n : Nat) (i : Stream) : Stream.readAll (fun i => .ok (i.read rd)) n i = .ok (Stream.readEach rd n i) := by
  induction n generalizing i with
  | zero => rfl
  | succ n ih => simp [Stream.readAll, Stream.readEach, ih, bind, Except.bind]

/-- C91. For elements whose `>>` is always defined, what's read for an array is as in C50. -/
theorem C91_as_C50 {V : Type} (rank : Option Nat) (rd : List Char → Option (V × List Char)) (i : Stream) : Stream.readArrayOf rank (fun i => .ok (i.read rd)) i = Stream.readArray rank rd i := by
  simp only [Stream.readArrayOf, Stream.readArray, readAll_pure]
  rfl

variable {m : Type → Type} [Monad m] [LawfulMonad m] [MonadFault m]

/-- C91. Arrays of dual numbers read back as they're printed: for static shape, static rank and dynamic rank. -/
theorem C91_arrays (hrd : RoundTripsIn print rd) (a : Iter m (Dual T)) (s : List Nat) (f : List Int → Dual T) (h : Holds a s f) (anyrank : Bool) :
    (∃ t, format jstyle (Dual.print print) false anyrank a = pure t ∧ ∀ r, Ends r → ∃ w, White w ∧
      Stream.readAll (Stream.readDual rd) (size s) ⟨t ++ r, true⟩ = .ok ((rowMajor s).map fun j => (some (f j).re, some (f j).du), ⟨w ++ r, true⟩)) ∧
    ∃ t, format jstyle (Dual.print print) true anyrank a = pure t ∧ ∀ r, Ends r → ∃ w, White w ∧
      Stream.readArrayOf (if anyrank then none else some s.length) (Stream.readDual rd) ⟨t ++ r, true⟩ =
        .ok (some (s.map fun (n : Nat) => (n : Int), (rowMajor s).map fun j => (some (f j).re, some (f j).du)), ⟨w ++ r, true⟩) := by
  constructor
  · obtain ⟨t, ht, hr⟩ := C50_static (roundTrips_dual hrd) anyrank a s f h
    refine ⟨t, ht, fun r hr' => ?_⟩
    obtain ⟨w, hw, h1⟩ := hr r hr'
    refine ⟨w, hw, ?_⟩
    rw [readAll_of_readEach _ _ (w ++ r) ((rowMajor s).map f) (by rw [h1, List.map_map]; rfl), List.map_map]
    rfl
  · cases anyrank with
    | false =>
      obtain ⟨t, ht, hr⟩ := C50_rank (roundTrips_dual hrd) a s f h
      refine ⟨t, ht, fun r hr' => ?_⟩
      obtain ⟨w, hw, h1⟩ := hr r hr'
      refine ⟨w, hw, ?_⟩
      have := readArrayOf_of_readArray (rank := some s.length) (xs := (rowMajor s).map f) (l := s.map fun (n : Nat) => (n : Int)) (r := w ++ r) (by rw [h1, List.map_map]; rfl)
      rw [List.map_map] at this
      exact this
    | true =>
      obtain ⟨t, ht, hr⟩ := C50_anyrank (roundTrips_dual hrd) a s f h
      refine ⟨t, ht, fun r hr' => ?_⟩
      obtain ⟨w, hw, h1⟩ := hr r hr'
      refine ⟨w, hw, ?_⟩
      have := readArrayOf_of_readArray (rank := none) (xs := (rowMajor s).map f) (l := s.map fun (n : Nat) => (n : Int)) (r := w ++ r) (by rw [h1, List.map_map]; rfl)
      rw [List.map_map] at this
      exact this

theorem readAll_short {t t' : List Char} {xs : List (Dual T)} (h : Parsed (rdDual rd) t xs t') (h0 : ∀ a r, ¬ DualText rd t' a r) {n : Nat} (hn : xs.length + 1 < n) :
    Stream.readAll (Stream.readDual rd) n ⟨t, true⟩ = .error .ub := by
  induction h generalizing n with
  | nil t =>
    obtain ⟨n, rfl⟩ : ∃ k, n = k + 2 := ⟨n - 2, by simp at hn; omega⟩
    by_cases hw : White t
    · simp [Stream.readAll, C91_end t true fun _ => hw, bind, Except.bind]
    · obtain ⟨x, r, hx⟩ := (C91_text_partial (rd := rd) t).2 hw h0
      simp [Stream.readAll, hx, C91_end (rd := rd) r false (by simp), bind, Except.bind]
  | cons hx _ ih =>
    obtain ⟨n, rfl⟩ : ∃ k, n = k + 1 := ⟨n - 1, by simp at hn; omega⟩
    simp only [List.length_cons, Nat.add_lt_add_iff_right] at hn
    simp [Stream.readAll, rdDual_some.1 hx, ih h0 hn, bind, Except.bind]

theorem parsed_of_duals {t t' : List Char} {xs : List (Dual T)} (h : DualsText rd t xs t') : Parsed (rdDual rd) t xs t' := by
  induction xs generalizing t with
  | nil => cases h; exact .nil _
  | cons x xs ih =>
    obtain ⟨u, h1, h2⟩ := h
    exact .cons (rdDual_some.2 (readDual_text h1)) (ih h2)

/-- C91. If in an array one of the elements other than the last one can't be read, then reading the next one depends on a variable that was never initialized. -/
theorem C91_short_array (s : List Nat) (t t1 t' : List Char) (xs : List (Dual T)) (hs : Parsed readInt t (s.map Nat.cast) t1) (hx : DualsText rd t1 xs t')
    (h0 : ∀ a r, ¬ DualText rd t' a r) (hl : xs.length + 1 < size s) :
    Stream.readArrayOf (some s.length) (Stream.readDual rd) ⟨t, true⟩ = .error .ub := by
  have e := readEach_all hs
  rw [List.length_map] at e
  have hf : (s.map (Nat.cast : Nat → Int)).foldl (· * ·) 1 = (size s : Int) := by
    have := foldl_nat s 1
    simpa using this
  simp only [Stream.readArrayOf, Stream.readShape, bind, Except.bind, e, if_true, List.map_map]
  simp only [Function.comp_def, Option.getD_some]
  rw [if_pos (by simp), hf, Int.toNat_natCast, readAll_short (parsed_of_duals hx) h0 hl]

end

/-- C91. That isn't so at the end of the text, whatever the type. -/
theorem C91_text_negation {T : Type} (rd : List Char → Option (T × List Char)) : ¬ DualFails rd := by
  intro h
  obtain ⟨x, r, hx⟩ := h [] (by rintro a r ⟨w, t1, t2, v, -, -, h, -⟩; simp at h)
  rw [C91_end [] true (by simp [White])] at hx
  cases hx

/-- Integers can be read as the parts of dual numbers. -/
theorem int_roundTripsIn : RoundTripsIn showInt readInt :=
  fun w x r hw => ⟨int_reads w x _ hw (by simp; decide), int_reads w x _ hw (by simp; decide)⟩

/-- A matrix of dual numbers. -/
def dualMat : Iter (Except Fault) (Dual Int) := .cell [⟨2, 1⟩, ⟨3, 2⟩] 0 fun i => .ok ⟨i, 1 - i⟩

example := C91_arrays int_roundTripsIn (m := Except Fault) dualMat [2, 3] (fun j => ⟨j.getD 0 0 + 2 * j.getD 1 0, 1 - (j.getD 0 0 + 2 * j.getD 1 0)⟩)
  ⟨.cons (by simp [DimLen]) (.cons (by simp [DimLen]) .nil), fun j hj => by
    match j, hj with
    | [i, j], _ =>
      simp only [dualMat, elem, dot]
      show Except.ok _ = Except.ok _
      congr 2 <;> simp <;> omega⟩
example : format jstyle (Dual.print showInt) true false dualMat = .ok
    (['2', ' ', '3', '\n'] ++ ['[', '0', ' ', '1', ']', ' ', '[', '2', ' ', '-', '1', ']', ' ', '[', '4', ' ', '-', '3', ']', '\n'] ++
      ['[', '1', ' ', '0', ']', ' ', '[', '3', ' ', '-', '2', ']', ' ', '[', '5', ' ', '-', '4', ']']) := by rfl
/-- `[3 -1]`. -/
example : Stream.readDual readInt ⟨['[', '3', ' ', '-', '1', ']', 'x'], true⟩ = .ok ((some 3, some (-1)), ⟨['x'], true⟩) :=
  (by decide +kernel : [] ++ Dual.print showInt ⟨3, -1⟩ ++ ['x'] = ['[', '3', ' ', '-', '1', ']', 'x']) ▸ C91_dual int_roundTripsIn ⟨3, -1⟩ [] ['x'] (by simp [White])
/-- `[3 -1)`: the stream fails. -/
example : Stream.readDual readInt ⟨['[', '3', ' ', '-', '1', ')'], true⟩ = .ok ((some 3, some (-1)), ⟨[], false⟩) := rfl
/-- `3\n[1 2]`: there's only one element. -/
example : Stream.readArrayOf (some 1) (Stream.readDual readInt) ⟨['3', '\n', '[', '1', ' ', '2', ']'], true⟩ = .error .ub :=
  C91_short_array [3] _ ['\n', '[', '1', ' ', '2', ']'] [] [⟨1, 2⟩] (.cons rfl (.nil _))
    ⟨[], ⟨['\n'], ['1', ' ', '2', ']'], [' ', '2', ']'], [], by simp [White]; decide, by simp [White], rfl, rfl, rfl⟩, rfl⟩
    (by rintro a r ⟨w, t1, t2, v, -, -, h, -⟩; simp at h) (by decide)

end Ra.Props
