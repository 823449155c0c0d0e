import Verif.Props.Format
/-!
# C50: input that can't be read
-/

namespace Ra.Spec

/-- From text `t` the values `xs` can be read one after the other, and `t'` is left. -/
inductive Parsed {V : Type} (rd : List Char → Option (V × List Char)) : List Char → List V → List Char → Prop
  | nil (t : List Char) : Parsed rd t [] t
  | cons {t t1 t2 : List Char} {x : V} {xs : List V} : rd t = some (x, t1) → Parsed rd t1 xs t2 → Parsed rd t (x :: xs) t2

end Ra.Spec

namespace Ra.Props
open Spec

section
variable {V : Type} {rd : List Char → Option (V × List Char)}

theorem readEach_bad (n : Nat) (t : List Char) : Stream.readEach rd n ⟨t, false⟩ = (List.replicate n none, ⟨t, false⟩) := by
  induction n with
  | zero => rfl
  | succ n ih => simp [Stream.readEach, Stream.read, ih, List.replicate_succ]

theorem readEach_short {t t' : List Char} {xs : List V} (h : Parsed rd t xs t') (h0 : rd t' = none) {n : Nat} (hn : xs.length < n) :
    Stream.readEach rd n ⟨t, true⟩ = (xs.map some ++ List.replicate (n - xs.length) none, ⟨t', false⟩) := by
  induction h generalizing n with
  | nil t =>
    obtain ⟨n, rfl⟩ : ∃ k, n = k + 1 := ⟨n - 1, by simp at hn; omega⟩
    simp [Stream.readEach, Stream.read, h0, readEach_bad, List.replicate_succ]
  | cons hx _ ih =>
    obtain ⟨n, rfl⟩ : ∃ k, n = k + 1 := ⟨n - 1, by simp at hn; omega⟩
    simp only [List.length_cons, Nat.add_lt_add_iff_right] at hn
    simp [Stream.readEach, Stream.read, hx, ih h0 hn]

theorem readEach_all {t t' : List Char} {xs : List V} (h : Parsed rd t xs t') : Stream.readEach rd xs.length ⟨t, true⟩ = (xs.map some, ⟨t', true⟩) := by
  induction h with
  | nil t => rfl
  | cons hx _ ih => simp [Stream.readEach, Stream.read, hx, ih]

/-- C50. From a stream that isn't good nothing is read, and neither arrays nor vectors change. -/
theorem C50_bad_stream (rank : Option Nat) (t : List Char) :
    Stream.readArray rank rd ⟨t, false⟩ = .ok (none, ⟨t, false⟩) ∧ Stream.readVector rd ⟨t, false⟩ = .ok (none, ⟨t, false⟩) := by
  cases rank <;>
    simp [Stream.readArray, Stream.readShape, Stream.readVector, Stream.read, readEach_bad, bind, Except.bind, pure, Except.pure]

/-- C50. If one of the lengths can't be read then the array isn't changed, and the stream isn't good; for static rank `r`. -/
theorem C50_short_shape (r : Nat) (t t' : List Char) (l : List Int) (h : Parsed readInt t l t') (h0 : readInt t' = none) (hl : l.length < r) :
    Stream.readArray (some r) rd ⟨t, true⟩ = .ok (none, ⟨t', false⟩) := by
  simp [Stream.readArray, Stream.readShape, readEach_short h h0 hl, bind, Except.bind]

/-- C50. The same for dynamic rank: the rank can't be read, or one of as many lengths. -/
theorem C50_short_shape_anyrank (t : List Char) :
    (readInt t = none → Stream.readArray none rd ⟨t, true⟩ = .ok (none, ⟨t, false⟩) ∧ Stream.readVector rd ⟨t, true⟩ = .ok (none, ⟨t, false⟩)) ∧
    ∀ (r : Nat) t1 t' (l : List Int), readInt t = some ((r : Int), t1) → Parsed readInt t1 l t' → readInt t' = none → l.length < r →
      Stream.readArray none rd ⟨t, true⟩ = .ok (none, ⟨t', false⟩) := by
  constructor
  · intro h
    simp [Stream.readArray, Stream.readShape, Stream.readVector, Stream.read, h, bind, Except.bind, pure, Except.pure]
  · intro r t1 t' l h1 h2 h3 h4
    simp [Stream.readArray, Stream.readShape, Stream.readVector, Stream.read, h1, readEach_short h2 h3 h4, bind, Except.bind, pure, Except.pure]

/-- C50. If the lengths can be read, then the array gets that shape; but if an element can't be read then the stream isn't good, and only the elements before are read. -/
theorem C50_short_elements (s : List Nat) (t t1 t' : List Char) (xs : List V) (hs : Parsed readInt t (s.map Nat.cast) t1) (hx : Parsed rd t1 xs t') (h0 : rd t' = none)
    (hl : xs.length < size s) :
    Stream.readArray (some s.length) rd ⟨t, true⟩ = .ok (some (s.map Nat.cast, xs.map some ++ List.replicate (size s - xs.length) none), ⟨t', false⟩) := by
  have e := readEach_all hs
  rw [List.length_map] at e
  have hf : (s.map (Nat.cast : Nat → Int)).foldl (· * ·) 1 = (size s : Int) := by
    have : ∀ (l : List Nat) (k : Int), (l.map (Nat.cast : Nat → Int)).foldl (· * ·) k = k * size l := by
      intro l
      induction l with
      | nil => intro k; simp [size]
      | cons n l ih => intro k; simp [size, ih, mul_assoc]
    rw [this, one_mul]
  simp only [Stream.readArray, Stream.readShape, bind, Except.bind, e, if_true, List.map_map]
  have hm : (s.map (Nat.cast : Nat → Int)).map (fun x => (some x).getD 0) = s.map Nat.cast := by simp
  simp only [Function.comp_def, Option.getD_some]
  rw [if_pos (by simp), hf, Int.toNat_natCast, readEach_short hx h0 hl]

end

/-- The text "2 3\n1 2 x": the shape is read, but only two of the elements. -/
example : Stream.readArray (some 2) readInt ⟨['2', ' ', '3', '\n', '1', ' ', '2', ' ', 'x'], true⟩ =
    .ok (some ([2, 3], [some 1, some 2, none, none, none, none]), ⟨[' ', 'x'], false⟩) :=
  C50_short_elements [2, 3] _ ['\n', '1', ' ', '2', ' ', 'x'] [' ', 'x'] [1, 2]
    (.cons (t1 := [' ', '3', '\n', '1', ' ', '2', ' ', 'x']) rfl (.cons rfl (.nil _))) (.cons (t1 := [' ', '2', ' ', 'x']) rfl (.cons rfl (.nil _))) rfl (by decide)
/-- The text "2 x": the second length can't be read. -/
example : Stream.readArray (some 2) readInt ⟨['2', ' ', 'x'], true⟩ = .ok (none, ⟨[' ', 'x'], false⟩) :=
  C50_short_shape 2 _ [' ', 'x'] [2] (.cons rfl (.nil _)) rfl (by decide)

end Ra.Props
