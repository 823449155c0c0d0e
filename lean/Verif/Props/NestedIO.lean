import Verif.Model.NestedIO
import Verif.Props.DualIO
import Verif.Props.Reshape
import Verif.Props.ViewOps
/-!
# C99: arrays of arrays, and several in turn, read back as they're printed
-/

namespace Ra.Spec

/-- The shape of an array is one that its type allows. -/
def AKind.Allows : AKind → List Nat → Prop
  | .static s, s' => s' = s
  | .rank r, s' => s'.length = r
  | .any, _ => True

/-- The object is one of its type: in each array, at every level, the shape is allowed and there are as many elements as it says. -/
def AType.Is {V : Type} : (t : AType) → t.Val V → Prop
  | .elem, _ => True
  | .array k t, a => AKind.Allows k (show Items _ from a).shape ∧ (show Items _ from a).elems.length = size (show Items _ from a).shape ∧ ∀ x ∈ (show Items _ from a).elems, AType.Is t x

/-- When all of an object has been read. -/
def AType.all {V : Type} : (t : AType) → t.Val V → t.Got V
  | .elem, x => some (show V from x)
  | .array _ t, a => some ((show Items _ from a).shape.map Nat.cast, (show Items _ from a).elems.map (AType.all t))

/-- The values, each after some string: the arguments of `print`. -/
def args {V : Type} (l : List (List Char × (t : AType) × t.Val V)) : List (PArg V) := l.flatMap fun p => [.str p.1, .val p.2.1 p.2.2]

/-- The strings are white space, and there's at least one space in each but the first. -/
def SpacedOut {V : Type} (l : List (List Char × (t : AType) × t.Val V)) : Prop := (∀ p ∈ l, White p.1) ∧ ∀ p ∈ l.tail, p.1 ≠ []

end Ra.Spec

namespace Ra.Props
open Spec

section
variable {V : Type} {print : V → List Char} {rd : List Char → Option (V × List Char)}

theorem readAll_spaced {X W : Type} {get : Stream → Except Fault (W × Stream)} {txt : X → List Char} {got : X → W} (l : List X)
    (hx : ∀ x ∈ l, ∀ w r, White w → Ends r → ∃ v, White v ∧ get ⟨w ++ txt x ++ r, true⟩ = .ok (got x, ⟨v ++ r, true⟩)) (t r : List Char) (h : Spaced (l.map txt) t) (hr : Ends r) :
    ∃ w, White w ∧ Stream.readAll get l.length ⟨t ++ r, true⟩ = .ok (l.map got, ⟨w ++ r, true⟩) := by
  induction l generalizing t with
  | nil =>
    cases h with
    | nil h => exact ⟨t, h, rfl⟩
  | cons x l ih =>
    rw [List.map_cons] at h
    cases h with
    | @cons w _ _ u h1 h2 h3 =>
      obtain ⟨v, hv, h4⟩ := hx x (by simp) w (u ++ r) h1 (ends_append h2 hr)
      obtain ⟨q, hq, h5⟩ := ih (fun y hy => hx y (by simp [hy])) (v ++ u) (h3.before hv)
      refine ⟨q, hq, ?_⟩
      rw [← List.append_assoc] at h4
      rw [List.append_assoc v] at h5
      simp only [List.length_cons, Stream.readAll, h4, h5, bind, Except.bind, List.map_cons]

theorem rowMajor_elems {X : Type} (s : List Nat) (l : List X) (hl : l.length = size s) : ((rowMajor s).map fun j => l[(position s j).toNat]?) = l.map some := by
  have : (fun j => l[(position s j).toNat]?) = (fun p : Int => l[p.toNat]?) ∘ position s := rfl
  rw [this, ← List.map_map, C58_onto, List.map_map]
  apply List.ext_getElem
  · simp [hl]
  · intro i h1 h2
    simp at h1 h2
    simp [h2]

/-- The text of something, or nothing. -/
def textD (print : V → List Char) (t : AType) (x : t.Val V) : List Char :=
  match t.text print x with
  | .ok s => s
  | .error _ => []

/-- What's printed for an array is as in C51. -/
theorem text_array (k : AKind) (t : AType) (a : Items (t.Val V)) (hl : a.elems.length = size a.shape) (hx : ∀ x ∈ a.elems, t.text print x = .ok (textD print t x)) :
    ∃ f : List Int → List Char, (rowMajor a.shape).map f = a.elems.map (textD print t) ∧
      AType.text print (.array k t) a = .ok ((if k.anysize then header k.anyrank a.shape else []) ++ render jstyle 0 a.shape f) := by
  obtain ⟨v, h1, h2, h3⟩ := C58_dims a.shape 0
  refine ⟨fun j => ((a.elems[(position a.shape j).toNat]?).map (textD print t)).getD [], ?_, ?_⟩
  · have : (fun j => ((a.elems[(position a.shape j).toNat]?).map (textD print t)).getD []) = (fun o : Option (t.Val V) => (o.map (textD print t)).getD []) ∘ fun j => a.elems[(position a.shape j).toNat]? := rfl
    rw [this, ← List.map_map, rowMajor_elems _ _ hl, List.map_map]
    rfl
  · simp only [AType.text, h1, bind, Except.bind]
    refine (C51_values jstyle id k.anysize k.anyrank _ a.shape (fun j => ((a.elems[(position a.shape j).toNat]?).map (textD print t)).getD []) (And.intro (show HasShape (.cell v.dims v.cp _) _ from h2) ?_)).trans ?_
    · intro j hj
      have h4 := h3 j hj
      rw [address] at h4
      obtain ⟨p0, p1⟩ := position_bounds hj
      have p2 : (position a.shape j).toNat < a.elems.length := by omega
      simp only [elem, h4, zero_add]
      rw [if_neg (by omega), List.getElem?_eq_getElem p2]
      simp [hx _ (List.getElem_mem p2), pure, Except.pure]
    · simp only [Format.showsShape, jstyle, pure, Except.pure, id]
      rfl

theorem readShape_header (anyrank : Bool) (s : List Nat) (w u : List Char) (hw : White w) : ∃ v, White v ∧
    Stream.readShape (if anyrank then none else some s.length) ⟨w ++ header anyrank s ++ u, true⟩ = .ok (s.map fun (n : Nat) => (n : Int), ⟨v ++ u, true⟩) := by
  have hn : White ['\n'] := by simp [White]; decide
  cases anyrank with
  | false =>
    obtain ⟨v, hv, h⟩ := readEach_spaced int_roundTrips (s.map fun (n : Nat) => (n : Int)) _ ('\n' :: u) ((spaced_lengths s).before hw) (ends_newline u)
    rw [List.length_map] at h
    refine ⟨v ++ ['\n'], white_append hv hn, ?_⟩
    have e : w ++ header false s ++ u = w ++ between [' '] (s.map decimal) ++ '\n' :: u := by simp [header]
    rw [e]
    simp only [Stream.readShape, Bool.false_eq_true, if_false]
    rw [h]
    simp only [List.map_map, Function.comp_def, Option.getD_some, List.append_assoc, List.singleton_append]
  | true =>
    obtain ⟨v, hv, h⟩ := readEach_spaced int_roundTrips (s.map fun (n : Nat) => (n : Int)) _ ('\n' :: u) ((spaced_lengths s).before hn) (ends_newline u)
    rw [List.length_map] at h
    refine ⟨v ++ ['\n'], white_append hv hn, ?_⟩
    have e : w ++ header true s ++ u = w ++ showInt (s.length : Int) ++ (['\n'] ++ between [' '] (s.map decimal) ++ '\n' :: u) := by simp [header, showInt_nat]
    have h0 := int_roundTrips w (s.length : Int) (['\n'] ++ between [' '] (s.map decimal) ++ '\n' :: u) hw (by
      rw [List.append_assoc]
      exact ends_newline _)
    rw [e]
    simp only [Stream.readShape, if_true, Stream.readVector, Stream.read, h0, bind, Except.bind, pure, Except.pure, Int.natCast_nonneg, Int.toNat_natCast]
    rw [h]
    simp

theorem foldl_size (s : List Nat) : s.foldl (· * ·) 1 = size s := by
  have := foldl_nat s 1
  rw [Nat.cast_one, one_mul] at this
  have h : ∀ (s : List Nat) (b : Nat), (s.map fun (n : Nat) => (n : Int)).foldl (· * ·) (b : Int) = ((s.foldl (· * ·) b : Nat) : Int) := by
    intro s
    induction s with
    | nil => intro b; rfl
    | cons n s ih => intro b; rw [List.map_cons, List.foldl_cons, ← Nat.cast_mul, ih, List.foldl_cons]
  have h1 := h s 1
  rw [Nat.cast_one, this] at h1
  exact_mod_cast h1.symm

theorem readArrayOf_header {W : Type} (anyrank : Bool) (get : Stream → Except Fault (W × Stream)) (s : List Nat) (ys : List W) (u q : List Char) (w : List Char) (hw : White w)
    (h : ∀ v, White v → ∃ p, White p ∧ Stream.readAll get (size s) ⟨v ++ u, true⟩ = .ok (ys, ⟨p ++ q, true⟩)) : ∃ p, White p ∧
    Stream.readArrayOf (if anyrank then none else some s.length) get ⟨w ++ header anyrank s ++ u, true⟩ = .ok (some (s.map Nat.cast, ys), ⟨p ++ q, true⟩) := by
  obtain ⟨v, hv, h1⟩ := readShape_header anyrank s w u hw
  obtain ⟨p, hp, h2⟩ := h v hv
  refine ⟨p, hp, ?_⟩
  have h3 := foldl_nat s 1
  rw [Nat.cast_one, one_mul] at h3
  simp only [Stream.readArrayOf, h1, bind, Except.bind, if_true]
  rw [if_pos (by simp), h3, Int.toNat_natCast, h2]

/-- C99. An array whose elements are arrays, and so on as deep as wanted, with whatever is static in the type of each, reads back as it's printed: the shape of every array in it, and every element.
There may be white space before, and white space or nothing after. -/
theorem C99_nested (hrd : RoundTrips print rd) (t : AType) (x : t.Val V) (hx : AType.Is t x) :
    ∃ s, t.text print x = .ok s ∧ ∀ w r, White w → Ends r → ∃ v, White v ∧ t.read rd ⟨w ++ s ++ r, true⟩ = .ok (AType.all t x, ⟨v ++ r, true⟩) := by
  induction t with
  | elem =>
    refine ⟨print x, rfl, fun w r hw hr => ⟨[], by simp [White], ?_⟩⟩
    simp only [AType.read, Stream.read, if_true, hrd w x r hw hr, AType.all, List.nil_append]
    rfl
  | array k t ih =>
    change Items (t.Val V) at x
    obtain ⟨hk, hl, hx⟩ := hx
    change AKind.Allows k x.shape at hk
    change x.elems.length = size x.shape at hl
    change ∀ y ∈ x.elems, AType.Is t y at hx
    have ht : ∀ y ∈ x.elems, t.text print y = .ok (textD print t y) := by
      intro y hy
      obtain ⟨s, hs, -⟩ := ih y (hx y hy)
      rw [textD, hs]
    have hg : ∀ y ∈ x.elems, ∀ w r, White w → Ends r → ∃ v, White v ∧ t.read rd ⟨w ++ textD print t y ++ r, true⟩ = .ok (AType.all t y, ⟨v ++ r, true⟩) := by
      intro y hy
      obtain ⟨s, hs, h⟩ := ih y (hx y hy)
      rw [textD, hs]
      exact h
    obtain ⟨f, hf, h⟩ := text_array k t x hl ht
    have hsp := spaced_render x.shape 0 f
    rw [hf] at hsp
    have hr : ∀ v r, White v → Ends r → ∃ p, White p ∧ Stream.readAll (t.read rd) (size x.shape) ⟨v ++ (render jstyle 0 x.shape f ++ r), true⟩ = .ok (x.elems.map (AType.all t), ⟨p ++ r, true⟩) := by
      intro v r hv hr
      have := readAll_spaced x.elems hg _ r (hsp.before hv) hr
      rw [hl, List.append_assoc] at this
      exact this
    refine ⟨_, h, fun w r hw hr' => ?_⟩
    cases k with
    | static s =>
      obtain rfl : x.shape = s := hk
      obtain ⟨p, hp, h1⟩ := hr w r hw hr'
      refine ⟨p, hp, ?_⟩
      simp only [AKind.anysize, Bool.false_eq_true, if_false, List.nil_append, AType.read, foldl_size, List.append_assoc, h1, bind, Except.bind]
      rfl
    | rank n =>
      obtain rfl : x.shape.length = n := hk
      obtain ⟨p, hp, h1⟩ := readArrayOf_header false (t.read rd) x.shape (x.elems.map (AType.all t)) (render jstyle 0 x.shape f ++ r) r w hw fun v hv => hr v r hv hr'
      refine ⟨p, hp, ?_⟩
      simp only [AKind.anysize, AKind.anyrank, if_true, AType.read, ← List.append_assoc] at h1 ⊢
      exact h1
    | any =>
      obtain ⟨p, hp, h1⟩ := readArrayOf_header true (t.read rd) x.shape (x.elems.map (AType.all t)) (render jstyle 0 x.shape f ++ r) r w hw fun v hv => hr v r hv hr'
      refine ⟨p, hp, ?_⟩
      simp only [AKind.anysize, AKind.anyrank, if_true, AType.read, ← List.append_assoc] at h1 ⊢
      exact h1

theorem args_cons (p : List Char × (t : AType) × t.Val V) (l : List (List Char × (t : AType) × t.Val V)) : args (p :: l) = .str p.1 :: .val p.2.1 p.2.2 :: args l := rfl

/-- C99. Any number of things printed one after the other read back in turn if there's white space in between. -/
theorem C99_sequence (hrd : RoundTrips print rd) (l : List (List Char × (t : AType) × t.Val V)) (hx : ∀ p ∈ l, AType.Is p.2.1 p.2.2) (hl : SpacedOut l) :
    ∃ s, printArgs print (args l) = .ok s ∧ ∀ w r, White w → Ends r → ∃ v, White v ∧
      readArgs rd (l.map fun p => p.2.1) ⟨w ++ s ++ r, true⟩ = .ok (l.map fun p => ⟨p.2.1, AType.all p.2.1 p.2.2⟩, ⟨v ++ r, true⟩) := by
  induction l with
  | nil => exact ⟨[], rfl, fun w r hw _ => ⟨w, hw, by simp [readArgs]⟩⟩
  | cons p l ih =>
    obtain ⟨s, hs, h⟩ := C99_nested hrd p.2.1 p.2.2 (hx p (by simp))
    obtain ⟨u, hu, h'⟩ := ih (fun q hq => hx q (by simp [hq])) ⟨fun q hq => hl.1 q (by simp [hq]), fun q hq => hl.2 q (List.mem_of_mem_tail hq)⟩
    refine ⟨p.1 ++ (s ++ u), ?_, fun w r hw hr => ?_⟩
    · simp [args_cons, printArgs, PArg.text, hs, hu, bind, Except.bind]
    · have he : Ends (u ++ r) := by
        cases l with
        | nil =>
          cases hu
          exact hr
        | cons q l =>
          have hq : q.1 ≠ [] := hl.2 q (by simp)
          have : ∃ u', u = q.1 ++ u' := by
            simp only [args_cons, printArgs, PArg.text, bind, Except.bind] at hu
            split at hu
            · cases hu
            · cases hu
              exact ⟨_, rfl⟩
          obtain ⟨u', rfl⟩ := this
          rw [List.append_assoc]
          exact ends_white (hl.1 q (by simp)) hq _
      obtain ⟨v, hv, h1⟩ := h (w ++ p.1) (u ++ r) (white_append hw (hl.1 p (by simp))) he
      obtain ⟨v', hv', h2⟩ := h' v r hv hr
      refine ⟨v', hv', ?_⟩
      have e : w ++ (p.1 ++ (s ++ u)) ++ r = w ++ p.1 ++ s ++ (u ++ r) := by simp
      rw [List.append_assoc] at h2
      rw [e]
      simp only [List.map_cons, readArgs, h1, bind, Except.bind, h2]

/-- C99. `print` and `format` give the texts of the arguments one after the other. -/
theorem C99_print (as : List (PArg V)) (ts : List (List Char)) (h : as.map (PArg.text print) = ts.map .ok) : printArgs print as = .ok ts.flatten := by
  induction as generalizing ts with
  | nil => cases ts with
    | nil => rfl
    | cons t ts => simp at h
  | cons a as ih =>
    cases ts with
    | nil => simp at h
    | cons t ts =>
      simp only [List.map_cons, List.cons.injEq] at h
      simp [printArgs, h.1, ih ts h.2, bind, Except.bind]

end

/-- C99. White space between them is necessary: 1 and then 2 is read as 12. -/
theorem C99_apart : ∃ l : List (List Char × (t : AType) × t.Val Int), (∀ p ∈ l, AType.Is p.2.1 p.2.2) ∧ (∀ p ∈ l, White p.1) ∧
    ∃ s, printArgs showInt (args l) = .ok s ∧ ∀ v, readArgs readInt (l.map fun p => p.2.1) ⟨s, true⟩ ≠ .ok (l.map fun p => ⟨p.2.1, AType.all p.2.1 p.2.2⟩, v) := by
  refine ⟨[([], ⟨.elem, (1 : Int)⟩), ([], ⟨.elem, (2 : Int)⟩)], by simp [AType.Is], by simp [White], ['1', '2'], by decide +kernel, fun v h => ?_⟩
  have h1 : readArgs readInt [.elem, .elem] ⟨['1', '2'], true⟩ = .ok ([⟨.elem, some (12 : Int)⟩, ⟨.elem, none⟩], ⟨[], false⟩) := rfl
  change readArgs readInt [.elem, .elem] ⟨['1', '2'], true⟩ = _ at h
  rw [h1] at h
  have h2 := (List.cons.inj (Prod.mk.inj (Except.ok.inj h)).1).1
  exact absurd (Option.some.inj (eq_of_heq (Sigma.mk.inj h2).2)) (by decide)

/-- A list of matrices of vectors: `Big<Big<Small<int, 2>>, 1>`, where the matrices have dynamic rank. -/
def egNestType : AType := .array (.rank 1) (.array .any (.array (.static [2]) .elem))

/-- It has a 1 x 2 matrix and an empty one. -/
def egNest : egNestType.Val Int := (⟨[2], [⟨[1, 2], [⟨[2], [3, -4]⟩, ⟨[2], [5, 6]⟩]⟩, ⟨[0, 2], []⟩]⟩ : Items (Items (Items Int)))

theorem egNest_is : AType.Is egNestType egNest := by
  refine ⟨rfl, rfl, List.forall_mem_cons.2 ⟨⟨trivial, rfl, ?_⟩, List.forall_mem_cons.2 ⟨⟨trivial, rfl, by rintro x ⟨⟩⟩, by rintro x ⟨⟩⟩⟩⟩
  exact List.forall_mem_cons.2 ⟨⟨rfl, rfl, fun _ _ => trivial⟩, List.forall_mem_cons.2 ⟨⟨rfl, rfl, fun _ _ => trivial⟩, by rintro x ⟨⟩⟩⟩

example := C99_nested int_roundTrips egNestType egNest egNest_is
example : egNestType.text showInt egNest = .ok
    ['2', '\n', '2', '\n', '1', ' ', '2', '\n', '3', ' ', '-', '4', ' ', '5', ' ', '6', ' ', '2', '\n', '0', ' ', '2', '\n'] := by decide +kernel
example := C99_sequence int_roundTrips [([], ⟨egNestType, egNest⟩), ([' '], ⟨.elem, (7 : Int)⟩), (['\n'], ⟨egNestType, egNest⟩)] (by simp [egNest_is, AType.Is])
  (by simp [SpacedOut, White]; decide)
example := C99_print (print := showInt) [.str ['a', '='], .val .elem (7 : Int)] [['a', '='], ['7']] (by decide +kernel)

end Ra.Props
