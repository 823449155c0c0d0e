import Verif.Spec.Test
import Verif.Props.Assign
import Mathlib.Data.List.Sort
import Mathlib.Data.List.Induction
import Mathlib.Algebra.Order.Field.Rat
import Mathlib.Tactic.NormNum
import Mathlib.Tactic.FieldSimp
import Mathlib.Tactic.Linarith
/-!
# Test recorder and median: C53, C54
-/

namespace Ra.Props
open Spec

/-! ## C53 -/

/-- The state after the tests in `R` and then the modifiers in `since`. -/
structure Tracks (v : Verbose) (r : Recorder) (since : List RecorderOp) (R : List Record) : Prop where
  dft : r.verboseDefault = v
  verbose : r.verbose = verboseIn v since
  skip : r.willskip = skipIn since
  strict : r.willstrict = strictIn since
  expectfail : r.willexpectfail = expectfailIn since
  total : r.total = R.length
  skipped : r.skipped = R.countP fun t => t.skip
  passedGood : r.passedGood = R.countP fun t => !t.skip && t.success && !t.expectfail
  passedBad : r.passedBad = R.countP fun t => !t.skip && t.success && t.expectfail
  failedGood : r.failedGood = R.countP fun t => !t.skip && !t.success && t.expectfail
  failedBad : r.failedBad = R.countP fun t => !t.skip && !t.success && !t.expectfail
  bad : r.bad.reverse = occurrences (fun t => !t.skip && t.unexpected) R
  reports : r.reports.reverse = R.map Record.shows

theorem occurrences_append {α : Type} (p : α → Bool) (l : List α) (a : α) :
    occurrences p (l ++ [a]) = occurrences p l ++ if p a then [l.length] else [] := by
  simp only [occurrences, List.length_append, List.length_singleton, List.range_succ, List.filter_append]
  congr 1
  · refine List.filter_congr fun i hi => ?_
    rw [List.getElem?_append_left (List.mem_range.mp hi)]
  · simp only [List.filter_cons, List.filter_nil]
    simp

theorem lastOr_append {α : Type} (l : List α) (a d : α) : lastOr (l ++ [a]) d = a := by simp [lastOr]

theorem tracks_test {v : Verbose} {r : Recorder} {since : List RecorderOp} {R : List Record} (h : Tracks v r since R) (c : Bool) :
    Tracks v (r.test c) [] (R ++ [⟨c, skipIn since, expectfailIn since, verboseIn v since⟩]) := by
  obtain ⟨h1, h2, h3, h4, h5, h6, h7, h8, h9, h10, h11, h12, h13⟩ := h
  rw [← h2, ← h3, ← h5]
  have hrep : r.report c = Record.shows ⟨c, r.willskip, r.willexpectfail, r.verbose⟩ := by
    simp only [Recorder.report, Record.shows, Record.unexpected]
    cases r.verbose <;> cases c <;> cases r.willexpectfail <;> rfl
  have hrs : (r.test c).reports = r.report c :: r.reports := by
    cases hs : r.willskip <;> cases he : r.willexpectfail <;> cases c <;> simp [Recorder.test, hs, he]
  cases hs : r.willskip <;> cases he : r.willexpectfail <;> cases c <;>
    (rw [hs, he] at hrep
     refine ⟨?_, ?_, ?_, ?_, ?_, ?_, ?_, ?_, ?_, ?_, ?_, ?_, by rw [hrs, List.reverse_cons, h13, hrep, List.map_append]; rfl⟩ <;>
      simp [Recorder.test, hs, he, occurrences_append, h1, h6, h7, h8, h9, h10, h11, h12, verboseIn, skipIn, strictIn, expectfailIn, lastOr, Record.unexpected])

theorem tracks_run (v : Verbose) (l : List RecorderOp) : ∀ (r : Recorder) (since : List RecorderOp) (R : List Record), Tracks v r since R →
    ∃ since', Tracks v (r.run l) since' (R ++ records v since l) := by
  induction l with
  | nil => intro r since R h; exact ⟨since, by simpa [Recorder.run, records] using h⟩
  | cons o l ih =>
    intro r since R h
    have step : ∀ r' since' R', Tracks v r' since' R' → r.step o = r' → R' ++ records v since' l = R ++ records v since (o :: l) →
        ∃ since', Tracks v (r.run (o :: l)) since' (R ++ records v since (o :: l)) := by
      intro r' since' R' h' hr hR
      obtain ⟨s, hs⟩ := ih r' since' R' h'
      refine ⟨s, ?_⟩
      rw [← hR]
      simpa [Recorder.run, hr] using hs
    obtain ⟨h1, h2, h3, h4, h5, h6, h7, h8, h9, h10, h11, h12, h13⟩ := h
    cases o with
    | test c => exact step _ _ _ (tracks_test ⟨h1, h2, h3, h4, h5, h6, h7, h8, h9, h10, h11, h12, h13⟩ c) rfl (by simp [records, outcome])
    | compare agree same all =>
      refine step _ _ _ (tracks_test ⟨h1, h2, h3, h4, h5, h6, h7, h8, h9, h10, h11, h12, h13⟩ ((if strictIn since then same else agree) && all)) ?_ (by simp [records, outcome])
      simp only [Recorder.step, Recorder.compare, h4]
      cases (if strictIn since then same else agree) <;> cases all <;> rfl
    | skip b =>
      refine step { r with willskip := b } (since ++ [.skip b]) R ?_ rfl (by simp [records, outcome])
      constructor <;> simp_all [verboseIn, skipIn, strictIn, expectfailIn, lastOr_append]
    | strict b =>
      refine step { r with willstrict := b } (since ++ [.strict b]) R ?_ rfl (by simp [records, outcome])
      constructor <;> simp_all [verboseIn, skipIn, strictIn, expectfailIn, lastOr_append]
    | expectfail b =>
      refine step { r with willexpectfail := b } (since ++ [.expectfail b]) R ?_ rfl (by simp [records, outcome])
      constructor <;> simp_all [verboseIn, skipIn, strictIn, expectfailIn, lastOr_append]
    | verbose w =>
      refine step { r with verbose := w } (since ++ [.verbose w]) R ?_ rfl (by simp [records, outcome])
      constructor <;> simp_all [verboseIn, skipIn, strictIn, expectfailIn, lastOr_append]

theorem tracks_start (v : Verbose) : Tracks v (.start v) [] [] := by
  constructor <;> simp [Recorder.start, verboseIn, skipIn, strictIn, expectfailIn, lastOr, occurrences]

theorem tracks (v : Verbose) (l : List RecorderOp) : ∃ since, Tracks v ((Recorder.start v).run l) since (records v [] l) := by
  simpa using tracks_run v l _ _ _ (tracks_start v)

/-- C53. After any sequence of calls, each counter is the number of tests of its kind. The modifiers that apply to a test are those since the test before it. -/
theorem C53_counters (v : Verbose) (l : List RecorderOp) :
    let r := (Recorder.start v).run l
    let R := records v [] l
    r.total = R.length ∧ r.skipped = R.countP (fun t => t.skip) ∧
    r.passedGood = R.countP (fun t => !t.skip && t.success && !t.expectfail) ∧ r.passedBad = R.countP (fun t => !t.skip && t.success && t.expectfail) ∧
    r.failedGood = R.countP (fun t => !t.skip && !t.success && t.expectfail) ∧ r.failedBad = R.countP (fun t => !t.skip && !t.success && !t.expectfail) := by
  obtain ⟨_, h⟩ := tracks v l
  exact ⟨h.total, h.skipped, h.passedGood, h.passedBad, h.failedGood, h.failedBad⟩

/-- C53. Each test is counted once. -/
theorem C53_once (v : Verbose) (l : List RecorderOp) :
    let r := (Recorder.start v).run l
    r.skipped + r.passedGood + r.passedBad + r.failedGood + r.failedBad = r.total := by
  obtain ⟨h1, h2, h3, h4, h5, h6⟩ := C53_counters v l
  simp only
  rw [h1, h2, h3, h4, h5, h6]
  generalize records v [] l = R
  induction R with
  | nil => rfl
  | cons t R ih =>
    obtain ⟨c, s, e, w⟩ := t
    simp only [List.countP_cons, List.length_cons]
    cases c <;> cases s <;> cases e <;> simp <;> omega

theorem countP_occurrences {α : Type} (p : α → Bool) (l : List α) : (occurrences p l).length = l.countP p := by
  induction l using List.reverseRecOn with
  | nil => rfl
  | append_singleton l a ih =>
    rw [occurrences_append, List.length_append, ih, List.countP_append]
    cases h : p a <;> simp [h]

/-- C53. `summary()` is the number of tests that weren't skipped and whose outcome wasn't the expected one. Those are the ones listed, by their positions. -/
theorem C53_summary (v : Verbose) (l : List RecorderOp) :
    let r := (Recorder.start v).run l
    let R := records v [] l
    r.summary = R.countP (fun t => !t.skip && t.unexpected) ∧ r.bad.reverse = occurrences (fun t => !t.skip && t.unexpected) R := by
  obtain ⟨_, h⟩ := tracks v l
  refine ⟨?_, h.bad⟩
  rw [Recorder.summary, ← List.length_reverse, h.bad, countP_occurrences]

/-- C53. What's printed for each test. -/
theorem C53_reports (v : Verbose) (l : List RecorderOp) : ((Recorder.start v).run l).reports.reverse = (records v [] l).map Record.shows := by
  obtain ⟨_, h⟩ := tracks v l
  exact h.reports

/-- A history with every kind of test: passed, skipped, failed as expected, passed when expected to fail, a strict comparison of shapes that agree. -/
def egTests : List RecorderOp :=
  [.test true, .skip true, .test false, .expectfail true, .test false, .expectfail true, .test true, .strict true, .compare true false true, .compare true false true]

example : (records .errors [] egTests).length = 6 ∧ ((Recorder.start .errors).run egTests).summary = 2 ∧ ((Recorder.start .errors).run egTests).bad = [4, 3] := by decide

section
variable {m : Type → Type} {α : Type} [Monad m] [LawfulMonad m] [MonadFault m] [Boolean α] [Optional α Bool]

omit [Monad m] [LawfulMonad m] [MonadFault m] [Boolean α] [Optional α Bool] in
theorem shape_of {a : Iter m α} {s : List Length} (h : HasShape a s) : a.shape = s.map lenVal := by
  have hr : a.rank = s.length := h.fits.1
  refine List.ext_getElem? fun k => ?_
  rw [Iter.shape, hr]
  by_cases hk : k < s.length
  · have := h.fits.2 k hk
    simp only [List.getElem?_map] at this ⊢
    rw [this]
    simp [hk]
  · rw [List.getElem?_eq_none (by simpa using hk), List.getElem?_eq_none (by simpa using hk)]

omit [Monad m] [LawfulMonad m] [MonadFault m] [Boolean α] [Optional α Bool] in
theorem same_shape {a b : Iter m α} {sa sb : List Length} (ha : HasShape a sa) (hb : HasShape b sb) : (a.rank == b.rank && a.shape == b.shape) = decide (sa = sb) := by
  rw [Bool.eq_iff_iff, decide_eq_true_iff, Bool.and_eq_true, beq_iff_eq, beq_iff_eq, shape_of ha, shape_of hb, ha.fits.1, hb.fits.1]
  constructor
  · rintro ⟨-, h⟩
    exact List.map_injective_iff.mpr (fun _ _ => lenVal_inj) h
  · rintro rfl; exact ⟨rfl, rfl⟩

/-- C53. A comparison (`test_eq(ref, a)`, etc.) of expressions of shapes that agree gives true if and only if every pair of elements compares, and the shapes are the same if it's strict. -/
theorem C53_compare (dyn : Bool) (z : List Int) (hz : ∀ i ∈ z, i = 0) (strict : Bool) (comp : List α → m α) (c : α → α → α) (hc : ∀ x y, comp [x, y] = pure (c x y))
    (a b : Iter m α) (sa sb : List Length) (s : List Nat) (f g : List Int → α) (ha : HasShape a sa) (hb : HasShape b sb) (hm : Merge [sa, sb] (s.map some))
    (hf : ∀ j, Valid s j → elem a j = pure (f j)) (hg : ∀ j, Valid s j → elem b j = pure (g j)) :
    ∃ r : Bool, testComp dyn z strict comp a b = pure r ∧ (r = true ↔ (strict = true → sa = sb) ∧ ∀ j, Valid s j → toBool (c (f j) (g j)) = true) := by
  obtain ⟨r, hr, hr'⟩ := C35_every dyn z hz (.node (mapOp comp) [a, b]) s (fun j => c (f j) (g j)) ⟨shape_two ha hb hm, fun j hj => by
    simp [elem, elems, mapOp, hf j hj, hg j hj, hc]⟩
  have hag : agree [a, b] = true := (C03_agree [a, b] [sa, sb] ⟨sa, [sb], rfl, ha, sb, [], rfl, hb, rfl⟩ (by simp)).mpr ⟨s, hm⟩
  unfold testComp
  rw [same_shape ha hb, hag]
  cases strict
  · exact ⟨r, by simpa using hr, by simpa using hr'⟩
  · by_cases hs : sa = sb
    · exact ⟨r, by simpa [hs] using hr, by simpa [hs] using hr'⟩
    · exact ⟨false, by simp [hs], by simp [hs]⟩

/-- C53. A comparison of expressions whose shapes don't agree, or that are strict and aren't the same, gives false. No element is evaluated. -/
theorem C53_compare_mismatch (dyn : Bool) (z : List Int) (strict : Bool) (comp : List α → m α) (a b : Iter m α) (sa sb : List Length) (ha : HasShape a sa) (hb : HasShape b sb)
    (hm : if strict then sa ≠ sb else ¬ ∃ s : List Nat, Merge [sa, sb] (s.map some)) : testComp dyn z strict comp a b = pure false := by
  unfold testComp
  rw [same_shape ha hb]
  cases strict
  · have : agree [a, b] = false := by
      rw [Bool.eq_false_iff]
      exact fun h => hm ((C03_agree [a, b] [sa, sb] ⟨sa, [sb], rfl, ha, sb, [], rfl, hb, rfl⟩ (by simp)).mp h)
    simp [this]
  · simp only [if_true] at hm
    simp [hm]

end

/-- `test_eq` of a 2x2 array and a scalar, with `ne` for elements that aren't zero. -/
example := C53_compare (m := Except Fault) true [0, 0, 0, 0] (by simp) false
  (fun (xs : List Int) => match xs with | [x, y] => pure (if x = y then 1 else 0) | _ => .error .abort) (fun x y : Int => if x = y then 1 else 0) (fun _ _ => rfl)
  exRed (.scalar (pure 5)) [some 2, some 2] [] [2, 2] _ (fun _ => 5) exRed_holds.1 rfl (by
    refine ⟨by simp, ⟨_, List.mem_cons_self, rfl⟩, fun k n => ?_⟩
    simp) exRed_holds.2 (fun _ _ => rfl)

example : testComp (m := Except Fault) true [0, 0, 0, 0] true (fun _ => .error .abort) exRed (.scalar (pure 5)) = .ok false :=
  C53_compare_mismatch true _ true _ exRed (.scalar (pure 5)) [some 2, some 2] [] exRed_holds.1 rfl (by simp)

/-! ## C54 -/

section
variable {F : Type} [Field F] [LinearOrder F] [IsStrictOrderedRing F]

omit [IsStrictOrderedRing F] [Field F] in
theorem nth_sorted {t u s : List F} {n : Nat} (h : NthElement t u n) (hs : s.Perm t) (hp : s.Pairwise (· ≤ ·)) : u[n]? = s[n]? := by
  obtain ⟨hu, hle⟩ := h
  by_cases hn : n < u.length
  · have hd : u = u.take n ++ u[n] :: u.drop (n + 1) := by
      rw [List.getElem_cons_drop, List.take_append_drop]
    obtain ⟨a, ha, hap⟩ : ∃ a : List F, a.Perm (u.take n) ∧ a.Pairwise (· ≤ ·) :=
      ⟨_, List.mergeSort_perm _ (fun x y => decide (x ≤ y)), by
        have := List.pairwise_mergeSort (le := fun x y : F => decide (x ≤ y)) (fun _ _ _ => by simpa using le_trans) (fun x y => by simpa using le_total x y) (u.take n)
        simpa using this⟩
    obtain ⟨b, hb, hbp⟩ : ∃ b : List F, b.Perm (u.drop (n + 1)) ∧ b.Pairwise (· ≤ ·) :=
      ⟨_, List.mergeSort_perm _ (fun x y => decide (x ≤ y)), by
        have := List.pairwise_mergeSort (le := fun x y : F => decide (x ≤ y)) (fun _ _ _ => by simpa using le_trans) (fun x y => by simpa using le_total x y) (u.drop (n + 1))
        simpa using this⟩
    have hlow : ∀ x ∈ a, x ≤ u[n] := by
      intro x hx
      obtain ⟨i, hi, rfl⟩ := List.mem_iff_getElem.mp (ha.mem_iff.mp hx)
      have hi' : i < n := by simp at hi; omega
      exact hle i n _ _ (by rw [List.getElem_take, List.getElem?_eq_getElem]) (List.getElem?_eq_getElem hn) (.inl ⟨hi'.le, rfl⟩)
    have hhigh : ∀ x ∈ b, u[n] ≤ x := by
      intro x hx
      obtain ⟨i, hi, rfl⟩ := List.mem_iff_getElem.mp (hb.mem_iff.mp hx)
      exact hle n (n + 1 + i) _ _ (List.getElem?_eq_getElem hn) (by rw [List.getElem_drop, List.getElem?_eq_getElem]) (.inr ⟨rfl, by omega⟩)
    have hperm : (a ++ u[n] :: b).Perm s := by
      refine (ha.append (hb.cons _)).trans ?_
      rw [← hd]
      exact hu.trans hs.symm
    have hpair : (a ++ u[n] :: b).Pairwise (· ≤ ·) := by
      refine List.pairwise_append.mpr ⟨hap, List.pairwise_cons.mpr ⟨hhigh, hbp⟩, fun x hx y hy => ?_⟩
      rcases List.mem_cons.mp hy with rfl | hy
      · exact hlow x hx
      · exact (hlow x hx).trans (hhigh y hy)
    have heq := List.Perm.eq_of_pairwise (fun x y _ _ hxy hyx => le_antisymm hxy hyx) hpair hp hperm
    have hla : a.length = n := by rw [ha.length_eq, List.length_take]; omega
    rw [← heq, List.getElem?_append_right (by omega), hla, Nat.sub_self, List.getElem?_cons_zero, List.getElem?_eq_getElem hn]
  · have : s.length = u.length := by rw [hs.length_eq, hu.length_eq]
    rw [List.getElem?_eq_none (by omega), List.getElem?_eq_none (by omega)]

omit [IsStrictOrderedRing F] in
/-- C54. For two samples or more the result is the one in the middle by size; for an even number, the larger of the two in the middle. -/
theorem C54_upper (nth : List F → Nat → List F) (hn : ∀ t n, n < t.length → NthElement t (nth t n) n) (t s : List F) (ht : 2 ≤ t.length) (hs : s.Perm t) (hp : s.Pairwise (· ≤ ·)) :
    ∃ x, median nth t = .ok x ∧ s[t.length / 2]? = some x := by
  have h := hn t (t.length / 2) (by omega)
  have hl := h.1.length_eq
  obtain ⟨x, hx⟩ : ∃ x, (nth t (t.length / 2))[t.length / 2]? = some x := ⟨_, List.getElem?_eq_getElem (by omega)⟩
  refine ⟨x, ?_, (nth_sorted h hs hp).symm.trans hx⟩
  have he : t.isEmpty = false := by cases t with
    | nil => simp at ht
    | cons => rfl
  have hx1 : t.length ^^^ 1 ≠ 0 := by
    intro h0
    have h1 : t.length = (t.length ^^^ 1) ^^^ 1 := by rw [Nat.xor_assoc, Nat.xor_self, Nat.xor_zero]
    rw [h0] at h1
    simp at h1
    omega
  simp only [median, he, Bool.false_eq_true, if_false]
  rw [hl, if_pos hx1, hx]

omit [IsStrictOrderedRing F] in
/-- C54. For an odd number of samples, other than one, the result is the median, and for none it's zero. The full property is false of the code, see below. -/
theorem C54_partial (nth : List F → Nat → List F) (hn : ∀ t n, n < t.length → NthElement t (nth t n) n) (t : List F) (hodd : t.length % 2 = 1) (hone : t.length ≠ 1) :
    median nth [] = .ok 0 ∧ ∃ x, median nth t = .ok x ∧ IsMedian t x := by
  refine ⟨rfl, ?_⟩
  obtain ⟨x, hx, -⟩ := C54_upper nth hn t _ (by omega) (List.mergeSort_perm t (fun x y => decide (x ≤ y))) (by
    have := List.pairwise_mergeSort (le := fun x y : F => decide (x ≤ y)) (fun _ _ _ => by simpa using le_trans) (fun x y => by simpa using le_total x y) t
    simpa using this)
  refine ⟨x, hx, fun s hs hp => ?_⟩
  obtain ⟨y, hy, hsy⟩ := C54_upper nth hn t s (by omega) hs hp
  obtain rfl : x = y := by rw [hx] at hy; exact Except.ok.inj hy
  rw [← hs.length_eq] at hodd hsy
  exact ⟨fun _ => hsy, fun h => by omega⟩

omit [IsStrictOrderedRing F] in
/-- C54. False of the code. For a single sample, the position before the first is read. -/
theorem C54_one_negation (nth : List F → Nat → List F) (hn : ∀ t n, n < t.length → NthElement t (nth t n) n) (x : F) : median nth [x] = .error .ub := by
  have hl : (nth [x] 0).length = 1 := (hn [x] 0 (by simp)).1.length_eq
  simp [median, hl]

/-- C54. False of the code. For an even number of samples the result isn't the median, unless the two in the middle are the same. -/
theorem C54_even_negation (nth : List F → Nat → List F) (hn : ∀ t n, n < t.length → NthElement t (nth t n) n) (t s : List F) (x a b : F) (h0 : t ≠ []) (heven : t.length % 2 = 0)
    (hs : s.Perm t) (hp : s.Pairwise (· ≤ ·)) (ha : s[t.length / 2 - 1]? = some a) (hb : s[t.length / 2]? = some b) (hab : a ≠ b) (hx : median nth t = .ok x) :
    ¬ IsMedian t x := by
  intro h
  have hpos : 0 < t.length := List.length_pos_iff.mpr h0
  obtain ⟨y, hy, hsy⟩ := C54_upper nth hn t s (by omega) hs hp
  obtain rfl : x = y := by rw [hx] at hy; exact Except.ok.inj hy
  obtain rfl : b = x := by rw [hb] at hsy; exact Option.some.inj hsy
  obtain ⟨c, d, hc, hd, he⟩ := (h s hs hp).2 (by rw [hs.length_eq]; exact heven)
  rw [hs.length_eq] at hc hd
  obtain rfl : a = c := by rw [ha] at hc; exact Option.some.inj hc
  obtain rfl : b = d := by rw [hb] at hd; exact Option.some.inj hd
  apply hab
  have h2 : (2 : F) ≠ 0 := two_ne_zero
  field_simp at he
  linarith

end

/-- Sorting is a valid `nth_element`. -/
def sortNth (t : List ℚ) (_ : Nat) : List ℚ := t.mergeSort fun x y => decide (x ≤ y)

theorem sortNth_nth (t : List ℚ) (n : Nat) (_ : n < t.length) : NthElement t (sortNth t n) n := by
  refine ⟨List.mergeSort_perm _ _, fun i j x y hi hj h => ?_⟩
  have hp : (sortNth t n).Pairwise (· ≤ ·) := by
    have := List.pairwise_mergeSort (le := fun x y : ℚ => decide (x ≤ y)) (fun _ _ _ => by simpa using le_trans) (fun x y => by simpa using le_total x y) t
    simpa [sortNth] using this
  obtain ⟨hi', rfl⟩ := List.getElem?_eq_some_iff.mp hi
  obtain ⟨hj', rfl⟩ := List.getElem?_eq_some_iff.mp hj
  rcases eq_or_ne i j with rfl | hne
  · exact le_refl _
  · exact List.pairwise_iff_getElem.mp hp i j hi' hj' (by omega)

example : ∃ x, median sortNth [3, 1, 2] = .ok x ∧ IsMedian [3, 1, 2] x := (C54_partial sortNth sortNth_nth [3, 1, 2] rfl (by decide)).2

example : median sortNth [7] = .error .ub := C54_one_negation sortNth sortNth_nth 7

example : ∃ x, median sortNth [1, 2] = .ok x ∧ ¬ IsMedian [1, 2] x := by
  obtain ⟨x, hx, -⟩ := C54_upper sortNth sortNth_nth [1, 2] [1, 2] (by decide) (.refl _) (by simp)
  exact ⟨x, hx, C54_even_negation sortNth sortNth_nth [1, 2] [1, 2] x 1 2 (by simp) rfl (.refl _) (by simp) rfl rfl (by norm_num) hx⟩

end Ra.Props
