import Verif.Model.Test
/-!
# Specification of the accounting of tests

Only the type of the calls is used from the model.
-/

namespace Ra.Spec

/-- A test: if it succeeded, and the modifiers that apply to it. -/
structure Record where
  success : Bool
  skip : Bool
  expectfail : Bool
  verbose : Verbose

/-- The last value, if there's any. -/
def lastOr {α : Type} (l : List α) (d : α) : α := l.getLast?.getD d

/-- The modifiers in a sequence of calls. The last one of each kind applies. -/
def skipIn (l : List RecorderOp) : Bool := lastOr (l.filterMap fun | .skip b => some b | _ => none) false
def strictIn (l : List RecorderOp) : Bool := lastOr (l.filterMap fun | .strict b => some b | _ => none) false
def expectfailIn (l : List RecorderOp) : Bool := lastOr (l.filterMap fun | .expectfail b => some b | _ => none) false
def verboseIn (v : Verbose) (l : List RecorderOp) : Verbose := lastOr (l.filterMap fun | .verbose w => some w | _ => none) v

/-- If a call is a test, whether it succeeds. A comparison succeeds when the shapes agree (are the same, if it's strict) and all of the elements compare. -/
def outcome (strict : Bool) : RecorderOp → Option Bool
  | .test c => some c
  | .compare agree same all => some ((if strict then same else agree) && all)
  | _ => none

/-- The tests in a sequence of calls, where `since` are the calls since the last test. -/
def records (v : Verbose) (since : List RecorderOp) : List RecorderOp → List Record
  | [] => []
  | o :: l =>
    match outcome (strictIn since) o with
    | some c => ⟨c, skipIn since, expectfailIn since, verboseIn v since⟩ :: records v [] l
    | none => records v (since ++ [o]) l

/-- The outcome isn't the expected one. -/
def Record.unexpected (r : Record) : Bool := r.success == r.expectfail

/-- What's to be printed for a test: with `quiet` nothing, unless it fails; with `noisy` all, else all when the outcome isn't the expected one. -/
def Record.shows (r : Record) : Report :=
  match r.verbose, r.success, r.unexpected with
  | .quiet, true, _ => .nothing
  | .quiet, false, _ => .full
  | .noisy, _, _ => .full
  | .errors, _, true => .full
  | .errors, _, false => .min

/-- The positions in the list that satisfy `p`, from the first. -/
def occurrences {α : Type} (p : α → Bool) (l : List α) : List Nat := (List.range l.length).filter fun i => (l[i]?).any p

/-- `t` rearranged by `nth_element` at `n`: the same values, and those before `n` aren't larger than that at `n`, which isn't larger than those after. -/
def NthElement {F : Type} [LE F] (t u : List F) (n : Nat) : Prop :=
  u.Perm t ∧ ∀ i j : Nat, ∀ x y : F, u[i]? = some x → u[j]? = some y → ((i ≤ n ∧ j = n) ∨ (i = n ∧ n ≤ j)) → x ≤ y

/-- The median: with the values in order, the one in the middle, or the mean of the two in the middle. -/
def IsMedian {F : Type} [LE F] [Add F] [Div F] [OfNat F 2] (t : List F) (x : F) : Prop :=
  ∀ s : List F, s.Perm t → s.Pairwise (· ≤ ·) →
    (s.length % 2 = 1 → s[s.length / 2]? = some x) ∧ (s.length % 2 = 0 → ∃ a b, s[s.length / 2 - 1]? = some a ∧ s[s.length / 2]? = some b ∧ x = (a + b) / 2)

end Ra.Spec
