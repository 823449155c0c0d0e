/-!
# Type lists and combinations

Type lists are `List`. `none` is a failing `static_assert` or a template with no definition, that is, an error when compiling.
-/

namespace Ra

variable {α : Type} [DecidableEq α]

/-- ra.hh:464-472 `binom`, the loop. -/
def binomLoop (n p : Nat) : Nat → Nat → Nat → Nat
  | 0, _, v => v
  | fuel + 1, i, v => if i < p then binomLoop n p fuel (i + 1) (v * (n - i) / (i + 1)) else v

/-- ra.hh:464-472 `binom`, without overflow. -/
def binom (n p : Nat) : Nat :=
  if p > n then 0
  else
    let p := if p > n - p then n - p else p
    binomLoop n p p 0 1

/-- ra.hh:464-472 `binom`, with a `std::size_t` of `2^w` values, the loop. Products that do not fit wrap around. -/
def binomLoopW (w n p : Nat) : Nat → Nat → Nat → Nat
  | 0, _, v => v
  | fuel + 1, i, v => if i < p then binomLoopW w n p fuel (i + 1) (v * (n - i) % 2 ^ w / (i + 1)) else v

/-- ra.hh:464-472 `binom`, with a `std::size_t` of `w` bits. -/
def binomW (w n p : Nat) : Nat :=
  if p > n then 0
  else
    let p := if p > n - p then n - p else p
    binomLoopW w n p p 0 1

/-- base.hh:94-96 `mp::iota<n, o>`. -/
def mpIota : Nat → Nat → List Nat
  | 0, _ => []
  | n + 1, o => o :: mpIota n (o + 1)

/-- base.hh:122-125 `mp::index<L, T>`, from `i`. -/
def mpIndexFrom (T : α) : Nat → List α → Int
  | _, [] => -1
  | i, x :: L => if T = x then i else mpIndexFrom T (i + 1) L

/-- base.hh:122-125 `mp::index<L, T>`. -/
def mpIndex (L : List α) (T : α) : Int := mpIndexFrom T 0 L

/-- base.hh:127-130 `mp::indexif<L, Pred>`, from `i`. -/
def mpIndexifFrom {β : Type} (P : β → Bool) : Nat → List β → Int
  | _, [] => -1
  | i, x :: L => if P x then i else mpIndexifFrom P (i + 1) L

/-- base.hh:127-130 `mp::indexif<L, Pred>`. -/
def mpIndexif {β : Type} (P : β → Bool) (L : List β) : Int := mpIndexifFrom P 0 L

/-- base.hh:150-152 `mp::mapcons<c, A>`. -/
def mapcons (c : α) (A : List (List α)) : List (List α) := A.map (c :: ·)

/-- base.hh:157-173 `mp::complement_list<S, T, SS>`, the search in `S` for the first of `T`. `re` is the result for the rest of `T`. -/
def complementSearch (t : α) (re : List α) : List α → List α
  | [] => t :: re
  | s :: S => if s = t then re else complementSearch t re S

/-- base.hh:157-173 `mp::complement_list<S, T, SS>`. -/
def complementList (S T SS : List α) : List α :=
  match T with
  | [] => []
  | t :: T' => complementSearch t (complementList SS T' SS) S

/-- base.hh:175 `mp::complement<S, end>`. -/
def complement (S : List Nat) (e : Nat) : List Nat := complementList S (mpIota e 0) S

/-- base.hh:178-189 `mp::combs<A, K>`. `rest<list<>>` isn't defined. `K` is never negative here. -/
def combs : List α → Nat → Option (List (List α))
  | _, 0 => some [[]]
  | [], _ + 1 => none
  | a :: re, K + 1 =>
    if (a :: re).length = K + 1 then some [a :: re]
    else do
      let l ← combs re K
      let r ← combs re (K + 1)
      pure (mapcons a l ++ r)

/-- base.hh:191-197 `mp::permsign<C, R>`. -/
def permsign : List α → List α → Int
  | [], [] => 1
  | _ :: _, [] => 0
  | [], _ :: _ => 0
  | c :: C, r :: R =>
    let w := mpIndex (c :: C) r
    if w = -1 then 0
    else permsign ((c :: C).take w.toNat ++ (c :: C).drop (w.toNat + 1)) R * (if w.toNat % 2 = 1 then -1 else 1)

/-- base.hh:199-205 `mp::findcomb<P, Plist>`, `where`. -/
def findWhere (P : List α) (L : List (List α)) : Int := mpIndexif (fun A => 0 ≠ permsign P A) L

/-- base.hh:199-205 `mp::findcomb<P, Plist>`, `sign`. -/
def findSign (P : List α) (L : List (List α)) : Int :=
  match L[(findWhere P L).toNat]? with
  | some A => if findWhere P L ≥ 0 then permsign P A else 0
  | none => 0

/-- base.hh:208-215 `mp::anticomb<C, D>`. -/
def anticomb (C : List Nat) (D : Nat) : Option (List Nat) :=
  let EC := complement C D
  let sign := permsign (C ++ EC) (mpIota D 0)
  match EC with
  | e0 :: e1 :: EC' => if sign < 0 then some (e1 :: e0 :: EC') else some (e0 :: e1 :: EC')
  | _ => none

/-- base.hh:217 `mp::mapanticomb<T, D>`. -/
def mapanticomb (T : List (List Nat)) (D : Nat) : Option (List (List Nat)) := T.mapM (anticomb · D)

/-- base.hh:219-222 `mp::choose<D, O>`. The first argument bounds the recursion, that has depth 2 at most. -/
def chooseN : Nat → Nat → Nat → Option (List (List Nat))
  | 0, _, _ => none
  | f + 1, D, O =>
    if ¬ D ≥ O then none
    else if D > 1 ∧ 2 * O > D then do
      let L ← chooseN f D (D - O)
      mapanticomb L D
    else combs (mpIota D 0) O

/-- base.hh:219-222 `mp::choose<D, O>`. -/
def choose (D O : Nat) : Option (List (List Nat)) := chooseN 2 D O

end Ra
