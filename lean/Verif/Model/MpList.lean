import Verif.Model.Mp
/-!
# Operations on type lists

The types are the elements of `CType`. `none` is a failing `static_assert` or a template with no definition, that is, an error when compiling. The
recursions that never end because their argument is negative fail at the `static_assert`, so they are `none` too. The limit of the compiler on
the depth of templates isn't modelled, nor is overflow in the arguments of `mp::iota`.
-/

namespace Ra

/-- base.hh:68-73 Types: `ic_t<v>`, `list<...>`, `std::tuple<...>`, and others. -/
inductive CType where
  | other : Nat → CType
  | ic : Int → CType
  | list : List CType → CType
  | tuple : List CType → CType

mutual

/-- base.hh:124 `std::is_same_v<A, B>`. -/
def CType.same : CType → CType → Bool
  | .other a, .other b => a == b
  | .ic a, .ic b => a == b
  | .list a, .list b => CType.sames a b
  | .tuple a, .tuple b => CType.sames a b
  | _, _ => false

/-- base.hh:124 `std::is_same_v<A, B>`, one by one. -/
def CType.sames : List CType → List CType → Bool
  | [], [] => true
  | a :: as, b :: bs => CType.same a b && CType.sames as bs
  | _, _ => false

end

namespace Mp

/-- base.hh:77 `mp::len<L>`. -/
def len : CType → Option Nat
  | .list L => some L.length
  | _ => none

/-- base.hh:78 `mp::is_list<L>`. -/
def isList : CType → Bool
  | .list _ => true
  | _ => false

/-- base.hh:80-82 `mp::tuple2list<L>`. -/
def tuple2list : CType → Option CType
  | .tuple T => some (.list T)
  | _ => none

/-- base.hh:84-86 `mp::list2tuple<L>`. -/
def list2tuple : CType → Option CType
  | .list T => some (.tuple T)
  | _ => none

/-- base.hh:88-91 `mp::append<L ...>`, the first list and the others. -/
def appendFrom (T : List CType) : List CType → Option CType
  | [] => some (.list T)
  | .list S :: A => appendFrom (T ++ S) A
  | _ => none

/-- base.hh:88-91 `mp::append<L ...>`. -/
def append : List CType → Option CType
  | .list T :: A => appendFrom T A
  | _ => none

/-- base.hh:92 `mp::cons<T, L>`. -/
def cons (T L : CType) : Option CType := append [.list [T], L]

/-- base.hh:94-96 `mp::iota<n, o, s>`, when `n` isn't negative. -/
def iotaN : Nat → Int → Int → Option CType
  | 0, _, _ => some (.list [])
  | n + 1, o, s => do cons (.ic o) (← iotaN n (o + s) s)

/-- base.hh:94-96 `mp::iota<n, o, s>`. -/
def iota (n o s : Int) : Option CType := if n < 0 then none else iotaN n.toNat o s

/-- base.hh:98-100 `mp::makelist<n, T>`, when `n` isn't negative. -/
def makelistN : Nat → CType → Option CType
  | 0, _ => some (.list [])
  | n + 1, T => do cons T (← makelistN n T)

/-- base.hh:98-100 `mp::makelist<n, T>`. -/
def makelist (n : Int) (T : CType) : Option CType := if n < 0 then none else makelistN n.toNat T

/-- base.hh:102-104 `mp::rest<L>`. -/
def rest : CType → Option CType
  | .list (_ :: T) => some (.list T)
  | _ => none

/-- base.hh:106-108 `mp::first<L>`. -/
def first : CType → Option CType
  | .list (T0 :: _) => some T0
  | _ => none

/-- base.hh:110-112 `mp::drop<L, n>`, when `n` isn't negative. -/
def dropN (L : CType) : Nat → Option CType
  | 0 => some L
  | n + 1 => do dropN (← rest L) n

/-- base.hh:110-112 `mp::drop<L, n>`. -/
def drop (L : CType) (n : Int) : Option CType := if n < 0 then none else dropN L n.toNat

/-- base.hh:114-116 `mp::take<L, n>`, when `n` isn't negative. -/
def takeN (L : CType) : Nat → Option CType
  | 0 => some (.list [])
  | n + 1 => do cons (← first L) (← takeN (← rest L) n)

/-- base.hh:114-116 `mp::take<L, n>`. -/
def take (L : CType) (n : Int) : Option CType := if n < 0 then none else takeN L n.toNat

/-- base.hh:118-120 `mp::ref<L, I ...>`. -/
def ref (L : CType) : List Int → Option CType
  | [] => some L
  | I0 :: I => do ref (← first (← drop L I0)) I

/-- base.hh:127-130 `mp::indexif<L, Pred>`, from `i`. The first argument is the number of types that are left. -/
def indexifFrom (L : CType) (Pred : CType → Option Bool) : Nat → Nat → Option Int
  | 0, _ => some (-1)
  | k + 1, i => do
    -- both sides of `? :` are instantiated
    let later ← indexifFrom L Pred k (i + 1)
    return if ← Pred (← ref L [(i : Int)]) then (i : Int) else later

/-- base.hh:127-130 `mp::indexif<L, Pred>`. -/
def indexif (L : CType) (Pred : CType → Option Bool) : Option Int := do indexifFrom L Pred (← len L) 0

/-- base.hh:122-125 `mp::index<L, T>`. -/
def index (L T : CType) : Option Int := indexif L fun A => some (CType.same T A)

/-- base.hh:132-134 `mp::apply<F, L>`. -/
def apply (F : List CType → Option CType) : CType → Option CType
  | .list L => F L
  | _ => none

/-- base.hh:136-139 `mp::map<F, L ...>`, when there are lists. The first argument is the number of types in the first list. -/
def mapN (F : List CType → Option CType) : Nat → List CType → Option CType
  | 0, _ => some (.list [])
  | n + 1, L => do cons (← F (← L.mapM first)) (← mapN F n (← L.mapM rest))

/-- base.hh:136-139 `mp::map<F, L ...>`. -/
def map (F : List CType → Option CType) : List CType → Option CType
  | [] => some (.list [])
  | L0 :: L => do mapN F (← len L0) (L0 :: L)

/-- base.hh:141-143 `mp::reverse<A, B>`, when `A` is a list. -/
def reverseFrom : List CType → CType → Option CType
  | A0 :: A, B => do reverseFrom A (← cons A0 B)
  | [], B => some B

/-- base.hh:141-143 `mp::reverse<A, B>`. -/
def reverse : CType → CType → Option CType
  | .list A, B => reverseFrom A B
  | _, B => some B

/-- base.hh:145 `::value` of a type, as a condition. -/
def value : CType → Option Bool
  | .ic v => some (v ≠ 0)
  | _ => none

/-- base.hh:145-147 `mp::filter<A, B>`, when `A` is a list. -/
def filterFrom : List CType → CType → Option CType
  | [], B => some B
  | A0 :: A, B => do
    let b ← take B 1
    let l ← filterFrom A (← rest B)
    append [if ← value A0 then b else .list [], l]

/-- base.hh:145-147 `mp::filter<A, B>`. -/
def filter : CType → CType → Option CType
  | .list A, B => filterFrom A B
  | _, _ => none

/-- arrays.hh:633, 641 `get<i>(l)` and `std::tuple_element<i, list<T ...>>`. -/
def get (i : Nat) (L : CType) : Option CType := if isList L then ref L [(i : Int)] else none

/-- arrays.hh:638 `std::tuple_size<list<T ...>>`. -/
def tupleSize : CType → Option Nat
  | .list T => some T.length
  | _ => none

end Mp

end Ra
