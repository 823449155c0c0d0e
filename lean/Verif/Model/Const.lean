/-!
# `const`

Which operations compile for a `const` array or a view of `const` elements, and what can be written through their results. The rest of the model has no types, so this part has only the types,
with memory to say what is written: an array has a number, and an element of it is given by its place in the array.
-/

namespace Ra

/-- Where the elements are: `vector_default_init` (arrays.hh:324 `Big`), the array itself (169-217 `SmallArray`), `unique_ptr` (325 `Unique`) and `shared_ptr` (326 `Shared`). -/
inductive QStore where
  | vector | inplace | unique | shared
  deriving DecidableEq, Repr

/-- The type of something that gives access to the elements of an array.
* `arr st tc c`: an array with the given storage. `tc` if the type of the elements is `T const`, `c` if the array is `const`.
* `view pc c`: arrays.hh:84-149 `View`. `pc` if the pointer is `T const *`, `c` if the view is `const`.
* `iter pc`: expr.hh:266-312 `Cell`, ply.hh:176-226 `STLIterator`, and pointers.
* `elem pc`: a reference to an element. -/
inductive Qual where
  | arr (st : QStore) (tc c : Bool)
  | view (pc c : Bool)
  | iter (pc : Bool)
  | elem (pc : Bool)
  deriving DecidableEq, Repr

/-- Whether `data()` is a pointer to `const`: arrays.hh:191-192 (`SmallArray`), 272 with 228 (`Array`, with `std::vector::data()`), 238 and 248 (with `get()` of `std::unique_ptr` and of
`std::shared_ptr`, which don't depend on the pointer being `const`), 107 (`View`). -/
def Qual.data : Qual → Option Bool
  | .arr .vector tc c => some (tc || c)
  | .arr .inplace tc c => some (tc || c)
  | .arr .unique tc _ => some tc
  | .arr .shared tc _ => some tc
  | .view pc _ => some pc
  | .iter _ => none
  | .elem _ => none

/-- Whether `view()` is a view of `const` elements: arrays.hh:193-194 (`SmallArray`), 273-274 (`Array`). A view stands for its view. -/
def Qual.viewed : Qual → Option Bool
  | .arr _ tc c => some (tc || c)
  | .view pc _ => some pc
  | .iter _ => none
  | .elem _ => none

/-- Operations.
* `data`: `a.data()`.
* `view`: `a.view()`, arrays.hh:193-194, 273-274.
* `slice`: `a(i ...)`, `a[i ...]` that isn't an element (ply.hh:503-551), also `get<i>(a)` (arrays.hh:632), `reverse` (408-428), `transpose` (444-462), `ravel_free` (474-481), `reshape` (483-531),
  `stencil` (615-630) and `at_view` (ra.hh:240-250).
* `at`: `a(i ...)`, `a[i ...]` that is an element (ply.hh:511), `at(a, i)` (ra.hh:228-238).
* `explode c`: arrays.hh:559-578 `explode` and 582-612 `collapse` with a type that is `const` or not.
* `iter`: expr.hh:316-328 `iter(a)`, also the arguments of `map` and `for_each`.
* `begin`: arrays.hh:135 (`View`), 209 (`SmallArray`), 315 (`Array`).
* `back`: arrays.hh:138, 211, 317, when it's an element.
* `deref`: `*i`, expr.hh:303, ply.hh:195.
* `scalar`: conversion to a reference to the only element, arrays.hh:141 (`View`), 215-216 (`SmallArray`), 320-321 (`Array`).
* `toView pc`: conversion to a view with the given pointer, arrays.hh:111, 147-148.
* `cref`: `std::as_const(a)`, or the argument of a function `f(auto const & a)`.
* `copy`: copy of an array, arrays.hh:169-217, 252-322 (the constructors that aren't declared). There's none for `unique_ptr`.
* `concrete`: arrays.hh:386 `concrete(a)`, a new array. It has static size if `a` has, but here it is always a vector.
* `borrow`: arrays.hh:351-359 `shared_borrowing(a)`, an array with elements of the same type that doesn't own its storage. -/
inductive QOp where
  | data | view | slice | at | explode (c : Bool) | iter | begin | back | deref | scalar | toView (pc : Bool) | cref | copy | concrete | borrow
  deriving DecidableEq, Repr

/-- What an operation makes: access to the same elements, or a new array (the results of the functions cited for `QOp`, arrays.hh:84-149, 252-386). -/
inductive QRes where
  | same (q : Qual)
  | fresh (q : Qual)
  deriving DecidableEq, Repr

/-- arrays.hh:84-630, ply.hh:503-551, expr.hh:316-328: the type of the result, `none` if it doesn't compile. -/
def Qual.apply (q : Qual) : QOp → Option QRes
  | .data => q.data.map fun c => .same (.iter c)
  | .view => q.viewed.map fun c => .same (.view c false)
  | .slice => q.data.map fun c => .same (.view c false)
  | .at => q.data.map fun c => .same (.elem c)
  | .explode s => q.data.bind fun c => if c && !s then none else some (.same (.view s false))
  | .iter =>
    match q with
    | .iter c => some (.same (.iter c))
    | _ => q.data.map fun c => .same (.iter c)
  | .begin =>
    match q with
    | .arr .inplace tc c => some (.same (.iter (tc || c)))
    | _ => q.data.map fun c => .same (.iter c)
  | .back => q.viewed.map fun c => .same (.elem c)
  | .deref =>
    match q with
    | .iter c => some (.same (.elem c))
    | _ => none
  | .scalar =>
    match q with
    | .arr _ tc c => some (.same (.elem (tc || c)))
    | .view c _ => some (.same (.elem c))
    | .iter c => some (.same (.elem c))
    | .elem c => some (.same (.elem c))
  | .toView pc => q.data.bind fun c => if c && !pc then none else some (.same (.view pc false))
  | .cref =>
    match q with
    | .arr st tc _ => some (.same (.arr st tc true))
    | .view pc _ => some (.same (.view pc true))
    | .iter pc => some (.same (.iter pc))
    | .elem _ => some (.same (.elem true))
  | .copy =>
    match q with
    | .arr .vector tc _ => some (.fresh (.arr .vector tc false))
    | .arr .inplace tc _ => some (.fresh (.arr .inplace tc false))
    | .arr .unique _ _ => none
    | .arr .shared tc _ => some (.same (.arr .shared tc false))
    | .view pc _ => some (.same (.view pc false))
    | .iter pc => some (.same (.iter pc))
    | .elem _ => none
  | .concrete =>
    match q with
    | .elem _ => none
    | _ => some (.fresh (.arr .vector false false))
  | .borrow => q.data.map fun c => .same (.arr .shared c false)

/-- Whether it can be written to: the assignment operators of arrays aren't `const` (arrays.hh:203-207, 276-280), those of views are (131-134), and what they do compiles if the elements aren't
`const`; expr.hh:50-60 for iterators. -/
def Qual.writable : Qual → Bool
  | .arr _ tc c => !tc && !c
  | .view pc _ => !pc
  | .iter pc => !pc
  | .elem pc => !pc

/-- A variable of a program: its type, the number of the array and the place in the array (arrays.hh:106 `cp`). -/
structure QVar where
  qual : Qual
  array : Nat
  place : Int

/-- Variables and memory (arrays.hh:271 `store`). `next` is the number of the next array. -/
structure QState (V : Type) where
  vars : List QVar
  mem : Nat → Int → V
  next : Nat

/-- Statements: a new variable from variable `x` by an operation, `d` being how much the pointer moves (as `fromb` does, ply.hh:397); and assignment of a value at distance `d`. -/
inductive QStmt (V : Type) where
  | make (x : Nat) (op : QOp) (d : Int)
  | put (x : Nat) (d : Int) (v : V)

/-- Compile and run one statement. `none` if it doesn't compile, so the rest is as for `Qual.apply` (arrays.hh:84-630). -/
def QStmt.run {V : Type} (s : QState V) : QStmt V → Option (QState V)
  | .make x op d => do
    let v ← s.vars[x]?
    match ← v.qual.apply op with
    | .same q => return { s with vars := s.vars ++ [⟨q, v.array, v.place + d⟩] }
    | .fresh q => return { vars := s.vars ++ [⟨q, s.next, 0⟩], mem := fun n => if n = s.next then s.mem v.array else s.mem n, next := s.next + 1 }
  | .put x d y => do
    let v ← s.vars[x]?
    if v.qual.writable then
      return { s with mem := fun n p => if n = v.array ∧ p = v.place + d then y else s.mem n p }
    else none

/-- A program: statements one after another (as `QStmt.run`, arrays.hh:84-630). -/
def QStmt.runs {V : Type} (s : QState V) : List (QStmt V) → Option (QState V)
  | [] => some s
  | c :: t => do
    let s ← c.run s
    runs s t

end Ra
