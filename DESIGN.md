# Formal model of ra-ra in Lean 4

The subject is the array library in `/repo/ra/*.hh` (base, expr, ply, arrays, ra, test).
`properties.jsonl` lists the properties (C01..), `MANIFEST.json` says which theorems settle each one.

## Layout

* `lean/Verif/Spec/*`   small independent specifications (row-major index lists, prefix agreement, ...). They mention no model function.
* `lean/Verif/Model/*`  the model, function by function; every definition cites file and lines of `/repo`.
* `lean/Verif/Lemmas/*` helper lemmas.
* `lean/Verif/Props/*`  the property theorems, with examples that their hypotheses are met.
* `lean/Verif/Conform/*` validation of the model against the project's own tests: the inputs and expectations of 37 of the programs in `/repo/test`, run on the model.
  These are examples, not proofs of any property. They're evidence that the model does what the code does, on inputs that weren't chosen for the model.
  No disagreement was found.

## Modelling decisions

* `dim_t`/`rank_t` are `Int` (lengths, steps, offsets, pointers). 64 bit overflow is modelled for `binom` (C44), for sizes, steps and indices (C67, `Model/Machine.lean`), for operations on views (C100, `Model/MachineView.lean`), for traversals (C101, `Model/MachinePly.lean`) and for programs of arrays (C103, `Model/MachineProgram.lean`), not elsewhere.
  The sentinels `MIS`, `ANY`, `UNB` have their real values.
* A pointer/`cp` is an `Int` address. Memory is a function `Int → Option V`; reading `none` is undefined behaviour.
  A `Seq` pointer (iota) is the `Int` it holds.
* Outcomes: `Fault.check` (an `RA_CK` that fails, assuming `RA_CHECK>0`; see C96 for `RA_CHECK=0`), `Fault.ub` (undefined behaviour), `Fault.abort`.
  They are distinct.
* Evaluating an element (`*a`) may have any effect: the model is polymorphic in a lawful monad `m`. Traversal theorems are equations
  between programs in `m`, so they determine which elements are evaluated, how many times and in which order. Instances: memory
  with faults, pure values.
* Assignment and the matrix products run in `Act V`, a state monad over memory that keeps the memory when a fault happens, so that theorems can say
  what was written before a check failed. Elements are values, references or views (`Lv`). Most theorems about assignment ask that the
  elements of the destination are different and that the right side doesn't read elements of the destination that were written before;
  `Props/Assign` has an example (`a = reverse(a)`) of what happens otherwise, and `Props/Overlap` (C129) has theorems for any overlap.
* Template metaprogramming on type lists is modelled by functions on `List`. `if constexpr` is `if`. A failing `static_assert` is `none`.
* Iterators (`Scalar`, `Cell`, `Reframe`, `Match`/`Map`/`Pick`) are one inductive type of trees `Iter m α`. A `Match` node carries how
  it combines its children (`Map`: evaluate all, then the op; `Pick`: evaluate the first, then the selected one).
  C++ leaves the evaluation order of function arguments open; the theorems hold for any combiner, so for any order.
* Compile time shape information (`rank_s`, `len_s`) is kept in separate static descriptors, related to run time shapes by `Inst`.
* Element types, lvalue/rvalue category and constexpr-ness are not modelled, other than `const` (C102, `Model/Const.lean`). Overload resolution is only modelled where it picks between operators (`Model/Dispatch.lean`), and lifetimes
  where expressions are kept while their arrays change (`Model/Delay.lean`).

## Trusted base

Lean 4.33.0's kernel; axioms `propext`, `Classical.choice`, `Quot.sound` at most (the list per theorem is in `AXIOMS.md`, made from
`#print axioms`); Mathlib as a library (checked by the same kernel); the reading of the C++ code that the model states.
No axioms are added, no `sorry`, no `native_decide`, no `bv_decide`.

## Coverage: which parts of the code are modelled

The table goes by file and lines. What isn't in it isn't modelled.

| file | lines | what | where |
|------|-------|------|-------|
| base.hh | 75-224 | `mp` type lists (`ref`, `append`, `filter`, `fold`, `perms`, `combs`, ...) | Model/Mp |
| base.hh | 232-244 | `MIS`, `ANY`, `UNB`, `dim_t`, `inside` | Model/Base, Model/Machine |
| base.hh | 278-294 | `Len`, `has_len` | Model/Len |
| base.hh | 298-311 | the `Iterator` concept, as the operations of `Iter` | Model/Iter |
| base.hh | 390-430 | `size_s`, `size`, `shape` | Model/Ply, Model/Static |
| base.hh | 437-453 | format options and styles | Model/Format |
| expr.hh | 20-60 | `RA_CK`, assignment operators | Model/Base, Model/Assign |
| expr.hh | 68-75 | `clen`, `cadd`, `csub` | Model/Opt |
| expr.hh | 79-157 | `Seq`, `Scalar`, `VAL`, `to_scalar` | Model/Iter, Model/Fill |
| expr.hh | 164-229 | `indexer`, `Dim`, `resize`, `filldimv`, `dimv_size`, `dimv_empty`, `rank_cell`, `rank_frame` | Model/Iter, Model/ViewOps, Model/Array, Model/Machine |
| expr.hh | 266-382 | `Cell`, `iter`, `SDim`, `viewptr`, `ptr` | Model/Iter, Model/ViewOps, Model/Opt, Model/From |
| expr.hh | 402-499 | `Reframe`, `reframe`, `wrank`, `Framematch` | Model/Iter, Model/Frame |
| expr.hh | 509-650 | `validate`, `colen`, `corank`, `Match`, `agree` | Model/Match, Model/Static, Model/Ply |
| expr.hh | 652-728 | `Map`, `Pick` | Model/Iter |
| ply.hh | 21-236 | `ply_ravel`, `ply_fixed`, `ply`, `for_each`, `early`, `STLIterator`, `begin/end/range` | Model/Ply, Model/Tls, Model/Pointer |
| ply.hh | 243-307 | `wlen`, `shape(v, e)` | Model/Len, Model/ViewOps |
| ply.hh | 314-435 | `insert`, `dots`, `all`, `iota`, `beatable`, `fromb` | Model/From |
| ply.hh | 461-551 | `spacer`, `fromu`, `from` (the static rank branches) | Model/Frame |
| ply.hh | 559-710 | formatted input and output | Model/Format |
| arrays.hh | 16-82 | `c_order`, `to_ravel`, nested lists | Model/ViewOps, Model/Fill |
| arrays.hh | 84-217 | `View`, `SmallArray`: constructors, assignment, `at`, conversion to scalar | Model/Fill, Model/Assign, Model/From |
| arrays.hh | 224-346 | `Array`, `swap` | Model/Array, Model/Fill |
| arrays.hh | 371-401 | `concrete`, `with_shape` | Model/Fill |
| arrays.hh | 408-630 | `reverse`, `transpose`, `ravel_free`, `reshape`, `explode`, `collapse`, `stencil` | Model/ViewOps, Model/Explode |
| ra.hh | 120-175 | `opt` for iotas | Model/Opt |
| ra.hh | 181-292 | operators, `at`, `where`, `&&`, `\|\|`, `any`, `every`, `index` | Model/Assign, Model/Iter, Model/Reduce, Model/ViewOps |
| ra.hh | 299-401 | `lexical_compare`, `amin`, `amax`, `refmin`, `refmax`, `sum`, `prod`, `dot`, `cdot`, `reduce_sqrm` | Model/Reduce |
| ra.hh | 403-456 | `gemm`, `gemv`, `gevm` | Model/Matrix, Model/Fill |
| ra.hh | 464-624 | `binom`, `Wedge`, `Hodge`, `wedge`, `cross`, `perp` | Model/Mp, Model/Wedge |
| ra.hh | 634-689, 691 | `Dual`, other than `isfinite` | Model/Dual |
| ply.hh | 527-545 | `from` with array subscripts on run time rank | Model/FromAny |
| arrays.hh | 361-364 | `tindex` placeholders | Model/Tindex |
| arrays.hh | 252-346 | programs of operations on `Array`s, with assignments | Model/Program |
| arrays.hh | 137-144, 212, 315-317, 351-359 | `begin`, `end`, `back`, `as`, `shared_borrowing` | Model/Access |
| arrays.hh, ply.hh, expr.hh | 50-60, 252-322, 408-630, 503-551 | programs over arrays and their views | Model/ViewProgram |
| ply.hh | 239-295, 496, 528-545 | `wlen` in expressions of any rank, array subscripts with `ra::len` | Model/LenTree |
| ra.hh | 116-143, 181-202 | `opt` in nested expressions | Model/Opt |
| arrays.hh | 233-249, 320-359 | `Shared` and `Unique` arrays, `shared_borrowing` | Model/Shared |
| expr.hh | 20-43 | checks that throw, and programs that catch | Model/Caught, Model/CaughtViews, Model/CaughtFull |
| ra.hh | 41-56, 61-102 | functions of numbers; parts of complex arrays as references | Model/Complex |
| arrays.hh | 464-472 | `cat` | Model/Cat |
| test.hh | 237-309 | `Benchmark`, except for strings and `run` | Model/Bench |
| expr.hh | 353-387 | `viewptr`, `ptr`, `view` and `iter` of ranges and built-in arrays; base.hh 334-430 for them | Model/Foreign |
| base.hh | 366-369 | `toreduce`, `tomap`; ra.hh 181-210, 252-272, which overload is used | Model/Dispatch |
| expr.hh | 104-134, 266-328, 652-678 | what an expression holds when it's kept in a variable; ra.hh 181-190 for rank 0 | Model/Delay |
| expr.hh | 79-100 | `Seq` of any integer type; expr.hh 310 `mov`, ra.hh 116-143 with promotions and conversions | Model/SeqType |
| expr.hh | 641-650 | `agree_op`, `agree_verb` | Model/AgreeOp |
| ra.hh | 228-238 | `at` with arrays of indices | Model/AtArray |
| ra.hh | 693-706 | `<<` and `>>` for `Dual` | Model/DualIO |
| expr.hh, arrays.hh, ply.hh, ra.hh | 652-728, 361-364, 291, 503-525, 306-401 | programs where expressions have rank conjunctions, `pick`, placeholders, `iota`, array subscripts and reductions, and arrays made from those | Model/FullProgram |
| ra.hh | 517-587 | `Wedge::prod`, `Hodge::hodge_aux`, `hodgex`, `hodge`, `wedge` on vectors in memory | Model/HodgeMem |
| base.hh | 68-147 | operations on type lists | Model/MpList |
| docs/ra-ra.texi | 689-717, 800-820, 1187-1192, 1357-1362 | programs that the manual gives as equivalent | Model/Manual |
| expr.hh | 20-21 | `RA_CHECK==0`, for the functions of the programs of C92 and for views, traversals, range-for, `to_scalar`, `to_ravel` | `Model/NoCheck` |
| arrays.hh | 632, 637, 640 | `tuple_size`, `tuple_element`, `get` for slices | `Model/Bindings` |
| base.hh | 462-466 | `print1`, `print`, `format`; ply.hh 576-697 for arrays of arrays | `Model/NestedIO` |
| ply.hh | 367-435, 503-551 | slices with 64 bit arithmetic | Model/MachineView.lean |
| ply.hh | 21-166 | traversals with 64 bit arithmetic | Model/MachinePly.lean |
| arrays.hh | 84-359 | const, as types of results | Model/Const.lean |
| arrays.hh | 252-346 | arrays with 64 bit arithmetic | Model/MachineProgram.lean |
| ply.hh | 21-169 | programs of arrays in threads | Model/Amid.lean |
| expr.hh | 164-219 | shapes and indices that are expressions | Model/ShapeArg.lean |
| arrays.hh | 107-118 | constructors of views from dims and views | Model/ViewDims.lean |
| bench/bench-gemm.cc | 25-133 | matrix products, without BLAS | Model/Gemm.lean |
| bench/bench-stencil1.cc, bench-stencil2.cc, bench-stencil3.cc | 21-95 | programs with stencils | Model/StencilRun.lean |
| examples/cghs.hh, laplace2d.cc | 15-45, 28-50 | conjugate gradients, matrices by slices | Model/Cghs.lean |
| bench/bench-sum-cols.cc, bench-sum-rows.cc, bench-gemv.cc | 36-65, 40-81, 33-81 | sums along an axis, products with a vector | Model/AxisSum.lean |
| bench/bench-from.cc | 42-84 | selection with array subscripts | Model/Select.lean |
| examples/maxwell.cc | 44-81 | shifts, differences and transposes | Model/Maxwell.lean |
| examples/newton.cc | 32-39, 55-62 | forces, accelerations, positions | Model/Newton.lean |
| ra/ra.hh | 240-250 | at_view with arrays of indices | Model/AtView.lean |
| ra/expr.hh | 683-684 | pack | Model/Pack.lean |
| examples/laplace3d.cc | 25-100, 130-147 | matrices by elements | Model/Laplace3.lean |
| bench/bench-dot.cc, bench/bench-reduce-sqrm.cc, bench/bench-at.cc | the ways to add up | sums of operations on elements | Model/Dot.lean |
| bench/bench-iterator.cc, bench/bench-tensorindex.cc | the loops and sums | counting elements | Model/Count.lean |
| examples/indirect.cc | examples 1 and 4 | copies at lists of positions and strips | Model/Indirect.lean |
| examples/deriv.cc | 44-67 | samples and second differences | Model/Deriv.lean |
| examples/indirect.cc | 117-145 | disc by `where` | Model/Where.lean |
| bench/bench-optimize.cc | 48-55 | sums by cells and whole | Model/ByCells.lean |
| examples/read-me.cc | 99-111 | sums of cells | Model/CellSum.lean |
| examples/slicing.cc | 22-65 | equivalent subscripts | Model/From.lean |
| ra/ra.hh | 348-362 | sum, prod of arrays | Model/ArraySum.lean |
| examples/pitfall.cc | 17-24 | assignment to an array of arrays | Model/NestedPut.lean |
| examples/slicing.cc | 26-32 | a list of positions as a range | Model/Select.lean |
| test/mem-fn.cc | 15-58 | members of the elements of an array | Model/Members.lean |
| ra.hh | 145-175 | `opt` with `RA_OPT_SMALL` | Model/OptSmall |
| arrays.hh, ply.hh | 408-630, 503-551 | sequences of view operations | Model/Chain |
| test.hh | 33-260 | `TestRecorder`, `median` | Model/Test |
| test.hh | 35-46, 179-213 | `amax_strict`, `nanny`, `test_rel`, `test_abs` | Model/Float |

Not modelled: concepts (base.hh 246-276, 334-388), which say which functions apply to a type, other than those of the operators; element types, conversions between them and floating point
(theorems about sums and `Dual` are for algebraic structures); arrays that one thread changes while another one uses them, the C++ memory model (the steps of threads are interleaved), and the allocator's own code; `to_ravel` through C++ streams; 
`Benchmark::report`, `info`, `run` and `run_f` (test.hh 262-285, 310-311); examples (other than cghs.hh, the matrices of laplace2d.cc and laplace3d.cc, the equations of maxwell.cc, the motion in newton.cc, and examples 1 and 4 of indirect.cc), benchmarks (other than bench-gemm.cc, bench-gemv.cc, bench-from.cc, bench-sum-cols.cc, bench-sum-rows.cc, bench-pack.cc, bench-dot.cc, bench-reduce-sqrm.cc, bench-at.cc, bench-iterator.cc, bench-tensorindex.cc and bench-stencil1.cc, bench-stencil2.cc, bench-stencil3.cc) and documentation.

## Properties: what is modelled, how it is proved

| id | model | proof |
|----|-------|-------|
| C01 | `Iter`, `deref`, `at` | structural induction over trees; the element after moving to `j` is `at j` |
| C02 | `Match.len/rank`, `colen`, `corank` | fold invariants against a spec on lists of shapes |
| C03 | `Match.check` | same; permutation invariance follows from the spec being symmetric |
| C04 | `len_s`, `check_s` over static descriptors | fold invariant over all instantiations |
| C05 | `ply_ravel` with its `z` state | loop invariant: counters in lexicographic order; compaction lemma: moving `ss` steps on axis z is one step on axis j |
| C06 | `subply`, `ply_fixed` | induction on the axis |
| C07 | same | same loops, returned iterator |
| C08 | same with early stop | short circuit spec `firstStop` |
| C09 | `ply_ravel` from arbitrary `z` | **false of the code** (B1): witness; `_partial` from clean state and after completed traversals |
| C10 | `STLIterator` | invariant relating `ind` to the current index |
| C11-C14 | `fromb`, `frombrank` | induction on the subscript list; address algebra. C14 **false** for rank>=2 iotas (B2) |
| C15,C16 | `fromu`, `fromu_loop`, `Framematch`, `spacer` | induction on arguments; axis lists are consecutive intervals |
| C17 | `Framematch` | recursion on the verb |
| C18 | `Reframe` | from C01 machinery |
| C19 | `reverse` | address algebra; order of checks (B15) |
| C20 | `transpose_dims` | induction on the axis list; B6, B16 |
| C21-C23 | `reshape`, `ravel_free`, `c_order` | row-major numbering; **false** in cases B3, B4, B5; partial theorems |
| C24 | `stencil` | address algebra |
| C25 | `explode_dims`, `collapse` | arithmetic |
| C26 | `Cell` constructor, `rank_cell/frame`, `at_view` | address algebra; B17 |
| C27,C28 | `for_each(=)` over memory | from C05/C06 with the memory monad; induction over the list of indices |
| C29 | `gemm`.. as the slices and assignments they are, one definition for each `if constexpr` branch | from C27/C28, sums over index lists |
| C30-C33 | op machine over arrays `(dimv, store)` and memory; the allocator is an oracle that may throw | invariant by induction over operations; C32 **false** for `resize` (B8) |
| C34 | `braces_shape`, nested assignment (each level is a traversal of its own), construction; a list is a value, not memory | induction on the rank, both outcomes at once |
| C35-C39 | reductions as `early`/`for_each` programs | from C05-C08 |
| C40,C41 | `pick_star/pick_at`, `where`, `&&`, `||` | equations in `m` |
| C42 | `opt` | arithmetic; B13, B14 |
| C43 | `wlen` over expression trees, of rank 0 (`Model/Len.lean`) and of any rank (`Model/LenTree.lean`) | induction on the tree, against a direct interpretation. **False of the code** in one case (B34) |
| C44 | `binom` | `Nat.choose` identities; 64 bit bound over the finite table |
| C45-C48 | `mp::` lists, `Wedge`, `Hodge` | induction, `List` permutations, sign |
| C49 | `Dual` over a field; real and complex functions are those of Mathlib | `HasDerivAt` one operation at a time, then by induction for any expression. False for `tan` (B7) and `abs` (B46) |
| C50 | `operator>>` for static size, vector and the rest, over lists of characters; integers in base 10 | what's printed in the default style is elements with white space between; each read takes one |
| C51 | `formatter::format`, with the iterator moved by `adv` | induction on the axes, same displacement argument as C06 |
| C52 | `formatter::parse`, with an access at the end as a fault | exact set of strings that fail, by induction on the string; B9 |
| C53 | `TestRecorder` as a state machine over calls, `test_comp` on expressions | induction on the history with the specification's list of tests; C35, C03 for comparisons |
| C54 | `median` with `nth_element` as a parameter | sorted permutations are unique; false for one sample and for even sizes (B10) |
| C55,C56 | `to_ravel` through a pointer or an `STLIterator`, the constructors from lists, pointers and expressions, `concrete` for the three kinds of result | from C10, C27, C30, C58 |
| C57 | `fromb` on `UNB` | B12 |
| C58 | `filldimv` | induction on the shape |
| C59 | `indexer`, `at` of each kind of expression | induction on the expression. **False** for `pick` and reframed arguments (B41, B42) |
| C60 | `shape(v, e)` | direct |
| C61 | `size`, `size_s`, `dimv_size`, `dimv_empty` | induction |
| C63 | `to_scalar` | from the shape and size lemmas |
| C64 | assignment in the memory monad, with an element that fails | the traversal is an equation in the monad, so split the row-major list at the index that fails |
| C65 | `ply_ravel` with its `thread_local` vector in the state (`Model/Tls.lean`), which survives failures and is seen by nested traversals | simulation by the traversal with explicit counters, then `plyRavel_eq`; witnesses for the two negations |
| C66 | computations as trees of element reads and writes (`Model/Thread.lean`), threads that interleave them by a schedule; the traversal is the same code, at another monad | invariant over the schedule: each thread and the memory it writes are as if it was alone |
| C62 | the defaulted moves of `Array` | **false of the code** (B24); exact characterisation |

| C67 | `filldimv`, `dimv_size`, `indexer` with 64 bit arithmetic, where overflow is a fault (`Model/Machine.lean`) | induction on the shape; exact set of shapes that overflow. **False** for some empty shapes (B25) |
| C68 | the traversals with a check of each pointer that they form (`Model/Pointer.lean`) | simulation by the traversals without checks. **False of the code** (B26); holds when there's room for one step past the end of each axis |
| C69 | `from` on a view of run time rank with array subscripts (`Model/FromAny.lean`) | reduction to `from` of static rank (C15); **False of the code** with more subscripts than axes (B27) |
| C70 | `tindex`, expressions with placeholders, `map` of a view (`Model/Tindex.lean`) | from the theorems on reframed iterators (C05), for any list of placeholders |
| C71 | floating point values with infinities and NaN over any ordered field, `amax_strict`, `nanny`, `test_abs`, `test_rel` (`Model/Float.lean`) | the loop is a fold of a maximum until a NaN; cases on the kinds of values. Rounding is a parameter: the errors are any values that aren't negative. **False of the code** for empty arguments (B28) |
| C72 | sequences of `from`, `reverse`, `transpose`, `stencil`, `reshape`, `ravel_free` (`Model/Chain.lean`) | induction on the sequence; each step from C13, C19, C20, C21, C22, C24. **False of the code** (B3, B29 and others); exact conditions in `Covered` |
| C73 | the same, with `Distinct` | as C72, with injectivity of the index map of each operation; then C27 |
| C74 | `HasShape` of trees of `Match` (`Model/Iter.lean`), with the arguments (leaves) of an expression | the shape of a tree is the match of its leaves, by structural induction; matching depends on the set of shapes only |
| C75 | programs on lists of arrays: `Op` of `Model/Array.lean`, element assignments, and assignments of expressions of the arrays (`Model/Program.lean`) | refinement: `Spec/Value.lean` gives the effect of each operation on pairs of shape and list of elements; a simulation relation with C30's invariant is kept by every step, the traversals through C03 and C74 |
| C76 | `begin`/`end` of views and arrays as pointers or STL iterators, `back`, `as`, `shared_borrowing` (`Model/Access.lean`) | the pointer loop and C35's loop are both equal to the row-major loop of the specification. **False of the code** for borrowed arrays (B31) and rank 0 (B32) |
| C77 | `opt` with `RA_OPT_SMALL` as a read of both vectors and a new value (`Model/OptSmall.lean`) | equality of the values read, then C27 for both forms. **False of the code** (B33): exact alias and alignment conditions instead |
| C78 | the chains of C72 (`Model/Chain.lean`), against index maps of their own (`Spec/Views.lean`) | induction on the chain, with the result for each operation (C11 to C13, C19 to C24). Not considered in the specification: subscripts on axes without bounds, diagonals of bounded with unbounded axes, reshape of empty arrays, reshape or ravel of views that aren't whole |
| C79 | programs of C75 with views as destinations and operands (`Model/ViewProgram.lean`) | the loop in memory simulates the loop on values, through the index maps of C78; then by induction on the program. The element by element form is by induction on the loop |
| C80 | `Shared` and `Unique` arrays with control blocks (`Model/Shared.lean`) | invariant on histories: the counts are the numbers of pointers, blocks in use are apart. Refinement to references to objects that last forever |
| C81 | programs of C75, C79 and C92 that catch failures (`Model/Caught.lean`, `Model/CaughtViews.lean`, `Model/CaughtFull.lean`) | an operation that fails leaves everything as it was, except in cases B8 and B35, where it's **false** |
| C82 | pairs of numbers and the functions on them (`Model/Complex.lean`) | against Mathlib's complex numbers; parts of arrays from C27. **False** for `arg` (B37) |
| C83 | `cat` as two assignments to ranges (`Model/Cat.lean`) | from C13 and C27 |
| C84 | `once`, `once_f` with any clock (`Model/Bench.lean`) | against a schedule of events; the median from C54. **False** for one run and for the deviation (B36, B38) |
| C85 | ranges and built-in arrays as views (`Model/Foreign.lean`) | against lists and nested arrays; limits of the iterators from C68, assignment from C27 |
| C86 | kinds of types and the requirements of the overloads (`Model/Dispatch.lean`) | by cases on kinds and induction on nested operators |
| C87 | programs with variables that hold expressions: pointers, references to dims, and values (`Model/Delay.lean`) | simulation against lists of values and expressions as text, from C79; exactness from C64 |
| C88 | integers of 8 to 64 bits, promotions, conversions, overflow; `Seq` and `opt` on them (`Model/SeqType.lean`) | congruences modulo 2ʷ; the traversal from C68 |
| C89 | `agree_op` (`Model/AgreeOp.lean`), on `framematch` and `agree` | the shape of the reframed arguments from C28, C04 for the check; both ways, by induction over the conjunctions |
| C90 | `at` with arrays of indices (`Model/AtArray.lean`) | the traversal of C11 and C12 as a fold over the positions; induction over them |
| C91 | `<<` and `>>` for `Dual` on the streams of C50 (`Model/DualIO.lean`) | by cases on the text; arrays from C50. **False** at the end of the text (B43) |
| C92 | programs of C79 with expressions with rank conjunctions, `pick`, placeholders, `iota`, array subscripts and reductions, with `pick` and array subscripts as destinations, and arrays made from such expressions (`Model/FullProgram.lean`) | every expression denotes a shape and a function from indices to values, by induction on the expression (C17, C36); the loop in memory simulates the loop on values; then as C79 |
| C93 | `wedge`, `hodgex` and `hodge` in place on vectors in memory (`Model/HodgeMem.lean`), over any commutative ring | the loops in memory are those of C47, C48 on values, by an invariant on the elements not yet read; the star is unique. **False** in place on views (B44, B45) |
| C94 | types are trees of numbers, lists and tuples, and the templates are partial functions on them (`Model/MpList.lean`); what does not compile is `none` | each operation is that on `List`, and is defined exactly when it should, by induction on the list |
| C95 | the programs of the manual, made with the model's functions (`Model/Manual.lean`) | both sides have the same traversal by C06, C17, C04; equality of actions on memory element by element, or of views by computation on their axes |
| C96 | the functions with checks, again, without them (`Model/NoCheck.lean`) | a relation between actions (same results and memory unless a check fails), kept by sequencing; by induction for iterators, traversals, expressions and programs (`Lemmas/NoCheck.lean`) |
| C97 | `tuple_size`, `get`, `tuple_element` for views (`Model/Bindings.lean`) | each name is a subscript of C11, followed by the conversion of C63 where there are more axes |
| C98 | Model/FullProgram.lean, Model/CaughtFull.lean; spec: Spec/Safe.lean (views that aren't allowed), Spec/Inside.lean (views whose elements are elements of the array) | Every operation from a state that represents values gives a state that represents values, or fails with a check, by induction on the expressions; then induction on the program. For the views in Spec/Inside.lean, actions that only use the storage of the arrays, closed under the monad's operations, so that every traversal is one |
| C99 | `AType.text`, `AType.read`, `printArgs` | induction on the type: the text of an array is that of its elements with white space between, and each is read up to white space; then on the list of arguments |
| C100 | `Model/MachineView.lean`, with the arithmetic of `Model/Machine.lean` | Each operation with limits is equal to the one without, as all that's computed is the address of an element or less than a product that can be represented; then induction on the operations. False in general (B47, B48) |
| C101 | `Model/MachinePly.lean`: `Model/Pointer.lean` with the arithmetic of `Model/Machine.lean` | A product in a motion is the difference of two pointers in the same array; a product in `keep` is that of a motion over the axes already joined. Then the loops are those of C68, by the same inductions. False in general (B49) |
| C102 | `Model/Const.lean`: the types of the results of operations with respect to const, and programs with memory | Invariant by induction on the program: all the variables for the array are for reading. False for Unique and Shared (B50) |
| C103 | `Model/MachineProgram.lean`: `Model/Program.lean` with the arithmetic and the pointers of `Model/Machine.lean` and `Model/Pointer.lean` | Invariant: each array has row-major steps even if it's empty, and its lengths can be counted. Each operation keeps it and does the same as without limits; assignments by C101 and C68, elements by induction on the axes. The values are those of C75. False in general (B51) |
| C104 | `Model/Amid.lean`: the programs of `Model/FullProgram.lean` as trees of steps on memory; threads that interleave them by a schedule | Rely and guarantee: either another thread changed memory that's shared or that belongs to this one, or the steps follow those of the program alone and only change memory that belongs to the thread or that was free (`AmidLink`, `follows_step`). By induction on the order of the steps the first case doesn't happen. For data races (`Spec/Race.lean`), each step depends only on what's shared or the thread's, whatever the values in memory (`Local`, `gentle_program`) |
| C105 | `Model/ShapeArg.lean`: `filldimv` and `indexer` on an expression, in a state with the dims that are being filled and memory; static lengths and ranks as in `Model/Static.lean` | The loop moves the expression along its axis, so its position is a shift (`Iter.mov_shift`) and the element is that of the specification; static sizes agree with run time ones for expressions with a shape (C61) |
| C106 | `Model/ViewDims.lean`: `View(s, cp)` for dims and `View(x)` for views, with the dims in memory and assigned with `ply`, and `SDim::operator=` | The traversal is a loop over the axes (C05, C06); the state before axis `k` has the first `k` dims given, and for the rest what is in the type |
| C107 | `Model/Gemm.lean`: the products in bench/bench-gemm.cc, with `from`, `wrank` and `for_each` as already modelled; recursion with fuel, and running out of it is a fault | Each run is a list of updates `c(i, j) += a(i, k)*b(k, j)`; for each `i, j` the ones in the list are those of the sum in the order of `k`. Blocks by induction on the fuel, with the sum split in two |
| C108 | `Model/StencilRun.lean`: the programs of bench-stencil1.cc, bench-stencil2.cc and bench-stencil3.cc as cases of one program of any rank | The sums of windows by C27 and C28 with the address of elements of a stencil (C24). For the slices, the address of their elements. The six values are the same sum by induction on the rank |
| C109 | `Model/Cghs.lean`: `cghs` as a program on views and memory, with the product by the matrix as an argument, and the products of laplace2d.cc. The loop has a limit, which the theorems say isn't reached | An iteration by C27, C28 and the values of `dot` and `reduce_sqrm`. Residuals are orthogonal and directions conjugate by induction on the iterations (`Props/Conjugate.lean`), so there are no more of them than unknowns; if the first one is a sum of `d` eigenvectors then all are combinations of these, so there are at most `d` (`Props/Krylov.lean`). The matrix is positive by summation by parts |
| C110 | `Model/AxisSum.lean`: each variant in bench-sum-cols.cc, bench-sum-rows.cc and bench-gemv.cc as a program on views and memory | Each variant is a list of steps `c(i) += x` in the order of the rows or of the columns, by C27, C28, C95 or by the loops. Either order gives the same for each element, since steps on other elements don't matter (`adds_first`, `adds_second`) |
| C111 | `Model/Select.lean`: `View.select` is `from` with array subscripts on references; each subscript is read from memory when its place is found. The variants in bench-from.cc as programs | From C15_outer, by induction on the list of positions with all the updates as a fold (`writes_run`). The variants by C27 and by loops (`sets_all`) |
| C112 | `Model/Maxwell.lean`: the statements of examples/maxwell.cc, with `len` in the subscripts, on views of any shape | The subscripts are replaced by their values (`from_same`), each statement is on a part of the destination (`put_part`, from C27 and C28), and the parts make the axis (`roll_parts`). The loop by induction on the time. The transposes by C20 (`transpose_exact`) |
| C113 | `Model/Newton.lean`: the statements of examples/newton.cc, with `force` as the operation of an outer product whose elements are small arrays | The forces by C16 (`C16_outer`) and induction on the traversal (`setForces_run`), the accelerations by C20 and C28 (`setAccel_run`). The loop by induction on the steps, and the momentum because the forces of two bodies on each other are opposite (`sum_antisymmetric`) |
| C114 | `Model/AtView.lean`: `at_view` as a `map` over the array of indices, whose elements are views; the assignment to each of them is that of arrays.hh:129-136 | Each cell by C26 (`C26_at_view`) and each assignment by C27 and C28 (`put_view`); the whole by induction on the traversal (`cells_run`) |
| C115 | `Model/Pack.lean`: `pack` as a `map` whose elements are tuples or tuples of references; the assignment of tuples is part by part | By induction on the parts (`writeParts_run`, `copyParts_run`) and on the traversal (`tuples_run`). The five ways each give the memory of `CxFilled`, which is unique (`filled_unique`) |
| C116 | `Model/Laplace3.lean`: the structures, both products, the tables and the loops that set them | `C111_select` gives the places of `w(E.v)`; then `C29_gemv_iter` for each element, and induction on the elements (`elements_run`). The form of the matrix is a sum of squares of differences in each element (`stiff_energy`), which are zero only if the array is the same along the last axis, and then zero from the face. The rest is C109, whose product may now have memory of its own |
| C117 | `Model/Dot.lean`: each of the ways as a program on memory | each one is a traversal (`forAll`) of the row-major indices whose steps add a term to the variable (`fromZero_run`, `fromZero_rows` up to the first that fails). `C17_conjunction` gives the elements with `wrank`, `C95_at_view` those of subscripts, `forEachRef_mem` and `forEachRef_fail` the reductions |
| C118 | `Model/Count.lean`: the loop with its counter as state, the assignments, `to_ravel` of a view, and the sums | `C76_view` makes the loop a traversal of the row-major indices; the counter is the position of the index by induction (`walk_run`). The rest by C27, C70 and the sums of C117 |
| C119 | `Model/Indirect.lean`: the copies as programs, and the loop that lists the strips | The functions of the maps don't change memory, so reading an index twice is the same as once (`twice`); the copies by induction on the list (`copies_run`) with C90 and C114 for each step, and C13, C11 for the strips; the circle by the property of the integer square root |
| C120 | `Model/Deriv.lean`: the samples, the differences with the subscripts made by the operators on iotas, the error, and the program | C13 for the slices, C27 for the assignments, C39 for the sum. The error at a point by four uses of the bound of a function by a bound of its derivative (`grow`) |
| C121 | `Model/Where.lean`: `pick` and `where` with references, the mask, and the disc | Induction on the list of indices (`sets_run`), with the chosen address in each; C28 for the updates and C27 for the mask; C119 for the strips |
| C122 | `Model/ByCells.lean`: the whole assignment, the loops with subscripts, and `for_each` on cells | The three are programs on memory, and they are equal as such. Each is the list of steps for the indices in row-major order (C05, C06), and that list for `t ++ r` is that for `t` of those for `r`. C11 and C26 for the cells |
| C123 | `Model/CellSum.lean`: the ways in examples/read-me.cc:103-110, for arrays of any shapes | `for_each` with `b = sum(a)` is an assignment of the sums (C05); then the matching of prefixes, C28, for the update and for the assignments with fewer or more axes, and C39 for the sum of one cell |
| C124 | `Model/From.lean`, as for C11 to C14; `Model/ViewOps.lean` for `reverse` | One subscript takes some axes from the front, gives others, and moves the pointer; a list of subscripts is these one after the other, and the rest of the list depends on the pointer only by a shift. Then each way is by cases. For the assignments, the indices in row-major order are the same but for the axis of length 1 |
| C125 | `Model/ArraySum.lean`: `sum` and `prod` with `copy_shape(VAL(a), 0)`, for cells and for arrays of arrays | the new array is apart from the elements, so each `c += a` is C28; induction on the arrays. With uneven shapes, C27 for the one that doesn't match |
| C126 | `Model/NestedPut.lean`: assignment with elements that are arrays, so that each assignment of an element is another traversal | induction on the elements of the match of `b` and `a`; each step is C27 or C28 for one array, and the steps for the same array are the elements of `a` with its index as prefix |
| C127 | `Model/Select.lean` and `Model/From.lean` as before | C111 gives the elements with lists and C13 those with ranges; they're the same by induction on the subscripts. The traversals are the same loop while the positions are kept |
| C128 | `Model/Members.lean`: `map` with an operation that gives the place of a member | the operation gives references, so it's C27 and C28 at the places of the members; different members or different objects are in different places because of division with remainder by the number of members |
| C129 | `Model/Assign.lean`, `Model/From.lean` and `Model/Views.lean` as before | induction on the list of indices in row-major order; an invariant gives all of memory after the first elements. For the shifts, indices that come before another one in row-major order have no larger first index |
| C130 | `Model/ViewOps.lean` and `Model/Assign.lean` as before | the shape of the transposed view from C20 when all the axes are bounded, the map of its indices to those of the array is one to one, then C27 and C28; for permutations the map is onto |
| C131 | `Model/ViewOps.lean`, `Model/From.lean` and `Model/Assign.lean` as before | the index map of C78 depends on the shape alone; with C28 an element has the last value it was set to, and all of those are the same one |

## Disagreements found between code and properties

(each is recorded as a theorem proving the failure for a concrete witness)

* B1 `ply_ravel` keeps loop counters in a `thread_local` vector and does not reset them. An early stop leaves them nonzero, and
  the next traversal of the same instantiation starts in the middle: it skips elements, or walks outside the array.
* B2 `fromb` with an iota subscript of rank >= 2 adds the origin once per axis of the subscript, and checks the axes one by one instead of jointly.
* B3 `reshape` scales steps by the step of the last source axis even when that axis has length 1.
* B4 `reshape` with `{0, -1}` divides by zero before any check; tiling with a negative length is not checked.
* B5 `c_order(dims, false)` accepts views with an inner step 0 that cannot be raveled.
* B6 `transpose` merging an unbounded and a finite axis: result depends on their order.
* B7 `tan(Dual)` uses `cos(a.du)`.
* B8 `Array::resize` changes the length before the store can throw, and accepts negative lengths.
* B9 the format spec parser reads past the end for a spec that ends inside the `S` option.
* B10 `median` uses `^1` for `&1`; for one sample it accesses `t[-1]`.
* B11 `Reframe` with repeated axes: traversal and `at` disagree (documented TODO in the code).
* B12 ranges are rejected on unbounded views although the manual shows such a use.
* B13 sum/difference of static iotas of different lengths: no diagnostic, the result has length `MIS` and traverses as empty.
* B14 sum/difference of a static and a dynamic iota of different lengths: no diagnostic, the static length wins.
* B15 `reverse` with a bad run time axis reads `dimv` out of range before it checks the axis.
* B16 `transpose` with a negative run time axis writes outside the dims without check.
* B17 `at_view` with more indices than the rank uses a negative cell rank, and returns a cell of another frame instead of failing.
* B18 `ply_ravel` is not re-entrant: an operation that traverses with the same instantiation shares the `thread_local` counters. Proved in `C65_nested_negation`: the inner traversal skips rows and the outer one leaves the array. The same counters are also left as they were by an exception, so that the next traversal skips rows (`C65_exception_negation`).
* B19 too many subscripts together with `dots<n>` (`a(all, 0)` on a rank 1 array) read dims out of range without check.
* B20 `a(insert<1>, I)` with an array subscript `I` fails a check, because the spacer for the new (unbounded) axis is an iota through `viewptr`.
* B21 `collapse<sub>(a)`, when `sub` is an array smaller than the scalars of the elements of `a`, gives the last axis the length `t` (sizes of scalars) where it should be `subtype` (how many `sub` fit), so the result goes past the elements (arrays.hh:609).
* B22 `Reframe::len_s` asks its argument for `len_s` without `check`. In `map(wrank<0, 1>(f), Small<int, 2>, a+b)`, where `b` is `Small<int, 3>` and `a` has a run time length, `check_s` passes statically, so a mismatch between `a` and `b` goes unseen.
* B23 (not a property) the branches of `gemv`/`gevm` for arguments that aren't slices check the length of `c` inside the loop, so when the inner length is 0 a wrong length of `c` isn't seen.
* B24 the array left by a move isn't consistent: with static rank it has the old lengths and an empty store; with dynamic rank it has rank 0, so size 1, and an empty store.
* B25 `filldimv` multiplies all the lengths even if one is 0, so an array of shape {0, 2^40, 2^40} overflows (undefined behaviour) when made; {2^40, 2^40, 0} can be made but overflows in `size()`. The first without need: the steps aren't used.
* B26 traversals move the pointer by one step after the last element of an axis, before going back. For a reversed view this forms a pointer before the beginning of the array, and for a column a pointer more than one past its end, both undefined behaviour ([expr.add]).
* B27 `a(I, iota(2))` with `I` an array and `a` of run time rank: the check `dsn==bn` (ply.hh:541) compares the number of arrays with the rank of the result of the other subscripts, as if all the others were scalars. For `a` of rank 1 it passes, and `fromb` uses axes that don't exist (undefined behaviour); for `a` of rank 2, where the subscripts are right, it fails.
* B28 `test_abs` and `test_rel` of empty arguments fail for any `req`, while `test_eq` passes: `amax_strict` gives minus infinity and `nanny` takes its absolute value (test.hh:182).
* B29 `reshape` of an empty array to a suffix of its shape gives elements that don't exist: for `a` of shape (0, 3), `reshape(a, {3})` has 3 elements. The sizes aren't compared when all the lengths match (arrays.hh:520-523).
* B30 `reshape` accepts negative lengths other than -1 in the leading axes: for `a` of shape (3), `reshape(a, {-2, 3})` has an axis of length -2 (arrays.hh:526).
* B31 `shared_borrowing` takes any view, but the `begin()..end()` of the array it returns are `size()` consecutive addresses. For a view of rank 2 or more whose steps aren't row-major these aren't the elements (arrays.hh:351-359).
* B32 `back()` on run time rank 0 reads `dims[0]` without a check (arrays.hh:140, 317).
* B33 with `RA_OPT_SMALL`, `a+b` on small vectors is computed when the expression is made and not when it's used, so `a[1:3] = a[0:2]+a[0:2]` has other results; and it reads through pointers to vector types that aren't aligned when the operand is a view with an offset (ra.hh:145-157).
* B34 on views of run time rank, when all the subscripts are arrays, they don't go through `wlen`, so `a(len-1-I)` doesn't compile (ply.hh:534-540). With other subscripts in the mix it does (ply.hh:541-545, 496).
* B35 the copy assignment of an array copies the dims first, and then the store. If that throws then the array has the new shape and the old storage (arrays.hh:252-270).
* B36 `Benchmark::once_f` takes the median of the differences with the median, not of their absolute values, so `mad` is always 0. With `runs_ = 1`, the default, both calls to `median` read out of range, see B10 (test.hh:305-307).
* B37 `arg` of a negative real number is 0. For the same number as a complex number it's π (ra.hh:68).
* B38 `Benchmark::lapse` isn't monotonic: the time of an interval no longer than an empty one is the whole interval, so it can be larger than that of a longer interval (test.hh:243).
* B39 the traversal of an iota moves it once more after the last element, so for `iota(1, 2147483647)`, of type `int`, there's signed overflow (expr.hh:88, ply.hh:61). As B26, but for `Seq`.
* B40 `iota op scalar` is optimized to an iota of the type of the result. If the first iota wraps around in its own smaller type then the elements aren't those of the elementwise expression: `iota(3, 4294967295u) + dim_t(1)` is 4294967296, 4294967297, 4294967298 instead of 4294967296, 1, 2 (ra.hh:132-143).
* B41 `at(pick(p, a ...), j)` checks `j` only against the selector and the argument that's selected, so if these have fewer axes than the expression an index out of range, or too short, isn't rejected (expr.hh:688-698, 719).
* B42 `at` on a reframed argument (from `wrank`, `_w` or `outer`) reads entries of the index that don't exist if the index is too short, before the check on the index (expr.hh:450). That's undefined behaviour if the index is for example a `std::array`.
* B43 `i >> d` for a `Dual` tests a `char` that isn't initialized if there's nothing but white space left, or if the stream wasn't good (ra.hh:699). So `while (i >> d)` ends with undefined behaviour, and so does reading an array if any element but the last one can't be read.
* B44 `hodge<D, O>(a)`, in place, copies `a` with `auto b(a)`. If `a` is a view then `b` is another view of the same elements (arrays.hh:118), so when 2*O is D they are overwritten before they are read: with D = 2 and O = 1, x, y becomes -x, x instead of -y, x (ra.hh:582).
* B45 `decltype(a[i])(fps::sign)` is a cast to a reference if `a` is a view of elements that aren't constant. Then the `int` is read as if it had the type of the elements, which is undefined behaviour unless that's `int` (ra.hh:556).
* B46 `abs` of a dual number is the number `abs(a.re)`, so the derivative is lost: in other operations with dual numbers the result is a constant (ra.hh:689).
* B47 A slice moves the pointer out of the array if the range is empty and doesn't begin in the array, as in `a(iota(0, 5))` if `a` has 3 elements, or if the array is empty, as in `a(all, 1)` if `a` has shape {0, 3} (ply.hh:407-409). The pointer isn't used.
* B48 Large numbers that should be found by a check overflow first: `a(iota(3, 0, 2⁶²))` (ply.hh:403, 407), `stencil(a, {2⁶²}, {2⁶²})` (arrays.hh:623), `reshape(a, {2⁴⁰, 2⁴⁰})` (arrays.hh:490-505).
* B49 `ply_ravel` overflows for a view of lengths 0, 2⁴⁰ and 2⁴⁰ and steps 0, which has no elements. The lengths of the last two axes are multiplied before the axes are examined (ply.hh:43-46).
* B50 The elements of a const `Unique` or `Shared` can be changed: `a(0) = 1` compiles if `a` is a `Unique<int, 1> const`, although `a.view()(0) = 1` and `a = 1` don't. `data()` uses `get()`, which gives a pointer to elements that aren't const (arrays.hh:238, 248, 272). The manual (docs/ra-ra.texi:516-555, 1983) says that the elements of a const array are const.
* B51 With `ra::Big<int, 2> a; a.resize(5)`, the shape is (5, 0) and the steps are (1, 1) (arrays.hh:287-290, 306), so that `a(3, 0)` moves the pointer to 3 past the end of an empty array (ply.hh:397) before the check on the second axis fails. That pointer is undefined behaviour.
* B52 Neither `filldimv` nor `indexer` checks that the arguments of an expression match when its type has the number of its elements. `Big<int, 2> a(Small<int, 2>{2, 3} + n, 0)` with `n` a `Big<int, 1>` of one element reads beyond it (C105_shape_negation), and so does `at(a, Small<int, 2>{2, 3} + n)` (C105_index_negation).
* B53 `a.resize(shape(a, iota(2, 1, -1)))` should give `a` its shape in reverse. `shape(a, i)` is an expression that reads `a`, and `filldimv` writes the dims while it goes through it, so {3, 2} becomes {2, 2} (C105_alias_negation).
* B54 `View(s, cp)` for dims `s` doesn't check the rank of `s`, unlike for lengths. A matrix of dims with a single column is taken as a list, while one with a single row isn't (C106_rank_negation).
* B55 `gemm_block` in bench/bench-gemm.cc takes `b` with more rows than `a` has columns, if it divides the sum first, and ignores the other rows; `gemm` fails the check (C107_block_mismatch).
* B56 `examples/indirect.cc:142-145` ("it would be easier to just do"): `where` leaves out the elements at distance exactly `radius`, which the strips above it have. With the numbers of the example there are none. (C121_strips).
* B57 `examples/read-me.cc:102-104` ("All these are equivalent"): without `iter`, the function given to `for_each` gets one element of `A` at a time, so `B` is left with the last element of each row and not with the sum. (C123_elements, C123_not).
* B58 `ra.hh:348-362` (`sum`, `prod`): for an array of arrays of dynamic shape with no elements, `copy_shape(VAL(a), 0)` reads the shape of a first element that doesn't exist. There's no check. (C125_none).
