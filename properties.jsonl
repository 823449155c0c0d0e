{"id": "C01", "title": "Elementwise semantics of mapped expressions", "statement": "The element at index j of ra::map(op, a, b, ...) is op applied to the elements of a, b, ... at j, where an argument of lower rank only looks at the leading entries of j that it has axes for (prefix matching), an argument axis of unbounded length accepts any entry, and each argument is evaluated exactly once.", "quantifier": "every tree of nested map/pick/reframe/view/scalar expressions of any depth and number of arguments, every operation (with any side effect), every valid index", "why_tests_cant": "expression trees, ranks and argument counts are unbounded; tests instantiate a handful of template shapes", "anchors": ["ra/expr.hh:Map::at", "ra/expr.hh:Match", "ra/expr.hh:Cell::at", "ra/expr.hh:Scalar"]}
{"id": "C02", "title": "Shape of an expression under prefix matching", "statement": "When the arguments agree, the rank of the expression is the largest rank among them and its length on axis k is the one finite length that arguments reaching axis k have; lower rank arguments and unbounded axes do not affect it.", "quantifier": "every list of argument shapes (any ranks, any lengths, unbounded axes anywhere), including arguments that are expressions themselves", "why_tests_cant": "infinitely many combinations of ranks, lengths and unbounded axes", "anchors": ["ra/expr.hh:Match::len", "ra/expr.hh:Match::rank", "ra/expr.hh:colen", "ra/expr.hh:corank"]}
{"id": "C03", "title": "agree() decides prefix agreement, independent of argument order", "statement": "agree(a, b, ...) is true exactly when on every axis below the largest rank all finite lengths of the arguments that have that axis are equal and at least one is finite. The answer does not depend on the order of the arguments.", "quantifier": "every list of argument shapes and every permutation of it", "why_tests_cant": "all orders of all argument lists cannot be enumerated; the running fold with sentinels is order sensitive in its intermediate values", "anchors": ["ra/expr.hh:agree", "ra/expr.hh:Match::check", "ra/expr.hh:colen"]}
{"id": "C04", "title": "Compile time shape checks are consistent with run time checks", "statement": "If the static check rejects an expression, no assignment of run time lengths to the dynamic axes would pass the run time check. If the static check passes without asking for a run time check, every assignment of run time lengths passes it.", "quantifier": "every list of arguments with any mix of static and dynamic lengths, and every run time instantiation", "why_tests_cant": "each static signature has infinitely many run time instances; rejected programs do not compile so a test cannot run them", "anchors": ["ra/expr.hh:Match::check_s", "ra/expr.hh:Match::len_s", "ra/expr.hh:validate"]}
{"id": "C05", "title": "Dynamic traversal visits every element once in row-major order", "statement": "for_each over an expression of dynamic size evaluates the expression exactly once for each index of its shape, in row-major order, and at no other position, whatever compaction of axes it performs internally.", "quantifier": "every expression tree, any rank, any lengths including zero, any strides (negative, zero, overlapping), any operation with side effects", "why_tests_cant": "the axis compaction heuristic depends on arbitrary combinations of strides across arguments", "anchors": ["ra/ply.hh:ply_ravel", "ra/expr.hh:Cell::keep", "ra/expr.hh:Match::keep", "ra/expr.hh:Reframe::keep"]}
{"id": "C06", "title": "Static traversal is indistinguishable from dynamic traversal", "statement": "for_each over an expression of static size has the same effects, in the same order, as the traversal used for dynamic sizes: one evaluation per index, row-major.", "quantifier": "every expression tree of any rank and lengths, any operation with side effects", "why_tests_cant": "rank is a template parameter, each rank is a separate instantiation", "anchors": ["ra/ply.hh:ply_fixed", "ra/ply.hh:subply", "ra/ply.hh:ply"]}
{"id": "C07", "title": "A completed traversal leaves the iterator at its start", "statement": "After for_each/ply over an iterator that runs to completion, the iterator points where it did before, so a second traversal of the same iterator visits the same elements again.", "quantifier": "every expression tree, any lengths including zero, any strides", "why_tests_cant": "accumulated pointer offsets over all rank/length/stride combinations", "anchors": ["ra/ply.hh:ply_ravel", "ra/ply.hh:subply", "ra/expr.hh:Match::adv"]}
{"id": "C08", "title": "Early exit returns the first stop in row-major order", "statement": "early(expr, def) returns the first engaged optional met in row-major order, evaluates no element after it, and returns def when there is none; this includes rank 0 and empty expressions.", "quantifier": "every expression of optionals, any shape, any position of the first stop, static or dynamic traversal (started from a clean traversal state)", "why_tests_cant": "positions and shapes unbounded; evaluating too much is invisible to value comparing tests", "anchors": ["ra/ply.hh:early", "ra/ply.hh:ply_ravel", "ra/ply.hh:subply"]}
{"id": "C09", "title": "Early exit reductions do not depend on history", "statement": "The result of any/every/index/lexical_compare/early on an expression depends only on the expression, not on which such reductions ran earlier in the same thread.", "quantifier": "every sequence of reductions of the same expression type executed one after the other in a thread", "why_tests_cant": "needs all call histories; single calls in tests always start from fresh state", "anchors": ["ra/ply.hh:ply_ravel (thread_local z)", "ra/ra.hh:index", "ra/ra.hh:any"]}
{"id": "C10", "title": "STL range iteration over expressions", "statement": "Iterating an ra:: object with begin()/end() yields the elements in row-major order, each exactly once, and reaches end after exactly size() increments; an empty object is at end immediately.", "quantifier": "every expression or view of any rank and lengths", "why_tests_cant": "all ranks, lengths and strides", "anchors": ["ra/ply.hh:STLIterator", "ra/ply.hh:begin"]}
{"id": "C11", "title": "Scalar subscripts select the element or subview, and reject out of range", "statement": "A(i0, i1, ...) with integer subscripts gives the element (or subview of the remaining axes) at those coordinates if every subscript is in range, and fails the check otherwise without touching memory outside.", "quantifier": "every view (any strides, any rank), every number of scalar subscripts up to the rank, every integer", "why_tests_cant": "every stride pattern and subscript value", "anchors": ["ra/ply.hh:from", "ra/ply.hh:fromb", "ra/ply.hh:frompl", "ra/base.hh:inside"]}
{"id": "C12", "title": "Range subscripts select an arithmetic progression", "statement": "A(iota(n, o, s)) has length n on that axis and its element j is A(o+s*j); it is accepted exactly when n is zero or all the selected positions are in range.", "quantifier": "every view, axis, n>=0, origin o and step s (including negative and zero)", "why_tests_cant": "all lengths, origins and steps", "anchors": ["ra/ply.hh:fromb", "ra/ply.hh:iota", "ra/ply.hh:frombv"]}
{"id": "C13", "title": "dots, insert and elided subscripts", "statement": "dots<n> keeps n axes unchanged, dots<> keeps all the axes not named by the other subscripts, missing trailing subscripts keep the remaining axes, and insert<n> adds n axes of unbounded length along which the result is constant. The rank of the result is that of the source, minus the source axes consumed, plus the axes produced.", "quantifier": "every view and every list of subscripts mixing scalars, ranges, dots, insert", "why_tests_cant": "combinations of subscript kinds of any length", "anchors": ["ra/ply.hh:fromb", "ra/ply.hh:frombrank", "ra/ply.hh:dots", "ra/ply.hh:insert"]}
{"id": "C14", "title": "A slice never reaches outside its source", "statement": "Every element of a slice made with scalar/range/dots/insert subscripts that pass the checks is an element of the source view.", "quantifier": "every view, every accepted list of subscripts including multidimensional iota subscripts", "why_tests_cant": "memory safety over all views and subscripts", "anchors": ["ra/ply.hh:fromb (iota branch)", "ra/ply.hh:iota"]}
{"id": "C15", "title": "Array subscripts form the outer product of positions", "statement": "A(I, J, ...) with array valued subscripts has as shape the concatenation of the shapes of the subscripts (kept axes and ranges contribute theirs) and element at (i.., j.., ...) equal to A(I(i..), J(j..), ...).", "quantifier": "every view, every number of array subscripts of any ranks, mixed with scalar/range/all subscripts", "why_tests_cant": "unbounded number of subscripts and ranks; implemented by recursive rank conjunctions", "anchors": ["ra/ply.hh:fromu", "ra/ply.hh:fromu_loop", "ra/ply.hh:spacer", "ra/expr.hh:Framematch"]}
{"id": "C16", "title": "Outer product of an operation", "statement": "from(op, a, b, ...) has as shape the concatenation of the shapes of the arguments, and its element at (i.., j.., ...) is op(a(i..), b(j..), ...).", "quantifier": "every number of arguments of any ranks", "why_tests_cant": "variadic recursion over template ranks", "anchors": ["ra/ply.hh:from", "ra/ply.hh:fromu_loop", "ra/expr.hh:Framematch", "ra/expr.hh:Reframe"]}
{"id": "C17", "title": "Rank conjunction", "statement": "map(wrank<c0, c1, ...>(op), a, b, ...) matches the leading (frame) axes of the arguments by prefix, and for each frame position applies op between the cells of the given ranks; nested conjunctions do this recursively.", "quantifier": "every number of arguments, every argument rank, every cell rank not larger than the argument rank, every nesting of conjunctions", "why_tests_cant": "all ranks and nestings", "anchors": ["ra/expr.hh:wrank", "ra/expr.hh:Framematch", "ra/expr.hh:map_verb"]}
{"id": "C18", "title": "Reframing moves the axes it says and no other", "statement": "Reframing an expression with destination axes d0, d1, ... (no repeats) gives an expression whose element at j is that of the original at (j[d0], j[d1], ...); the axes not named are unbounded and do not move it.", "quantifier": "every expression, every injective list of destination axes", "why_tests_cant": "all axis maps", "anchors": ["ra/expr.hh:Reframe", "ra/expr.hh:reframe", "ra/arrays.hh:tindex"]}
{"id": "C19", "title": "reverse", "statement": "reverse(a, k) has the shape of a and element (.., i_k, ..) equal to a's at (.., len_k-1-i_k, ..); applying it twice gives back the same view; an axis outside the rank is rejected by the check.", "quantifier": "every view of any rank and strides including empty axes, every axis number", "why_tests_cant": "all strides, lengths, axes", "anchors": ["ra/arrays.hh:reverse"]}
{"id": "C20", "title": "transpose", "statement": "transpose(a, s) has element j equal to a's at (j[s0], j[s1], ...); axes that receive several source axes are diagonals whose length is the smallest of the finite ones; axes not named are unbounded. For a permutation, transposing by the inverse permutation restores the view. A bad axis list is rejected by a check.", "quantifier": "every view, every axis list", "why_tests_cant": "all axis lists (with repeats and gaps) and all views", "anchors": ["ra/arrays.hh:transpose", "ra/arrays.hh:transpose_dims", "ra/arrays.hh:diag"]}
{"id": "C21", "title": "reshape keeps row-major order", "statement": "reshape(a, s) with product of s not larger than the size of a is a view whose k-th element in row-major order is the k-th element of a in row-major order; a -1 placeholder is replaced by the length that makes the sizes equal; adding leading axes to a repeats it (tile); when no such view exists the check fails.", "quantifier": "every view (any strides), every target shape with at most one placeholder", "why_tests_cant": "all strides and shapes; only C-order sources are usually tested", "anchors": ["ra/arrays.hh:reshape"]}
{"id": "C22", "title": "ravel_free", "statement": "ravel_free(a) either fails the check or is a rank 1 view with the elements of a in row-major order.", "quantifier": "every view (any strides, any lengths)", "why_tests_cant": "all strides", "anchors": ["ra/arrays.hh:ravel_free", "ra/arrays.hh:c_order"]}
{"id": "C23", "title": "c_order decides row-major contiguity", "statement": "c_order(dims) is true exactly when the element at row-major position n is at offset n from the first element, for every n (vacuous when there are no elements); c_order(dims, false) is true exactly when it is at offset n*s for a fixed s.", "quantifier": "every list of lengths and steps", "why_tests_cant": "all dims", "anchors": ["ra/arrays.hh:c_order"]}
{"id": "C24", "title": "stencil", "statement": "stencil(a, lo, hi) has elements s(i.., j..) = a(i+j ..) for i in [0, len-lo-hi) and j in [0, lo+hi], all of them elements of a; it is rejected when lo or hi is negative or the array is smaller than lo+hi.", "quantifier": "every view, every pair of bound lists", "why_tests_cant": "all ranks, bounds and strides", "anchors": ["ra/arrays.hh:stencil"]}
{"id": "C25", "title": "explode and collapse", "statement": "collapse<sub>(a) exposes the compact subelements of each element as additional trailing axes at the right addresses, and explode<sup> of it gives back the original view; explode rejects views whose trailing axes do not match the layout of sup.", "quantifier": "every view, every static inner shape", "why_tests_cant": "all strides and inner shapes", "anchors": ["ra/arrays.hh:explode", "ra/arrays.hh:explode_dims", "ra/arrays.hh:collapse"]}
{"id": "C26", "title": "Cell iteration", "statement": "iter<c>(a) has as shape the frame (leading rank-c axes for c>=0, the first -c axes for c<0), and its element at i is the view of the trailing axes with element j equal to a(i.., j..). at_view(a, i) is that cell for as many indices as given, and rejects more indices than the rank of a.", "quantifier": "every view, every cell rank, every index", "why_tests_cant": "all ranks/strides", "anchors": ["ra/expr.hh:Cell", "ra/expr.hh:rank_cell", "ra/expr.hh:rank_frame", "ra/ra.hh:at_view"]}
{"id": "C27", "title": "Assignment to a view writes exactly its elements", "statement": "After dst = expr, where expr agrees with dst and does not read elements of dst other than the one being written, each element dst(j) holds the value that expr(j) had before the assignment, and no memory outside dst changed. If the shapes do not agree, the check fails before anything is written.", "quantifier": "every destination view without repeated elements, every expression, every memory content", "why_tests_cant": "all layouts and memory contents, and everything outside dst", "anchors": ["ra/expr.hh:RA_ASSIGNOPS_LINE", "ra/arrays.hh:View::operator=", "ra/ply.hh:for_each"]}
{"id": "C28", "title": "Compound assignment with unbounded or missing axes accumulates", "statement": "dst OP= expr where expr has more axes than dst (or dst was extended with insert) applies OP once per element of expr, in row-major order, to the element of dst selected by prefix matching. dst = expr does the same with plain assignment, so each element of dst keeps the last value.", "quantifier": "every destination, every expression of larger rank, every operation", "why_tests_cant": "all shapes", "anchors": ["ra/expr.hh:RA_ASSIGNOPS_LINE", "ra/ra.hh:gemm", "ra/ply.hh:insert"]}
{"id": "C29", "title": "Matrix products", "statement": "gemm(a, b)(i, j) is the sum over k of a(i,k)*b(k,j); gemv and gevm likewise; with an accumulator argument the product is added to it. Mismatched inner lengths fail the check.", "quantifier": "every size (including 0), every layout of a and b, every commutative or noncommutative semiring of values, every code path (Slice or expression arguments)", "why_tests_cant": "all sizes and layouts", "anchors": ["ra/ra.hh:gemm", "ra/ra.hh:gemv", "ra/ra.hh:gevm"]}
{"id": "C30", "title": "Container invariant", "statement": "After any sequence of construction, resize, push_back, pop_back, assignment and swap, an array's stored element count equals the product of its lengths and its steps are row-major, so begin()..end() is exactly the elements.", "quantifier": "every sequence of operations that does not fail", "why_tests_cant": "all operation histories", "anchors": ["ra/arrays.hh:Array", "ra/expr.hh:filldimv"]}
{"id": "C31", "title": "Resizing keeps the elements", "statement": "resize(n) of the first axis keeps every element whose first index is less than both the old and the new length at the same index, and resize(n, t) sets all new elements to t; push_back appends one element and pop_back removes the last one, leaving the others.", "quantifier": "every array of any rank and shape, every new length, every content", "why_tests_cant": "all shapes and contents", "anchors": ["ra/arrays.hh:Array::resize", "ra/arrays.hh:Array::push_back", "ra/arrays.hh:Array::pop_back"]}
{"id": "C32", "title": "A failed resize leaves the container consistent", "statement": "If the storage throws while resizing or pushing, or the requested length is bad, the array still satisfies the container invariant.", "quantifier": "every operation sequence and every allocation failure point", "why_tests_cant": "failure points cannot be enumerated by tests", "anchors": ["ra/arrays.hh:Array::resize", "ra/arrays.hh:Array::push_back"]}
{"id": "C33", "title": "swap between static and dynamic rank arrays", "statement": "swap(a, b) exchanges shapes and contents of arrays of equal rank even if one has static and the other dynamic rank; different ranks are rejected before any change.", "quantifier": "every pair of arrays", "why_tests_cant": "all shapes/contents", "anchors": ["ra/arrays.hh:swap"]}
{"id": "C34", "title": "Nested initializer lists", "statement": "An array made from nested braces has the shape of the nest and the element at (i, j, ...) found by following the nest; a ragged nest (two siblings of different length at any level) is rejected.", "quantifier": "every nest of any rank and lengths, including empty ones", "why_tests_cant": "all nests", "anchors": ["ra/arrays.hh:braces_shape", "ra/arrays.hh:View::operator=(braces)", "ra/arrays.hh:Array(braces)"]}
{"id": "C35", "title": "any, every and index", "statement": "any(a) is true iff some element is true, every(a) iff all are, and index(a) is the first-axis index of the first true element in row-major order, or -1.", "quantifier": "every array of any shape, including empty (starting from a clean traversal state)", "why_tests_cant": "all shapes and contents", "anchors": ["ra/ra.hh:any", "ra/ra.hh:every", "ra/ra.hh:index"]}
{"id": "C36", "title": "lexical_compare is a strict order", "statement": "lexical_compare(a, b) for arrays of the same shape is true iff at the first row-major position where they differ a's element is smaller; it is irreflexive, transitive and total on contents.", "quantifier": "all arrays of the same shape over any linear order", "why_tests_cant": "all triples of arrays", "anchors": ["ra/ra.hh:lexical_compare"]}
{"id": "C37", "title": "amin and amax", "statement": "amin(a) is a lower bound of the elements and is one of them when a is not empty; for empty a it is the greatest value of the type. amax dually.", "quantifier": "all arrays over a linear order with top/bottom", "why_tests_cant": "all contents", "anchors": ["ra/ra.hh:amin", "ra/ra.hh:amax"]}
{"id": "C38", "title": "refmin and refmax", "statement": "refmin(a, less) refers to the first element in row-major order that no other element precedes; it refers to an element of a and fails the check on empty a.", "quantifier": "all views and strict weak orders", "why_tests_cant": "all contents, ties", "anchors": ["ra/ra.hh:refmin", "ra/ra.hh:refmax"]}
{"id": "C39", "title": "sum, prod, dot and friends", "statement": "sum(a)/prod(a) fold the elements in row-major order starting from 0/1; dot(a, b) is the sum of products of matching elements; for a commutative ring the result does not depend on layout or order.", "quantifier": "all arrays, all value types with the operations", "why_tests_cant": "all sizes", "anchors": ["ra/ra.hh:sum", "ra/ra.hh:prod", "ra/ra.hh:dot", "ra/ra.hh:cdot", "ra/ra.hh:reduce_sqrm"]}
{"id": "C40", "title": "pick and where evaluate only what they select", "statement": "The element of pick(p, a0, a1, ...) at j is that of a_{p(j)} at j and no other alternative is evaluated at j; a selector out of range aborts. where(w, t, f) picks t where w is true, else f.", "quantifier": "every shape, selector array, number of alternatives, side effecting alternatives", "why_tests_cant": "laziness per element and unbounded alternatives", "anchors": ["ra/expr.hh:Pick", "ra/expr.hh:pick_at", "ra/expr.hh:pick_star", "ra/ra.hh:where"]}
{"id": "C41", "title": "&& and || short circuit per element", "statement": "For arrays, a && b evaluates b at j only if a(j) is true; a || b evaluates b at j only if a(j) is false; values are the boolean and/or.", "quantifier": "every pair of expressions with any side effects", "why_tests_cant": "side effects per element", "anchors": ["ra/ra.hh:operator &&", "ra/ra.hh:operator ||"]}
{"id": "C42", "title": "Arithmetic on iotas is optimized without changing its meaning", "statement": "iota op scalar, scalar op iota, iota op iota (+,-) and iota*scalar, -iota have the same shape and elements as the unoptimized elementwise expression, and mismatched lengths are diagnosed in the same cases.", "quantifier": "all lengths (static, dynamic, unbounded), origins, steps and scalars", "why_tests_cant": "all integers and all static/dynamic mixes", "anchors": ["ra/ra.hh:opt", "ra/expr.hh:clen", "ra/expr.hh:cadd", "ra/expr.hh:csub", "ra/expr.hh:viewptr"]}
{"id": "C43", "title": "ra::len stands for the length of the subscripted axis", "statement": "A subscript or iota parameter written with ra::len means the same as the one where each ra::len is replaced by the length of the axis it is used on.", "quantifier": "every expression tree with ra::len anywhere, every length", "why_tests_cant": "all expression trees", "anchors": ["ra/ply.hh:wlen", "ra/ply.hh:WLen", "ra/ply.hh:fromb"]}
{"id": "C44", "title": "binom computes binomial coefficients without overflow in its stated range", "statement": "binom(n, p) is the binomial coefficient for all n and p as natural numbers, and with 64 bit arithmetic no intermediate overflows for n<=62 and any p.", "quantifier": "all n, p (mathematical); all p for n<=62 (machine)", "why_tests_cant": "intermediate products overflow before results do", "anchors": ["ra/ra.hh:binom"]}
{"id": "C45", "title": "Combinations are enumerated completely", "statement": "combs<A, K> lists every K-element subsequence of A exactly once in lexicographic order; choose<D, O> lists for every O-subset of [0,D) exactly one arrangement, so its length is binom(D, O); no internal static assertion fails for any 0<=O<=D.", "quantifier": "all lists A without repeats and all K; all D and O", "why_tests_cant": "template metaprograms instantiated at few values", "anchors": ["ra/base.hh:mp::combs", "ra/base.hh:mp::choose", "ra/base.hh:mp::anticomb"]}
{"id": "C46", "title": "complement and permutation sign", "statement": "complement_list<S, T> keeps in order exactly the elements of T not in S; permsign<C, R> is the sign of the permutation that takes C to R when they are arrangements of each other, else 0.", "quantifier": "all lists without repeats", "why_tests_cant": "all permutations", "anchors": ["ra/base.hh:mp::complement_list", "ra/base.hh:mp::permsign", "ra/base.hh:mp::findcomb"]}
{"id": "C47", "title": "Wedge product", "statement": "wedge<D, Oa, Ob>(a, b) is bilinear and graded anticommutative, a^b = (-1)^(Oa*Ob) b^a; on basis forms it is the signed union or zero on overlap; cross is the usual cross product in 2 and 3 dimensions.", "quantifier": "all D, Oa, Ob with Oa+Ob<=D and all component values in a commutative ring", "why_tests_cant": "all dimensions/orders", "anchors": ["ra/ra.hh:Wedge::term", "ra/ra.hh:Wedge::prod", "ra/ra.hh:cross"]}
{"id": "C48", "title": "Hodge star", "statement": "hodge and hodgex agree for every D and O: in the cases where hodge is a plain copy of components, the general component shuffle is the identity with all positive signs.", "quantifier": "all D and O", "why_tests_cant": "all dimensions", "anchors": ["ra/ra.hh:Hodge", "ra/ra.hh:hodge", "ra/ra.hh:hodgex"]}
{"id": "C49", "title": "Dual numbers compute derivatives", "statement": "If x carries (f(t), f'(t)), every supported function of x (+,-,*,/,fma,sqr,inv,sin,cos,tan,sinh,cosh,exp,log,sqrt,pow,abs,xi) carries the value and derivative of the composed function at t.", "quantifier": "all differentiable f, all points in the domain", "why_tests_cant": "all reals", "anchors": ["ra/ra.hh:Dual", "ra/ra.hh:tan", "ra/ra.hh:inv", "ra/ra.hh:abs"]}
{"id": "C50", "title": "Printing then reading gives the same array", "statement": "Reading with >> what << wrote for an array gives an array of the same shape and elements, for static shape, static rank and dynamic rank arrays, provided that the element type itself round trips and prints without whitespace. If the shape can't be read, the stream fails and the array isn't changed; if an element can't be read, the stream fails.", "quantifier": "all shapes (of any rank and lengths) and contents", "why_tests_cant": "all shapes including zero lengths and rank 0", "anchors": ["ra/ply.hh:operator>>", "ra/ply.hh:formatter::format", "ra/base.hh:format_t"]}
{"id": "C51", "title": "Structure of formatted output", "statement": "The formatted output consists of the elements in row-major order, each group of axis k enclosed by the open/close strings, with sep0 between elements of the last axis, and sepn plus max(0, rank-2-k) times rep between groups of axis k; the shape header is present exactly as the style says.", "quantifier": "all shapes, contents and styles", "why_tests_cant": "all shapes and styles", "anchors": ["ra/ply.hh:formatter::format", "ra/base.hh:format_t"]}
{"id": "C52", "title": "Parsing a format specification stays inside the string", "statement": "Parsing any format specification either succeeds, or throws format_error, without reading past the end of the string.", "quantifier": "all strings", "why_tests_cant": "all malformed strings", "anchors": ["ra/ply.hh:formatter::parse"]}
{"id": "C53", "title": "Test accounting", "statement": "After any sequence of tests, total is the number of tests, each is counted in exactly one of passed/failed/skipped counters, and summary() is the number of non skipped tests whose outcome was not the expected one; modifiers (skip, expectfail, strict) only affect the next test.", "quantifier": "all sequences of tests and modifiers", "why_tests_cant": "all histories", "anchors": ["ra/test.hh:TestRecorder"]}
{"id": "C54", "title": "Benchmark median", "statement": "median(t) is the middle value for odd sizes and the mean of the two middle values for even sizes, without accessing outside t.", "quantifier": "all nonempty samples", "why_tests_cant": "all samples", "anchors": ["ra/test.hh:Benchmark::median"]}
{"id": "C55", "title": "Row-major fill from a flat list", "statement": "Assigning or constructing from a flat list of as many elements as the size puts the n-th list element at row-major position n; other sizes are rejected.", "quantifier": "all shapes, layouts and lists", "why_tests_cant": "all shapes", "anchors": ["ra/arrays.hh:to_ravel", "ra/arrays.hh:View::operator=(T (&&)[N])"]}
{"id": "C56", "title": "concrete makes an equal array", "statement": "concrete(e) has the shape of e and equal elements, whatever the layout and kind of e. If an element of e can't be evaluated, the failure is passed on and no memory is lost.", "quantifier": "every expression", "why_tests_cant": "all expressions", "anchors": ["ra/arrays.hh:concrete", "ra/arrays.hh:copy_shape", "ra/arrays.hh:Array(auto const &)"]}
{"id": "C57", "title": "Subscripting unbounded views", "statement": "A finite subscript (scalar or range of nonnegative positions) of an unbounded view such as viewptr(p) selects those positions of the underlying sequence.", "quantifier": "all nonnegative subscripts", "why_tests_cant": "all positions", "anchors": ["ra/ply.hh:fromb", "ra/expr.hh:viewptr", "docs/ra-ra.texi:viewptr"]}
{"id": "C58", "title": "Row-major dims", "statement": "The dims computed for a shape make the element at index j sit at the row-major rank of j: indices and offsets 0..size-1 correspond one to one, and a negative length is rejected.", "quantifier": "all shapes", "why_tests_cant": "all ranks and lengths", "anchors": ["ra/expr.hh:filldimv", "ra/expr.hh:c_dimv", "ra/expr.hh:dimv_size"]}
{"id": "C59", "title": "at() agrees with traversal, and checks its index", "statement": "at(a, j) refers to the same element that traversal visits for index j, extra trailing entries of j are ignored, and an index with too few entries or an entry out of range fails the check.", "quantifier": "all views, expressions and indices", "why_tests_cant": "all indices/strides", "anchors": ["ra/ra.hh:at", "ra/expr.hh:indexer"]}
{"id": "C60", "title": "shape(v, e) reports the asked axes", "statement": "shape(v, k) is the length of axis k of v and fails the check for k outside the rank; for an array of axes (possibly written with ra::len) it is elementwise.", "quantifier": "all shapes and axes", "why_tests_cant": "all ranks", "anchors": ["ra/ply.hh:shape"]}
{"id": "C61", "title": "size, rank and emptiness are consistent", "statement": "size() of any object with finite lengths is the product of its lengths, it is negative exactly when some axis is unbounded, the static size when known equals the run time one, and empty() is true iff some length is zero.", "quantifier": "all shapes with any mix of static/dynamic/unbounded", "why_tests_cant": "all shapes", "anchors": ["ra/base.hh:size_s", "ra/base.hh:size", "ra/expr.hh:dimv_size", "ra/expr.hh:dimv_empty"]}
{"id": "C62", "title": "An array that was moved from is still a container", "statement": "After b(std::move(a)), b has the shape and the elements that a had, and a is left in a state where size() is the number of elements it stores, so that begin()..end() is a valid range.", "quantifier": "all arrays, of static and dynamic rank", "why_tests_cant": "all shapes", "anchors": ["ra/arrays.hh:Array"]}
{"id": "C63", "title": "Conversion to scalar", "statement": "An array or expression converts to a scalar, giving its only element, when its size is 1 whatever its rank; otherwise the conversion fails the check.", "quantifier": "all shapes, expressions and layouts", "why_tests_cant": "all ranks and lengths", "anchors": ["ra/expr.hh:to_scalar", "ra/arrays.hh:View", "ra/expr.hh:Map"]}
{"id": "C64", "title": "An assignment that is interrupted has done a prefix", "statement": "If evaluating the element of expr at j throws or fails a check during dst = expr or dst OP= expr, then exactly the elements of dst that come before j in row-major order have been assigned (updated), and the rest of dst and all other memory are as they were.", "quantifier": "all shapes, layouts and expressions, and every index at which the evaluation may fail", "why_tests_cant": "every crash point of every traversal", "anchors": ["ra/expr.hh:ASSIGNOPS_ITER", "ra/ply.hh:for_each", "ra/ply.hh:ply"]}
{"id": "C65", "title": "A traversal doesn't depend on the other traversals of the thread", "statement": "A traversal visits the elements in row-major order until one stops it or fails, with the results and effects that this says, whatever other traversals of the same type the thread did before (completed, stopped or ended by an exception), and also when evaluating an element does itself a traversal of the same type.", "quantifier": "all shapes, layouts and expressions, all histories of traversals, all points where an element may fail", "why_tests_cant": "all histories and all crash points", "anchors": ["ra/ply.hh:ply_ravel"]}
{"id": "C66", "title": "Threads that don't share what they write", "statement": "If several threads run traversals (in particular dst = expr or dst OP= expr), and no thread writes elements that another one reads or writes, then whatever the schedule each thread behaves as if it was alone: it completes, its destination gets the values it would get alone, and other memory is unchanged.", "quantifier": "any number of threads, all schedules, shapes, layouts and expressions", "why_tests_cant": "all interleavings of the element accesses", "anchors": ["ra/ply.hh:ply_ravel", "ra/expr.hh:ASSIGNOPS_ITER", "ra/ply.hh:for_each"]}
{"id": "C67", "title": "Sizes, steps and indices don't overflow", "statement": "If all the lengths and the number of elements of an array can be represented, then making the array, its size() and finding an element by its index involve no integer that can't be represented in 64 bits and no pointer outside of the array, and give what unlimited integers would give. An index that isn't valid fails the check without overflow.", "quantifier": "all shapes, layouts and indices, including empty shapes", "why_tests_cant": "lengths up to 2^63", "anchors": ["ra/expr.hh:filldimv", "ra/expr.hh:dimv_size", "ra/expr.hh:indexer"]}
{"id": "C68", "title": "A traversal doesn't form pointers outside of the arrays", "statement": "During a traversal the pointers of each argument stay in the array they point into, or one past its end.", "quantifier": "all shapes, layouts and expressions", "why_tests_cant": "all shapes and layouts; pointers that aren't dereferenced have no effect that a test can see", "anchors": ["ra/ply.hh:ply_ravel", "ra/ply.hh:ply_fixed", "ra/expr.hh:Cell"]}
{"id": "C69", "title": "Array subscripts on arrays of run time rank", "statement": "If the rank of a isn't known until run time, then a(i...) where some of the subscripts are arrays gives what the same subscripts would give if the rank was static, or fails the check, whatever that rank turns out to be. There's no undefined behaviour.", "quantifier": "all ranks, shapes, layouts and lists of subscripts", "why_tests_cant": "all combinations of rank and subscripts", "anchors": ["ra/ply.hh:from", "ra/ply.hh:frombrank"]}
{"id": "C70", "title": "Index placeholders", "statement": "In an expression with arguments of shape s the index placeholder _w stands for the w-th index of each element. In particular map(f, a, _0, _1 ...) gives f(a(i, j ...), i, j ...) at each (i, j ...), for_each calls f with those in row-major order, and map(a, _w ...) is a with its axes selected, with the same checks as a(i...).", "quantifier": "all ranks, shapes, expressions and selections of axes", "why_tests_cant": "all shapes and selections", "anchors": ["ra/arrays.hh:tindex", "ra/arrays.hh:reframe", "ra/ply.hh:iota"]}
{"id": "C71", "title": "Tests with tolerances", "statement": "test_abs(ref, a, req) and test_rel(ref, a, req) pass if and only if for every pair of elements the error isn't over req when the reference is finite, or else both are the same infinity or both are NaN. A NaN that isn't expected makes them fail, wherever it is.", "quantifier": "all shapes and values, including infinities, NaN and empty arguments, for any rounding of the errors", "why_tests_cant": "all values and positions of NaN", "anchors": ["ra/test.hh:amax_strict", "ra/test.hh:nanny", "ra/test.hh:test_rel", "ra/test.hh:test_abs"]}
{"id": "C72", "title": "Views of views stay inside the array", "statement": "However views are made from views of an array with subscripts, reverse, transpose, stencil, reshape and ravel_free, any number of times, if all the checks pass then every element of the last view is an element of the array.", "quantifier": "all arrays and all sequences of operations with any arguments", "why_tests_cant": "all sequences of operations of any length", "anchors": ["ra/ply.hh:from", "ra/arrays.hh:reverse", "ra/arrays.hh:transpose", "ra/arrays.hh:stencil", "ra/arrays.hh:reshape", "ra/arrays.hh:ravel_free"]}
{"id": "C73", "title": "Views of views don't repeat elements unless asked to", "statement": "A view that is made from an array by any number of slices (without new axes or ranges of step 0), reverse, permutations of the axes, ravel_free and reshape to no more elements, has a different element of the array at each index. So assigning to it gives to each element the value that goes with its index, and changes nothing else.", "quantifier": "all arrays and all sequences of operations with any arguments", "why_tests_cant": "all sequences of operations of any length", "anchors": ["ra/ply.hh:from", "ra/arrays.hh:reverse", "ra/arrays.hh:transpose", "ra/arrays.hh:reshape", "ra/arrays.hh:ravel_free", "ra/expr.hh:ASSIGNOPS_ITER"]}
{"id": "C74", "title": "Nesting of expressions", "statement": "The shape of an expression, and whether its arguments agree, depend only on which arguments it has, and not on how the operations are nested, on the order of the arguments or on repetitions. So (a+b)+c and a+(b+c) both fail the check or have the same shape; and if the operation is associative they have the same elements.", "quantifier": "all expressions of any depth, and all arguments", "why_tests_cant": "all trees", "anchors": ["ra/expr.hh:Match", "ra/expr.hh:Map", "ra/ply.hh:ply_ravel"]}
{"id": "C75", "title": "Arrays are values", "statement": "Programs with arrays of any type, that create them, resize them, push and pop elements, copy and swap them, assign to single elements, and assign expressions of the arrays to the arrays, have the same results as if each array was just a shape and a list of elements: an operation only changes the arrays it's about, copies are independent, and elements keep their row-major positions. In a = e or a += e where e doesn't have more axes than a, each element gets the value computed from the values before, even if a is in e. Assignments with bad indices or shapes fail the check and change nothing.", "quantifier": "all sequences of operations, shapes, values and placements in memory", "why_tests_cant": "all sequences of operations of any length", "anchors": ["ra/arrays.hh:Array", "ra/arrays.hh:swap", "ra/expr.hh:ASSIGNOPS_ITER", "ra/ply.hh:from"]}
{"id": "C76", "title": "Iteration over views and containers", "statement": "A range-for loop over a view or a container visits each element once in row-major order, whatever is known of its shape by the compiler. back() is the last item, and as<s, o>() the s items from item o, or else they fail the check. An array that borrows a view (shared_borrowing) has the same shape, elements and iteration as the view.", "quantifier": "all views, containers, shapes and steps", "why_tests_cant": "all shapes and steps", "anchors": ["ra/arrays.hh:View", "ra/arrays.hh:Array", "ra/arrays.hh:shared_borrowing", "ra/ply.hh:STLIterator"]}
{"id": "C77", "title": "RA_OPT_SMALL doesn't change results", "statement": "The operations +, -, *, / between small vectors of the same length have the same values with the optimization RA_OPT_SMALL as without it, wherever the vectors are and however the results are used.", "quantifier": "all vectors, values and destinations", "why_tests_cant": "all placements in memory", "anchors": ["ra/ra.hh:opt", "ra/ra.hh:match_small", "ra/arrays.hh:extvector"]}
{"id": "C78", "title": "Views of arrays as index maps", "statement": "Any chain of slices, transpositions, reversals, reshapes, ravels and rank-changing views of an array succeeds when each step fits the shape that it's given, and the result is an index map: its shape is found from the array's shape and the operations, and each element of the view is the array's element at the index given by the composition of the index maps of the operations, which is always within the array.", "quantifier": "all arrays, all chains of operations, all shapes and subscripts, all indices", "why_tests_cant": "all chains of operations of any length", "anchors": ["ra/ply.hh:from", "ra/ply.hh:fromb", "ra/arrays.hh:transpose", "ra/arrays.hh:reverse", "ra/arrays.hh:reshape", "ra/arrays.hh:ravel_free"]}
{"id": "C79", "title": "Programs with views", "statement": "A program that creates, resizes, copies, moves and assigns arrays, where both the destinations and the operands of assignments are views made by any chain of operations on the arrays, computes what the same program does on array values with index maps, with no regard to where the arrays are in memory. Assignments go in row-major order of the matched shape. An assignment runs when the shapes of the views match and otherwise fails the check and changes nothing. When the destination doesn't repeat elements and the operands only overlap it at the same index, then each element gets the value of the expression with the arrays as before, and nothing else changes.", "quantifier": "all programs, all chains of view operations, all shapes and values, all aliasing between views", "why_tests_cant": "all programs and all overlaps", "anchors": ["ra/arrays.hh:RA_ASSIGNOPS", "ra/arrays.hh:Array", "ra/arrays.hh:View", "ra/ply.hh:ply_ravel", "ra/ply.hh:from"]}
{"id": "C80", "title": "Arrays with shared storage", "statement": "Copies of an array with shared storage refer to the same elements, so an assignment through one is seen through all the others and through no other array; this goes on for as long as there is any of them, after copies, moves, swaps and the destruction of the others. The storage is released when the last array that refers to it is destroyed or assigned to, and not before, and exactly once; when all the arrays are gone no storage is left. Storage that was borrowed is never released.", "quantifier": "all histories of creation, copy, move, swap, assignment and destruction of Shared and Unique arrays, all shapes and values", "why_tests_cant": "all histories", "anchors": ["ra/arrays.hh:storage_traits", "ra/arrays.hh:Array", "ra/arrays.hh:Shared", "ra/arrays.hh:Unique", "ra/arrays.hh:swap", "ra/arrays.hh:shared_borrowing"]}
{"id": "C81", "title": "Programs that go on after a failure", "statement": "If checks throw, or the allocator does, and the program catches the exception and goes on, then the operation that failed has had no effect: the arrays have the values that they would have if it hadn't been tried, at that point and after any later operations.", "quantifier": "all programs with arrays, all the points where they fail", "why_tests_cant": "all histories and all points of failure", "anchors": ["ra/expr.hh:RA_CK", "ra/arrays.hh:Array", "ra/arrays.hh:resize", "ra/arrays.hh:push_back", "ra/arrays.hh:RA_ASSIGNOPS"]}
{"id": "C82", "title": "Functions of real and complex numbers", "statement": "fma(a, b, c) is a*b+c, mul_conj(a, b) is conj(a)*b, fma_conj(a, b, c) is conj(a)*b+c, sqr, sqrm, norm2 and xi are the square, the squared magnitude, the magnitude and the product by i; the overloads for real numbers agree with those for complex numbers with zero imaginary part. rel_error is symmetric, is between 0 and 2, and is 0 only for equal numbers. A complex number is one of finite, infinite or NaN. real_part(a) and imag_part(a) of an array are references to the parts of its elements, so real_part(a) = x changes the real parts and nothing else.", "quantifier": "all real and complex numbers, in exact arithmetic; all arrays", "why_tests_cant": "all numbers; a dropped sign shows only for some of them", "anchors": ["ra/ra.hh:fma", "ra/ra.hh:mul_conj", "ra/ra.hh:fma_conj", "ra/ra.hh:sqrm", "ra/ra.hh:norm2", "ra/ra.hh:rel_error", "ra/ra.hh:xi", "ra/ra.hh:arg", "ra/ra.hh:real_part", "ra/ra.hh:imag_part", "ra/ra.hh:isinf"]}
{"id": "C83", "title": "Concatenation", "statement": "cat(a, b), where each of a and b is a vector or a scalar, is a vector that has the elements of a and then those of b, in order.", "quantifier": "all lengths, all values, all the kinds of arguments", "why_tests_cant": "all lengths", "anchors": ["ra/arrays.hh:cat"]}
{"id": "C84", "title": "Benchmarks", "statement": "A benchmark calls the function as many times as the number of runs times the number of repetitions, with only those calls between readings of the clock. It gives the median over the runs of the time, less the time to read the clock, divided by the number of repetitions, and the median deviation from that.", "quantifier": "all functions, clocks, numbers of runs and of repetitions", "why_tests_cant": "the clock gives different readings each time", "anchors": ["ra/test.hh:Benchmark::once_f", "ra/test.hh:Benchmark::once", "ra/test.hh:Benchmark::median", "ra/test.hh:Benchmark::lapse"]}
{"id": "C85", "title": "Sequences of other types as arguments", "statement": "A std:: range (of static or dynamic length) or a built-in array can be an argument of an expression, or its destination. It has one axis of the length of the range, or one axis for each extent of the built-in array, and its elements are those of the sequence (a[i][j]... for a built-in array). No iterator of the sequence is moved before its beginning or past its end, so bidirectional iterators will do. ptr(p, n, s) is a vector of the n elements p[s*i]; a negative run time length is rejected; ptr(p) is an unbounded vector.", "quantifier": "all sequences, all lengths, all expressions with these sequences and scalars", "why_tests_cant": "all lengths; an iterator out of range of a sequence is undefined behaviour that tests often don't show", "anchors": ["ra/expr.hh:viewptr", "ra/expr.hh:ptr", "ra/expr.hh:view", "ra/expr.hh:iter", "ra/base.hh:rank_s", "ra/base.hh:shape_s", "ra/base.hh:size_s", "ra/base.hh:size", "ra/base.hh:shape"]}
{"id": "C86", "title": "Operators on scalars, arguments of rank 0 and arrays", "statement": "For any arguments that are scalars or ra:: objects an operator has exactly one meaning, whatever the order of the arguments: if all of them are scalars it's that of the language; if all of them have rank 0 it gives a number at once; if some of them has axes or contains ra::len it's an expression. where(bool, t, f) has exactly one meaning for any types. In nested operators the rank is that of the argument of highest rank, and evaluating the parts of rank 0 at once gives the same elements as leaving them for later.", "quantifier": "all the combinations of types, any number of arguments, all nestings of operators", "why_tests_cant": "there are infinitely many nestings of operators and combinations of types", "anchors": ["ra/base.hh:toreduce", "ra/base.hh:tomap", "ra/base.hh:is_special", "ra/ra.hh:RA_BINOP", "ra/ra.hh:RA_UNOP", "ra/ra.hh:RA_NAME", "ra/ra.hh:where", "ra/expr.hh:VAL"]}
{"id": "C87", "title": "Expressions that are kept to be used later", "statement": "An expression kept in a variable (auto e = a+b) refers to its arguments. Whenever it's used later it has the elements it would have if it were written there, whatever happened in between to the elements of its arguments and to the scalar variables it refers to, as long as these exist and haven't been resized, swapped or assigned another shape. Its operations on arguments of rank 0, and the scalars given by value, are as they were when it was made. If some of the memory that it refers to isn't in use any more then using it is undefined behavior, and only then.", "quantifier": "all programs that create, resize, copy, swap and assign arrays and views, make expressions from arrays, views, scalars and kept expressions, and assign them", "why_tests_cant": "all histories between the time an expression is made and the times it's used", "anchors": ["ra/expr.hh:Cell", "ra/expr.hh:iter", "ra/expr.hh:Scalar", "ra/expr.hh:Map", "ra/expr.hh:VAL", "ra/ra.hh:RA_BINOP", "ra/base.hh:toreduce", "docs/ra-ra.texi"]}
{"id": "C88", "title": "Iotas of any integer type", "statement": "The elements of iota(n, o, s) are o, o+s, ... in the type of o. If all of them are values of that type then no overflow happens when they are traversed. iota op scalar, scalar op iota, iota op iota and -iota have the type and elements that the elementwise expression has, for any combination of integer types, also when signs are mixed or the elements wrap around.", "quantifier": "all the integer types of 8 to 64 bits for the iotas and scalars, all origins, lengths, steps and scalars", "why_tests_cant": "all the combinations of types and values; overflow of signed integers is undefined behaviour that tests often don't show", "anchors": ["ra/expr.hh:Seq", "ra/expr.hh:Cell", "ra/expr.hh:cadd", "ra/expr.hh:csub", "ra/ply.hh:iota", "ra/ra.hh:opt"]}
{"id": "C89", "title": "Agreement relative to an operation", "statement": "agree_op(op, a, b, ...) is true exactly when the shapes of the arguments match for op, which can be a rank conjunction, and the shape of the result is finite. If it's true then map(op, a, b, ...) has that shape, and if it's false then any traversal of map(op, a, b, ...) fails the check before any element is evaluated. It doesn't compile if the cell ranks don't fit the arguments.", "quantifier": "all operations (any nesting of conjunctions with any cell ranks), any number of arguments of any shapes, of fixed or dynamic length or unbounded", "why_tests_cant": "all the combinations of cell ranks, ranks and lengths", "anchors": ["ra/expr.hh:agree_op", "ra/expr.hh:agree_verb", "ra/expr.hh:agree", "ra/expr.hh:Framematch", "ra/expr.hh:map"]}
{"id": "C90", "title": "Lists of positions", "statement": "at(a, i), where i is an array of indices, has the shape of i and its elements are those of a at these indices. at(v, i) = x assigns to v at these positions in row-major order, so for repeated indices the last one counts, and at(v, i) OP= x does all the updates, also for repeated indices. Nothing else changes. An index that's out of range fails the check, after the positions before it have been assigned.", "quantifier": "all views and expressions, all arrays of indices of any shape, in or out of range and with any repeats, all right hand sides that match; neither the indices nor the right hand side use the elements that are assigned to", "why_tests_cant": "all the patterns of repeated and out of range indices, for all the shapes", "anchors": ["ra/ra.hh:at", "ra/expr.hh:indexer", "ra/expr.hh:map"]}
{"id": "C91", "title": "Printing and reading dual numbers", "statement": "Reading with >> what << wrote for a dual number gives the same number, whatever text comes after, and the same goes for arrays of dual numbers, provided that the parts round trip. After >> the stream is good exactly when the text was that of a dual number; otherwise it fails.", "quantifier": "all dual numbers and arrays of any shape of them, all texts and states of the stream", "why_tests_cant": "all the texts that can be read, at any point where they are cut off", "anchors": ["ra/ra.hh:operator<<", "ra/ra.hh:operator>>", "ra/ra.hh:Dual", "ra/ply.hh:operator>>"]}
{"id": "C92", "title": "Programs with any expressions", "statement": "A program that creates, resizes, copies, moves and assigns arrays, and makes arrays from expressions, where the destinations are views, perhaps with arrays for subscripts, or choices among those (pick, where), and the expressions are made of views, subscripts that are any such expressions, scalars, sequences (iota), index placeholders, operations with any number of arguments and any rank conjunctions, choices, and reductions of such expressions, computes what the same program does on array values, with no regard to where the arrays are in memory. Reductions are done before the assignment and in row-major order; the assignment goes in row-major order of the matched shape. An assignment fails the check and nothing changes when the shapes don't match or a reduction fails. When there's nothing to choose at an index, or a subscript is out of range, then it fails the check when it gets there, and the elements before have been assigned and no others. When no element is assigned twice and the values for each index don't depend on the elements that are assigned for others, then each element gets the value of the expression with the arrays as before, and nothing else changes. An array is made from an expression when that has a finite shape of the wanted rank and values at all indices, and there's memory; otherwise it fails the check and nothing changes.", "quantifier": "all programs, all expressions, all shapes and values, all aliasing between views", "why_tests_cant": "all programs, all expressions and all overlaps", "anchors": ["ra/expr.hh:Map", "ra/expr.hh:Pick", "ra/expr.hh:Reframe", "ra/arrays.hh:tindex", "ra/arrays.hh:Array", "ra/ply.hh:ply_ravel", "ra/ply.hh:from", "ra/ra.hh:sum"]}
{"id": "C93", "title": "Wedge product and Hodge star with aliasing", "statement": "wedge(a, b, r) writes the components of the exterior product of a and b in r, and nothing else changes, even if r overlaps a or b. hodgex(a, b) writes the components of the Hodge star of a in b, and nothing else changes, if a and b don't overlap. hodge(a), in place, replaces the components of a by those of its Hodge star.", "quantifier": "all dimensions and orders, all vectors and views of vectors with any steps, all overlaps, all elements", "why_tests_cant": "all dimensions, all orders, all overlaps and all values", "anchors": ["ra/ra.hh:Wedge", "ra/ra.hh:Hodge", "ra/ra.hh:hodgex", "ra/ra.hh:hodge", "ra/ra.hh:wedge"]}
{"id": "C94", "title": "Type lists", "statement": "On lists of types: append has the types of all the lists in order, cons puts a type before those of a list, iota has the n numbers from o with step s, makelist has a type n times, take and drop split a list after n types, ref is the type at a position, and with more indices, it goes into lists of lists, as do get and structured bindings with one; index and indexif find the first type that is the same or good, or -1; apply and map are those of the template, with as many results as the first list; reverse has the types in reverse order; filter has the types that have a condition that isn't zero, and those that have none. They don't compile when a position or a number of types is negative or more than there are.", "quantifier": "all lists of types, all positions and numbers, all templates", "why_tests_cant": "all lists and all positions, and programs that must not compile", "anchors": ["ra/base.hh:append", "ra/base.hh:iota", "ra/base.hh:makelist", "ra/base.hh:drop", "ra/base.hh:take", "ra/base.hh:ref", "ra/base.hh:index", "ra/base.hh:map", "ra/base.hh:reverse", "ra/base.hh:filter", "ra/arrays.hh:get"]}
{"id": "C95", "title": "Different ways to write the same operation", "statement": "Programs that the manual gives as equivalent have the same results. a(i, j, ...) is the cell at_view(a, {i, j, ...}), and the cells of iter<c>(a) are these views. a(), a(dots<>), a(all, ...) and a(iota(len), ...) are a. reverse(a, k) is a(dots<k>, iota(len, len-1, -1)). An outer product is the same with insert, with prefix matching or with from(op, a, b). Matrix products and reductions along an axis are the same with loops over cells, with rank conjunctions, with transposed views or with inserted axes. A reduction along the first axis updates each element with those of its column, in order; along a diagonal, with those of the diagonal. map(a, i, j, ...) are the elements of a at lists of positions, and can be assigned to. When a destination has the same element several times, the last in row-major order stays; so scalar(x) = e leaves the last element of e.", "quantifier": "all views, shapes, steps, elements, operations and memories", "why_tests_cant": "all the shapes and steps, all overlaps of the arguments", "anchors": ["ra/ply.hh:from", "ra/ra.hh:at_view", "ra/expr.hh:Cell", "ra/expr.hh:map", "ra/arrays.hh:reverse", "ra/arrays.hh:transpose", "ra/expr.hh:wrank", "docs/ra-ra.texi"]}
{"id": "C96", "title": "The checks can be turned off", "statement": "With RA_CHECK=0, a program does what it does with checks, unless one of them fails: the outcome, the arrays and the memory are the same. This holds for programs with any containers and expressions, for each operation on views, subscripts, traversals, range-for loops, conversions to scalar, and lists. Without checks, a program where one of them would fail isn't stopped: for instance an assignment between arrays that don't match does nothing, and a subscript out of range gives another element.", "quantifier": "all programs, expressions, views, shapes, steps and memories, whether they fail or not", "why_tests_cant": "every program has to be compared with itself, compiled without checks, on all inputs", "anchors": ["ra/expr.hh:RA_CK", "ra/expr.hh:validate", "ra/expr.hh:indexer", "ra/expr.hh:filldimv", "ra/ply.hh:ply_ravel", "ra/ply.hh:fromb", "ra/arrays.hh:reshape", "ra/arrays.hh:Array"]}
{"id": "C97", "title": "Structured bindings", "statement": "In auto & [x0, x1 ...] = v, with v an array or view of static shape, the names refer to the elements of v, all of them, once each, in row-major order. It compiles for any vector that isn't empty, and for other ranks if and only if all the axes but the first have length 1.", "quantifier": "all static shapes and steps", "why_tests_cant": "any rank, lengths and steps; a test is for one type", "anchors": ["ra/arrays.hh:get", "ra/arrays.hh:tuple_size", "ra/arrays.hh:tuple_element"]}
{"id": "C98", "title": "No undefined behaviour in programs", "statement": "A program that makes, resizes, copies, swaps and assigns arrays, and that uses any views of them (slices, reversed, transposed, stencils, reshaped), array subscripts, rank conjunctions, selections and reductions, either does what the operations say on values, or fails with a check or for lack of memory. It never has undefined behaviour, whether a subscript is out of range, a shape doesn't match, or a view isn't possible, and it never changes memory other than that of its arrays. This is also true after failures that are caught.", "quantifier": "all programs: lists of operations of any length, with any expressions of any depth on any arrays; also programs that go on after any failures", "why_tests_cant": "Tests show that certain wrong operations are caught; whether any combination of operations in a program is either right or caught is about all programs.", "anchors": ["ra/expr.hh:RA_CK", "ra/expr.hh:Match::check", "ra/expr.hh:Map", "ra/expr.hh:Pick", "ra/ply.hh:ply_ravel", "ra/ply.hh:from", "ra/ply.hh:fromb", "ra/arrays.hh:Array", "ra/arrays.hh:reverse", "ra/arrays.hh:transpose", "ra/arrays.hh:reshape", "ra/arrays.hh:stencil", "ra/ra.hh:sum"]}
{"id": "C99", "title": "Arrays of arrays, and several arrays in turn, read back as they are printed", "statement": "If the innermost elements can be read as they are printed, then an array whose elements are arrays, to any depth, with static shape, static rank or dynamic rank at each level, is printed as text from which >> gets the shape of every array in it and every element. Any number of such things printed one after the other with white space in between are read back in turn. print and format give the texts of their arguments one after the other.", "quantifier": "all types nested to any depth, all shapes (also empty ones) and elements at every level, all white space before and text after, all lists of arguments", "why_tests_cant": "Types nest without limit, and whether what follows an element is read as part of it depends on everything that comes after; tests print and read a few arrays of numbers.", "anchors": ["ra/ply.hh:operator>>", "ra/ply.hh:formatter", "ra/base.hh:print", "ra/base.hh:format"]}
{"id": "C100", "title": "Views without overflow", "statement": "When a view is made from another (slices, reverse, transpose, stencil, reshape, ravel_free, in any order), the 64 bit arithmetic of lengths, steps and positions doesn't overflow, and the pointers that are computed are in the array or one past its end. So what happens is the same as with integers without limits: the result, and the checks that fail.", "quantifier": "all views of arrays with no more elements than can be represented; all subscripts, axes, bounds and shapes; operations one after another, any number of them", "why_tests_cant": "Overflow and pointers out of the array are undefined behaviour that tests don't show, and they depend on numbers that are too large for tests.", "anchors": ["ra/ply.hh:fromb", "ra/ply.hh:from", "ra/arrays.hh:reverse", "ra/arrays.hh:transpose_dims", "ra/arrays.hh:stencil", "ra/arrays.hh:c_order", "ra/arrays.hh:ravel_free", "ra/arrays.hh:reshape", "ra/base.hh:dim_t"]}
{"id": "C101", "title": "Traversals without overflow", "statement": "The 64 bit arithmetic of a traversal doesn't overflow: neither the products used to find which axes can be traversed as one, nor those in the motions of each argument. So the elements are visited in row-major order as with integers without limits.", "quantifier": "all expressions of arrays whose number of elements can be represented; all shapes, layouts and operations; traversals that stop early or not; static and dynamic rank", "why_tests_cant": "Overflow is undefined behaviour that tests don't show, and it depends on numbers that are too large for tests.", "anchors": ["ra/ply.hh:ply_ravel", "ra/ply.hh:ply_fixed", "ra/ply.hh:subply", "ra/expr.hh:Cell", "ra/expr.hh:Match", "ra/base.hh:dim_t"]}
{"id": "C102", "title": "const arrays aren't changed", "statement": "A program that has been given an array as const, or views or iterators of const elements of it, doesn't change the elements of that array, through any operations on what it was given. Const on a view is about the view and doesn't restrict the access to the elements. What isn't const doesn't become const.", "quantifier": "all programs that compile, made of any number of operations on arrays, views, iterators and elements; any number of arrays, const or not", "why_tests_cant": "tests can show that some operations compile and some don't, but not that there's no other way to write", "anchors": ["ra/arrays.hh:View", "ra/arrays.hh:SmallArray", "ra/arrays.hh:Array", "ra/arrays.hh:storage_traits", "ra/ply.hh:from", "ra/expr.hh:iter"]}
{"id": "C103", "title": "Programs of arrays without overflow", "statement": "A program that makes, resizes, copies, swaps, extends and assigns arrays and their elements has no overflow in 64 bit arithmetic, and makes no pointer that isn't in an array or one past its end, as long as the shapes that it asks for can be counted. It gives the values that the operations have for integers without limits, or a check fails, or there's no memory.", "quantifier": "all programs, of any number of operations; all expressions of arrays, scalars and operators; all shapes where the product of the lengths that aren't zero can be represented; static and dynamic rank", "why_tests_cant": "Overflow is undefined behaviour that tests don't show, it depends on numbers that are too large for tests, and on the operations before.", "anchors": ["ra/arrays.hh:Array", "ra/arrays.hh:swap", "ra/expr.hh:filldimv", "ra/expr.hh:dimv_size", "ra/ply.hh:ply", "ra/ply.hh:fromb", "ra/base.hh:dim_t"]}
{"id": "C104", "title": "Programs of arrays in several threads", "statement": "Several threads share some arrays that none of them changes, and each of them makes, resizes, copies, swaps, extends and assigns other arrays of its own, with any expressions, views, reductions and array subscripts. Then whatever the order in which the threads do their steps, a thread that ends has done exactly what it would have done alone, with the same elements, the same checks that fail and no undefined behaviour, except that the others may leave it without memory for a container. No element that a thread is about to write or free is ever one that another thread is about to read or write, so there are no data races. The shared arrays don't change, and a thread that always gets another turn ends.", "quantifier": "all numbers of threads; all programs of the operations; all schedules of their accesses and allocations, also incomplete ones; all places that the allocator gives", "why_tests_cant": "A test runs a few schedules of a few programs. Threads may interleave in a number of ways that's exponential in the number of accesses.", "anchors": ["ra/ply.hh:ply_ravel", "ra/ply.hh:ply", "ra/arrays.hh:Array", "ra/arrays.hh:storage_traits", "ra/expr.hh:Cell", "ra/ra.hh:sum", "ra/ply.hh:from"]}
{"id": "C105", "title": "Shapes and indices given by expressions", "statement": "The shape of a new array or view, the argument of resize, and the index in at, can be any expression of the right rank: the result is the same as with the list of the elements of the expression. An unbounded expression is enough for an array of static rank. An expression of a higher rank, with the wrong number of elements, or with arguments that don't match, is refused before anything is read or changed.", "quantifier": "all expressions, static and dynamic lengths and ranks; all memories; arrays of static and dynamic rank", "why_tests_cant": "Expressions are of any depth, with elements that are read from memory while the dims are being replaced, and each mix of static and run time lengths takes another path through the checks.", "anchors": ["ra/expr.hh:filldimv", "ra/expr.hh:resize", "ra/expr.hh:indexer", "ra/arrays.hh:Array", "ra/arrays.hh:View", "ra/ply.hh:shape"]}
{"id": "C106", "title": "Views from dims and conversions between types of views", "statement": "A view made from a list of dims (lengths and steps) has those dims and the given place in memory. A view converts to a type of view that has the rank, or lengths or steps, as part of the type, and back, and the result is the same view of the same elements. Both fail, and make no view, when the number of dims isn't the rank in the type, or a length or a step isn't the one in the type, or the dims given have a shape that doesn't match a list of that many.", "quantifier": "all lists or expressions of dims, in any memory; all views; all types of view, with static or dynamic rank, lengths and steps; static or dynamic traversal", "why_tests_cant": "The dims of the new view are the destination of an array assignment, with a check for each length and each step that is in the type. Tests have a few combinations of types.", "anchors": ["ra/arrays.hh:View", "ra/expr.hh:SDim", "ra/expr.hh:resize", "ra/expr.hh:Dim"]}
{"id": "C107", "title": "All the ways to write a matrix product agree", "statement": "The matrix products of the library and of its benchmark (gemm; loops in the rows, the columns or the sum; nested verbs; outer products; axes inserted with insert; recursion in blocks) all add the product of a and b to c, term by term in the order of the sum, change nothing but c and fail no check, provided that the shapes conform, c has no element twice and isn't part of a or b. The product by dot of rows and columns sets c to the product. The loops with pointers do the same for matrices in row-major order. The recursion in blocks ends.", "quantifier": "all lengths, including 0; all strides and origins of the three views; all elements and memories; static or dynamic traversal; any types with + and *, without algebraic laws", "why_tests_cant": "The versions have different traversals, and blocks only appear in matrices of more than 64 rows or columns. Tests compare a few sizes.", "anchors": ["ra/ra.hh:gemm", "bench/bench-gemm.cc:gemm_block", "bench/bench-gemm.cc:gemm1", "bench/bench-gemm.cc:gemm3", "bench/bench-gemm.cc:gemm4", "bench/bench-gemm.cc:gemm_k_raw"]}
{"id": "C108", "title": "Programs with stencils give the same result in every way they can be written", "statement": "The programs with stencils of the benchmarks, for any rank: loops on indices; sums of slices given by iotas; an operation on each window of stencil(a, 1, 1); sum(window*mask); products of windows and mask by a verb, added to an array of rank lower; and a verb with += on three arguments. Each one leaves the second differences of one array in the inside of the other, changes no other memory and fails no check, so after any number of steps, swapping the arrays, the memory is the same with any of them. The sums of windows by a mask are so for any window and any mask, term by term in row-major order.", "quantifier": "all ranks and lengths of at least 2; all strides and origins of the arrays and the mask; all elements in a commutative ring (without algebraic laws for the sums of windows by a mask) and all memories; any number of steps; static or dynamic traversals", "why_tests_cant": "The six programs traverse arrays of ranks r and 2r in different ways. The benchmarks compare them for one size and ranks 1, 2 and 3, on random elements up to a tolerance.", "anchors": ["ra/arrays.hh:stencil", "ra/ply.hh:from", "ra/expr.hh:wrank", "bench/bench-stencil1.cc", "bench/bench-stencil2.cc", "bench/bench-stencil3.cc"]}
{"id": "C109", "title": "Conjugate gradients on array views end, with a solution of the system", "statement": "cghs(mult, b, x, work, eps) of the examples, without rounding. Whenever it returns, x is such that the residual b - A x has a squared norm of at most eps^2 times that of b, and only x and work have changed. If A is symmetric and positive definite it does return, fails no check and doesn't divide by zero, in at most as many iterations as there are unknowns, and with eps = 0 the solution is exact. If b - A x is at the start a sum of d eigenvectors of A, it takes at most d iterations. The stiffness matrix of laplace2d.cc, written with slices of the array, gives minus the second differences inside and leaves the border at zero; it is symmetric and positive definite for any size, so the solver ends with a solution of the difference equations.", "quantifier": "all shapes of any rank; all strides and origins of b, x and work, as long as they don't overlap; all elements in an ordered field and all memories; all products by a linear matrix; all tolerances; for the matrices of laplace2d.cc, all lengths of at least 2; static or dynamic traversals", "why_tests_cant": "That the loop ends depends on the residuals being orthogonal, which is a property of all the previous iterations. The example is one grid and one right side.", "anchors": ["examples/cghs.hh:cghs", "examples/laplace2d.cc:mult", "ra/ra.hh:reduce_sqrm", "ra/ra.hh:dot", "ra/ply.hh:from"]}
{"id": "C110", "title": "The ways to add along an axis and to multiply a matrix and a vector agree", "statement": "To add up each row of a matrix a into an element of a vector c, one may write loops on pointers, c += a(all, j) for each column, c += a, for_each with wrank<0, 0> and +=, or for_each with c += sum(a) on c and iter<1>(a). To add up the columns, loops on pointers, for_each with c += a on iter<1>(a), wrank<1, 1>, wrank<1, 1> of wrank<0, 0>, scalar(c) += iter<1>(a), iter<1>(c) += iter<1>(a), c += transpose(a), or c(j) += sum(a(all, j)) for each column. Each one adds to each element of the vector the elements of that row or column, in order, and changes nothing else. Those that add up the row or the column before (sum) give the same if + is associative and has 0. In the same way the products of a matrix and a vector by elements, by rows and by columns make new arrays with the same elements, those of gemv and gevm.", "quantifier": "all lengths, also zero; all strides and origins of the matrix and all of the vector that don't overlap with it nor repeat elements (the loops on pointers: compact ones); all elements of any type with + and *, with no laws except where they are said; all memories; static or dynamic traversals", "why_tests_cant": "The benchmarks test one result on matrices with the same element everywhere or random ones, of some sizes and with steps in row-major order.", "anchors": ["bench/bench-sum-cols.cc", "bench/bench-sum-rows.cc", "bench/bench-gemv.cc", "ra/ra.hh:gemv", "ra/ra.hh:gevm", "ra/expr.hh:Match", "ra/expr.hh:Framematch"]}
{"id": "C111", "title": "Array subscripts are places to assign to", "statement": "a(i, j, ...) where some of the subscripts are arrays may be assigned to. The places that are found with the subscripts, one for each element of the outer product of the shapes, are assigned or updated in row-major order and nothing else changes: with a repeated place the last element counts for =, and all of them in order for OP=, so a(i, ...) += 1 counts how many times each place is found. The first place that isn't in a fails the check, and the elements before it stay assigned. If the places are all different, then a(i, j, ...) reads back as what was assigned. b = a(i, j, ...) gives each element of b that of a at its place. For a vector, b = a(i), for_each with b = a(i), a loop with b(k) = a(i(k)) and a loop on pointers give the same; for a matrix, b = a(i, i) and loops on pointers.", "quantifier": "all views and ranks; all lists of subscripts with at least one array, also with scalars, iotas, all and dots; all shapes and values of the arrays, in range or not, repeated or not; all right sides that agree in shape; all memories; any type of element", "why_tests_cant": "Tests select some places of some arrays. Repeated places and those out of range, in all their combinations with shapes and other subscripts, are endless.", "anchors": ["ra/ply.hh:from", "ra/expr.hh:RA_ASSIGNOPS", "examples/indirect.cc:example2", "bench/bench-from.cc:rank1_test"]}
{"id": "C112", "title": "Shifts around an axis with len, and the field equations made with them", "statement": "x(..., iota(len-1)) = a(..., iota(len-1, 1)) followed by x(..., len-1) = a(..., 0) gives each element of x the one that is next in a around that axis, and x(..., iota(len-1, 1)) = a(..., iota(len-1)) followed by x(..., 0) = a(..., len-1) the one that is before, for any axis of any length that isn't 0; with OP= these are combined with the elements of x. If the axis is empty, the check fails and nothing changes. With these statements the loop on time of examples/maxwell.cc gives every value after the first two by the wave equation with periodic boundaries; diff gives the centered difference on any axis times a factor, and changes only one component; transpose(DA, ilist<..., n+1, n>) - DA is antisymmetric; and divA += transpose(DA, ilist<..., n, n>) adds the diagonal of the last two axes, in order.", "quantifier": "all shapes and all axes; all numbers of times; all strides of the arrays as long as no two elements of the destination are in the same place and these aren't in the source; all values, of any type; all memories", "why_tests_cant": "The example runs one size, with axes of lengths 20, 2 and 4. Whether the pieces of an axis fit together for every length, with len-1 and len-2 taken from each axis, is not tested.", "anchors": ["examples/maxwell.cc:main", "ra/ply.hh:wlen", "ra/ply.hh:iota", "ra/ply.hh:from", "ra/arrays.hh:transpose", "ra/expr.hh:RA_ASSIGNOPS"]}
{"id": "C113", "title": "An outer product that gives arrays, its sum along an axis, and the motion of bodies made with them", "statement": "iter<1>(F) = from(force, iota(n), iota(n)), where force gives a small array, sets each row F(i, j) to force(i, j). a = 0 followed by a += transpose(F, ilist<0, 2, 1>)/m sets a(i, k) to the sum on j of F(i, j, k)/m(i), in order. With v += a*delta and x += v*delta this is one step of the loop of examples/newton.cc: after any number of steps the positions and the velocities are those of the method of Euler with the new velocities, the masses are the same, and no other memory has changed. Then if the masses aren't 0 and the operations are exact, the total momentum doesn't change and the center of mass moves along a line with constant speed.", "quantifier": "all numbers of bodies, of dimensions and of steps; all masses, positions and velocities; all values of the constants, and any function in place of the power 3/2; all strides of the arrays as long as no two elements are in the same place; all memories", "why_tests_cant": "The example runs two bodies in three dimensions and only prints a picture. That the axes of F match those of a and m, that each force is used once, and that the momentum is conserved, is not tested.", "anchors": ["examples/newton.cc:main", "ra/ply.hh:from", "ra/expr.hh:iter", "ra/arrays.hh:transpose", "ra/expr.hh:RA_ASSIGNOPS"]}
{"id": "C114", "title": "Lists of cells: at_view with arrays of indices", "statement": "at_view(a, i), where the elements of i are lists of at most as many indices as a has axes, has the shape of i, and its element at j is the view of the elements of a whose indices begin with i(j). at_view(a, i) = x assigns x(j), which may be a number or an array with the shape of the cell, to each of those cells, in row-major order of j. If some cells are repeated, or are part of other cells, the last assignment stays, and with OP= all of the updates are made. An element that isn't in any of those cells doesn't change, and neither does anything outside of a. An index that is out of range is rejected, and then all of the cells before it have been assigned and no other.", "quantifier": "all arrays a of any rank without repeated elements; all arrays of indices, of any shape, with indices of any and different lengths up to the rank of a; all x of numbers or arrays which match the shape of i; all memories", "why_tests_cant": "The tests have two indices with one value each, and read some cells. Repeated indices, indices out of range, indices of different lengths and arrays on the right are not tested.", "anchors": ["ra/ra.hh:at_view", "ra/expr.hh:RA_ASSIGNOPS", "ra/arrays.hh:ViewBig"]}
{"id": "C115", "title": "pack makes arrays of tuples, and takes them apart", "statement": "pack<T>(a, b, ...) has the shape of a, b, ... matched, and its element at j is T{a(j), b(j), ...}. Assigning it to an array of T sets each element and nothing else. pack<tuple<A &, B &, ...>>(a, b, ...) = x sets the elements of a, b, ... to the parts of the elements of x, and nothing else; so that to pack arrays and then to unpack them gives the same elements. at(a, pack<Small<int, k>>(x, y, ...)) gives a reference to the element of a at (x(j), y(j), ...), or is rejected if that isn't in range. The five ways in bench/bench-pack.cc to fill a vector of complex numbers (by a loop over memory, by the real and imaginary parts, by the collapsed array, with pack and with xi) leave the memory in the same way.", "quantifier": "any number of arguments of any shapes that match; all arrays, views and strides without repeated elements; all values; tuples of any number of elements; vectors of complex numbers of any length at any place; all memories", "why_tests_cant": "The tests pack and unpack one vector of each of two types, and the benchmark compares the five ways for a few lengths. That nothing else is changed, that the order is kept, and what happens with indices that aren't in range, isn't tested.", "anchors": ["ra/expr.hh:pack", "ra/ra.hh:at", "ra/ra.hh:xi", "ra/ra.hh:real_part", "ra/arrays.hh:collapse", "bench/bench-pack.cc:f_raw,f_reim,f_collapse,f_pack,f_xi", "examples/indirect.cc:example5"]}
{"id": "C116", "title": "Products by subscripts of elements, and the solution in a cube", "statement": "With the tables of examples/laplace3d.cc, both ways to multiply by a matrix given by elements (mult0, gemv of v(E.v) to w(E.v); and mult1, that copies to and from temporaries) set w to the same: the sum over the elements and their vertices of the rows of the element matrix by the values of v at the vertices of the element, times the scale factor, and zero on the boundary. Nothing else changes, other than the temporaries of mult1. The loop over from(...) sets each element to the eight vertices of a small cube, and the boundary table is filled to its end with the vertices on the faces and no others, so that no subscript is out of range. The element matrices are the integrals of products of hat functions and of their gradients. The matrix of the stiffness is symmetric and positive on arrays that are zero on the faces, and so cghs returns after at most (n-1)^3 iterations, with a residual within the tolerance, with either product.", "quantifier": "all numbers of elements along the edges of the cube; all arrays, strides and places without overlap; all right hand sides that are zero on the faces, initial solutions, positive scale factors and tolerances; all ordered fields; for the products, any elements with different vertices in range, any element matrix and any boundary, with repeats", "why_tests_cant": "The example solves for one size and one right hand side. That the two products agree for every mesh, that no index is out of range for any size, and that the solver stops, cannot be seen there.", "anchors": ["examples/laplace3d.cc:mult0,mult1,StiffMatrix,MassMatrix,pos,main", "examples/cghs.hh:cghs", "ra/ra.hh:gemv", "ra/ply.hh:from", "ra/ply.hh:for_each"]}
{"id": "C117", "title": "The ways to add up an operation on two arrays, or the elements at some positions, agree", "statement": "To add up the products (or the squared differences, or any other operation) of the elements of two arrays, one may write loops with subscripts, a loop on pointers, a map that adds to a variable, a map that adds up the elements of another map, the same with wrank<0, 0> and wrank<0>, with either of the traversals, or sum of the expression. All of them give the sum of the terms in row-major order from 0, and change nothing but the variable. To add up the elements of an array at a list of positions, one may write a loop with c(i(o, 0), i(o, 1), ...), a loop with at(c, i(o)), or sum(at(c, iter<1>(i))). All of them give the sum of the elements at the positions, in order, if they are all in the array; and if any of them isn't, a check fails, and in any case nothing else changes.", "quantifier": "all ranks and lengths, also zero; all strides and origins (the loop on pointers: arrays in row-major order), also if the arrays overlap or have repeated elements; all operations and elements of any type with + and 0, with no laws; all lists of positions, in range or not; all memories; static or dynamic traversals", "why_tests_cant": "The benchmarks compare one number for arrays with the same element everywhere and three shapes.", "anchors": ["bench/bench-dot.cc", "bench/bench-reduce-sqrm.cc", "bench/bench-at.cc", "ra/ra.hh:sum", "ra/ra.hh:at", "ra/expr.hh:wrank", "ra/ply.hh:ply_ravel", "ra/ply.hh:ply_fixed"]}
{"id": "C118", "title": "The ways to count the elements of an array agree, and sums with index placeholders", "statement": "for (auto & a: A) { a = i; ++i; } with i = 0 at first sets the elements of A to 0, 1, 2, ... in row-major order whatever the rank of A and its layout in memory (a view, a transposed view, a container), leaves i at the size of A and changes nothing else; A = _w sets each element to its index on axis w; if A is a vector then the loop, A = _0 and A = iota(size(A)) all give the same memory. to_ravel(A, b) puts the elements of A one after the other in b in row-major order if there are as many in both, and fails a check otherwise without any change; after the loop it gives 0, 1, 2, ... The sum of 2*i-j over a+_0 and a+_1 is, with ply or ply_ravel, that of the elements and their indices; for a matrix of zeros it's 2m(n choose 2) - n(m choose 2) and doesn't depend on the layout.", "quantifier": "all ranks and lengths, also zero; all strides and origins of views without repeated elements (for the sum, with them too); all memories; elements in any ring; static or dynamic traversals and either kind of iterator", "why_tests_cant": "The benchmarks test one length or two in the natural layout and its transpose. Which iterator the loop has depends on what the compiler knows of the dims.", "anchors": ["bench/bench-iterator.cc", "bench/bench-tensorindex.cc", "ra/arrays.hh:to_ravel", "ra/arrays.hh:View::begin", "ra/arrays.hh:tindex", "ra/ply.hh:STLIterator", "ra/ply.hh:iota"]}
{"id": "C119", "title": "Copies at lists of positions and on lists of strips", "statement": "map(at(A, c), I) = map(at(B, c), I), for_each(at(A, c) = at(B, c), I) and at(A, I) = at(B, I) do the same for any list of positions I, with repeated positions or out of range, and whatever memory A, B and I share; so do the assignment of a map of views A(i, iota(j1-j0+1, j0)) on a list of strips (i, j0, j1) and the loop that assigns each view. If A is apart from B and I, the elements of A at the positions (or on the strips) become those of B and nothing else changes; at the first position or strip that isn't in the array a check fails, after the copies that come before. The strips listed by the loop of the example for a radius r in a square of odd side are all in the square, and an element is in one of them if and only if its distance to the centre isn't more than r, so either copy is a copy of a disc. For even sides that's not so.", "quantifier": "all ranks, lengths, strides and origins; all lists of positions and strips, also empty ones; all memories; all odd sides and radii up to the border; static or dynamic traversals", "why_tests_cant": "The example prints the result of two positions and one circle, and compares nothing.", "anchors": ["examples/indirect.cc", "ra/ra.hh:at", "ra/expr.hh:map", "ra/ply.hh:for_each", "ra/ply.hh:iota", "ra/arrays.hh:View::operator()"]}
{"id": "C120", "title": "Second differences of the samples of a function, and their error", "statement": "y = f(_0 * delta) sets element k of y to f(k delta). y2(I) = (y(I-1) - 2*y(I) + y(I+1))/(delta*delta) with I = iota(n-2, 1) sets each element of y2 other than the first and the last from the three elements of y around it, and changes nothing else; with fewer than two samples a check fails and nothing changes. For a polynomial of degree at most 4 with leading coefficient a4 the result is its second derivative plus 2 a4 delta^2, so it's exact up to degree 3. If f has four derivatives and the fourth isn't more than M, then sqrt(sum(sqr(y2(I) - y2exact(I)))/size(I)), where y2exact has samples of the second derivative, isn't more than M delta^2/12; for cos(x)^2 with n samples 1/n apart it isn't more than 2/3/n^2.", "quantifier": "all lengths, strides and origins of arrays that are apart; all memories, so whatever y2 holds before; any field for the differences and polynomials, the real numbers for the error; all functions with four derivatives and all spacings; static or dynamic traversals", "why_tests_cant": "The example prints the error for one function and one number of samples.", "anchors": ["examples/deriv.cc", "ra/arrays.hh:tindex", "ra/ply.hh:iota", "ra/ra.hh:optimize", "ra/ra.hh:sum", "ra/ra.hh:sqr", "ra/arrays.hh:View::operator()"]}
{"id": "C121", "title": "pick and where are places to assign to, and masks", "statement": "pick(p, a0, a1, ...) = x, where the alternatives are arrays, sets for each index j the element at j of the array that p has there to that of x, and changes nothing else; with OP= the old value is used. If p has a number that is not that of an alternative then a check fails at the first such index in row-major order: the elements before have been set, and nothing else. where(w, a, b) = x sets the element of a where w is true and that of b where it's false, and the other one is as it was. a = where(w, x, a) sets the elements of a where w is true and no others, and x isn't read elsewhere. So a = where(sqr(_0-c)+sqr(_1-c)<sqr(r), b, a) copies the elements of b nearer than r to the center of a square; these are those of the strips in the example (C119) if and only if there's no element at distance r.", "quantifier": "all shapes, strides and origins, all numbers of alternatives, selectors and conditions with fewer axes or axes without length, all expressions that don't read what is assigned at other indices; all memories; static or dynamic traversals; for the disc all sizes and radii and any ordered field", "why_tests_cant": "The tests assign one number to two vectors of four elements, and the example has one radius that isn't the distance to any element.", "anchors": ["ra/expr.hh:Pick", "ra/expr.hh:pick_star", "ra/ra.hh:where", "ra/expr.hh:RA_ASSIGNOPS_ITER", "examples/indirect.cc:example4", "test/where.cc", "examples/where-pick.cc"]}
{"id": "C122", "title": "An assignment may be done by cells", "statement": "To assign an operation on arrays, c = f(a, b, ...) or c OP= f(a, b, ...), one may also write loops on the first k axes with c(i, ...) = f(a(i, ...), b(i, ...), ...) in them, or for_each([](auto && c, auto && ... a) { c = f(a ...); }, iter<-k>(c), iter<-k>(a) ...). If the arguments agree with c and have at least k axes then these are the same: the same elements are read and written in the same order, so the result is the same even if the arrays overlap or f has effects or fails, and the same error happens at the same point.", "quantifier": "all shapes, numbers of arguments, arguments with fewer axes than c, operations, assignment operators, strides and origins, overlapping or not; all memories; static or dynamic traversals, not always the same ones in the three ways", "why_tests_cant": "The benchmark adds two vectors of small arrays, apart from each other.", "anchors": ["bench/bench-optimize.cc", "ra/ply.hh:for_each", "ra/expr.hh:Cell", "ra/expr.hh:iter", "ra/arrays.hh:View::operator()", "ra/arrays.hh:View::operator="]}
{"id": "C123", "title": "The ways to store the sums of the cells of an array agree, but for the one without cells", "statement": "If the shape of A is that of B with more axes, then B = 0; B += A and for_each([](auto && b, auto && a) { b = sum(a); }, B, iter<n>(A)), with n the number of extra axes of A or minus the number of axes of B, store in each element of B the sum of the elements of A that have its index as prefix, from 0 and in row-major order, and change nothing else. The results are the same also if + isn't exact. If the frame of the cells has fewer axes than B then each element of B is the sum of the whole cell of A for the first part of its index. Without iter, for_each(..., B, A) isn't equivalent to these: it leaves in each element of B the last of the elements of A, and nothing if there are none.", "quantifier": "all shapes, cell ranks, strides and origins with the elements of B in different places, apart from those of A; all elements and any + on them; static or dynamic traversals, not always the same ones", "why_tests_cant": "The example prints B once after the four ways, for arrays of shapes {2, 3} and {2, 3, 4}, so the result of the first three is not seen.", "anchors": ["examples/read-me.cc", "ra/ply.hh:for_each", "ra/ra.hh:sum", "ra/expr.hh:iter", "ra/expr.hh:Match"]}
{"id": "C124", "title": "Different subscripts that mean the same give the same view, or the same error", "statement": "Subscripts that aren't arrays may be given all at once or in steps: a(i ..., j ...) is a(i ...)(dots<n>, j ...), where n is the number of axes that i ... makes. dots<m+n> is dots<m>, dots<n>, so dots<n> is n times all; dots<0> and insert<0> may be left out anywhere; all may be left out at the end. iota(len) is all. A scalar subscript i is iota(1, i) followed by the subscript 0 on the axis that it keeps, and to assign a scalar to either one does the same. In all of these the result is the same view, with the same pointer and steps, or the same error. A range of a range with any elements is the range with the origins and steps put together, and reverse is a range with step -1 if the axis has any elements.", "quantifier": "all views with axes of any lengths and steps, of finite length for iota(len) and iota(1, i); all lists of subscripts before and after, without dots<> before; all origins, steps and lengths, in range or not", "why_tests_cant": "examples/slicing.cc has a few of these, on two arrays, and prints the result of all of them together.", "anchors": ["examples/slicing.cc", "examples/read-me.cc", "ra/ply.hh:fromb", "ra/ply.hh:from", "ra/arrays.hh:reverse", "docs/ra-ra.texi"]}
{"id": "C125", "title": "The sum or product of arrays is an array of sums or products", "statement": "If the elements of an expression are arrays themselves, all of the same shape, as with sum(iter<n>(A)) or with an array of arrays, then sum and prod give a new array with that shape, where each element is the sum (from 0) or the product (from 1) of the elements of the arrays at that place, in row-major order of the arrays; nothing else in memory changes. For the cells of A, the element k of the result is sum(A(dots<f>, k ...)), or prod, with f the number of axes of the frame; if the frame is empty then all the elements are 0, or 1. If the shape of some array doesn't match that of the first one then the check fails and the storage of the result is given back. An array of arrays, of shapes that aren't known to the compiler, needs at least one of them, because the shape of the result is that of the first element; otherwise the behavior is undefined.", "quantifier": "all shapes of the arrays and of the expression, cell ranks, strides, origins and places in memory; all elements and any + and * on them, exact or not; static or dynamic traversals; all free storage for the result", "why_tests_cant": "The tests add the rows of one matrix of shape {100, 111} and of another of shape {0, 111}, with exact sums; none has an array of arrays that is empty or uneven.", "anchors": ["ra/ra.hh:sum", "ra/ra.hh:prod", "ra/expr.hh:VAL", "ra/arrays.hh:copy_shape", "test/reduction.cc"]}
{"id": "C126", "title": "Assignment to an array of arrays goes array by array", "statement": "If the elements of b are arrays x(i), all of the same shape, then b = a and b OP= a match the shapes of b and a by prefix, without regard to the shapes of the x(i), and do x(i) = a(i, j ...), or OP=, for each element of a in row-major order. If the elements of a aren't arrays then each of them goes to all the elements of an array; so after b = a each x(i) is full of the last element of a(i, ...), and after b += a each element of x(i) has been added all of the elements of a(i, ...). If the elements of a are arrays of the same shape as the x(i) then each element of x(i) gets the elements at the same place. To fill the x(i) with the elements of a in order one may assign to a view of all of their elements. Nothing else in memory changes.", "quantifier": "all shapes of b, of the arrays in it, and of a; all strides, origins and places in memory such that the elements of the arrays are in different places, apart from those of a; all elements and operators; static or dynamic traversals", "why_tests_cant": "The only example of this prints one array of shape {3} of arrays of shape {2}, with the comment 'probably'.", "anchors": ["examples/pitfall.cc", "ra/expr.hh:assign ops", "ra/expr.hh:Match", "ra/expr.hh:iter", "ra/ply.hh:ply"]}
{"id": "C127", "title": "A list of positions that makes a range does the same as the range", "statement": "If some of the subscripts of a(i, j ...) are arrays of rank 1 with the positions o, o+s, o+2s, ..., then the result has the same shape and refers to the same elements, in the same order, as with iota(n, o, s) in place of those arrays. So a(i, j ...) = x, a(i, j ...) OP= x and b = a(i, j ...) do the same thing with either, provided the assignment doesn't change the positions themselves. That holds when all the positions are in the array. When they aren't, the range is rejected before anything is done, but the list of positions is only rejected at the first position that isn't in the array, and the elements at the positions before that have been assigned.", "quantifier": "all arrays, strides and origins; all lists of subscripts with any of scalars, ranges, skips and any number of such lists; all right hand sides, operators and contents of memory; static or dynamic traversals", "why_tests_cant": "The example that says that these are equivalent does it on one array of shape {6, 6} with the positions 4 and 5, and the tests that compare them use a few fixed lists.", "anchors": ["examples/slicing.cc", "ra/ply.hh:from", "ra/ply.hh:fromb", "ra/expr.hh:assign ops"]}
{"id": "C128", "title": "Members of the elements of an array are places to assign to", "statement": "If the elements of a are objects with a member m then map(&T::m, a), or map with any function that gives a reference to the member, has the shape of a and refers to the members in place. map(&T::m, a) = x sets the member m of each element of a to the matching element of x, and map(&T::m, a) OP= x updates it, once for each time that it's met. The other members, the other objects, and anything else in memory don't change. It's the same as an assignment to the strided view of the members. Assignments to different members may be done in any order. The first argument may be any expression that gives references.", "quantifier": "all shapes, strides and origins of a, or any expression of references; all objects with any number of members, and all members; all right hand sides and operators; static or dynamic traversals", "why_tests_cant": "The test does this on one array of shape {2, 3} of objects with a single member.", "anchors": ["test/mem-fn.cc", "ra/expr.hh:Map", "ra/expr.hh:map", "ra/expr.hh:assign ops"]}
{"id": "C129", "title": "Assignments between arrays that overlap are done in row-major order, without a temporary", "statement": "b = x sets one element of b after another, in row-major order, and each element of x is found with the elements of b that come before it already set. This is so for any x, whether or not it overlaps b, and also if b has repeated elements, when the last one stays. So b = a for arrays that overlap gives the elements of a as they were before if none of them is read after it has been set. In particular a(iota(m)) = a(iota(m, d)) moves m elements (or cells, on the first axis) to the beginning, while a(iota(m, d)) = a(iota(m)) doesn't move them to the end but repeats the first d of them, and reverse(a(iota(m, d))) = reverse(a(iota(m))) does move them to the end. b OP= x is done in the same way, so a(iota(m, 1)) += a(iota(m)) leaves in a the sums of its elements up to each one. Nothing else in memory changes.", "quantifier": "all expressions on the right and arrays on the left, with any overlap; all shapes, strides and origins; all lengths and shifts; all elements; static or dynamic traversals", "why_tests_cant": "The result depends on the order of the traversal and on which elements are shared between the two sides, for any strides.", "anchors": ["ra/expr.hh:assign ops", "ra/ply.hh:ply_ravel", "ra/ply.hh:ply_fixed", "ra/ply.hh:from", "ra/arrays.hh:reverse"]}
{"id": "C130", "title": "Assignments to arrays with the axes moved go to the axes they say", "statement": "After transpose(a, {s0, s1, ...}) = x, for x that doesn't depend on the elements that are set, the element of a at (j[s0], j[s1], ...) is the element of x at j, for every index j of the transposed array, where x is matched by prefix as usual. So axes other than the first of a can be matched with x: if x is a vector and axis k of a is sent to 0, then the elements of a with index n on axis k are all x(n). If several axes are sent to the same one, then only the diagonal is set; transpose(a, {0, 0}) = x on a matrix of any lengths sets the a(i, i) there are and nothing else. The same with OP=. With each axis sent to a different one, transpose(a, s) = transpose(b, s) does the same as a = b. Nothing else in memory changes.", "quantifier": "all arrays, of any rank, lengths, strides and origin; all lists of axes, permutations or not, that send some axis to each axis of the result; all expressions that match; all operations; static or dynamic traversals", "why_tests_cant": "It depends on the strides that the transposition makes for any rank and any list of axes, and on where the traversal of those goes.", "anchors": ["ra/arrays.hh:transpose", "ra/expr.hh:assign ops", "ra/ply.hh:ply_ravel", "test/compatibility.cc"]}
{"id": "C131", "title": "The same view operations on all of the arrays take the same elements of each", "statement": "For any operations V on views (subscripts, reverse, transpose, reshape, ravel, stencil, one after another) that are allowed for the shape of an array, which elements V takes and in which order depends on the shape of the array alone. So, for arrays of the same shape, V(c) = V(a) OP V(b) sets the elements of c that V takes to the values that c = a OP b would, also when V takes some of them several times, and changes nothing else. If V takes all of the elements, then the two assignments leave the same memory. The same for V(c) = V(a), and for any right side with elements that are a function of the elements of c that they go with. c doesn't share storage with the right side.", "quantifier": "all arrays of any rank and shape; all lists of operations on views that give a bounded shape; all operations on elements; static or dynamic traversals", "why_tests_cant": "It's about any composition of operations on views, on any shape, and the elements may be set several times in an order that depends on it.", "anchors": ["ra/arrays.hh:reverse", "ra/arrays.hh:transpose", "ra/arrays.hh:reshape", "ra/arrays.hh:ravel_free", "ra/arrays.hh:stencil", "ra/expr.hh:assign ops"]}
