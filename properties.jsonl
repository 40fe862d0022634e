{"id": "C01", "title": "State behaves as a finite map under with/remove/get", "statement": "After state.with<T...>(v...), get<T> returns the value just written for each T (even if T was present before) and every other tag keeps its old value; after state.remove<T...>() none of T is contained and every other tag keeps its value; no tag is ever stored twice in a state built this way.", "quantifier": "all states (any number of items, any order), all tags, all values", "why_tests_cant": "the set of states and tag lists is infinite; tests only exercise a few literal states", "anchors": ["include/noarr/structures/base/state.hpp: state::get, state::with, state::remove, helpers::state_index_of, helpers::state_remove_items"]}
{"id": "C02", "title": "Merging states is right-biased and associative", "statement": "get<T>(a & b) is b's value when b contains T and a's value otherwise; & is associative and the empty state is neutral on both sides, for every lookup.", "quantifier": "all triples of states", "why_tests_cant": "infinitely many states; laws must hold whatever the overlap of tags", "anchors": ["include/noarr/structures/base/state.hpp: operator&, make_state, empty_state"]}
{"id": "C03", "title": "Adding then subtracting state differences is exact", "statement": "For states with run-time (size_t) values, (a + b) gives, per tag, the modular sum where both define the tag and the only defined value otherwise; (a + b) - b gives back a on every tag of a, even when the addition wrapped around 2^64 (tags only in b become 0); unary minus is the additive inverse.", "quantifier": "all pairs of states with dynamic values, including values close to 2^64", "why_tests_cant": "quantifies over all 64-bit values and all tag overlaps", "anchors": ["include/noarr/structures/base/state.hpp: operator+, operator- (unary and binary)", "include/noarr/structures/extra/shortcuts.hpp: neighbor"]}
{"id": "C04", "title": "State comparison is an order", "statement": "operator== is an equivalence that ignores item order; operator<= is reflexive, transitive, and antisymmetric up to ==; operator< is its strict part; >= and > are the converses.", "quantifier": "all pairs and triples of states", "why_tests_cant": "order axioms quantify over all triples of states of all shapes", "anchors": ["include/noarr/structures/base/state.hpp: operator==, operator<=, operator>=, operator<, operator>"]}
{"id": "C05", "title": "Every valid index addresses memory inside the structure", "statement": "For any structure built by composing the library's layouts and views, if each dimension's index is below the length the structure reports for it, and each view's precondition holds, then offset(state) is defined without wrap-around or division by zero and offset(state) + sizeof(element) <= size(state). Exceptions, where the code does go out of bounds: reverse applied to a tuple dimension, or to a block dimension of into_blocks_dynamic; views that reuse the name of a tuple dimension are excluded as well.", "quantifier": "all structures (any nesting of scalar, tuple, vector, bcast, fix, set_length, shift, slice, span, step, reverse, rename, reorder, hoist, join, into_blocks, into_blocks_dynamic, into_blocks_static, merge_blocks, merge_zcurve), all lengths, all valid indices", "why_tests_cant": "structures form an infinite grammar and lengths are unbounded; a test can only instantiate a few of them", "anchors": ["include/noarr/structures/structs/layouts.hpp", "include/noarr/structures/structs/bcast.hpp", "include/noarr/structures/structs/setters.hpp", "include/noarr/structures/structs/slice.hpp", "include/noarr/structures/structs/views.hpp", "include/noarr/structures/structs/blocks.hpp", "include/noarr/structures/structs/zcurve.hpp", "include/noarr/structures/base/structs_common.hpp: offset_of", "include/noarr/structures/extra/funcs.hpp: offset, get_size"]}
{"id": "C06", "title": "Distinct valid indices never alias", "statement": "For any structure built without bcast and join, two valid index assignments (same lengths, preconditions of the views met, no zero stride) that differ in an index needed to address an element address disjoint byte ranges. Exception, where the code does alias: merge_blocks with a given total length over a tuple whose fields have blocks of different lengths (the place of a field then depends on the tuple index).", "quantifier": "all bcast/join-free structures, all lengths, all pairs of valid index assignments", "why_tests_cant": "quadratic in unbounded index spaces and over an infinite grammar of structures", "anchors": ["include/noarr/structures/structs/layouts.hpp", "include/noarr/structures/structs/slice.hpp", "include/noarr/structures/structs/blocks.hpp", "include/noarr/structures/base/structs_common.hpp: offset_of"]}
{"id": "C07", "title": "Nested vectors are exactly the row-major array", "statement": "For vectors nested in any number of dimensions over an element type, size is the product of lengths times the element size, offset is the mixed-radix (row-major) value of the indices times the element size, and the offsets of the valid indices are exactly the multiples of the element size below the size, each hit once (no gaps).", "quantifier": "any number of dimensions, all lengths, all indices", "why_tests_cant": "unbounded number of dimensions and lengths", "anchors": ["include/noarr/structures/structs/layouts.hpp: vector_t::size, vector_t::strict_offset_of", "include/noarr/structures/extra/shortcuts.hpp: vectors, array"]}
{"id": "C08", "title": "Tuple elements are placed consecutively without overlap", "statement": "The byte ranges of different tuple fields are disjoint, appear in field order and lie inside the tuple. The documentation additionally says a tuple has no padding and its size is the sum of the field sizes.", "quantifier": "all tuples (any number and kind of fields), all indices inside the fields", "why_tests_cant": "any number of arbitrary nested fields", "anchors": ["include/noarr/structures/structs/layouts.hpp: tuple_t::size_inner, size_accumulator, strict_offset_of", "docs/structs/tuple.md"]}
{"id": "C09", "title": "Elements are naturally aligned when the buffer is", "statement": "If the buffer is aligned to align() of a structure, every element's address is a multiple of the alignment of its element type.", "quantifier": "all structures and all valid indices", "why_tests_cant": "alignment must hold for every element of every structure", "anchors": ["include/noarr/structures/structs/layouts.hpp: tuple_t::align, size_accumulator, vector_t::align"]}
{"id": "C10", "title": "Layout-preserving proto-structures do not change size or address space", "statement": "Applying any proto-structure that declares proto_preserves_layout (all views) leaves size and alignment unchanged, and every offset obtained through the view is an offset of the original structure at some index.", "quantifier": "all structures, all views, all states", "why_tests_cant": "all compositions of views over all structures", "anchors": ["include/noarr/structures/interop/bag.hpp: operator^", "include/noarr/structures/base/structs_common.hpp: compose_proto::proto_preserves_layout", "include/noarr/structures/structs/*.hpp: *_proto::proto_preserves_layout"]}
{"id": "C11", "title": "fix is the same as passing the index", "statement": "offset/length/size of s ^ fix<d>(i) in a state equals that of s in the state extended by index i in d; fixes in different dimensions commute; a fixed dimension no longer has a length; fix(state) equals giving that state directly.", "quantifier": "all structures, dimensions, indices, states", "why_tests_cant": "all structures and states", "anchors": ["include/noarr/structures/structs/setters.hpp: fix_t", "include/noarr/structures/extra/shortcuts.hpp: fix(state)"]}
{"id": "C12", "title": "set_length is the same as passing the length", "statement": "s ^ set_length<d>(n) in a state behaves as s in the state with length n in d; when set repeatedly the innermost setting wins; settings of different dimensions commute. s ^ set_length(state) sets every length of the state and nothing else.", "quantifier": "all structures, dimensions, lengths, states", "why_tests_cant": "all structures and states", "anchors": ["include/noarr/structures/structs/setters.hpp: set_length_t", "include/noarr/structures/extra/shortcuts.hpp: set_length(state)"]}
{"id": "C13", "title": "shift drops a prefix", "statement": "s ^ shift<d>(a) has length length(s) - a, its index i addresses index i + a of s; shift(0) is the identity; shifting by a then b is shifting by a + b.", "quantifier": "all structures, all start values not above the length, all indices", "why_tests_cant": "unbounded values, all structures", "anchors": ["include/noarr/structures/structs/slice.hpp: shift_t", "docs/structs/shift.md"]}
{"id": "C14", "title": "slice and span select exactly a window", "statement": "s ^ slice<d>(a, n) has length n and its indices address exactly a .. a+n-1 of s, all valid when a+n <= length; span(a, e) equals slice(a, e-a); slicing twice equals slicing once with the sum of starts.", "quantifier": "all structures, windows, indices", "why_tests_cant": "unbounded values, all structures", "anchors": ["include/noarr/structures/structs/slice.hpp: slice_t, span_t", "docs/structs/slice.md"]}
{"id": "C15", "title": "step partitions a dimension among workers", "statement": "For stride k > 0 and any length, the k views step(0,k) .. step(k-1,k) together address each original index exactly once, and each reports exactly the number of indices it addresses.", "quantifier": "all lengths, all strides, all starts below the stride, all structures", "why_tests_cant": "the off-by-one behaviour depends on length mod stride for all values", "anchors": ["include/noarr/structures/structs/slice.hpp: step_t, auto_step_proto", "docs/structs/step.md", "include/noarr/structures/interop/cuda_step.cuh"]}
{"id": "C16", "title": "reverse is an involution", "statement": "s ^ reverse<d> has the same length, maps index i to length-1-i, stays in range, and reversing twice gives back the offsets of s.", "quantifier": "all structures, lengths, indices", "why_tests_cant": "unbounded, all structures", "anchors": ["include/noarr/structures/structs/slice.hpp: reverse_t"]}
{"id": "C17", "title": "rename only changes names", "statement": "After rename, offset/length/size under the new names equal those of the original under the old names (including swaps of names); the old name is no longer a dimension; renaming back restores the original behaviour.", "quantifier": "all structures, all (unique) rename lists, all states", "why_tests_cant": "all name permutations of all structures", "anchors": ["include/noarr/structures/structs/views.hpp: rename_t, rename_sig, rename_state"]}
{"id": "C18", "title": "reorder and hoist do not affect addressing", "statement": "reorder (with all dimensions) and hoist change only the order of dimensions in the signature: the set of dimensions, all lengths, sizes and offsets are unchanged.", "quantifier": "all structures, all dimension orders", "why_tests_cant": "all permutations over all structures", "anchors": ["include/noarr/structures/structs/views.hpp: reorder_t, hoist_t, reassemble_*"]}
{"id": "C19", "title": "join addresses the diagonal", "statement": "s ^ join<A,B,D> at index i in D addresses s at index i in both A and B, and has the common length in D.", "quantifier": "all structures, all equal lengths, all indices", "why_tests_cant": "all structures and lengths", "anchors": ["include/noarr/structures/structs/views.hpp: join_t"]}
{"id": "C20", "title": "bcast adds a dimension that does not affect memory", "statement": "s ^ bcast<d> has the length assigned to d, the size of s, and the same offset whatever the index in d. bcast<ds...>(ls...) does this for several dimensions.", "quantifier": "all structures, lengths, indices", "why_tests_cant": "all structures and lengths", "anchors": ["include/noarr/structures/structs/bcast.hpp: bcast_t", "include/noarr/structures/extra/shortcuts.hpp: bcast"]}
{"id": "C21", "title": "into_blocks covers every index exactly once when divisible", "statement": "If the block length (or block count) divides the length, (major, minor) pairs correspond one-to-one with the original indices, and in general exactly the first floor(length/block)*block indices are covered; an index combination never leaves the original range.", "quantifier": "all lengths, block sizes, structures", "why_tests_cant": "depends on divisibility for all values", "anchors": ["include/noarr/structures/structs/blocks.hpp: into_blocks_t", "docs/structs/into_blocks.md"]}
{"id": "C22", "title": "into_blocks_dynamic covers every index exactly once", "statement": "For any length and any block size > 0, the triples (major, minor, is_present) with is_present below its length correspond one-to-one with the original indices.", "quantifier": "all lengths, block sizes (not necessarily dividing), structures", "why_tests_cant": "boundary behaviour for all length/block combinations", "anchors": ["include/noarr/structures/structs/blocks.hpp: into_blocks_dynamic_t"]}
{"id": "C23", "title": "into_blocks_static covers every index exactly once", "statement": "For any length and any block size > 0, the (is_border, major, minor) combinations of body and border together correspond one-to-one with the original indices.", "quantifier": "all lengths, block sizes, structures", "why_tests_cant": "boundary behaviour for all length/block combinations", "anchors": ["include/noarr/structures/structs/blocks.hpp: into_blocks_static_t"]}
{"id": "C24", "title": "merge_blocks is a bijection and undoes into_blocks", "statement": "s ^ merge_blocks<A,B,D> has the product length and its index addresses (i / len(B), i % len(B)), one-to-one with all (A,B) pairs; merging the two dimensions created by into_blocks (with a block size dividing the length) gives back the original addressing and length.", "quantifier": "all lengths, structures, indices", "why_tests_cant": "unbounded values, all structures", "anchors": ["include/noarr/structures/structs/blocks.hpp: merge_blocks_t, into_blocks_t"]}
{"id": "C25", "title": "merge_zcurve enumerates the box without gaps or repeats", "statement": "For at least two merged dimensions, with lengths within MaxLen and divisible by Alignment (and Alignment^NDims < 2^32), indices 0 .. product-1 of merge_zcurve correspond one-to-one with the index tuples of the box, and inside an aligned block the index bits are the interleaved bits of the tuple. With a single merged dimension or Alignment^NDims >= 2^32 the code shifts by at least the word width (undefined).", "quantifier": "any number of dimensions, all lengths, all MaxLen/Alignment parameters", "why_tests_cant": "exponentially large boxes; the general part handles lengths that are not powers of two", "anchors": ["include/noarr/structures/structs/zcurve.hpp: zc_general, zc_special, merge_zcurve_t", "docs/structs/merge_zcurve.md"]}
{"id": "C26", "title": "for_each visits each valid index combination exactly once", "statement": "traverser(s).for_each(f) calls f exactly once for every combination of valid indices of s (including structures with tuples and dependent lengths) and never with an invalid one.", "quantifier": "all structures with all lengths set, all orders", "why_tests_cant": "unbounded index spaces over all structures", "anchors": ["include/noarr/structures/extra/traverser.hpp: traverser_t::for_each, for_sections, for_each_impl"]}
{"id": "C27", "title": "for_each visits in nested-loop order of the signature", "statement": "The states are visited in the lexicographic order of the dimensions of the (ordered) structure's signature, outermost first, each ascending.", "quantifier": "all structures, all lengths", "why_tests_cant": "unbounded sequences", "anchors": ["include/noarr/structures/extra/traverser.hpp: for_each_impl, for_each_impl_dep", "include/noarr/structures/extra/sig_utils.hpp: sig_dim_tree"]}
{"id": "C28", "title": "Reordering a traversal only permutes it", "statement": "Traversing with order(reorder<...>) or order(hoist<...>), or into blocks (divisible), visits the same set of elements, each exactly once, as traversing without it.", "quantifier": "all structures, all admissible orders", "why_tests_cant": "all permutations and block sizes", "anchors": ["include/noarr/structures/extra/traverser.hpp: traverser_t::order", "include/noarr/structures/structs/views.hpp", "include/noarr/structures/structs/blocks.hpp"]}
{"id": "C29", "title": "for_sections / for_dims decompose for_each", "statement": "Running for_dims or for_sections over some dimensions and, inside, for_each over the rest visits exactly the elements of for_each, each once.", "quantifier": "all structures, all choices of dimensions", "why_tests_cant": "all subsets/orders of dimensions", "anchors": ["include/noarr/structures/extra/traverser.hpp: for_sections, for_dims", "include/noarr/structures/base/utility.hpp: dim_tree_filter, dim_tree_reorder"]}
{"id": "C30", "title": "Proto-structures and orders compose", "statement": "t.order(A).order(B) behaves as t.order(A ^ B); ^ on proto-structures is associative; neutral_proto is neutral; x ^ (p ^ q) is (x ^ p) ^ q for a structure or a pack x (for a pack, if p is not to_each(...), which does not compile there). A pack on the right makes a pack of results; pack ^ to_each(p) applies p to each of the structures, in their order, and to_each composes. A proto-structure that says it preserves the layout only adds views to one of the structures it is given (if the functions passed to make_proto<true> do).", "quantifier": "all structures and packs, all proto-structures, including those made from functions", "why_tests_cant": "all compositions", "anchors": ["include/noarr/structures/extra/traverser.hpp: traverser_t::order", "include/noarr/structures/base/structs_common.hpp: compose_proto, neutral_proto, pack, to_each, make_proto, operator^"]}
{"id": "C31", "title": "Traversing several structures iterates shared dimensions once", "statement": "traverser(s1, ..., sn) iterates over the union of the dimensions of all structures, every shared dimension once, with the length taken from the first structure that has it; each structure sees each of its own index combinations.", "quantifier": "all lists of structures (with no tuple dims beyond the first)", "why_tests_cant": "all combinations of structures", "anchors": ["include/noarr/structures/extra/traverser.hpp: union_t, sig_union2"]}
{"id": "C32", "title": "Ranges and iterators enumerate the outer dimension", "statement": "begin()..end() of a traverser range enumerates each outer index once in order; iterator arithmetic satisfies it+n-n = it and (it+n)-it = n; range.as_traverser() visits what the items of the range visit; the items of range<Dim>() over any dimension outside tuples visit together each element once.", "quantifier": "all lengths, ranges and offsets", "why_tests_cant": "unbounded, all structures", "anchors": ["include/noarr/structures/interop/traverser_iter.hpp: traverser_iterator_t, traverser_range_t"]}
{"id": "C33", "title": "Any recursive splitting of a range partitions the work", "statement": "For any tree of TBB range splits, the resulting leaf ranges are disjoint, non-empty and cover exactly the original range; so a parallel for_each calls the body exactly once per element, and tbb_for_sections calls it once per index of the top dimension, with a traverser that behaves as the item of the range with that index.", "quantifier": "all ranges, all split trees (all schedules)", "why_tests_cant": "the number of schedules is exponential", "anchors": ["include/noarr/structures/interop/tbb.hpp: traverser_range_t splitting constructor, tbb_for_each, tbb_for_sections", "include/noarr/structures/interop/traverser_iter.hpp: is_divisible, empty"]}
{"id": "C34", "title": "Parallel reduction equals sequential reduction", "statement": "tbb_reduce yields, for any split tree, any assignment of leaves to threads and any join order, the same result as a sequential for_each accumulation when the join is associative and commutative with neutral element f_neut; when the output structure accepts the split dimension, concurrently running leaves write disjoint bytes.", "quantifier": "all schedules, all structures, all join operations that form a commutative monoid", "why_tests_cant": "exponential schedules", "anchors": ["include/noarr/structures/interop/tbb.hpp: tbb_reduce"]}
{"id": "C35", "title": "Planner execution equals nested loops", "statement": "planner(...).for_each(...).execute() calls the registered bodies once for each valid combination of the dimensions they are registered for, in loop order.", "quantifier": "all structures, endings, orders", "why_tests_cant": "unbounded", "anchors": ["include/noarr/structures/extra/planner.hpp: planner_t::execute, for_each_impl, planner_endings"]}
{"id": "C36", "title": "Writing an element changes only that element", "statement": "Writing through bag[state] / get_at changes what is read back at that index to the written value and leaves the value read at every other valid index unchanged.", "quantifier": "all alias-free structures, all memories, all pairs of valid indices", "why_tests_cant": "all memories and index pairs", "anchors": ["include/noarr/structures/interop/bag.hpp: bag_t::operator[], at", "include/noarr/structures/extra/funcs.hpp: get_at, sub_ptr"]}
{"id": "C37", "title": "Deserializing what was serialized restores the data", "statement": "serialize_data followed by deserialize_data into a structure with the same index space (even another layout with the same traversal order) reproduces every element, and leaves the rest of the stream for the next structure. If the input ends early or is malformed, the elements before that point are read, the stream has failed, and all the elements after it keep the values they had.", "quantifier": "all structures, all contents, all streams (complete, truncated or malformed)", "why_tests_cant": "all contents and layouts", "anchors": ["include/noarr/structures/interop/serialize_data.hpp: serialize_data, deserialize_data"]}
{"id": "C38", "title": "stride_along is the offset difference of neighbours", "statement": "Whenever stride_along<d> is available, offset(i+1) - offset(i) equals it for all valid i and all other indices.", "quantifier": "all structures, indices", "why_tests_cant": "all structures and indices", "anchors": ["include/noarr/structures/introspection/stride_along.hpp"]}
{"id": "C39", "title": "is_uniform_along means a constant stride", "statement": "Whenever is_uniform_along<d> holds, the difference of offsets of consecutive indices in d is the same for all valid indices.", "quantifier": "all structures, indices", "why_tests_cant": "all structures and indices", "anchors": ["include/noarr/structures/introspection/uniform_along.hpp"]}
{"id": "C40", "title": "offset_along sums up to the offset", "statement": "The offset contributed along a dimension is offset(i) - offset(0) in that dimension with the other indices fixed.", "quantifier": "all structures, indices", "why_tests_cant": "all structures and indices", "anchors": ["include/noarr/structures/introspection/offset_along.hpp"]}
{"id": "C41", "title": "lower_bound_along is a lower bound of offsets", "statement": "lower_bound_along<d>(s, state[, min, end]) is not greater than the offset contributed along d by any valid index (in [min,end)), and is attained at lower_bound_at.", "quantifier": "all structures, indices", "why_tests_cant": "all structures and indices", "anchors": ["include/noarr/structures/introspection/lower_bound_along.hpp"]}
{"id": "C42", "title": "is_contiguous means no holes", "statement": "Whenever is_contiguous<s> holds, the offsets of the valid indices fill a contiguous byte range.", "quantifier": "all structures", "why_tests_cant": "all structures", "anchors": ["include/noarr/structures/introspection/contiguous.hpp"]}
{"id": "C43", "title": "Mangled names are exact", "statement": "mangle renders every integral template parameter as its decimal representation, so different values give different names. The mangle text of two structures is the same exactly if their types are the same; the mangle_expr text is the same exactly if the structures are the same, including their run-time lengths, indices, etc.", "quantifier": "all integers; all structures of any depth (for which the functions compile)", "why_tests_cant": "all integer values, all pairs of structures", "anchors": ["include/noarr/structures/extra/mangle.hpp: mangle_integral, append_int", "include/noarr/structures/extra/mangle.hpp: mangle, mangle_expr, struct_name, scalar_name"]}
{"id": "C44", "title": "cuda_striped gives each stripe its own banks", "statement": "Elements of different stripes never overlap and never share a bank cell; all offsets stay inside the structure's size; the offset between neighbouring stripes is constant.", "quantifier": "all stripe counts, bank counts/widths, element sizes and inner structures admitted by the static checks, all indices", "why_tests_cant": "all parameters", "anchors": ["include/noarr/structures/interop/cuda_striped.cuh: cuda_striped_t::offset_inner, size", "docs/structs/cuda_striped.md"]}
{"id": "C45", "title": "64-bit evaluation equals exact evaluation unless it wraps", "statement": "If the exact (unbounded) evaluation of offset, size or length meets no overflow, underflow or division by zero, the 64-bit evaluation by the code gives the same number; otherwise the wrap is a distinct outcome.", "quantifier": "all structures, all states, all word sizes", "why_tests_cant": "all values up to 2^64", "anchors": ["include/noarr/structures/base/utility.hpp: constexpr_arithmetic", "include/noarr/structures/structs/*.hpp"]}
{"id": "C46", "title": "has_length tells whether length is available", "statement": "length<d>(state) is well-formed exactly when has_length<d, state>() is true, for every structure and state.", "quantifier": "all structures, dimensions, states", "why_tests_cant": "all structures and state shapes", "anchors": ["include/noarr/structures/structs/*.hpp: has_length, length", "include/noarr/structures/extra/funcs.hpp: get_length"]}
{"id": "C47", "title": "Indices of other dimensions do not influence lengths", "statement": "The length of a dimension depends only on the lengths given and on the indices of the dimensions that (by tuple, is_border or is_present) control it; changing any other index changes no length; size depends on no index of a tuple-free structure.", "quantifier": "all structures, dimensions, states", "why_tests_cant": "all structures and states", "anchors": ["include/noarr/structures/structs/*.hpp: length, size, sub_state"]}
{"id": "C48", "title": "index_space_size is the number of elements visited", "statement": "index_space_size(s) equals the number of calls for_each makes.", "quantifier": "all cube structures", "why_tests_cant": "unbounded", "anchors": ["include/noarr/structures/extra/shortcuts.hpp: index_space_size_impl"]}
{"id": "C49", "title": "symmetric_span trims both ends equally", "statement": "symmetric_span<d>(s, k) selects exactly the indices k .. length-k-1, i.e. those with at least k neighbours on both sides, so neighbor<d>(state, +-j) with j <= k is valid for each visited state.", "quantifier": "all lengths, margins, indices", "why_tests_cant": "unbounded values", "anchors": ["include/noarr/structures/extra/shortcuts.hpp: symmetric_span, neighbor"]}
{"id": "C50", "title": "strip_mine, hoisted blocks and shortcuts visit every element once", "statement": "strip_mine<d,...>(n) and hoist after into_blocks visit each element of a divisible structure exactly once.", "quantifier": "all structures, divisible block sizes", "why_tests_cant": "all structures and lengths", "anchors": ["include/noarr/structures/extra/shortcuts.hpp: strip_mine", "include/noarr/structures/structs/blocks.hpp: into_blocks_t", "include/noarr/structures/structs/views.hpp: hoist_t"]}
{"id": "C51", "title": "Ranges and iterators of planners make the planner's calls", "statement": "range(planner) goes over the indices of the top dimension; executing its items one after another makes exactly the calls planner.execute() makes, executing them in parallel (planner | planner_omp_execute()) makes the same calls up to their order, and as_planner() of any part of the range makes the calls of the items of that part. From begin(), increments reach end() after size() steps; iterator arithmetic satisfies it+n-n = it and (it+n)-it = n.", "quantifier": "all structures, orders, registered functions, ranges, offsets and schedules", "why_tests_cant": "unbounded lengths and structures, exponentially many schedules", "anchors": ["include/noarr/structures/interop/planner_iter.hpp: planner_range_t, planner_iterator_t, range, begin, end", "include/noarr/structures/interop/omp.hpp: planner_omp_execute"]}
{"id": "C52", "title": "CUDA threads visit each element exactly once", "statement": "A traverser distributed by cuda_threads (with dimensions bound to blocks and to threads of the grid), where each thread of a kernel launched over grid_dim() and block_dim() calls for_each of the traverser it gets from inner(), makes together exactly the visits of for_each of the whole traverser, each element once, whatever the interleaving of the threads. operator bool is false exactly if the grid has no thread.", "quantifier": "all structures, orders, numbers of grid dimensions, bound dimensions outside tuples with lengths below 2^32, and interleavings", "why_tests_cant": "unbounded lengths and structures, needs a GPU, exponentially many interleavings", "anchors": ["include/noarr/structures/interop/cuda_traverser.cuh: cuda_threads, cuda_traverser_t, grid_dim, block_dim, inner, operator bool", "include/noarr/structures/interop/cuda_traverser.cuh: cuda_fix_t"]}
{"id": "C53", "title": "cuda_step shares a traversal among threads", "statement": "If each of n threads calls for_each of a traverser ordered by cuda_step<Dim>(group) or cuda_step(group), that is step<Dim>(rank, n) with its own rank, then all of them together visit exactly what for_each of the traverser without the step visits, each element once - also if n does not divide the length or exceeds it, and whatever the interleaving.", "quantifier": "all structures and orders, all dimensions that all elements have, all lengths, numbers of threads and interleavings", "why_tests_cant": "unbounded lengths and thread counts, needs a GPU", "anchors": ["include/noarr/structures/interop/cuda_step.cuh: cuda_step, cuda_step_block, cuda_step_grid", "include/noarr/structures/structs/slice.hpp: step, step_t, auto_step_proto"]}
{"id": "C54", "title": "stored parameters are returned", "statement": "A contain (the base of every structure, state, pack and proto-structure) built from any sequence of parameters, compile-time constants (objects of empty types) mixed with run-time values in any way, has as many fields as there were parameters, get<I>() returns the I-th of them, and contain_cat of several of them has all their fields in order. Constants take no storage: the data members are exactly the run-time values, in the given order, and the whole is an empty type exactly if all parameters are constants.", "quantifier": "all sequences of parameters of any length, all mixtures of constants and run-time values, all indices, all numbers of concatenated objects", "why_tests_cant": "the class is chosen by recursion among five specializations depending on which suffixes are empty; tests instantiate a few mixtures", "anchors": ["include/noarr/structures/base/contain.hpp: contain, contain_impl, contain_get, contain_cat"]}
{"id": "C55", "title": "the type of an element", "statement": "scalar_t<Struct, State>, which get_at, bag[...] and offset use for the type of the accessed element, is the type of the scalar that the structure has at that place: through all views, and through tuples, whose constant index selects the type. It exists whenever the needed tuple indices are constants in range and the offset can be queried. If it exists without any index, all elements are of that type. is_point holds exactly for structures without dimensions; in a cube (is_cube) all elements are addressed by the same dimensions, none of which needs a constant index, and are of the same type. HasDims holds for exactly the dimensions that are needed to address some element.", "quantifier": "all structures, all nestings of views, all states", "why_tests_cant": "the type is computed by recursion over the signature, the offset by recursion over the classes; tests check a few types", "anchors": ["include/noarr/structures/extra/struct_traits.hpp: scalar_t, sig_get_scalar, is_point, is_cube", "include/noarr/structures/extra/funcs.hpp: offset, get_at", "include/noarr/structures/extra/struct_concepts.hpp: HasDims"]}
{"id": "C56", "title": "sizes that fit do not overflow on the way", "statement": "If the lengths given to a structure and the parameters of its views are below some bound M, 2*M fits in size_t, and the exact size of the structure plus M fits in size_t, then no intermediate result of length, get_size or offset wraps: the lengths of ordinary dimensions, the size, and the offset of every element at valid indices that the code computes in size_t are the exact numbers, and the element lies inside the structure. For structures built without shift and merging views the bound on the lengths at the inner levels follows from the given lengths and parameters alone; for the others (except merge_zcurve) it is a hypothesis about the exact lengths.", "quantifier": "all structures (without merge_zcurve), all nestings of views, all states with valid indices, all widths of size_t and all bounds M", "why_tests_cant": "overflow only happens with lengths far beyond those of tests, and each view adds its own intermediate products and sums", "anchors": ["include/noarr/structures/structs/slice.hpp: shift_t, slice_t, span_t, step_t, reverse_t", "include/noarr/structures/structs/blocks.hpp: into_blocks_t, into_blocks_dynamic_t, into_blocks_static_t, merge_blocks_t", "include/noarr/structures/structs/layouts.hpp: vector_t, tuple_t (size, strict_offset_of)"]}
{"id": "C57", "title": "a structure inside another one", "statement": "offset_of<Sub>(structure, state) is the place where the sub-structure Sub on the way to the element begins: queried there with its own part of the state, and started at that offset, the sub-structure gives the offset (and the element type) that the whole structure gives; so offsets add, and offset is offset_of the scalar. For valid indices the sub-structure, with its own size, lies inside the whole one; for two states the sub-structures coincide (same place, same size) or are disjoint; in an aligned buffer they are aligned. In the state that state_at<Sub> gives, the sub-structure has the size and offsets that the whole structure has in the original state.", "quantifier": "all structures, all nestings of views, all sub-structure types, all states", "why_tests_cant": "the recursion goes through every view and layout, each with its own translation of the state; tests take one sub-structure of a few structures", "anchors": ["include/noarr/structures/base/structs_common.hpp: offset_of, state_at, has_offset_of, has_state_at, strict_contain", "include/noarr/structures/structs/layouts.hpp: tuple_t::strict_offset_of, vector_t::strict_offset_of"]}
{"id": "C58", "title": "queries that are announced are available", "statement": "has_size, has_offset_of and has_state_at tell whether size, offset_of and state_at can be called with a state: everything that can be called is announced, and everything that is announced can be called. The second half is false for sizes of tuples that contain a tuple of different alignments, and for offsets in structures of which another part has no length yet; it is proved when the alignments of the fields can be queried and when the whole structure has a size, respectively.", "quantifier": "all structures, all nestings of views, all sub-structure types, all states", "why_tests_cant": "a wrong answer shows only in a combination of structure and state that nobody instantiated: it is a failure to compile", "anchors": ["include/noarr/structures/base/structs_common.hpp: has_offset_of, has_state_at", "include/noarr/structures/structs/layouts.hpp: has_size, has_strict_offset_of", "include/noarr/structures/structs/views.hpp: reorder_t::has_size, has_strict_offset_of"]}
{"id": "C59", "title": "the lengths in the type are the lengths", "statement": "If the type (signature) of a structure says that a dimension has the static length n, then querying its length gives n; if it says that the dimension is that of a tuple with n fields, the length is the constant n. This holds for every nesting of structures and views except where the code writes another number into the type: span and step of an ordinary dimension with constants, set_length of a dimension that has a length already, reverse of a tuple dimension. Numbers are 64-bit.", "quantifier": "all structures, all nestings of views, all dimensions, all states that do not set the length themselves", "why_tests_cant": "each view computes the number a second time, in a template apart from length, for every combination of static and dynamic parameters; the test suite looks at a few signatures", "anchors": ["include/noarr/structures/base/signature.hpp: static_arg_length, arg_length_from, function_sig, dep_function_sig", "include/noarr/structures/structs/slice.hpp: dim_replacement of shift_t, slice_t, span_t, step_t, reverse_t", "include/noarr/structures/structs/blocks.hpp: dim_replacement", "include/noarr/structures/structs/zcurve.hpp: zc_merged_len"]}
{"id": "C60", "title": "a structure made like another one has its dimensions and lengths", "statement": "scalar<T>() ^ vectors_like<ds...>(s, state) compiles exactly if there are dimensions and s has a length in each; the result has these dimensions, the first being the innermost, with the lengths that s has in the state, and is a dense row-major array over them. vectors_like(s) takes all the dimensions of s in their order: traversing the result goes through the same states in the same order as traversing s (whose lengths must not depend on indices in other dimensions), and vectors_like of scalar<U>() ^ vectors<ds...>(ls...) is vectors<ds...>(ls...). lengths_like gives to another structure the lengths of s.", "quantifier": "all structures s with any nesting of views, all states, lists of dimensions, element types", "why_tests_cant": "s may be any structure and the order of dimensions and the lengths are computed from its type and state", "anchors": ["include/noarr/structures/extra/shortcuts.hpp: vectors, array, length_like, lengths_like, vector_like, vectors_like", "include/noarr/structures/extra/sig_utils.hpp: sig_dim_seq"]}
{"id": "C61", "title": "fix_zeros is the first element", "statement": "The state that fix_zeros makes from the dimensions of a structure is that of the first element for_each visits: if the element is visited, it is visited first; for a structure without tuples whose lengths are positive it is visited.", "quantifier": "all structures, with tuples and views", "why_tests_cant": "all structures and all orders of dimensions", "anchors": ["include/noarr/structures/extra/shortcuts.hpp: fix_zeros", "include/noarr/structures/extra/traverser.hpp: for_each"]}
{"id": "C62", "title": "the memory of bags is freed exactly once", "statement": "In every program that makes bags (make_bag, make_vector_bag, bag from a unique_ptr), moves, assigns, refers to, views and destroys them, every block of a bag has at every point exactly one owner; it is freed when the owner is destroyed or assigned to and at no other time, never twice, and nothing is left when all bags are gone. Memory passed by pointer is never freed by a bag.", "quantifier": "all programs (sequences of bag operations of any length), all structures", "why_tests_cant": "a test runs one sequence of operations; a double free or leak depends on the sequence", "anchors": ["include/noarr/structures/interop/bag.hpp: bag_t, bag_policy, make_bag, make_vector_bag, get_ref, operator^", "include/noarr/structures/base/contain.hpp: contain_impl"]}
{"id": "C63", "title": "references, moved bags and views of bags designate the same memory", "statement": "get_ref() gives a bag that reads and writes the memory of the original, which stays valid and the owner; moving a bag gives one with the same elements, and clears the original if it owned them; references stay valid when the owner is moved, and dangle when it is destroyed; owning bags are not copied. bag ^ p, for a reference bag or an rvalue of any bag, has the elements of the bag at the translated states, in the same memory.", "quantifier": "all bags of all policies, all structures and states, all reachable configurations of bags and references", "why_tests_cant": "aliasing depends on the history of the bags; no test applies ^ to an owning bag", "anchors": ["include/noarr/structures/interop/bag.hpp: get_ref, operator^, bag_policy::get", "docs/BasicUsage.md: Copying or Moving a Bag; Other uses"]}
{"id": "C64", "title": "Z-curves in 64-bit arithmetic", "statement": "s ^ merge_zcurve<dims..., dim>::maxlen_alignment<MaxLen, Alignment>() for any powers of two MaxLen and Alignment such that the lengths are multiples of Alignment and at most MaxLen: computed in size_t, the indices of the merged dimension correspond one-to-one with the index tuples. As documented, MaxLen may be 2^63 if there is no bound, and Alignment may be MaxLen if all lengths are powers of two.", "quantifier": "all structures, numbers of dimensions, lengths, MaxLen and Alignment, with the merged length below 2^64", "why_tests_cant": "all lengths and parameters; overflow of intermediate results depends on them", "anchors": ["include/noarr/structures/structs/zcurve.hpp: merge_zcurve, maxlen_alignment, zc_general, zc_special", "docs/structs/merge_zcurve.md"]}
{"id": "C65", "title": "Compile-time constants stay compile-time constants", "statement": "Offsets, sizes and lengths that are computed from values known at compile time (indices, lengths and view parameters given as noarr::lit) are std::integral_constant, not run-time size_t. The offset at a constant index of a vector is a constant even if the length of the vector itself is not.", "quantifier": "all structures, views with constant parameters and states with constant items", "why_tests_cant": "any nesting of structures and views; a single built-in operator on the way silently turns the result into a run-time value", "anchors": ["include/noarr/structures/base/utility.hpp: constexpr_arithmetic", "include/noarr/structures/structs/layouts.hpp: tuple_t, vector_t", "include/noarr/structures/structs/zcurve.hpp: merge_zcurve_t", "include/noarr/structures/structs/blocks.hpp: into_blocks_dynamic_t", "docs/DimensionKinds.md"]}
{"id": "C66", "title": "Shortcuts for states", "statement": "idx<Dims...>(values...) has the given indices and nothing else; get_indices and get_lengths_in read items back in the order asked for; filter_indices and filter_lengths keep exactly the named items; update_index changes one index by the given function and nothing else; neighbor adds differences to run-time indices and nothing else, and equals adding one state of indices and subtracting another.", "quantifier": "all states, dimensions, values, functions and differences", "why_tests_cant": "any number of items in any order, constants mixed with run-time values, wrap-around of unsigned sums", "anchors": ["include/noarr/structures/extra/shortcuts.hpp: get_index, get_indices, get_lengths_in, filter_indices, filter_lengths, idx, update_index, neighbor", "include/noarr/structures/base/state.hpp: operator+, operator-", "docs/State.md"]}
{"id": "C67", "title": "Sequences and trees of dimensions", "statement": "dim_sequence concatenation and filtering keep the order; dim_tree_from_sequence and dim_tree_to_sequence are inverse to each other, and a tree can be made into a sequence exactly if it comes from one; dim_tree_filter removes the rejected dimensions from every way through the tree and compiles exactly if they have one branch; dim_tree_reorder puts the given dimensions in front, in the given order, and has the same ways through the tree as before, each once; sig_dim_seq is the sequence of sig_dim_tree, reversed.", "quantifier": "all sequences, predicates, trees and signatures; reordering by distinct dimensions that every way through the tree has, with the same number of branches", "why_tests_cant": "trees of any depth with any number of branches; types exist only at compile time", "anchors": ["include/noarr/structures/base/utility.hpp: dim_sequence, dim_sequence_filter, dim_tree, dim_tree_filter, dim_tree_reorder, dim_tree_from_sequence, dim_tree_to_sequence", "include/noarr/structures/extra/sig_utils.hpp: sig_dim_tree, sig_dim_seq"]}
{"id": "C68", "title": "The dimensions of a view, their order and static lengths", "statement": "The signature of a view is that of the structure below with these changes only: bcast and vector add the outermost dimension; tuple adds one with a field for each structure; fix removes the dimension (of a tuple it keeps the chosen field); set_length, shift, slice, span, step and reverse keep the place of the dimension and keep the selected fields of a tuple, in order; into_blocks (and its variants) puts the block dimensions in the place of the old one, outermost first; merge_blocks and merge_zcurve put the merged dimension in the place of the innermost of the merged ones; join adds the new dimension outermost, and removes only the outer one of the two joined; hoist moves the dimension to the front; rename only renames; reorder puts the dimensions in the given order. No other dimension, place or static length changes.", "quantifier": "all structures, all views and all parameters for which the signature of the view compiles; reorder for structures with distinct dimensions, when it mentions all of them", "why_tests_cant": "signatures are types; there is one for each composition of views, with tuples of any number of fields", "anchors": ["include/noarr/structures/base/signature.hpp: function_sig::replace, dep_function_sig::replace", "include/noarr/structures/structs/*.hpp: signature, dim_replacement", "include/noarr/structures/structs/views.hpp: reassemble_sig, rename_sig", "docs/Signature.md"]}
{"id": "C69", "title": "Where bounds of offsets are offered", "statement": "is lower_bound_along offered exactly where it makes sense and can be computed: for structures of scalars, vectors, tuples, bcast, fix, set_length, hoist, shift, slice, span, reverse and rename, only along dimensions whose length is known and in which no index is given; along all such dimensions if shift and rename are not involved; and where it is offered, lower_bound_along and lower_bound_at can be computed, with and without a range. For blocks: along the inner dimension if along the divided one, along the outer one if also the inner length is known, along a merged one if along both; never for step, join, reorder, merge_zcurve.", "quantifier": "all structures of the named classes, all states, dimensions and ranges, in exact, checked and 64-bit arithmetic", "why_tests_cant": "availability is decided at compile time, separately for each structure and kind of state; a test can only check those it lists", "anchors": ["include/noarr/structures/introspection/lower_bound_along.hpp: has_lower_bound_along::value, lower_bound, lower_bound_at"]}
{"id": "C70", "title": "The matrix example, with any layout", "statement": "noarr_matrix_multiply, noarr_matrix_copy, noarr_matrix_transpose and noarr_matrix_scalar_multiplication compute the product, a copy, the transposed matrix and the multiple, and the conversions from and to a classic matrix keep every element, for matrices in bags with any layouts; hence the assertion at the end of matrix_demo holds. The layouts by rows, by columns and in tiles are among those meant. Matrices of shapes that do not fit, and the transposition of a matrix that is not a square, end at an assertion.", "quantifier": "all structures with the two dimensions whose elements are separate and accessible (C05, C06), all sizes, all contents, all element types with an addition and a multiplication; rows, columns and tiles of all sizes", "why_tests_cant": "there are infinitely many layouts, each a type of its own, as well as sizes and contents", "anchors": ["examples/matrix/noarr_matrix_functions.hpp", "examples/matrix/matrix.cpp: matrix_demo, clasic_matrix_to_noarr, noarr_matrix_to_clasic, clasic_matrix_multiply, are_equal_classic_matrices", "include/noarr/structures/interop/bag.hpp: bag_t::at, length"]}
{"id": "C71", "title": "A structure ignores the dimensions of other structures", "statement": "the size, alignment, offsets, element and lengths of a structure in a state depend only on the indices and lengths that the state has in the dimensions of the structure, as they are named from the outside: other indices and lengths in the state (such as those that a traverser of several structures adds, or that have the name of a dimension which has been fixed, renamed, divided or merged) are ignored, and bag[state] reads and writes the same element with and without them.", "quantifier": "all structures in which every shifted, reversed or renamed dimension exists, all pairs of states, all arithmetics", "why_tests_cant": "each combination of a structure and a kind of state is a type of its own; a test can only list some", "anchors": ["docs/Traverser.md: 'orig_struct will ignore n anyway', Traversing multiple structures at once", "include/noarr/structures/structs/*.hpp: sub_state, clean_state", "include/noarr/structures/interop/bag.hpp: bag_t::operator[]"]}
{"id": "C72", "title": "A program over bags does not depend on their layouts", "statement": "a program that accesses its bags only by bag[state] (reading and writing) and bag.length<d>(state), at indices of the index spaces of the bags, runs without undefined behaviour, computes what the same program computes on plain arrays indexed by the same states, and so gives the same result and leaves the same values in the bags whatever layouts are chosen for them. This includes programs whose control flow depends on the values read, and bags freshly made by make_bag. If no computation of the library exceeds size_t, the program does the same with wrapping arithmetic.", "quantifier": "all programs of that form, all numbers of bags, all index spaces, all sound structures that lay out the index space with separate accessible elements (traversed structures and all matrix layouts among them), all contents", "why_tests_cant": "the claim quantifies over programs and over pairs of layouts; a test compares two layouts under one program on one input", "anchors": ["README.md: layout-agnostic algorithms", "docs/BasicUsage.md", "include/noarr/structures/interop/bag.hpp: bag_t::operator[], at, length, make_bag"]}
{"id": "C73", "title": "Algorithms written as for_each with an accumulating or assigning body", "statement": "traverser(...).for_each([&](auto state){ out[key(state)] = op(out[key(state)], val(state)); }) leaves in each element of out the fold of op over the visited states with that key, and nothing else is changed; if op does not depend on the order of its operands, every traversal order and every layout give the same values. With an assignment to different elements each gets its value (copying a bag to one of another layout among them), and for c[state] += a[state] * b[state] over traverser(a, b, c) the result is c + a * b, for all orders of traversal and all layouts of the three matrices.", "quantifier": "all traversers that compile, all expressions that read other bags, all accumulating operations that keep the size of an element, all layouts, sizes and contents", "why_tests_cant": "orders of traversal and layouts are types; the tests of matrix multiplication cover a few of them for one size", "anchors": ["include/noarr/structures/interop/traverser_iter.hpp, extra/traverser.hpp: traverser_t::for_each", "docs/Traverser.md: Traversing multiple structures at once", "tests/traverser_test.cpp", "examples/matrix/noarr_matrix_functions.hpp"]}
{"id": "C74", "title": "Threads that use different elements of the same bags do not disturb each other", "statement": "if the bodies of a parallel for_each (tbb_for_each, omp_for_each) use only elements of bags, and no iteration uses an element that another one writes, then in every interleaving no access is undefined, no two accesses of different threads are a data race on a byte of memory (whatever the layouts of the bags), all threads come to an end, and the bags have the same values as after the sequential for_each. For an accumulating body out[key] = op(out[key], val) it is enough that the key determines the index in the outermost dimension, the one that is divided: iterations of one thread may then share an element. The parallel product of matrices c[state] += a[state] * b[state] over a dimension of c is an example.", "quantifier": "all programs over bags as bodies, all numbers of threads, all splittings of a range, all interleavings, all layouts, sizes and contents", "why_tests_cant": "interleavings and layouts cannot be listed; a race need not show in any run of a test", "anchors": ["include/noarr/structures/interop/tbb.hpp: tbb_for_each, tbb_reduce ('parallel writes will go to different offsets')", "include/noarr/structures/interop/omp.hpp: omp_for_each", "include/noarr/structures/interop/bag.hpp: bag_t::operator[]", "docs/Traverser.md: parallelization with OpenMP and TBB"]}
{"id": "C75", "title": "A parallel reduction into a bag computes the same as a loop", "statement": "tbb_reduce(t, f_neut, f_acc, f_join, out_bag), where f_acc(state, out) may read other bags and update one element of out, whose index may depend on what was read (a histogram), ends without undefined behaviour and without a data race, in every interleaving and with every splitting, and leaves in out_bag what the sequential loop over all states would: op applied to the old value once for each state that belongs to the element; other bags keep their values. It is required that op can be applied in any order, that joining with a value accumulated from the neutral one is the same as accumulating, and - if out_bag has a dimension with the name of the one that is split, so that threads share it - that states which update the same element have the same index in that dimension. The histogram of docs/Traverser.md adds to each counter the number of elements with its value; it races if the counters are in a dimension of the same name as the values.", "quantifier": "all traversers, all operations of this kind, all layouts of the bags, all contents, all splittings and distributions to threads, all interleavings, all contents of the fresh memory of the private copies", "why_tests_cant": "interleavings, splittings and contents cannot be listed; a race need not show in any run", "anchors": ["include/noarr/structures/interop/tbb.hpp: tbb_reduce (43-84), tbb_reduce with a bag (87-109)", "docs/Traverser.md: Parallel reduction", "tests/histogram_test.cpp"]}
{"id": "C76", "title": "The CUDA kernel of the documentation multiplies matrices", "statement": "A kernel launched with grid_dim() and block_dim() of cuda_threads<...>(traverser), whose threads combine what they read at each state of trav.for_each and then write one element of a bag at the state of trav, has no undefined access and no data race if different threads have different elements, and each element gets the combination of the values its thread visits. The matrix product of docs/Traverser.md, with any lengths, any block size and any layouts of the three bags: c[i, k] is the sum of a[i, j] * b[j, k] in the order of j, wherever i and k are in whole blocks; the elements beyond the last whole block are not written; a and b are unchanged. With into_blocks_dynamic and for_dims<'r', 's'> in the kernel every element of c is written, whatever the lengths and the block size.", "quantifier": "all kernels of this shape, all lengths and block sizes with fewer than 2^32 blocks, all layouts, all contents, all interleavings of the threads", "why_tests_cant": "there is no GPU in the tests, and interleavings, lengths, layouts and contents cannot be listed", "anchors": ["include/noarr/structures/interop/cuda_traverser.cuh: cuda_fix_t (51-146), cuda_traverser_t (168-215), cuda_threads (217-240)", "docs/Traverser.md: CUDA"]}
{"id": "C77", "title": "The vectorised sum of the documentation", "statement": "The program of docs/structs/into_blocks.md that adds up the elements of a vector in whole blocks (sums[sii] += input_blocks[sii] over traverser(input ^ into_blocks_static<'i', '!', 'I', 'i'>(block_size)), and then the sum of sums) compiles, has no undefined access, and returns the sum of the partial sums; the partial sum j is that of the elements j, j + block_size, j + 2 * block_size, ... in this order, whether or not the block size divides the length, and whatever was in sums before. If the addition is associative and commutative, the result is the sum of all the elements.", "quantifier": "all lengths, all block sizes > 0, all contents, all types of elements with an addition", "why_tests_cant": "lengths, block sizes and contents cannot be listed; no test adds up a border", "anchors": ["docs/structs/into_blocks.md: Parallelization (220-243)", "include/noarr/structures/structs/blocks.hpp: into_blocks_static_t (480-669)", "include/noarr/structures/extra/traverser.hpp: for_each (198-217), for_each_impl (241-275)", "include/noarr/structures/interop/bag.hpp: operator[] (181-185)"]}
{"id": "C78", "title": "Loops over bags shared by CUDA threads with cuda_step", "statement": "If any number of CUDA threads run traverser.order(cuda_step<Dim>(group)).for_each(body), and the iterations of body do not use elements that other iterations write, then no access is undefined, there is no data race, and in the end the bags hold what traverser.for_each(body) in one thread gives. The same holds for bodies that update elements, out[state] += value, if all the iterations for an element have the same index in Dim. For structures without tuples and with known lengths, such a kernel compiles for every number of threads. In particular y[state] += a * x[state] for two vectors gives y + a * x.", "quantifier": "all traversers, all orders before cuda_step (also merged dimensions), all numbers of threads, all interleavings, all layouts and contents of the bags; vectors of all lengths", "why_tests_cant": "interleavings of threads, numbers of threads and layouts are unbounded, and a data race need not show in a test", "anchors": ["docs/structs/cuda_step.md: usage examples", "include/noarr/structures/interop/cuda_step.cuh", "include/noarr/structures/structs/slice.hpp: step_t", "include/noarr/structures/interop/bag.hpp"]}
{"id": "C79", "title": "Sums over dimensions with tbb_reduce", "statement": "tbb_reduce over a traverser of an array, with out[state] = 0, out[state] += array[state] and out_left[state] += out_right[state], adds to each element of the output the sum of the elements of the array that have its indices. In particular it adds the row sums of a matrix to an output with the dimension of the rows, and the column sums to one with the dimension of the columns. This is so whether the library shares the output among the threads or gives each a copy; no access is undefined, there is no data race, and the array stays as it was. What the output contained before is added to, not replaced.", "quantifier": "all layouts and lengths, all numbers of dimensions, all orders of traversal that visit each element (for C79_sums_of_a_matrix: no order), all ways to split the range and to distribute it among threads, all interleavings, all contents, all types with an associative and commutative addition", "why_tests_cant": "the splitting, the number of threads and the interleavings depend on the scheduler, and a lost update need not show in a test", "anchors": ["docs/Traverser.md: Parallel reduction", "include/noarr/structures/interop/tbb.hpp: tbb_reduce, tbb_reduce_bag", "include/noarr/structures/interop/bag.hpp"]}
{"id": "C80", "title": "Renamed views of bags in programs", "statement": "A bag with a renamed structure reads and writes the bytes of the bag under the old names. If the bag has enough bytes and distinct elements do not overlap, the same holds of the renamed view, so it can be used like a bag with the new names. The loop that copies the renamed view of one bag into another copies every element, and leaves the first as it was. The view rename<'i','j','j','i'> of a matrix is its transpose. matmul(a, b ^ rename<'i','j','j','k'>(), c ^ rename<'j','k'>()), for three matrices with the dimensions i and j, adds the matrix product of a and b to c.", "quantifier": "all layouts, lengths and contents, all renamings that pass the static assertions and whose old names are dimensions of the structure, all orders of traversal, all element types with an addition whose order does not matter", "why_tests_cant": "a renaming that loses a dimension, or applies the pairs one after another instead of at once, shows only with names that overlap, and layouts and renamings are unbounded", "anchors": ["docs/structs/rename.md", "include/noarr/structures/structs/views.hpp: rename_t", "include/noarr/structures/interop/bag.hpp: bag, operator^"]}
{"id": "C81", "title": "Programs that use parts of bags", "statement": "A program that uses views of bags does exactly what the program with the translated indices does with the bags themselves: the same result, the same failure, the same bytes. The views slice, span, shift, step and reverse in one dimension show distinct indices of it, inside its bounds, as many as their length says. Copying such a part of one bag to such a part of another gives each element of the part the value of its counterpart; all other elements of the target, and the whole source, keep their values. Assigning a vector to matrix ^ fix<'i'>(r) changes the row r to the vector and no other row.", "quantifier": "all programs, all bags with any layouts, lengths and contents, all parts within the bounds; the program theorem for all views and arithmetics", "why_tests_cant": "an element outside of the part that is overwritten, or an index off by one, shows only for some bounds and layouts, and parts and layouts are unbounded", "anchors": ["docs/structs/slice.md", "docs/structs/shift.md", "docs/structs/step.md", "docs/structs/fix.md", "include/noarr/structures/structs/slice.hpp", "include/noarr/structures/structs/setters.hpp: fix_t", "include/noarr/structures/interop/bag.hpp: operator^"]}
{"id": "C82", "title": "Lengths in the state instead of the structure", "statement": "Passing lengths in the state does the same as set_length: sizes, offsets, elements and lengths are the same, whether they exist or not. A traverser with .order(set_length<...>(...)) makes the iterations of the traverser of the structure with set_length, and each of its states contains the lengths. A program that passes lengths in its states and uses bags without lengths does the same as one without on bags with set_length; in particular a loop over such a traverser copies one bag to another. The matrix of the documentation has the documented size and offsets, and no lengths without the state.", "quantifier": "all structures, all dimensions and lengths, all states, all programs; every arithmetic, except for the copy and the matrix", "why_tests_cant": "structures, lengths and programs are unbounded, and the documentation tests one matrix", "anchors": ["docs/other/SeparateLengths.md", "include/noarr/structures/structs/setters.hpp: set_length_t", "include/noarr/structures/extra/traverser.hpp: order, for_each", "include/noarr/structures/base/state.hpp: length_in"]}
{"id": "C83", "title": "Matrices in blocks and tiles", "statement": "The matrices of docs/structs/merge_blocks.md work for all numbers of rows and columns and all sizes of blocks. With merge_blocks and slice, also if the number of columns is not a multiple of the size of the blocks, the matrix has the wanted lengths, all of its elements can be accessed, the size is that of the whole blocks, and each element is at the documented place in its block or tile. The order in which the dimensions of tiles are merged does not matter. Without slice the number of columns is right if and only if it is a multiple of the size of the blocks. A program does the same on these matrices as on simple_matrix.", "quantifier": "all numbers of rows and columns, all positive sizes of blocks and tiles, all sizes of elements, all programs", "why_tests_cant": "the sizes and programs are unbounded, and the documentation has one size", "anchors": ["docs/structs/merge_blocks.md", "include/noarr/structures/structs/blocks.hpp: merge_blocks_t", "include/noarr/structures/structs/slice.hpp: slice_t"]}
{"id": "C84", "title": "Traversals that visit each element repeatedly", "statement": "traverser(s ^ bcast<r>(n)) makes the iterations of traverser(s) in each of n rounds, one after another, and the states contain the number of the round. In each round the elements are those of s, which ignores the number of the round. A loop over it is an ordinary loop with n rounds with a loop over s inside. With a body that applies a function to an element of a bag, it is applied n times to each element that is visited, and other elements do not change.", "quantifier": "all structures without the dimension r, all n (static or dynamic), all bodies; every arithmetic, except for the last statement; all layouts of the bag", "why_tests_cant": "structures, numbers of rounds and bodies are unbounded", "anchors": ["docs/structs/bcast.md", "include/noarr/structures/structs/bcast.hpp: bcast_t", "include/noarr/structures/extra/traverser.hpp: for_each"]}
{"id": "C85", "title": "The order of the iterations over an array", "statement": "for_each over an array (scalar ^ vector ^ vector ...) is nested loops over its dimensions, from the outermost. Each hoist<d>() puts the loop over d first and keeps the order of the others, both as an order of the traverser and as a part of the structure. for_dims<e1, e2, ...> is nested loops over the listed dimensions in the listed order, whatever the order of the array and of the traverser. for_each<e1, e2, ...> is nested loops over the listed dimensions in the order of the traverser. All orders over all dimensions have the same iterations, each as often.", "quantifier": "all lists of different dimensions, all lengths, all lists of hoisted dimensions (also repeated), all lists of dimensions for for_dims and for_each; every arithmetic", "why_tests_cant": "the number of dimensions, the lengths and the orders are unbounded", "anchors": ["docs/structs/hoist.md", "docs/Traverser.md: for_dims, for_each, order", "include/noarr/structures/extra/traverser.hpp: for_each, for_dims", "include/noarr/structures/structs/views.hpp: hoist_t"]}
{"id": "C86", "title": "The order of the iterations over blocks and tiles", "statement": "A traversal of an array (scalar ^ vector ^ vector ...) with into_blocks<d, maj, min>(n) and hoist<d>() in any number and order is nested loops over the resulting dimensions: into_blocks puts maj and min in the place of d, hoist puts a dimension first. As an order of the traverser the states have the original indices (index of the block times block size plus index in the block), as a part of the structure they have the new ones. If the block sizes divide the lengths, then the iterations are those of the default order, each as often, and blocks without hoist do not change the order at all.", "quantifier": "all lists of different dimensions, all lengths, all positive block sizes, all lists of into_blocks (also blocks of blocks, also with the name of the old dimension) and hoist; numbers of unlimited size", "why_tests_cant": "the number of dimensions, the lengths, the block sizes and the orders are unbounded", "anchors": ["docs/structs/into_blocks.md: Default traversal, Tiling in one dimension, Tiling in both dimensions", "docs/structs/hoist.md", "include/noarr/structures/structs/blocks.hpp: into_blocks_t", "include/noarr/structures/structs/views.hpp: hoist_t", "include/noarr/structures/extra/traverser.hpp: for_each, order"]}
{"id": "C87", "title": "Loops over several arrays in tiles", "statement": "traverser(a1, a2, ...).order(...).for_each over arrays that share some dimensions and their lengths, with into_blocks and hoist in any number and order, is nested loops over the dimensions of all the arrays, each once (those of a later array that are new are outside), with the blocks and hoists. If the block sizes divide the lengths, each combination of indices is visited exactly once. So the product of matrices, traverser(a, b, c).order(tiles).for_each([&](auto s) { c[s] += a[s] * b[s]; }), adds the product to c for every choice of blocks and their order.", "quantifier": "all numbers of arrays, all lists of dimensions and lengths, all lists of into_blocks and hoist; for the product all element types with an addition in which summands can be exchanged, all contents and layouts of the bags; numbers of unlimited size", "why_tests_cant": "arrays, lengths, block sizes, orders, contents and layouts are unbounded", "anchors": ["docs/Traverser.md: Traversing multiple structures at once, order", "docs/structs/into_blocks.md: Tiling in both dimensions", "include/noarr/structures/extra/traverser.hpp: union_t, sig_union2, for_each, order", "include/noarr/structures/structs/blocks.hpp: into_blocks_t"]}
