# Formal model of noarr-structures: design

## 1. The model

noarr structures are type-level trees evaluated against a *state* (items
`index_in<d>` / `length_in<d>` whose values are `size_t` or
`integral_constant`). Every C++ structure class offers the same small query
interface: `signature`, `has_length<q>`, `length<q>`, `size`, `align`,
`strict_offset_of` (through `sub_structure` / `sub_state`). The Lean model
mirrors that, one definition per C++ class or function, each with a comment
naming the file and the lines (paths are relative to
`/repo/include/noarr/structures/`).

Three outcomes are kept apart everywhere:

* `none` of an `Option`: the query *does not compile* (violated `requires`,
  `static_assert`, missing member);
* `Val.bad wrap` / `Val.bad ub`: it compiles, but the number is the result of a
  wrap-around or of undefined behaviour. It propagates through all arithmetic;
* `Val.lit n` (`integral_constant`) / `Val.dyn n` (`size_t`): a number.

All arithmetic goes through an `Arith` record with three instances: `ideal`
(unbounded naturals; a negative result is `bad wrap`, division by zero
`bad ub`), `checked W` (in addition results >= W are `bad wrap`) and
`machine W` (wraps modulo W like `size_t`). C45 connects the three: when the
`checked` evaluation meets no fault, all three give the same number. Theorems
that say "exact arithmetic" are about `ideal` and transfer to the machine by
C45.

### Model files (definitions that stand for code)

| file in `lean/Verif/` | code |
|---|---|
| `Base` | values, `constexpr_arithmetic` (base/utility.hpp) |
| `StateList`, `State` | `state` as the list of items it is, with all operators (base/state.hpp); the finite map the structures use, and the proof that the list implements it |
| `Sig` | signatures, `replace`, `any_accept`, reassembly, unions (base/signature.hpp, extra/sig_utils.hpp, extra/traverser.hpp) |
| `Sem` | `scalar`, `tuple`, `vector`, `union_t`, `bcast`, `fix`, `set_length`, `shift`, `slice`, `span`, `step`, `reverse`, `reorder`, `hoist`, `rename`, `join`, `into_blocks`, `into_blocks_dynamic`, `into_blocks_static`, `merge_blocks`, `merge_zcurve` (structs/*.hpp) |
| `StateShortcuts` | shortcuts for states (extra/shortcuts.hpp:183-250) |
| `ZCurve`, `ZProto` | `zc_general`, `zc_special`, `maxlen_alignment` (structs/zcurve.hpp) |
| `Struct` | the grammar of compositions, `Struct.sem`, `state_at` |
| `Proto` | proto-structures, packs, `to_each`, `make_proto`, `compose_proto`, `operator^`, `order` (base/structs_common.hpp) |
| `Traverser` | dim trees, `for_each_impl`, `for_each`, `for_sections`, `for_dims`, `order` (base/utility.hpp, extra/traverser.hpp) |
| `Bags` | programs with bags: allocation, ownership, moving, copying, `get_ref`, `operator^` of bags (interop/bag.hpp, base/contain.hpp) |
| `Like` | `vectors`, `array`, `lengths_like`, `vectors_like`, `set_length(state)`, `bcast<ds...>(ls...)`, `fix_zeros` (extra/shortcuts.hpp), `sig_dim_seq` (extra/sig_utils.hpp) |
| `Shortcuts`, `IndexSpace` | `strip_mine`, `symmetric_span`, `neighbor`, `update_index`, `index_space_size` … (extra/shortcuts.hpp) |
| `Range`, `Reduce` | traverser ranges and iterators, TBB splitting, `tbb_for_each`, `std_*`, `omp_*`, `tbb_reduce` (interop/traverser_iter.hpp, tbb.hpp, omp.hpp, std_para.hpp) |
| `Planner`, `PlannerIter` | planners, endings, their ranges and iterators (extra/planner.hpp, interop/planner_iter.hpp, omp.hpp) |
| `Memory` | `get_at`, bags (extra/funcs.hpp, interop/bag.hpp) |
| `Matrix` | the functions of examples/matrix (matrix.cpp, noarr_matrix_functions.hpp) |
| `Program` | programs over several bags: `operator[]`, `length` (interop/bag.hpp), `for_each` with such a body |
| `Parallel` | such programs in several threads: the bodies that TBB, OpenMP and std::execution::par call (interop/tbb.hpp, omp.hpp, std_para.hpp) |
| `ReduceBags` | `tbb_reduce` into a bag, with the functions of the user as such programs (interop/tbb.hpp:43-109) |
| `CudaBags` | kernels as such programs; the matrix product of docs/Traverser.md (interop/cuda_traverser.cuh:168-215) |
| `BlockSum` | the vectorised sum of docs/structs/into_blocks.md as such a program |
| `Serialize` | `serialize_data`, `deserialize_data` (interop/serialize_data.hpp) |
| `Mangle`, `MangleStruct` | names of structures (extra/mangle.hpp); names of the structures of the model |
| `Striped` | `cuda_striped` (interop/cuda_striped.cuh) |
| `SubStruct` | `has_size`, `has_offset_of<Sub>`, `offset_of<Sub>`, `has_state_at<Sub>`, `state_at<Sub>` (base/structs_common.hpp and the classes) |
| `ScalarType` | `scalar_t`, `offset(state)`, `is_point`, `is_cube`, `HasDims` (extra/struct_traits.hpp, extra/funcs.hpp, extra/struct_concepts.hpp) |
| `Contain` | storage of parameters (base/contain.hpp); the other files hold parameters directly |
| `Cuda` | `cuda_step`, `cuda_fix`, `cuda_traverser` (interop/cuda_step.cuh, cuda_traverser.cuh) |
| `Along`, `OffsetAlong`, `LowerBound`, `Contiguous` | the introspection queries (introspection/*.hpp) |

### Specification files (used in statements only)

`Spec`, `TraverseSpec`, `OrderSpec`, `SectionSpec`, `FlatSpec`, `RangeSpec`,
`BoundsSpec`, `AliasSpec`, `SerializeSpec`, `ContigSpec`, `PlannerSpec`,
`PlannerIterSpec`, `BagsSpec`, `SubSpec`, `RoomSpec`, `ProgramSpec`, `ParallelSpec`, `Names`,
the beginning of `StaticLen`, and `Depend`. They speak about the query interface (lengths,
offsets, sizes, which indices a signature needs) or plain arithmetic. `Depend`
reads four sets of dimensions off the syntax: `hard` (tuple-like: the index
decides which dimensions exist), `soft` (length depends on other indices),
`drive` (the indices soft lengths depend on), `stale` (names that a view
replaced). Recurring hypotheses:

* `Struct.wf`: static assertions of the code hold (names differ, `rename` pairs
  are consistent); `Struct.noDup`: no dimension occurs twice;
* `Struct.tame`: views act on ordinary dimensions, names are not reused across
  the roles above; `Struct.sane`: restrictions on `reverse` and merging;
* `Struct.Pre`: the documented precondition of each view (window inside the
  length, index of `fix` in range, …) in the states a query goes through;
* `Struct.firm`, `Struct.exact`, `Struct.rigid`, `ConstIdx`: no run-time tuple
  index, no zero stride.

All other files (`*Lemmas`, `*Main`, `Valid*`, `Select*`, …) are proofs.
Property theorems are in `lean/Verif/Props/`, named `Cnn_…`, each followed by an
example that meets its hypotheses.

## 2. Trusted base

* The Lean 4.33.0 kernel. No axioms are added, there is no `sorry`, `admit`,
  `native_decide` or `bv_decide`. `#print axioms` of the property theorems
  shows at most `propext`, `Classical.choice` and `Quot.sound` (checked over
  the whole manifest).
* That the hand-written model follows the C++; every definition cites the lines
  it models. The mutation log `seeded/LOG.jsonl` records edits of the model and
  the theorems that notice them.
* Overload resolution, template instantiation and the C++ compiler are not
  modelled beyond "a violated constraint gives `none`".

## 3. Simplifications and parts not modelled

* `constexpr` evaluation, forwarding of references, conversion by `to_struct`,
  functions in `make_proto` that return a pack, GCC/MSVC work-arounds.
* `has_size`/`size` and `has_offset_of`/`offset_of` are one partial function
  each in `Struct.sem`, with `Sub` = the scalar at the bottom; `SubStruct` models
  them apart and for any `Sub`, and C57/C58 relate the two. `align` repeats no
  `requires has_size`. A type `Sub` is the set of the structures that have it.
* A loop of zero iterations is not checked to compile inside `for_each`; the
  `for_dims` theorem therefore has the hypothesis `Compiles`.
* In `if constexpr (A && B)` and `static_assert(A && B)` the second operand is
  instantiated even if the first is false; the model only asks for it if the first
  is true (`into_blocks_dynamic_t::has_length`, `reorder_t::has_length`). The model
  accepts more programs there, never fewer.
* In the path of a traversal (`walk`, `planWalk`) a dimension that is set twice
  occurs twice; in the state the later item replaces the earlier one. With
  distinct dimensions in the tree there is no difference.
* What a callback does is abstract, except in C72 to C84 and C87: `for_each` is the list of its calls. In
  `tbb_reduce` the user's functions have a fixed shape (`Reducer`: neutral
  element, accumulate at the visited index, join).
* TBB's scheduler is represented by: any tree of splits, any assignment of
  leaves to threads, any interleaving. OpenMP and `std::execution::par` by any
  interleaving of the items.
* Programs over bags (C72, C73) are trees of reads, writes and length queries; any
  function of the values may come between. What else a C++ program can do (throw,
  take references to elements, read uninitialised values) is not modelled.
* Threads (C74) start together, do not wait for each other, and execute one read, write
  or length query per step, in any interleaving. C++ guarantees such executions only for
  programs without data races; C74 proves that there are none. Different parts of a range
  are different threads; that TBB may give several to one thread is an interleaving, too.
* In C76 the threads of all the blocks of a launch are threads as in C74; the order of blocks, warps, and
  memory that is not shared by all threads are not part of the model.
* In C75 each thread has its copy of the output before it starts (TBB makes it when the thread first
  needs it), with any content; the copies are joined in the order of the threads after all of them are done.
* Memory is a map from addresses to bytes. Alignment of accesses is not part of
  it (C09 is about alignment).
* Bags: allocation succeeds, addresses are not reused, pointers point to the start
  of a block; of the container policies only `std::vector`.
* Stream operators of element types are parameters; integers and characters are
  instances, floating point is not modelled.
* `cuda_striped` is modelled as an outermost layer; `offset_of` non-scalars
  inside it is not. CUDA execution is "each thread of the grid runs the kernel
  once"; limits on grid and block sizes are not modelled.
* `fix(state)` on signatures is done all at once in the planner model.
* A negative result of stride arithmetic counts as a fault.
* `planner_std_execute` (calls `planner.begin()`, which `planner_t` does not
  have) and `planner_tbb_execute` (`tbb::parallel_for` over `planner_range_t`,
  which has no splitting constructor) do not compile and are not modelled.

## 4. Properties: what is proved and how

| id | modelled | proof |
|----|----------|-------|
| C01 | item lists: `with`, `remove`, `filter`, `get` | induction on the list; refinement to the finite map |
| C02 | `operator&` | characterisation of lookups |
| C03 | `+`, `-` with w-bit values | lookups, modular arithmetic |
| C04 | `==`, `<=`, `<` | lookups |
| C05 | all structures | induction on the structure: each view maps valid states to valid states (`Valid*`, `Bounds`, `Inside`) |
| C06 | all structures without `bcast`, `join` | induction: overlapping elements have equal indices (`Alias*`, `SizeDet`, `SigUniq`) |
| C07 | vectors | induction on the list of dimensions, mixed radix |
| C08 | tuples | induction on the fields; the documented size is refuted in general, proved for equal alignments (partial) |
| C09 | `align`, offsets | induction; `align` compiles only for equal alignments |
| C10 | all views | case analysis on the view, induction on compositions |
| C11-C20 | one class each | equations between queries, for an arbitrary sub-structure. C19 partial: the length of `join` under a fresh name is not available |
| C21-C24 | block views | Euclidean division, arbitrary sub-structure |
| C25 | `merge_zcurve` | induction on levels and dimensions |
| C26, C27 | `for_each` | induction on dim trees: complete, duplicate-free, sorted (`Traverse*`, `Grow`) |
| C28, C50 | orders | each view *selects* a part of the elements one-to-one (`Select*`, `OrderLemmas`) |
| C29 | `for_sections`, `for_dims` | trees made by filtering/reordering are trees for the signature (`Section*`) |
| C30 | `compose_proto`, packs, `to_each`, `make_proto`, `order` | equations, induction on proto-structures and lists |
| C31 | `union_t` | induction on the list of structures; refuted with tuples (partial) |
| C32, C33 | ranges, iterators, splits, `tbb_for_sections` | a range is the traverser with a slice, whose sections have the same queries as the items; induction on split trees |
| C34 | `tbb_reduce` | invariant over interleavings of reads and writes; races exist when the output accepts the *name* of the split dimension but not its meaning (partial) |
| C35 | planners | refinement to the nested loops that stop when a function is due; refuted for `bcast` and `into_blocks_dynamic` (partial) |
| C36 | memory, bags | C05, C06 |
| C37 | serialization | induction on visited states, also for input that ends early or is malformed; refuted for white-space characters (partial) |
| C38, C39 | `stride_along`, `is_uniform_along` | offsets are affine in the index of such a dimension; refuted for steps in other dimensions and merged dimensions (partial) |
| C40 | `offset_along` | same; refuted for sliced dimensions (partial) |
| C41 | `lower_bound_along`, `lower_bound_at` | offsets are monotone along `Struct.goes` dimensions; refuted elsewhere (partial) |
| C42 | `is_contiguous` | offsets fill a range when the given indices are those of outer dimensions, also with broadcast dimensions; what `is_contiguous` itself rules out needs no hypothesis; refuted elsewhere (partial) |
| C43 | `append_int`, names; names of all structures of the model | digits; texts are injective (unique parsing, by induction); refuted for negative numbers (partial) |
| C44 | `cuda_striped` | arithmetic of banks |
| C45 | the three `Arith` instances | a relation preserved by every query (`Machine*`) |
| C46 | `has_length`/`length` | structural induction; refuted for reversed tuples (partial) |
| C47 | lengths and sizes vs indices | structural induction with the sets of `Depend` |
| C48 | `index_space_size` | induction |
| C49 | `symmetric_span`, `neighbor` | arithmetic and C26 |
| C51 | planner ranges | an item is the planner with one index fixed (partial: nothing may be due before the first loop) |
| C52, C53 | `cuda_traverser`, `cuda_step` | C28: fixes, or steps, of all the threads partition the elements |
| C54 | storage of parameters: the choice of class, construction, `get`, `contain_cat` | induction over the list of types |
| C55 | `scalar_t`, `is_point`, `is_cube`, `HasDims`, computed from the signature | induction over structures: a view's signature path ends where the path of the structure below ends |
| C56 | C45's `checked` arithmetic; bounds on lengths (`Roomy`) and indices (`SizeRoom`) at all levels | lengths do not depend on ordinary indices (C47), so they are evaluated with these set to zero, where no sum overflows; offsets by the induction of C05 (`Room*`); `easy`: a condition on the views alone that implies `Roomy` |
| C57 | `offset_of<Sub>`, `state_at<Sub>` for any type `Sub`; spec: `locate`, the outermost `Sub` on the way to the element | induction over structures; bounds and disjointness by the inductions of C05 and C06, without the conditions on aliasing views |
| C58 (partial) | `has_size`, `has_offset_of`, `has_state_at` as separate functions | induction over structures; two violations |
| C59 (partial) | the numbers that views put into signatures (`Sig`), against `length`, in 64-bit arithmetic; spec: `Sig.find`, `Honest` | induction over structures: a static number on the path of the state is one that the structure below had, or one the view computed; violations for `span`, `step`, repeated `set_length`, reversed tuples |
| C60 | `vectors_like`, `lengths_like` as functions to proto-structures, `sig_dim_seq`; spec: `boxSize`, `rowMajor`, the states of `for_each` | the result as a list of `vector`s with `set_length`s, its lengths by induction over the list; traversal: the lengths of a tame, firm structure do not depend on the other indices, so both walks have the same lengths |
| C61 | `fix_zeros` on the tree of dimensions | the states of `for_each` are sorted by `PathLt`, and no path is before the one with zeros; without tuples the traversal is the whole box |
| C62 | programs as lists of `BagOp` on a heap of blocks and named bags; freeing a freed block is undefined behaviour in the model; spec: `World.Owns` | invariant by induction over programs: the blocks of the bags are those owned, and no block has two owners |
| C63 (partial) | the same; reading through a null or dangling pointer is undefined | case analysis of the operations; views by C30 (only views are added) and C36; violation: `^` of an rvalue of an owning bag |
| C64 (partial) | the index function of the curve with `size_t` arithmetic; `maxlen_alignment` | every intermediate result is bounded by the volume of a slab, by the invariant of C25; violations: the documented parameters for unknown bounds and for powers of two |
| C65 (partial) | `lit` / `dyn` values in all queries (`constexpr_arithmetic`) | no view turns a state of constants into one with a run-time value, by induction over structures; violations: `merge_zcurve`, the length of the presence dimension of `into_blocks_dynamic` |
| C66 | `idx`, `get_indices`, `filter_*`, `update_index`, `neighbor` on item lists | lookups of the results; `neighbor` against `+` and `-` (C03), and against the map version used in C49 |
| C67 | `dimSeqConcat`, `dimSeqFilter`, `DimTree.ofSeq`, `toSeq`, `filter`, `reorder`, `Sig.seq`, `Sig.tree` | lists of dimensions; the ways from the root to the leaves (`DimTree.ways`) |
| C68 | the `sig` of `Struct.sem`, `Sig.replace`, `Sig.reassemble` | the ways through a signature and the edit of a way by each view (`SigSpec.lean`) |
| C69 | `Struct.hasLower`, `lower`, `lowerAt` | `has_length` and whether the state has an index; the queries have a value |
| C70 | `noarrMultiply`, `noarrTranspose`, …, `matrixDemo` over `Bag.get`/`Bag.set` | functions `Nat → Nat → R` and a recursive sum |
| C71 | all queries of `Struct.sem`, `Struct.getAt`, `Struct.setAt` | `Struct.names` (a recursion over the structure that uses no query), equality of states on a set of names |
| C72 | `Prog.run` with `Bag.get`, `Bag.set`, `Bag.lengthAt` | plain arrays (`Arrays`, functions from indices to bytes), `Space`, the relation `Prog.Yields` |
| C73 | `Traverser.forEachProg`, `accumulate`, `assign`, `addProduct` | `foldAt`, `Arrays.accumulated`, sums over a range |
| C74 | `Execution` (interleavings of `Prog.step`), `Access.conflicts`, `SplitTree.leaves`, `itemsForEach` | `Prog.Uses` (elements that a program uses without any layout), `NoConflict`, `Merged`; the sequential `Prog.run` |
| C75 | `TbbReduceBags`, `ParallelFor`, `BagReducer`, `Bags.withCopies` | `Arrays.accumulated` (`foldAt`: a loop over all states), `addTimes`, `List.count`; `Reduces` for what the user has to provide |
| C76 | `CudaTraverser.launch`, `CudaTraverser.launchDims`, `reduceKernel`, `product` | `Execution` (C74), a sum as a loop over `List.range`, floor division for the whole blocks |
| C77 | `blockSum` (`Traverser.forEachProg`, `Prog.foldOver`) over `inBlocks`, `arrayOf` | sums over `List.range` filtered by the remainder; `List.foldl` |
| C78 | `forEachProg` of `t.order [cudaStep d rank n]` for each rank, as threads (`Execution`, `ParallelFor`) | the loop in one thread; lists of numbers |
| C79 | `TbbReduceBags` with the functions `sums` | sums of rows and of columns, as folds over numbers |
| C80 | `Bag.apply` with `rename`, and the loops of C73 over such bags | the contents under the old names; the matrix product as a fold over numbers |
| C81 | `Bag.apply` with views that show a part, and programs over such bags | `Shows`: the indices that a view shows; `Prog.through`: the program with other indices |
| C82 | `Traverser` with `set_length` as its order, and programs over bags without lengths | `State.passLens`: the state with lengths |
| C83 | `paddedBlocks`, `paddedTiles`, `wholeBlocks`, `simpleMatrix`: the structures of docs/structs/merge_blocks.md | places as sums of quotients and remainders, `Space.matrix` |
| C84 | `inRounds`: `bcast` with a length, as the structure of a traverser | `List.flatMap` over the rounds, `Prog.times`, `Nat.repeat` |
| C85 | `arrayOver`: nested vectors; `order`, `hoist`, `for_dims`, `for_each` as before | `nestedLoops`: loops over a list of dimensions; `hoisted`: the order after putting dimensions first |
| C86 | `Tiling.views`: `into_blocks` with a block size, and `hoist`, as orders or views of `arrayOver` | `nestedLoops` over `tiledDims` with `tiledLengths`; `tiledBack`: block · size + index |
| C87 | `union` of arrays as the base of a traverser with `Tiling.views` as order; the loop body `addProduct` as in C73 | `jointDims`: new dimensions in front; `nestedLoops`; `OnBox`; a sum over `List.range` |

## 5. Where the code and the properties disagree

Each with a proved witness (theorem in brackets) unless marked "note".

Layouts
* A tuple's size is padded to its alignment while `offset` of fields is not:
  documented "no padding" is false [C08_padding_violates]; with mixed
  alignments `align` does not compile and fields may be misaligned
  [C09_mixed_tuple_has_no_align].
* `has_size` is true for tuples of such tuples, of which `size` does not compile
  [C58_has_size_violated]; `has_offset` is true although the size of another part
  that the offset needs is unknown [C58_has_offset_violated,
  C58_has_offset_violated_items].

Views
* `reverse` applied to `major` of `into_blocks_dynamic` goes out of bounds
  [C05_reversed_dynamic_blocks_violate]; a reversed tuple dimension reports
  wrong lengths [C16_reversed_tuple_reports_wrong_length,
  C46_reversed_tuple_violates], because `reverse_t::length` of another dimension
  uses the un-reversed state.
* `merge_blocks` with a given length over a tuple aliases
  [C06_merged_tuple_aliases]; with a length not divisible it leaves the range
  [C05_merge_blocks_needs_divisibility].
* `slice` does not check its window [C05_slice_needs_window].
* `join` with a fresh name has no length [C19_new_name_has_no_length], hence
  cannot be traversed. Note: it removes only the first of the two joined
  dimensions from the signature.
* `rename`: the old name is not a dimension any more, but still answers length
  queries [C17_old_name_still_answers].
* `merge_zcurve` with the documented `MaxLen` of 2^63 ("cannot promise any bound") overflows: an 8 x 12 matrix starts
  outside of its memory [C64_unbounded_length_violates]. With the documented `Alignment = MaxLen` for lengths that are
  powers of two, indices repeat if the lengths differ [C64_powers_of_two_violates], and the shift is undefined if
  `Alignment` to the power of the number of dimensions is at least 2^32 [C64_large_alignment_violates].
* `merge_zcurve` turns constants into run-time values: offsets at constant indices and the length of the merged
  dimension [C65_zcurve_violates]; so does the length of the presence dimension of `into_blocks_dynamic`
  [C65_presence_violates].
* `merge_zcurve` of one dimension is undefined behaviour
  [C25_single_dimension_is_undefined]; unaligned lengths leave the range
  [C25_needs_alignment]. Note: `1U << SpecialLevel * NDims` is undefined from 32
  bits on, and the half-volume overflows for `MaxLen = 2^63`.
* The static length in the type is wrong after `span` (it is the end) and `step`
  (it is the stride) with constants [C59_span_type_is_end,
  C59_step_type_is_stride], after a second `set_length`
  [C59_second_set_length_changes_type_only], and for fields of a reversed tuple
  [C59_reversed_tuple_lengths]; it is static for a `merge_zcurve` whose length is
  not a constant [C59_zcurve_length_not_constant].
* Notes: `step` and `span` wrap when the start exceeds the length; `into_blocks`
  drops the tail and divides by a zero block length; the innermost of several
  `set_length` wins; `0 / x` and `0 % x` are the constant 0 even for `x = 0`;
  `bcast` with an existing name duplicates the dimension; `merge_blocks` of two
  dimensions that are not on the same path drops one silently.

Composition
* `pack(a, b) ^ (to_each(p) ^ q)` does not compile, `pack(a, b) ^ to_each(p) ^ q`
  does [C30_each_in_a_composition].

Traversal
* Traversing structures together, when a tuple's fields share a dimension with
  another structure, is wrong [C31_tuple_with_shared_dimension_violates].
* `index_space_size` does not compile for vectors in tuples
  [C48_not_for_vectors_in_tuples]; `symmetric_span` wraps for a margin above
  half of the length [C49_margin_above_half_wraps].
* Note: `for_sections` over a dimension above a tuple with at least two fields
  does not compile.

Planners
* `into_blocks_dynamic` calls functions for absent elements, a broadcast
  dimension is skipped, sections over an inner dimension are repeated, tuples do
  not compile [C35_…]; the items of a range repeat a call that is due before the
  first loop [C51_called_before_the_loop].

Parallel execution
* `tbb_reduce` shares the output among threads when the output structure accepts
  the *name* of the split dimension; it races for an order that reuses a name
  [C34_shared_output_races], and for an output whose index depends on data, such as a histogram,
  if its dimension has the same name [C75_same_dimension_races].
* CUDA grid dimensions are truncated to 32 bits [C52_…]. A kernel over `into_blocks` leaves the
  elements beyond the last whole block as they were [C76_matrix_product].

Introspection
* `stride_along` is multiplied by steps of other dimensions, wraps along blocks
  of reversed dimensions, exists for fixed dimensions [C38_…]; merged dimensions
  count as uniform [C39_…]; `offset_along` of a sliced dimension is not zero at
  index 0, and answers for renamed-away names [C40_…]; `lower_bound_along` is
  wrong for dimensions reversed twice, shifts of reversed ones, blocks of slices,
  merged ranges [C41_…]; `is_contiguous` ignores slices, given and fixed inner
  indices, incomplete blocks and gaps in tuples [C42_…].

Bags
* `std::move(bag) ^ p` of an owning bag, which docs/BasicUsage.md allows, does not
  compile for `unique_ptr` and copies the data of a vector: `contain::get` returns
  `const T &` only, so that `std::move` of it is a `const T &&`
  [C63_rvalue_view_of_an_owner_violates,
  C63_rvalue_view_of_a_vector_copies_violates].
* The elements of `make_vector_bag` cannot be assigned: `data()` is `const` and
  gives `const char *` [C63_vector_bags_are_read_only].

Other
* `mangle` drops the last digit of negative numbers, so names collide [C43_…].
* `mangle` names integral types by size and signedness only: `bool` and `unsigned char`, `long` and `long long` share
  names [C43_integer_types_collide]. Structures with dimensions that are not characters or constants of 2^31 or more, and
  unions, do not compile with `mangle`.
* `deserialize_data` skips white space [C37_white_space_violates].
* `+` and `-` of states compile for constants, but ignore the right operand: `idx<'x'>(lit<1>) + idx<'x'>(lit<2>)` and
  `-idx<'x'>(lit<1>)` are `idx<'x'>(lit<1>)`, since the constructor of `contain` for an empty type ignores its argument
  [C03_constants_are_kept, C03_constants_are_not_added].
* Note: `cuda_striped_t::align` is ill-formed.
