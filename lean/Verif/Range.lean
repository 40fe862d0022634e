import Verif.Traverser

/-
Ranges and iterators of traversers (interop/traverser_iter.hpp), and the splitting of ranges
(interop/tbb.hpp).
-/

namespace Noarr

/-- `traverser_range_t<Dim, Struct, Order>` (interop/traverser_iter.hpp:133-144). The bounds are of
type `size_t`; they are numbers here, with `lo ≤ hi` in all uses. -/
structure Range where
  dim : Dim
  base : Struct
  views : List View
  lo : Nat
  hi : Nat

/-- `traverser_t::range()` (interop/traverser_iter.hpp:227-260): over the top dimension, which must not
be a tuple, from zero to its length. -/
def Traverser.range (A : Arith) (t : Traverser) : Option Range :=
  match (t.top.sem A).sig with
  | .fn d _ _ => do
    let l ← (t.top.sem A).len d .empty
    let n ← l.nat?
    some ⟨d, t.base, t.views, 0, n⟩
  | _ => none

namespace Range

/-- `traverser_range_t::as_traverser` (interop/traverser_iter.hpp:170-174); `order(neutral_proto())`
is the same. -/
def asTraverser (r : Range) : Traverser :=
  ⟨r.base, r.views ++ [.slice r.dim (.dyn r.lo) (.dyn (r.hi - r.lo))]⟩

/-- `traverser_range_t::order` (interop/traverser_iter.hpp:156-163). -/
def order (r : Range) (vs : List View) : Traverser :=
  ⟨r.base, r.views ++ .slice r.dim (.dyn r.lo) (.dyn (r.hi - r.lo)) :: vs⟩

/-- `traverser_range_t::for_each` (interop/traverser_iter.hpp:165-168). -/
def forEach (A : Arith) (r : Range) : Option (List State) := r.asTraverser.forEach A []

/-- `traverser_range_t::operator[]` (interop/traverser_iter.hpp:221-224). -/
def item (r : Range) (i : Nat) : Traverser := ⟨r.base, r.views ++ [.fix r.dim (.dyn (r.lo + i))]⟩

/-- `traverser_range_t::size` (interop/traverser_iter.hpp:216-219). -/
def size (r : Range) : Nat := r.hi - r.lo

/-- `traverser_range_t::empty` (interop/traverser_iter.hpp:178-181). -/
def empty (r : Range) : Bool := r.hi == r.lo

/-- `traverser_range_t::is_divisible` (interop/traverser_iter.hpp:183-186). -/
def isDivisible (r : Range) : Bool := decide (r.hi - r.lo > 1)

/-- The splitting constructor (interop/tbb.hpp:20-28): the original range, which is shortened, and the
new one. -/
def split (r : Range) : Range × Range :=
  let mid := r.lo + (r.hi - r.lo) / 2
  ({ r with hi := mid }, { r with lo := mid })

end Range

/-- `traverser_iterator_t<Dim, Struct, Order>` (interop/traverser_iter.hpp:19-28). The index is of type
`size_t`, with `w` bits; a difference (`ptrdiff_t`) is given by its two's complement representation. -/
structure Iter (w : Nat) where
  dim : Dim
  base : Struct
  views : List View
  idx : BitVec w

namespace Iter
variable {w : Nat}

/-- `operator-` of two iterators (interop/traverser_iter.hpp:60-63). -/
def diff (a b : Iter w) : BitVec w := a.idx - b.idx

/-- `operator+` with a difference, `+=` (interop/traverser_iter.hpp:65-68, 75-78, 127-130). -/
def plus (a : Iter w) (n : BitVec w) : Iter w := { a with idx := a.idx + n }

/-- `operator-` with a difference, `-=` (interop/traverser_iter.hpp:70-73, 80-83). -/
def minus (a : Iter w) (n : BitVec w) : Iter w := { a with idx := a.idx - n }

/-- `operator++` (interop/traverser_iter.hpp:85-88, 95-99). -/
def inc (a : Iter w) : Iter w := { a with idx := a.idx + 1 }

/-- `operator--` (interop/traverser_iter.hpp:90-93, 101-105). -/
def dec (a : Iter w) : Iter w := { a with idx := a.idx - 1 }

/-- `operator==` (interop/traverser_iter.hpp:107-110). -/
def eq (a b : Iter w) : Bool := a.idx == b.idx

/-- `operator<=>`, as "less than" (interop/traverser_iter.hpp:112-115). -/
def lt (a b : Iter w) : Bool := a.idx.ult b.idx

/-- `operator*` (interop/traverser_iter.hpp:117-120). -/
def deref (a : Iter w) : Traverser := ⟨a.base, a.views ++ [.fix a.dim (.dyn a.idx.toNat)]⟩

/-- `operator[]` (interop/traverser_iter.hpp:122-125). -/
def get (a : Iter w) (i : BitVec w) : Traverser :=
  ⟨a.base, a.views ++ [.fix a.dim (.dyn (a.idx + i).toNat)]⟩

end Iter

/-- `traverser_range_t::begin` (interop/traverser_iter.hpp:196-199). -/
def Range.begin (w : Nat) (r : Range) : Iter w := ⟨r.dim, r.base, r.views, BitVec.ofNat w r.lo⟩

/-- `traverser_range_t::end` (interop/traverser_iter.hpp:201-204). -/
def Range.end (w : Nat) (r : Range) : Iter w := ⟨r.dim, r.base, r.views, BitVec.ofNat w r.hi⟩

/-- `omp_for_each` and `std_for_each` (interop/omp.hpp:17-23, interop/std_para.hpp:14-17), with `begin()` and
`end()` of the traverser (interop/traverser_iter.hpp:262-276): the items of the range are traversed in
parallel. The states each of them visits. -/
def Traverser.itemsForEach (A : Arith) (t : Traverser) : Option (List (List State)) := do
  let r ← t.range A
  (List.range r.size).mapM fun i => (r.item i).forEach A []

/-- `omp_for_sections` and `std_for_sections` (interop/omp.hpp:25-31, interop/std_para.hpp:19-22): the
traversers the function is called with, in parallel. -/
def Traverser.itemSections (A : Arith) (t : Traverser) : Option (List Traverser) := do
  let r ← t.range A
  some ((List.range r.size).map r.item)

/-- `traverser_t::range<Dim>()` (interop/traverser_iter.hpp:247-253): over any dimension, whose length must
not depend on an index. -/
def Traverser.rangeAlong (A : Arith) (t : Traverser) (d : Dim) : Option Range := do
  let l ← (t.top.sem A).len d .empty
  let n ← l.nat?
  some ⟨d, t.base, t.views, 0, n⟩

/-- The body of `tbb_for_sections` for a part of the range (interop/tbb.hpp:35-41): the traversers the function
is called with. -/
def Range.sections (A : Arith) (r : Range) : Option (List Traverser) := r.asTraverser.forSections A [r.dim]

/-- How `tbb::parallel_for` splits a range: into leaves, each given to the body once, or into two
parts each of which is split further. The scheduler of TBB is not modelled: a theorem for all split
trees holds for whatever it does. -/
inductive SplitTree
  | leaf
  | node (l r : SplitTree)

/-- The leaf ranges of a split tree; `none` if a range that is not divisible would be split, which TBB
never does. -/
def SplitTree.leaves : SplitTree → Range → Option (List Range)
  | leaf, r => some [r]
  | node a b, r =>
    if r.isDivisible then do
      let l ← a.leaves r.split.1
      let l' ← b.leaves r.split.2
      some (l ++ l')
    else none

end Noarr
