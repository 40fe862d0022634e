import Verif.Planner

/-
Ranges and iterators of planners (interop/planner_iter.hpp), and their execution in parallel
(interop/omp.hpp).
-/

namespace Noarr

/-- `planner_range_t<Dim, Union, Order, Ending>` (interop/planner_iter.hpp:154-191). The bounds are of type
`size_t`; they are numbers here, with `lo ≤ hi` in all uses. -/
structure PlanRange where
  dim : Dim
  planner : Planner
  lo : Nat
  hi : Nat

/-- `range(planner)` (interop/planner_iter.hpp:266-276): over the top dimension, which must not be a
tuple (`traviter_top_dim`, interop/traverser_iter.hpp:227-245), from zero to its length. -/
def Planner.range (A : Arith) (p : Planner) : Option PlanRange :=
  match (p.top.sem A).sig with
  | .fn d _ _ => do
    let l ← (p.top.sem A).len d .empty
    let n ← l.nat?
    some ⟨d, p, 0, n⟩
  | _ => none

namespace PlanRange

/-- `planner_range_t::as_planner` (interop/planner_iter.hpp:208-213). -/
def asPlanner (r : PlanRange) : Planner :=
  r.planner.order [.slice r.dim (.dyn r.lo) (.dyn (r.hi - r.lo))]

/-- `planner_range_t::order` (interop/planner_iter.hpp:193-200). -/
def order (r : PlanRange) (vs : List View) : Planner :=
  r.planner.order (.slice r.dim (.dyn r.lo) (.dyn (r.hi - r.lo)) :: vs)

/-- `planner_range_t::operator[]` (interop/planner_iter.hpp:260-263). -/
def item (r : PlanRange) (i : Nat) : Planner := r.planner.order [.fix r.dim (.dyn (r.lo + i))]

/-- `planner_range_t::size` (interop/planner_iter.hpp:255-258). -/
def size (r : PlanRange) : Nat := r.hi - r.lo

end PlanRange

/-- `planner_iterator_t<Dim, Union, Order, Ending>` (interop/planner_iter.hpp:20-64). The index is of type
`size_t`, with `w` bits; a difference (`ptrdiff_t`) is given by its two's complement representation. -/
structure PlanIter (w : Nat) where
  dim : Dim
  planner : Planner
  idx : BitVec w

namespace PlanIter
variable {w : Nat}

/-- `operator-` of two iterators (interop/planner_iter.hpp:81-84). -/
def diff (a b : PlanIter w) : BitVec w := a.idx - b.idx

/-- `operator+` with a difference, `+=` (interop/planner_iter.hpp:86-89, 96-99, 148-151). -/
def plus (a : PlanIter w) (n : BitVec w) : PlanIter w := { a with idx := a.idx + n }

/-- `operator-` with a difference, `-=` (interop/planner_iter.hpp:91-94, 101-104). -/
def minus (a : PlanIter w) (n : BitVec w) : PlanIter w := { a with idx := a.idx - n }

/-- `operator++` (interop/planner_iter.hpp:106-109, 116-120). -/
def inc (a : PlanIter w) : PlanIter w := { a with idx := a.idx + 1 }

/-- `operator--` (interop/planner_iter.hpp:111-114, 122-126). -/
def dec (a : PlanIter w) : PlanIter w := { a with idx := a.idx - 1 }

/-- `operator==` (interop/planner_iter.hpp:128-131). -/
def eq (a b : PlanIter w) : Bool := a.idx == b.idx

/-- `operator<=>`, as "less than" (interop/planner_iter.hpp:133-136). -/
def lt (a b : PlanIter w) : Bool := a.idx.ult b.idx

/-- `operator*` (interop/planner_iter.hpp:138-141). -/
def deref (a : PlanIter w) : Planner := a.planner.order [.fix a.dim (.dyn a.idx.toNat)]

/-- `operator[]` (interop/planner_iter.hpp:143-146). -/
def get (a : PlanIter w) (i : BitVec w) : Planner := a.planner.order [.fix a.dim (.dyn (a.idx + i).toNat)]

end PlanIter

/-- `planner_range_t::begin` (interop/planner_iter.hpp:235-238). -/
def PlanRange.begin (w : Nat) (r : PlanRange) : PlanIter w := ⟨r.dim, r.planner, BitVec.ofNat w r.lo⟩

/-- `planner_range_t::end` (interop/planner_iter.hpp:240-243). -/
def PlanRange.end (w : Nat) (r : PlanRange) : PlanIter w := ⟨r.dim, r.planner, BitVec.ofNat w r.hi⟩

/-- `planner | planner_omp_execute()` (interop/omp.hpp:37-43), with `begin(planner)` and `end(planner)`
(interop/planner_iter.hpp:278-289): the items of the range are executed, in parallel. What each of them
calls. -/
def Planner.ompExecute (A : Arith) (p : Planner) : Option (List (List (Body × Planner))) := do
  let r ← p.range A
  (List.range r.size).mapM fun i => (r.item i).execute A

end Noarr
