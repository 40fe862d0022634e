import Verif.Traverser

/-
Sequences of dimensions, and the trees of dimensions that are made of them.
-/

namespace Noarr

/-- `dim_sequence<Dims...>::contains` and `in_dim_sequence<Dims...>::value` (base/utility.hpp:69-71, 94-102, 116-126). -/
def dimSeqContains (q : Dim) : List Dim → Bool
  | [] => false
  | d :: ds => q == d || dimSeqContains q ds

/-- `dim_sequence_concat_impl` (base/utility.hpp:165-176). A pack of no sequences does not compile. -/
def dimSeqConcat : List (List Dim) → Option (List Dim)
  | [] => none
  | [a] => some a
  | a :: b :: l => dimSeqConcat ((a ++ b) :: l)
termination_by l => l.length

/-- `dim_sequence_filter` (base/utility.hpp:178-197, 366-367). -/
def dimSeqFilter (keep : Dim → Bool) : List Dim → Option (List Dim)
  | [] => some []
  | d :: ds => do
    let r ← dimSeqFilter keep ds
    if keep d then dimSeqConcat [[d], r] else some r

namespace DimTree

/-- `dim_tree_from_sequence` (base/utility.hpp:319-330, 380-381). -/
def ofSeq : List Dim → DimTree
  | [] => .leaf
  | d :: ds => .node d 1 fun _ => ofSeq ds

/-- `dim_tree_to_sequence` (base/utility.hpp:332-345, 383-384): there must be one branch in every dimension. -/
def toSeq : DimTree → Option (List Dim)
  | leaf => some []
  | node d n bs => if h : n = 1 then do
      let r ← (bs ⟨0, by omega⟩).toSeq
      dimSeqConcat [[d], r]
    else none
  | bad => none

/-- Does the type compile? -/
def sound : DimTree → Prop
  | leaf => True
  | node _ _ bs => ∀ i, (bs i).sound
  | bad => False

/-- The ways from the root to the leaves, from left to right: the dimensions on the way and the branches taken. -/
def ways : DimTree → List (List (Dim × Nat))
  | leaf => [[]]
  | node d n bs => (List.finRange n).flatMap fun i => (bs i).ways.map ((d, i.val) :: ·)
  | bad => []

end DimTree

end Noarr
