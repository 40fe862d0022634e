import Verif.Proto

/-
`merge_zcurve<Dims..., Dim>::maxlen_alignment<MaxLen, Alignment>()`.
-/

namespace Noarr

/-- `std::popcount` of a `size_t`. -/
def popcount (n : Nat) : Nat := (List.range 64).countP n.testBit

/-- `std::countr_zero` of a `size_t`. -/
def countrZero (n : Nat) : Nat := ((List.range 64).find? n.testBit).getD 64

/-- `merge_zcurve<AllDims...>::maxlen_alignment<MaxLen, Alignment>()` (structs/zcurve.hpp:118-128, 277-322): the last
dimension is the new one; the parameters are powers of 2. -/
def maxlenAlignment (all : List Dim) (maxLen alignment : Nat) : Option Proto :=
  match all.reverse with
  | [] => none
  | d :: ds =>
    if popcount maxLen = 1 ∧ popcount alignment = 1 then
      some (.view (.mergeZ (countrZero alignment) (countrZero maxLen) ds.reverse d))
    else none

end Noarr
