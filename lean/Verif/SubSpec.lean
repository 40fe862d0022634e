import Verif.SubStruct

/-
Notions used in the statements about the queries of sub-structures and their availability (C57, C58).
-/

namespace Noarr
namespace Struct

/-- The outermost structure with the type `Sub` on the way from `s` to the element in state `st`, and the
state in which it is queried there: tuples and vectors drop their own index (and length), views translate
the state. -/
def locate (A : Arith) (is : Struct → Bool) : Struct → State → Option (Struct × State)
  | scalar z a, st => if is (scalar z a) then some (scalar z a, st) else none
  | tuple t n fs, st =>
    if is (tuple t n fs) then some (tuple t n fs, st)
    else match st (.idx t) with
      | some (.lit k) => if h : k < n then (fs ⟨k, h⟩).locate A is (st.remove (.idx t)) else none
      | _ => none
  | vector d s, st =>
    if is (vector d s) then some (vector d s, st) else s.locate A is (st.removeAll [.idx d, .len d])
  | union n ss, st => if is (union n ss) then some (union n ss, st) else none
  | view v s, st =>
    if is (view v s) then some (view v s, st)
    else ((v.sem A (s.sem A)).sub st).bind fun u => s.locate A is u

/-- The type `Sub` is that of the scalar at the bottom. -/
def isScalar : Struct → Bool
  | scalar _ _ => true
  | _ => false

/-- The alignment, if it is the same for all the elements. -/
def oneAlign : Struct → Option Nat
  | scalar _ a => some a
  | tuple _ n fs =>
    match n, fs with
    | 0, _ => none
    | _ + 1, fs => if ∀ i, (fs i).oneAlign = (fs 0).oneAlign then (fs 0).oneAlign else none
  | vector _ s => s.oneAlign
  | union _ _ => none
  | view _ s => s.oneAlign

/-- The fields of tuples have alignments that can be queried: in none of them are elements of different
alignments. -/
def evenFields : Struct → Prop
  | scalar _ _ => True
  | tuple _ _ fs => ∀ i, (fs i).evenFields ∧ (fs i).oneAlign.isSome
  | vector _ s => s.evenFields
  | union _ _ => True
  | view _ s => s.evenFields

end Struct
end Noarr
