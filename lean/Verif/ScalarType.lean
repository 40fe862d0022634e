import Verif.SubStruct
import Verif.Traverser

/-
The type of the elements, and the classes of structures (extra/struct_traits.hpp). They are computed from
the signature of a structure, while the queries of sizes and offsets go through its classes.
-/

namespace Noarr

/-- `sig_get_scalar<Signature, State>` (extra/struct_traits.hpp:53-75). The type is represented by its size.
`none`: the index of a tuple is missing, not a constant, or out of range; or the type is `void`
(after an incomplete `reorder`), of which there is no `scalar`. -/
def Sig.scalarAt : Sig → State → Option Nat
  | .scalar e, _ => some e
  | .void, _ => none
  -- lines 56-59
  | .fn d _ r, st => r.scalarAt (st.removeAll [.idx d, .len d])
  -- lines 61-70
  | .dep d n rs, st =>
    match litIdx n (st (.idx d)) with
    | some k => (rs k).scalarAt (st.removeAll [.idx d, .len d])
    | none => none
  | .ill, _ => none

/-- `scalar_t<Struct, State>` (extra/struct_traits.hpp:82-83). -/
def Struct.scalarT (A : Arith) (s : Struct) (st : State) : Option Nat := (s.sem A).sig.scalarAt st

/-- `s | offset(state)` (extra/funcs.hpp:81-87) and the offset in `get_at` (extra/funcs.hpp:146-152):
`offset_of<scalar<scalar_t<Struct, State>>>(structure, state)`. That compiles if the element that the state
leads to is of that type (base/structs_common.hpp:153-169, 195-215). -/
def Struct.offsetT (A : Arith) (s : Struct) (st : State) : Option Val := do
  let t ← s.scalarT A st
  let e ← (s.sem A).elem st
  if t = e then (s.sem A).off st (.lit 0) else none

/-- `sig_is_point` (extra/struct_traits.hpp:12-18). -/
def Sig.isPoint : Sig → Bool
  | .scalar _ => true
  | .void => true
  | _ => false

/-- `is_point` (extra/struct_traits.hpp:25-26). -/
def Struct.isPoint (A : Arith) (s : Struct) : Bool := (s.sem A).sig.isPoint

/-- `sig_is_cube` (extra/struct_traits.hpp:28-37). -/
def Sig.isCube : Sig → Bool
  | .scalar _ => true
  | .void => true
  | .fn _ _ r => r.isCube
  | .dep _ _ _ => false
  | .ill => false

/-- `is_cube` (extra/struct_traits.hpp:45-51). A `requires`: `false` if there is no `has_size`. -/
def Struct.isCube (A : Arith) (s : Struct) : Bool :=
  (s.sem A).sig.isCube && s.hasSize A .empty == some true

/-- `HasDims<T, Dims...>` (extra/struct_concepts.hpp:12-27), for a structure `T`; for a bag or a pack of one structure,
`to_struct<T>` gives that structure (extra/to_struct.hpp:28-43, interop/bag.hpp:263-268). -/
def Struct.hasDims (A : Arith) (s : Struct) (ds : List Dim) : Bool :=
  ds.all fun d => (s.sem A).sig.tree.contains d

end Noarr
