import Verif.Traverser

/-
Memory blobs and bags (extra/funcs.hpp, interop/bag.hpp).
-/

namespace Noarr

/-- A blob of memory. -/
abbrev Mem := List UInt8

/-- Why there is no result: the code does not compile, or its behaviour is undefined. -/
inductive Fail
  | ill
  | ub
deriving DecidableEq, Repr

/-- The offset and the number of bytes of the element that `get_at(ptr, state)` refers to
(extra/funcs.hpp:146-152): `offset_of<scalar<type>>`, where `type` is `scalar_t<Struct, State>`, the type of
the element (C55). An offset that is not a number (an unsigned subtraction wrapped around, a division by zero)
counts as undefined behaviour. -/
def Struct.place (A : Arith) (s : Struct) (st : State) : Except Fail (Nat × Nat) :=
  match (s.sem A).elem st, (s.sem A).off st (.lit 0) with
  | some e, some o => match o.nat? with
    | some k => .ok (k, e)
    | none => .error .ub
  | _, _ => .error .ill

/-- Reading `s | get_at(ptr, state)`, or `bag[state]` (extra/funcs.hpp:117-152, interop/bag.hpp:181-185):
`sub_ptr` adds the offset to the pointer. Reading outside of the blob is undefined. The value of a
scalar is represented by its bytes. The alignment of the place is not looked at (see C09). -/
def Struct.getAt (A : Arith) (s : Struct) (m : Mem) (st : State) : Except Fail (List UInt8) := do
  let (k, e) ← s.place A st
  if k + e ≤ m.length then .ok ((m.drop k).take e) else .error .ub

/-- Assigning to `s | get_at(ptr, state)`, or `bag[state]` (extra/funcs.hpp:117-152,
interop/bag.hpp:181-185). The value has the size of the scalar type, by the type system. -/
def Struct.setAt (A : Arith) (s : Struct) (m : Mem) (st : State) (b : List UInt8) : Except Fail Mem := do
  let (k, e) ← s.place A st
  if b.length ≠ e then .error .ill
  else if k + e ≤ m.length then .ok (m.take k ++ b ++ m.drop (k + e)) else .error .ub

/-- `bag_t::at<Dims...>(idxs...)` and `get_at<Dims...>(ptr, idxs...)` (interop/bag.hpp:169-174,
extra/funcs.hpp:160-164): the state with the given indices. -/
def State.withAll (st : State) (is : List (Dim × Val)) : State :=
  is.foldl (fun st di => st.set (.idx di.1) di.2) st

/-- A bag: a structure and the blob it describes (interop/bag.hpp:107-127). -/
structure Bag where
  structure_ : Struct
  data : Mem

/-- `make_bag(s)`, `make_vector_bag(s)` (interop/bag.hpp:121, 310-335): as many bytes as
`s | get_size()`, all of them zero (`std::make_unique<char[]>`, `std::vector<char>(size)`). The
allocation succeeds. -/
def makeBag (A : Arith) (s : Struct) : Except Fail Bag :=
  match (s.sem A).size .empty with
  | some v => match v.nat? with
    | some n => .ok ⟨s, List.replicate n 0⟩
    | none => .error .ub
  | none => .error .ill

/-- `bag ^ proto` for views (interop/bag.hpp:243-257): the data stay, the structure is wrapped. -/
def Bag.apply (b : Bag) (vs : List View) : Bag := ⟨b.structure_.apply vs, b.data⟩

/-- Reading `bag[state]` (interop/bag.hpp:181-185). -/
def Bag.get (A : Arith) (b : Bag) (st : State) : Except Fail (List UInt8) := b.structure_.getAt A b.data st

/-- Assigning to `bag[state]` (interop/bag.hpp:181-185). -/
def Bag.set (A : Arith) (b : Bag) (st : State) (x : List UInt8) : Except Fail Bag := do
  .ok { b with data := ← b.structure_.setAt A b.data st x }

end Noarr
