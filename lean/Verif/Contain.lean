/-
The storage of the parameters of structures, states, packs and proto-structures: `contain<TS...>`.

Models: include/noarr/structures/base/contain.hpp.
-/

namespace Noarr

/-- A type of a contained field. All that `contain` looks at is `std::is_empty_v<T>`. An empty type (a
constant `std::integral_constant<size_t, n>`, or a structure all of whose parameters are such) is given by
a name, others by the same constructor. -/
inductive CType
  | empty (name : Nat)
  | full
deriving DecidableEq, Repr

/-- `std::is_empty_v<T>` -/
def CType.isEmpty : CType → Bool
  | empty _ => true
  | full => false

/-- A value of a contained field. An empty type has one value, which is `T()`. -/
inductive CVal (α : Type)
  | unit (name : Nat)
  | val (a : α)
deriving DecidableEq, Repr

/-- The type of a value. -/
def CVal.type {α : Type} : CVal α → CType
  | unit n => .empty n
  | val _ => .full

/-- An object of class `contain_impl<TS...>` (base/contain.hpp:24-140).
* `nothing`: no base, no data members;
* `single t_`: the data member of `contain_impl<T>` (lines 113-132);
* `inherit b`: the base class only (lines 72-93);
* `append b t_`: the base class and a data member (lines 49-70);
* `pair t_ ts_`: two data members (lines 24-47). -/
inductive CObj (α : Type)
  | nothing
  | single (a : α)
  | inherit (base : CObj α)
  | append (base t : CObj α)
  | pair (t ts : CObj α)
deriving DecidableEq, Repr

/-- `std::is_empty_v<contain_impl<TS...>>`: there are no data members, neither own nor inherited. -/
def containEmpty : List CType → Bool
  | [] => true
  -- lines 95-111, 113-132
  | [T] => T.isEmpty
  | T :: T' :: TS =>
    -- lines 72-93: no members of its own
    if T.isEmpty then containEmpty (T' :: TS)
    -- lines 24-70: `t_` is a member
    else false

/-- The default constructor of `contain_impl<TS...>`; `none` where it is deleted or does not exist
(base/contain.hpp:76, 99, 117). -/
def containDefault {α : Type} : List CType → Option (CObj α)
  | [] => some .nothing
  | [T] => if T.isEmpty then some .nothing else none
  | T :: T' :: TS =>
    if T.isEmpty then (containDefault (T' :: TS)).map .inherit else none

/-- The constructor of `contain_impl<T>` with one argument (base/contain.hpp:101-103, 119-121). -/
def containOne {α : Type} (T : CType) (v : CVal α) : Option (CObj α) :=
  if T.isEmpty then some .nothing
  else match v with
    | .val a => some (.single a)
    | .unit _ => none

/-- The constructor of `contain_impl<TS...>` (base/contain.hpp:28-31, 53-55, 78-81, 101-103, 119-121).
`none`: the number of arguments does not match, a non-empty type is not constructible from the argument, or
the default constructor of the base is missing. -/
def containMake {α : Type} : List CType → List (CVal α) → Option (CObj α)
  | [], [] => some .nothing
  | [T], [v] => containOne T v
  | T :: T' :: TS, v :: vs =>
    if (T' :: TS).length = vs.length then
      if T.isEmpty then (containMake (T' :: TS) vs).map .inherit
      else if containEmpty (T' :: TS) then do
        let b ← containDefault (T' :: TS)
        let t ← containOne T v
        some (.append b t)
      else do
        let t ← containOne T v
        let ts ← containMake (T' :: TS) vs
        some (.pair t ts)
    else none
  | _, _ => none

/-- `get<0>` of `contain_impl<T>` (base/contain.hpp:105-110, 123-128). -/
def containGetOne {α : Type} : CType → CObj α → Option (CVal α)
  | .empty n, _ => some (.unit n)
  | .full, .single a => some (.val a)
  | .full, _ => none

/-- `contain_impl<TS...>::get<I>` (base/contain.hpp:33-42, 57-66, 83-92, 105-110, 123-128, 134-140).
`none`: `I` is not below the number of fields. (The object has been built for these types; for other
objects, which do not exist in the code, the result is `none`, too.) -/
def containGet {α : Type} : List CType → CObj α → Nat → Option (CVal α)
  | [], _, _ => none
  | [T], o, 0 => containGetOne T o
  | [_], _, _ + 1 => none
  | T :: T' :: TS, o, 0 =>
    if T.isEmpty then containGetOne T o
    else if containEmpty (T' :: TS) then
      match o with
      | .append _ t => containGetOne T t
      | _ => none
    else
      match o with
      | .pair t _ => containGetOne T t
      | _ => none
  | T :: T' :: TS, o, i + 1 =>
    if T.isEmpty then
      match o with
      | .inherit b => containGet (T' :: TS) b i
      | _ => none
    else if containEmpty (T' :: TS) then
      match o with
      | .append b _ => containGet (T' :: TS) b i
      | _ => none
    else
      match o with
      | .pair _ ts => containGet (T' :: TS) ts i
      | _ => none

/-- An object of class `contain<TS...>` with its type (base/contain.hpp:142-149). -/
structure Contain (α : Type) where
  types : List CType
  obj : CObj α

namespace Contain
variable {α : Type}

/-- `contain(vs...)` (base/contain.hpp:144, 148-149): the types are those of the arguments. Simplified: a single
argument is not itself a `contain`, which would be copied. -/
def make (vs : List (CVal α)) : Option (Contain α) :=
  (containMake (vs.map CVal.type) vs).map fun o => ⟨vs.map CVal.type, o⟩

/-- `get<I>` (base/contain.hpp:145). -/
def get (c : Contain α) (i : Nat) : Option (CVal α) := containGet c.types c.obj i

/-- `std::tuple_size` (base/contain.hpp:219-220). -/
def size (c : Contain α) : Nat := c.types.length

/-- `get<Idxs>()...` for all the fields. -/
def fields (c : Contain α) : Option (List (CVal α)) := (List.range c.size).mapM c.get

/-- `contain_cat(cs...)` (base/contain.hpp:163-184): the first two are joined, then the result with the
others. -/
def cat : List (Contain α) → Option (Contain α)
  | [] => make []
  | [c] => some c
  | c :: c' :: cs => do
    let vs ← c.fields
    let vs' ← c'.fields
    let d ← make (vs ++ vs')
    cat (d :: cs)
termination_by l => l.length

/-- The data members of an object, in the order in which they are laid out: bases come before members, and
members are in the order of their declaration. -/
def data : CObj α → List α
  | .nothing => []
  | .single a => [a]
  | .inherit b => data b
  | .append b t => data b ++ data t
  | .pair t ts => data t ++ data ts

end Contain

end Noarr
