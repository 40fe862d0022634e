import Verif.State

/-
States as the item lists of the code.

Models: include/noarr/structures/base/state.hpp:55-465. A `noarr::state<Items...>` is a list of
items, each a tag with either a constant (`std::integral_constant<size_t, n>`) or a run-time
`size_t`. `none` means "does not compile".
-/

namespace Noarr

/-- The values a state item can hold (`good_index_t`, base/state.hpp:320-333). -/
inductive IVal
  | lit (n : Nat)
  | dyn (n : Nat)
deriving DecidableEq, Repr

/-- the number, as used by comparisons -/
def IVal.num : IVal → Nat
  | lit n => n
  | dyn n => n

/-- the value, as used by structures -/
def IVal.toVal : IVal → Val
  | lit n => .lit n
  | dyn n => .dyn n

/-- `state<StateItems...>` (base/state.hpp:159-160). -/
abbrev LState := List (Tag × IVal)

namespace LState

/-- `get<Tag>()` (base/state.hpp:73-90, 176-181): the first item with the tag. -/
def get (s : LState) (t : Tag) : Option IVal :=
  match s with
  | [] => none
  | (t', v) :: r => if t' = t then some v else get r t

/-- `contains<Tag>` (base/state.hpp:168-170). -/
def contains (s : LState) (t : Tag) : Bool := (s.get t).isSome

/-- The tags, in order. -/
def tags (s : LState) : List Tag := s.map Prod.fst

/-- `state_remove_item` (base/state.hpp:92-108). -/
def removeItem (t : Tag) : LState → LState
  | [] => []
  | (t', v) :: r => if t' = t then removeItem t r else (t', v) :: removeItem t r

/-- `state_remove_items` (base/state.hpp:110-127). -/
def removeItems (items : LState) : List Tag → LState
  | [] => items
  | t :: ts => removeItems (removeItem t items) ts

/-- `state_filter_items` (base/state.hpp:129-155). -/
def filterItems (p : Tag → Bool) : LState → LState
  | [] => []
  | (t, v) :: r => if p t then (t, v) :: filterItems p r else filterItems p r

/-- `items_restrict` (base/state.hpp:183-188): the kept tags, with the values looked up by tag. The
static type of an item is that of the kept item, so only the value is looked up; here kept items
always come from the same state, where both agree. -/
def restrict (s : LState) (kept : LState) : LState :=
  kept.map fun tv => (tv.1, (s.get tv.1).getD tv.2)

/-- `remove<Tags...>()` (base/state.hpp:200-205). -/
def remove (s : LState) (ts : List Tag) : LState := s.restrict (removeItems s ts)

/-- `filter<Tags...>()` (base/state.hpp:214-220). -/
def filter (s : LState) (ts : List Tag) : LState := s.restrict (filterItems (fun t => decide (t ∈ ts)) s)

/-- `with<Tags...>(values...)` (base/state.hpp:222-228, 190-198): tags and values are listed
together. -/
def withItems (s : LState) (new : LState) : LState := s.restrict (removeItems s (tags new)) ++ new

/-- `operator&` (base/state.hpp:335-338). -/
def merge (a b : LState) : LState := a.withItems (b.map fun tv => (tv.1, (b.get tv.1).getD tv.2))

/-- One item of `operator+` on states with the same item types (base/state.hpp:351-356). The result is passed to the
constructor of the item type of the left operand, and the constructor of an empty type, such as a constant, accepts
anything and ignores it (base/contain.hpp:78-81, 101-103): the constant of the left operand is kept. The value of the
right operand is converted to the item type of the left operand first, in the same way (base/state.hpp:379-388). -/
def addVal (W : Nat) : IVal → IVal → Option IVal
  | .dyn a, b => some (.dyn ((a + b.num) % W))
  | .lit a, _ => some (.lit a)

/-- One item of `operator-` (base/state.hpp:391-396), cf. `addVal`. -/
def subVal (W : Nat) : IVal → IVal → Option IVal
  | .dyn a, b => some (.dyn ((a + (W - b.num % W)) % W))
  | .lit a, _ => some (.lit a)

/-- One item of unary minus (base/state.hpp:345-349): the result has the type of the operand, so a constant is not
changed (cf. `addVal`). -/
def negVal (W : Nat) : IVal → Option IVal
  | .dyn a => some (.dyn ((W - a % W) % W))
  | .lit a => some (.lit a)

/-- `operator-(state)` (base/state.hpp:345-349). -/
def neg (W : Nat) : LState → Option LState
  | [] => some []
  | (t, v) :: r => do
    let v' ← negVal W v
    let r' ← neg W r
    some ((t, v') :: r')

/-- The items present in both states, combined by `op` (base/state.hpp:379-388, 418-426): for the
items `kept` of `a`, in this order. -/
def combine (op : IVal → IVal → Option IVal) (a b : LState) : LState → Option LState
  | [] => some []
  | (t, v) :: r => do
    let x ← op ((a.get t).getD v) (← b.get t)
    let r' ← combine op a b r
    some ((t, x) :: r')

/-- `operator+(state, state)` (base/state.hpp:351-389): items of both are added, the others
kept. The special cases for equal types and for empty states give the same items. -/
def add (W : Nat) (a b : LState) : Option LState := do
  let base := (a.restrict (removeItems a (tags b))).merge (b.restrict (removeItems b (tags a)))
  let added ← combine (addVal W) a b (removeItems a (tags base))
  some (added.merge base)

/-- `operator-(state, state)` (base/state.hpp:391-427). -/
def sub (W : Nat) (a b : LState) : Option LState := do
  let nb ← neg W (b.restrict (removeItems b (tags a)))
  let base := (a.restrict (removeItems a (tags b))).merge nb
  let subtracted ← combine (subVal W) a b (removeItems a (tags base))
  some (subtracted.merge base)

/-- `operator==` (base/state.hpp:429-439). -/
def eq (a b : LState) : Bool :=
  (tags a).all b.contains && (tags b).all a.contains &&
  (tags a).all (fun t => (a.get t).map IVal.num == (b.get t).map IVal.num)

/-- `operator<=` (base/state.hpp:441-450). -/
def le (a b : LState) : Bool :=
  (tags a).all b.contains &&
  (tags a).all (fun t => match a.get t, b.get t with
    | some x, some y => decide (x.num ≤ y.num)
    | _, _ => false)

/-- `operator>=` (base/state.hpp:452-455). -/
def ge (a b : LState) : Bool := le b a

/-- `operator<` (base/state.hpp:457-460). -/
def lt (a b : LState) : Bool := le a b && !eq a b

/-- `operator>` (base/state.hpp:462-465). -/
def gt (a b : LState) : Bool := lt b a

/-- The map a list of items stands for, as seen by structures. -/
def toState (s : LState) : State := fun t => (s.get t).map IVal.toVal

end LState

end Noarr
