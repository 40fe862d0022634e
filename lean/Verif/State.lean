import Verif.Base

/-
States as finite maps.

`noarr::state<Items...>` (base/state.hpp:159-229) is a list of (tag, value) items. Structures
only ever use it through `contains`, `get`, `with` and `remove`, which are map operations;
`Verif/StateList.lean` models the item list itself and proves that it implements this map.
-/

namespace Noarr

/-- A state as seen through `state_contains` / `get` (base/state.hpp:166-181). -/
abbrev State := Tag → Option Val

namespace State

/-- `empty_state` (base/state.hpp:262). -/
def empty : State := fun _ => none

/-- `state_contains<State, Tag>` (base/state.hpp:243-244). -/
def has (st : State) (t : Tag) : Bool := (st t).isSome

/-- `state.with<Tag>(v)` (base/state.hpp:222-228). -/
def set (st : State) (t : Tag) (v : Val) : State := fun t' => if t' = t then some v else st t'

/-- `state.remove<Tag>()` (base/state.hpp:200-205). -/
def remove (st : State) (t : Tag) : State := fun t' => if t' = t then none else st t'

/-- `state.remove<Tags...>()`. -/
def removeAll (st : State) (ts : List Tag) : State := fun t' => if t' ∈ ts then none else st t'

/-- `state.with<Tag>(f(state.get<Tag>()))` if the tag is present, else the state unchanged. -/
def mapAt (st : State) (t : Tag) (f : Val → Val) : State :=
  fun t' => if t' = t then (st t).map f else st t'

end State

end Noarr
