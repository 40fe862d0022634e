import Verif.Struct

/-
Queries about a structure inside another one, and which queries are announced to be available:
`has_size`, `has_offset_of<Sub>`, `offset_of<Sub>`, `has_state_at<Sub>`, `state_at<Sub>`.

`Sub` is a type. It is represented by the set `is` of the structures that have it (the same type may occur
with different run-time parameters). As in the rest of the model, `none` is a query that does not compile.
-/

namespace Noarr

/-- `(... && has)` of several constants: all of them have to compile. -/
def andAll : List (Option Bool) → Option Bool
  | [] => some true
  | o :: os => do
    let b ← o
    let c ← andAll os
    some (b && c)

namespace Struct

/-- `Struct::has_size<State>()`. -/
def hasSize (A : Arith) : Struct → State → Option Bool
  -- structs/scalar.hpp:26-30
  | scalar _ _, _ => some true
  -- structs/layouts.hpp:73-77, 153-158
  | tuple t n fs, st => andAll (List.ofFn fun i : Fin n => (fs i).hasSize A (st.remove (.idx t)))
  -- structs/layouts.hpp:256-264
  | vector d s, st => if st.has (.len d) then s.hasSize A (st.removeAll [.idx d, .len d]) else some false
  -- extra/traverser.hpp:105-157: there is no such function
  | union _ _, _ => none
  -- e.g. structs/setters.hpp:89-93; `reorder_t` has another condition (structs/views.hpp:171-175)
  | view v s, st => do
    let u ← (v.sem A (s.sem A)).sub st
    let b ← s.hasSize A u
    some ((v.sem A (s.sem A)).sizeOk && b)

/-- `has_offset_of<Sub, Struct, State>()` (base/structs_common.hpp:195-204). -/
def hasOff (A : Arith) (is : Struct → Bool) : Struct → State → Option Bool
  -- structs/scalar.hpp:46-50
  | scalar z a, _ => some (is (scalar z a))
  -- structs/layouts.hpp:93-104
  | tuple t n fs, st =>
    if is (tuple t n fs) then some true
    else if st.has (.idx t) then do
      let k ← constIdx (st (.idx t))
      if h : k < n then (fs ⟨k, h⟩).hasOff A is (st.remove (.idx t)) else none
    else some false
  -- structs/layouts.hpp:282-290
  | vector d s, st =>
    if is (vector d s) then some true
    else if st.has (.idx d) && st.has (.len d) then s.hasOff A is (st.removeAll [.idx d, .len d])
    else some false
  -- there is no `sub_structure(state)`
  | union n ss, _ => if is (union n ss) then some true else none
  | view v s, st =>
    if is (view v s) then some true
    else match v with
      -- structs/views.hpp:191-195
      | .reorder ds => do
        let b ← s.hasOff A is st
        some ((View.sem A (.reorder ds) (s.sem A)).offOk st && b)
      -- base/structs_common.hpp:153-157; structs/blocks.hpp:347-355
      | v => if (v.sem A (s.sem A)).offOk st then do
          let u ← (v.sem A (s.sem A)).sub st
          s.hasOff A is u
        else some false

/-- `offset_of<Sub>(structure, state, start)` (base/structs_common.hpp:206-223). -/
def offOf (A : Arith) (is : Struct → Bool) : Struct → State → Val → Option Val
  | scalar z a, _, start => if is (scalar z a) then some start else none
  -- structs/layouts.hpp:106-117
  | tuple t n fs, st, start =>
    if is (tuple t n fs) then some start
    else if (tuple t n fs).hasOff A is st ≠ some true then none
    else do
      let k ← constIdx (st (.idx t))
      let before ← sizeAcc A (st.remove (.idx t)) ((List.ofFn fun i => (fs i).sem A).take k) (.lit 0)
      if h : k < n then (fs ⟨k, h⟩).offOf A is (st.remove (.idx t)) (before.add A start) else none
  -- structs/layouts.hpp:292-310
  | vector d s, st, start =>
    if is (vector d s) then some start
    else if (vector d s).hasOff A is st ≠ some true then none
    else do
      let i ← st (.idx d)
      let l ← st (.len d)
      match l with
      | .lit 1 => s.offOf A is (st.removeAll [.idx d, .len d]) start
      | .bad f => do
        let _ ← s.offOf A is (st.removeAll [.idx d, .len d]) start
        some (.bad f)
      | _ => do
        let z ← (s.sem A).size (st.removeAll [.idx d, .len d])
        s.offOf A is (st.removeAll [.idx d, .len d]) ((i.mul A z).add A start)
  | union n ss, _, start => if is (union n ss) then some start else none
  -- base/structs_common.hpp:165-168
  | view v s, st, start =>
    if is (view v s) then some start
    else if (view v s).hasOff A is st ≠ some true then none
    else do
      let u ← (v.sem A (s.sem A)).sub st
      s.offOf A is u start

/-- `has_state_at<Sub, Struct, State>()` (base/structs_common.hpp:225-234): false inside of scalars, tuples
and vectors (structs/scalar.hpp:59-63; structs/layouts.hpp:144-148, 333-337). -/
def hasStateAt (A : Arith) (is : Struct → Bool) : Struct → State → Option Bool
  | scalar z a, _ => some (is (scalar z a))
  | tuple t n fs, _ => some (is (tuple t n fs))
  | vector d s, _ => some (is (vector d s))
  | union n ss, _ => if is (union n ss) then some true else none
  -- base/structs_common.hpp:176-180
  | view v s, st =>
    if is (view v s) then some true
    else do
      let u ← (v.sem A (s.sem A)).sub st
      s.hasStateAt A is u

/-- `state_at<Sub>(structure, state)` (base/structs_common.hpp:236-246). -/
def stateOf (A : Arith) (is : Struct → Bool) : Struct → State → Option State
  | scalar z a, st => if is (scalar z a) then some st else none
  | tuple t n fs, st => if is (tuple t n fs) then some st else none
  | vector d s, st => if is (vector d s) then some st else none
  | union n ss, st => if is (union n ss) then some st else none
  -- base/structs_common.hpp:188-191
  | view v s, st =>
    if is (view v s) then some st
    else if (view v s).hasStateAt A is st ≠ some true then none
    else do
      let u ← (v.sem A (s.sem A)).sub st
      s.stateOf A is u

end Struct

end Noarr
