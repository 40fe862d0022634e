import Verif.StateListLemmas

/-
Shortcuts for states: making a state of indices, reading, selecting and changing its items.
-/

namespace Noarr.LState

/-- `idx<Dims...>(values...)` (extra/shortcuts.hpp:225-229), for pairs of a dimension and a value. -/
def idxOf (ps : List (Dim × IVal)) : LState := ps.map fun p => (.idx p.1, p.2)

/-- `get_index<Dim>(state)` (extra/shortcuts.hpp:185-190); does not compile without the item. -/
def getIndex (s : LState) (d : Dim) : Option IVal := s.get (.idx d)

/-- `get_length_in<Dim>(state)` (extra/shortcuts.hpp:192-197). -/
def getLengthIn (s : LState) (d : Dim) : Option IVal := s.get (.len d)

/-- `get_indices<Dims...>(state)` (extra/shortcuts.hpp:199-204). -/
def getIndices (s : LState) : List Dim → Option (List IVal)
  | [] => some []
  | d :: ds => do
    let v ← s.getIndex d
    let vs ← s.getIndices ds
    some (v :: vs)

/-- `get_lengths_in<Dims...>(state)` (extra/shortcuts.hpp:206-211). -/
def getLengthsIn (s : LState) : List Dim → Option (List IVal)
  | [] => some []
  | d :: ds => do
    let v ← s.getLengthIn d
    let vs ← s.getLengthsIn ds
    some (v :: vs)

/-- `filter_indices<Dims...>(state)` (extra/shortcuts.hpp:213-217). -/
def filterIndices (s : LState) (ds : List Dim) : LState := s.filter (ds.map .idx)

/-- `filter_lengths<Dims...>(state)` (extra/shortcuts.hpp:219-223). -/
def filterLengths (s : LState) (ds : List Dim) : LState := s.filter (ds.map .len)

/-- `update_index<Dim>(state, f)` (extra/shortcuts.hpp:231-238); does not compile without the item. -/
def updateIndex (s : LState) (d : Dim) (f : IVal → IVal) : Option LState := do
  let i ← s.get (.idx d)
  some (s.withItems [(.idx d, f i)])

/-- One item of `neighbor` (extra/shortcuts.hpp:247-249): the sum of the index and the difference, converted to
`size_t` (numbers below `W`). The index must be a run-time value. -/
def neighborItem (W : Nat) (s : LState) (p : Dim × Int) : Option (Tag × IVal) :=
  match s.get (.idx p.1) with
  | some (.dyn i) => some (.idx p.1, .dyn (((i : Int) + p.2) % (W : Int)).toNat)
  | _ => none

/-- The new items of `neighbor`. -/
def neighborItems (W : Nat) (s : LState) : List (Dim × Int) → Option LState
  | [] => some []
  | p :: ps => do
    let x ← neighborItem W s p
    let xs ← neighborItems W s ps
    some (x :: xs)

/-- `neighbor<Dims...>(state, diffs...)` (extra/shortcuts.hpp:240-250), on item lists; for pairs of a dimension
and a difference. -/
def neighborOf (W : Nat) (s : LState) (ps : List (Dim × Int)) : Option LState := do
  let items ← neighborItems W s ps
  some (s.withItems items)

end Noarr.LState
