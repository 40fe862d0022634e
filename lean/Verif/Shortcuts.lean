import Verif.Struct

/-
Shortcuts that are compositions of views. A list of views stands for their composition by `^`, the
first one being applied first.
-/

namespace Noarr

/-- `into_blocks<Dim, DimMajor, DimMinor>(minor_length)` (extra/shortcuts.hpp:151-154). -/
def intoBlocksBy (d maj min : Dim) (nl : Val) : List View := [.intoBlocks d maj min, .setLength min nl]

/-- `into_blocks_dynamic<Dim, DimMajor, DimMinor, DimIsPresent>(minor_length)`
(extra/shortcuts.hpp:156-159). -/
def intoBlocksDynBy (d maj min pres : Dim) (nl : Val) : List View :=
  [.intoBlocksDyn d maj min pres, .setLength min nl]

/-- `strip_mine<Dim, DimMajor, DimMinor>(minor_length)` (extra/shortcuts.hpp:166-169). -/
def stripMine (d maj min : Dim) (nl : Val) : List View := intoBlocksBy d maj min nl ++ [.hoist maj]

/-- `strip_mine_dynamic<Dim, DimMajor, DimMinor, DimIsPresent>(minor_length)`
(extra/shortcuts.hpp:171-174). -/
def stripMineDyn (d maj min pres : Dim) (nl : Val) : List View :=
  intoBlocksDynBy d maj min pres nl ++ [.hoist maj]

/-- `symmetric_span<Dims...>(structure, state, offset)` (extra/shortcuts.hpp:252-256): one `span` for
each dimension, from `offset` to the length minus `offset`; the lengths are those of `structure`. The
difference is computed by the built-in operator, so it is a run-time value. -/
def symmetricSpan (A : Arith) (s : Struct) (st : State) (ds : List Dim) (k : Val) : Option (List View) :=
  ds.mapM fun d => ((s.sem A).len d st).map fun l => .span d k (l.sub A k).toDyn

/-- The sum of an index and a signed difference; leaving the range is a fault. -/
def Val.shiftBy (i : Nat) (j : Int) : Val :=
  if 0 ≤ (i : Int) + j then .dyn ((i : Int) + j).toNat else .bad .wrap

/-- `neighbor<Dims...>(state, diffs...)` (extra/shortcuts.hpp:240-250): add a difference to the index in
each of the dimensions; the indices must be run-time values. Simplification: the differences are
run-time values. -/
def neighbor (st : State) : List (Dim × Int) → Option State
  | [] => some st
  | (d, j) :: ds =>
    match st (.idx d) with
    | some (.dyn i) => (neighbor st ds).map fun u => u.set (.idx d) (.shiftBy i j)
    | _ => none

end Noarr
