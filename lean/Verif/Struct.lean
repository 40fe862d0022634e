import Verif.Sem

/-
Structures as they can be composed by a user, and their queries.

`Struct` mirrors the nesting of template instances (`vector_t<'x', scalar<int>>` is
`.vector x (.scalar 4 4)`); `^` applies a view or a layout to a structure
(base/structs_common.hpp:320-345).
-/

namespace Noarr

/-- The views, with their template and run-time arguments. -/
inductive View
  | bcast (d : Dim)
  | fix (d : Dim) (i : Val)
  | setLength (d : Dim) (l : Val)
  | shift (d : Dim) (start : Val)
  | slice (d : Dim) (start len : Val)
  | span (d : Dim) (start stop : Val)
  | step (d : Dim) (start stride : Val)
  | reverse (d : Dim)
  | reorder (ds : List Dim)
  | hoist (d : Dim)
  | rename (ps : List (Dim × Dim))
  | join (a b d : Dim)
  | intoBlocks (d maj min : Dim)
  | intoBlocksDyn (d maj min pres : Dim)
  | intoBlocksStat (d border maj min : Dim) (minLen : Val)
  | mergeBlocks (maj min d : Dim)
  | mergeZ (special general : Nat) (ds : List Dim) (d : Dim)

/-- The queries of a view applied to a structure. -/
def View.sem (A : Arith) : View → Sem → ViewSem
  | .bcast d => bcastSem d
  | .fix d i => fixSem d i
  | .setLength d l => setLengthSem d l
  | .shift d s => shiftSem A d s
  | .slice d s l => sliceSem A d s l
  | .span d s e => spanSem A d s e
  | .step d s k => stepSem A d s k
  | .reverse d => reverseSem A d
  | .reorder ds => reorderSem ds
  | .hoist d => hoistSem d
  | .rename ps => renameSem ps
  | .join a b d => joinSem a b d
  | .intoBlocks d maj min => intoBlocksSem A d maj min
  | .intoBlocksDyn d maj min pres => intoBlocksDynSem A d maj min pres
  | .intoBlocksStat d border maj min nl => intoBlocksStatSem A d border maj min nl
  | .mergeBlocks maj min d => mergeBlocksSem A maj min d
  | .mergeZ sl gl ds d => mergeZSem A sl gl ds d

/-- Structures. -/
inductive Struct
  /-- `scalar<T>` with `sizeof(T)` and `alignof(T)` -/
  | scalar (size align : Nat)
  /-- `tuple_t<t, T_0, ..., T_{n-1}>` -/
  | tuple (t : Dim) (n : Nat) (fs : Fin n → Struct)
  /-- `vector_t<d, T>` -/
  | vector (d : Dim) (s : Struct)
  /-- `union_t<T_0, ..., T_{n-1}>`, the structure of a traverser -/
  | union (n : Nat) (ss : Fin n → Struct)
  /-- a view applied to a structure -/
  | view (v : View) (s : Struct)

namespace Struct

/-- The queries of a structure, evaluated with the arithmetic `A`. -/
def sem (A : Arith) : Struct → Sem
  | scalar s a => scalarSem s a
  | tuple t n fs => tupleSem A t n (fun i => (fs i).sem A)
  | vector d s => vectorSem A d (s.sem A)
  | union n ss => unionSem n (fun i => (ss i).sem A)
  | view v s => (v.sem A (s.sem A)).toSem (s.sem A)

/-- `s ^ v1 ^ v2 ^ ...`: the views are applied from left to right
(base/structs_common.hpp:320-325, 369-397). -/
def apply (s : Struct) : List View → Struct
  | [] => s
  | v :: vs => (Struct.view v s).apply vs

end Struct

/-- `state_at<Struct>(s ^ v1 ^ v2 ..., state)` (base/structs_common.hpp:225-246): the state handed
down to the structure below the views. -/
def stateAt (A : Arith) (s : Struct) : List View → State → Option State
  | [], st => some st
  | v :: vs, st => do
    let st' ← stateAt A (.view v s) vs st
    (v.sem A (s.sem A)).sub st'

end Noarr
