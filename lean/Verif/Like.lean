import Verif.Proto

/-
Structures made like other ones: `vectors`, `array`, `length_like`, `lengths_like`, `vector_like`, `vectors_like`
(extra/shortcuts.hpp:26-149), `set_length(state)` (extra/shortcuts.hpp:289-298, 351-365), `bcast` with lengths
(extra/shortcuts.hpp:176-181) and `fix_zeros` (extra/shortcuts.hpp:377-388).
-/

namespace Noarr

/-- `sig_dim_seq<Signature>` (extra/sig_utils.hpp:71-100): the dimensions from the innermost to the outermost. A tuple
dimension must have exactly one field. -/
def Sig.seq : Sig → Option (List Dim)
  | .scalar _ => some []
  | .void => some []
  | .fn d _ r => r.seq.map (· ++ [d])
  | .dep d n rs => if h : n = 1 then (rs ⟨0, by omega⟩).seq.map (· ++ [d]) else none
  | .ill => none

/-- The unary left fold `(... ^ ps)`; it does not compile without operands. -/
def Proto.all : List Proto → Option Proto
  | [] => none
  | p :: ps => some (ps.foldl Proto.andThen p)

/-- `vector<Dim>(length)` (extra/shortcuts.hpp:32-35). -/
def Proto.vectorOf (d : Dim) (l : Val) : Proto := (Proto.vector d).andThen (.view (.setLength d l))

/-- `vectors<Dims...>(lengths...)` (extra/shortcuts.hpp:43-47). -/
def Proto.vectorsOf (ps : List (Dim × Val)) : Option Proto := Proto.all (ps.map fun p => .vectorOf p.1 p.2)

/-- `array<Dim, L>()` (extra/shortcuts.hpp:55-72). -/
def Proto.array (d : Dim) (n : Nat) : Proto := .vectorOf d (.lit n)

/-- `length_like<Dim>(structure, state)` (extra/shortcuts.hpp:74-82). -/
def Proto.lengthLike (A : Arith) (s : Struct) (st : State) (d : Dim) : Option Proto :=
  ((s.sem A).len d st).map fun l => .view (.setLength d l)

/-- `lengths_like<Dims...>(structure, state)` (extra/shortcuts.hpp:84-100). -/
def Proto.lengthsLike (A : Arith) (s : Struct) (st : State) (ds : List Dim) : Option Proto :=
  (ds.mapM (Proto.lengthLike A s st)).bind Proto.all

/-- `vector_like<Dim>(structure, state)` (extra/shortcuts.hpp:102-110). -/
def Proto.vectorLike (A : Arith) (s : Struct) (st : State) (d : Dim) : Option Proto :=
  (Proto.lengthLike A s st d).map (Proto.vector d).andThen

/-- `vectors_like<Dims...>(structure, state)` (extra/shortcuts.hpp:112-122, 145-149). Without dimensions the call is one
of `vectorsLikeAll`, which calls this function again, and the return type cannot be deduced. -/
def Proto.vectorsLike (A : Arith) (s : Struct) (st : State) (ds : List Dim) : Option Proto :=
  (ds.mapM (Proto.vectorLike A s st)).bind Proto.all

/-- `vectors_like(structure, state)` (extra/shortcuts.hpp:124-143): all the dimensions of the structure. -/
def Proto.vectorsLikeAll (A : Arith) (s : Struct) (st : State) : Option Proto :=
  (s.sem A).sig.seq.bind (Proto.vectorsLike A s st)

/-- `bcast<Dims...>(lengths...)` (extra/shortcuts.hpp:176-181). -/
def Proto.bcastOf (ps : List (Dim × Val)) : Option Proto :=
  Proto.all (ps.map fun p => (Proto.view (.bcast p.1)).andThen (.view (.setLength p.1 p.2)))

/-- `set_length(state)` (extra/shortcuts.hpp:290-298, 351-354): one `set_length` for each length of the state, in the
order of the items. The state is given by the list of its items. -/
def Proto.lengthsOf (items : List (Tag × Val)) : Proto :=
  items.foldl (fun p it => p.andThen (match it.1 with
    | .len d => .view (.setLength d it.2)
    | .idx _ => .neutral)) .neutral

/-- `fix_zeros(tree, state)` (extra/shortcuts.hpp:377-388): a constant zero in the dimensions on the way to the first
leaf of the tree. `none`: a node without branches matches no overload. Simplification: the dimensions on the way differ,
and are not in the state. -/
def fixZeros : DimTree → State → Option State
  | .leaf, st => some st
  | .bad, _ => none
  | .node d n bs, st => if h : 0 < n then fixZeros (bs ⟨0, h⟩) (st.set (.idx d) (.lit 0)) else none

end Noarr
