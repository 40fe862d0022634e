import Verif.Mangle

/-
The textual names of the structures of the model: the name and the parameters of each structure template
(`name` and `params` of structs/*.hpp) and what its objects contain.
-/

namespace Noarr

/-- An integral type: its size, whether it is signed, and a number that tells types of the same size and signedness
apart (such as `long` and `long long`, or `bool` and `unsigned char`). -/
structure IntType where
  signed : Bool
  bytes : Nat
  id : Nat
deriving DecidableEq

/-- `scalar_name` of integral types (extra/mangle.hpp:78-90). -/
def IntType.name (t : IntType) : List Char :=
  (if t.signed then "int".toList else "uint".toList) ++ (mangleNat (8 * t.bytes) [] ++ "_t".toList)

/-- `scalar_name<std::size_t>`, for 8 bytes. -/
def sizeName : List Char := "uint64_t".toList

/-- How the types of elements and the dimensions are called. Simplification: a type of elements is given by its size and
alignment. Dimensions are characters; those that are not (objects of the type `noarr::dim`) do not compile
(extra/mangle.hpp:146-149). -/
structure Names where
  elem : Nat → Nat → List Char
  dim : Dim → Char
  isChar : Dim → Bool

def Descs.ofList : List Desc → Descs
  | [] => .nil
  | d :: ds => .cons d (ofList ds)

def Exprs.ofList : List Expr → Exprs
  | [] => .nil
  | e :: es => .cons e (ofList es)

/-- `type_param` for the type of a value (extra/mangle.hpp:107-114, 135-138): `std::size_t`, or
`std::integral_constant`, whose value is mangled as an `int` and does not compile if it does not fit. -/
def Val.desc : Val → Option Desc
  | .lit n => if n < 2 ^ 31 then some (.constant sizeName n) else none
  | .dyn _ => some (.type sizeName)
  | .bad _ => none

/-- A value in a structure, as `mangle_expr` sees it (extra/mangle.hpp:195-218). -/
def Val.expr : Val → Option Expr
  | .lit n => some (.lit n)
  | .dyn n => some (.num sizeName n)
  | .bad _ => none

/-- The values that a view contains, beside the structure: the template parameters of the structures in
structs/setters.hpp:14-18, 160-164, slice.hpp:18-22, 204-208, 356-360, 509-513, blocks.hpp:480-487 (the others contain
only the structure). -/
def View.vals : View → List Val
  | .fix _ i => [i]
  | .setLength _ l => [l]
  | .shift _ a => [a]
  | .slice _ a l => [a, l]
  | .span _ a e => [a, e]
  | .step _ a k => [a, k]
  | .intoBlocksStat _ _ _ _ l => [l]
  | _ => []

/-- The `name`s: structs/bcast.hpp:16, setters.hpp:17, 163, slice.hpp:21, 207, 359, 512, 685, views.hpp:139, 233, 443,
564, blocks.hpp:21, 224, 485, 694, zcurve.hpp:137. -/
def View.name : View → List Char
  | .bcast _ => "bcast_t".toList
  | .fix _ _ => "fix_t".toList
  | .setLength _ _ => "set_length_t".toList
  | .shift _ _ => "shift_t".toList
  | .slice _ _ _ => "slice_t".toList
  | .span _ _ _ => "span_t".toList
  | .step _ _ _ => "step_t".toList
  | .reverse _ => "reverse_t".toList
  | .reorder _ => "reorder_t".toList
  | .hoist _ => "hoist_t".toList
  | .rename _ => "rename_t".toList
  | .join _ _ _ => "join_t".toList
  | .intoBlocks _ _ _ => "into_blocks_t".toList
  | .intoBlocksDyn _ _ _ _ => "into_blocks_dynamic_t".toList
  | .intoBlocksStat _ _ _ _ _ => "into_blocks_static_t".toList
  | .mergeBlocks _ _ _ => "merge_blocks_t".toList
  | .mergeZ _ _ _ _ => "merge_zcurve_t".toList

/-- The parameters in front of the structure: structs/bcast.hpp:17, setters.hpp:18, 164, slice.hpp:22, 208, 360, 513, 686,
views.hpp:140, 234, 444, 565, blocks.hpp:22, 225-226, 486-487, 695, zcurve.hpp:138-139. -/
def View.before (N : Names) : View → List Desc
  | .bcast d => [.dim (N.dim d)]
  | .fix d _ => [.dim (N.dim d)]
  | .setLength d _ => [.dim (N.dim d)]
  | .shift d _ => [.dim (N.dim d)]
  | .slice d _ _ => [.dim (N.dim d)]
  | .span d _ _ => [.dim (N.dim d)]
  | .step d _ _ => [.dim (N.dim d)]
  | .reverse d => [.dim (N.dim d)]
  | .reorder _ => []
  | .hoist d => [.dim (N.dim d)]
  | .rename _ => []
  | .join _ _ _ => []
  | .intoBlocks d maj min => [.dim (N.dim d), .dim (N.dim maj), .dim (N.dim min)]
  | .intoBlocksDyn d maj min pres => [.dim (N.dim d), .dim (N.dim maj), .dim (N.dim min), .dim (N.dim pres)]
  | .intoBlocksStat d border maj min _ => [.dim (N.dim d), .dim (N.dim border), .dim (N.dim maj), .dim (N.dim min)]
  | .mergeBlocks maj min d => [.dim (N.dim maj), .dim (N.dim min), .dim (N.dim d)]
  | .mergeZ sl gl _ d => [.value sizeName sl, .value sizeName gl, .dim (N.dim d)]

/-- The dimensions among the parameters after the structure (the same lines). -/
def View.after : View → List Dim
  | .reorder ds => ds
  | .rename ps => ps.flatMap fun p => [p.1, p.2]
  | .join a b d => [a, b, d]
  | .mergeZ _ _ ds _ => ds
  | _ => []

/-- All the dimensions among the parameters. -/
def View.params : View → List Dim
  | .bcast d => [d]
  | .fix d _ => [d]
  | .setLength d _ => [d]
  | .shift d _ => [d]
  | .slice d _ _ => [d]
  | .span d _ _ => [d]
  | .step d _ _ => [d]
  | .reverse d => [d]
  | .reorder ds => ds
  | .hoist d => [d]
  | .rename ps => ps.flatMap fun p => [p.1, p.2]
  | .join a b d => [a, b, d]
  | .intoBlocks d maj min => [d, maj, min]
  | .intoBlocksDyn d maj min pres => [d, maj, min, pres]
  | .intoBlocksStat d border maj min _ => [d, border, maj, min]
  | .mergeBlocks maj min d => [maj, min, d]
  | .mergeZ _ _ ds d => d :: ds

/-- `mangle` of a view of a structure. After the structure there are the other dimensions, or the types of the
values. -/
def View.desc (N : Names) (v : View) (s : Desc) : Option Desc := do
  let ts ← v.vals.mapM Val.desc
  if v.params.all N.isChar then
    some (.node v.name (.ofList (v.before N ++ s :: (v.after.map fun d => .dim (N.dim d)) ++ ts)))
  else none

/-- `mangle` of a structure (`name` and `params`: structs/scalar.hpp:21-22, layouts.hpp:27-28, 220-221). A union has none
and does not compile (extra/traverser.hpp:98-157). -/
def Struct.desc (N : Names) : Struct → Option Desc
  | .scalar z a => some (.node "scalar".toList (.ofList [.type (N.elem z a)]))
  | .tuple t n fs => do
    let ds ← (List.finRange n).mapM fun i => (fs i).desc N
    if N.isChar t then some (.node "tuple_t".toList (.ofList (.dim (N.dim t) :: ds))) else none
  | .vector d s => do
    let x ← s.desc N
    if N.isChar d then some (.node "vector_t".toList (.ofList [.dim (N.dim d), x])) else none
  | .union _ _ => none
  | .view v s => do
    let x ← s.desc N
    v.desc N x

/-- What `mangle_expr` is given for a structure: its type, and what it contains: the structures, and the values. -/
def Struct.expr (N : Names) : Struct → Option Expr
  | .scalar z a => do
    let t ← (Struct.scalar z a).desc N
    some (.node t .nil)
  | .tuple t n fs => do
    let y ← (Struct.tuple t n fs).desc N
    let es ← (List.finRange n).mapM fun i => (fs i).expr N
    some (.node y (.ofList es))
  | .vector d s => do
    let y ← (Struct.vector d s).desc N
    let e ← s.expr N
    some (.node y (.ofList [e]))
  | .union _ _ => none
  | .view v s => do
    let y ← (Struct.view v s).desc N
    let e ← s.expr N
    let es ← v.vals.mapM Val.expr
    some (.node y (.ofList (e :: es)))

end Noarr
