import Verif.Struct

/-
Traversers: trees of dimensions, the loops of `for_each_impl`, and the functions of `traverser_t`.
-/

namespace Noarr

/-- `dim_tree<d, Branches...>` and `dim_sequence<>` (base/utility.hpp:199-206). `bad` stands for a
type that does not compile. -/
inductive DimTree
  | leaf
  | node (d : Dim) (n : Nat) (bs : Fin n → DimTree)
  | bad

namespace DimTree

/-- `dim_tree_contains` (base/utility.hpp:208-220). -/
def contains (v : Dim) : DimTree → Bool
  | leaf => false
  | node d _ bs => d == v || decide (∃ i, (bs i).contains v = true)
  | bad => false

/-- `dim_tree_branches` (base/utility.hpp:222-249): the maximal number of branches of the dimension. -/
def branches (v : Dim) : DimTree → Nat
  | leaf => 0
  | node d n bs => if d = v then n else ((List.finRange n).map fun i => (bs i).branches v).foldr max 0
  | bad => 0

/-- `dim_tree_fix` (base/utility.hpp:251-268): take the given branch in one dimension. -/
def fix (v : Dim) (k : Nat) : DimTree → DimTree
  | leaf => leaf
  | node d n bs =>
    if d = v then (if h : k < n then bs ⟨k, h⟩ else bad) else .node d n (fun i => (bs i).fix v k)
  | bad => bad

/-- `dim_tree_hoist_impl` (base/utility.hpp:270-282). -/
def hoist (v : Dim) (t : DimTree) : DimTree :=
  .node v (t.branches v) (fun i => t.fix v i)

/-- `dim_tree_reorder` (base/utility.hpp:284-298). -/
def reorder (t : DimTree) : List Dim → DimTree
  | [] => t
  | v :: vs => (t.reorder vs).hoist v

/-- `dim_tree_filter_impl` (base/utility.hpp:300-318): a dimension that is not kept must have one
branch. -/
def filter (keep : Dim → Bool) : DimTree → DimTree
  | leaf => leaf
  | node d n bs =>
    if keep d then .node d n (fun i => (bs i).filter keep)
    else if h : n = 1 then (bs ⟨0, by omega⟩).filter keep else bad
  | bad => bad

end DimTree

/-- `sig_dim_tree<Signature>` (extra/sig_utils.hpp:51-70). -/
def Sig.tree : Sig → DimTree
  | .scalar _ => .leaf
  | .void => .leaf
  | .fn d _ r => .node d 1 (fun _ => r.tree)
  | .dep d n rs => .node d n (fun i => (rs i).tree)
  | .ill => .bad

/-- The results of consecutive loops, one after another; `none` if one of them does not compile. -/
def seqAll {α : Type} : List (Option (List α)) → Option (List α)
  | [] => some []
  | o :: l => do
    let a ← o
    let b ← seqAll l
    some (a ++ b)

/-- The indices set by nested loops, from the outermost. -/
abbrev Path := List (Dim × Val)

/-- `traverser_t::for_each_impl` and `for_each_impl_dep` (extra/traverser.hpp:241-275) for the top
structure with the queries `S`: the sequence of states at which the innermost function is called, each
as the list of indices set on the way. In a tuple dimension the index is a constant.

`none`: the program does not compile, or the length of a loop is not a number (a fault happened
when it was computed). Simplification: a loop with zero iterations is not checked to compile. -/
def walk (S : Sem) : DimTree → State → Option (List Path)
  | .leaf, _ => some [[]]
  | .bad, _ => none
  | .node d n bs, st =>
    match S.sig.find d st with
    | .dep _ _ _ => seqAll ((List.finRange n).map fun i =>
        (walk S (bs i) (st.set (.idx d) (.lit i))).map fun ps => ps.map fun p => (d, .lit i) :: p)
    | .fn _ _ _ =>
      if h : n = 1 then do
        let l ← S.len d st
        let m ← l.nat?
        seqAll ((List.range m).map fun i =>
          (walk S (bs ⟨0, by omega⟩) (st.set (.idx d) (.dyn i))).map fun ps =>
            ps.map fun p => (d, .dyn i) :: p)
      else none
    | _ => none

/-- `traverser_t<Struct, Order>` (extra/traverser.hpp:164-177). The order is a composition of
proto-structures (see `Proto`). -/
structure Traverser where
  base : Struct
  views : List View

namespace Traverser

/-- `traverser_t::order` (extra/traverser.hpp:180-184). -/
def order (t : Traverser) (vs : List View) : Traverser := { t with views := t.views ++ vs }

/-- `traverser_t::top_struct` (extra/traverser.hpp:186-189). -/
def top (t : Traverser) : Struct := t.base.apply t.views

/-- `traverser_t::state` (extra/traverser.hpp:191-194). -/
def state (A : Arith) (t : Traverser) : Option State := stateAt A t.base t.views .empty

/-- The traverser for one iteration: `order(fix(state))`, or `*this` if the state is empty
(extra/traverser.hpp:267-275; `fix(state)` is in extra/shortcuts.hpp:329-346). -/
def visit (t : Traverser) (p : Path) : Traverser := t.order (p.map fun di => .fix di.1 di.2)

/-- `for_each_impl` for a tree of dimensions, starting from the empty state: the traversers passed to
the function. -/
def run (A : Arith) (t : Traverser) (tree : DimTree) : Option (List Traverser) :=
  (walk (t.top.sem A) tree .empty).map fun ps => ps.map t.visit

/-- `traverser_t::for_sections` (extra/traverser.hpp:204-217): without dimensions, over all of
them. -/
def forSections (A : Arith) (t : Traverser) (ds : List Dim) : Option (List Traverser) :=
  match ds with
  | [] => t.run A (t.top.sem A).sig.tree
  | ds =>
    let tree := (t.top.sem A).sig.tree.filter (fun d => ds.contains d)
    if ds.all (fun d => tree.contains d) then t.run A tree else none

/-- `traverser_t::for_each` (extra/traverser.hpp:198-202): the states passed to the function. -/
def forEach (A : Arith) (t : Traverser) (ds : List Dim) : Option (List State) := do
  let ts ← t.forSections A ds
  ts.mapM fun t => t.state A

/-- `traverser_t::for_dims` (extra/traverser.hpp:219-226). -/
def forDims (A : Arith) (t : Traverser) (ds : List Dim) : Option (List Traverser) :=
  let tree := (t.top.sem A).sig.tree.filter (fun d => ds.contains d)
  if ds.all (fun d => tree.contains d) then t.run A (tree.reorder ds) else none

end Traverser

end Noarr
