import Verif.Traverser

/-
Proto-structures, their composition by `^`, and traversers whose order is a proto-structure.
-/

namespace Noarr

/-- Proto-structures.
* `neutral`: `neutral_proto` (base/structs_common.hpp:347-355);
* `vector d`: `vector_proto` (structs/layouts.hpp:340-349), `tuple d`: `tuple_proto`
  (structs/layouts.hpp:195-204), `view v`: the proto-structures of the views (`proto_preserves_layout`
  is true there);
* `autoStep a k`: `auto_step_proto`, `step(a, k)` without a dimension (structs/slice.hpp:659-675);
* `comp n is o`: `compose_proto<pack<Is...>, O>` (base/structs_common.hpp:357-381);
* `each p`: `to_each<P>` (base/structs_common.hpp:266-276);
* `user f keep`: `make_proto<keep>(f)` (base/structs_common.hpp:280-288, 314-318), for a function `f` that makes a
  structure from a structure. Functions that make a pack are left out. -/
inductive Proto
  | neutral
  | vector (d : Dim)
  | tuple (d : Dim)
  | view (v : View)
  | autoStep (a k : Val)
  | comp (n : Nat) (is : Fin n → Proto) (o : Proto)
  | each (p : Proto)
  | user (f : Struct → Option Struct) (keep : Bool)

namespace Proto

/-- `operator^` of two proto-structures (base/structs_common.hpp:383-389). -/
def andThen (i o : Proto) : Proto := .comp 1 (fun _ => i) o

/-- `pack(is...) ^ o` (base/structs_common.hpp:391-397). -/
def packAndThen {n : Nat} (is : Fin n → Proto) (o : Proto) : Proto := .comp n is o

/-- `pack(ss...) ^ p`, or `s ^ p` when there is one structure (base/structs_common.hpp:320-332):
`p.instantiate_and_construct(ss...)`. `none` if there is no such function for that number of
structures.

`compose_proto` (base/structs_common.hpp:369-380) computes `ss ^ pack(is...) ^ o`, where
`ss ^ pack(is...)` is `pack((ss ^ is)...)` (base/structs_common.hpp:297-300, 334-338). For `to_each` and a pack of
several, `ss ^ is` is a pack (see `Obj.apply`), and a pack of packs has no `^ o`. -/
def inst (A : Arith) : Proto → List Struct → Option Struct
  | neutral, [s] => some s
  | vector d, [s] => some (.vector d s)
  | tuple d, ss => some (.tuple d ss.length (fun i => ss.get i))
  | view v, [s] => some (.view v s)
  | autoStep a k, [s] =>
    match (s.sem A).sig with
    | .fn d _ _ => some (.view (.step d a k) s)
    | _ => none
  | comp n is o, ss => ((List.finRange n).mapM fun i => (is i).inst A ss).bind (o.inst A)
  | each p, [s] => p.inst A [s]
  | user f _, [s] => f s
  | _, _ => none

/-- `proto_preserves_layout`: the proto-structure only adds views; for `compose_proto` all the parts
must (base/structs_common.hpp:366-367). -/
def keepsLayout : Proto → Bool
  | neutral => true
  | vector _ => false
  | tuple _ => false
  | view _ => true
  | autoStep _ _ => true
  | comp n is o => o.keepsLayout && (List.finRange n).all fun i => (is i).keepsLayout
  | each p => p.keepsLayout
  | user _ keep => keep

/-- A proto-structure that adds views to one structure: it keeps the layout and has no pack of
several. -/
def linear : Proto → Prop
  | neutral => True
  | vector _ => False
  | tuple _ => False
  | view _ => True
  | autoStep _ _ => True
  | comp n is o => n = 1 ∧ (∀ i, (is i).linear) ∧ o.linear
  | each p => p.linear
  | user _ _ => False

/-- The views that a linear proto-structure adds to the structure `s`, the innermost first. This is
the link between a proto-structure and the `views` of `Traverser`. -/
def views (A : Arith) : Proto → Struct → Option (List View)
  | neutral, _ => some []
  | view v, _ => some [v]
  | autoStep a k, s =>
    match (s.sem A).sig with
    | .fn d _ _ => some [.step d a k]
    | _ => none
  | comp 1 is o, s => do
    let vs ← (is 0).views A s
    let ws ← o.views A (s.apply vs)
    some (vs ++ ws)
  | each p, s => p.views A s
  | _, _ => none

/-- `fix(state)` (extra/shortcuts.hpp:329-332): `(neutral_proto() ^ ... ^ fix<Dim>(index))` over the
indices of the state. -/
def ofPath (p : Path) : Proto := p.foldl (fun a di => a.andThen (.view (.fix di.1 di.2))) .neutral

end Proto

/-- What can stand on the left of `^` besides proto-structures: a structure or a pack, of structures or of packs
(base/structs_common.hpp:254-264). -/
inductive Obj
  | one (s : Struct)
  | pack (os : List Obj)

/-- What can stand on the right of `^`: a proto-structure or a pack. -/
inductive Maker
  | proto (p : Proto)
  | pack (n : Nat) (ms : Fin n → Maker)

/-- The structures of a pack of structures (`requires (... && IsStruct<Structs>)`). An empty pack is left out: for it
two overloads of `operator^` match (base/structs_common.hpp:327-332, 391-397). -/
def Obj.structs : List Obj → Option (List Struct)
  | [] => none
  | [one s] => some [s]
  | one s :: os => (Obj.structs os).map (s :: ·)
  | _ => none

/-- `x ^ p` (base/structs_common.hpp:290-307, 320-345), after the choice among the overloads:
* a structure and a proto-structure: `p.instantiate_and_construct(x)`;
* a pack of structures and `to_each(p)`: the overloads of `operator^` and `pass_pack` for `to_each` are the more
  special ones; each of the structures is given to `p`;
* a pack of structures and another proto-structure: `p.instantiate_and_construct(ss...)`;
* anything and a pack: `pack((x ^ ps)...)`. -/
def Obj.apply (A : Arith) (x : Obj) : Maker → Option Obj
  | .pack n ms => ((List.finRange n).mapM fun i => x.apply A (ms i)).map .pack
  | .proto p =>
    match x with
    | one s => (p.inst A [s]).map one
    | pack os => do
      let ss ← Obj.structs os
      match p with
      | .each p => do
        let rs ← ss.mapM fun s => p.inst A [s]
        some (.pack (rs.map one))
      | p => (p.inst A ss).map one

/-- `traverser_t<Struct, Order>` (extra/traverser.hpp:164-177), with the order as it is written. -/
structure ProtoTraverser where
  base : Struct
  order : Proto

namespace ProtoTraverser

/-- `traverser_t::order` (extra/traverser.hpp:180-184). -/
def reorder (t : ProtoTraverser) (p : Proto) : ProtoTraverser := { t with order := t.order.andThen p }

/-- `traverser_t::top_struct` (extra/traverser.hpp:186-189). -/
def top (A : Arith) (t : ProtoTraverser) : Option Struct := t.order.inst A [t.base]

/-- `traverser(s)` (extra/traverser.hpp:278-287): the order is `neutral_proto`. -/
def of (s : Struct) : ProtoTraverser := ⟨s, .neutral⟩

/-- The traverser with the views of the order. The functions of `Traverser` depend on nothing else:
in the code they use only `get_struct()` and `top_struct()` (extra/traverser.hpp:186-285). -/
def traverser (A : Arith) (t : ProtoTraverser) : Option Traverser :=
  (t.order.views A t.base).map fun vs => ⟨t.base, vs⟩

end ProtoTraverser

end Noarr
