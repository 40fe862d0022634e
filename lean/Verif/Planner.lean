import Verif.Traverser

/-
Planners: `planner_t` and the endings that are registered with it (extra/planner.hpp).

A call of `execute` is represented by the list of the calls of registered functions it makes, in order.
What such a function does is up to the user; in the model a call is the function and the planner it is
called with.
-/

namespace Noarr

/-- The signature of `sigholder_t() ^ fix(state)` (extra/planner.hpp:56-62, 106-112, 262-268;
`fix(state)` is in extra/shortcuts.hpp:280-288, 329-332): every dimension that has an index in the state
is fixed. Simplified: all at once, not one after another. -/
def Sig.fixState (st : State) : Sig → Sig
  | .scalar s => .scalar s
  | .void => .void
  | .fn d l r => if st.has (.idx d) then r.fixState st else .fn d l (r.fixState st)
  | .dep d n rs =>
    if st.has (.idx d) then
      match litIdx n (st (.idx d)) with
      | some k => (rs k).fixState st
      | none => .ill
    else .dep d n (fun i => (rs i).fixState st)
  | .ill => .ill

/-- `IsGroundSig` (base/signature.hpp:156-166). -/
def Sig.ground : Sig → Bool
  | .scalar _ => true
  | .void => true
  | _ => false

/-- What is to be called: a function registered by `for_each` or `for_each_elem`, called with the state
(and the elements), or by `for_sections` or `for_dims`, called with a planner. -/
inductive Body
  | each (f : Nat)
  | section (f : Nat)
deriving DecidableEq, Repr

/-- `planner_ending_t`, `planner_ending_elem_t`, `planner_sections_t`
(extra/planner.hpp:35-79, 85-118, 241-274): a signature and a function. -/
structure Ending where
  sig : Sig
  body : Body

/-- `Ending::order(fix(state))::activated` (extra/planner.hpp:39, 56-62, 89, 106-112, 245, 262-268).
`none`: does not compile. -/
def Ending.activated (e : Ending) (u : State) : Option Bool :=
  let s := e.sig.fixState u
  if s.wf then some s.ground else none

/-- `planner_endings::order(fix(state))`: the activated ending; more than one of them does not compile
(extra/planner.hpp:133-154, 180-194). -/
def activatedEnding (es : List Ending) (u : State) : Option (Option Ending) := do
  let bs ← es.mapM fun e => (e.activated u).map fun b => (e, b)
  match bs.filter (fun eb => eb.2) with
  | [] => some none
  | [eb] => some (some eb.1)
  | _ => none

/-- `planner_t<Union, Order, Endings>` (extra/planner.hpp:285-316). The structure `base` is a union. -/
structure Planner where
  base : Struct
  views : List View
  endings : List Ending

/-- `for_each_impl` of `planner_t` (extra/planner.hpp:400-423), for the top structure with the queries
`S`: the sequence of states at which the endings are called, each as the list of indices set on the way.
`act` says whether an ending is activated. Compared to `walk`, it stops as soon as an ending is
activated, and one must be activated when there are no more dimensions (lines 420-421). A loop over a
tuple dimension does not compile, since `for_each_impl_dep` (lines 394-398) has no bottom case, unlike
that of the traverser (extra/traverser.hpp:248-251).

`none` as in `walk`. -/
def planWalk (S : Sem) (act : State → Option Bool) : DimTree → State → Option (List Path)
  | .leaf, st =>
    match act st with
    | some true => some [[]]
    | _ => none
  | .bad, _ => none
  | .node d n bs, st =>
    match act st with
    | none => none
    | some true => some [[]]
    | some false =>
      match S.sig.find d st with
      | .fn _ _ _ =>
        if h : n = 1 then do
          let l ← S.len d st
          let m ← l.nat?
          seqAll ((List.range m).map fun i =>
            (planWalk S act (bs ⟨0, by omega⟩) (st.set (.idx d) (.dyn i))).map fun ps =>
              ps.map fun p => (d, .dyn i) :: p)
        else none
      | _ => none

namespace Planner

/-- `planner_t::top_struct` (extra/planner.hpp:388-391). -/
def top (p : Planner) : Struct := p.base.apply p.views

/-- `planner_t::order` (extra/planner.hpp:318-322). -/
def order (p : Planner) (vs : List View) : Planner := { p with views := p.views ++ vs }

/-- `planner_t::state` (extra/planner.hpp:383-386). -/
def state (A : Arith) (p : Planner) : Option State := stateAt A p.base p.views .empty

/-- The activated ending in a state of the top structure (extra/planner.hpp:402-403, 420-421). -/
def activated (A : Arith) (p : Planner) (st : State) : Option (Option Ending) :=
  (stateAt A p.base p.views st).bind (activatedEnding p.endings)

/-- `planner_t::for_each`, `for_each_elem` (extra/planner.hpp:330-344): only if there are no endings
yet. -/
def forEach (A : Arith) (p : Planner) (f : Nat) : Option Planner :=
  match p.endings with
  | [] => some { p with endings := [⟨(p.base.sem A).sig, .each f⟩] }
  | _ => none

/-- `planner_t::for_sections` (extra/planner.hpp:360-367). -/
def forSections (A : Arith) (p : Planner) (ds : List Dim) (f : Nat) : Planner :=
  { p with endings := p.endings ++ [⟨(p.base.sem A).sig.reassemble ds .empty, .section f⟩] }

/-- `planner ^ for_dims<Dims...>(f)` (extra/planner.hpp:503-513; `hoist` of several dimensions is in
structs/views.hpp:326-334). -/
def forDims (A : Arith) (p : Planner) (ds : List Dim) (f : Nat) : Planner :=
  (p.forSections A ds f).order (ds.reverse.map .hoist)

/-- `planner_t::pop_endings` and `planner_endings::get_next` (extra/planner.hpp:324-328, 156-178): the
endings that are not activated remain. -/
def pop (A : Arith) (p : Planner) : Option Planner := do
  let u ← stateAt A p.base p.views .empty
  some { p with endings := p.endings.filter fun e => (e.activated u).getD false = false }

/-- The planner of one iteration, `order(fix(state))` (extra/planner.hpp:404, 422). -/
def visit (p : Planner) (path : Path) : Planner := p.order (path.map fun di => .fix di.1 di.2)

/-- `planner_endings::operator()` (extra/planner.hpp:207-215): the activated function, and the planner
without the ending. -/
def call (A : Arith) (p : Planner) : Option (Body × Planner) := do
  let e ← p.activated A .empty
  let e ← e
  let q ← p.pop A
  some (e.body, q)

/-- `planner_t::execute` (extra/planner.hpp:369-374): the calls of registered functions. Without endings
it does not compile. -/
def execute (A : Arith) (p : Planner) : Option (List (Body × Planner)) :=
  match p.endings with
  | [] => none
  | _ => do
    let ps ← planWalk (p.top.sem A) (fun st => (p.activated A st).map Option.isSome)
      (p.top.sem A).sig.tree .empty
    ps.mapM fun path => (p.visit path).call A

end Planner

end Noarr
