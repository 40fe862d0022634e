import Verif.Planner
import Verif.AliasSpec
import Verif.TraverseSpec

/-
Notions used in the statements about planners.
-/

namespace Noarr

/-- All the dimensions the function is registered for have an index. -/
def Ending.complete (e : Ending) (u : State) : Prop :=
  ∀ q, e.sig.needs u q → (u (.idx q)).isSome

/-- A function registered by `for_each`, or by `for_sections<ds...>`. -/
inductive Registered
  | each (f : Nat)
  | sections (ds : List Dim) (f : Nat)

/-- What is to be called. -/
def Registered.body : Registered → Body
  | .each f => .each f
  | .sections _ f => .section f

/-- The ending made by `for_each` and `for_sections`. -/
def Registered.ending (A : Arith) (base : Struct) : Registered → Ending
  | .each f => ⟨(base.sem A).sig, .each f⟩
  | .sections ds f => ⟨(base.sem A).sig.reassemble ds .empty, .section f⟩

/-- All the dimensions the function is registered for have an index: those of the structure, or the
given ones. -/
def Registered.given (A : Arith) (base : Struct) (u : State) : Registered → Prop
  | .each _ => ∀ q, (base.sem A).sig.needs u q → (u (.idx q)).isSome
  | .sections ds _ => ∀ q ∈ ds, (u (.idx q)).isSome

/-- A function is called in the state `st` of the top structure: all the dimensions it is registered
for have an index. -/
def Planner.due (A : Arith) (p : Planner) (rs : List Registered) (st : State) : Prop :=
  ∃ u, stateAt A p.base p.views st = some u ∧ ∃ r ∈ rs, r.given A p.base u

/-- The nested loops over the dimensions of a signature, as in `Nested`, that are left as soon as
`stop` holds. -/
inductive Outer (S : Sem) (stop : State → Prop) : Sig → State → Path → Prop
  | here {sig st} : stop st → Outer S stop sig st []
  | fn {d a r st l m p} (i : Nat) : ¬ stop st → S.len d st = some l → l.Num m → i < m →
      Outer S stop r (st.set (.idx d) (.dyn i)) p → Outer S stop (.fn d a r) st ((d, .dyn i) :: p)
  | dep {d n rs st p} (k : Fin n) : ¬ stop st → Outer S stop (rs k) (st.set (.idx d) (.lit k)) p →
      Outer S stop (.dep d n rs) st ((d, .lit k) :: p)

/-- The states the functions registered by `for_each` are called with, in order, when the functions
registered by `for_sections` and `for_dims` call `execute` of the planner they get and do nothing
else. `n` bounds the nesting. -/
def Planner.runAll (A : Arith) : Nat → Planner → Option (List State)
  | 0, _ => none
  | n + 1, p => (p.execute A).bind fun calls => seqAll (calls.map fun c =>
      match c.1 with
      | .each _ => (c.2.state A).map fun u => [u]
      | .section _ => Planner.runAll A n c.2)

/-- Views whose dimensions all have to be set before the dimensions under them are: not `bcast` and
`join`, and not `into_blocks_dynamic`, where the third one need not be. -/
def View.direct : View → Prop
  | .bcast _ | .join _ _ _ | .intoBlocksDyn _ _ _ _ => False
  | _ => True

end Noarr
