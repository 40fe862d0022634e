import Verif.SigPath
import Verif.BoundsSpec
import Verif.Traverser

/-
Notions used in the statements about traversals.
-/

namespace Noarr

/-- The state with the indices of the path. -/
def Path.state (p : Path) (st : State) : State := p.foldl (fun st di => st.set (.idx di.1) di.2) st

/-- The combinations of indices of nested loops over the dimensions of a signature, from the
outermost: below the length of the dimension - as reported when the outer indices are set - or, for a
tuple dimension, a constant that selects one of the fields. -/
inductive Nested (S : Sem) : Sig → State → Path → Prop
  | scalar {s st} : Nested S (.scalar s) st []
  | void {st} : Nested S .void st []
  | fn {d a r st l m p} (i : Nat) : S.len d st = some l → l.Num m → i < m →
      Nested S r (st.set (.idx d) (.dyn i)) p → Nested S (.fn d a r) st ((d, .dyn i) :: p)
  | dep {d n rs st p} (k : Fin n) : Nested S (rs k) (st.set (.idx d) (.lit k)) p →
      Nested S (.dep d n rs) st ((d, .lit k) :: p)

/-- The index in dimension `q` of the state `st` is in range: a constant that selects a field, if `q`
is a tuple dimension; otherwise a run-time index below the length reported when all the indices
except for `q` are set. -/
def IndexOk (S : Sem) (st : State) (q : Dim) : Prop :=
  match S.sig.find q st with
  | .dep _ n _ => ∃ k, k < n ∧ st (.idx q) = some (.lit k)
  | _ => ∃ k l m, st (.idx q) = some (.dyn k) ∧ S.len q (st.remove (.idx q)) = some l ∧
      l.Num m ∧ k < m

/-- The state addresses one element: it contains the indices that are needed, all of them in range,
and nothing else. -/
structure Addresses (S : Sem) (st : State) : Prop where
  ok : ∀ q, S.sig.needs st q → IndexOk S st q
  only : ∀ q, (st (.idx q)).isSome → S.sig.needs st q
  noLen : ∀ q, st (.len q) = none

/-- The length of every dimension that is needed and is not a tuple dimension can be queried when the
other indices are set. -/
def LengthsKnown (S : Sem) (st : State) : Prop :=
  ∀ q, S.sig.needs st q → (∀ d n rs, S.sig.find q st ≠ .dep d n rs) →
    (S.len q (st.remove (.idx q))).isSome

/-- An offset query may pass through the views of the order in the state `st`: every `reorder` names
all the dimensions, and the dimensions of `into_blocks_dynamic` are set (structs/views.hpp:191-195,
structs/blocks.hpp:347-355). -/
def OrderOk (A : Arith) (s : Struct) : List View → State → Prop
  | [], _ => True
  | v :: vs, st => OrderOk A (.view v s) vs st ∧
      ∀ u, stateAt A (.view v s) vs st = some u → (v.sem A (s.sem A)).offOk u = true

/-- The preconditions of the views of an order, for the state `st` of the top structure. -/
def OrderPre (A : Arith) (s : Struct) : List View → State → Prop
  | [], _ => True
  | v :: vs, st => OrderPre A (.view v s) vs st ∧
      ∀ u w, stateAt A (.view v s) vs st = some u → (v.sem A (s.sem A)).sub u = some w →
        v.pre A (s.sem A) u w

/-- In the dimensions that have an index in `st`, the structure `s` has the lengths of the structure
that is traversed. -/
def Fits (A : Arith) (t s : Struct) (st : State) : Prop :=
  ∀ q n, (st (.idx q)).isSome → (s.sem A).len q (st.remove (.idx q)) = some n →
    (t.sem A).len q (st.remove (.idx q)) = some n

/-- Lexicographic order: the outermost index that differs is smaller. -/
inductive PathLt : Path → Path → Prop
  | head {d i j p p' a b} : i.Num a → j.Num b → a < b → PathLt ((d, i) :: p) ((d, j) :: p')
  | tail {di p p'} : PathLt p p' → PathLt (di :: p) (di :: p')

theorem PathLt.irrefl (p : Path) : ¬ PathLt p p := by
  intro h
  generalize hp : p = p' at h
  have : ∀ {p p'}, PathLt p p' → p ≠ p' := by
    intro p p' h
    induction h with
    | head hi hj h =>
      rintro e
      cases e
      have : _ = _ := hi.symm.trans hj
      cases this
      omega
    | tail _ ih => intro e; cases e; exact ih rfl
  subst hp
  exact this h rfl

theorem PathLt.nodup {ps : List Path} (h : ps.Pairwise PathLt) : ps.Nodup := by
  refine h.imp ?_
  rintro p _ hlt rfl
  exact PathLt.irrefl _ hlt

end Noarr
