import Verif.OrderSpec

/-
Structures without tuple dimensions whose lengths depend on no index. Used in the statements of C31 and
C48.
-/

namespace Noarr

/-- The signature has no tuple dimension. -/
def Sig.flat : Sig → Prop
  | .scalar _ => True
  | .fn _ _ r => r.flat
  | _ => False

/-- The dimensions of a signature without tuples, from the outermost. -/
def Sig.dimList : Sig → List Dim
  | .fn d _ r => d :: r.dimList
  | _ => []

/-- The lengths of the structure are `N`, whatever the other indices are. -/
def HasLengths (S : Sem) (N : Dim → Nat) : Prop :=
  ∀ q, S.sig.anyAccept q = true → ∀ st : State, (∀ e, st (.len e) = none) → st (.idx q) = none →
    ∃ l, S.len q st = some l ∧ l.Num (N q)

/-- The state consists of an index below `N` in each of the dimensions and nothing else. -/
structure OnBox (dims : Dim → Prop) (N : Dim → Nat) (st : State) : Prop where
  ok : ∀ q, dims q → ∃ k, k < N q ∧ st (.idx q) = some (.dyn k)
  only : ∀ q, ¬ dims q → st (.idx q) = none
  noLen : ∀ q, st (.len q) = none

/-- The indices of the state in the given dimensions, only. -/
def State.only (st : State) (keep : Dim → Bool) : State
  | .idx q => if keep q then st (.idx q) else none
  | .len _ => none

end Noarr
