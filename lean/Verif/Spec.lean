import Verif.Struct

/-
Notions used in the statements of the properties. Nothing here is used by the model.
-/

namespace Noarr

/-- Two structures cannot be told apart by any query on any state (signatures aside). -/
structure Same (S S' : Sem) : Prop where
  hasLen : ∀ q st, S.hasLen q st = S'.hasLen q st
  len : ∀ q st, S.len q st = S'.len q st
  size : ∀ st, S.size st = S'.size st
  align : ∀ st, S.align st = S'.align st
  off : ∀ st x, S.off st x = S'.off st x
  elem : ∀ st, S.elem st = S'.elem st

/-- `a` and `b` give the same answers to `size`, `align`, `offset` and `elem` queries, in the
states `st` and `st'`, respectively. -/
structure SameAt (S : Sem) (st : State) (S' : Sem) (st' : State) : Prop where
  size : S.size st = S'.size st'
  align : S.align st = S'.align st'
  off : ∀ x, S.off st x = S'.off st' x
  elem : S.elem st = S'.elem st'

/-- The state extended by a run-time index. -/
abbrev State.at (st : State) (d : Dim) (i : Nat) : State := st.set (.idx d) (.dyn i)

/-- The state without index and length in `d`. -/
def State.Without (st : State) (d : Dim) : Prop := st (.idx d) = none ∧ st (.len d) = none

/-- The value is the number `n`, as a constant or at run time. -/
def Val.Num (v : Val) (n : Nat) : Prop := v.nat? = some n

/-- The structure has the length `n` in dimension `d`. -/
def Sem.HasLength (S : Sem) (d : Dim) (st : State) (n : Nat) : Prop :=
  ∃ v, S.len d st = some v ∧ v.Num n

end Noarr
