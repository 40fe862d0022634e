import Verif.Struct

/-
The dimension names by which a state is read. Used in the statements of C71 and C72.
-/

namespace Noarr

/-- The names that are read by a view of a structure that reads the names `P`. -/
def View.names (P : Dim → Prop) (q : Dim) : View → Prop
  | .bcast d => q = d ∨ P q
  | .fix d _ => q ≠ d ∧ P q
  | .rename ps => ∃ q', P q' ∧ (q' ∈ ps.map Prod.fst ∨ q' ∉ ps.map Prod.snd) ∧ q = Sig.renameDim ps q'
  | .join a b d => q = d ∨ (q ∉ [a, b] ∧ P q)
  | .intoBlocks d maj min => q ∈ [maj, min] ∨ (q ≠ d ∧ P q)
  | .intoBlocksDyn d maj min pres => q ∈ [maj, min, pres] ∨ (q ≠ d ∧ P q)
  | .intoBlocksStat d border maj min _ => q ∈ [border, maj, min] ∨ (q ≠ d ∧ P q)
  | .mergeBlocks maj min d => q = d ∨ (q ∉ [maj, min] ∧ P q)
  | .mergeZ _ _ ds d => q = d ∨ (q ∉ ds ∧ P q)
  | _ => P q

/-- The names of the dimensions of a structure, in any of the fields of its tuples, as they are called from the
outside. -/
def Struct.names : Struct → Dim → Prop
  | .scalar _ _, _ => False
  | .tuple t _ fs, q => q = t ∨ ∃ i, (fs i).names q
  | .vector d s, q => q = d ∨ s.names q
  | .union _ ss, q => ∃ i, (ss i).names q
  | .view v s, q => v.names s.names q

/-- What is shifted, reversed or renamed is there. -/
def Struct.tidy : Struct → Prop
  | .scalar _ _ => True
  | .tuple _ _ fs => ∀ i, (fs i).tidy
  | .vector _ s => s.tidy
  | .union _ ss => ∀ i, (ss i).tidy
  | .view v s => s.tidy ∧
    match v with
    | .shift d _ => s.names d
    | .reverse d => s.names d
    | .rename ps => ∀ q ∈ ps.map Prod.fst, s.names q
    | _ => True

/-- The states have the same indices and lengths in the dimensions with the given names. -/
def AgreeOn (P : Dim → Prop) (st st' : State) : Prop :=
  ∀ q, P q → st (.idx q) = st' (.idx q) ∧ st (.len q) = st' (.len q)

end Noarr
