import Verif.Traverser

/-
Notions used in the statements about nested traversals (C29).
-/

namespace Noarr

/-- The nest of loops compiles, whether or not the loops are entered: every dimension is found where the
loop is, with the outer indices given; an ordinary dimension has one branch, a tuple dimension has at
least one field. -/
def Compiles : DimTree → Sig → Prop
  | .leaf, _ => True
  | .bad, _ => False
  | .node d n bs, S =>
    match S.find d .empty with
    | .fn _ _ _ => n = 1 ∧ ∀ i v, Compiles (bs i) (S.replace (Sig.fixRepl (.dyn v)) [d])
    | .dep _ _ _ => 0 < n ∧ ∀ i : Fin n, Compiles (bs i) (S.replace (Sig.fixRepl (.lit i)) [d])
    | _ => False

end Noarr
