import Verif.Cuda

/-
Notions used in the statements about traversals on a GPU.
-/

namespace Noarr

/-- A dimension that is not a tuple dimension and is not inside a tuple. -/
def Outside (S : Sem) (d : Dim) : Prop := ∃ l r, S.sig.find d .empty = .fn d l r

end Noarr
