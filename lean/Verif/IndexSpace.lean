import Verif.Traverser

/-
`index_space_size` (extra/shortcuts.hpp:300-325, 367-375).
-/

namespace Noarr

/-- The unary left fold `(... + x)`; it does not compile for no summands. -/
def sumVals (A : Arith) : List Val → Option Val
  | [] => none
  | v :: vs => some (vs.foldl (·.add A ·) v)

/-- `index_space_size_impl::get_impl` (extra/shortcuts.hpp:312-324): a dimension with one branch
contributes its length, as reported without any index; a dimension with several branches the sum of
the branches. The results are of type `size_t`; a product with a constant zero is kept a constant
here, which has the same value. -/
def indexSpaceSizeOf (A : Arith) (S : Sem) : DimTree → Option Val
  | .leaf => some (.dyn 1)
  | .bad => none
  | .node d n bs =>
    if h : n = 1 then do
      let l ← S.len d .empty
      let r ← indexSpaceSizeOf A S (bs ⟨0, by omega⟩)
      some (l.mul A r)
    else do
      let rs ← (List.finRange n).mapM fun i => indexSpaceSizeOf A S (bs i)
      sumVals A rs

/-- `index_space_size(structure)` (extra/shortcuts.hpp:367-370). -/
def Struct.indexSpaceSize (A : Arith) (s : Struct) : Option Val :=
  indexSpaceSizeOf A (s.sem A) (s.sem A).sig.tree

/-- The signature has a tuple dimension `d` with exactly one field. -/
def Sig.hasSingle (d : Dim) : Sig → Prop
  | .scalar _ => False
  | .void => False
  | .fn _ _ r => r.hasSingle d
  | .dep e n rs => (d = e ∧ n = 1) ∨ ∃ i, (rs i).hasSingle d
  | .ill => False

end Noarr
