import Verif.Program
import Verif.Matrix

/-
The vectorised sum of the documentation (docs/structs/into_blocks.md, "Parallelization").
-/

namespace Noarr

/-- `traverser.for_each([&](auto state) { x = op(x, bag[state]); })` with a local variable `x` of the program, if these
are the states that the traverser visits. -/
def Prog.foldOver {σ : Type} (bag : Nat) (op : σ → List UInt8 → σ) : List State → σ → Prog σ
  | [], x => .done x
  | st :: sts, x => .get bag st fun v => Prog.foldOver bag op sts (op x v)

/-- The program of docs/structs/into_blocks.md, "Parallelization", that sums up the elements of `input` by adding up whole
blocks. The bags 0 and 1 are `input_blocks` and `sums`, `t0` and `t1` are `traverser(input_blocks)` and
`traverser(sums)`. `none`: it does not compile. -/
def blockSum {R : Type} [Add R] (A : Arith) (E : ElemType R) (zero : R) (t0 t1 : Traverser) : Option (Prog R) := do
  let clear ← t1.forEachProg A fun si => .set 1 si (E.enc zero) (.done ())
  let add ← t0.forEachProg A fun sii => .get 0 sii fun v => .get 1 sii fun w =>
    .set 1 sii (E.enc (E.dec w + E.dec v)) (.done ())
  let sis ← t1.forEach A []
  some (clear.bind fun _ => add.bind fun _ => Prog.foldOver 1 (fun sum v => sum + E.dec v) sis zero)

end Noarr
