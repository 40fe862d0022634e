import Verif.Cuda
import Verif.Program
import Verif.Matrix

/-
Kernels that use bags (interop/cuda_traverser.cuh, docs/Traverser.md).
-/

namespace Noarr

/-- `inner().state()` in the thread with these `blockIdx` and `threadIdx` (interop/cuda_traverser.cuh:203-206,
extra/traverser.hpp:191-194): the state that `bag[trav]` uses in a kernel (interop/bag.hpp:181-185 with `to_state` of a
traverser, extra/traverser.hpp:325-335). -/
def CudaTraverser.innerState (A : Arith) (c : CudaTraverser) (bs ts : List Nat) : Option State :=
  stateAt A c.trav.base c.trav.views (cudaState (fixes c.pairs bs ts) .empty)

/-- `kernel<<<cutrav.grid_dim(), cutrav.block_dim()>>>(cutrav.inner(), ...)` (docs/Traverser.md, "CUDA"): the programs of
the threads. A kernel is given by what it does with the states that `trav.for_each` visits and with the state of `trav`.
`none`: it does not compile, or a length is not a number. -/
def CudaTraverser.launch (A : Arith) (c : CudaTraverser) (kernel : List State → State → Prog Unit) :
    Option (List (Prog Unit)) := do
  let ths ← c.threads A
  ths.mapM fun th => do
    let sts ← c.inner A th.1 th.2
    let st ← c.innerState A th.1 th.2
    some (kernel sts st)

/-- The queries of a structure with several `fix` on top, the first one innermost. -/
def fixedSem (A : Arith) (S : Sem) : List (Dim × Val) → Sem
  | [] => S
  | (d, i) :: p => fixedSem A (((View.fix d i).sem A S).toSem S) p

/-- `trav.template for_dims<ds...>([=](auto trav) { ... })` in a kernel (extra/traverser.hpp:219-226), in the thread with
these `blockIdx` and `threadIdx`: for each call, the state of its traverser, and the states that `for_each` of this
traverser visits. -/
def CudaTraverser.sections (A : Arith) (c : CudaTraverser) (ds : List Dim) (bs ts : List Nat) :
    Option (List (State × List State)) := do
  let fs := fixes c.pairs bs ts
  let S := cudaFixed (c.trav.top.sem A) fs
  let tree := S.sig.tree.filter (fun d => ds.contains d)
  let ps ← if ds.all (fun d => tree.contains d) then walk S (tree.reorder ds) .empty else none
  let state (p : List (Dim × Val)) : Option State := do
    let st ← stateAt A c.trav.top (p.map fun di => .fix di.1 di.2) .empty
    stateAt A c.trav.base c.trav.views (cudaState fs st)
  ps.mapM fun p => do
    let S' := fixedSem A S p
    let ps' ← walk S' S'.sig.tree .empty
    let sts ← ps'.mapM fun p' => state (p ++ p')
    let st ← state p
    some (st, sts)

/-- A launch with a kernel that calls `for_dims` and does everything else in the calls (docs/Traverser.md:595-607). -/
def CudaTraverser.launchDims (A : Arith) (c : CudaTraverser) (ds : List Dim) (kernel : List State → State → Prog Unit) :
    Option (List (Prog Unit)) := do
  let ths ← c.threads A
  ths.mapM fun th => do
    let secs ← c.sections A ds th.1 th.2
    some (inTurn (secs.map fun sec => kernel sec.2 sec.1))
where
  /-- one program after the other -/
  inTurn : List (Prog Unit) → Prog Unit
    | [] => .done ()
    | p :: ps => p.bind fun _ => inTurn ps

/-- The kernel of the matrix product (docs/Traverser.md:566-575), for any computation: `T result = zero;
trav.for_each([=, &result](auto state) { result = op(result, e(state)); }); out[trav] = result;` -/
def reduceKernel {α β : Type} (e : State → Prog β) (op : α → β → α) (zero : α) (enc : α → List UInt8) (out : Nat) :
    List State → State → Prog Unit
  | [], st => .set out st (enc zero) (.done ())
  | x :: xs, st => (e x).bind fun b => reduceKernel e op (op zero b) enc out xs st

/-- `a[state] * b[state]`, with the matrices in the bags 0 and 1 -/
def product {R : Type} [Mul R] (E : ElemType R) (st : State) : Prog R :=
  .get 0 st fun a => .get 1 st fun b => .done (E.dec a * E.dec b)

end Noarr
