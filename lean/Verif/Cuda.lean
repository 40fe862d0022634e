import Verif.Traverser

/-
Traversals distributed among the threads of a GPU (interop/cuda_traverser.cuh, interop/cuda_step.cuh).

`blockIdx` and `threadIdx` of a thread are parameters of the model; a kernel is run once for each
combination of them below `gridDim` and `blockDim`. Not modelled: limits on these dimensions, the stream of
the kernel, its other arguments.
-/

namespace Noarr

/-- `sig_remove_first` (extra/sig_utils.hpp:113-132). -/
def Sig.removeFirst : Sig → Sig
  | .fn _ _ r => r
  | .dep _ n rs => if h : n = 1 then rs ⟨0, by omega⟩ else .ill
  | _ => .ill

/-- `cuda_fix_t<Dim, T, CudaDim>` (interop/cuda_traverser.cuh:51-146) in a thread where `CudaDim::idx()` is
`i`. -/
def cudaFixSem (d : Dim) (i : Nat) (S : Sem) : ViewSem :=
  let sub (st : State) : State := (st.remove (.len d)).set (.idx d) (.dyn i)
  let hasLen (q : Dim) (st : State) : Option Bool := S.hasLen q (sub st)
  { sig := S.sig.replace Sig.removeFirst [d]
    sub := fun st => some (sub st)
    hasLen := hasLen
    len := fun q st => guardLen (hasLen q st) (S.len q (sub st)) }

/-- The queries of a structure with several `cuda_fix_t` on top, the first one innermost. -/
def cudaFixed (S : Sem) : List (Dim × Nat) → Sem
  | [] => S
  | (d, i) :: fs => cudaFixed ((cudaFixSem d i S).toSem S) fs

/-- `state_at` through the `cuda_fix_t` (interop/cuda_traverser.cuh:134-145). -/
def cudaState : List (Dim × Nat) → State → State
  | [], st => st
  | (d, i) :: fs, st => ((cudaState fs st).remove (.len d)).set (.idx d) (.dyn i)

/-- All the tuples of indices below the given bounds, in lexicographic order. -/
def indexBox : List Nat → List (List Nat)
  | [] => [[]]
  | n :: ns => (List.range n).flatMap fun i => (indexBox ns).map (i :: ·)

/-- `cuda_traverser_t<Struct, Order, dim_sequence<DimsB...>, dim_sequence<DimsT...>, ...>`
(interop/cuda_traverser.cuh:168-178): a traverser with the dimensions for the blocks and the threads. The
dimensions of the grid they are mapped to are x, y, z in this order (lines 223-239); in the model their
number is not limited to three. -/
structure CudaTraverser where
  trav : Traverser
  pairs : List (Dim × Dim)

namespace CudaTraverser

/-- The length of a dimension as a `uint`, a 32-bit number. `none`: does not compile, or a fault happened
when the length was computed. -/
def extent (A : Arith) (c : CudaTraverser) (d : Dim) : Option Nat := do
  let l ← (c.trav.top.sem A).len d .empty
  let n ← l.nat?
  some (n % 2 ^ 32)

/-- `cuda_traverser_t::grid_dim` (interop/cuda_traverser.cuh:185-189). -/
def gridDim (A : Arith) (c : CudaTraverser) : Option (List Nat) := c.pairs.mapM fun p => c.extent A p.1

/-- `cuda_traverser_t::block_dim` (interop/cuda_traverser.cuh:191-195). -/
def blockDim (A : Arith) (c : CudaTraverser) : Option (List Nat) := c.pairs.mapM fun p => c.extent A p.2

/-- `cuda_traverser_t::operator bool` (interop/cuda_traverser.cuh:197-201): none of the lengths is zero. -/
def nonEmpty (A : Arith) (c : CudaTraverser) : Option Bool := do
  let ls ← (c.pairs.map Prod.snd ++ c.pairs.map Prod.fst).mapM fun d =>
    (c.trav.top.sem A).len d .empty
  let ns ← ls.mapM Val.nat?
  some (ns.all fun n => n != 0)

/-- `get_fixes` (interop/cuda_traverser.cuh:150-161, 180-183) in the thread with these `blockIdx` and
`threadIdx`: for each pair of dimensions, the fix of the dimension for threads and, outside, that of the
dimension for blocks. -/
def fixes : List (Dim × Dim) → List Nat → List Nat → List (Dim × Nat)
  | (b, t) :: ps, i :: is, j :: js => (t, j) :: (b, i) :: fixes ps is js
  | _, _, _ => []

/-- `inner().for_each` (interop/cuda_traverser.cuh:203-206; extra/traverser.hpp:198-217) in the thread with
these `blockIdx` and `threadIdx`: the states passed to the function. The top structure is that of the
traverser with the fixes. -/
def inner (A : Arith) (c : CudaTraverser) (bs ts : List Nat) : Option (List State) := do
  let fs := fixes c.pairs bs ts
  let S := cudaFixed (c.trav.top.sem A) fs
  let ps ← walk S S.sig.tree .empty
  ps.mapM fun p => do
    let st ← stateAt A c.trav.top (p.map fun di => .fix di.1 di.2) .empty
    stateAt A c.trav.base c.trav.views (cudaState fs st)

/-- The threads of the kernel launched by `simple_run` (interop/cuda_traverser.cuh:208-215): `blockIdx` and
`threadIdx` of each. -/
def threads (A : Arith) (c : CudaTraverser) : Option (List (List Nat × List Nat)) := do
  let g ← c.gridDim A
  let b ← c.blockDim A
  some ((indexBox g).flatMap fun bs => (indexBox b).map fun ts => (bs, ts))

/-- What the threads visit when the kernel calls `for_each` of the traverser it gets. -/
def run (A : Arith) (c : CudaTraverser) : Option (List (List State)) := do
  let ths ← c.threads A
  ths.mapM fun th => c.inner A th.1 th.2

end CudaTraverser

/-- The views of `cuda_step<Dim>(group)` (interop/cuda_step.cuh:10-28) for the thread of the given rank in a
group of `n` threads. -/
def cudaStep (d : Dim) (rank n : Nat) : View := .step d (.dyn rank) (.dyn n)

end Noarr
