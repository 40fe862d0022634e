import Verif.Struct

/-
Striped structures for the shared memory of a GPU.

Models: include/noarr/structures/interop/cuda_striped.cuh.

The compile-time constants of the class are natural numbers here; that they fit `size_t` is not modelled.
-/

namespace Noarr

/-- `helpers::pad_to_multiple<Value, Mul>` (interop/cuda_striped.cuh:21). -/
def padToMultiple (v m : Nat) : Nat := (v + m - 1) / m * m

/-- The template parameters of `cuda_striped_t` (interop/cuda_striped.cuh:55-56): `NumStripes`, the size of
`ElemType`, `BankCount`, `BankWidth`; and whether `ElemType` is the scalar at the bottom of the structure
(as with `cuda_scalar_striped_t`, 232-233) or a structure that contains it. -/
structure Stripes where
  num : Nat
  elem : Nat
  banks : Nat
  width : Nat
  whole : Bool

namespace Stripes

/-- The constants (86-105) can be evaluated: there is no division by zero among them. -/
def compiles (p : Stripes) : Bool :=
  p.num != 0 && p.elem != 0 && p.banks != 0 && p.width != 0

/-- `tmp_stripe_padded_width` (interop/cuda_striped.cuh:88). -/
def tmpPadded (p : Stripes) : Nat := p.banks / p.num * p.width

/-- `stripe_padded_width` (interop/cuda_striped.cuh:90-92): the bytes of a stripe in a period. -/
def padded (p : Stripes) : Nat :=
  if p.tmpPadded < p.elem then padToMultiple p.elem p.width else p.tmpPadded

/-- `stripe_width_elems` (interop/cuda_striped.cuh:94). -/
def widthElems (p : Stripes) : Nat := p.padded / p.elem

/-- `stripe_width` (interop/cuda_striped.cuh:97). -/
def stripeWidth (p : Stripes) : Nat := p.widthElems * p.elem

/-- `total_width` (interop/cuda_striped.cuh:100-101): the period of the stripes. -/
def total (p : Stripes) : Nat := padToMultiple (p.padded * p.num) (p.banks * p.width)

/-- `max_conflict_size` (interop/cuda_striped.cuh:105). -/
def maxConflict (p : Stripes) : Nat := p.total / (p.banks * p.width)

/-- The stripe that is accessed (interop/cuda_striped.cuh:203-209): the one in the state
(`cuda_stripe_idx(...)`), otherwise that of the thread. -/
def stripe (p : Stripes) (given : Option Val) (thread : Nat) : Val :=
  given.getD (.dyn (thread % p.num))

/-- `cuda_striped_t` over a structure `T` (interop/cuda_striped.cuh:55-212), when the stripe is `k`. Its
`align` never compiles: it hands two arguments to the `align` of `T` (140-143). The sub-state is the state
without the stripe, which `State` does not contain (70-83). -/
def sem (A : Arith) (p : Stripes) (k : Val) (T : Sem) : Sem where
  sig := if p.compiles then T.sig else .ill
  hasLen := T.hasLen
  len := fun q st => guardLen (T.hasLen q st) (T.len q st)
  size := fun st => if p.compiles then do
      let subSize ← T.size st
      let subElements := subSize.div A (.lit p.elem)
      let stripeLen := (subElements.add A (.lit (p.widthElems - 1))).div A (.lit p.widthElems)
      some (stripeLen.mul A (.lit p.total))
    else none
  align := fun _ => none
  off := fun st start => if p.compiles then do
      let subOffset ← T.off st (.lit 0)
      let major := subOffset.div A (.lit p.stripeWidth)
      let start := if p.whole && p.widthElems == 1 then start
        else start.add A (subOffset.mod A (.lit p.stripeWidth))
      let ofPeriod := major.mul A (.lit p.total)
      let ofStripe := k.mul A (.lit p.padded)
      some ((ofPeriod.add A ofStripe).add A start)
    else none
  elem := fun st => if p.compiles then T.elem st else none

/-- `current_stripe_index()` (interop/cuda_striped.cuh:187). -/
def stripeIndex (p : Stripes) (thread : Nat) : Nat := thread % p.num

/-- `current_stripe_cg().thread_rank()` (interop/cuda_striped.cuh:194). -/
def threadRank (p : Stripes) (thread : Nat) : Nat := thread / p.num

/-- `current_stripe_cg().num_threads()` (interop/cuda_striped.cuh:193), in a block of `block` threads. -/
def numThreads (p : Stripes) (block thread : Nat) : Nat :=
  (block + p.num - thread % p.num - 1) / p.num

end Stripes

end Noarr
