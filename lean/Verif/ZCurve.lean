import Verif.Base

/-
The arithmetic of `merge_zcurve`.

Models: structs/zcurve.hpp:60-116 and the index computation in
`merge_zcurve_t::impl::sub_state`, lines 193-207.

The tuples of `size_t` in the code are functions from the position of the dimension to a number;
only positions below the number of dimensions are used.
-/

namespace Noarr.ZC

variable (A : Arith)

/-- The factor of dimension `j` in `facet` (structs/zcurve.hpp:70-79). `size & -tile_size` clears the low
bits, which is `size / tile_size * tile_size`; `x & (tile_size - 1)` is `x % tile_size`. The
expression `size - 1` is only evaluated in the first branch. -/
def facetFactor (size res : Nat → Nat) (level i j : Nat) : Except Fault Nat :=
  if j = i then .ok 1
  else
    let tile := (if j > i then 2 else 1) * 2 ^ level
    if size j / tile * tile = res j then do
      let s ← A.sub (size j) 1
      A.add (s % tile) 1
    else .ok tile

/-- `facet` (structs/zcurve.hpp:70-79): product over the dimensions `0, ..., n-1`, left to right. -/
def facet (size res : Nat → Nat) (level i : Nat) : Nat → Except Fault Nat
  | 0 => .ok 1
  | n + 1 => do
    let p ← facet size res level i n
    let f ← facetFactor A size res level i n
    A.mul p f

/-- One step of the inner loop of `zc_general` (structs/zcurve.hpp:67-85). `facet << level` is
`facet * 2^level`. -/
def step (n : Nat) (size : Nat → Nat) (level i : Nat) (zr : Nat × (Nat → Nat)) :
    Except Fault (Nat × (Nat → Nat)) := do
  let f ← facet A size zr.2 level i n
  let half ← A.mul f (2 ^ level)
  if half ≤ zr.1 then do
    let z ← A.sub zr.1 half
    let r ← A.add (zr.2 i) (2 ^ level)
    .ok (z, fun j => if j = i then r else zr.2 j)
  else .ok zr

/-- The inner loop over the dimensions `0, ..., i-1` at one level. -/
def level (n : Nat) (size : Nat → Nat) (lvl : Nat) :
    Nat → Nat × (Nat → Nat) → Except Fault (Nat × (Nat → Nat))
  | 0, zr => .ok zr
  | i + 1, zr => do
    let zr' ← level n size lvl i zr
    step A n size lvl i zr'

/-- The outer loop over the levels `levels-1, ..., 0`. -/
def loop (n : Nat) (size : Nat → Nat) :
    Nat → Nat × (Nat → Nat) → Except Fault (Nat × (Nat → Nat))
  | 0, zr => .ok zr
  | lvl + 1, zr => do
    let zr' ← level A n size lvl n zr
    loop n size lvl zr'

/-- `zc_general<Levels>(z, sizes...)` (structs/zcurve.hpp:60-88). -/
def general (n levels z : Nat) (size : Nat → Nat) : Except Fault (Nat → Nat) := do
  let zr ← loop A n size levels (z, fun _ => 0)
  .ok zr.2

/-- `zc_special_helper<Period, RepBits>::rep_bits` (structs/zcurve.hpp:90-102), 64-bit. The first argument
bounds the recursion; seven doublings reach the word size from any positive period. -/
def repBits : Nat → Nat → Nat → Nat
  | 0, _, bits => bits
  | fuel + 1, period, bits =>
    if period ≥ 64 then bits
    else repBits fuel (2 * period) (bits ||| ((bits <<< period) % 2 ^ 64))

/-- `zc_special_helper<Period>::num_iter` (structs/zcurve.hpp:90-102). -/
def numIter : Nat → Nat → Nat
  | 0, _ => 0
  | fuel + 1, period => if period ≥ 64 then 0 else numIter fuel (2 * period) + 1

/-- The fold in `zc_special_inner` (structs/zcurve.hpp:104-109) over `I = 0, ..., k-1`. -/
def specialFold (nDim : Nat) : Nat → Nat → Nat
  | 0, tmp => tmp
  | k + 1, tmp =>
    let t := specialFold nDim k tmp
    let t := t &&& repBits 7 (nDim <<< k) ((1 <<< (1 <<< k)) - 1)
    t ||| (t >>> ((nDim - 1) <<< k))

/-- `zc_special<NDim, Dim>(z)` (structs/zcurve.hpp:104-116). The final mask is
`(size_t(1) << (1U << num_iter)) - 1`, which is undefined when the shift amount reaches 64; that
happens exactly for `NDim = 1`. -/
def special (nDim dim z : Nat) : Except Fault Nat :=
  let it := numIter 7 nDim
  if 1 <<< it ≥ 64 then .error .ub
  else .ok (specialFold nDim it (z >>> (nDim - dim - 1)) &&& ((1 <<< (1 <<< it)) - 1))

/-- The index of the `i`-th merged dimension (structs/zcurve.hpp:194-206): `n` dimensions of the given
lengths, `sl = SpecialLevel`, `gl = GeneralLevel`. The 32-bit shift `1U << SpecialLevel * NDims` is
undefined from 32 on. -/
def index (n sl gl : Nat) (len : Nat → Nat) (z i : Nat) : Except Fault Nat :=
  if sl * n ≥ 32 then .error .ub
  else do
    let g ← general A n (gl - sl) (z / 2 ^ (sl * n)) (fun j => len j / 2 ^ sl)
    let s ← special n i (z % 2 ^ (sl * n))
    let hi ← A.mul (g i) (2 ^ sl)
    A.add hi s

end Noarr.ZC
