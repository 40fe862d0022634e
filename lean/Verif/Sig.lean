import Verif.State

/-
Signatures: the static description of the dimensions of a structure.

Models: include/noarr/structures/base/signature.hpp, extra/sig_utils.hpp, and the signature part
(`using signature = ...`) of every structure.
-/

namespace Noarr

/-- `dynamic_arg_length` / `static_arg_length<N>` (base/signature.hpp:13-23). -/
inductive ArgLen
  | dynamic
  | static (n : Nat)
deriving DecidableEq, Repr

/-- `arg_length_from_t` (base/signature.hpp:25-43). -/
def ArgLen.ofVal : Val → ArgLen
  | .lit n => .static n
  | _ => .dynamic

/-- Signatures (base/signature.hpp:43-137). `ill` stands for a signature whose computation fails a
`static_assert` or a `requires` clause, that is, for a program that does not compile. -/
inductive Sig
  /-- `scalar_sig<T>`; the type `T` is represented by its size -/
  | scalar (size : Nat)
  /-- `scalar_sig<void>`, produced by an incomplete `reorder` (structs/views.hpp:33-36, 51-54) -/
  | void
  /-- `function_sig<Dim, ArgLength, RetSig>` -/
  | fn (d : Dim) (l : ArgLen) (r : Sig)
  /-- `dep_function_sig<Dim, RetSigs...>` -/
  | dep (d : Dim) (n : Nat) (rs : Fin n → Sig)
  /-- does not compile -/
  | ill

namespace Sig

/-- The signature contains no failed computation. -/
def wf : Sig → Bool
  | scalar _ => true
  | void => true
  | fn _ _ r => r.wf
  | dep _ _ rs => decide (∀ i, (rs i).wf = true)
  | ill => false

/-- `any_accept<q>` (base/signature.hpp:79, 118, 136). -/
def anyAccept (q : Dim) : Sig → Bool
  | scalar _ => false
  | void => false
  | fn d _ r => d == q || r.anyAccept q
  | dep d _ rs => d == q || decide (∃ i, (rs i).anyAccept q = true)
  | ill => false

/-- `helpers::sig_union2<Sig1, Sig2>` (extra/traverser.hpp:22-52): the dimensions of `Sig2` that
`Sig1` does not accept are put in front of `Sig1`. A `dep_function_sig` in `Sig2` is refused. -/
def union2 (S1 : Sig) : Sig → Sig
  | scalar _ => S1
  | void => S1
  | fn d l r => if S1.anyAccept d then union2 S1 r else .fn d l (union2 S1 r)
  | dep _ _ _ => .ill
  | ill => .ill

/-- `helpers::sig_union<Sigs...>` (extra/traverser.hpp:54-65). -/
def unionAll : List Sig → Sig
  | [] => .ill
  | S :: l => l.foldl union2 S

/-- `all_accept<q>` (base/signature.hpp:76, 115, 133). -/
def allAccept (q : Dim) : Sig → Bool
  | scalar _ => false
  | void => false
  | fn d _ r => d == q || r.allAccept q
  | dep d _ rs => d == q || decide (∀ i, (rs i).allAccept q = true)
  | ill => false

/-- `replace<Replacement, QDims...>` (base/signature.hpp:55-72, 94-111, 127-129): the replacement
is applied to the first matching node on every path and its result is not visited again. -/
def replace (R : Sig → Sig) (ds : List Dim) : Sig → Sig
  | scalar s => scalar s
  | void => void
  | fn d l r => if d ∈ ds then R (fn d l r) else fn d l (r.replace R ds)
  | dep d n rs => if d ∈ ds then R (dep d n rs) else dep d n (fun i => (rs i).replace R ds)
  | ill => ill

/-- A branch selected by a value that must be a constant. -/
def branch {n : Nat} (rs : Fin n → Sig) : Option Val → Sig
  | some (.lit k) => if h : k < n then rs ⟨k, h⟩ else ill
  | _ => ill

/-- The constant index of a tuple dimension, when it is in range. -/
def litIdx (n : Nat) : Option Val → Option (Fin n)
  | some (.lit k) => if h : k < n then some ⟨k, h⟩ else none
  | _ => none

/-- `sig_find_dim<q, State, Signature>` (extra/sig_utils.hpp:14-49). -/
def find (q : Dim) (st : State) : Sig → Sig
  | scalar _ => ill
  | void => ill
  | fn d l r => if d = q then fn d l r else r.find q st
  | dep d n rs =>
    if d = q then dep d n rs
    else match litIdx n (st (.idx d)) with
      | some k => (rs k).find q st
      | none => ill
  | ill => ill

/-- `ret_sig<f(i)>` for `i` in `make_index_sequence<m>`, used by the views that select fields of a
tuple; an out-of-range field does not compile. -/
def select (d : Dim) {n : Nat} (rs : Fin n → Sig) (m : Nat) (f : Nat → Nat) : Sig :=
  if h : ∀ i : Fin m, f i < n then dep d m (fun i => rs ⟨f i, h i⟩) else ill

/-- `fix_t::dim_replacement` (structs/setters.hpp:37-52). -/
def fixRepl (i : Val) : Sig → Sig
  | fn _ _ r => r
  | dep _ _ rs => branch rs (some i)
  | _ => ill

/-- `set_length_t::dim_replacement` (structs/setters.hpp:183-194). -/
def setLengthRepl (l : Val) : Sig → Sig
  | fn d _ r => fn d (.ofVal l) r
  | _ => ill

/-- static length arithmetic of `shift_t::dim_replacement` (structs/slice.hpp:46-56). -/
def shiftLen : ArgLen → Val → ArgLen
  | .static l, .lit s => .static ((l + (2 ^ 64 - s % 2 ^ 64)) % 2 ^ 64)
  | _, _ => .dynamic

/-- `shift_t::dim_replacement` (structs/slice.hpp:41-75). -/
def shiftRepl (start : Val) : Sig → Sig
  | fn d l r => fn d (shiftLen l start) r
  | dep d n rs => match start with
    | .lit a => if a ≤ n then select d rs (n - a) (fun i => i + a) else ill
    | _ => ill
  | _ => ill

/-- `slice_t::dim_replacement` (structs/slice.hpp:231-258). -/
def sliceRepl (start len : Val) : Sig → Sig
  | fn d _ r => fn d (.ofVal len) r
  | dep d _ rs => match start, len with
    | .lit a, .lit m => select d rs m (fun i => i + a)
    | _, _ => ill
  | _ => ill

/-- `span_t::dim_replacement` (structs/slice.hpp:383-410); the static length of the result is taken
from `EndT`, not from the difference. -/
def spanRepl (start stop : Val) : Sig → Sig
  | fn d _ r => fn d (.ofVal stop) r
  | dep d _ rs => match start, stop with
    | .lit a, .lit e => if a ≤ e then select d rs (e - a) (fun i => i + a) else ill
    | _, _ => ill
  | _ => ill

/-- `step_t::dim_replacement` (structs/slice.hpp:536-564); the static length of the result is taken
from `StrideT`. -/
def stepRepl (start stride : Val) : Sig → Sig
  | fn d _ r => fn d (.ofVal stride) r
  | dep d n rs => match start, stride with
    | .lit a, .lit k =>
      if k ≠ 0 ∧ a + 1 ≤ n + k then select d rs ((n + k - a - 1) / k) (fun i => i * k + a) else ill
    | _, _ => ill
  | _ => ill

/-- `reverse_t::dim_replacement` (structs/slice.hpp:699-719). -/
def reverseRepl : Sig → Sig
  | dep d n rs => select d rs n (fun i => n - 1 - i)
  | s => s

/-- the result of a node, for a non-dependent dimension (`sig_remove_first`,
`hoist_t::dim_replacement`, structs/views.hpp:264-268; extra/sig_utils.hpp:113-132). The case of a tuple
with one field is left out: here the dimensions are not those of tuples (structs/views.hpp:261, 597). -/
def retRepl : Sig → Sig
  | fn _ _ r => r
  | _ => ill

/-- `into_blocks_t::dim_replacement` (structs/blocks.hpp:50-57). -/
def intoBlocksRepl (maj min : Dim) : Sig → Sig
  | fn _ _ r => fn maj .dynamic (fn min .dynamic r)
  | _ => ill

/-- `into_blocks_dynamic_t::dim_replacement` (structs/blocks.hpp:258-268). -/
def intoBlocksDynRepl (maj min pres : Dim) : Sig → Sig
  | fn _ _ r => fn maj .dynamic (fn min .dynamic (fn pres .dynamic r))
  | _ => ill

/-- `into_blocks_static_t::dim_replacement` (structs/blocks.hpp:526-549). -/
def intoBlocksStatRepl (border maj min : Dim) (minLen : Val) : Sig → Sig
  | fn _ l r =>
    let dm : ArgLen × ArgLen := match l, ArgLen.ofVal minLen with
      | .static a, .static b => (.static (a / b), .static (a % b))
      | _, _ => (.dynamic, .dynamic)
    let bad : Bool := match l, ArgLen.ofVal minLen with
      | .static _, .static b => b == 0
      | _, _ => false
    if bad then ill else
      dep border 2 (fun i =>
        if i = 0 then fn maj dm.1 (fn min (.ofVal minLen) r)
        else fn maj (.static 1) (fn min dm.2 r))
  | _ => ill

/-- the merged static length (structs/blocks.hpp:733-744, structs/zcurve.hpp:34-42). -/
def mergeLen : ArgLen → ArgLen → ArgLen
  | .static a, .static b => .static (a * b % 2 ^ 64)
  | _, _ => .dynamic

/-- `merge_blocks_t::inner_dim_replacement` (structs/blocks.hpp:726-747). -/
def mergeBlocksInner (maj min d : Dim) (outer : Dim) (lo : ArgLen) : Sig → Sig
  | fn e l r =>
    if (outer = maj ∧ e = min) ∨ (outer = min ∧ e = maj) then fn d (mergeLen lo l) r else ill
  | _ => ill

/-- `merge_blocks_t::outer_dim_replacement` (structs/blocks.hpp:722-750). -/
def mergeBlocksRepl (maj min d : Dim) : Sig → Sig
  | fn e l r => r.replace (mergeBlocksInner maj min d e l) [min, maj]
  | _ => ill

/-- `merge_zcurve_t::dim_replacer` applied by `replace` (structs/zcurve.hpp:155-185). -/
def mergeZRepl (ds : List Dim) (d : Dim) : Nat → ArgLen → Sig → Sig
  | _, _, scalar s => scalar s
  | _, _, void => void
  | rem, acc, fn e l r =>
    if e ∈ ds then
      (if rem ≤ 1 then fn d (mergeLen acc l) r
       else mergeZRepl ds d (rem - 1) (mergeLen acc l) r)
    else fn e l (mergeZRepl ds d rem acc r)
  | rem, acc, dep e n rs =>
    if e ∈ ds then ill else dep e n (fun i => mergeZRepl ds d rem acc (rs i))
  | _, _, ill => ill

/-- `rename_dim` (structs/views.hpp:365-381): the first matching pair decides. -/
def renameDim : List (Dim × Dim) → Dim → Dim
  | [], q => q
  | (f, t) :: ps, q => if q = f then t else renameDim ps q

/-- `rename_sig` (structs/views.hpp:383-399). -/
def mapDims (f : Dim → Dim) : Sig → Sig
  | scalar s => scalar s
  | void => void
  | fn d l r => fn (f d) l (r.mapDims f)
  | dep d n rs => dep (f d) n (fun i => (rs i).mapDims f)
  | ill => ill

/-- `reassemble_scalar` (structs/views.hpp:20-63). -/
def reassembleScalar (st : State) : Sig → Sig
  | scalar s => scalar s
  | void => void
  | fn d _ r => if st.has (.idx d) then r.reassembleScalar st else void
  | dep d n rs =>
    if st.has (.idx d) then
      match litIdx n (st (.idx d)) with
      | some k => (rs k).reassembleScalar st
      | none => ill
    else void
  | ill => ill

/-- `reassemble_build` (structs/views.hpp:65-107). -/
def reassemble (top : Sig) : List Dim → State → Sig
  | [], st => top.reassembleScalar st
  | d :: ds, st =>
    if d ∈ ds then ill
    else match top.find d st with
      | fn _ l _ => fn d l (reassemble top ds (st.set (.idx d) (.dyn 0)))
      | dep _ n _ => dep d n (fun i => reassemble top ds (st.set (.idx d) (.lit i)))
      | _ => ill

/-- `reassemble_is_complete` (structs/views.hpp:109-132). -/
def complete : Sig → Bool
  | scalar _ => true
  | void => false
  | fn _ _ r => r.complete
  | dep _ _ rs => decide (∀ i, (rs i).complete = true)
  | ill => false

end Sig

end Noarr
