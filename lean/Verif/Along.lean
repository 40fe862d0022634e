import Verif.Grow

/-
The introspection queries `stride_along` and `is_uniform_along`.

A query that is not available, or that does not compile, is `none` (`stride`) or `false`
(`isUniform`). The class templates are specialised for the structures below; all others, in particular
`scalar`, `tuple_t`, `reorder_t` and the structure of a traverser, inherit `std::false_type`
(introspection/stride_along.hpp:22-24, introspection/uniform_along.hpp:24-26).
-/

namespace Noarr

/-- The result of `stride_along`: an unsigned value or constant, or a signed run-time number (below
`reverse_t`). -/
inductive Stride
  | uns (v : Val)
  | sgn (i : Int)
deriving DecidableEq

namespace Stride

/-- The number a stride stands for, if it is not the result of a fault. -/
def int? : Stride → Option Int
  | uns v => v.nat?.map Int.ofNat
  | sgn i => some i

/-- The conversion of a signed operand to `size_t` in a mixed operation: a negative number wraps. -/
def toUns : Stride → Val
  | uns v => v
  | sgn (.ofNat n) => .dyn n
  | sgn (.negSucc _) => .bad .wrap

/-- the product with an unsigned value: a constant zero gives the constant zero
(base/utility.hpp:516-529), otherwise the usual conversions apply. Simplified: a negative number that
is converted to `size_t` counts as a fault, although a later truncation may make up for it. -/
def mul (A : Arith) (z : Stride) (k : Val) : Stride :=
  match z, k with
  | sgn _, .lit 0 => uns (.lit 0)
  | z, k => uns (z.toUns.mul A k)

/-- the built-in sum of two strides (introspection/stride_along.hpp:223-227): two signed numbers are
added as such. Simplified: a negative number added to an unsigned one counts as a fault. -/
def add (A : Arith) : Stride → Stride → Stride
  | sgn i, sgn j => sgn (i + j)
  | a, b => uns (a.toUns.toDyn.add A b.toUns.toDyn)

/-- `-static_cast<std::make_signed_t<...>>(stride)` -/
def neg : Stride → Stride
  | uns v => match v.nat? with
    | some n => sgn (-n)
    | none => uns v
  | sgn i => sgn (-i)

end Stride

/-- `offset_of<T>(vector_t<Dim, T>, state)` with the given index, `l` the length and `sz` the size of
`T` (structs/layouts.hpp:292-310). -/
def vectorStep (A : Arith) (l i : Val) (sz : Option Val) : Option Val :=
  match l with
  | .lit 1 => some (.lit 0)
  | .bad f => some (.bad f)
  | _ => sz.map fun sz => (i.mul A sz).add A (.lit 0)

/-- `helpers::has_stride_along<QDim, T, State>` (introspection/stride_along.hpp:22-504), `value` and
`stride` folded into one partial function. -/
def Struct.stride (A : Arith) : Struct → Dim → State → Option Stride
  | .scalar _ _, _, _ => none
  | .tuple _ _ _, _, _ => none
  | .union _ _, _, _ => none
  -- lines 58-101
  | .vector d s, q, st =>
    let sub := st.removeAll [.idx d, .len d]
    if q = d then
      match st (.len d), st (.idx d) with
      | some l, none => do
        let o1 ← vectorStep A l (.lit 1) ((s.sem A).size sub)
        let o0 ← vectorStep A l (.lit 0) ((s.sem A).size sub)
        some (.uns (o1.sub A o0))
      | _, _ => none
    else s.stride A q sub
  | .view v s, q, st =>
    let sub := (v.sem A (s.sem A)).sub st
    let pass := sub.bind (s.stride A q)
    match v with
    -- lines 26-56
    | .bcast d => if q = d then
        (if st.has (.len d) && !st.has (.idx d) then some (.uns (.lit 0)) else none)
      else pass
    -- lines 103-164, 235-296
    | .fix _ _ => pass
    | .setLength _ _ => pass
    | .hoist _ => pass
    | .shift _ _ => pass
    | .slice _ _ _ => pass
    | .span _ _ _ => pass
    -- lines 166-195
    | .rename ps =>
      if q ∈ ps.map Prod.fst ∧ q ∉ ps.map Prod.snd then none
      else sub.bind (s.stride A (Sig.renameDim (ps.map Prod.swap) q))
    -- lines 197-233
    | .join a b d =>
      if q = d then do
        let u ← sub
        let za ← s.stride A a u
        let zb ← s.stride A b u
        some (za.add A zb)
      else if q = a ∨ q = b then none
      else pass
    -- lines 298-320: the factor is applied for every dimension
    | .step _ _ k => pass.map (·.mul A k)
    -- lines 322-350
    | .reverse d => if q = d then pass.map Stride.neg else pass
    -- lines 352-406
    | .intoBlocks d maj min =>
      if q = min then sub.bind (s.stride A d)
      else if q = maj then
        (match ((Struct.view v s).sem A).len min st with
         | some nl => (sub.bind (s.stride A d)).map (·.mul A nl)
         | none => none)
      else if q = d then none
      else pass
    -- lines 408-454
    | .intoBlocksStat d border maj min _ =>
      if q = min then sub.bind (s.stride A d)
      else if q = maj then
        (match ((Struct.view v s).sem A).len min st with
         | some nl => (sub.bind (s.stride A d)).map (·.mul A nl)
         | none => none)
      else if q = border ∨ q = d then none
      else pass
    -- lines 456-506
    | .intoBlocksDyn d maj min pres =>
      if q = min then sub.bind (s.stride A d)
      else if q = maj then
        (match ((Struct.view v s).sem A).len min st with
         | some nl => (sub.bind (s.stride A d)).map (·.mul A nl)
         | none => none)
      else if q = pres then some (.uns (.lit 0))
      else if q = d then none
      else pass
    | .reorder _ => none
    | .mergeBlocks _ _ _ => none
    | .mergeZ _ _ _ _ => none

/-- `helpers::is_uniform_along<QDim, T, State>` (introspection/uniform_along.hpp:24-291). A query that
does not compile counts as `false`. -/
def Struct.isUniform (A : Arith) : Struct → Dim → State → Bool
  | .scalar _ _, _, _ => false
  | .tuple _ _ _, _, _ => false
  | .union _ _, _, _ => false
  -- lines 62-80
  | .vector d s, q, st =>
    if q = d then st.has (.len d) && !st.has (.idx d)
    else s.isUniform A q (st.removeAll [.idx d, .len d])
  | .view v s, q, st =>
    let at' (q : Dim) : Bool := match (v.sem A (s.sem A)).sub st with
      | some u => s.isUniform A q u
      | none => false
    match v with
    -- lines 42-60
    | .bcast d => if q = d then st.has (.len d) && !st.has (.idx d) else at' q
    -- lines 82-91, 141-158
    | .fix _ _ => at' q
    | .setLength _ _ => at' q
    | .hoist _ => at' q
    | .shift _ _ => at' q
    | .slice _ _ _ => at' q
    | .span _ _ _ => at' q
    | .step _ _ _ => at' q
    | .reverse _ => at' q
    -- lines 93-115
    | .rename ps =>
      if q ∈ ps.map Prod.fst ∧ q ∉ ps.map Prod.snd then false
      else at' (Sig.renameDim (ps.map Prod.swap) q)
    -- lines 117-139
    | .join a b d =>
      if q = d then at' a && at' b else if q = a ∨ q = b then false else at' q
    -- lines 160-187
    | .intoBlocks d maj min =>
      if q = min then at' d
      else if q = maj then
        ((Struct.view v s).sem A).hasLen min st == some true && at' d
      else if q = d then false
      else at' q
    -- lines 189-215
    | .intoBlocksStat d border maj min _ =>
      if q = maj ∨ q = min ∨ q = border then at' d else if q = d then false else at' q
    -- lines 217-243
    | .intoBlocksDyn d maj min pres =>
      if q = maj ∨ q = min ∨ q = pres then at' d else if q = d then false else at' q
    -- lines 245-266
    | .mergeBlocks maj min d =>
      if q = d then at' maj && at' min else if q = maj ∨ q = min then false else at' q
    -- lines 268-291
    | .mergeZ _ _ ds d =>
      if q = d then ds.all at' else if q ∈ ds then false else at' q
    | .reorder _ => false

end Noarr
