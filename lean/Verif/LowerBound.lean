import Verif.OffsetAlong

/-
The introspection queries `lower_bound_along` and `lower_bound_at`. `none`: not available, or does not
compile. The class template is specialised for the structures below; all others, in particular
`scalar`, `join_t`, `step_t`, `reorder_t`, `merge_zcurve_t` and the structure of a traverser, inherit
`std::false_type` (introspection/lower_bound_along.hpp:24-26).

`is_monotonic` (e.g. lines 55-63) is `true` in all the base cases and handed on otherwise, so it is
`true` whenever it is defined, and the conditions `value && is_monotonic()` are `value` here.
-/

set_option linter.unusedVariables false
set_option linter.unusedSimpArgs false

namespace Noarr

/-- `helpers::has_lower_bound_along<QDim, T, State>::value`
(introspection/lower_bound_along.hpp:24-1407, the functions `get_value`). A query that does not compile
is `false`. -/
def Struct.hasLower (A : Arith) : Struct → Dim → State → Bool
  | .scalar _ _, _, _ => false
  | .union _ _, _, _ => false
  -- lines 251-265; `has_offset_of` of the substructure itself holds when the length is known
  | .vector d s, q, st =>
    if q = d then st.has (.len d) && !st.has (.idx d)
    else s.hasLower A q (st.removeAll [.idx d, .len d])
  -- lines 121-144
  | .tuple t n fs, q, st =>
    if st.has (.idx t) then
      match constIdx (st (.idx t)) with
      | some k => if h : k < n then
          (if q = t then false else (fs ⟨k, h⟩).hasLower A q (st.remove (.idx t)))
        else false
      | none => false
    else decide (q = t)
  | .view v s, q, st =>
    match (v.sem A (s.sem A)).sub st with
    | none => false
    | some u =>
      match v with
      -- lines 35-49
      | .bcast d => if q = d then st.has (.len d) && !st.has (.idx d) else s.hasLower A q u
      -- lines 337-339, 387-389, 437-439, 545-547, 629-631, 713-715, 799-801
      | .fix _ _ => s.hasLower A q u
      | .setLength _ _ => s.hasLower A q u
      | .hoist _ => s.hasLower A q u
      | .shift _ _ => s.hasLower A q u
      | .slice _ _ _ => s.hasLower A q u
      | .span _ _ _ => s.hasLower A q u
      | .reverse _ => s.hasLower A q u
      -- lines 488-497
      | .rename ps =>
        if q ∈ ps.map Prod.fst ∧ q ∉ ps.map Prod.snd then false
        else s.hasLower A (Sig.renameDim (ps.map Prod.swap) q) u
      -- lines 889-915
      | .intoBlocks d maj min =>
        if q = min then s.hasLower A d u
        else if q = maj then
          ((Struct.view v s).sem A).hasLen min st == some true && s.hasLower A d u
        else if q = d then false
        else s.hasLower A q u
      -- lines 1017-1055
      | .intoBlocksStat d border maj min _ =>
        if q = min ∨ q = maj then
          st.has (.idx border) && ((Struct.view v s).sem A).hasLen min st == some true && s.hasLower A d u
        else if q = border then !st.has (.idx border) && s.hasLower A d u
        else if q = d then false
        else s.hasLower A q u
      -- lines 1177-1213
      | .intoBlocksDyn d maj min pres =>
        if q = min ∨ q = maj ∨ q = pres then
          ((Struct.view v s).sem A).hasLen min st == some true && s.hasLower A d u
        else if q = d then false
        else s.hasLower A q u
      -- lines 1299-1313
      | .mergeBlocks maj min d =>
        if q = d then s.hasLower A maj u && s.hasLower A min u
        else if q = maj ∨ q = min then false
        else s.hasLower A q u
      | .step _ _ _ => false
      | .join _ _ _ => false
      | .reorder _ => false
      | .mergeZ _ _ _ _ => false

/-- The requirement on the range in `tuple_t`: constants, the first one in range
(introspection/lower_bound_along.hpp:181-187, 222-228). It is there also when the query is about another
dimension. -/
def tupleRange (n : Nat) : Option (Val × Val) → Bool
  | none => true
  | some (.lit lo, .lit hi) => lo < n && lo < hi
  | some _ => false

/-- `helpers::has_lower_bound_along<QDim, T, State>::lower_bound`
(introspection/lower_bound_along.hpp:24-1407), without a range or with the range `min`, `end`. -/
def Struct.lower (A : Arith) : Struct → Dim → State → Option (Val × Val) → Option Val
  | .scalar _ _, _, _, _ => none
  | .union _ _, _, _, _ => none
  -- lines 280-302
  | .vector d s, q, st, r =>
    let sub := st.removeAll [.idx d, .len d]
    if (Struct.vector d s).hasLower A q st = false then none
    else if q = d then
      match r with
      | none => some (.lit 0)
      | some (lo, _) => do
        let sz ← (s.sem A).size sub
        some (sz.mul A lo)
    else s.lower A q sub r
  -- lines 164-203
  | .tuple t n fs, q, st, r =>
    if (Struct.tuple t n fs).hasLower A q st = false ∨ tupleRange n r = false then none
    else match constIdx (st (.idx t)) with
      | some k => if h : k < n then (fs ⟨k, h⟩).lower A q (st.remove (.idx t)) r else none
      | none => match r with
        | none => some (.lit 0)
        | some (lo, _) => do
          let k ← constIdx (some lo)
          let before ← sizeAcc A (st.remove (.idx t)) ((List.ofFn fun i => (fs i).sem A).take k) (.lit 0)
          some (before.add A (.lit 0))
  | .view v s, q, st, r =>
    if (Struct.view v s).hasLower A q st = false then none
    else match (v.sem A (s.sem A)).sub st with
    | none => none
    | some u =>
      match v with
      -- lines 65-87
      | .bcast d => if q = d then some (.lit 0) else s.lower A q u r
      -- lines 351-363, 401-413, 451-463
      | .fix _ _ => s.lower A q u r
      | .setLength _ _ => s.lower A q u r
      | .hoist _ => s.lower A q u r
      -- lines 509-521
      | .rename ps => s.lower A (Sig.renameDim (ps.map Prod.swap) q) u r
      -- lines 559-587
      | .shift d start =>
        if q = d then
          match r with
          | none => do
            let l ← (s.sem A).len d u
            s.lower A d u (some (start, l))
          | some (lo, hi) => s.lower A d u (some (lo.add A start, hi.add A start))
        else s.lower A q u r
      -- lines 643-671
      | .slice d start len =>
        if q = d then
          match r with
          | none => s.lower A d u (some (start, start.add A len))
          | some (lo, hi) => s.lower A d u (some (lo.add A start, hi.add A start))
        else s.lower A q u r
      -- lines 727-756
      | .span d start stop =>
        if q = d then
          match r with
          | none => s.lower A d u (some (start, stop))
          | some (lo, hi) => s.lower A d u (some (lo.add A start, hi.add A start))
        else s.lower A q u r
      -- lines 813-840
      | .reverse d =>
        if q = d then
          match r with
          | none => s.lower A d u none
          | some (lo, hi) => do
            let l ← (s.sem A).len d u
            s.lower A d u (some (l.sub A hi, (l.sub A (.lit 1)).sub A lo))
        else s.lower A q u r
      -- lines 933-964
      | .intoBlocks d maj min =>
        if q = min then
          match r with
          | none => do
            let nl ← ((Struct.view v s).sem A).len min st
            s.lower A d u (some (.lit 0, nl))
          | some _ => s.lower A d u r
        else if q = maj then
          match r with
          | none => some (.lit 0)
          | some (lo, hi) => do
            let nl ← ((Struct.view v s).sem A).len min st
            s.lower A d u (some (lo.mul A nl, hi.mul A nl))
        else s.lower A q u r
      -- lines 1075-1108
      | .intoBlocksStat d border maj min _ =>
        if q = min then
          match r with
          | none => do
            let nl ← ((Struct.view v s).sem A).len min st
            s.lower A d u (some (.lit 0, nl))
          | some _ => s.lower A d u r
        else if q = border then some (.lit 0)
        else if q = maj then
          match r with
          | none => some (.lit 0)
          | some (lo, hi) => do
            let nl ← ((Struct.view v s).sem A).len min st
            s.lower A d u (some (lo.mul A nl, hi.mul A nl))
        else s.lower A q u r
      -- lines 1233-1266
      | .intoBlocksDyn d maj min pres =>
        if q = min then
          match r with
          | none => do
            let nl ← ((Struct.view v s).sem A).len min st
            s.lower A d u (some (.lit 0, nl))
          | some _ => s.lower A d u r
        else if q = pres then some (.lit 0)
        else if q = maj then
          match r with
          | none => some (.lit 0)
          | some (lo, hi) => do
            let nl ← ((Struct.view v s).sem A).len min st
            s.lower A d u (some (lo.mul A nl, hi.mul A nl))
        else s.lower A q u r
      -- lines 1330-1367
      | .mergeBlocks maj min d =>
        if q = d then
          match r with
          | none => do
            let x ← s.lower A maj u none
            let y ← s.lower A min u none
            some (x.add A y)
          | some (lo, hi) => do
            let nl ← (s.sem A).len min u
            let x ← s.lower A maj u (some (lo.div A nl, hi.div A nl))
            let y ← s.lower A min u (some (lo.mod A nl, hi.mod A nl))
            some (x.add A y)
        else s.lower A q u r
      | .step _ _ _ => none
      | .join _ _ _ => none
      | .reorder _ => none
      | .mergeZ _ _ _ _ => none

/-- `if (c == 0) return a; else return b;` in a function with a deduced return type
(introspection/lower_bound_along.hpp:975-980, 994-999, 1119-1131, 1146-1159, 1277-1282): it only compiles
when `a` and `b` have the same type, that is, when they are both run-time numbers or equal constants.
Simplified: a fault in any of the three is passed on. -/
def pick (c a b : Val) : Option Val :=
  match c, a, b with
  | .bad f, _, _ => some (.bad f)
  | _, .bad f, _ => some (.bad f)
  | _, _, .bad f => some (.bad f)
  | c, .dyn x, .dyn y => some (.dyn (if c.nat? = some 0 then x else y))
  | _, .lit x, .lit y => if x = y then some (.lit x) else none
  | _, _, _ => none

/-- `helpers::has_lower_bound_along<QDim, T, State>::lower_bound_at`
(introspection/lower_bound_along.hpp:24-1407), without a range or with the range `min`, `end`. -/
def Struct.lowerAt (A : Arith) : Struct → Dim → State → Option (Val × Val) → Option Val
  | .scalar _ _, _, _, _ => none
  | .union _ _, _, _, _ => none
  -- lines 304-327
  | .vector d s, q, st, r =>
    if (Struct.vector d s).hasLower A q st = false then none
    else if q = d then
      match r with
      | none => some (.lit 0)
      | some (lo, _) => some lo
    else s.lowerAt A q (st.removeAll [.idx d, .len d]) r
  -- lines 205-241
  | .tuple t n fs, q, st, r =>
    if (Struct.tuple t n fs).hasLower A q st = false ∨ tupleRange n r = false then none
    else match constIdx (st (.idx t)) with
      | some k => if h : k < n then (fs ⟨k, h⟩).lowerAt A q (st.remove (.idx t)) r else none
      | none => match r with
        | none => some (.lit 0)
        | some (lo, _) => some lo
  | .view v s, q, st, r =>
    if (Struct.view v s).hasLower A q st = false then none
    else match (v.sem A (s.sem A)).sub st with
    | none => none
    | some u =>
      match v with
      -- lines 89-112
      | .bcast d =>
        if q = d then
          match r with
          | none => some (.lit 0)
          | some (lo, _) => some lo
        else s.lowerAt A q u r
      -- lines 365-377, 415-427, 465-477
      | .fix _ _ => s.lowerAt A q u r
      | .setLength _ _ => s.lowerAt A q u r
      | .hoist _ => s.lowerAt A q u r
      -- lines 523-535
      | .rename ps => s.lowerAt A (Sig.renameDim (ps.map Prod.swap) q) u r
      -- lines 589-619; the end of the range is not the one in `lower_bound`
      | .shift d start =>
        if q = d then
          match r with
          | none => do
            let l ← (s.sem A).len d u
            let x ← s.lowerAt A d u (some (start, l.sub A start))
            some (x.sub A start)
          | some (lo, hi) => do
            let x ← s.lowerAt A d u (some (lo.add A start, hi.add A start))
            some (x.sub A start)
        else s.lowerAt A q u r
      -- lines 673-703
      | .slice d start len =>
        if q = d then
          match r with
          | none => do
            let x ← s.lowerAt A d u (some (start, start.add A len))
            some (x.sub A start)
          | some (lo, hi) => do
            let x ← s.lowerAt A d u (some (lo.add A start, hi.add A start))
            some (x.sub A start)
        else s.lowerAt A q u r
      -- lines 758-789
      | .span d start stop =>
        if q = d then
          match r with
          | none => do
            let x ← s.lowerAt A d u (some (start, stop))
            some (x.sub A start)
          | some (lo, hi) => do
            let x ← s.lowerAt A d u (some (lo.add A start, hi.add A start))
            some (x.sub A start)
        else s.lowerAt A q u r
      -- lines 842-878
      | .reverse d =>
        if q = d then do
          let l ← (s.sem A).len d u
          let last := l.sub A (.lit 1)
          let x ← match r with
            | none => s.lowerAt A d u none
            | some (lo, hi) => s.lowerAt A d u (some (l.sub A hi, last.sub A lo))
          some (last.sub A x)
        else s.lowerAt A q u r
      -- lines 966-1005
      | .intoBlocks d maj min =>
        if q = min then
          match r with
          | none => do
            let nl ← ((Struct.view v s).sem A).len min st
            s.lowerAt A d u (some (.lit 0, nl))
          | some _ => s.lowerAt A d u r
        else if q = maj then do
          let x ← s.lowerAt A d u none
          match r with
          | none => do
            let nl ← ((Struct.view v s).sem A).len min st
            pick x (.lit 0) (nl.sub A (.lit 1))
          | some (lo, hi) => pick x lo (hi.sub A (.lit 1))
        else s.lowerAt A q u r
      -- lines 1110-1165; with a range the length of the minor dimension is queried as well
      | .intoBlocksStat d border maj min _ =>
        if q = min then
          match r with
          | none => do
            let nl ← ((Struct.view v s).sem A).len min st
            s.lowerAt A d u (some (.lit 0, nl))
          | some _ => s.lowerAt A d u r
        else if q = maj then do
          let x ← s.lowerAt A d u none
          let nl ← ((Struct.view v s).sem A).len min st
          match r with
          | none => pick x (.lit 0) (nl.sub A (.lit 1))
          | some (lo, hi) => pick x lo (hi.sub A (.lit 1))
        else if q = border then do
          let x ← s.lowerAt A d u none
          match r with
          | none => pick x (.lit 0) (.lit 1)
          | some (lo, hi) => do
            let _ ← ((Struct.view v s).sem A).len min st
            pick x lo (hi.sub A (.lit 1))
        else s.lowerAt A q u r
      -- lines 1268-1289; there is no version with a range
      | .intoBlocksDyn d maj min pres =>
        if r.isSome then none
        else if q = min then do
          let nl ← ((Struct.view v s).sem A).len min st
          s.lowerAt A d u (some (.lit 0, nl))
        else if q = maj then do
          let x ← s.lowerAt A d u none
          let nl ← ((Struct.view v s).sem A).len min st
          pick x (.lit 0) (nl.sub A (.lit 1))
        else if q = pres then some (.lit 0)
        else s.lowerAt A q u r
      -- lines 1369-1406
      | .mergeBlocks maj min d =>
        if q = d then
          match r with
          | none => do
            let x ← s.lowerAt A maj u none
            let y ← s.lowerAt A min u none
            some (x.add A y)
          | some (lo, hi) => do
            let nl ← (s.sem A).len min u
            let x ← s.lowerAt A maj u (some (lo.div A nl, hi.div A nl))
            let y ← s.lowerAt A min u (some (lo.mod A nl, hi.mod A nl))
            some (x.add A y)
        else s.lowerAt A q u r
      | .step _ _ _ => none
      | .join _ _ _ => none
      | .reorder _ => none
      | .mergeZ _ _ _ _ => none

end Noarr
