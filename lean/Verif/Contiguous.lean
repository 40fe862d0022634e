import Verif.Grow

/-
The introspection query `is_contiguous`.
-/

namespace Noarr

/-- `helpers::is_contiguous<T, State>` (introspection/contiguous.hpp:23-311). A query that does not
compile (because a state is translated or a length is asked for in a way that does not) counts as
`false`. All the structures without a specialisation inherit `std::false_type` (lines 23-24). -/
def Struct.isContig (A : Arith) : Struct → State → Bool
  -- lines 26-27
  | .scalar _ _, _ => true
  -- lines 47-66
  | .tuple t n fs, st =>
    let sub := st.remove (.idx t)
    if st.has (.idx t) then
      match constIdx (st (.idx t)) with
      | some k => if h : k < n then (fs ⟨k, h⟩).isContig A sub else false
      | none => false
    else (List.finRange n).all fun i => (fs i).isContig A sub
  -- lines 29-46
  | .vector d s, st => st.has (.len d) && s.isContig A (st.removeAll [.idx d, .len d])
  | .union _ _, _ => false
  | .view v s, st =>
    let V := v.sem A (s.sem A)
    let pass : Bool := match V.sub st with
      | some u => s.isContig A u
      | none => false
    match v with
    -- lines 68-84
    | .bcast d => st.has (.len d) && pass
    -- lines 86-183
    | .fix _ _ => pass
    | .setLength _ _ => pass
    | .reorder _ => pass
    | .hoist _ => pass
    | .rename _ => pass
    | .join _ _ _ => pass
    | .shift _ _ => pass
    | .slice _ _ _ => pass
    -- lines 185-197: the state is translated as by `slice_t`, which adds the start, too
    | .span _ _ _ => pass
    -- lines 199-215
    | .step d _ _ => st.has (.idx d) && pass
    -- lines 217-229
    | .reverse _ => pass
    -- lines 231-255
    | .intoBlocks _ maj min =>
      let indexless := st.removeAll [.idx maj, .idx min]
      V.hasLen maj indexless == some true && V.hasLen min indexless == some true &&
        !(st.has (.idx min) && !st.has (.idx maj)) && pass
    -- lines 257-280
    | .intoBlocksDyn _ maj min _ =>
      let indexless := st.removeAll [.idx maj, .idx min]
      V.hasLen maj indexless == some true && V.hasLen min indexless == some true &&
        !(st.has (.idx min) && !st.has (.idx maj)) && pass
    -- lines 282-313: the lengths are asked for without the index in `DimIsBorder`, which fails a
    -- static assertion (structs/blocks.hpp:659-668), thus the query never holds
    | .intoBlocksStat _ border maj min _ =>
      let indexless := st.removeAll [.idx maj, .idx min, .idx border]
      st.has (.idx border) && V.hasLen maj indexless == some true &&
        V.hasLen min indexless == some true && !(st.has (.idx min) && !st.has (.idx maj)) && pass
    | .mergeBlocks _ _ _ => false
    | .mergeZ _ _ _ _ => false

end Noarr
