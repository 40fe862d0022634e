import Verif.StaticVal

/-
C65: what is computed from compile-time constants is a compile-time constant.

Definitions used in the statements (StaticVal.lean): `Val.Static` (the value is not a run-time number),
`State.Static` (all the indices and lengths in the state are constants), `Struct.static` (all the values written in
views are constants; no `merge_zcurve` and no `into_blocks_dynamic`). `lit n` is a
`std::integral_constant<std::size_t, n>`, `dyn n` a run-time `std::size_t` (Base.lean).
-/

set_option linter.unusedVariables false

namespace Noarr

variable (A : Arith)

/-- C65: the offset of an element, asked for with constant indices and lengths, is a constant. Missing: structures
with `merge_zcurve`, for which it is false (below), and with `into_blocks_dynamic` (but see
`C65_into_blocks_dynamic`). -/
theorem C65_offset_partial (s : Struct) (hs : s.static) (st : State) (hst : st.Static) (v : Val)
    (h : (s.sem A).off st (.lit 0) = some v) (n : Nat) (hn : v.nat? = some n) : v = .lit n :=
  ((Struct.static_sem hs).off hst (by simp) h).eq_lit hn

/-- C65: the size of a structure of constant lengths is a constant. Missing: as in `C65_offset_partial`. -/
theorem C65_size_partial (s : Struct) (hs : s.static) (st : State) (hst : st.Static) (v : Val)
    (h : (s.sem A).size st = some v) (n : Nat) (hn : v.nat? = some n) : v = .lit n :=
  ((Struct.static_sem hs).size hst h).eq_lit hn

/-- C65: the lengths of a structure, asked for with constants, are constants. Missing: as in
`C65_offset_partial`. -/
theorem C65_length_partial (s : Struct) (hs : s.static) (st : State) (hst : st.Static) (q : Dim) (v : Val)
    (h : (s.sem A).len q st = some v) (n : Nat) (hn : v.nat? = some n) : v = .lit n :=
  ((Struct.static_sem hs).len hst h).eq_lit hn

/-- C65: in a vector the offset at a constant index is a constant even if the length of the vector is not, as long
as the elements have constant lengths. -/
theorem C65_vector_of_any_length (d : Dim) (s : Struct) (hs : s.static) (l : Val) (st : State)
    (hst : st.Static) (v : Val)
    (h : ((Struct.view (.setLength d l) (.vector d s)).sem A).off st (.lit 0) = some v)
    (n : Nat) (hn : v.nat? = some n) : v = .lit n := by
  refine Val.Static.eq_lit (static_vector_off (A := A) (d := d) (Struct.static_sem hs) ?_ (Val.static_lit 0) h) hn
  intro t ht w hw
  simp only [State.set] at hw
  rw [if_neg ht] at hw
  exact hst t w hw

/-- C65: `into_blocks_dynamic` keeps constants: the offsets, the size, and the lengths of all dimensions but the
presence dimension. -/
theorem C65_into_blocks_dynamic (s : Struct) (hs : s.static) (d maj min pres : Dim) (st : State) (hst : st.Static)
    (v : Val) (n : Nat) (hn : v.nat? = some n) :
    (((Struct.view (.intoBlocksDyn d maj min pres) s).sem A).off st (.lit 0) = some v → v = .lit n) ∧
    (((Struct.view (.intoBlocksDyn d maj min pres) s).sem A).size st = some v → v = .lit n) ∧
    (∀ q, q ≠ pres → ((Struct.view (.intoBlocksDyn d maj min pres) s).sem A).len q st = some v → v = .lit n) := by
  have hS := Struct.static_sem (A := A) hs
  obtain ⟨hsub, hlen⟩ := static_intoBlocksDyn (A := A) hS d maj min pres
  refine ⟨fun h => ?_, fun h => ?_, fun q hq h => (hlen hst hq h).eq_lit hn⟩
  · simp only [Struct.sem, ViewSem.toSem] at h
    split at h
    · obtain ⟨u, hu, h⟩ := Option.bind_eq_some_iff.1 h
      exact (hS.off (hsub hst hu) (by simp) h).eq_lit hn
    · cases h
  · simp only [Struct.sem, ViewSem.toSem] at h
    split at h
    · obtain ⟨u, hu, h⟩ := Option.bind_eq_some_iff.1 h
      exact (hS.size (hsub hst hu) h).eq_lit hn
    · cases h

/-! ### Where a constant is lost -/

/-- a 4 × 4 array of bytes -/
private def square : Struct :=
  .view (.setLength 1 (.lit 4)) (.view (.setLength 0 (.lit 4)) (.vector 0 (.vector 1 (.scalar 1 1))))

/-- C65 is false for `merge_zcurve`: the offset at a constant index is a run-time value, and so is the length,
because the computation uses the built-in operators (structs/zcurve.hpp:194-206, 265-274). -/
theorem C65_zcurve_violates :
    ∃ (s : Struct) (st : State), st.Static ∧ s.static ∧
      ((Struct.view (.mergeZ 2 2 [0, 1] 2) s).sem .ideal).off st (.lit 0) = some (.dyn 3) ∧
      ((Struct.view (.mergeZ 2 2 [0, 1] 2) s).sem .ideal).len 2 .empty = some (.dyn 16) := by
  refine ⟨square, (State.empty).set (.idx 2) (.lit 5), State.static_empty.set (by simp), ?_, by decide, by decide⟩
  exact ⟨by simp [View.static], by simp [View.static], trivial⟩

/-- C65 is false for the presence dimension of `into_blocks_dynamic`: its length is always a run-time value
(structs/blocks.hpp:425, 432, 440). -/
theorem C65_presence_violates :
    ∃ (s : Struct) (st : State), st.Static ∧ s.static ∧
      ((Struct.view (.intoBlocksDyn 0 2 3 4) s).sem .ideal).len 4 st = some (.dyn 1) := by
  refine ⟨square, (((State.empty).set (.len 3) (.lit 2)).set (.idx 2) (.lit 1)).set (.idx 3) (.lit 1),
    ((State.static_empty.set (by simp)).set (by simp)).set (by simp), ?_, by decide⟩
  exact ⟨by simp [View.static], by simp [View.static], trivial⟩

/-! ### Cases that meet the hypotheses -/

/-- a tuple of a 4 × 4 array in blocks of two, reversed, and a pair of 8-byte numbers -/
private def mixed : Struct :=
  .tuple 9 2 fun i => if i = 0 then .view (.reverse 2) (.view (.setLength 3 (.lit 2)) (.view (.intoBlocks 0 2 3) square))
    else .view (.setLength 0 (.lit 2)) (.vector 0 (.scalar 8 1))

example : mixed.static ∧
    (((((State.empty).set (.idx 9) (.lit 0)).set (.idx 2) (.lit 0)).set (.idx 3) (.lit 1)).set (.idx 1) (.lit 2)).Static ∧
    (mixed.sem .ideal).off
      (((((State.empty).set (.idx 9) (.lit 0)).set (.idx 2) (.lit 0)).set (.idx 3) (.lit 1)).set (.idx 1) (.lit 2))
      (.lit 0) = some (.lit 14) ∧
    (mixed.sem .ideal).size .empty = some (.lit 32) ∧
    (mixed.sem .ideal).len 2 ((State.empty).set (.idx 9) (.lit 0)) = some (.lit 2) := by
  refine ⟨?_, (((State.static_empty.set (by simp)).set (by simp)).set (by simp)).set (by simp), by decide, by decide,
    by decide⟩
  intro i
  by_cases hi : i = 0
  · simp [hi, Struct.static, View.static, square]
  · simp [hi, Struct.static, View.static]

/-- a run-time number of rows of four bytes: the offset of the third byte of row 6 is the constant 26 -/
example : ((Struct.view (.setLength 0 (.dyn 1000)) (.vector 0 (.view (.setLength 1 (.lit 4))
    (.vector 1 (.scalar 1 1))))).sem .ideal).off (((State.empty).set (.idx 0) (.lit 6)).set (.idx 1) (.lit 2)) (.lit 0) =
      some (.lit 26) := by
  decide

/-- a run-time index gives a run-time offset -/
example : (square.sem .ideal).off (((State.empty).set (.idx 0) (.dyn 1)).set (.idx 1) (.lit 2)) (.lit 0) =
    some (.dyn 6) := by
  decide

/-- a 4 × 4 array in blocks of three, the last one not full: the offset of an element that is there -/
example : ((Struct.view (.intoBlocksDyn 0 2 3 4) square).sem .ideal).off
    (((((((State.empty).set (.len 3) (.lit 3)).set (.idx 2) (.lit 1)).set (.idx 3) (.lit 0)).set (.idx 4) (.lit 0)).set
      (.idx 1) (.lit 2))) (.lit 0) = some (.lit 14) := by
  decide

end Noarr
