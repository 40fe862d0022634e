import Verif.StaticLenMain

/-
C59: the lengths in the type of a structure are the lengths it has.

Definitions used in the statements: `M64` (`size_t` of 64 bits, StaticLen.lean), `Sig.find` (Sig.lean: the node of
a dimension in a signature, for the tuple branches chosen by the state), `Struct.Honest` (StaticLen.lean: the
constants written in views fit into `size_t`, and the views for which the code puts another length into the
signature are left out), `wf` and `noDup` (the structure compiles and no two dimensions have one name).
-/

set_option linter.unusedVariables false

namespace Noarr

/-- C59: if the type of a structure says that a dimension has the static length `n`, and the state does not set
that length, then the length that is queried is `n`. Missing: structures with a `span` or `step` of an ordinary
dimension with constants, a `set_length` of a dimension whose length is set already, a `reverse` of a tuple
dimension, or a `join` whose new name has no length; for the first three the claim is false (below). -/
theorem C59_static_length_partial (s : Struct) (hw : s.wf M64) (hn : s.noDup M64) (st : State) (hh : s.Honest st)
    (q e : Dim) (n : Nat) (r : Sig) (hf : (s.sem M64).sig.find q st = .fn e (.static n) r)
    (hl : st (.len q) = none) (v : Val) (hv : (s.sem M64).len q st = some v) : v.Num n :=
  (s.stat_ok hw hn hh q false n v (Sig.stat_find.1 r hf) hl hv).1.1

/-- C59: if the type of a structure says that a dimension is that of a tuple with `n` fields, then its length
is the constant `n`. Missing: as in `C59_static_length_partial`. -/
theorem C59_tuple_length_partial (s : Struct) (hw : s.wf M64) (hn : s.noDup M64) (st : State) (hh : s.Honest st)
    (q e : Dim) (n : Nat) (rs : Fin n → Sig) (hf : (s.sem M64).sig.find q st = .dep e n rs)
    (hl : st (.len q) = none) (v : Val) (hv : (s.sem M64).len q st = some v) : v = .lit n :=
  (s.stat_ok hw hn hh q true n v (Sig.stat_find.2 rs hf) hl hv).2 rfl

/-! ### Where the type is wrong -/

/-- `vector<0>` of bytes with the constant length 10 -/
private def ten : Struct := .view (.setLength 0 (.lit 10)) (.vector 0 (.scalar 1 1))

/-- C59 is false for `span`: the type has the end of the span in place of its length (structs/slice.hpp:389).
The elements 2 to 5 of ten: the length is 3, the type says 5. -/
theorem C59_span_type_is_end :
    ∃ r, ((Struct.view (.span 0 (.lit 2) (.lit 5)) ten).sem M64).sig.find 0 .empty = .fn 0 (.static 5) r ∧
      ((Struct.view (.span 0 (.lit 2) (.lit 5)) ten).sem M64).len 0 .empty = some (.lit 3) :=
  ⟨_, rfl, by decide⟩

/-- C59 is false for `step`: the type has the stride in place of the length (structs/slice.hpp:542). Every second
element of ten, from 1 on: the length is 5, the type says 2. -/
theorem C59_step_type_is_stride :
    ∃ r, ((Struct.view (.step 0 (.lit 1) (.lit 2)) ten).sem M64).sig.find 0 .empty = .fn 0 (.static 2) r ∧
      ((Struct.view (.step 0 (.lit 1) (.lit 2)) ten).sem M64).len 0 .empty = some (.lit 5) :=
  ⟨_, rfl, by decide⟩

/-- C59 is false for a second `set_length`: it changes the type, but not the length. -/
theorem C59_second_set_length_changes_type_only :
    ∃ r, ((Struct.view (.setLength 0 (.lit 7)) ten).sem M64).sig.find 0 .empty = .fn 0 (.static 7) r ∧
      ((Struct.view (.setLength 0 (.lit 7)) ten).sem M64).len 0 .empty = some (.lit 10) :=
  ⟨_, rfl, by decide⟩

/-- C59 is false for a `reverse` of a tuple dimension: the length is taken from the field with the original index
(structs/slice.hpp:783), the type and the elements are those of the other field. Three bytes and five bytes,
reversed, at index 0: the length is 3, the type says 5, and so does the size of the field. -/
theorem C59_reversed_tuple_lengths :
    ∃ (s : Struct) (r : Sig), (s.sem M64).sig.find 0 ((State.empty).set (.idx 1) (.lit 0)) = .fn 0 (.static 5) r ∧
      (s.sem M64).len 0 ((State.empty).set (.idx 1) (.lit 0)) = some (.lit 3) ∧
      (s.sem M64).off (((State.empty).set (.idx 1) (.lit 0)).set (.idx 0) (.lit 0)) (.lit 0) = some (.lit 3) :=
  ⟨.view (.reverse 1) (.tuple 1 2 fun i =>
    .view (.setLength 0 (.lit (3 + 2 * i.val))) (.vector 0 (.scalar 1 1))), _, rfl, by decide, by decide⟩

/-- The length of a Z-curve is not a constant, though it is static in the type. -/
theorem C59_zcurve_length_not_constant :
    ∃ (s : Struct) (r : Sig), (s.sem M64).sig.find 2 .empty = .fn 2 (.static 16) r ∧
      (s.sem M64).len 2 .empty = some (.dyn 16) :=
  ⟨.view (.mergeZ 2 2 [0, 1] 2)
    (.view (.setLength 1 (.lit 4)) (.view (.setLength 0 (.lit 4)) (.vector 0 (.vector 1 (.scalar 1 1))))),
    _, rfl, by decide⟩

/-! ### Cases that meet the hypotheses -/

/-- ten bytes in blocks of four, the first byte left out: two blocks of four and one byte -/
private def blocks : Struct :=
  .view (.intoBlocksStat 0 1 2 3 (.lit 4)) (.view (.shift 0 (.lit 1)) ten)

example : blocks.wf M64 ∧ blocks.noDup M64 ∧ blocks.Honest ((State.empty).set (.idx 1) (.lit 1)) ∧
    (∃ r, (blocks.sem M64).sig.find 3 ((State.empty).set (.idx 1) (.lit 1)) = .fn 3 (.static 1) r) ∧
    (blocks.sem M64).len 3 ((State.empty).set (.idx 1) (.lit 1)) = some (.lit 1) := by
  refine ⟨⟨by decide, by decide, by decide, by decide, trivial⟩, ?_, ?_, ⟨_, rfl⟩, by decide⟩
  · simp [blocks, ten, Struct.noDup, Struct.sem, ViewSem.toSem, View.sem, vectorSem, setLengthSem, shiftSem,
      intoBlocksStatSem, scalarSem, Sig.replace, Sig.setLengthRepl, Sig.shiftRepl, Sig.intoBlocksStatRepl, Sig.uniq,
      Sig.anyAccept, Sig.shiftLen, ArgLen.ofVal]
  · simp only [blocks, ten, Struct.Honest, View.honest]
    refine ⟨?_, ?_, ?_, by simp⟩
    · intro n h; cases h; decide
    · exact trivial
    · intro u hu
      refine ⟨trivial, trivial, ?_, by simp⟩
      intro u' hu'
      refine ⟨⟨?_, ?_⟩, trivial, fun _ _ => trivial, by simp⟩
      · intro n h; cases h; decide
      · intro x hx
        cases hu; cases hu'
        exact (Option.some.inj hx).symm

/-- every second field of five -/
private def fields : Struct := .view (.step 7 (.lit 1) (.lit 2)) (.tuple 7 5 fun i => .scalar (i.val + 1) 1)

example : fields.wf M64 ∧ fields.noDup M64 ∧ fields.Honest .empty ∧
    (∃ rs, (fields.sem M64).sig.find 7 .empty = .dep 7 2 rs) ∧ (fields.sem M64).len 7 .empty = some (.lit 2) := by
  refine ⟨⟨by decide, by decide, fun _ => trivial⟩, ?_, ?_, ⟨_, rfl⟩, by decide⟩
  · refine ⟨fun i => ⟨rfl, trivial⟩, fun i => ⟨rfl, trivial⟩, fun _ => trivial⟩
  · refine ⟨⟨?_, fun n hn => ?_⟩, ⟨by decide, fun _ => trivial⟩, fun u hu => ⟨by decide, fun _ => trivial⟩,
      fun _ => ⟨by decide, fun _ => trivial⟩⟩
    · intro n h; cases h; decide
    · rintro ⟨i, h⟩
      exact h

end Noarr
