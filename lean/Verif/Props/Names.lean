import Verif.NamesLemmas
import Verif.Memory
import Verif.FlatSpec

/-
C71: a structure ignores the indices and lengths of other structures.
-/

namespace Noarr

/-- C71: in two states with the same indices and lengths in the dimensions of a structure, the structure has the
same size, alignment, offsets, elements and lengths, and the same element is read and written. -/
theorem C71_only_own_dimensions (A : Arith) {s : Struct} (hs : s.tidy) {st st' : State} (h : AgreeOn s.names st st') :
    (s.sem A).size st = (s.sem A).size st' ∧ (s.sem A).align st = (s.sem A).align st' ∧
    (∀ o, (s.sem A).off st o = (s.sem A).off st' o) ∧ (s.sem A).elem st = (s.sem A).elem st' ∧
    (∀ q, s.names q → (s.sem A).hasLen q st = (s.sem A).hasLen q st' ∧ (s.sem A).len q st = (s.sem A).len q st') ∧
    (∀ m, s.getAt A m st = s.getAt A m st') ∧ ∀ m x, s.setAt A m st x = s.setAt A m st' x := by
  have F := Struct.frame (A := A) hs
  have hp : s.place A st = s.place A st' := by simp only [Struct.place, F.elem h, F.off _ h]
  refine ⟨F.size h, F.align h, fun o => F.off o h, F.elem h,
    fun q hq => ⟨F.hasLen h (h q hq).1, F.len h (h q hq).1⟩, fun m => ?_, fun m x => ?_⟩
  · simp only [Struct.getAt, hp]
  · simp only [Struct.setAt, hp]

/-- C71: an index, or a length, in a dimension that the structure does not have can be added to the state. -/
theorem C71_other_dimensions_are_ignored (A : Arith) {s : Struct} (hs : s.tidy) {d : Dim} (hd : ¬ s.names d)
    (st : State) (i : Val) (t : Tag) (ht : t = .idx d ∨ t = .len d) :
    (s.sem A).size (st.set t i) = (s.sem A).size st ∧
    (∀ o, (s.sem A).off (st.set t i) o = (s.sem A).off st o) ∧
    (∀ q, s.names q → (s.sem A).len q (st.set t i) = (s.sem A).len q st) ∧
    (∀ m, s.getAt A m (st.set t i) = s.getAt A m st) ∧
    ∀ m x, s.setAt A m (st.set t i) x = s.setAt A m st x := by
  have h : AgreeOn s.names (st.set t i) st := by
    intro q hq
    have hne : q ≠ d := by rintro rfl; exact hd hq
    rcases ht with rfl | rfl <;> simp [State.set, hne]
  obtain ⟨h1, -, h3, -, h5, h6, h7⟩ := C71_only_own_dimensions A hs h
  exact ⟨h1, h3, fun q hq => (h5 q hq).2, h6, h7⟩

/-- C71: a bag, used in a state without lengths (such as those that a traverser of several structures visits), is used
in the state with only the indices in its own dimensions. -/
theorem C71_bag_in_a_larger_state (A : Arith) (b : Bag) (hs : b.structure_.tidy) (st : State)
    (hl : ∀ q, st (.len q) = none) (own : Dim → Bool) (ho : ∀ q, b.structure_.names q → own q = true) :
    b.get A st = b.get A (st.only own) ∧ ∀ x, b.set A st x = b.set A (st.only own) x := by
  have h : AgreeOn b.structure_.names st (st.only own) := by
    intro q hq
    simp [State.only, ho q hq, hl]
  obtain ⟨-, -, -, -, -, h6, h7⟩ := C71_only_own_dimensions A hs h
  exact ⟨h6 _, fun x => by simp only [Bag.set, h7]⟩

/-- The hypotheses of C71 can be met: a matrix `'i'` (1) times `'j'` (2), of which the rows are split into blocks
`'I'` (3) and `'r'` (4), has no dimension `'k'` (5), and no dimension `'i'` any more. -/
def c71Matrix : Struct :=
  (Struct.vector 1 (.vector 2 (.scalar 4 4))).apply
    [.setLength 1 (.dyn 12), .setLength 2 (.dyn 7), .intoBlocks 1 3 4, .setLength 4 (.dyn 3), .reverse 2]

theorem c71Matrix_tidy : c71Matrix.tidy := by
  simp [c71Matrix, Struct.apply, Struct.tidy, Struct.names, View.names]

theorem c71Matrix_names (q : Dim) : c71Matrix.names q ↔ q = 2 ∨ q = 3 ∨ q = 4 := by
  simp only [c71Matrix, Struct.apply, Struct.names, View.names, List.mem_cons, List.not_mem_nil, or_false]
  constructor
  · rintro ((h | h) | ⟨h1, h | h⟩) <;> simp_all
  · rintro (h | h | h) <;> simp [h]

example (m : Mem) : c71Matrix.getAt .ideal m (State.empty.withAll [(3, .dyn 2), (4, .dyn 1), (2, .dyn 5)]) =
    c71Matrix.getAt .ideal m (State.empty.withAll [(3, .dyn 2), (4, .dyn 1), (2, .dyn 5), (5, .dyn 77)]) :=
  ((C71_other_dimensions_are_ignored .ideal c71Matrix_tidy (d := 5) (by simp [c71Matrix_names])
    (State.empty.withAll [(3, .dyn 2), (4, .dyn 1), (2, .dyn 5)]) (.dyn 77) (.idx 5) (.inl rfl)).2.2.2.1 m).symm

/-- the offset is that of row 7, column 1 -/
example : (c71Matrix.sem .ideal).off (State.empty.withAll [(3, .dyn 2), (4, .dyn 1), (2, .dyn 5), (5, .dyn 77)])
    (.lit 0) = some (.dyn ((7 * 7 + 1) * 4)) := rfl

/-- Here a length in a dimension of another name changes the offset: `'x'` (2) is a dimension of the second field of a
tuple, and the state selects a field behind it. -/
def c71Tuple : Struct :=
  .tuple 1 3 fun i => if i = 1 then Struct.vector 2 (.scalar 4 4) else .scalar 4 4

theorem C71_other_field_counts :
    c71Tuple.names 2 ∧
    (c71Tuple.sem .ideal).off (State.empty.withAll [(1, .lit 2)]) (.lit 0) = none ∧
    (c71Tuple.sem .ideal).off ((State.empty.withAll [(1, .lit 2)]).set (.len 2) (.dyn 3)) (.lit 0) =
      some (.dyn 16) := by
  refine ⟨.inr ⟨1, .inl rfl⟩, rfl, rfl⟩

end Noarr
