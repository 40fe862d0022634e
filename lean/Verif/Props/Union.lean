import Verif.UnionLemmas

/-
C31: traversing several structures.
-/

namespace Noarr

/-- C31: the dimensions of a traverser of several structures, of which only the first may have tuples,
are those of the first structure and all the dimensions of the others that the first one does not have;
none is iterated twice. -/
theorem C31_each_dimension_once (A : Arith) {n : Nat} (ss : Fin (n + 1) → Struct)
    (hu : ∀ i, ((ss i).sem A).sig.uniq) (hf : ∀ i, i ≠ 0 → ((ss i).sem A).sig.flat) :
    ((Struct.union (n + 1) ss).sem A).sig.uniq ∧
    ∀ st q, ((Struct.union (n + 1) ss).sem A).sig.needs st q ↔
      ((ss 0).sem A).sig.needs st q ∨
      (((ss 0).sem A).sig.anyAccept q = false ∧ ∃ i, ((ss i).sem A).sig.anyAccept q = true) := by
  constructor
  · refine Sig.unionAll_uniq _ fun S hS => ?_
    obtain ⟨i, rfl⟩ := List.mem_ofFn.1 hS
    exact hu i
  · intro st q
    simp only [Struct.sem, unionSem, List.ofFn_succ]
    rw [Sig.needs_unionAll]
    · constructor
      · rintro (h | ⟨h, T, hT, hq⟩)
        · exact .inl h
        · obtain ⟨i, rfl⟩ := List.mem_ofFn.1 hT
          exact .inr ⟨h, _, hq⟩
      · rintro (h | ⟨h, i, hq⟩)
        · exact .inl h
        · refine .inr ⟨h, _, List.mem_ofFn.2 ⟨i.pred ?_, rfl⟩, ?_⟩
          · rintro rfl; rw [h] at hq; cases hq
          · simpa using hq
    · intro T hT
      obtain ⟨i, rfl⟩ := List.mem_ofFn.1 hT
      exact hf _ (Fin.succ_ne_zero i)

/-- C31: the length of the loop over a dimension is that of the first structure with the dimension. -/
theorem C31_length_of_the_first (A : Arith) {n : Nat} (ss : Fin n → Struct) (q : Dim) (i : Fin n)
    (hi : ((ss i).sem A).sig.anyAccept q = true)
    (hlt : ∀ j, j < i → ((ss j).sem A).sig.anyAccept q = false) (st : State) :
    ((Struct.union n ss).sem A).len q st = ((ss i).sem A).len q st :=
  union_len ss hi hlt st

/-- C31: without tuples, and with lengths that do not depend on indices, the traversal compiles and
visits every combination of indices in the union of the dimensions once. `N` are the lengths, each taken
from the first structure with the dimension. Missing from the full claim: a first structure with tuples,
for which it is false (`C31_tuple_with_shared_dimension_violates`). -/
theorem C31_visits_the_union_box_partial (A : Arith) {n : Nat} (ss : Fin (n + 1) → Struct) (N : Dim → Nat)
    (hu : ∀ i, ((ss i).sem A).sig.uniq) (hf : ∀ i, ((ss i).sem A).sig.flat)
    (hN : ∀ q i, ((ss i).sem A).sig.anyAccept q = true →
      (∀ j, j < i → ((ss j).sem A).sig.anyAccept q = false) →
      ∀ st : State, (∀ e, st (.len e) = none) → st (.idx q) = none →
        ∃ l, ((ss i).sem A).len q st = some l ∧ l.Num (N q)) :
    ∃ sts, (Traverser.mk (.union (n + 1) ss) []).forEach A [] = some sts ∧ sts.Nodup ∧
      ∀ u, u ∈ sts ↔ OnBox (fun q => ∃ i, ((ss i).sem A).sig.anyAccept q = true) N u := by
  have hacc : ∀ q, ((Struct.union (n + 1) ss).sem A).sig.anyAccept q = true ↔
      ∃ i, ((ss i).sem A).sig.anyAccept q = true := by
    intro q
    simp only [Struct.sem, unionSem]
    rw [List.ofFn_succ, Sig.accept_unionAll, ← List.ofFn_succ (f := fun i => ((ss i).sem A).sig)]
    · constructor
      · rintro ⟨T, hT, hq⟩
        obtain ⟨i, rfl⟩ := List.mem_ofFn.1 hT
        exact ⟨i, hq⟩
      · rintro ⟨i, hq⟩
        exact ⟨_, List.mem_ofFn.2 ⟨i, rfl⟩, hq⟩
    · intro T hT
      obtain ⟨i, rfl⟩ := List.mem_ofFn.1 hT
      exact hf _
  have hU := (C31_each_dimension_once A ss hu fun i _ => hf i).1
  have hF : ((Struct.union (n + 1) ss).sem A).sig.flat := by
    simp only [Struct.sem, unionSem, List.ofFn_succ]
    refine Sig.flat_unionAll (hf 0) fun T hT => ?_
    obtain ⟨i, rfl⟩ := List.mem_ofFn.1 hT
    exact hf _
  have hL : HasLengths ((Struct.union (n + 1) ss).sem A) N := by
    intro q hq st h1 h2
    obtain ⟨i, hi, hlt⟩ := exists_first (fun i => ((ss i).sem A).sig.anyAccept q) ((hacc q).1 hq)
    rw [union_len ss hi hlt]
    exact hN q i hi hlt st h1 h2
  obtain ⟨sts, h1, h2, -, h4⟩ := forEach_flat hF hU hL
  refine ⟨sts, h1, h2, fun u => ?_⟩
  rw [h4]
  simp only [hacc]

/-- C31: a structure whose lengths are those that are traversed sees, in its own dimensions, only valid
combinations of indices; and it sees all of them, if no length is zero. Missing from the full claim: as above. -/
theorem C31_each_structure_sees_its_own_partial (A : Arith) {n : Nat} (ss : Fin (n + 1) → Struct) (N : Dim → Nat)
    (hu : ∀ i, ((ss i).sem A).sig.uniq) (hf : ∀ i, ((ss i).sem A).sig.flat)
    (hN : ∀ q i, ((ss i).sem A).sig.anyAccept q = true →
      (∀ j, j < i → ((ss j).sem A).sig.anyAccept q = false) →
      ∀ st : State, (∀ e, st (.len e) = none) → st (.idx q) = none →
        ∃ l, ((ss i).sem A).len q st = some l ∧ l.Num (N q))
    (j : Fin (n + 1)) (hj : HasLengths ((ss j).sem A) N)
    (sts : List State) (h : (Traverser.mk (.union (n + 1) ss) []).forEach A [] = some sts) :
    (∀ u ∈ sts, Addresses ((ss j).sem A) (u.only ((ss j).sem A).sig.anyAccept)) ∧
    ((∀ q i, ((ss i).sem A).sig.anyAccept q = true → 0 < N q) →
      ∀ w, Addresses ((ss j).sem A) w → ∃ u ∈ sts, u.only ((ss j).sem A).sig.anyAccept = w) := by
  obtain ⟨sts', h', -, hmem⟩ := C31_visits_the_union_box_partial A ss N hu hf hN
  rw [h] at h'; cases h'
  constructor
  · intro u hmu
    have hb := (hmem u).1 hmu
    refine (addresses_flat (hf j) hj _).2 ⟨fun q hq => ?_, fun q hq => ?_, fun _ => rfl⟩
    · obtain ⟨k, h1, h2⟩ := hb.ok q ⟨j, hq⟩
      exact ⟨k, h1, by simp only [State.only, hq, if_true, h2]⟩
    · simp only [State.only, hq, if_false, Bool.false_eq_true]
  · intro hpos w hw
    have hb := (addresses_flat (hf j) hj _).1 hw
    refine ⟨fun t => match t with
      | .idx q => if ((ss j).sem A).sig.anyAccept q = true then w (.idx q)
          else if ∃ i, ((ss i).sem A).sig.anyAccept q = true then some (.dyn 0) else none
      | .len _ => none, (hmem _).2 ⟨fun q hq => ?_, fun q hq => ?_, fun _ => rfl⟩, ?_⟩
    · by_cases hqj : ((ss j).sem A).sig.anyAccept q = true
      · obtain ⟨k, h1, h2⟩ := hb.ok q hqj
        exact ⟨k, h1, by simp only [hqj, if_true, h2]⟩
      · obtain ⟨i, hi⟩ := hq
        exact ⟨0, hpos q i hi, by simp only [hqj, if_false, Bool.false_eq_true]; rw [if_pos ⟨i, hi⟩]⟩
    · have hqj : ¬ ((ss j).sem A).sig.anyAccept q = true := fun h => hq ⟨j, h⟩
      simp only [hqj, hq, if_false, Bool.false_eq_true]
    · refine State.ext (fun q => ?_) (fun q => (hb.noLen q).symm)
      simp only [State.only]
      by_cases hqj : ((ss j).sem A).sig.anyAccept q = true
      · simp only [hqj, if_true]
      · simp only [hqj, if_false, Bool.false_eq_true]
        exact (hb.only q hqj).symm

/-! ### Disagreement with the claim -/

/-- A pair of an array and a scalar, and an array over the same dimension. -/
def c31Pair : Fin 2 → Struct
  | 0 => .tuple 9 2 fun i =>
      if i = 0 then .view (.setLength 0 (.lit 2)) (.vector 0 (.scalar 4 4)) else .scalar 4 4
  | 1 => .view (.setLength 0 (.lit 2)) (.vector 0 (.scalar 4 4))

/-- C31 fails if the first structure has a shared dimension in some fields only: at the other fields the
dimension is not iterated at all, and the second structure has no element there. -/
theorem C31_tuple_with_shared_dimension_violates :
    walk ((Struct.union 2 c31Pair).sem .ideal) ((Struct.union 2 c31Pair).sem .ideal).sig.tree .empty = some
      [[(9, .lit 0), (0, .dyn 0)], [(9, .lit 0), (0, .dyn 1)], [(9, .lit 1)]] ∧
    ((c31Pair 1).sem .ideal).off (Path.state [(9, .lit 1)] .empty) (.lit 0) = none := by decide

/-! ### Examples -/

/-- A matrix of 2 x 3 and a vector of length 3 over the same columns. -/
def c31Example : Fin 2 → Struct
  | 0 => .view (.setLength 0 (.dyn 2)) (.view (.setLength 1 (.lit 3)) (.vector 0 (.vector 1 (.scalar 4 4))))
  | 1 => .view (.setLength 1 (.dyn 3)) (.vector 1 (.scalar 8 8))

example (i : Fin 2) : ((c31Example i).sem .ideal).sig.uniq ∧ ((c31Example i).sem .ideal).sig.flat := by
  match i with
  | 0 => exact ⟨⟨rfl, rfl, trivial⟩, trivial⟩
  | 1 => exact ⟨⟨rfl, trivial⟩, trivial⟩

/-- Both have the lengths 2 and 3. -/
example (i : Fin 2) : HasLengths ((c31Example i).sem .ideal) fun q => if q = 0 then 2 else 3 := by
  intro q hq st hl hi
  match i with
  | 0 =>
    have : q = 0 ∨ q = 1 := by
      have h : (Sig.fn 0 .dynamic (.fn 1 (.static 3) (.scalar 4))).anyAccept q = true := hq
      simp [Sig.anyAccept] at h; grind
    rcases this with rfl | rfl
    · refine ⟨.dyn 2, ?_, rfl⟩
      simp [c31Example, Struct.sem, ViewSem.toSem, View.sem, setLengthSem, vectorSem, guardLen, State.has,
        State.set, State.removeAll, hi]
    · refine ⟨.lit 3, ?_, rfl⟩
      simp [c31Example, Struct.sem, ViewSem.toSem, View.sem, setLengthSem, vectorSem, guardLen, State.has,
        State.set, State.removeAll, hi]
  | 1 =>
    have : q = 1 := by
      have h : (Sig.fn 1 .dynamic (.scalar 8)).anyAccept q = true := hq
      simp [Sig.anyAccept] at h; grind
    subst this
    refine ⟨.dyn 3, ?_, rfl⟩
    simp [c31Example, Struct.sem, ViewSem.toSem, View.sem, setLengthSem, vectorSem, guardLen, State.has,
      State.set, State.removeAll, hi]

example : ∃ sts, (Traverser.mk (.union 2 c31Example) []).forEach .ideal [] = some sts ∧ sts.length = 6 := by
  refine ⟨_, rfl, by decide⟩

end Noarr
