import Verif.OffsetAlong
import Verif.Props.Along

/-
C40: `offset_along`.
-/

set_option linter.unusedVariables false

namespace Noarr

theorem at_remove {f : State} {d : Dim} (hfd : f (.idx d) = none) (i : Nat) :
    (f.at d i).remove (.idx d) = f := by
  funext tag
  simp only [State.at, State.remove, State.set]
  split
  · next h => subst h; exact hfd.symm
  · rfl

/-- C40, as far as it is true: with the other indices fixed (`f`), the offset changes from index `i` to
index `j` in `d` by as much as `offset_along<d>` changes.

Missing from the full statement: the offset along the dimension itself need not be zero at index 0
(`C40_sliced_dimension`; it is for dimensions that are not sliced etc., see `C40_offset_along`); the
index of a tuple (false, `C40_tuple_index`); a joined or merged dimension, `DimIsBorder`, and the
blocks of the border (not proved); a constant length 1, where the only valid index is 0. -/
theorem C40_offset_along_difference_partial (s : Struct) (ht : s.tame) (hs : s.sane .ideal) {d : Dim}
    (hd : ¬ s.hard d) {f : State} (hf : Firm s f) (hfd : f (.idx d) = none)
    (hst : s.linear .ideal d f) {i j : Nat} {o o' a b : Val} {m n x y : Nat}
    (ho : (s.sem .ideal).off (f.at d i) (.lit 0) = some o) (hm : o.Num m)
    (ho' : (s.sem .ideal).off (f.at d j) (.lit 0) = some o') (hn : o'.Num n)
    (ha : s.offAlong .ideal d (f.at d i) = some a) (hx : a.Num x)
    (hb : s.offAlong .ideal d (f.at d j) = some b) (hy : b.Num y) :
    (n : Int) - m = (y : Int) - x := by
  obtain ⟨Z, h1, h2, -⟩ := along_affine ht hs hd hst hf hfd
  have k1 := h1 _ _ _ o o' m n (at_remove hfd i) (at_remove hfd j) ho ho' hm hn
  have k2 := h2 _ _ a b x y (at_remove hfd i) (at_remove hfd j) ha hb hx hy
  have e : ∀ k : Nat, (f.at d k) (.idx d) = some (.dyn k) := by intro k; simp [State.at, State.set]
  have fin : ∀ p q : Nat, ((∃ u v A B, (f.at d i) (.idx d) = some u ∧ (f.at d j) (.idx d) = some v ∧
      u.Num A ∧ v.Num B ∧ (q : Int) - p = ((B : Int) - A) * Z) ∨ (Z = 0 ∧ q = p)) →
      (q : Int) - p = ((j : Int) - i) * Z := by
    intro p q h
    rcases h with ⟨u, v, A, B, g1, g2, g3, g4, g5⟩ | ⟨g1, g2⟩
    · rw [e] at g1 g2
      cases g1; cases g2; cases g3; cases g4
      exact g5
    · subst g2; simp [g1]
  rw [fin m n k1, fin x y k2]

/-- C40 for a dimension that is not sliced, shifted, stepped or reversed, other than below a division
into blocks: the offset along the dimension is the offset at that index minus the offset at index 0,
the other indices being the same. The assumption `linear` excludes indices of tuples, joined and
merged dimensions, see `C40_offset_along_difference_partial`. -/
theorem C40_offset_along_partial (s : Struct) (ht : s.tame) (hs : s.sane .ideal) {d : Dim}
    (hd : ¬ s.hard d) (hu : s.unmoved d) {f : State} (hf : Firm s f) (hfd : f (.idx d) = none)
    (hst : s.linear .ideal d f) {i : Nat} {o o' a b : Val} {m n y : Nat}
    (ho : (s.sem .ideal).off (f.at d 0) (.lit 0) = some o) (hm : o.Num m)
    (ho' : (s.sem .ideal).off (f.at d i) (.lit 0) = some o') (hn : o'.Num n)
    (ha : s.offAlong .ideal d (f.at d 0) = some a) {x : Nat} (hx : a.Num x)
    (hb : s.offAlong .ideal d (f.at d i) = some b) (hy : b.Num y) :
    (y : Int) = (n : Int) - m := by
  have h := C40_offset_along_difference_partial s ht hs hd hf hfd hst ho hm ho' hn ha hx hb hy
  obtain ⟨Z, -, -, h3⟩ := along_affine ht hs hd hst hf hfd
  have : x = 0 := h3 hu _ (.dyn 0) a x (at_remove hfd 0) (by simp [State.at, State.set]) rfl ha hx
  omega

/-- Rows in blocks (of a slice of the columns); the column block is left. -/
example := C40_offset_along_partial c38Example c38_tame c38_sane (d := 2)
  (by simp [Struct.apply, Struct.hard, View.hard])
  (by simp [Struct.apply, Struct.unmoved, View.keepsZero, View.blocksOf, View.inner])
  (f := (State.empty.at 1 3).at 3 2)
  (by simp [Firm, Struct.apply, Struct.firm]) rfl
  (by
    simp [Struct.apply, Struct.linear, View.straight, View.follows, View.inner, View.sem, setLengthSem,
      sliceSem]
    rintro _ u rfl -
    refine ⟨by simp, ?_⟩
    intro d u h _
    simp at h
    subst h
    simp [State.set, State.removeAll]) (i := 1)
  (o := .dyn 64) rfl rfl (o' := .dyn 80) rfl rfl (a := .dyn 0) rfl rfl (b := .dyn 16) rfl rfl

/-- The index 0 of a sliced dimension contributes the start of the slice. -/
theorem C40_sliced_dimension :
    let s := (Struct.vector 0 (.scalar 4 4)).apply [.setLength 0 (.dyn 12), .slice 0 (.lit 2) (.lit 8)]
    s.offAlong .ideal 0 (State.empty.at 0 0) = some (.dyn 8) ∧
    s.offAlong .ideal 0 (State.empty.at 0 1) = some (.dyn 12) ∧
    (s.sem .ideal).off (State.empty.at 0 0) (.lit 0) = some (.dyn 8) ∧
    (s.sem .ideal).off (State.empty.at 0 1) (.lit 0) = some (.dyn 12) := by decide

/-- With the other index fixed at 2, the offset grows by 44, not 40, from the first vector of a tuple
to the second one: the elements are larger. -/
theorem C40_tuple_index :
    let s := (Struct.tuple 1 2 (fun i => .vector 0 (.scalar (if i.val = 0 then 4 else 6) 2))).apply
      [.setLength 0 (.dyn 10)]
    let st (k : Nat) := (State.empty.at 0 2).set (.idx 1) (.lit k)
    s.offAlong .ideal 1 (st 0) = some (.lit 0) ∧ s.offAlong .ideal 1 (st 1) = some (.dyn 40) ∧
    (s.sem .ideal).off (st 0) (.lit 0) = some (.dyn 8) ∧
    (s.sem .ideal).off (st 1) (.lit 0) = some (.dyn 52) := by decide

/-- In the blocks of a reversed dimension, the difference to the first block is negative and wraps. -/
theorem C40_blocks_of_a_reversed_dimension :
    let s := (Struct.vector 0 (.scalar 4 4)).apply
      [.setLength 0 (.dyn 12), .reverse 0, .intoBlocks 0 2 3, .setLength 3 (.lit 4)]
    s.offAlong .ideal 2 ((State.empty.at 2 1).at 3 0) = some (.bad .wrap) := by decide

/-- `offset_along` answers, with 0, for a name that has been renamed away. -/
theorem C40_renamed_away :
    let s := (Struct.vector 0 (.scalar 4 4)).apply [.setLength 0 (.dyn 12), .rename [(0, 1)]]
    (s.sem .ideal).sig.anyAccept 0 = false ∧ s.offAlong .ideal 0 (State.empty.at 1 3) = some (.dyn 0) ∧
    s.offAlong .ideal 1 (State.empty.at 1 3) = some (.dyn 12) := by decide

end Noarr
