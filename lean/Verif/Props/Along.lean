import Verif.AlongStride

/-
C38, C39: `stride_along` and `is_uniform_along`.
-/

set_option linter.unusedVariables false

namespace Noarr

/-! ### C38 -/

/-- C38, in the cases in which it is true: whenever `stride_along<d>` is available (in a state `p`, with the
lengths of `f` and some of its indices) and its computation does not wrap (`int?` is `some`), then
with any other indices `f`, the offset grows by the stride when the index in `d` grows by one, and
by `j - i` times the stride from `i` to `j`.

Missing from the full statement: a `step` in another dimension on the way (`unscaled`; false, see
`C38_step_in_another_dimension`), the blocks of the border of `into_blocks_static` (`straight`; there
is one block only, but `stride_along` is available and not zero), a joined dimension if elements off
the diagonal have no offset (`straight`), a dimension that has been fixed (`hd`; the query is available below `into_blocks`),
and blocks of a reversed dimension, for which the computed number wraps
(`C38_blocks_of_a_reversed_dimension`). -/
theorem C38_stride_along_partial (s : Struct) (hw : s.wf .ideal) (hn : s.noDup .ideal) (ht : s.tame)
    (hs : s.sane .ideal) {d : Dim} (hd : (s.sem .ideal).sig.anyAccept d = true) {p f : State}
    (hpf : Grow p f) (hf : Firm s f) (hfd : f (.idx d) = none) (hst : s.straight .ideal d f)
    (hsc : s.unscaled d) {z : Stride} {Z : Int} (hz : s.stride .ideal d p = some z)
    (hZ : z.int? = some Z) {i j : Nat} {o o' : Val} {m n : Nat}
    (ho : (s.sem .ideal).off (f.at d i) (.lit 0) = some o) (hm : o.Num m)
    (ho' : (s.sem .ideal).off (f.at d j) (.lit 0) = some o') (hn' : o'.Num n) :
    (n : Int) - m = ((j : Int) - i) * Z ∧ (j = i + 1 → (n : Int) = m + Z) := by
  have ha := stride_affine ht hs (Struct.reaches_of_accept hw hn hd) (stride_not_hard ht hs hz) hst hsc hpf
    hf hz hZ
  have hr : ∀ i, (f.at d i).remove (.idx d) = f := by
    intro i
    funext tag
    simp only [State.at, State.remove, State.set]
    split
    · next h => subst h; exact hfd.symm
    · rfl
  have key : (n : Int) - m = ((j : Int) - i) * Z := by
    rcases ha _ _ _ o o' m n (hr i) (hr j) ho ho' hm hn' with ⟨x, y, a, b, hx, hy, ha, hb, h⟩ | ⟨h1, h2⟩
    · simp only [State.at, State.set, if_true, Option.some.injEq] at hx hy
      subst hx; subst hy
      cases ha; cases hb
      exact h
    · subst h1; subst h2; simp
  refine ⟨key, ?_⟩
  rintro rfl
  have : ((i + 1 : Nat) : Int) - i = 1 := by omega
  rw [this] at key
  omega

/-- a matrix of 5 rows and 12 columns, of which 8 are used, in blocks of 4, the rows in reverse -/
abbrev c38Example : Struct := (Struct.vector 1 (.vector 0 (.scalar 4 4))).apply
  [.setLength 0 (.dyn 12), .setLength 1 (.dyn 5), .slice 0 (.lit 2) (.lit 8), .intoBlocks 0 2 3,
   .setLength 3 (.lit 4), .reverse 1]

abbrev c38State : State := (State.empty.at 2 0).at 3 3

theorem c38_wf : c38Example.wf .ideal :=
  ⟨by decide, by decide, by decide, by decide, by decide, by decide, by decide, by decide, trivial⟩

theorem c38_tame : c38Example.tame := by
  simp [Struct.apply, Struct.tame, View.tame, Struct.plain, Struct.hard, Struct.soft, Struct.stale,
    View.hard, View.soft, View.stale]

theorem c38_sane : c38Example.sane .ideal := by
  simp [Struct.apply, Struct.sane, Struct.hard, View.hard, Struct.drive, View.drive]

theorem c38_grow : Grow State.empty c38State :=
  ⟨by intro d; simp [State.at, State.set], by intro e v h; simp [State.empty] at h⟩

example : (c38Example.stride .ideal 1 .empty, c38Example.stride .ideal 2 .empty,
    c38Example.stride .ideal 3 .empty) = (some (.sgn (-48)), some (.uns (.lit 16)), some (.uns (.lit 4))) := by
  decide

/-- With the row index free. -/
example := C38_stride_along_partial c38Example c38_wf
  (Struct.noDup_of_noAlias _ _ c38_wf (by simp [Struct.apply, Struct.noAlias])) c38_tame c38_sane
  (d := 1) (by decide) c38_grow
  (by simp [Firm, Struct.apply, Struct.firm]) rfl
  (by simp [Struct.apply, Struct.straight, View.straight, View.inner])
  (by simp [Struct.apply, Struct.unscaled, View.inner]) (z := .sgn (-48)) rfl rfl
  (i := 1) (j := 2) (o := .dyn 164) rfl rfl (o' := .dyn 116) rfl rfl

/-- the main diagonal of a square matrix with 5 rows -/
abbrev c38Diagonal : Struct := (Struct.vector 1 (.vector 0 (.scalar 4 4))).apply
  [.setLength 0 (.dyn 5), .setLength 1 (.dyn 5), .join 0 1 2]

theorem c38d_wf : c38Diagonal.wf .ideal :=
  ⟨by decide, by decide, by decide, by decide, by decide, trivial⟩

theorem c38d_noDup : c38Diagonal.noDup .ideal := by
  simp [Struct.apply, Struct.noDup, Struct.sem, ViewSem.toSem, View.sem, setLengthSem, joinSem, vectorSem,
    scalarSem, Sig.uniq, Sig.replace, Sig.setLengthRepl, Sig.anyAccept, Sig.retRepl, Sig.find, ArgLen.ofVal]

theorem c38d_tame : c38Diagonal.tame := by
  simp [Struct.apply, Struct.tame, View.tame, Struct.plain, Struct.hard, Struct.soft, Struct.stale,
    View.hard, View.soft, View.stale]

theorem c38d_sane : c38Diagonal.sane .ideal := by
  simp [Struct.apply, Struct.sane, Struct.hard, View.hard]

theorem c38d_straight : c38Diagonal.straight .ideal 2 .empty := by
  simp only [Struct.apply, Struct.straight, View.straight, View.inner]
  refine ⟨⟨trivial, by simp⟩, ?_⟩
  rintro a b e u h rfl hu
  cases h
  refine ⟨by simp, by simp, ?_⟩
  intro start g h o o' m n hg hh hga hha ho ho' hm hn
  simp [Struct.sem, ViewSem.toSem, View.sem, setLengthSem, vectorSem, scalarSem, bind, State.set, State.removeAll,
    State.cross, Option.bind_eq_some_iff] at ho ho' ⊢
  obtain ⟨a, h1, b, h2, rfl⟩ := ho
  obtain ⟨a', h3, b', h4, rfl⟩ := ho'
  refine ⟨_, ⟨a, h1, b', h4, rfl⟩, ?_⟩
  simp only [Val.Num] at hm hn ⊢
  obtain ⟨x, y, -, hy, -⟩ := Val.nat?_add.1 hm
  obtain ⟨x', y', hx', -, -⟩ := Val.nat?_add.1 hn
  exact ⟨x' + y, Val.nat?_add.2 ⟨x', y, hx', hy, rfl⟩⟩

example : (c38Diagonal.stride .ideal 2 .empty) = some (.uns (.dyn 24)) := by decide

/-- Along the diagonal. -/
example := C38_stride_along_partial c38Diagonal c38d_wf c38d_noDup c38d_tame c38d_sane
  (d := 2) (by decide) (p := .empty) (f := .empty) ⟨fun _ => rfl, fun _ _ h => h⟩
  (by simp [Firm, Struct.apply, Struct.firm]) rfl c38d_straight
  (by simp [Struct.apply, Struct.unscaled, View.inner]) (z := .uns (.dyn 24)) rfl rfl
  (i := 1) (j := 3) (o := .dyn 24) rfl rfl (o' := .dyn 72) rfl rfl

/-- `stride_along` multiplies by the step even along other dimensions (here: rows of 24 bytes, the
columns with step 2). -/
theorem C38_step_in_another_dimension :
    let s := (Struct.vector 1 (.vector 0 (.scalar 4 4))).apply
      [.setLength 0 (.dyn 6), .setLength 1 (.dyn 5), .step 0 (.lit 0) (.lit 2)]
    s.stride .ideal 1 .empty = some (.uns (.dyn 48)) ∧
    (s.sem .ideal).off ((State.empty.at 1 0).at 0 1) (.lit 0) = some (.dyn 8) ∧
    (s.sem .ideal).off ((State.empty.at 1 1).at 0 1) (.lit 0) = some (.dyn 32) := by decide

/-- The stride along the blocks of a reversed dimension is computed in `size_t` and wraps (the
truth is -16). -/
theorem C38_blocks_of_a_reversed_dimension :
    let s := (Struct.vector 0 (.scalar 4 4)).apply
      [.setLength 0 (.dyn 12), .reverse 0, .intoBlocks 0 2 3, .setLength 3 (.lit 4)]
    s.stride .ideal 2 .empty = some (.uns (.bad .wrap)) ∧
    (s.sem .ideal).off ((State.empty.at 2 0).at 3 0) (.lit 0) = some (.dyn 44) ∧
    (s.sem .ideal).off ((State.empty.at 2 1).at 3 0) (.lit 0) = some (.dyn 28) := by decide

/-- `stride_along` is available for a dimension that the structure does not have any more, having
been fixed. -/
theorem C38_fixed_dimension :
    let s := (Struct.vector 0 (.scalar 4 4)).apply
      [.setLength 0 (.dyn 12), .intoBlocks 0 2 3, .setLength 3 (.lit 4), .fix 3 (.lit 1)]
    (s.sem .ideal).sig.anyAccept 3 = false ∧ s.stride .ideal 3 .empty = some (.uns (.lit 4)) := by decide

/-! ### C39 -/

/-- C39, in the cases in which it is true: whenever `is_uniform_along<d>` holds (in any state `p`), then, with
any other indices `f`, the difference of offsets of consecutive indices in `d` is the same for all
the indices.

Missing from the full statement: a dimension made by merging (`straight`; false, see
`C39_merged_blocks` and `C39_merged_zcurve`), a joined dimension if elements off the diagonal have no
offset, `DimIsBorder` (which has two indices, thus a single difference) and the blocks of the border
(of which there is one). -/
theorem C39_uniform_along_partial (s : Struct) (hw : s.wf .ideal) (hn : s.noDup .ideal) (ht : s.tame)
    (hs : s.sane .ideal) {d : Dim} (hd : (s.sem .ideal).sig.anyAccept d = true) (hd' : ¬ s.hard d)
    {p f : State} (hf : Firm s f) (hfd : f (.idx d) = none) (hst : s.straight .ideal d f)
    (hz : s.isUniform .ideal d p = true) :
    ∃ Z : Int, ∀ (i : Nat) (o o' : Val) (m n : Nat),
      (s.sem .ideal).off (f.at d i) (.lit 0) = some o → o.Num m →
      (s.sem .ideal).off (f.at d (i + 1)) (.lit 0) = some o' → o'.Num n → (n : Int) - m = Z := by
  obtain ⟨Z, ha⟩ := uniform_affine (P := (· = f)) ht hs (Struct.reaches_of_accept hw hn hd) hd'
    (by rintro _ _ rfl rfl; exact ⟨fun _ => rfl, fun _ _ => rfl⟩) (by rintro _ rfl; exact hst)
    (by rintro _ rfl; exact hf) hz
  replace ha := ha f rfl
  have hr : ∀ i, (f.at d i).remove (.idx d) = f := by
    intro i
    funext tag
    simp only [State.at, State.remove, State.set]
    split
    · next h => subst h; exact hfd.symm
    · rfl
  refine ⟨Z, ?_⟩
  intro i o o' m n ho hm ho' hn'
  rcases ha _ _ _ o o' m n (hr i) (hr (i + 1)) ho ho' hm hn' with
    ⟨x, y, a, b, hx, hy, ha, hb, h⟩ | ⟨h1, h2⟩
  · simp only [State.at, State.set, if_true, Option.some.injEq] at hx hy
    subst hx; subst hy
    cases ha; cases hb
    rw [h]
    have : ((i + 1 : Nat) : Int) - i = 1 := by omega
    rw [this]; simp
  · subst h1; subst h2; simp

example := C39_uniform_along_partial c38Example c38_wf
  (Struct.noDup_of_noAlias _ _ c38_wf (by simp [Struct.apply, Struct.noAlias])) c38_tame c38_sane
  (d := 1) (by decide) (by simp [Struct.apply, Struct.hard, View.hard]) (p := .empty) (f := c38State)
  (by simp [Firm, Struct.apply, Struct.firm]) rfl
  (by simp [Struct.apply, Struct.straight, View.straight, View.inner]) (by decide)

example := C39_uniform_along_partial c38Diagonal c38d_wf c38d_noDup c38d_tame c38d_sane
  (d := 2) (by decide) (by simp [Struct.apply, Struct.hard, View.hard]) (p := .empty) (f := .empty)
  (by simp [Firm, Struct.apply, Struct.firm]) rfl c38d_straight (by decide)

/-- `is_uniform_along` holds along a dimension merged from the columns (major) and rows (minor) of a
row-major matrix, with differences 12, 12 - 20, ... -/
theorem C39_merged_blocks :
    let s := (Struct.vector 1 (.vector 0 (.scalar 4 4))).apply
      [.setLength 0 (.dyn 3), .setLength 1 (.dyn 2), .mergeBlocks 0 1 2]
    s.isUniform .ideal 2 .empty = true ∧
    (s.sem .ideal).off (State.empty.at 2 0) (.lit 0) = some (.dyn 0) ∧
    (s.sem .ideal).off (State.empty.at 2 1) (.lit 0) = some (.dyn 12) ∧
    (s.sem .ideal).off (State.empty.at 2 2) (.lit 0) = some (.dyn 4) := by decide

/-- The same along a z-curve. -/
theorem C39_merged_zcurve :
    let s := (Struct.vector 1 (.vector 0 (.scalar 4 4))).apply
      [.setLength 0 (.dyn 2), .setLength 1 (.dyn 2), .mergeZ 1 1 [0, 1] 2]
    s.isUniform .ideal 2 .empty = true ∧
    (s.sem .ideal).off (State.empty.at 2 0) (.lit 0) = some (.dyn 0) ∧
    (s.sem .ideal).off (State.empty.at 2 1) (.lit 0) = some (.dyn 8) ∧
    (s.sem .ideal).off (State.empty.at 2 2) (.lit 0) = some (.dyn 4) := by decide

end Noarr
