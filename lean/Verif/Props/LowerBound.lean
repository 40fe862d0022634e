import Verif.LowerLowest
import Verif.Props.OffsetAlong

/-
C41: `lower_bound_along` and `lower_bound_at`.
-/

set_option linter.unusedVariables false

namespace Noarr

/-- C41 without a range, as far as it is true: `lower_bound_along<d>` is not above the offset along `d`
of any valid index, `lower_bound_at<d>` is a valid index, and the offset along `d` of this index is the
bound. `f` has the indices in the other dimensions.

Missing from the full statement: the bounds of the blocks of a sliced or reversed dimension (false,
`C41_blocks_of_a_slice`), of a shifted dimension that is reversed (false, `C41_shift_of_reversed`), of
merged dimensions (false if one is reversed, `C41_merged_reversed`, not proved if one is shifted or sliced) and within the
border part of `into_blocks_static` (not proved); queries that do not compile although they are announced
to be available (`C41_block_index_does_not_compile`). `lowest` and `inBody` are about which dimensions
these are. -/
theorem C41_lower_bound_partial (s : Struct) (ht : s.tame) (hs : s.sane .ideal) {d : Dim}
    (hd : s.lowest d) {f : State} (hb : s.inBody d f) (hfd : f (.idx d) = none)
    {l : Val} {N : Nat} (hl : (s.sem .ideal).len d f = some l) (hN : l.Num N)
    {x : Val} {X : Nat} (hx : s.lower .ideal d f none = some x) (hX : x.Num X) :
    (∀ v i a y, v.Num i → i < N → s.offAlong .ideal d (f.set (.idx d) v) = some a → a.Num y → X ≤ y) ∧
    ∀ z M, 0 < N → s.lowerAt .ideal d f none = some z → z.Num M → M < N ∧
      ∀ v a y, v.Num M → s.offAlong .ideal d (f.set (.idx d) v) = some a → a.Num y → y = X := by
  have h := Struct.floored ht hs hd hb hfd
  have e : ∀ v : Val, (f.set (.idx d) v).remove (.idx d) = f := fun v => by
    funext tag; simp only [State.remove, State.set]; split
    · next h => subst h; exact hfd.symm
    · rfl
  have c : ∀ v i a y, v.Num i → s.offAlong .ideal d (f.set (.idx d) v) = some a → a.Num y →
      Contributes s d f i y := fun v i a y hv ha hy => ⟨_, v, a, e v, by simp [State.set], hv, ha, hy⟩
  exact ⟨fun v i a y hv hi ha hy => h.low l N x X hl hN hx hX i y hi (c v i a y hv ha hy),
    fun z M h0 hz hM => ⟨h.here l N z M hl hN h0 hz hM,
      fun v a y hv ha hy => h.hit l N x X z M hl hN h0 hx hX hz hM y (c v M a y hv ha hy)⟩⟩

/-- C41 with a range, as far as it is true: the bound is not above the offset along `d` of any index in
the range, `lower_bound_at` is in the range, and the offset along `d` of this index is the bound.

Missing: as above; moreover dimensions that are reversed twice (false, `C41_reversed_twice`) and
reordered or stepped dimensions, for which there is no such query. -/
theorem C41_lower_bound_in_range_partial (s : Struct) (ht : s.tame) (hs : s.sane .ideal) {d : Dim}
    (hd : s.goes true d ∨ s.goes false d) {f : State} (hb : s.inBody d f) (hfd : f (.idx d) = none)
    {lo hi : Val} {L H : Nat} (hL : lo.Num L) (hH : hi.Num H) (hLH : L < H)
    {x : Val} {X : Nat} (hx : s.lower .ideal d f (some (lo, hi)) = some x) (hX : x.Num X) :
    (∀ v i a y, v.Num i → L ≤ i → i < H → s.offAlong .ideal d (f.set (.idx d) v) = some a → a.Num y →
      X ≤ y) ∧
    ∀ z M, s.lowerAt .ideal d f (some (lo, hi)) = some z → z.Num M → (L ≤ M ∧ M < H) ∧
      ∀ v a y, v.Num M → s.offAlong .ideal d (f.set (.idx d) v) = some a → a.Num y → y = X := by
  have e : ∀ v : Val, (f.set (.idx d) v).remove (.idx d) = f := fun v => by
    funext tag; simp only [State.remove, State.set]; split
    · next h => subst h; exact hfd.symm
    · rfl
  have c : ∀ v i a y, v.Num i → s.offAlong .ideal d (f.set (.idx d) v) = some a → a.Num y →
      Contributes s d f i y := fun v i a y hv ha hy => ⟨_, v, a, e v, by simp [State.set], hv, ha, hy⟩
  rcases hd with hd | hd
  · have h := ((Struct.bounded ht hs hd hb hfd).1 rfl).1
    obtain ⟨h1, h2⟩ := h.low lo hi x X hx hX L hL
    refine ⟨fun v i a y hv hi _ ha hy => h1 i y hi (c v i a y hv ha hy), fun z M hz hM => ?_⟩
    have := Val.Num.eq (h.here lo hi z M hz hM) hL
    subst this
    exact ⟨⟨Nat.le_refl _, hLH⟩, fun v a y hv ha hy => h2 y (c v _ a y hv ha hy)⟩
  · have h := (Struct.bounded ht hs hd hb hfd).2 rfl
    obtain ⟨h1, h2⟩ := h.low lo hi x X hx hX H hH (by omega)
    refine ⟨fun v i a y hv _ hi ha hy => h1 i y hi (c v i a y hv ha hy), fun z M hz hM => ?_⟩
    have := h.here lo hi z M hz hM H hH (by omega)
    subst this
    exact ⟨⟨by omega, by omega⟩, fun v a y hv ha hy => h2 y (c v _ a y hv ha hy)⟩

/-- C41 in terms of offsets: the element at `lower_bound_at<d>` has the lowest offset among those with
valid indices in `d` and the same indices in the other dimensions. What is missing: as in
`C41_lower_bound_partial` and (`linear`) `C40_offset_along_difference_partial`. -/
theorem C41_lowest_offset_partial (s : Struct) (ht : s.tame) (hs : s.sane .ideal) {d : Dim}
    (hd : s.lowest d) (hh : ¬ s.hard d) {f : State} (hib : s.inBody d f) (hf : Firm s f) (hfd : f (.idx d) = none)
    (hst : s.linear .ideal d f)
    {l : Val} {N : Nat} (hl : (s.sem .ideal).len d f = some l) (hN : l.Num N) (h0 : 0 < N)
    {x z : Val} {X M : Nat} (hx : s.lower .ideal d f none = some x) (hX : x.Num X)
    (hz : s.lowerAt .ideal d f none = some z) (hM : z.Num M)
    {i : Nat} (hi : i < N) {o o' a b : Val} {m n y y' : Nat}
    (ho : (s.sem .ideal).off (f.at d M) (.lit 0) = some o) (hm : o.Num m)
    (ho' : (s.sem .ideal).off (f.at d i) (.lit 0) = some o') (hn : o'.Num n)
    (ha : s.offAlong .ideal d (f.at d M) = some a) (hy : a.Num y)
    (hb : s.offAlong .ideal d (f.at d i) = some b) (hy' : b.Num y') : m ≤ n := by
  obtain ⟨h1, h2⟩ := C41_lower_bound_partial s ht hs hd hib hfd hl hN hx hX
  have h3 := h1 (.dyn i) i b y' rfl hi hb hy'
  have h4 := (h2 z M h0 hz hM).2 (.dyn M) a y rfl ha hy
  have h5 := C40_offset_along_difference_partial s ht hs hh hf hfd hst ho hm ho' hn ha hy hb hy'
  omega

/-! ### Examples -/

/-- Two rows of 12 columns, the columns 2 to 9 in reverse order. -/
def c41Example : Struct := (Struct.vector 1 (.vector 0 (.scalar 4 4))).apply
  [.setLength 0 (.dyn 12), .setLength 1 (.dyn 2), .reverse 0, .slice 0 (.lit 2) (.lit 8)]

theorem c41_tame : c41Example.tame := by
  simp [c41Example, Struct.apply, Struct.tame, View.tame, Struct.plain, Struct.hard, Struct.soft, Struct.stale,
    View.hard, View.soft, View.stale]

theorem c41_sane : c41Example.sane .ideal := by
  simp [c41Example, Struct.apply, Struct.sane, Struct.hard, View.hard, Struct.drive, View.drive]

theorem c41_goes : c41Example.goes false 0 := by
  refine ⟨by simp [Struct.hard, View.hard], ?_, 2, rfl⟩
  simp [Struct.goes, Struct.stored, Struct.hard, View.hard, View.follows, View.inner]

theorem c41_lowest : c41Example.lowest 0 := by
  refine .inr ⟨by simp [Struct.hard, View.hard], .inl ⟨rfl, ?_, 2, rfl⟩⟩
  simp [Struct.goes, Struct.stored, Struct.hard, View.hard, View.follows, View.inner]

theorem c41_inBody : c41Example.inBody 0 (State.empty.at 1 1) := by
  simp [c41Example, Struct.apply, Struct.inBody, View.inner]

/-- The bound is the offset of column 2 of the vector, at index 7 of the 8 columns. -/
example := C41_lower_bound_partial c41Example c41_tame c41_sane c41_lowest
  (f := State.empty.at 1 1) c41_inBody rfl (l := .lit 8) rfl rfl (x := .dyn 8) rfl rfl

/-- Within the indices 3, 4 and 5 it is that of index 5. -/
example := C41_lower_bound_in_range_partial c41Example c41_tame c41_sane (.inr c41_goes)
  (f := State.empty.at 1 1) c41_inBody rfl (lo := .dyn 3) (hi := .dyn 6) rfl rfl (by decide) (x := .dyn 16) rfl rfl

example : c41Example.lowerAt .ideal 0 (State.empty.at 1 1) none = some (.dyn 7) ∧
    c41Example.lowerAt .ideal 0 (State.empty.at 1 1) (some (.dyn 3, .dyn 6)) = some (.dyn 5) := by decide

/-- The element at index 7 against that at index 3. -/
example := C41_lowest_offset_partial c41Example c41_tame c41_sane c41_lowest
  (by simp [c41Example, Struct.apply, Struct.hard, View.hard])
  (f := State.empty.at 1 1) c41_inBody (by simp [Firm, c41Example, Struct.apply, Struct.firm]) rfl
  (by
    simp [c41Example, Struct.apply, Struct.linear, View.straight, View.follows, View.inner, View.sem, setLengthSem,
      sliceSem, reverseSem, State.mapAt, State.at, State.set, State.removeAll, State.empty])
  (l := .lit 8) rfl rfl (by decide) (x := .dyn 8) (z := .dyn 7) rfl rfl rfl rfl (i := 3) (by decide)
  (o := .dyn 56) (o' := .dyn 72) rfl rfl rfl rfl (a := .dyn 8) (b := .dyn 24) rfl rfl rfl rfl

/-- The index of a tuple. -/
example := C41_lower_bound_in_range_partial (.tuple 0 3 fun i => .scalar (i.val + 1) 1)
  (by simp [Struct.tame]) (by simp [Struct.sane, Struct.hard]) (d := 0) (.inl (by simp [Struct.goes]))
  (f := State.empty) (by simp [Struct.inBody]) rfl (lo := .lit 1) (hi := .lit 3) rfl rfl (by decide) (x := .lit 1) rfl rfl

/-- The number of the block, from 1 to 2, in blocks of 4. -/
example := C41_lower_bound_in_range_partial ((Struct.vector 0 (.scalar 4 4)).apply
    [.setLength 0 (.dyn 12), .intoBlocks 0 1 2, .setLength 2 (.lit 4)])
  (by simp [Struct.apply, Struct.tame, View.tame, Struct.plain, Struct.hard, Struct.soft, Struct.stale,
    View.hard, View.soft, View.stale])
  (by simp [Struct.apply, Struct.sane, Struct.hard, View.hard, Struct.drive, View.drive]) (d := 1)
  (.inl (by
    simp [Struct.apply, Struct.goes, Struct.stored, Struct.hard, View.hard, View.follows, View.inner,
      Struct.unmoved, View.keepsZero, View.blocksOf]))
  (f := State.empty) (by simp [Struct.apply, Struct.inBody, View.inner]) rfl (lo := .dyn 1) (hi := .dyn 3) rfl rfl (by decide) (x := .dyn 16) rfl rfl

/-- 11 elements in blocks of 4 and a border, the columns of two rows. -/
def c41Static : Struct := (Struct.vector 4 (.vector 0 (.scalar 4 4))).apply
  [.setLength 0 (.dyn 11), .setLength 4 (.dyn 2), .intoBlocksStat 0 3 1 2 (.lit 4)]

theorem c41_static_tame : c41Static.tame := by
  simp [c41Static, Struct.apply, Struct.tame, View.tame, Struct.plain, Struct.hard, Struct.soft, Struct.stale,
    View.hard, View.soft, View.stale]

theorem c41_static_sane : c41Static.sane .ideal := by
  simp [c41Static, Struct.apply, Struct.sane, Struct.hard, View.hard, Struct.drive, View.drive]

theorem c41_static_goes {q : Dim} (hq : q = 1 ∨ q = 2) : c41Static.goes true q := by
  rcases hq with rfl | rfl <;>
  simp [c41Static, Struct.apply, Struct.goes, Struct.stored, Struct.hard, View.hard, View.follows, View.inner,
      Struct.unmoved, View.keepsZero, View.blocksOf]

theorem c41_static_inBody {q : Dim} : c41Static.inBody q (State.empty.set (.idx 3) (.lit 0)) := by
  refine ⟨by rintro d border maj min nl ⟨⟩ -; rfl, ?_⟩
  simp [Struct.inBody]

/-- Body block 1, the second of two. -/
example := C41_lower_bound_in_range_partial c41Static c41_static_tame c41_static_sane
  (.inl (c41_static_goes (.inl rfl))) (f := State.empty.set (.idx 3) (.lit 0)) c41_static_inBody rfl
  (lo := .dyn 1) (hi := .dyn 2) rfl rfl (by decide) (x := .dyn 16) rfl rfl

/-- The elements 1, 2 and 3 of a body block; `lower_bound_at` is 1. -/
example := C41_lower_bound_in_range_partial c41Static c41_static_tame c41_static_sane
  (.inl (c41_static_goes (.inr rfl))) (f := State.empty.set (.idx 3) (.lit 0)) c41_static_inBody rfl
  (lo := .dyn 1) (hi := .dyn 4) rfl rfl (by decide) (x := .dyn 4) rfl rfl

/-- Which of the two parts it is. -/
example := C41_lower_bound_partial c41Static c41_static_tame c41_static_sane (d := 3)
  (.inr (.inl (by decide))) (f := State.empty)
  ⟨by rintro d border maj min nl ⟨⟩ (h | h) <;> simp at h, by simp [View.inner]⟩ rfl
  (l := .lit 2) rfl rfl (x := .lit 0) rfl rfl

/-- 3 rows of 4 columns, the columns stored one after the other, merged row by row. -/
def c41Merged : Struct := (Struct.vector 1 (.vector 0 (.scalar 4 4))).apply
  [.setLength 0 (.dyn 3), .setLength 1 (.dyn 4), .mergeBlocks 0 1 2]

example := C41_lower_bound_partial c41Merged
  (by simp [c41Merged, Struct.apply, Struct.tame, View.tame, Struct.plain, Struct.hard, Struct.soft, Struct.stale,
    View.hard, View.soft, View.stale])
  (by simp [c41Merged, Struct.apply, Struct.sane, Struct.hard, View.hard, Struct.drive, View.drive]) (d := 2)
  (.inr (.inl (by
    simp [Struct.fromZero, Struct.goes, Struct.stored, Struct.hard, View.hard, View.follows, View.inner,
      Struct.unmoved, View.keepsZero, View.blocksOf])))
  (f := State.empty) (by simp [c41Merged, Struct.apply, Struct.inBody, View.inner]) rfl
  (l := .dyn 12) rfl rfl (x := .lit 0) rfl rfl

/-! ### Where C41 does not hold -/

/-- Merged dimensions, the major one reversed (2 blocks of 3): the bound 0 belongs to the index 3,
`lower_bound_at` is 1. -/
theorem C41_merged_reversed :
    let s := (Struct.vector 0 (.vector 1 (.scalar 4 4))).apply
      [.setLength 0 (.dyn 2), .setLength 1 (.dyn 3), .reverse 0, .mergeBlocks 0 1 2]
    s.lower .ideal 2 State.empty none = some (.lit 0) ∧
    s.lowerAt .ideal 2 State.empty none = some (.dyn 1) ∧
    s.offAlong .ideal 2 (State.empty.at 2 1) = some (.dyn 16) ∧
    s.offAlong .ideal 2 (State.empty.at 2 3) = some (.dyn 0) := by decide

/-- A dimension that is reversed twice, with the range from 2 to 4: the bound is 12, the offset of
index 2 is 8. `reverse_t` makes `[length - end, length - 1 - min)` of the range `[min, end)`, one less
than there should be. -/
theorem C41_reversed_twice :
    let s := (Struct.vector 0 (.scalar 4 4)).apply [.setLength 0 (.dyn 12), .reverse 0, .reverse 0]
    s.lower .ideal 0 State.empty (some (.dyn 2, .dyn 5)) = some (.dyn 12) ∧
    s.lowerAt .ideal 0 State.empty (some (.dyn 2, .dyn 5)) = some (.dyn 3) ∧
    s.offAlong .ideal 0 (State.empty.at 0 2) = some (.dyn 8) := by decide

/-- A shifted dimension that is reversed: the bound 0 belongs to the index 9, `lower_bound_at` is 7. -/
theorem C41_shift_of_reversed :
    let s := (Struct.vector 0 (.scalar 4 4)).apply [.setLength 0 (.dyn 12), .reverse 0, .shift 0 (.lit 2)]
    (s.sem .ideal).len 0 State.empty = some (.dyn 10) ∧
    s.lower .ideal 0 State.empty none = some (.dyn 0) ∧
    s.lowerAt .ideal 0 State.empty none = some (.dyn 7) ∧
    s.offAlong .ideal 0 (State.empty.at 0 7) = some (.dyn 8) ∧
    s.offAlong .ideal 0 (State.empty.at 0 9) = some (.dyn 0) := by decide

/-- Blocks of a slice: the bound of the index within a block is that of the slice, while the offset along
this dimension is 0 at index 0. The bounds of the number of the block with and without a range
differ as well. -/
theorem C41_blocks_of_a_slice :
    let s := (Struct.vector 0 (.scalar 4 4)).apply
      [.setLength 0 (.dyn 12), .slice 0 (.lit 2) (.lit 8), .intoBlocks 0 1 2, .setLength 2 (.lit 4)]
    s.lower .ideal 2 (State.empty.at 1 0) none = some (.lit 8) ∧
    s.offAlong .ideal 2 ((State.empty.at 1 0).at 2 0) = some (.dyn 0) ∧
    (s.sem .ideal).len 1 State.empty = some (.lit 2) ∧
    s.lower .ideal 1 State.empty none = some (.lit 0) ∧
    s.lower .ideal 1 State.empty (some (.lit 0, .lit 2)) = some (.lit 8) ∧
    s.offAlong .ideal 1 ((State.empty.at 2 0).at 1 0) = some (.dyn 0) := by decide

/-- `lower_bound_at` of the number of the block does not compile without a range, and neither does any
`lower_bound_at` of the border, although both are announced to be available. -/
theorem C41_block_index_does_not_compile :
    let s := (Struct.vector 0 (.scalar 4 4)).apply
      [.setLength 0 (.dyn 12), .intoBlocks 0 1 2, .setLength 2 (.lit 4)]
    let t := (Struct.vector 0 (.scalar 4 4)).apply
      [.setLength 0 (.dyn 12), .intoBlocksStat 0 3 1 2 (.lit 4)]
    (s.hasLower .ideal 1 State.empty = true ∧ s.lower .ideal 1 State.empty none = some (.lit 0) ∧
      s.lowerAt .ideal 1 State.empty none = none) ∧
    t.hasLower .ideal 3 State.empty = true ∧ t.lowerAt .ideal 3 State.empty none = none ∧
      t.lowerAt .ideal 3 State.empty (some (.dyn 0, .dyn 2)) = none := by decide

/-- Merged dimensions, the columns stored one after the other (3 columns of 4 rows, merged row by row):
in the range from 2 to 4 the bound is above the offset of the second element, and the alleged index is
not in the range. -/
theorem C41_merged_range :
    let s := (Struct.vector 1 (.vector 0 (.scalar 4 4))).apply
      [.setLength 0 (.dyn 4), .setLength 1 (.dyn 3), .mergeBlocks 0 1 2]
    s.lower .ideal 2 State.empty (some (.dyn 2, .dyn 5)) = some (.dyn 32) ∧
    s.lowerAt .ideal 2 State.empty (some (.dyn 4, .dyn 6)) = some (.dyn 2) ∧
    s.offAlong .ideal 2 (State.empty.at 2 2) = some (.dyn 32) ∧
    s.offAlong .ideal 2 (State.empty.at 2 3) = some (.dyn 4) := by decide

/-- There is no lower bound in an empty range of the fields of a tuple, nor in one that begins after the fields. -/
theorem C41_no_fields_in_range (A : Arith) (t : Dim) (n : Nat) (fs : Fin n → Struct) (q : Dim) (st : State)
    (lo hi : Nat) (h : hi ≤ lo ∨ n ≤ lo) :
    (Struct.tuple t n fs).lower A q st (some (.lit lo, .lit hi)) = none ∧
    (Struct.tuple t n fs).lowerAt A q st (some (.lit lo, .lit hi)) = none := by
  have : tupleRange n (some (.lit lo, .lit hi)) = false := by simp [tupleRange]; omega
  simp [Struct.lower, Struct.lowerAt, this]

example : (Struct.tuple 1 2 (fun _ => .scalar 4 4)).lower .ideal 1 State.empty (some (.lit 1, .lit 1)) = none ∧
    (Struct.tuple 1 2 (fun _ => .scalar 4 4)).lower .ideal 1 State.empty (some (.lit 1, .lit 2)) = some (.lit 4) :=
  ⟨(C41_no_fields_in_range _ _ _ _ _ _ 1 1 (.inl (by decide))).1, by decide⟩

/-- With a tuple on the way, a range of another dimension must be made of constants below the number of
the fields. -/
theorem C41_range_through_a_tuple :
    let s := (Struct.tuple 1 2 (fun _ => .vector 0 (.scalar 4 4))).apply [.setLength 0 (.dyn 10)]
    let st := State.empty.set (.idx 1) (.lit 0)
    s.lower .ideal 0 st (some (.lit 1, .lit 10)) = some (.lit 4) ∧
    s.lower .ideal 0 st (some (.lit 2, .lit 10)) = none ∧
    s.lower .ideal 0 st (some (.dyn 1, .dyn 10)) = none := by decide

end Noarr
