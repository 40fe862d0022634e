import Verif.SubDisjoint
import Verif.AlongLemmas
import Verif.Props.Alias

/-
C57: a structure inside another one, and C58: which queries are announced.

Definitions used in the statements: `SubStruct` (the model of `offset_of<Sub>`, `state_at<Sub>`, `has_size`,
`has_offset_of<Sub>`, `has_state_at<Sub>`; `is` is the set of structures of type `Sub`), `SubSpec`
(`Struct.locate`: the outermost `Sub` on the way to an element and the state it is queried in there), and
those of C05 and C06.
-/

set_option linter.unusedVariables false

namespace Noarr

/-! ### C57 -/

/-- C57: the offset of an element is the offset of the scalar as a sub-structure. -/
theorem C57_offset_of_scalar (A : Arith) (s : Struct) (st : State) (start : Val) :
    s.offOf A Struct.isScalar st start = (s.sem A).off st start := by
  apply Option.ext
  intro o
  exact s.off_offOf.symm

/-- C57: `offset_of<Sub>` is the place of the sub-structure on the way to the element: started from there,
and in the state it has there, the sub-structure gives the offset that the whole structure gives. -/
theorem C57_element_through_sub (A : Arith) (is : Struct → Bool) (s : Struct) (st : State) (start o : Val) (n : Nat)
    (h : s.offOf A is st start = some o) (hn : o.Num n) :
    ∃ t u, s.locate A is st = some (t, u) ∧ is t = true ∧ (s.sem A).off st start = (t.sem A).off u o ∧
      (s.sem A).elem st = (t.sem A).elem u :=
  s.offOf_decomp hn h

/-- C57: offsets within the sub-structure add to the offset of the sub-structure. -/
theorem C57_offsets_add (is : Struct → Bool) (s : Struct) (st : State) (o : Val) (n : Nat)
    (h : s.offOf .ideal is st (.lit 0) = some o) (hn : o.Num n) :
    ∃ t u, s.locate .ideal is st = some (t, u) ∧ ∀ w w' m m', (s.sem .ideal).off st (.lit 0) = some w → w.Num m →
      (t.sem .ideal).off u (.lit 0) = some w' → w'.Num m' → m = n + m' := by
  obtain ⟨t, u, hl, -, ho, -⟩ := s.offOf_decomp hn h
  refine ⟨t, u, hl, fun w w' m m' hw hm hw' hm' => ?_⟩
  obtain ⟨k, hk⟩ := off_shift t u
  rw [ho] at hw
  have h1 := hk _ _ _ _ hw hn hm
  have h2 := hk _ _ _ _ hw' (show (Val.lit 0).Num 0 from rfl) hm'
  omega

/-- C57: for valid indices the sub-structure lies inside the structure. -/
theorem C57_sub_in_bounds (is : Struct → Bool) (s : Struct) (ht : s.tame) (hs : s.sane .ideal) (st : State)
    (hV : Valid .ideal s st) (hp : s.Pre .ideal st) (size start o : Val) (a N : Nat)
    (hsz : (s.sem .ideal).size st = some size) (hN : size.Num N) (ha : start.Num a)
    (ho : s.offOf .ideal is st start = some o) :
    ∃ t u z k Z, s.locate .ideal is st = some (t, u) ∧ o.Num k ∧ (t.sem .ideal).size u = some z ∧ z.Num Z ∧
      a ≤ k ∧ k + Z ≤ a + N :=
  s.sub_inside ht hs (fun q i n _ => hV q i n) hp hsz hN ha ho

/-- C57: for two valid states, the sub-structures they lead to are at the same place and of the same size, or
they are disjoint. -/
theorem C57_subs_coincide_or_disjoint (is : Struct → Bool) (s : Struct) (ht : s.tame) (hs : s.sane .ideal)
    (st st' : State) (hl : SameLens st st') (hV : Valid .ideal s st) (hV' : Valid .ideal s st')
    (hp : s.Pre .ideal st) (hp' : s.Pre .ideal st') (hr : s.rigid .ideal st) (hr' : s.rigid .ideal st')
    (size size' o o' : Val) (N N' : Nat)
    (hsz : (s.sem .ideal).size st = some size) (hN : size.Num N)
    (hsz' : (s.sem .ideal).size st' = some size') (hN' : size'.Num N')
    (ho : s.offOf .ideal is st (.lit 0) = some o) (ho' : s.offOf .ideal is st' (.lit 0) = some o') :
    ∃ t u t' u' z z' k k' Z Z', s.locate .ideal is st = some (t, u) ∧ s.locate .ideal is st' = some (t', u') ∧
      (t.sem .ideal).size u = some z ∧ (t'.sem .ideal).size u' = some z' ∧ o.Num k ∧ o'.Num k' ∧ z.Num Z ∧
      z'.Num Z' ∧ (t = t' ∧ k = k' ∧ Z = Z' ∨ k + Z ≤ k' ∨ k' + Z' ≤ k) :=
  s.sub_disjoint ht hs hl (fun q i n _ => hV q i n) (fun q i n _ => hV' q i n) hp hp' hr hr' hsz hN hsz' hN'
    (show (Val.lit 0).Num 0 from rfl) (show (Val.lit 0).Num 0 from rfl) ho ho'

/-- C57: in a buffer aligned to `align()`, sub-structures are aligned. -/
theorem C57_subs_aligned (is : Struct → Bool) (s : Struct) (hn : s.natural) (st st' : State) (al : Nat)
    (h : (s.sem .ideal).align st = some al) (base k : Nat) (hb : al ∣ base) (o : Val)
    (ho : s.offOf .ideal is st' (.lit 0) = some o) (hk : o.Num k) : al ∣ base + k :=
  Nat.dvd_add hb (Struct.offOf_dvd (Struct.align_all h) hn
    (show (Val.lit 0).Num 0 from rfl) (Nat.dvd_zero _) ho hk)

/-- C57: in the state that `state_at<Sub>` gives, the sub-structure has the size and the offsets that the whole
structure has in the original state; and it begins where the whole structure begins. -/
theorem C57_state_at (A : Arith) (is : Struct → Bool) (s : Struct) (st u : State) (h : s.stateOf A is st = some u) :
    ∃ t, s.locate A is st = some (t, u) ∧ is t = true ∧ (s.sem A).elem st = (t.sem A).elem u ∧
      (∀ v, (s.sem A).size st = some v → (t.sem A).size u = some v) ∧
      (∀ start o, (s.sem A).off st start = some o → (t.sem A).off u start = some o) ∧
      ∀ start o, s.offOf A is st start = some o → o = start :=
  s.stateOf_spec h

/-! #### An example

The pairs in a matrix of pairs, cut to a window, reversed, blocked, with the blocks merged (`c05Example`). The
hypotheses on the structure and the states are shown in `Props.Bounds` and `Props.Alias`. -/

/-- the type of the pairs -/
def c57Pair : Struct → Bool
  | .tuple 9 _ _ => true
  | _ => false

example : c05Example.offOf .ideal c57Pair c05State (.lit 0) = some (.dyn 56) ∧
    c05Example.offOf .ideal c57Pair c06State (.lit 0) = some (.dyn 88) ∧
    (c05Example.sem .ideal).off c05State (.lit 0) = some (.dyn 60) ∧
    (c05Example.sem .ideal).align c05State = some 4 := by decide

example : ∃ t u, c05Example.locate .ideal c57Pair c05State = some (t, u) ∧
    (t.sem .ideal).size u = some (.lit 8) ∧ (t.sem .ideal).off u (.lit 0) = some (.lit 4) := by
  refine ⟨_, _, rfl, by decide, by decide⟩

example : c05Example.natural := fun _ => ⟨by decide, by decide⟩

/-- the type of the matrix under the views -/
def c57Matrix : Struct → Bool
  | .vector 0 _ => true
  | _ => false

example : ∃ u, c05Example.stateOf .ideal c57Matrix c05State = some u ∧ u (.idx 0) = some (.dyn 1) ∧
    u (.idx 1) = some (.dyn 3) ∧ c05Example.offOf .ideal c57Matrix c05State (.lit 16) = some (.lit 16) := by
  refine ⟨_, rfl, by decide, by decide, by decide⟩

/-! ### C58 -/

/-- C58: a size that can be asked for is announced by `has_size`. -/
theorem C58_size_announced (A : Arith) (s : Struct) (st : State) (v : Val) (h : (s.sem A).size st = some v) :
    s.hasSize A st = some true := s.hasSize_of_size h

/-- C58: an offset of a sub-structure that can be asked for is announced by `has_offset_of`. -/
theorem C58_offset_of_announced (A : Arith) (is : Struct → Bool) (s : Struct) (st : State) (start o : Val)
    (h : s.offOf A is st start = some o) : s.hasOff A is st = some true := s.hasOff_of_offOf h

/-- C58: an offset of an element that can be asked for is announced. -/
theorem C58_offset_announced (A : Arith) (s : Struct) (st : State) (start o : Val)
    (h : (s.sem A).off st start = some o) : s.hasOff A Struct.isScalar st = some true :=
  s.hasOff_of_offOf (s.off_offOf.1 h)

/-- C58: `state_at` can be asked for exactly if `has_state_at`. -/
theorem C58_state_at_announced (A : Arith) (is : Struct → Bool) (s : Struct) (st : State) :
    (∃ u, s.stateOf A is st = some u) ↔ s.hasStateAt A is st = some true := s.stateOf_iff

/-- C58 for `size`, if the fields of tuples have alignments that can be asked for. Missing: tuples in
tuples with elements of different alignments (`C58_has_size_violated`). -/
theorem C58_has_size_partial (A : Arith) (s : Struct) (he : s.evenFields) (st : State) :
    (∃ v, (s.sem A).size st = some v) ↔ s.hasSize A st = some true :=
  ⟨fun ⟨_, h⟩ => s.hasSize_of_size h, s.size_of_hasSize he⟩

/-- C58 for `offset_of`, if the size can be asked for in the same state. Missing: structures of which some
other part has no size (`C58_has_offset_violated`, `C58_has_offset_violated_items`). -/
theorem C58_has_offset_of_partial (A : Arith) (is : Struct → Bool) (s : Struct) (st : State) (start v : Val)
    (h : (s.sem A).size st = some v) :
    (∃ o, s.offOf A is st start = some o) ↔ s.hasOff A is st = some true :=
  ⟨fun ⟨_, h⟩ => s.hasOff_of_offOf h, s.offOf_of_hasOff h⟩

/-- C58 for `offset`, if the size can be asked for in the same state. -/
theorem C58_has_offset_partial (A : Arith) (s : Struct) (st : State) (start v : Val)
    (h : (s.sem A).size st = some v) :
    (∃ o, (s.sem A).off st start = some o) ↔ s.hasOff A Struct.isScalar st = some true := by
  rw [← C58_has_offset_of_partial A Struct.isScalar s st start v h, C57_offset_of_scalar]

/-! #### Examples -/

/-- A matrix of pairs of different alignments, of which one length is not set. -/
def c58Example : Struct :=
  Struct.apply (.vector 0 (.vector 1 (.tuple 9 2 (fun i => if i = 0 then .scalar 1 1 else .scalar 4 4))))
    [.setLength 0 (.dyn 7), .intoBlocks 0 2 3, .setLength 3 (.lit 2)]

example : c58Example.evenFields := by
  intro i
  dsimp only
  split <;> exact ⟨trivial, rfl⟩

example : c58Example.hasSize .ideal .empty = some false ∧ (c58Example.sem .ideal).size .empty = none ∧
    c58Example.hasSize .ideal (State.empty.set (.len 1) (.dyn 5)) = some true ∧
    (c58Example.sem .ideal).size (State.empty.set (.len 1) (.dyn 5)) = some (.dyn 280) := by decide

example : let st := (((State.empty.set (.len 1) (.dyn 5)).at 2 1).at 3 0).at 1 4
    c58Example.hasOff .ideal Struct.isScalar st = some false ∧
    c58Example.hasOff .ideal Struct.isScalar (st.set (.idx 9) (.lit 1)) = some true ∧
    c58Example.hasOff .ideal c57Pair st = some true ∧
    c58Example.offOf .ideal c57Pair st (.lit 0) = some (.dyn 112) ∧
    (c58Example.sem .ideal).off (st.set (.idx 9) (.lit 1)) (.lit 0) = some (.dyn 113) := by decide

/-! #### Where queries are announced that do not compile -/

/-- `has_size` does not look at alignments: a tuple of which a field contains elements of different
alignments announces a size that it does not have. -/
theorem C58_has_size_violated :
    let s := Struct.tuple 8 2 (fun i => if i = 0
      then .tuple 9 2 (fun i => if i = 0 then .scalar 1 1 else .scalar 4 4) else .scalar 4 4)
    s.hasSize .ideal .empty = some true ∧ (s.sem .ideal).size .empty = none := by decide

/-- `has_offset` does not look at the fields of a tuple before the selected one, whose sizes are needed. -/
theorem C58_has_offset_violated :
    let s := Struct.tuple 9 2 (fun i => if i = 0 then .vector 1 (.scalar 4 4) else .scalar 4 4)
    let st := State.empty.set (.idx 9) (.lit 1)
    s.hasOff .ideal Struct.isScalar st = some true ∧ (s.sem .ideal).off st (.lit 0) = none := by decide

/-- Nor does it look at the size of the items of a vector. -/
theorem C58_has_offset_violated_items :
    let s := Struct.vector 0 (.tuple 9 2 (fun i => if i = 0 then .scalar 4 4 else .vector 1 (.scalar 4 4)))
    let st := ((State.empty.set (.idx 9) (.lit 0)).set (.len 0) (.dyn 5)).at 0 2
    s.hasOff .ideal Struct.isScalar st = some true ∧ (s.sem .ideal).off st (.lit 0) = none := by decide

end Noarr
