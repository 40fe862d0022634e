import Verif.Inside

/-
C05: every valid index addresses memory inside the structure.

The specification is in `BoundsSpec`: `Valid` (indices below the reported lengths), `Struct.Pre` (the
preconditions of the views), `Struct.tame` and `Struct.sane` (restrictions on names).
-/

namespace Noarr

/-- C05: in a valid state in which size and offset can be queried and the size is a number (no
faulty length was supplied), the offset is a number - no subtraction wrapped around and nothing was
divided by zero - and the element lies inside the structure. -/
theorem C05_offset_in_bounds (s : Struct) (ht : s.tame) (hs : s.sane .ideal) (st : State)
    (hV : Valid .ideal s st) (hp : s.Pre .ideal st) (size o : Val) (N : Nat)
    (hsz : (s.sem .ideal).size st = some size) (hN : size.Num N)
    (ho : (s.sem .ideal).off st (.lit 0) = some o) :
    ∃ k e, o.Num k ∧ (s.sem .ideal).elem st = some e ∧ k + e ≤ N := by
  obtain ⟨k, e, h1, h2, -, h4⟩ := s.inside ht hs (fun q i n _ => hV q i n) hp hsz hN
    (show (Val.lit 0).Num 0 from rfl) ho
  exact ⟨k, e, h1, h2, by omega⟩

/-- C05 for a structure placed at some offset (a field of a larger one): the element lies in the
range of the structure. -/
theorem C05_offset_in_range (s : Struct) (ht : s.tame) (hs : s.sane .ideal) (st : State)
    (hV : Valid .ideal s st) (hp : s.Pre .ideal st) (size start o : Val) (a N : Nat)
    (hsz : (s.sem .ideal).size st = some size) (hN : size.Num N) (ha : start.Num a)
    (ho : (s.sem .ideal).off st start = some o) :
    ∃ k e, o.Num k ∧ (s.sem .ideal).elem st = some e ∧ a ≤ k ∧ k + e ≤ a + N :=
  s.inside ht hs (fun q i n _ => hV q i n) hp hsz hN ha ho

/-- the part of `Valid` about one dimension, as a program -/
def validAt (A : Arith) (s : Struct) (st : State) (q : Dim) : Bool :=
  match st (.idx q), (s.sem A).len q (st.remove (.idx q)) with
  | some i, some n => match i.nat?, n.nat? with
    | some a, some b => decide (a < b)
    | _, _ => false
  | _, _ => true

/-- To check `Valid`, look at the indices that are there. -/
theorem Valid.of_list {A : Arith} {s : Struct} {st : State} (qs : List Dim)
    (h1 : ∀ q, q ∉ qs → st (.idx q) = none) (h2 : ∀ q ∈ qs, validAt A s st q = true) :
    Valid A s st := by
  intro q i n hi hn
  have hq : q ∈ qs := by
    refine Classical.byContradiction fun h => ?_
    rw [h1 q h] at hi; simp at hi
  have := h2 q hq
  simp only [validAt, hi, hn] at this
  cases ha : i.nat? <;> cases hb : n.nat? <;> simp only [ha, hb] at this
  · simp at this
  · simp at this
  · simp at this
  · exact ⟨_, _, ha, hb, by simpa using this⟩

/-- To check the preconditions, compute the state handed down. -/
theorem Struct.Pre.below {A : Arith} {v : View} {s : Struct} {st : State}
    (h1 : v.pre A (s.sem A) st (((v.sem A (s.sem A)).sub st).getD State.empty))
    (h2 : s.Pre A (((v.sem A (s.sem A)).sub st).getD State.empty)) : (Struct.view v s).Pre A st := by
  intro u hu
  rw [hu] at h1 h2
  exact ⟨h1, h2⟩

theorem forall_eq_some {α : Type} {o : Option α} {x : α} {P : α → Prop} (h : o = some x) (hx : P x) :
    ∀ m, o = some m → P m := by
  intro m hm; rw [h] at hm; exact Option.some.inj hm ▸ hx

theorem forall_eq_none {α : Type} {o : Option α} {P : α → Prop} (h : o = none) :
    ∀ m, o = some m → P m := by
  intro m hm; rw [h] at hm; simp at hm

/-- A matrix of pairs, cut to a window, reversed, blocked, with the blocks merged again. -/
def c05Example : Struct :=
  Struct.apply (.vector 0 (.vector 1 (.tuple 9 2 (fun _ => .scalar 4 4))))
    [.setLength 0 (.dyn 7), .setLength 1 (.dyn 4), .slice 0 (.dyn 1) (.dyn 6), .reverse 0,
     .intoBlocks 0 2 3, .setLength 3 (.lit 2), .mergeBlocks 2 1 5]

/-- the last element of a block -/
def c05State : State := ((State.empty.set (.idx 9) (.lit 1)).at 3 1).at 5 11

example : c05Example.tame := by
  simp [c05Example, Struct.apply, Struct.tame, View.tame, Struct.plain, Struct.hard, View.hard,
    Struct.soft, View.soft, Struct.stale, View.stale]

example : c05Example.sane .ideal := by
  simp [c05Example, Struct.apply, Struct.sane, Struct.hard, View.hard, Struct.drive, View.drive]

example : Valid .ideal c05Example c05State :=
  .of_list [3, 5, 9] (by intro q hq; simp at hq; simp [c05State, State.at, State.set, State.empty, hq])
    (by decide)

example : c05Example.Pre .ideal c05State := by
  refine .below ?_ (.below trivial (.below ?_ (.below ?_ (.below ?_ (.below trivial
    (.below trivial fun _ => trivial))))))
  · exact fun i hi => ⟨⟨_, show _ = some (.dyn 12) by decide⟩, forall_eq_none (by decide)⟩
  · exact fun ml nl h => absurd h (forall_eq_none (P := fun _ => False) (by decide) ml)
  · intro _; decide
  · refine forall_eq_some (x := .dyn 7) (by decide) ?_
    exact ⟨7, 7, rfl, rfl, by decide⟩

example : (c05Example.sem .ideal).size c05State = some (.dyn 224) ∧
    (c05Example.sem .ideal).off c05State (.lit 0) = some (.dyn 60) := by decide

/-! ### Where the preconditions are needed -/

/-- C05 fails for `reverse` applied to the major dimension of `into_blocks_dynamic`: the length of the
presence dimension is computed from the index before reversal. Five elements in blocks of two: with
index 0 in the reversed major dimension, 1 in the minor and 0 in the presence dimension, every index
is below the reported length, yet the element is the one after the end. -/
theorem C05_reversed_dynamic_blocks_violate :
    let s := Struct.apply (.vector 0 (.scalar 4 4)) [.setLength 0 (.dyn 5), .intoBlocksDyn 0 1 2 3,
      .setLength 2 (.dyn 2), .reverse 1]
    let st := ((State.empty.at 1 0).at 2 1).at 3 0
    Valid .ideal s st ∧ (s.sem .ideal).size st = some (.dyn 20) ∧
      (s.sem .ideal).off st (.lit 0) = some (.dyn 20) := by
  refine ⟨?_, by decide, by decide⟩
  refine .of_list [1, 2, 3] ?_ (by decide)
  intro q hq
  simp at hq
  simp [State.at, State.set, State.empty, hq]

/-- Without the divisibility precondition of `merge_blocks`, valid indices leave the structure: blocks
of three with a given total length of seven. -/
theorem C05_merge_blocks_needs_divisibility :
    let s := Struct.apply (.vector 1 (.vector 2 (.scalar 4 4)))
      [.setLength 2 (.dyn 3), .mergeBlocks 1 2 0, .setLength 0 (.dyn 7)]
    let st := State.empty.at 0 6
    Valid .ideal s st ∧ (s.sem .ideal).size st = some (.dyn 24) ∧
      (s.sem .ideal).off st (.lit 0) = some (.dyn 24) := by
  refine ⟨?_, by decide, by decide⟩
  refine .of_list [0] ?_ (by decide)
  intro q hq
  simp at hq
  simp [State.at, State.set, State.empty, hq]

/-- Without the precondition of `slice`, valid indices leave the structure. -/
theorem C05_slice_needs_window :
    let s := Struct.apply (.vector 0 (.scalar 4 4)) [.setLength 0 (.dyn 5), .slice 0 (.dyn 3) (.dyn 4)]
    let st := State.empty.at 0 3
    Valid .ideal s st ∧ (s.sem .ideal).size st = some (.dyn 20) ∧
      (s.sem .ideal).off st (.lit 0) = some (.dyn 24) := by
  refine ⟨?_, by decide, by decide⟩
  refine .of_list [0] ?_ (by decide)
  intro q hq
  simp at hq
  simp [State.at, State.set, State.empty, hq]

end Noarr
