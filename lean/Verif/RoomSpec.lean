import Verif.BoundsSpec

/-
When `size_t` is wide enough. Used for C56.
-/

namespace Noarr

/-- The value is a number below `M`. -/
def Small (M : Nat) (v : Val) : Prop := ∃ n, v.Num n ∧ n < M

/-- `w` has some of the lengths of `st`, and the same tuple indices. -/
def Under (s : Struct) (w st : State) : Prop :=
  (∀ e, w (.len e) = none ∨ w (.len e) = st (.len e)) ∧ ∀ e, s.hard e → w (.idx e) = st (.idx e)

/-- The lengths and the tuple indices in the state are numbers below `M`. -/
def SmallState (M : Nat) (s : Struct) (st : State) : Prop :=
  (∀ e v, st (.len e) = some v → Small M v) ∧ ∀ e v, s.hard e → st (.idx e) = some v → Small M v

/-- In exact arithmetic, all the lengths are numbers below `M`, at all the levels of the structure: those
given in the state `st`, those that views hand down, and those that views report; likewise the indices of
tuples. The views also ask for lengths in states in which some lengths are not given and the other indices
are missing or different, so these states are included. There is no `merge_zcurve`. -/
def Struct.Roomy (M : Nat) : Struct → State → Prop
  | .scalar s a, st => SmallState M (.scalar s a) st
  | .tuple t n fs, st => SmallState M (.tuple t n fs) st ∧ ∀ i, (fs i).Roomy M (st.remove (.idx t))
  | .vector d s, st => SmallState M (.vector d s) st ∧ s.Roomy M (st.removeAll [.idx d, .len d])
  | .union n ss, st => SmallState M (.union n ss) st ∧ ∀ i, (ss i).Roomy M st
  | .view v s, st => SmallState M (.view v s) st ∧ (∀ sl gl ds d, v ≠ .mergeZ sl gl ds d) ∧
      ∀ w, Under (.view v s) w st →
        (∀ q l, (Struct.view v s).plain q → ((Struct.view v s).sem .ideal).len q w = some l → Small M l) ∧
        (∀ maj min d, v = .mergeBlocks maj min d → s.Roomy M (blocksClean d maj min w)) ∧
        ∀ u, (v.sem .ideal (s.sem .ideal)).sub w = some u → s.Roomy M u

/-- The indices handed down by a view in a dimension without a known length are numbers below `M`.
(For the other ones this follows from their being valid.) -/
def Struct.IndexRoom (M : Nat) : Struct → State → Prop
  | .scalar _ _, _ => True
  | .tuple t _ fs, st => ∀ i, (fs i).IndexRoom M (st.remove (.idx t))
  | .vector d s, st => s.IndexRoom M (st.removeAll [.idx d, .len d])
  | .union _ ss, st => ∀ i, (ss i).IndexRoom M st
  | .view v s, st => ∀ u, (v.sem .ideal (s.sem .ideal)).sub st = some u →
      (∀ e i, u (.idx e) = some i →
        (s.plain e ∧ ∃ m, (s.sem .ideal).len e (u.remove (.idx e)) = some m) ∨ Small M i) ∧
      s.IndexRoom M u

/-- All the indices handed down by views, also to the fields of tuples that are not selected, are numbers
below `M`, and no field of a tuple is empty. (The sizes of all the fields before the selected one enter the
offset.) -/
def Struct.SizeRoom (M : Nat) : Struct → State → Prop
  | .scalar _ _, _ => True
  | .tuple t _ fs, st => ∀ i, (fs i).SizeRoom M (st.remove (.idx t)) ∧
      ∀ v n, ((fs i).sem .ideal).size (st.remove (.idx t)) = some v → v.Num n → 0 < n
  | .vector d s, st => s.SizeRoom M (st.removeAll [.idx d, .len d])
  | .union _ ss, st => ∀ i, (ss i).SizeRoom M st
  | .view v s, st => ∀ u, (v.sem .ideal (s.sem .ideal)).sub st = some u →
      (∀ e i, u (.idx e) = some i → Small M i) ∧ s.SizeRoom M u

end Noarr
