import Verif.MachineZ
import Verif.Props.Bounds

/-
C45: exactness of `size_t` arithmetic.

`Arith.machine W` is unsigned arithmetic modulo `W`, which the code uses with `W = 2^64`.
`Arith.ideal` is arithmetic on natural numbers. `Arith.checked W` is exact arithmetic in which
every operation whose exact result is negative or not below `W`, and every division by zero, is a
fault; a fault makes the result `Val.bad`.
-/

set_option linter.unusedVariables false

namespace Noarr

/-- The values in a state are numbers below `W`. -/
def State.fits (W : Nat) (st : State) : Prop := ∀ t v, st t = some v → v.fits W

section
variable (W : Nat) (hW : 2 < W) (s : Struct) (hs : s.fits W) (st : State) (hst : st.fits W)
include hW hs hst

/-- C45 for offsets: if the evaluation of the offset with arguments below `W` meets no overflow, underflow and
division by zero, then the evaluation modulo `W` gives the same number as the exact evaluation. -/
theorem C45_offset_exact (start : Val) (hstart : start.fits W) (v : Val) (n : Nat)
    (hv : (s.sem (.checked W)).off st start = some v) (hn : v.Num n) :
    (s.sem (.machine W)).off st start = some v ∧ (s.sem .ideal).off st start = some v ∧ n < W := by
  have hr : st.Rel W st := .of_fits hst
  have h1 := (Struct.rel (Arith.agrees_machine W) hW s hs).off hr (.refl hstart) v n hv hn
  have h2 := (Struct.rel (Arith.agrees_ideal W) hW s hs).off hr (.refl hstart) v n hv hn
  exact ⟨h1.1, h2.1, h1.2⟩

/-- C45 for sizes. -/
theorem C45_size_exact (v : Val) (n : Nat) (hv : (s.sem (.checked W)).size st = some v) (hn : v.Num n) :
    (s.sem (.machine W)).size st = some v ∧ (s.sem .ideal).size st = some v ∧ n < W := by
  have hr : st.Rel W st := .of_fits hst
  obtain ⟨w, hw, h1⟩ := (Struct.rel (Arith.agrees_machine W) hW s hs).size hr v hv
  obtain ⟨u, hu, h2⟩ := (Struct.rel (Arith.agrees_ideal W) hW s hs).size hr v hv
  rcases h1 with h1 | ⟨rfl, h1⟩
  · rw [hn] at h1; cases h1
  · rcases h2 with h2 | ⟨rfl, h2⟩
    · rw [hn] at h2; cases h2
    · exact ⟨hw, hu, h1 n hn⟩

/-- C45 for lengths. -/
theorem C45_length_exact (q : Dim) (v : Val) (n : Nat) (hv : (s.sem (.checked W)).len q st = some v)
    (hn : v.Num n) :
    (s.sem (.machine W)).len q st = some v ∧ (s.sem .ideal).len q st = some v ∧ n < W := by
  have hr : st.Rel W st := .of_fits hst
  obtain ⟨w, hw, h1⟩ := (Struct.rel (Arith.agrees_machine W) hW s hs).len q hr v hv
  obtain ⟨u, hu, h2⟩ := (Struct.rel (Arith.agrees_ideal W) hW s hs).len q hr v hv
  rcases h1 with h1 | ⟨rfl, h1⟩
  · rw [hn] at h1; cases h1
  · rcases h2 with h2 | ⟨rfl, h2⟩
    · rw [hn] at h2; cases h2
    · exact ⟨hw, hu, h1 n hn⟩

/-- A length that the overflow-free evaluation knows to exist (or not) exists (or not) in the code. -/
theorem C45_has_length_exact (q : Dim) (b : Bool) (hb : (s.sem (.checked W)).hasLen q st = some b) :
    (s.sem (.machine W)).hasLen q st = some b ∧ (s.sem .ideal).hasLen q st = some b := by
  have hr : st.Rel W st := .of_fits hst
  obtain ⟨_, hw, rfl⟩ := (Struct.rel (Arith.agrees_machine W) hW s hs).hasLen q hr b hb
  obtain ⟨_, hu, rfl⟩ := (Struct.rel (Arith.agrees_ideal W) hW s hs).hasLen q hr b hb
  exact ⟨hw, hu⟩

/-- With C05: if nothing overflows, an element at valid indices lies, according to the numbers computed by the
code in `size_t`, inside the structure. -/
theorem C45_offset_in_bounds (ht : s.tame) (hsane : s.sane .ideal) (hV : Valid .ideal s st)
    (hp : s.Pre .ideal st) (size o : Val) (N k : Nat)
    (hsz : (s.sem (.checked W)).size st = some size) (hN : size.Num N)
    (ho : (s.sem (.checked W)).off st (.lit 0) = some o) (hk : o.Num k) :
    (s.sem (.machine W)).size st = some size ∧ (s.sem (.machine W)).off st (.lit 0) = some o ∧
      ∃ e, (s.sem .ideal).elem st = some e ∧ k + e ≤ N := by
  obtain ⟨m1, i1, -⟩ := C45_size_exact W hW s hs st hst size N hsz hN
  obtain ⟨m2, i2, -⟩ := C45_offset_exact W hW s hs st hst (.lit 0)
    (by intro n h; cases h; omega) o k ho hk
  obtain ⟨k', e, h1, h2, h3⟩ := C05_offset_in_bounds s ht hsane st hV hp size o N i1 hN i2
  have := Val.Num.eq hk h1
  subst this
  exact ⟨m1, m2, e, h2, h3⟩

end

/-- A matrix with reversed columns in blocks, merged again, of which every third column from the second on is
used. -/
abbrev c45Example : Struct := (Struct.vector 1 (.vector 0 (.scalar 4 4))).apply
  [.setLength 0 (.dyn 12), .setLength 1 (.dyn 5), .reverse 0, .intoBlocks 0 2 3, .setLength 3 (.lit 4),
   .mergeBlocks 2 3 4, .step 4 (.lit 1) (.dyn 3)]

abbrev c45State : State := (State.empty.at 1 2).at 4 3

theorem c45_fits : c45Example.fits (2 ^ 64) := by
  simp [Struct.apply, Struct.fits, View.fits, Val.fits, Val.nat?]

theorem c45_state_fits : c45State.fits (2 ^ 64) := by
  intro t v h
  simp only [State.at, State.set, State.empty] at h
  split at h
  · cases h; intro n hn; cases hn; decide
  · split at h
    · cases h; intro n hn; cases hn; decide
    · cases h

example : (c45Example.sem (.machine (2 ^ 64))).off c45State (.lit 0) = some (.dyn 100) ∧
    (c45Example.sem .ideal).off c45State (.lit 0) = some (.dyn 100) ∧ 100 < 2 ^ 64 :=
  C45_offset_exact (2 ^ 64) (by decide) c45Example c45_fits c45State c45_state_fits (.lit 0)
    (by intro n h; cases h; decide) _ _ (by decide) rfl

example : (c45Example.sem (.machine (2 ^ 64))).len 4 (State.empty.at 1 2) = some (.dyn 4) :=
  (C45_length_exact (2 ^ 64) (by decide) c45Example c45_fits (State.empty.at 1 2) (by
    intro t v h
    simp only [State.at, State.set, State.empty] at h
    split at h
    · cases h; intro n hn; cases hn; decide
    · cases h) 4 (.dyn 4) 4 (by decide) rfl).1

example : c05Example.fits (2 ^ 64) ∧
    (c05Example.sem (.checked (2 ^ 64))).size c05State = some (.dyn 224) ∧
    (c05Example.sem (.checked (2 ^ 64))).off c05State (.lit 0) = some (.dyn 60) :=
  ⟨by simp [c05Example, Struct.apply, Struct.fits, View.fits, Val.fits, Val.nat?], by decide, by decide⟩

/-- An overflow is a distinct outcome of the checked evaluation; the code computes another number. -/
theorem C45_overflow_is_distinct :
    let s := (Struct.vector 0 (.scalar 8 8)).apply [.setLength 0 (.dyn (2 ^ 62))]
    (s.sem (.checked (2 ^ 64))).size .empty = some (.bad .wrap) ∧
    (s.sem .ideal).size .empty = some (.dyn (2 ^ 65)) ∧
    (s.sem (.machine (2 ^ 64))).size .empty = some (.dyn 0) := by decide

/-- So is an underflow: a span with its end before its start. -/
theorem C45_underflow_is_distinct :
    let s := (Struct.vector 0 (.scalar 8 8)).apply [.setLength 0 (.dyn 10), .span 0 (.dyn 5) (.dyn 4)]
    (s.sem (.checked (2 ^ 64))).len 0 .empty = some (.bad .wrap) ∧
    (s.sem .ideal).len 0 .empty = some (.bad .wrap) ∧
    (s.sem (.machine (2 ^ 64))).len 0 .empty = some (.dyn (2 ^ 64 - 1)) := by decide

/-- A division by zero is undefined in the code as well: blocks of length zero. -/
theorem C45_division_by_zero_is_distinct :
    let s := (Struct.vector 0 (.scalar 8 8)).apply
      [.setLength 0 (.dyn 10), .intoBlocks 0 1 2, .setLength 2 (.dyn 0)]
    (s.sem (.checked (2 ^ 64))).len 1 .empty = some (.bad .ub) ∧
    (s.sem (.machine (2 ^ 64))).len 1 .empty = some (.bad .ub) := by decide

end Noarr
