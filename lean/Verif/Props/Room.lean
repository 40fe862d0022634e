import Verif.RoomEasy
import Verif.Props.Machine

/-
C56: when `size_t` is wide enough.

C45 says that the numbers computed by the code are right if no operation overflows. Here this is derived from
bounds on the numbers a user knows: the lengths and the parameters of the views (all below `M`, with `2 * M ≤ W`), and
the size of the structure (which fits in `size_t` with room for an alignment). `Struct.Roomy` says that the lengths at
all the levels are below `M`; `C56_lengths_stay_small` derives it from the given lengths alone for structures built
without `shift` and without the merging views.
-/

set_option linter.unusedVariables false

namespace Noarr

/-- All the values in the state are numbers below `M`. -/
def State.Small (M : Nat) (st : State) : Prop := ∀ t v, st t = some v → Noarr.Small M v

section
variable (M W : Nat) (hM : 0 < M) (hW : 2 * M ≤ W) (h2 : 2 < W) (s : Struct) (ht : s.tame) (hs : s.sane .ideal)
  (hf : s.fits M) (st : State) (hR : s.Roomy M st)
include hM hW h2 ht hs hf hR

/-- C56 for lengths: the length of an ordinary dimension computed in `size_t` is the exact one. -/
theorem C56_length_exact (hst : st.fits W) (q : Dim) (hq : s.plain q) (l : Val)
    (hl : (s.sem .ideal).len q st = some l) : (s.sem (.machine W)).len q st = some l ∧ ∃ n, l.Num n ∧ n < M := by
  have hc := (Struct.len_exact hM hW h2 s ht hs hf q st hq hR).2 l hl
  obtain ⟨n, hn, hlt⟩ := hR.len hq hl
  exact ⟨(C45_length_exact W h2 s (Struct.fits.mono (by omega) hf) st hst q l n hc hn).1, n, hn, hlt⟩

/-- C56 for sizes: the size computed in `size_t` is the exact one. -/
theorem C56_size_exact (hst : st.fits W) (hI : s.SizeRoom M st) (size : Val) (N : Nat)
    (hsz : (s.sem .ideal).size st = some size) (hN : size.Num N) (h0 : 0 < N) (hNW : N + M ≤ W) :
    (s.sem (.machine W)).size st = some size := by
  have hc := (Struct.size_align_exact hM hW h2 s ht hs hf hR hI).1 size N hsz hN h0 hNW
  exact (C45_size_exact W h2 s (Struct.fits.mono (by omega) hf) st hst size N hc hN).1

/-- C56 for offsets, when the size is known to be computed without an overflow: the offset of a valid element
computed in `size_t` is the exact one, and the element lies inside the structure. -/
theorem C56_offset_exact_of_size (hst : st.Small M) (hV : Valid .ideal s st) (hp : s.Pre .ideal st)
    (hI : s.IndexRoom M st) (size : Val) (N : Nat) (hsz : (s.sem (.checked W)).size st = some size)
    (hN : size.Num N) (o : Val) (ho : (s.sem .ideal).off st (.lit 0) = some o) :
    (s.sem (.machine W)).size st = some size ∧ (s.sem (.machine W)).off st (.lit 0) = some o ∧
      ∃ k e, o.Num k ∧ (s.sem .ideal).elem st = some e ∧ k + e ≤ N ∧ N < W := by
  have hfW : s.fits W := Struct.fits.mono (by omega) hf
  have hstW : st.fits W := fun t v h => (hst t v h).fits (by omega)
  obtain ⟨m1, i1, hlt⟩ := C45_size_exact W h2 s hfW st hstW size N hsz hN
  have hc := Struct.off_exact hM hW h2 s ht hs hf hR hst (fun q i n _ => hV q i n) hp hI hsz hN
    (show (Val.lit 0).Num 0 from rfl) (by omega) ho
  obtain ⟨k, e, hk, he, hle⟩ := C05_offset_in_bounds s ht hs st hV hp size o N i1 hN ho
  exact ⟨m1, (C45_offset_exact W h2 s hfW st hstW (.lit 0) (by intro n h; cases h; omega) o k hc hk).1,
    k, e, hk, he, hle, hlt⟩

/-- C56 for offsets: if the exact size of the structure fits in `size_t` (with room for an alignment), then for valid
indices, size and offset computed in `size_t` are the exact ones, and the element lies inside the structure. -/
theorem C56_offset_exact (hst : st.Small M) (hV : Valid .ideal s st) (hp : s.Pre .ideal st)
    (hI : s.SizeRoom M st) (size : Val) (N : Nat) (hsz : (s.sem .ideal).size st = some size)
    (hN : size.Num N) (h0 : 0 < N) (hNW : N + M ≤ W) (o : Val) (ho : (s.sem .ideal).off st (.lit 0) = some o) :
    (s.sem (.machine W)).size st = some size ∧ (s.sem (.machine W)).off st (.lit 0) = some o ∧
      ∃ k e, o.Num k ∧ (s.sem .ideal).elem st = some e ∧ k + e ≤ N := by
  have hc := (Struct.size_align_exact hM hW h2 s ht hs hf hR hI).1 size N hsz hN h0 hNW
  obtain ⟨h1, h3, k, e, h4, h5, h6, -⟩ := C56_offset_exact_of_size M W hM hW h2 s ht hs hf st hR hst hV hp hI.index
    size N hc hN o ho
  exact ⟨h1, h3, k, e, h4, h5, h6⟩

end

/-- The lengths stay small: if the lengths given in the state and to `set_length`, `slice`, `span` and
`into_blocks_static` are below `M`, and the structure is built without `shift` and merging views, then the lengths at all
the levels are below `M`. -/
theorem C56_lengths_stay_small (M : Nat) (s : Struct) (ht : s.tame) (L : Dim → Prop) (he : s.easy M L) (st : State)
    (h : EasyState M L s st) : s.Roomy M st := s.easy_roomy ht he h

/-- A matrix, whose columns are divided into blocks of 16, of which every fourth from the second on is used. -/
abbrev c56Example : Struct := (Struct.vector 1 (.vector 0 (.scalar 8 8))).apply
  [.setLength 0 (.dyn 1000000), .setLength 1 (.dyn 2000), .intoBlocks 0 2 3, .setLength 3 (.lit 16),
   .step 2 (.dyn 1) (.dyn 4)]

/-- indices in it -/
abbrev c56State : State := ((State.empty.at 1 7).at 2 5).at 3 3

theorem c56_tame : c56Example.tame := by
  simp [Struct.apply, Struct.tame, View.tame, Struct.plain, Struct.hard, Struct.soft, Struct.stale, View.hard,
    View.soft, View.stale]
theorem c56_sane : c56Example.sane .ideal := by
  simp [Struct.apply, Struct.sane, Struct.hard, View.hard, Struct.drive, View.drive]
theorem c56_easy : c56Example.easy (2 ^ 32) fun _ => False := by
  simp [Struct.apply, Struct.easy, View.easy, View.below, Struct.hard, View.hard, Positive, Val.Num, Val.nat?]
theorem c56_easyState : EasyState (2 ^ 32) (fun _ => False) c56Example c56State := by
  simp [EasyState, State.at, State.set, State.empty, Struct.apply, Struct.hard, View.hard]
example : (c56Example.sem .ideal).size c56State = some (.dyn 16000000000) := by decide
example : (c56Example.sem .ideal).off c56State (.lit 0) = some (.dyn 56002712) := by decide
example : (c56Example.sem (.machine (2 ^ 64))).off c56State (.lit 0) = some (.dyn 56002712) := by decide
theorem c56_fits : c56Example.fits (2 ^ 32) := by
  simp [Struct.apply, Struct.fits, View.fits, Val.fits, Val.nat?]
theorem c56_sizeRoom : c56Example.SizeRoom (2 ^ 32) c56State := by
  simp [Struct.apply, Struct.SizeRoom, View.sem, stepSem, setLengthSem, intoBlocksSem, intoBlocksSub, State.at,
    State.set, State.empty, State.mapAt, blocksClean, State.removeAll]
  refine ⟨fun e i h => ?_, fun e i h => ?_⟩ <;> (repeat' split at h) <;> cases h <;> exact ⟨_, rfl, by decide⟩
theorem c56_small : c56State.Small (2 ^ 32) := by
  intro t v h
  simp only [State.at, State.set, State.empty] at h
  (repeat' split at h) <;> cases h <;> exact ⟨_, rfl, by decide⟩
theorem c56_valid : Valid .ideal c56Example c56State := by
  refine .of_list [1, 2, 3] ?_ (by decide)
  intro q hq
  simp at hq
  simp [State.at, State.set, State.empty, hq]

theorem c56_pre : c56Example.Pre .ideal c56State := by
  simp [Struct.apply, Struct.Pre, View.pre, View.sem, stepSem, setLengthSem, intoBlocksSem, intoBlocksSub, State.at,
    State.set, State.empty, State.mapAt]
example : (c56Example.sem (.machine (2 ^ 64))).off c56State (.lit 0) = some (.dyn 56002712) :=
  (C56_offset_exact (2 ^ 32) (2 ^ 64) (by decide) (by decide) (by decide) c56Example c56_tame c56_sane c56_fits c56State
    (C56_lengths_stay_small _ _ c56_tame _ c56_easy _ c56_easyState) c56_small c56_valid c56_pre c56_sizeRoom
    (.dyn 16000000000) 16000000000 (by decide) rfl (by decide) (by decide) (.dyn 56002712) (by decide)).2.1

/-- The bounds on the parameters are needed: a stride near the maximum of `size_t` wraps the length of a `step` to zero
(exactly, it is one). -/
theorem C56_huge_stride_wraps :
    let s := Struct.apply (.vector 0 (.scalar 4 4)) [.setLength 0 (.dyn 10), .step 0 (.dyn 0) (.dyn (2 ^ 64 - 5))]
    (s.sem .ideal).len 0 State.empty = some (.dyn 1) ∧
      (s.sem (.machine (2 ^ 64))).len 0 State.empty = some (.dyn 0) := by
  decide

end Noarr
