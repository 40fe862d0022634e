import Verif.AliasMain
import Verif.Props.Bounds

/-
C06: distinct valid indices address disjoint memory.

The specification is in `BoundsSpec` (`Valid`, `Struct.Pre`, `Struct.tame`, `Struct.sane`),
`SigPath` (`Sig.needs`: the dimensions that address one element), `SigUniq` (`Struct.wf`: everything
compiles; `Struct.noAlias`: no `bcast`, no `join`), `SizeDet` (`SameLens`, `Struct.rigid`: a total
length given to `merge_blocks` does not depend on tuple indices) and `AliasSpec` (`Struct.exact`:
strides are not zero; `ConstIdx`: tuple indices are constants; `Agree`).
-/

namespace Noarr

/-- C06: two states with the same lengths, both valid, that differ in an index which one of them
needs, address disjoint bytes. -/
theorem C06_distinct_indices_disjoint (s : Struct) (hw : s.wf .ideal) (hn : s.noAlias) (ht : s.tame)
    (hs : s.sane .ideal) (hex : s.exact) (st st' : State) (hl : SameLens st st')
    (hV : Valid .ideal s st) (hV' : Valid .ideal s st') (hp : s.Pre .ideal st) (hp' : s.Pre .ideal st')
    (hr : s.rigid .ideal st) (hr' : s.rigid .ideal st') (hc : ConstIdx s st) (hc' : ConstIdx s st')
    (hag : Agree s st st') (size size' o o' : Val) (N N' : Nat)
    (hsz : (s.sem .ideal).size st = some size) (hN : size.Num N)
    (hsz' : (s.sem .ideal).size st' = some size') (hN' : size'.Num N')
    (ho : (s.sem .ideal).off st (.lit 0) = some o) (ho' : (s.sem .ideal).off st' (.lit 0) = some o')
    (q : Dim) (hq : (s.sem .ideal).sig.needs st q ∨ (s.sem .ideal).sig.needs st' q)
    (hne : ¬ SameNum (st (.idx q)) (st' (.idx q))) :
    ∃ k e k' e', o.Num k ∧ (s.sem .ideal).elem st = some e ∧ o'.Num k' ∧
      (s.sem .ideal).elem st' = some e' ∧ (k + e ≤ k' ∨ k' + e' ≤ k) := by
  have hv : ValidR .ideal s st := fun q i n _ => hV q i n
  have hv' : ValidR .ideal s st' := fun q i n _ => hV' q i n
  have h0 : (Val.lit 0).Num 0 := rfl
  obtain ⟨k, e, h1, h2, -, -⟩ := s.inside ht hs hv hp hsz hN h0 ho
  obtain ⟨k', e', h1', h2', -, -⟩ := s.inside ht hs hv' hp' hsz' hN' h0 ho'
  refine ⟨k, e, k', e', h1, h2, h1', h2', ?_⟩
  refine Classical.byContradiction fun hno => ?_
  have := s.overlap hw hn ht hs hex hl ⟨hv, hp, hr, hc⟩ ⟨hv', hp', hr', hc'⟩ hag
    ⟨⟨_, o, h0, ho, h1⟩, h2, _, N, hsz, hN⟩ ⟨⟨_, o', h0, ho', h1'⟩, h2', _, N', hsz', hN'⟩
    (by omega) (by omega)
  rcases hq with hq | hq
  · exact hne (this.1 q hq)
  · exact hne (this.2 q hq)

/-- C06, as injectivity: if the scalars are not empty, the offset determines the needed indices. -/
theorem C06_offset_injective (s : Struct) (hw : s.wf .ideal) (hn : s.noAlias) (ht : s.tame)
    (hs : s.sane .ideal) (hex : s.exact) (st st' : State) (hl : SameLens st st')
    (hV : Valid .ideal s st) (hV' : Valid .ideal s st') (hp : s.Pre .ideal st) (hp' : s.Pre .ideal st')
    (hr : s.rigid .ideal st) (hr' : s.rigid .ideal st') (hc : ConstIdx s st) (hc' : ConstIdx s st')
    (hag : Agree s st st') (size size' o o' : Val) (N N' k : Nat)
    (hsz : (s.sem .ideal).size st = some size) (hN : size.Num N)
    (hsz' : (s.sem .ideal).size st' = some size') (hN' : size'.Num N')
    (ho : (s.sem .ideal).off st (.lit 0) = some o) (ho' : (s.sem .ideal).off st' (.lit 0) = some o')
    (hk : o.Num k) (hk' : o'.Num k) (he : (s.sem .ideal).elem st ≠ some 0)
    (he' : (s.sem .ideal).elem st' ≠ some 0)
    (q : Dim) (hq : (s.sem .ideal).sig.needs st q) : SameNum (st (.idx q)) (st' (.idx q)) := by
  refine Classical.byContradiction fun hne => ?_
  obtain ⟨k1, e1, k2, e2, h1, h2, h3, h4, h5⟩ := C06_distinct_indices_disjoint s hw hn ht hs hex st st'
    hl hV hV' hp hp' hr hr' hc hc' hag size size' o o' N N' hsz hN hsz' hN' ho ho' q (.inl hq) hne
  have := Val.Num.eq hk h1
  have := Val.Num.eq hk' h3
  have : e1 ≠ 0 := by rintro rfl; exact he h2
  have : e2 ≠ 0 := by rintro rfl; exact he' h4
  omega

/-! ### An example

A matrix of pairs, cut to a window, reversed, blocked, with the blocks merged (`c05Example`). -/

/-- the element before the one of `c05State` -/
def c06State : State := ((State.empty.set (.idx 9) (.lit 1)).at 3 0).at 5 11

theorem c06Rigid (st : State) (h : st (.len 5) = none) : c05Example.rigid .ideal st := by
  refine ⟨.inl h, fun _ _ => ⟨trivial, fun _ _ => ⟨trivial, fun _ _ => ⟨trivial, fun _ _ => ⟨trivial,
    fun _ _ => ⟨trivial, fun _ _ => ⟨trivial, fun _ _ => fun _ => trivial⟩⟩⟩⟩⟩⟩⟩

example : c05Example.wf .ideal := by
  refine ⟨?_, ?_, ?_, ?_, ?_, ?_, ?_, ?_, ?_, ?_, fun _ => trivial⟩ <;> decide

example : c05Example.noAlias := by
  simp [c05Example, Struct.apply, Struct.noAlias]

example : c05Example.exact := by
  simp [c05Example, Struct.apply, Struct.exact, View.exact, Struct.hard, View.hard]

example : SameLens c05State c06State := fun d => by
  simp [c05State, c06State, State.at, State.set, State.empty]

example : Valid .ideal c05Example c06State :=
  .of_list [3, 5, 9] (by intro q hq; simp at hq; simp [c06State, State.at, State.set, State.empty, hq])
    (by decide)

example : c05Example.Pre .ideal c06State := by
  refine .below ?_ (.below trivial (.below ?_ (.below ?_ (.below ?_ (.below trivial
    (.below trivial fun _ => trivial))))))
  · exact fun i hi => ⟨⟨_, show _ = some (.dyn 12) by decide⟩, forall_eq_none (by decide)⟩
  · exact fun ml nl h => absurd h (forall_eq_none (P := fun _ => False) (by decide) ml)
  · intro _; decide
  · refine forall_eq_some (x := .dyn 7) (by decide) ?_
    exact ⟨7, 7, rfl, rfl, by decide⟩

example : c05Example.rigid .ideal c05State ∧ c05Example.rigid .ideal c06State :=
  ⟨c06Rigid _ (by decide), c06Rigid _ (by decide)⟩

example : ConstIdx c05Example c05State ∧ ConstIdx c05Example c06State := by
  constructor <;> intro q hq <;>
    simp only [c05Example, Struct.apply, Struct.hard, View.hard, exists_const, or_false] at hq <;>
    (have hq : q = 9 := by grind) <;> subst hq <;>
    exact forall_eq_some (x := .lit 1) (by decide) ⟨1, rfl⟩

example : Agree c05Example c05State c06State := by
  intro q hq _ _
  simp only [c05Example, Struct.apply, Struct.hard, View.hard, exists_const, or_false] at hq
  have hq : q = 9 := by grind
  subst hq; decide

example : (c05Example.sem .ideal).sig.needs c05State 3 ∧
    ¬ SameNum (c05State (.idx 3)) (c06State (.idx 3)) := by
  constructor
  · decide
  · rintro ⟨i, j, n, h1, h2, h3, h4⟩
    have e1 : c05State (.idx 3) = some (.dyn 1) := by decide
    have e2 : c06State (.idx 3) = some (.dyn 0) := by decide
    rw [e1] at h1; rw [e2] at h2
    cases h1; cases h2; cases h3; cases h4

/-! ### Where the conditions are needed -/

/-- `bcast` is meant to alias. -/
theorem C06_bcast_aliases :
    let s := Struct.apply (.scalar 4 4) [.bcast 0, .setLength 0 (.dyn 5)]
    (s.sem .ideal).off (State.empty.at 0 1) (.lit 0) = some (.lit 0) ∧
    (s.sem .ideal).off (State.empty.at 0 2) (.lit 0) = some (.lit 0) := by decide

/-- So does a stride of zero. -/
theorem C06_zero_stride_aliases :
    let s := Struct.apply (.vector 0 (.scalar 4 4)) [.setLength 0 (.dyn 5), .step 0 (.dyn 3) (.dyn 0)]
    (s.sem .ideal).off (State.empty.at 0 0) (.lit 0) = some (.dyn 12) ∧
    (s.sem .ideal).off (State.empty.at 0 1) (.lit 0) = some (.dyn 12) := by decide

/-- A total length given to `merge_blocks` over a tuple whose fields have blocks of different lengths:
the number of blocks, hence the place of the second field, depends on the tuple index. Both states are
valid, the preconditions hold, and both address bytes 44 to 48. -/
theorem C06_merged_tuple_aliases :
    let s := Struct.apply (.tuple 9 2 (fun i => if i = 0
        then Struct.apply (.vector 1 (.vector 2 (.scalar 4 4))) [.setLength 2 (.dyn 2)]
        else Struct.apply (.vector 1 (.vector 2 (.scalar 4 4))) [.setLength 2 (.dyn 3)]))
      [.mergeBlocks 1 2 0, .setLength 0 (.dyn 12)]
    let st := (State.empty.set (.idx 9) (.lit 0)).at 0 11
    let st' := (State.empty.set (.idx 9) (.lit 1)).at 0 3
    (s.sem .ideal).sig.wf = true ∧ Valid .ideal s st ∧ Valid .ideal s st' ∧
    (s.sem .ideal).size st = some (.dyn 120) ∧ (s.sem .ideal).size st' = some (.dyn 80) ∧
    (s.sem .ideal).off st (.lit 0) = some (.dyn 44) ∧
    (s.sem .ideal).off st' (.lit 0) = some (.dyn 44) := by
  refine ⟨by decide, ?_, ?_, by decide, by decide, by decide, by decide⟩
  · refine .of_list [0, 9] ?_ (by decide)
    intro q hq
    simp at hq
    simp [State.at, State.set, State.empty, hq]
  · refine .of_list [0, 9] ?_ (by decide)
    intro q hq
    simp at hq
    simp [State.at, State.set, State.empty, hq]

end Noarr
