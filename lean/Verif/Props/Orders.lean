import Verif.OrderLemmas
import Verif.Shortcuts

/-
C28, C50: what a traverser with an order visits.

The specification is in `OrderSpec`: `OrderAdmits` (what is required of the views of an order),
`OrderKeeps` (what the slicing views leave), `lensUnder` (lengths set by the order).
-/

namespace Noarr

/-- C28: `for_each` of a traverser with an order visits each of its states once, and it visits exactly
the states of the base structure - all needed indices in range and nothing else but the lengths given
by the order - which the views of the order keep. Slices keep the indices inside them; `fix` keeps one
index; all the views that only reorder, rename, reverse or split into blocks keep everything. -/
theorem C28_order_visits_what_its_views_keep (s : Struct) (vs : List View) (ht : (s.apply vs).tame)
    (hf : (s.apply vs).firm fun _ => false)
    (hw : (s.apply vs).wf .ideal) (hd : (s.apply vs).noDup .ideal)
    (ha : OrderAdmits .ideal (fun _ => none) s vs)
    (hl : ∀ p, Nested ((s.apply vs).sem .ideal) ((s.apply vs).sem .ideal).sig .empty p →
      LengthsKnown ((s.apply vs).sem .ideal) (p.state .empty))
    (sts : List State) (h : (Traverser.mk s vs).forEach .ideal [] = some sts) :
    sts.Nodup ∧ ∀ u, u ∈ sts ↔ AddressesWith (s.sem .ideal) (lensUnder .ideal (fun _ => none) vs) u ∧
      OrderKeeps .ideal (fun _ => none) s vs u :=
  forEach_order ht hf hw hd ha hl h

/-- C28: with an order that keeps everything and sets no length of the base structure, the same states
are visited as without it, each as many times (once), only in another order. -/
theorem C28_order_permutes_the_traversal (s : Struct) (vs : List View) (ht : (s.apply vs).tame)
    (hf : (s.apply vs).firm fun _ => false) (hfs : s.firm fun _ => false)
    (hw : (s.apply vs).wf .ideal) (hd : (s.apply vs).noDup .ideal)
    (ha : OrderAdmits .ideal (fun _ => none) s vs) (hk : ∀ v ∈ vs, ∀ u, View.keeps u v)
    (hL : ∀ q, lensUnder .ideal (fun _ => none) vs q = none)
    (hl : ∀ p, Nested ((s.apply vs).sem .ideal) ((s.apply vs).sem .ideal).sig .empty p →
      LengthsKnown ((s.apply vs).sem .ideal) (p.state .empty))
    (sts sts' : List State) (h : (Traverser.mk s []).forEach .ideal [] = some sts)
    (hls : ∀ u ∈ sts, LengthsKnown (s.sem .ideal) u)
    (h' : (Traverser.mk s vs).forEach .ideal [] = some sts') : sts'.Perm sts :=
  forEach_perm ht hf hfs hw hd ha hk hL hl h hls h'

/-- C50: `strip_mine` with a block length that divides the length of the dimension visits the states
that are visited without it, each once. -/
theorem C50_strip_mine_permutes (s : Struct) (d maj min : Dim) (nl : Val) (n : Nat) (hn : nl.Num n) (h0 : 0 < n)
    (ht : (s.apply (stripMine d maj min nl)).tame)
    (hf : (s.apply (stripMine d maj min nl)).firm fun _ => false) (hfs : s.firm fun _ => false)
    (hw : (s.apply (stripMine d maj min nl)).wf .ideal) (hd : (s.apply (stripMine d maj min nl)).noDup .ideal)
    (hm : s.unmixed .ideal)
    (hdiv : EveryLength (s.sem .ideal) (fun _ => none) d (n ∣ ·))
    (hl : ∀ p, Nested ((s.apply (stripMine d maj min nl)).sem .ideal)
        ((s.apply (stripMine d maj min nl)).sem .ideal).sig .empty p →
      LengthsKnown ((s.apply (stripMine d maj min nl)).sem .ideal) (p.state .empty))
    (sts sts' : List State) (h : (Traverser.mk s []).forEach .ideal [] = some sts)
    (hls : ∀ u ∈ sts, LengthsKnown (s.sem .ideal) u)
    (h' : (Traverser.mk s (stripMine d maj min nl)).forEach .ideal [] = some sts') : sts'.Perm sts := by
  have hti := Struct.tame_base (s := .view (.intoBlocks d maj min) s) (vs := [.setLength min nl, .hoist maj]) ht
  have hwi := Struct.wf_base (s := .view (.intoBlocks d maj min) s) (vs := [.setLength min nl, .hoist maj]) hw
  have hdi := Struct.noDup_base (s := .view (.intoBlocks d maj min) s) (vs := [.setLength min nl, .hoist maj]) hd
  have hne : maj ≠ min := by
    have := hwi.1
    simp only [Struct.sem, ViewSem.toSem, View.sem, intoBlocksSem] at this
    split at this
    · simp [Sig.wf] at this
    · next h => exact fun he => h (.inl he)
  have hrem : Lens.remove (Lens.set (fun _ => none) min nl) [d, maj, min] = fun _ => none := by
    funext q
    simp only [Lens.remove, Lens.set, List.mem_cons, List.not_mem_nil, or_false]
    split
    · rfl
    · next h => rw [if_neg (fun e => h (.inr (.inr e)))]
  have hmi := unmixed_intoBlocks hti hm
  refine forEach_perm ht hf hfs hw hd ⟨⟨?_, .inl ⟨?_, nl, n, ?_, hn, h0, ?_⟩⟩, hm, ⟨?_, hmi, ⟨trivial, ?_, trivial⟩⟩⟩
    ?_ ?_ hl h hls h'
  · exact fun h => hti.2.1.1 (Struct.hard_of_hasDep .ideal s hwi.2 hdi.2 h)
  · simp [lensUnder, View.lens, Lens.set, hne]
  · simp [lensUnder, View.lens, Lens.set]
  · show EveryLength _ (Lens.remove (Lens.set (fun _ => none) min nl) [d, maj, min]) d _
    rw [hrem]; exact hdiv
  · intro l' h; simp [lensUnder, View.lens] at h
  · exact unmixed_setLength hmi
  · intro v hv u
    simp only [stripMine, intoBlocksBy, List.cons_append, List.nil_append, List.mem_cons, List.not_mem_nil,
      or_false] at hv
    rcases hv with rfl | rfl | rfl <;> trivial
  · intro q
    show ((View.intoBlocks d maj min).lens .ideal (Lens.set (fun _ => none) min nl)) q = none
    have : (Lens.set (fun _ => none) min nl) maj = none := by simp [Lens.set, hne]
    simp only [View.lens, this, hrem]

/-- C50: `strip_mine_dynamic` with any positive block length visits the states that are visited
without it, each once, also if the block length does not divide the length. -/
theorem C50_strip_mine_dynamic_permutes (s : Struct) (d maj min pres : Dim) (nl : Val) (n : Nat)
    (hn : nl.Num n) (h0 : 0 < n)
    (ht : (s.apply (stripMineDyn d maj min pres nl)).tame)
    (hf : (s.apply (stripMineDyn d maj min pres nl)).firm fun _ => false) (hfs : s.firm fun _ => false)
    (hw : (s.apply (stripMineDyn d maj min pres nl)).wf .ideal)
    (hd : (s.apply (stripMineDyn d maj min pres nl)).noDup .ideal) (hm : s.unmixed .ideal)
    (hl : ∀ p, Nested ((s.apply (stripMineDyn d maj min pres nl)).sem .ideal)
        ((s.apply (stripMineDyn d maj min pres nl)).sem .ideal).sig .empty p →
      LengthsKnown ((s.apply (stripMineDyn d maj min pres nl)).sem .ideal) (p.state .empty))
    (sts sts' : List State) (h : (Traverser.mk s []).forEach .ideal [] = some sts)
    (hls : ∀ u ∈ sts, LengthsKnown (s.sem .ideal) u)
    (h' : (Traverser.mk s (stripMineDyn d maj min pres nl)).forEach .ideal [] = some sts') : sts'.Perm sts := by
  have hti := Struct.tame_base (s := .view (.intoBlocksDyn d maj min pres) s)
    (vs := [.setLength min nl, .hoist maj]) ht
  have hwi := Struct.wf_base (s := .view (.intoBlocksDyn d maj min pres) s)
    (vs := [.setLength min nl, .hoist maj]) hw
  have hdi := Struct.noDup_base (s := .view (.intoBlocksDyn d maj min pres) s)
    (vs := [.setLength min nl, .hoist maj]) hd
  have hne : maj ≠ min ∧ min ≠ pres := by
    have := hwi.1
    simp only [Struct.sem, ViewSem.toSem, View.sem, intoBlocksDynSem] at this
    split at this
    · simp [Sig.wf] at this
    · next h => exact ⟨fun he => h (.inl he), fun he => h (.inr (.inl he))⟩
  have hrem : Lens.remove (Lens.set (fun _ => none) min nl) [d, maj, min] = fun _ => none := by
    funext q
    simp only [Lens.remove, Lens.set, List.mem_cons, List.not_mem_nil, or_false]
    split
    · rfl
    · next h => rw [if_neg (fun e => h (.inr (.inr e)))]
  have hmi := unmixed_intoBlocksDyn hti hm
  refine forEach_perm ht hf hfs hw hd ⟨⟨?_, ?_, .inl ⟨?_, nl, n, ?_, hn, h0⟩⟩, hm, ⟨?_, hmi, ⟨trivial, ?_, trivial⟩⟩⟩
    ?_ ?_ hl h hls h'
  · exact fun h => hti.2.1.1 (Struct.hard_of_hasDep .ideal s hwi.2 hdi.2 h)
  · simp [lensUnder, View.lens, Lens.set, hne.2.symm]
  · simp [lensUnder, View.lens, Lens.set, hne.1]
  · simp [lensUnder, View.lens, Lens.set]
  · intro l' h; simp [lensUnder, View.lens] at h
  · exact unmixed_setLength hmi
  · intro v hv u
    simp only [stripMineDyn, intoBlocksDynBy, List.cons_append, List.nil_append, List.mem_cons, List.not_mem_nil,
      or_false] at hv
    rcases hv with rfl | rfl | rfl <;> trivial
  · intro q
    show ((View.intoBlocksDyn d maj min pres).lens .ideal (Lens.set (fun _ => none) min nl)) q = none
    have : (Lens.set (fun _ => none) min nl) maj = none := by simp [Lens.set, hne.1]
    simp only [View.lens, this, hrem]

/-! ### Examples -/

/-- An array of 2 rows with 6 elements. -/
def c28Example : Struct :=
  .view (.setLength 1 (.dyn 6)) (.view (.setLength 0 (.dyn 2)) (.vector 0 (.vector 1 (.scalar 4 4))))

/-- It is traversed by blocks of 3 columns. -/
def c28Top : Struct := c28Example.apply (stripMine 1 2 3 (.lit 3))

example : c28Top.tame ∧ c28Top.firm (fun _ => false) ∧ c28Example.firm (fun _ => false) := by
  simp [c28Top, c28Example, stripMine, intoBlocksBy, Struct.apply, Struct.tame, View.tame, Struct.firm,
    Struct.plain, Struct.hard, Struct.soft, Struct.stale, View.hard, View.soft, View.stale, View.pat]

example : c28Top.wf .ideal := by
  refine ⟨by decide, ⟨by decide, ⟨by decide, ⟨by decide, ⟨by decide, ⟨by decide, ⟨by decide, trivial⟩⟩⟩⟩⟩⟩⟩

example : c28Top.noDup .ideal := by
  simp [c28Top, c28Example, stripMine, intoBlocksBy, Struct.apply, Struct.noDup, Struct.sem, ViewSem.toSem,
    View.sem, setLengthSem, hoistSem, intoBlocksSem, vectorSem, scalarSem, Sig.uniq, Sig.replace,
    Sig.setLengthRepl, Sig.intoBlocksRepl, Sig.anyAccept, Sig.retRepl, Sig.find]

example : c28Example.unmixed .ideal := by
  intro q _
  simp [c28Example, Struct.hard, View.hard]

example : EveryLength (c28Example.sem .ideal) (fun _ => none) 1 (3 ∣ ·) := by
  intro st l m hL hl hm
  have h0 : st (.len 0) = none := hL 0
  cases hi : st (.idx 1) with
  | none =>
    have : l = .dyn 6 := by
      simpa [c28Example, Struct.sem, ViewSem.toSem, View.sem, setLengthSem, vectorSem, guardLen, State.has,
        State.set, State.removeAll, hi] using hl.symm
    subst this
    cases hm
    decide
  | some i =>
    simp [c28Example, Struct.sem, ViewSem.toSem, View.sem, setLengthSem, vectorSem, guardLen, State.has,
      State.set, State.removeAll, hi] at hl

example (p : Path) (h : Nested (c28Top.sem .ideal) (c28Top.sem .ideal).sig .empty p) :
    LengthsKnown (c28Top.sem .ideal) (p.state .empty) := by
  have hs : (c28Top.sem .ideal).sig = .fn 2 .dynamic (.fn 0 .dynamic (.fn 3 (.static 3) (.scalar 4))) := rfl
  intro q hq _
  rw [hs] at h hq
  cases h with | fn i _ _ _ h => cases h with | fn j _ _ _ h => cases h with | fn k _ _ _ h =>
  cases h
  rcases hq with rfl | rfl | rfl | h' <;> first | rfl | exact absurd h' id

/-- The visits, in order: the blocks are outermost. -/
example : (walk (c28Top.sem .ideal) (c28Top.sem .ideal).sig.tree .empty).map (fun ps => ps.take 7) = some
    [[(2, .dyn 0), (0, .dyn 0), (3, .dyn 0)],
     [(2, .dyn 0), (0, .dyn 0), (3, .dyn 1)],
     [(2, .dyn 0), (0, .dyn 0), (3, .dyn 2)],
     [(2, .dyn 0), (0, .dyn 1), (3, .dyn 0)],
     [(2, .dyn 0), (0, .dyn 1), (3, .dyn 1)],
     [(2, .dyn 0), (0, .dyn 1), (3, .dyn 2)],
     [(2, .dyn 1), (0, .dyn 0), (3, .dyn 0)]] := by decide

example : ∃ sts, (Traverser.mk c28Example (stripMine 1 2 3 (.lit 3))).forEach .ideal [] = some sts ∧
    sts.length = 12 := by
  refine ⟨_, rfl, by decide⟩

example : ∃ sts, (Traverser.mk c28Example []).forEach .ideal [] = some sts ∧ sts.length = 12 := by
  refine ⟨_, rfl, by decide⟩

/-- Another order: the rows are reversed and, of the columns, the slice from 1 to 4 is taken; the
columns are the outer loop. -/
example : OrderAdmits .ideal (fun _ => none) c28Example [.reverse 0, .slice 1 (.lit 1) (.dyn 4), .hoist 1] := by
  have hfree : ∀ q, ¬ c28Example.hard q := by intro q; simp [c28Example, Struct.hard, View.hard]
  refine ⟨⟨?_, hfree 0, ?_⟩, fun q _ => hfree q, ⟨?_, 1, 4, rfl, rfl, ?_⟩, fun q _ => hfree q, trivial,
    fun q _ => hfree q, trivial⟩
  · intro h
    exact absurd h (by simp [c28Example, Struct.sem, ViewSem.toSem, View.sem, setLengthSem, vectorSem, scalarSem,
      Sig.hasDep, Sig.replace, Sig.setLengthRepl, Sig.anyAccept])
  · simp [c28Example, Struct.drive, View.drive]
  · intro h
    exact absurd h (by simp [c28Example, Struct.sem, ViewSem.toSem, View.sem, setLengthSem, vectorSem, scalarSem,
      reverseSem, Sig.reverseRepl, Sig.hasDep, Sig.replace, Sig.setLengthRepl, Sig.anyAccept])
  · intro st hL hi hn
    refine ⟨.dyn 6, 6, ?_, rfl, by decide⟩
    simp [c28Example, Struct.sem, ViewSem.toSem, View.sem, setLengthSem, vectorSem, reverseSem, guardLen,
      State.has, State.set, State.removeAll, hi]
    cases st (.idx 0) <;> simp [State.remove, State.set, hi]

/-- A row and a column that the order keeps, and two that it does not keep. -/
example : View.keeps ((State.empty.at 0 1).at 1 4) (.slice 1 (.lit 1) (.dyn 4)) ∧
    ¬ View.keeps ((State.empty.at 0 1).at 1 5) (.slice 1 (.lit 1) (.dyn 4)) ∧
    ¬ View.keeps ((State.empty.at 0 1).at 1 0) (.slice 1 (.lit 1) (.dyn 4)) := by
  refine ⟨?_, ?_, ?_⟩
  · intro i x m hi hx hm
    cases hi; cases hx; cases hm; decide
  · intro h; have := h 5 1 4 rfl rfl rfl; omega
  · intro h; have := h 0 1 4 rfl rfl rfl; omega

end Noarr
