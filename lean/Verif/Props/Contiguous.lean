import Verif.ContigChain
import Verif.Props.Traversal

/-
C42: `is_contiguous`.
-/

set_option linter.unusedVariables false

namespace Noarr

/-- C42, as far as it is true: if `is_contiguous` holds for the structure and the state `p`, then every
element that can be addressed with the lengths and indices in `p` has an offset, and the bytes of these
elements are a contiguous range.

Missing from the full statement: `is_contiguous` does not look at what `Struct.chain` requires, and
without it the statement is false - dimensions that are sliced or given (in the state or by `fix`)
inside of others that are not (`C42_sliced_inner_dimension`, `C42_given_inner_dimension`,
`C42_fixed_inner_dimension`), block lengths that do not divide an inner dimension
(`C42_incomplete_inner_blocks`), gaps in tuples (`C42_gap_in_a_tuple`). Joined dimensions are left out
(one of the two keeps its name, and its length cannot be queried). -/
theorem C42_contiguous_partial (s : Struct) (hw : s.wf .ideal) (hn : s.noDup .ideal) (ht : s.tame) (p : State)
    (hc : s.chain p none) (h : s.isContig .ideal p = true) :
    (∀ u, AddressesWith (s.sem .ideal) p.lens u → (∀ q i, p (.idx q) = some i → u (.idx q) = some i) →
      ∃ o k e, (s.sem .ideal).off u (.lit 0) = some o ∧ o.Num k ∧ (s.sem .ideal).elem u = some e) ∧
    ∃ lo hi, ∀ b, InElement (s.sem .ideal) p b ↔ lo ≤ b ∧ b < hi := by
  have hr := chain_rng hw hn ht hc h
  constructor
  · intro u hu hg
    obtain ⟨k, e, h1, h2⟩ := hr.total u ((addr_iff' hn.uniq).2 hu) hg
    obtain ⟨o, ho, hk⟩ := h1 (.lit 0) 0 rfl
    exact ⟨o, _, e, ho, hk, h2⟩
  · obtain ⟨lo, hi, hr⟩ := hr.range
    refine ⟨lo, hi, fun b => ?_⟩
    rw [← hr]
    constructor
    · rintro ⟨u, o, k, e, hu, hg, ho, hk, he, h1, h2⟩
      exact ⟨u, k, e, (addr_iff' hn.uniq).2 hu, hg, .of (start := .lit 0) (a := 0) rfl ho (by rw [Nat.zero_add]; exact hk) he, h1, h2⟩
    · rintro ⟨u, k, e, hu, hg, ⟨h1, h2⟩, h3, h4⟩
      obtain ⟨o, ho, hk⟩ := h1 (.lit 0) 0 rfl
      exact ⟨u, o, k, e, (addr_iff' hn.uniq).1 hu, hg, ho, by rw [Nat.zero_add] at hk; exact hk, h2, h3, h4⟩

/-! ### Examples -/

/-- 5 rows of 6 elements, of which the rows from 1 to 3 are taken; their columns are in blocks of 3. -/
def c42Example : Struct := (Struct.vector 1 (.vector 0 (.scalar 4 4))).apply
  [.setLength 0 (.dyn 6), .setLength 1 (.dyn 5), .slice 1 (.lit 1) (.dyn 3), .intoBlocks 0 2 3, .setLength 3 (.lit 3)]

/-- A block of the row 2 is contiguous. -/
def c42State : State := (State.empty.at 1 2).at 2 1

example : c42Example.wf .ideal ∧ c42Example.tame := by
  refine ⟨⟨by decide, by decide, by decide, by decide, by decide, by decide, by decide, trivial⟩, ?_⟩
  simp [c42Example, Struct.apply, Struct.tame, View.tame, Struct.plain, Struct.hard, Struct.soft, Struct.stale,
    View.hard, View.soft, View.stale]

example : c42Example.noDup .ideal := by
  simp [c42Example, Struct.apply, Struct.noDup, Struct.sem, ViewSem.toSem,
    View.sem, setLengthSem, sliceSem, intoBlocksSem, vectorSem, scalarSem, Sig.uniq, Sig.replace,
    Sig.setLengthRepl, Sig.sliceRepl, Sig.intoBlocksRepl, Sig.anyAccept, Sig.retRepl, Sig.find]

example : c42Example.isContig .ideal c42State = true := by decide

example : c42Example.chain c42State none := by
  have hfree : ∀ (s : Struct), (∀ q, ¬ s.hard q) → s.unmixed .ideal := fun s h q _ => h q
  refine .inr (.inr ⟨?_, hfree _ (by simp [Struct.hard, View.hard]), ?_⟩)
  · intro l' h; cases h
  intro u hu; cases hu
  refine .inr (.inr ⟨⟨?_, .inl ⟨rfl, .lit 3, 3, rfl, rfl, by omega, ?_⟩⟩, hfree _ (by simp [Struct.hard, View.hard]), ?_⟩)
  · intro h
    exact absurd h (by simp [Struct.sem, ViewSem.toSem, View.sem, setLengthSem, sliceSem, vectorSem, scalarSem,
      Sig.hasDep, Sig.replace, Sig.setLengthRepl, Sig.sliceRepl, Sig.anyAccept])
  · intro st l m hL hl hm
    cases hi : st (.idx 0) with
    | none =>
      have : l = .dyn 6 := by
        simpa [Struct.sem, ViewSem.toSem, View.sem, setLengthSem, sliceSem, vectorSem, guardLen, State.has,
          State.set, State.removeAll, State.mapAt, hi] using hl.symm
      subst this
      cases hm
      decide
    | some i =>
      simp [Struct.sem, ViewSem.toSem, View.sem, setLengthSem, sliceSem, vectorSem, guardLen, State.has,
        State.set, State.removeAll, State.mapAt, hi] at hl
  intro u hu
  cases hu
  refine .inr ⟨⟨.lit 3, 3, rfl, rfl, by omega⟩, .inr (.inl ⟨rfl, rfl, .inl rfl, ?_⟩)⟩
  refine .inr (.inr ⟨⟨?_, 1, 3, rfl, rfl, ?_⟩, hfree _ (by simp [Struct.hard, View.hard]), ?_⟩)
  · intro h
    exact absurd h (by simp [Struct.sem, ViewSem.toSem, View.sem, setLengthSem, sliceSem, vectorSem, scalarSem,
      Sig.hasDep, Sig.replace, Sig.setLengthRepl, Sig.sliceRepl, Sig.anyAccept])
  · intro st hL hi hn
    refine ⟨.dyn 5, 5, ?_, rfl, by decide⟩
    simp [Struct.sem, ViewSem.toSem, View.sem, setLengthSem, vectorSem, guardLen, State.has, State.set, hi]
  intro u hu; cases hu
  refine .inl ⟨rfl, by decide, .inr (.inr ⟨?_, hfree _ (by simp [Struct.hard, View.hard]), ?_⟩)⟩
  · intro l' h; cases h
  intro u hu; cases hu
  refine .inr (.inr ⟨?_, hfree _ (by simp [Struct.hard, View.hard]), ?_⟩)
  · intro l' h; cases h
  intro u hu; cases hu
  refine .inr ⟨rfl, by decide, ?_, ?_⟩
  · refine ⟨24, fun st hst => ⟨.dyn 24, ?_, rfl⟩⟩
    have : st (.len 0) = some (.dyn 6) := hst.lens 0
    simp [Struct.sem, vectorSem, scalarSem, this]
    rfl
  · refine .inl ⟨.inr rfl, ?_, ?_⟩
    · intro q
      simp [State.removeAll, State.mapAt, State.set, blocksClean, c42State, State.at, State.empty]
      grind
    · refine ⟨fun l h => ?_, trivial⟩
      cases h
      exact ⟨6, rfl⟩

/-- 4 elements, each of which has 2 indices in the dimension 1. -/
def c42Repeated : Struct := (Struct.vector 0 (.scalar 4 4)).apply [.setLength 0 (.dyn 4), .bcast 1, .setLength 1 (.lit 2)]

example : c42Repeated.wf .ideal ∧ c42Repeated.tame := by
  refine ⟨⟨by decide, by decide, by decide, by decide, trivial⟩, ?_⟩
  simp [c42Repeated, Struct.apply, Struct.tame, View.tame, Struct.plain, Struct.hard, Struct.soft, Struct.stale,
    View.hard, View.soft, View.stale]

example : c42Repeated.noDup .ideal := by
  simp [c42Repeated, Struct.apply, Struct.noDup, Struct.sem, ViewSem.toSem,
    View.sem, setLengthSem, bcastSem, vectorSem, scalarSem, Sig.uniq, Sig.replace,
    Sig.setLengthRepl, Sig.anyAccept]

example : c42Repeated.isContig .ideal .empty = true := by decide

example : c42Repeated.chain .empty none := by
  have hfree : ∀ (s : Struct), (∀ q, ¬ s.hard q) → s.unmixed .ideal := fun s h q _ => h q
  refine .inr (.inr ⟨?_, hfree _ (by simp [Struct.hard, View.hard]), ?_⟩)
  · intro l' h; cases h
  intro u hu; cases hu
  refine .inr (.inl ⟨1, rfl, by simp, .inr (.inr ⟨?_, hfree _ (by simp [Struct.hard]), ?_⟩)⟩)
  · intro l' h; simp [State.lens, State.removeAll, State.set, State.empty] at h
  intro u hu; cases hu
  refine .inl ⟨.inl rfl, fun q => by simp [State.removeAll, State.set, State.empty], fun l h => ?_, trivial⟩
  simp [State.lens, State.removeAll, State.set, State.empty] at h
  subst h
  exact ⟨4, rfl⟩

/-! ### What is not contiguous although `is_contiguous` holds -/

/-- The element in state `st` contains the byte `b`. -/
def covers (s : Struct) (st : State) (b : Nat) : Bool :=
  match ((s.sem .ideal).off st (.lit 0)).bind Val.nat?, (s.sem .ideal).elem st with
  | some k, some e => k ≤ b && b < k + e
  | _, _ => false

/-- The bytes in elements are those in the elements that are traversed. -/
theorem inElement_covered {s : Struct} (ht : s.tame) (hf : s.firm fun _ => false) (hu : (s.sem .ideal).sig.uniq)
    {sts : List State} (h : (Traverser.mk s []).forEach .ideal [] = some sts) {p : State} (hp : ∀ q, p (.len q) = none)
    {b : Nat} (hb : InElement (s.sem .ideal) p b) :
    ∃ st ∈ sts, (∀ q i, p (.idx q) = some i → st (.idx q) = some i) ∧ covers s st b = true := by
  obtain ⟨u, o, k, e, hu', hg, ho, hk, he, h1, h2⟩ := hb
  have ha : Addresses (s.sem .ideal) u := ⟨hu'.ok, hu'.only, fun q => (hu'.lens q).trans (hp q)⟩
  refine ⟨u, ((C26_visits_exactly_the_valid_states .ideal s ht hf hu sts h).2 u ha.lengthsKnown).2 ha, hg, ?_⟩
  have hk' : o.nat? = some k := hk
  simp [covers, ho, he, hk', h1, h2]

theorem covered_inElement {s : Struct} (ht : s.tame) (hf : s.firm fun _ => false) (hu : (s.sem .ideal).sig.uniq)
    {sts : List State} (h : (Traverser.mk s []).forEach .ideal [] = some sts)
    (hl : ∀ st ∈ sts, LengthsKnown (s.sem .ideal) st) {p : State} (hp : ∀ q, p (.len q) = none) {b : Nat}
    (hb : ∃ st ∈ sts, (∀ q i, p (.idx q) = some i → st (.idx q) = some i) ∧ covers s st b = true) :
    InElement (s.sem .ideal) p b := by
  obtain ⟨st, hm, hg, hc⟩ := hb
  have ha := ((C26_visits_exactly_the_valid_states .ideal s ht hf hu sts h).2 st (hl st hm)).1 hm
  simp only [covers] at hc
  split at hc
  · next k e hk he =>
    obtain ⟨o, ho, hk⟩ := Option.bind_eq_some_iff.1 hk
    simp only [Bool.and_eq_true, decide_eq_true_eq] at hc
    exact ⟨st, o, k, e, ⟨ha.ok, ha.only, fun q => (ha.noLen q).trans (hp q).symm⟩, hg, ho, hk, he, hc.1, hc.2⟩
  · cases hc

/-- Bytes `x` and `z` belong to elements, the byte `y` between them does not. -/
theorem gap {s : Struct} (ht : s.tame) (hf : s.firm fun _ => false) (hu : (s.sem .ideal).sig.uniq)
    {sts : List State} (h : (Traverser.mk s []).forEach .ideal [] = some sts) {p : State} {g : State → Bool}
    {ds : List Dim} (hd : ∀ st q, (s.sem .ideal).sig.needs st q →
      (∀ d n rs, (s.sem .ideal).sig.find q st ≠ .dep d n rs) → q ∈ ds)
    (hl : sts.all (fun st => ds.all fun q => ((s.sem .ideal).len q (st.remove (.idx q))).isSome) = true)
    (hp : ∀ q, p (.len q) = none)
    (hg : ∀ st, g st = true ↔ ∀ q i, p (.idx q) = some i → st (.idx q) = some i) (x y z : Nat)
    (hxy : x ≤ y) (hyz : y ≤ z) (hx : sts.any (fun st => g st && covers s st x) = true)
    (hy : sts.any (fun st => g st && covers s st y) = false)
    (hz : sts.any (fun st => g st && covers s st z) = true) :
    ¬ ∃ lo hi, ∀ b, InElement (s.sem .ideal) p b ↔ lo ≤ b ∧ b < hi := by
  rintro ⟨lo, hi, hr⟩
  simp only [List.all_eq_true] at hl
  have key : ∀ b, InElement (s.sem .ideal) p b ↔ sts.any (fun st => g st && covers s st b) = true := by
    intro b
    simp only [List.any_eq_true, Bool.and_eq_true, hg]
    exact ⟨inElement_covered ht hf hu h hp,
      covered_inElement ht hf hu h (fun st hst q hq hq' => hl st hst q (hd st q hq hq')) hp⟩
  have h1 := (hr x).1 ((key x).2 hx)
  have h3 := (hr z).1 ((key z).2 hz)
  have h2 := (key y).1 ((hr y).2 (by omega))
  rw [hy] at h2; cases h2

/-- 2 rows of 4 elements. -/
def c42Rows : Struct := (Struct.vector 1 (.vector 0 (.scalar 4 4))).apply [.setLength 0 (.dyn 4), .setLength 1 (.dyn 2)]

/-- The columns 1 and 2. -/
theorem C42_sliced_inner_dimension :
    let s : Struct := .view (.slice 0 (.dyn 1) (.dyn 2)) c42Rows
    s.isContig .ideal .empty = true ∧
    ¬ ∃ lo hi, ∀ b, InElement (s.sem .ideal) .empty b ↔ lo ≤ b ∧ b < hi := by
  refine ⟨by decide, ?_⟩
  refine gap (g := fun _ => true) (ds := [0, 1]) ?_ ?_ ?_ rfl ?_ (by decide) (fun _ => rfl) (by simp [State.empty])
    11 12 20 (by omega) (by omega) (by decide) (by decide) (by decide)
  · simp [c42Rows, Struct.apply, Struct.tame, View.tame, Struct.plain, Struct.hard, Struct.soft, Struct.stale,
      View.hard, View.soft, View.stale]
  · simp [c42Rows, Struct.apply, Struct.firm]
  · simp [c42Rows, Struct.apply, Struct.sem, ViewSem.toSem, View.sem, setLengthSem, sliceSem, vectorSem, scalarSem,
      Sig.uniq, Sig.replace, Sig.setLengthRepl, Sig.sliceRepl, Sig.anyAccept]
  · rintro st q (rfl | rfl | h) _
    · simp
    · simp
    · exact absurd h id

/-- The column 1. -/
theorem C42_given_inner_dimension :
    c42Rows.isContig .ideal (State.empty.at 0 1) = true ∧
    ¬ ∃ lo hi, ∀ b, InElement (c42Rows.sem .ideal) (State.empty.at 0 1) b ↔ lo ≤ b ∧ b < hi := by
  refine ⟨by decide, ?_⟩
  refine gap (g := fun st => st (.idx 0) == some (.dyn 1)) (ds := [0, 1]) ?_ ?_ ?_ rfl ?_ (by decide) (fun _ => rfl) ?_
    7 8 20 (by omega) (by omega) (by decide) (by decide) (by decide)
  · simp [c42Rows, Struct.apply, Struct.tame, View.tame, Struct.plain, Struct.hard, Struct.soft, Struct.stale,
      View.hard, View.soft, View.stale]
  · simp [c42Rows, Struct.apply, Struct.firm]
  · simp [c42Rows, Struct.apply, Struct.sem, ViewSem.toSem, View.sem, setLengthSem, vectorSem, scalarSem,
      Sig.uniq, Sig.replace, Sig.setLengthRepl, Sig.anyAccept]
  · rintro st q (rfl | rfl | h) _
    · simp
    · simp
    · exact absurd h id
  · intro st
    simp only [State.at, State.set, State.empty, beq_iff_eq]
    constructor
    · intro h q i
      by_cases hq : q = 0
      · subst hq; simp only [if_true, Option.some.injEq]; rintro rfl; exact h
      · simp [hq]
    · intro h; exact h 0 _ (by simp)

/-- The column 1 again. -/
theorem C42_fixed_inner_dimension :
    let s : Struct := .view (.fix 0 (.dyn 1)) c42Rows
    s.isContig .ideal .empty = true ∧
    ¬ ∃ lo hi, ∀ b, InElement (s.sem .ideal) .empty b ↔ lo ≤ b ∧ b < hi := by
  refine ⟨by decide, ?_⟩
  refine gap (g := fun _ => true) (ds := [1]) ?_ ?_ ?_ rfl ?_ (by decide) (fun _ => rfl) (by simp [State.empty])
    7 8 20 (by omega) (by omega) (by decide) (by decide) (by decide)
  · simp [c42Rows, Struct.apply, Struct.tame, View.tame, Struct.plain, Struct.hard, Struct.soft, Struct.stale,
      View.hard, View.soft, View.stale]
  · simp [c42Rows, Struct.apply, Struct.firm]
  · simp [c42Rows, Struct.apply, Struct.sem, ViewSem.toSem, View.sem, setLengthSem, fixSem, vectorSem, scalarSem,
      Sig.uniq, Sig.replace, Sig.setLengthRepl, Sig.fixRepl, Sig.anyAccept]
  · rintro st q (rfl | h) _
    · simp
    · exact absurd h id

/-- Blocks of 3 columns: the column 3 is left out. -/
theorem C42_incomplete_inner_blocks :
    let s : Struct := c42Rows.apply [.intoBlocks 0 2 3, .setLength 3 (.lit 3)]
    s.isContig .ideal .empty = true ∧
    ¬ ∃ lo hi, ∀ b, InElement (s.sem .ideal) .empty b ↔ lo ≤ b ∧ b < hi := by
  refine ⟨by decide, ?_⟩
  refine gap (g := fun _ => true) (ds := [1, 2, 3]) ?_ ?_ ?_ rfl ?_ (by decide) (fun _ => rfl) (by simp [State.empty])
    11 12 16 (by omega) (by omega) (by decide) (by decide) (by decide)
  · simp [c42Rows, Struct.apply, Struct.tame, View.tame, Struct.plain, Struct.hard, Struct.soft, Struct.stale,
      View.hard, View.soft, View.stale]
  · simp [c42Rows, Struct.apply, Struct.firm, View.pat]
  · simp [c42Rows, Struct.apply, Struct.sem, ViewSem.toSem, View.sem, setLengthSem, intoBlocksSem, vectorSem,
      scalarSem, Sig.uniq, Sig.replace, Sig.setLengthRepl, Sig.intoBlocksRepl, Sig.anyAccept, Sig.retRepl]
  · rintro st q (rfl | rfl | rfl | h) _
    · simp
    · simp
    · simp
    · exact absurd h id

/-- A `char`, an `int` and a `char`, at offsets 0, 1 and 8. -/
theorem C42_gap_in_a_tuple :
    let s : Struct := .tuple 0 3 fun i => if i.val = 1 then .scalar 4 4 else .scalar 1 1
    s.isContig .ideal .empty = true ∧
    ¬ ∃ lo hi, ∀ b, InElement (s.sem .ideal) .empty b ↔ lo ≤ b ∧ b < hi := by
  refine ⟨by decide, ?_⟩
  have : ((Struct.tuple 0 3 fun i => if i.val = 1 then .scalar 4 4 else .scalar 1 1).sem .ideal).sig =
      .dep 0 3 fun i => ((if i.val = 1 then Struct.scalar 4 4 else .scalar 1 1).sem .ideal).sig := by
    simp only [Struct.sem, tupleSem]
    rw [if_neg (by decide)]
  refine gap (g := fun _ => true) (ds := []) ?_ ?_ ?_ rfl ?_ (by decide) (fun _ => rfl) (by simp [State.empty])
    4 5 8 (by omega) (by omega) (by decide) (by decide) (by decide)
  · intro i
    show Struct.tame (if _ then _ else _)
    split <;> trivial
  · simp only [Struct.firm]
    intro i
    split <;> trivial
  · rw [this]
    intro i
    match i with
    | 0 => exact ⟨rfl, trivial⟩
    | 1 => exact ⟨rfl, trivial⟩
    | 2 => exact ⟨rfl, trivial⟩
  · rintro st q (rfl | ⟨k, _, h⟩) h'
    · exact (h' 0 3 (fun i => ((if i.val = 1 then Struct.scalar 4 4 else .scalar 1 1).sem .ideal).sig) (by
        rw [this]; simp [Sig.find])).elim
    · exfalso
      revert h
      match k with
      | 0 => exact id
      | 1 => exact id
      | 2 => exact id

end Noarr
