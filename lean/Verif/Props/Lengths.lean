import Verif.LenDefined
import Verif.SizeDet

/-
C46, C47: when a length is available, and what it depends on.
-/

namespace Noarr

/-! ### C47 -/

/-- The index in `e` may influence the length in `q`: `e` is the dimension of a tuple or a
`DimIsBorder`, or `q` is a `DimIsPresent` and `e` one of the block dimensions it depends on. -/
def Controls (s : Struct) (q e : Dim) : Prop := s.hard e ∨ (s.soft q ∧ s.drive e)

/-- C47: changing the value of an index that does not control a dimension does not change its
length, nor whether it has one. Holds for the wrapping arithmetic as well. -/
theorem C47_lengths_depend_on_controls (A : Arith) (s : Struct) (hs : s.tame) (q : Dim)
    (st st' : State) (hlens : ∀ d, st (.len d) = st' (.len d))
    (hpres : ∀ e, st (.idx e) = none ↔ st' (.idx e) = none)
    (hctl : ∀ e, Controls s q e → st (.idx e) = st' (.idx e)) :
    (s.sem A).hasLen q st = (s.sem A).hasLen q st' ∧ (s.sem A).len q st = (s.sem A).len q st' := by
  have r1 : Rel s q st st' := ⟨hlens, fun e => (hpres e).1, (hpres q).2, fun e he => hctl e (.inl he),
    fun h e he => hctl e (.inr ⟨h, he⟩), fun _ e => (hpres e).2⟩
  have r2 : Rel s q st' st := ⟨fun d => (hlens d).symm, fun e => (hpres e).2, (hpres q).1,
    fun e he => (hctl e (.inl he)).symm, fun h e he => (hctl e (.inr ⟨h, he⟩)).symm,
    fun _ e => (hpres e).1⟩
  have h1 := s.length_dep A hs q _ _ r1
  have h2 := s.length_dep A hs q _ _ r2
  refine ⟨?_, ?_⟩
  · cases h : (s.sem A).hasLen q st with
    | some x => exact (h1.1 x h).symm
    | none =>
      cases h' : (s.sem A).hasLen q st' with
      | none => rfl
      | some y => rw [h2.1 y h'] at h; exact absurd h (by simp)
  · cases h : (s.sem A).len q st with
    | some x => exact (h1.2 x h).symm
    | none =>
      cases h' : (s.sem A).len q st' with
      | none => rfl
      | some y => rw [h2.2 y h'] at h; exact absurd h (by simp)

/-- C47: leaving out an index that does not control a dimension keeps its length, if there was one
(`q` must not be a name that a view has replaced, see `Struct.stale`). -/
theorem C47_leaving_out_indices (A : Arith) (s : Struct) (hs : s.tame) (q : Dim)
    (hq : ¬ s.stale q) (st st' : State) (hlens : ∀ d, st (.len d) = st' (.len d))
    (hless : ∀ e, st' (.idx e) = none ∨ st' (.idx e) = st (.idx e))
    (hctl : ∀ e, Controls s q e → st (.idx e) = st' (.idx e))
    (hown : st (.idx q) = st' (.idx q)) (n : Val)
    (hn : (s.sem A).len q st = some n) : (s.sem A).len q st' = some n := by
  refine (s.length_dep A hs q st st' ⟨hlens, fun e he => ?_, fun h => by rw [hown, h],
    fun e he => hctl e (.inl he), fun h e he => hctl e (.inr ⟨h, he⟩), fun h => absurd h hq⟩).2 n hn
  rcases hless e with h | h
  · exact h
  · rw [h, he]

/-- A structure without tuples, `into_blocks_static` and `into_blocks_dynamic`. -/
def Struct.uniform : Struct → Prop
  | .scalar _ _ => True
  | .tuple _ _ _ => False
  | .vector _ s => s.uniform
  | .union _ ss => ∀ i, (ss i).uniform
  | .view (.intoBlocksStat _ _ _ _ _) _ => False
  | .view (.intoBlocksDyn _ _ _ _) _ => False
  | .view _ s => s.uniform

theorem Struct.uniform.no_controls {s : Struct} (h : s.uniform) :
    (∀ q, ¬ s.hard q) ∧ ∀ q, ¬ s.soft q := by
  induction s with
  | scalar s a => exact ⟨fun _ => id, fun _ => id⟩
  | tuple t n fs => exact absurd h id
  | vector d s ih => exact ⟨fun q hq => (ih h).1 q hq.2, fun q hq => (ih h).2 q hq.2⟩
  | union n ss ih =>
    exact ⟨fun q ⟨i, hq⟩ => (ih i (h i)).1 q hq, fun q ⟨i, hq⟩ => (ih i (h i)).2 q hq⟩
  | view v s ih =>
    cases v with
    | bcast d | fix d i => exact ⟨fun q hq => (ih h).1 q hq.2, fun q hq => (ih h).2 q hq.2⟩
    | rename ps =>
      refine ⟨?_, ?_⟩
      · rintro q ⟨n, hn, -⟩; exact (ih h).1 n hn
      · rintro q (⟨n, hn, -⟩ | ⟨-, -, hn⟩)
        · exact (ih h).2 n hn
        · exact (ih h).2 q hn
    | intoBlocksStat | intoBlocksDyn => exact absurd h id
    | _ => exact ih h

theorem Struct.uniform.rigid {A : Arith} {s : Struct} (h : s.uniform) (ht : s.tame) (st : State) :
    s.rigid A st := by
  induction s generalizing st with
  | scalar s a => trivial
  | tuple t n fs => exact absurd h id
  | vector d s ih => exact ih h ht _
  | union n ss ih => exact fun i => ih i (h i) (ht i) _
  | view v s ih =>
    cases v with
    | mergeBlocks maj min d =>
      exact ⟨Or.inr ⟨(Struct.uniform.no_controls (s := s) h).1, ht.1, ht.2.1, ht.2.2⟩,
        fun u _ => ih h ht.1 u⟩
    | intoBlocksStat | intoBlocksDyn => exact absurd h id
    | _ => exact ⟨trivial, fun u _ => ih h ht.1 u⟩

/-- C47: in a structure without tuples and border or presence dimensions, no index value influences
any length. -/
theorem C47_uniform_lengths (A : Arith) (s : Struct) (hs : s.tame) (hu : s.uniform) (q : Dim)
    (st st' : State) (hlens : ∀ d, st (.len d) = st' (.len d))
    (hpres : ∀ e, st (.idx e) = none ↔ st' (.idx e) = none) :
    (s.sem A).hasLen q st = (s.sem A).hasLen q st' ∧ (s.sem A).len q st = (s.sem A).len q st' :=
  C47_lengths_depend_on_controls A s hs q st st' hlens hpres fun e he =>
    he.elim (fun h => absurd h (hu.no_controls.1 e)) fun h => absurd h.1 (hu.no_controls.2 q)

/-- C47: the size of such a structure depends on no index at all. -/
theorem C47_uniform_size (A : Arith) (s : Struct) (hs : s.tame) (hu : s.uniform)
    (st st' : State) (hlens : ∀ d, st (.len d) = st' (.len d)) (n m : Val)
    (hn : (s.sem A).size st = some n) (hm : (s.sem A).size st' = some m) : n = m :=
  s.size_det A (hu.rigid hs st) hlens hn hm

/-- A blocked and renamed matrix over a pair: the hypotheses of C47 hold, and the length in `0` is
available while the tuple dimension `9` is not among the indices. -/
def c47Example : Struct :=
  Struct.apply (.vector 0 (.vector 1 (.tuple 9 2 (fun _ => .scalar 4 4))))
    [.setLength 0 (.dyn 6), .setLength 1 (.dyn 4), .intoBlocks 1 2 3, .setLength 3 (.lit 2),
     .rename [(0, 5)], .reverse 5]

example : c47Example.tame := by
  simp [c47Example, Struct.apply, Struct.tame, View.tame, Struct.plain, Struct.hard, View.hard,
    Struct.soft, View.soft, Struct.stale, View.stale, renamed]

example : Controls c47Example 5 9 ∧ ¬ Controls c47Example 5 2 := by
  simp [Controls, c47Example, Struct.apply, Struct.hard, View.hard,
    Struct.soft, View.soft, renamed, Sig.renameDim]
  exact ⟨⟨9, by decide⟩, by intro x _ _ h; subst h; decide⟩

example : (c47Example.sem (.machine (2 ^ 64))).len 5 (State.empty.at 2 1) = some (.dyn 6) := by
  decide

/-- The exception in C47 is real: the length of a field depends on the index of the tuple. -/
theorem C47_tuple_controls :
    let s := Struct.tuple 9 2 fun i => .view (.setLength 0 (.lit (i + 2))) (.vector 0 (.scalar 4 4))
    (s.sem .ideal).len 0 (State.empty.set (.idx 9) (.lit 0)) = some (.lit 2) ∧
    (s.sem .ideal).len 0 (State.empty.set (.idx 9) (.lit 1)) = some (.lit 3) := by decide

/-! ### C46 -/

/-- C46, one direction: an available length is announced by `has_length`, for every structure. -/
theorem C46_length_implies_has_length (A : Arith) (s : Struct) (q : Dim) (st : State) (n : Val)
    (h : (s.sem A).len q st = some n) : (s.sem A).hasLen q st = some true :=
  Struct.hasLen_of_len h

/-- C46 for all structures without `reverse` (and without `step` over a tuple dimension): `length`
is available exactly when `has_length` holds. Missing from the full claim: structures with
`reverse`, for which the claim is false (`C46_reversed_tuple_violates`); `C46_reverse_partial`
gives what holds for them. -/
theorem C46_has_length_iff_length_partial (A : Arith) (s : Struct) (ht : s.tame) (hs : s.lenOk)
    (q : Dim) (st : State) :
    (s.sem A).hasLen q st = some true ↔ ∃ n, (s.sem A).len q st = some n :=
  ⟨s.len_defined A ht hs q st, fun ⟨n, h⟩ => C46_length_implies_has_length A s q st n h⟩

/-- C46 for a reversed dimension that is not a tuple dimension: the claim holds if no index is given
in that dimension, or the dimension has a length. -/
theorem C46_reverse_partial (A : Arith) (s : Struct) (ht : s.tame) (hs : s.lenOk) (d : Dim)
    (hd : ¬ s.hard d ∧ ¬ s.drive d) (q : Dim) (st : State)
    (hst : st (.idx d) = none ∨ (s.sem A).hasLen d (st.remove (.idx d)) = some true) :
    ((Struct.view (.reverse d) s).sem A).hasLen q st = some true ↔
      ∃ n, ((Struct.view (.reverse d) s).sem A).len q st = some n := by
  refine ⟨fun h => ?_, fun ⟨n, h⟩ => C46_length_implies_has_length A _ q st n h⟩
  refine guardLen_some h ?_
  simp only [Struct.sem, View.sem, ViewSem.toSem, reverseSem] at h
  cases hi : st (.idx d) with
  | none => simp only [hi, Option.bind_some] at h; exact s.len_defined A ht hs q st h
  | some i =>
    have hl := hst.resolve_left (by simp [hi])
    simp only [hi, hl, bind, Option.bind_eq_some_iff, Option.some.injEq] at h
    obtain ⟨u, ⟨l, -, rfl⟩, h⟩ := h
    refine s.len_defined A ht hs q st ((s.length_dep A ht q _ st ?_).1 _ h)
    obtain ⟨h1, h2⟩ := hd
    constructor <;> intros <;> simp only [State.set, State.remove] at * <;> grind

/-- C46 is false in general: in a reversed tuple, `has_length` asks the field that the reversed
index selects, and `length` asks the one the index itself selects. Here field 0 of the reversed
tuple is a vector, so `has_length` holds for it at index 0; but `length` does not compile. -/
theorem C46_reversed_tuple_violates :
    let s := Struct.view (.reverse 9) (.tuple 9 2 fun i =>
      if i = 0 then .scalar 4 4 else .view (.setLength 0 (.lit 3)) (.vector 0 (.scalar 4 4)))
    (s.sem .ideal).hasLen 0 (State.empty.set (.idx 9) (.lit 0)) = some true ∧
    (s.sem .ideal).len 0 (State.empty.set (.idx 9) (.lit 0)) = none := by decide

/-- the hypotheses are met by a structure with blocks and a tuple -/
example : (Struct.apply (.vector 0 (.vector 1 (.tuple 9 2 (fun _ => .scalar 4 4))))
    [.setLength 0 (.dyn 6), .step 0 (.lit 1) (.lit 2), .intoBlocksDyn 1 2 3 4,
     .mergeBlocks 0 2 0]).lenOk := by
  simp [Struct.apply, Struct.lenOk, Struct.hard, View.hard, Struct.soft, View.soft]

end Noarr
