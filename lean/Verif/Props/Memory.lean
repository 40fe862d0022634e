import Verif.MemVisited
import Verif.Props.Alias

/-
C36: writing an element changes only that element.

The conditions are `Struct.Sound` and `Accessible` (in `MemLemmas`): those of C05 and C06.
-/

namespace Noarr

/-- C36: in a blob that is large enough, an element in range can be read, and a value of its type
written. The value is then read back, and the values at all other indices are as before. (A state
is at another index if an index which one of the two needs is a different number.) -/
theorem C36_write_changes_only_that_element (s : Struct) (hs : s.Sound) (size : Val) (N : Nat)
    (hsz : (s.sem .ideal).size .empty = some size) (hN : size.Num N) (m : Mem) (hm : N ≤ m.length)
    (st : State) (ha : Accessible s st) :
    ∃ e, (s.sem .ideal).elem st = some e ∧ (∃ x, s.getAt .ideal m st = .ok x ∧ x.length = e) ∧
      ∀ b : List UInt8, b.length = e → ∃ m', s.setAt .ideal m st b = .ok m' ∧ m'.length = m.length ∧
        s.getAt .ideal m' st = .ok b ∧
        ∀ st', Accessible s st' → Agree s st st' →
          ∀ q, (s.sem .ideal).sig.needs st q ∨ (s.sem .ideal).sig.needs st' q →
            ¬ SameNum (st (.idx q)) (st' (.idx q)) → s.getAt .ideal m' st' = s.getAt .ideal m st' := by
  obtain ⟨k, e, h1, h2, h3⟩ := ha.place hs hsz hN
  have hke : k + e ≤ m.length := by omega
  refine ⟨e, h2, ⟨_, getAt_of_place h1 hke, bytes_length hke⟩, fun b hb => ?_⟩
  refine ⟨_, setAt_of_place h1 hke hb, patch_length hke hb, ?_, ?_⟩
  · rw [getAt_of_place h1 (by rw [patch_length hke hb]; exact hke), bytes_patch_same hke hb]
  · intro st' ha' hag q hq hne
    obtain ⟨k', e', h1', h2', h3'⟩ := ha'.place hs hsz hN
    rw [getAt_of_place h1' (by rw [patch_length hke hb]; omega), getAt_of_place h1' (by omega),
      bytes_patch_other hke hb (Accessible.disjoint hs ha ha' hag hsz hN h1 h1' hq hne)]

/-- C36: a new bag is large enough. All the elements can be read, and their bytes are zero. -/
theorem C36_new_bag (s : Struct) (hs : s.Sound) (b : Bag) (hb : makeBag .ideal s = .ok b) (st : State)
    (ha : Accessible s st) :
    ∃ e size, (s.sem .ideal).elem st = some e ∧ b.get .ideal st = .ok (List.replicate e 0) ∧
      (s.sem .ideal).size .empty = some size ∧ size.Num b.data.length := by
  unfold makeBag at hb
  split at hb
  · next v hv =>
    split at hb
    · next n hn =>
      cases hb
      obtain ⟨k, e, h1, h2, h3⟩ := ha.place hs hv hn
      refine ⟨e, v, h2, ?_, hv, by rw [List.length_replicate]; exact hn⟩
      have : k + e ≤ (List.replicate n (0 : UInt8)).length := by simpa using h3
      simp only [Bag.get, getAt_of_place h1 this, bytes, List.drop_replicate, List.take_replicate]
      rw [Nat.min_eq_left (by omega)]
    · cases hb
  · cases hb

/-- C36: views of a bag share its data. What is read or written at a state of the view is what the
original structure has at the state that the view translates it to. -/
theorem C36_views_of_a_bag (A : Arith) (b : Bag) (vs : List View) (st u : State)
    (hu : stateAt A b.structure_ vs st = some u) (ho : OrderOk A b.structure_ vs st) :
    (b.apply vs).get A st = b.get A u ∧
    ∀ x, (b.apply vs).set A st x = (b.set A u x).map fun b' => b'.apply vs := by
  have key : ∀ (vs : List View) (s : Struct) (u : State), stateAt A s vs st = some u → OrderOk A s vs st →
      (s.apply vs).place A st = s.place A u := by
    intro vs
    induction vs with
    | nil => intro s u hu _; cases hu; rfl
    | cons v vs ih =>
      intro s u hu ho
      simp only [stateAt, bind, Option.bind_eq_some_iff] at hu
      obtain ⟨w, hw, hu⟩ := hu
      rw [Struct.apply, ih _ w hw ho.1]
      have h2 := ho.2 w hw
      simp only [Struct.place, Struct.sem, ViewSem.toSem, h2, hu, if_true, Option.bind_some]
  have hp := key vs b.structure_ u hu ho
  constructor
  · simp only [Bag.get, Bag.apply, Struct.getAt, hp]; rfl
  · intro x
    simp only [Bag.set, Bag.apply, Struct.setAt, hp]
    cases hq : b.structure_.place A u with
    | error e => rfl
    | ok ke =>
      obtain ⟨k, e⟩ := ke
      simp only [Except.bind_ok]
      by_cases h1 : x.length = e
      · by_cases h2 : k + e ≤ b.data.length
        · simp only [h1, ne_eq, not_true, if_false, h2, if_true]; rfl
        · simp only [h1, ne_eq, not_true, if_false, h2]; rfl
      · simp only [h1, ne_eq, not_false_eq_true, if_true]; rfl

/-- C36: the elements that `for_each` visits are all accessible, and any two of them are at different
indices: so writing to one of them leaves the others unchanged. -/
theorem C36_visited_elements_are_separate (s : Struct) (hs : s.Sound) (sts : List State) (h : Traversed s sts)
    (size : Val) (N : Nat) (hsz : (s.sem .ideal).size .empty = some size) (hN : size.Num N) (m : Mem)
    (hm : N ≤ m.length) (i j : Nat) (hi : i < sts.length) (hj : j < sts.length) (hne : i ≠ j)
    (b : List UInt8) (hb : (s.sem .ideal).elem sts[i] = some b.length) :
    ∃ m', s.setAt .ideal m sts[i] b = .ok m' ∧ s.getAt .ideal m' sts[i] = .ok b ∧
      s.getAt .ideal m' sts[j] = s.getAt .ideal m sts[j] := by
  obtain ⟨pl, h1, h2⟩ := h.places hs hsz hN
  obtain ⟨a1, a2, a3⟩ := h1 _ (List.getElem_mem hi)
  obtain ⟨b1, -, b3⟩ := h1 _ (List.getElem_mem hj)
  have hlen : b.length = (pl sts[i]).2 := Option.some.inj (hb.symm.trans a2)
  refine ⟨_, setAt_of_place a1 (by omega) hlen, ?_, ?_⟩
  · rw [getAt_of_place a1 (by rw [patch_length (by omega) hlen]; omega), bytes_patch_same (by omega) hlen]
  · rw [getAt_of_place b1 (by rw [patch_length (by omega) hlen]; omega), getAt_of_place b1 (by omega),
      bytes_patch_other (by omega) hlen]
    rw [List.pairwise_iff_getElem] at h2
    rcases Nat.lt_or_gt_of_ne hne with h | h
    · exact h2 i j hi hj h
    · exact (h2 j i hj hi h).symm

/-! ### Examples

The structure and two of the states of C05 and C06: a matrix of pairs, cut to a window, reversed,
blocked, with the blocks merged. -/

theorem c36Sound : c05Example.Sound := by
  refine ⟨?_, ?_, ?_, ?_, ?_⟩
  · refine ⟨?_, ?_, ?_, ?_, ?_, ?_, ?_, ?_, ?_, ?_, fun _ => trivial⟩ <;> decide
  · simp [c05Example, Struct.apply, Struct.noAlias]
  · simp [c05Example, Struct.apply, Struct.tame, View.tame, Struct.plain, Struct.hard, View.hard,
      Struct.soft, View.soft, Struct.stale, View.stale]
  · simp [c05Example, Struct.apply, Struct.sane, Struct.hard, View.hard, Struct.drive, View.drive]
  · simp [c05Example, Struct.apply, Struct.exact, View.exact, Struct.hard, View.hard]

theorem c36Accessible : Accessible c05Example c05State ∧ Accessible c05Example c06State := by
  have hV : Valid .ideal c05Example c05State :=
    .of_list [3, 5, 9] (by intro q hq; simp at hq; simp [c05State, State.at, State.set, State.empty, hq])
      (by decide)
  have hV' : Valid .ideal c05Example c06State :=
    .of_list [3, 5, 9] (by intro q hq; simp at hq; simp [c06State, State.at, State.set, State.empty, hq])
      (by decide)
  constructor
  · refine ⟨fun q i n _ => hV q i n, ?_, c06Rigid _ (by decide), ?_, fun d => rfl, by decide, by decide⟩
    · refine .below ?_ (.below trivial (.below ?_ (.below ?_ (.below ?_ (.below trivial
        (.below trivial fun _ => trivial))))))
      · exact fun i hi => ⟨⟨_, show _ = some (.dyn 12) by decide⟩, forall_eq_none (by decide)⟩
      · exact fun ml nl h => absurd h (forall_eq_none (P := fun _ => False) (by decide) ml)
      · intro _; decide
      · refine forall_eq_some (x := .dyn 7) (by decide) ?_
        exact ⟨7, 7, rfl, rfl, by decide⟩
    · intro q hq
      simp only [c05Example, Struct.apply, Struct.hard, View.hard, exists_const, or_false] at hq
      have hq : q = 9 := by grind
      subst hq
      exact forall_eq_some (x := .lit 1) (by decide) ⟨1, rfl⟩
  · refine ⟨fun q i n _ => hV' q i n, ?_, c06Rigid _ (by decide), ?_, fun d => rfl, by decide, by decide⟩
    · refine .below ?_ (.below trivial (.below ?_ (.below ?_ (.below ?_ (.below trivial
        (.below trivial fun _ => trivial))))))
      · exact fun i hi => ⟨⟨_, show _ = some (.dyn 12) by decide⟩, forall_eq_none (by decide)⟩
      · exact fun ml nl h => absurd h (forall_eq_none (P := fun _ => False) (by decide) ml)
      · intro _; decide
      · refine forall_eq_some (x := .dyn 7) (by decide) ?_
        exact ⟨7, 7, rfl, rfl, by decide⟩
    · intro q hq
      simp only [c05Example, Struct.apply, Struct.hard, View.hard, exists_const, or_false] at hq
      have hq : q = 9 := by grind
      subst hq
      exact forall_eq_some (x := .lit 1) (by decide) ⟨1, rfl⟩

example : ∃ b, makeBag .ideal c05Example = .ok b ∧ b.data.length = 224 := ⟨_, rfl, List.length_replicate ..⟩

/-- A vector of pairs, its traversal and its elements. -/
def c36Pairs : Struct :=
  .view (.setLength 0 (.dyn 3)) (.vector 0 (.tuple 9 2 fun i => if i = 0 then .scalar 4 4 else .scalar 8 4))

theorem c36PairsSound : c36Pairs.Sound := by
  refine ⟨⟨by decide, by decide, by decide, fun i => ?_⟩, ⟨fun i => ?_, trivial⟩, ⟨fun i => ?_, trivial⟩,
    ⟨⟨fun i => ?_, ?_⟩, trivial⟩, ⟨fun i => ?_, trivial⟩⟩
  · dsimp only; split <;> trivial
  · dsimp only; split <;> trivial
  · dsimp only; split <;> trivial
  · dsimp only; split <;> trivial
  · intro i j q h; dsimp only at h; split at h <;> exact absurd h id
  · dsimp only; split <;> trivial

theorem c36PairsTraversed : ∃ sts, sts.length = 6 ∧ Traversed c36Pairs sts := by
  refine ⟨_, ?_, ?_, ?_, rfl, ?_, ?_, ?_⟩
  · decide
  · intro i; dsimp only; split <;> trivial
  · rintro q (rfl | ⟨i, h⟩) hq
    · exact hq.1 rfl
    · match i, h with
      | 0, h => exact h
      | 1, h => exact h
  · intro st _ u _
    refine ⟨trivial, fun i => ?_⟩
    dsimp only; split <;> trivial
  · decide
  · decide

end Noarr
