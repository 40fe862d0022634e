import Verif.ScalarLemmas
import Verif.PlannerLemmas

/-
C55: the type of an element, which is computed from the signature, is the type that the structure has at
the place of the element.
-/

namespace Noarr

/-- **C55.** `scalar_t<Struct, State>` is the type of the element that the state leads to. -/
theorem C55_type_of_the_element (s : Struct) (hw : s.wf .ideal) (hn : s.noDup .ideal) (hs : s.sane .ideal)
    (st : State) (t e : Nat) (ht : s.scalarT .ideal st = some t) (he : (s.sem .ideal).elem st = some e) : t = e :=
  s.at_elem hw hn hs ((Sig.scalarAt_iff hn.uniq).1 ht) he

/-- It exists whenever the state has the needed tuple indices, as constants in range, and the offset of the
element can be queried. So `offset(state)`, and `get_at` as well, do not depend on the way the type is
found. -/
theorem C55_offset (s : Struct) (hw : s.wf .ideal) (hn : s.noDup .ideal) (hs : s.sane .ideal) (st : State)
    (ht : ∀ q d n rs, (s.sem .ideal).sig.needs st q → (s.sem .ideal).sig.find q st = .dep d n rs →
      ∃ k, k < n ∧ st (.idx q) = some (.lit k))
    (o : Val) (ho : (s.sem .ideal).off st (.lit 0) = some o) :
    ∃ e, s.scalarT .ideal st = some e ∧ (s.sem .ideal).elem st = some e ∧ s.offsetT .ideal st = some o := by
  obtain ⟨e, he⟩ := s.elem_of_off .ideal ho
  obtain ⟨L, hL, ha⟩ := Sig.at_end (S := (s.sem .ideal).sig) hw.sig (st := st) (fun q n hq => by
    obtain ⟨rs, hf⟩ := (Sig.find_entry hn.uniq hq).2 n rfl
    exact ht q _ n rs (Sig.needs_iff_entry.2 ⟨_, hq⟩) hf)
  cases hL with
  | void => rw [(s.at_void hw hn hs ha).1] at ho; cases ho
  | scalar t =>
    have h1 : s.scalarT .ideal st = some t := (Sig.scalarAt_iff hn.uniq).2 ha
    have := C55_type_of_the_element s hw hn hs st t e h1 he
    subst this
    exact ⟨t, h1, he, by simp [Struct.offsetT, h1, he, ho]⟩

/-- If the type is known without any index, all the elements are of this type. -/
theorem C55_one_type (s : Struct) (hw : s.wf .ideal) (hn : s.noDup .ideal) (hs : s.sane .ideal) (t : Nat)
    (ht : s.scalarT .ideal .empty = some t) (st : State) (e : Nat) (he : (s.sem .ideal).elem st = some e) :
    e = t := by
  have := (Sig.scalarAt_iff hn.uniq).1 ht
  exact (s.at_elem hw hn hs (Sig.at_any this st) he).symm

/-- `is_cube`: every element is addressed by the same dimensions, none of them needs a constant index, and
all the elements are of the same type. -/
theorem C55_cube (s : Struct) (hw : s.wf .ideal) (hn : s.noDup .ideal) (hs : s.sane .ideal)
    (hc : s.isCube .ideal = true) :
    ∃ t, s.scalarT .ideal .empty = some t ∧
      (∀ st q, (s.sem .ideal).sig.needs st q ↔ (s.sem .ideal).sig.anyAccept q = true) ∧
      (∀ st q d n rs, (s.sem .ideal).sig.find q st ≠ .dep d n rs) ∧
      ∀ st, s.scalarT .ideal st = some t ∧
        (∀ e, (s.sem .ideal).elem st = some e → e = t) ∧
        s.offsetT .ideal st = (s.sem .ideal).off st (.lit 0) := by
  simp only [Struct.isCube, Bool.and_eq_true] at hc
  obtain ⟨hc, hsz⟩ := hc
  obtain ⟨L, hL, ha⟩ := Sig.cube_end hc
  cases hL with
  | void => exact absurd (by simpa using hsz) (s.at_void_hasSize hw hn hs (ha _))
  | scalar t =>
    have h1 : ∀ st, s.scalarT .ideal st = some t := fun st => (Sig.scalarAt_iff hn.uniq).2 (ha st)
    refine ⟨t, h1 _, fun st q => Sig.cube_needs hc, fun st q d n rs => Sig.cube_find hc, fun st => ⟨h1 st, ?_, ?_⟩⟩
    · exact fun e he => C55_one_type s hw hn hs t (h1 _) st e he
    · cases ho : (s.sem .ideal).off st (.lit 0) with
      | none => simp [Struct.offsetT, ho]
      | some o =>
        obtain ⟨e, he⟩ := s.elem_of_off .ideal ho
        have := C55_one_type s hw hn hs t (h1 _) st e he
        subst this
        simp [Struct.offsetT, h1 st, he, ho]

theorem Sig.tree_contains_eq {S : Sig} {q : Dim} : S.tree.contains q = S.anyAccept q := by
  induction S with
  | scalar e => rfl
  | void => rfl
  | ill => rfl
  | fn d l r ih => simp [Sig.tree, DimTree.contains, Sig.anyAccept, ih]
  | dep d n rs ih => simp [Sig.tree, DimTree.contains, Sig.anyAccept, ih]

theorem Sig.accept_needed {S : Sig} (hu : S.uniq) {q : Dim} (h : S.anyAccept q = true) : ∃ st, S.needs st q := by
  induction S with
  | scalar e => cases h
  | void => cases h
  | ill => cases h
  | fn d l r ih =>
    rcases Sig.accept_fn.1 h with rfl | h
    · exact ⟨.empty, .inl rfl⟩
    · obtain ⟨st, hs⟩ := ih hu.2 h
      exact ⟨st, .inr hs⟩
  | dep d n rs ih =>
    rcases Sig.accept_dep.1 h with rfl | ⟨k, h⟩
    · exact ⟨.empty, .inl rfl⟩
    · obtain ⟨st, hs⟩ := ih k (hu k).2 h
      refine ⟨st.set (.idx d) (.lit k), .inr ⟨k, ?_, ?_⟩⟩
      · simp [State.set, Sig.litIdx]
      · refine (Sig.needs_congr fun e he => ?_).1 hs
        have : e ≠ d := by rintro rfl; rw [(hu k).1] at he; cases he
        simp [State.set, this]

/-- `HasDims<T, Dims...>`: each of the dimensions is needed to address some of the elements. -/
theorem C55_has_dims (A : Arith) (s : Struct) (hn : s.noDup A) (ds : List Dim) :
    s.hasDims A ds = true ↔ ∀ q ∈ ds, ∃ st, (s.sem A).sig.needs st q := by
  simp only [Struct.hasDims, List.all_eq_true, Sig.tree_contains_eq]
  exact ⟨fun h q hq => Sig.accept_needed hn.uniq (h q hq), fun h q hq => (h q hq).elim fun _ h => Sig.needs_anyAccept h⟩

/-- `is_point`: exactly the structures without dimensions. -/
theorem C55_point (s : Struct) (hw : s.wf .ideal) :
    s.isPoint .ideal = true ↔ ∀ q, (s.sem .ideal).sig.anyAccept q = false := by
  have hw := hw.sig
  simp only [Struct.isPoint]
  generalize (s.sem .ideal).sig = S at hw ⊢
  cases S with
  | scalar e => simp [Sig.isPoint, Sig.anyAccept]
  | void => simp [Sig.isPoint, Sig.anyAccept]
  | fn d l r =>
    simp only [Sig.isPoint, Bool.false_eq_true, false_iff]
    intro h; have := h d; simp [Sig.anyAccept] at this
  | dep d n rs =>
    simp only [Sig.isPoint, Bool.false_eq_true, false_iff]
    intro h; have := h d; simp [Sig.anyAccept] at this
  | ill => simp [Sig.wf] at hw

/-! ### Examples -/

/-- Records of three fields, of which the last two are taken, in blocks of a vector. -/
def c55Example : Struct :=
  (Struct.vector 0 (.tuple 9 3 fun i => if i = 0 then .scalar 4 4 else if i = 1 then .scalar 8 4 else .scalar 2 4)).apply
    [.setLength 0 (.dyn 6), .slice 9 (.lit 1) (.lit 2), .intoBlocks 0 1 2, .setLength 2 (.dyn 3)]

def c55State : State := ((State.empty.set (.idx 9) (.lit 1)).at 1 1).at 2 2

theorem c55Conditions : c55Example.wf .ideal ∧ c55Example.noDup .ideal ∧ c55Example.sane .ideal := by
  refine ⟨⟨by decide, by decide, by decide, by decide, by decide, by decide, fun i => ?_⟩, ?_, ?_⟩
  · dsimp only; split <;> (try split) <;> trivial
  · refine Struct.noDup_of_noAlias .ideal _ ⟨by decide, by decide, by decide, by decide, by decide, by decide, fun i => ?_⟩ ?_
    · dsimp only; split <;> (try split) <;> trivial
    · refine ⟨⟨⟨⟨fun i => ?_, trivial⟩, trivial⟩, trivial⟩, trivial⟩
      dsimp only; split <;> (try split) <;> trivial
  · refine ⟨⟨⟨⟨⟨fun i => ?_, ?_⟩, trivial⟩, trivial⟩, by decide⟩, trivial⟩
    · dsimp only; split <;> (try split) <;> trivial
    · intro i j q h; dsimp only at h; split at h <;> (try split at h) <;> exact absurd h id

/-- The second of the two fields is the third of the record. -/
example : c55Example.scalarT .ideal c55State = some 2 ∧ (c55Example.sem .ideal).elem c55State = some 2 ∧
    c55Example.offsetT .ideal c55State = (c55Example.sem .ideal).off c55State (.lit 0) ∧
    (c55Example.sem .ideal).off c55State (.lit 0) ≠ none := by decide

example : ∃ e, c55Example.scalarT .ideal c55State = some e ∧ (c55Example.sem .ideal).elem c55State = some e ∧
    c55Example.offsetT .ideal c55State = some (.dyn 82) := by
  obtain ⟨h1, h2, h3⟩ := c55Conditions
  refine C55_offset _ h1 h2 h3 c55State (fun q d n rs hq hf => ?_) _ (by decide)
  by_cases h9 : q = 9
  · subst h9
    obtain ⟨rs', hr⟩ : ∃ rs', (c55Example.sem .ideal).sig.find 9 c55State = .dep 9 2 rs' := ⟨_, rfl⟩
    rw [hr] at hf
    cases hf
    exact ⟨1, by decide, rfl⟩
  · exact absurd (Sig.find_hasDep hf) (fun h => by
      have := Struct.hard_of_hasDep .ideal _ h1 h2 h
      simp [c55Example, Struct.apply, Struct.hard, View.hard] at this
      obtain ⟨-, rfl | ⟨i, hi⟩⟩ := this
      · exact h9 rfl
      · split at hi <;> (try split at hi) <;> exact hi)

/-- A matrix in blocks is a cube; with all indices fixed, it is a point. -/
def c55Cube : Struct :=
  (Struct.vector 0 (.vector 1 (.scalar 4 4))).apply
    [.setLength 0 (.dyn 6), .setLength 1 (.dyn 5), .intoBlocks 0 2 3, .setLength 3 (.dyn 3)]

example : c55Cube.wf .ideal ∧ c55Cube.noDup .ideal ∧ c55Cube.sane .ideal ∧ c55Cube.isCube .ideal = true ∧
    (c55Cube.apply [.fix 1 (.dyn 4), .fix 2 (.dyn 1), .fix 3 (.dyn 0)]).isPoint .ideal = true := by
  have hw : c55Cube.wf .ideal :=
    ⟨by decide, by decide, by decide, by decide, by decide, by decide, trivial⟩
  exact ⟨hw, Struct.noDup_of_noAlias .ideal _ hw (by simp [c55Cube, Struct.apply, Struct.noAlias]),
    by simp [c55Cube, Struct.apply, Struct.sane], by decide, by decide⟩

/-- `HasDims` after `into_blocks`: the blocks, and not the dimension they are made from. -/
example : c55Cube.hasDims .ideal [1, 2, 3] = true ∧ c55Cube.hasDims .ideal [1, 0] = false := by decide

end Noarr
