import Verif.Flat

/-
The signature and the lengths of a union of structures (C31).
-/

set_option linter.unusedVariables false
set_option linter.unusedSimpArgs false

namespace Noarr

namespace Sig

theorem needs_union2 {S1 S2 : Sig} {st : State} {q : Dim} (h2 : S2.flat) :
    (union2 S1 S2).needs st q ↔ S1.needs st q ∨ (S1.anyAccept q = false ∧ S2.anyAccept q = true) := by
  induction S2 with
  | scalar s => simp [union2, anyAccept]
  | void => exact absurd h2 id
  | ill => exact absurd h2 id
  | dep => exact absurd h2 id
  | fn d l r ih =>
    have ih := ih h2
    simp only [union2]
    split
    · next hd =>
      rw [ih]
      simp only [anyAccept, Bool.or_eq_true, beq_iff_eq]
      grind
    · next hd =>
      simp only [needs, ih, anyAccept, Bool.or_eq_true, beq_iff_eq]
      grind

theorem accept_union2 {S1 S2 : Sig} {q : Dim} (h2 : S2.flat) :
    (union2 S1 S2).anyAccept q = true ↔ S1.anyAccept q = true ∨ S2.anyAccept q = true := by
  induction S2 with
  | scalar s => simp [union2, anyAccept]
  | void => exact absurd h2 id
  | ill => exact absurd h2 id
  | dep => exact absurd h2 id
  | fn d l r ih =>
    have ih := ih h2
    simp only [union2]
    split
    · next hd =>
      rw [ih]
      simp only [anyAccept, Bool.or_eq_true, beq_iff_eq]
      grind
    · next hd =>
      simp only [anyAccept, Bool.or_eq_true, beq_iff_eq, ih]
      grind

theorem flat_union2 {S1 S2 : Sig} (h1 : S1.flat) (h2 : S2.flat) : (union2 S1 S2).flat := by
  induction S2 with
  | scalar s => exact h1
  | void => exact absurd h2 id
  | ill => exact absurd h2 id
  | dep => exact absurd h2 id
  | fn d l r ih =>
    simp only [union2]
    split
    · exact ih h2
    · exact ih h2

theorem accept_unionAll {S : Sig} {l : List Sig} {q : Dim} (h : ∀ T ∈ l, T.flat) :
    (unionAll (S :: l)).anyAccept q = true ↔ ∃ T ∈ S :: l, T.anyAccept q = true := by
  simp only [unionAll]
  induction l generalizing S with
  | nil => simp
  | cons T l ih =>
    rw [List.foldl_cons, ih fun U hU => h U (by simp [hU])]
    simp only [List.mem_cons, exists_eq_or_imp, accept_union2 (h T (by simp)), or_assoc]

theorem needs_unionAll {S : Sig} {l : List Sig} {st : State} {q : Dim} (h : ∀ T ∈ l, T.flat) :
    (unionAll (S :: l)).needs st q ↔ S.needs st q ∨
      (S.anyAccept q = false ∧ ∃ T ∈ l, T.anyAccept q = true) := by
  simp only [unionAll]
  induction l generalizing S with
  | nil => simp
  | cons T l ih =>
    rw [List.foldl_cons, ih fun U hU => h U (by simp [hU])]
    have ha := accept_union2 (S1 := S) (q := q) (h T (by simp))
    simp only [List.mem_cons, exists_eq_or_imp, needs_union2 (h T (by simp))]
    have : (S.union2 T).anyAccept q = false ↔ S.anyAccept q = false ∧ T.anyAccept q = false := by
      rw [← Bool.not_eq_true, ha, not_or, Bool.not_eq_true, Bool.not_eq_true]
    rw [this]
    cases S.anyAccept q <;> cases T.anyAccept q <;> simp

theorem flat_unionAll {S : Sig} {l : List Sig} (hS : S.flat) (h : ∀ T ∈ l, T.flat) :
    (unionAll (S :: l)).flat := by
  simp only [unionAll]
  induction l generalizing S with
  | nil => exact hS
  | cons T l ih =>
    exact ih (flat_union2 hS (h T (by simp))) fun U hU => h U (by simp [hU])

end Sig

theorem firstMatch_eq {n : Nat} {fs : Fin n → Sem} {q : Dim} {i : Fin n}
    (hi : (fs i).sig.anyAccept q = true) (hlt : ∀ j, j < i → (fs j).sig.anyAccept q = false) :
    firstMatch fs q = some i := by
  unfold firstMatch
  rw [List.find?_eq_some_iff_getElem]
  refine ⟨hi, i, by simp, by simp, fun j hj => ?_⟩
  simpa using hlt ⟨j, by omega⟩ (by simpa [Fin.lt_def] using hj)

theorem exists_first {n : Nat} (P : Fin n → Bool) (h : ∃ i, P i = true) :
    ∃ i, P i = true ∧ ∀ j, j < i → P j = false := by
  cases he : (List.finRange n).find? P with
  | none =>
    obtain ⟨i, hi⟩ := h
    have := List.find?_eq_none.1 he i (List.mem_finRange i)
    exact absurd hi this
  | some i =>
    obtain ⟨h1, k, hk, rfl, h2⟩ := List.find?_eq_some_iff_getElem.1 he
    refine ⟨_, h1, fun j hj => ?_⟩
    have := h2 j (by simpa [Fin.lt_def] using hj)
    simpa using this

/-- The length of the union is that of the first structure with the dimension. -/
theorem union_len {A : Arith} {n : Nat} (ss : Fin n → Struct) {q : Dim} {i : Fin n}
    (hi : ((ss i).sem A).sig.anyAccept q = true)
    (hlt : ∀ j, j < i → ((ss j).sem A).sig.anyAccept q = false) (st : State) :
    ((Struct.union n ss).sem A).len q st = ((ss i).sem A).len q st := by
  have := firstMatch_eq (fs := fun i => (ss i).sem A) hi hlt
  simp only [Struct.sem, unionSem, this]
  exact guard_len A (ss i) q st

end Noarr
