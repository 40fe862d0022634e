import Verif.Lemmas

/-
The dimensions a signature needs indices for, and signatures without repeated dimensions.
Used for C06 and the traversals.
-/

set_option linter.unusedVariables false
set_option linter.unusedSimpArgs false

namespace Noarr

namespace Sig

/-- The dimensions on the path through the signature that the tuple indices in `st` select: the
indices that are needed to address one element. -/
def needs (st : State) (q : Dim) : Sig → Prop
  | scalar _ => False
  | void => False
  | fn d _ r => q = d ∨ r.needs st q
  | dep d n rs => q = d ∨ ∃ k, litIdx n (st (.idx d)) = some k ∧ (rs k).needs st q
  | ill => False

instance needsDec (st : State) (q : Dim) : (S : Sig) → Decidable (S.needs st q)
  | scalar _ => .isFalse id
  | void => .isFalse id
  | fn d _ r =>
    have := needsDec st q r
    inferInstanceAs (Decidable (q = d ∨ r.needs st q))
  | dep d n rs =>
    have := fun k => needsDec st q (rs k)
    inferInstanceAs (Decidable (q = d ∨ ∃ k, litIdx n (st (.idx d)) = some k ∧ (rs k).needs st q))
  | ill => .isFalse id

/-- No dimension occurs twice on a path. -/
def uniq : Sig → Prop
  | scalar _ => True
  | void => True
  | fn d _ r => r.anyAccept d = false ∧ r.uniq
  | dep d _ rs => ∀ i, (rs i).anyAccept d = false ∧ (rs i).uniq
  | ill => True

/-- `N` is a node on the path selected by `st`. -/
inductive At (st : State) : Sig → Sig → Prop
  | refl (N : Sig) : At st N N
  | fn {d l r N} : At st r N → At st (.fn d l r) N
  | dep {d n rs k N} : litIdx n (st (.idx d)) = some k → At st (rs k) N → At st (.dep d n rs) N

theorem litIdx_eq_some {n : Nat} {o : Option Val} {k : Fin n} (h : litIdx n o = some k) :
    o = some (.lit k) := by
  cases o with
  | none => simp [litIdx] at h
  | some v =>
    cases v with
    | lit m =>
      simp only [litIdx] at h
      split at h
      · cases h; rfl
      · simp at h
    | dyn m => simp [litIdx] at h
    | bad f => simp [litIdx] at h

theorem litIdx_lit {n k : Nat} (h : k < n) : litIdx n (some (.lit k)) = some ⟨k, h⟩ := by
  simp [litIdx, h]

theorem needs_anyAccept {S : Sig} {st : State} {q : Dim} (h : S.needs st q) : S.anyAccept q = true := by
  induction S with
  | scalar s => exact absurd h id
  | void => exact absurd h id
  | ill => exact absurd h id
  | fn d l r ih =>
    simp only [anyAccept, Bool.or_eq_true, beq_iff_eq]
    rcases h with rfl | h
    · exact .inl rfl
    · exact .inr (ih h)
  | dep d n rs ih =>
    simp only [anyAccept, Bool.or_eq_true, beq_iff_eq, decide_eq_true_eq]
    rcases h with rfl | ⟨k, -, h⟩
    · exact .inl rfl
    · exact .inr ⟨k, ih k h⟩

theorem needs_congr {S : Sig} {st st' : State} {q : Dim}
    (h : ∀ e, S.anyAccept e = true → st (.idx e) = st' (.idx e)) : S.needs st q ↔ S.needs st' q := by
  induction S with
  | scalar s => exact Iff.rfl
  | void => exact Iff.rfl
  | ill => exact Iff.rfl
  | fn d l r ih =>
    simp only [needs]
    rw [ih (fun e he => h e (by simp [anyAccept, he]))]
  | dep d n rs ih =>
    simp only [needs]
    rw [h d (by simp [anyAccept])]
    have : ∀ k, (rs k).needs st q ↔ (rs k).needs st' q := fun k =>
      ih k (fun e he => h e (by simp only [anyAccept, Bool.or_eq_true, decide_eq_true_eq]; exact .inr ⟨k, he⟩))
    simp only [this]

theorem At.needs {st : State} {S N : Sig} (h : At st S N) {q : Dim} (hq : N.needs st q) :
    S.needs st q := by
  induction h with
  | refl => exact hq
  | fn _ ih => exact .inr (ih hq)
  | dep hk _ ih => exact .inr ⟨_, hk, ih hq⟩

theorem At.wf {st : State} {S N : Sig} (h : At st S N) (hw : S.wf = true) : N.wf = true := by
  induction h with
  | refl => exact hw
  | fn _ ih => exact ih hw
  | dep _ _ ih => exact ih (by simp only [Sig.wf, decide_eq_true_eq] at hw; exact hw _)

theorem At.uniq {st : State} {S N : Sig} (h : At st S N) (hw : S.uniq) : N.uniq := by
  induction h with
  | refl => exact hw
  | fn _ ih => exact ih hw.2
  | dep _ _ ih => exact ih (hw _).2

theorem At.accept {st : State} {S N : Sig} (h : At st S N) {q : Dim} (hq : N.anyAccept q = true) :
    S.anyAccept q = true := by
  induction h with
  | refl => exact hq
  | fn _ ih => simp [anyAccept, ih hq]
  | dep _ _ ih =>
    simp only [anyAccept, Bool.or_eq_true, decide_eq_true_eq]
    exact .inr ⟨_, ih hq⟩

theorem At.trans {st : State} {S N M : Sig} (h : At st S N) (h' : At st N M) : At st S M := by
  induction h with
  | refl => exact h'
  | fn _ ih => exact .fn (ih h')
  | dep hk _ ih => exact .dep hk (ih h')

/-- The path through a signature in which some nodes are replaced: `u` is a state that agrees with
`st` outside of the replaced dimensions. -/
theorem needs_replace {S : Sig} {R : Sig → Sig} {ds : List Dim} {st u : State} {q : Dim}
    (hag : ∀ e, e ∉ ds → S.anyAccept e = true → st (.idx e) = u (.idx e)) (hw : (S.replace R ds).wf = true)
    (h : (S.replace R ds).needs st q) :
    (q ∉ ds ∧ S.needs u q) ∨
    ∃ N, At u S N ∧ (R N).needs st q ∧ (R N).wf = true ∧
      ((∃ d l r, N = .fn d l r ∧ d ∈ ds) ∨ ∃ d n rs, N = .dep d n rs ∧ d ∈ ds) := by
  induction S with
  | scalar s => exact absurd h id
  | void => exact absurd h id
  | ill => exact absurd h id
  | fn d l r ih =>
    simp only [replace] at h hw
    split at h
    · next hd =>
      rw [if_pos hd] at hw
      exact .inr ⟨_, .refl _, h, hw, .inl ⟨d, l, r, rfl, hd⟩⟩
    · next hd =>
      rcases h with rfl | h
      · exact .inl ⟨hd, .inl rfl⟩
      · rw [if_neg hd] at hw
        rcases ih (fun e h1 h2 => hag e h1 (by simp [anyAccept, h2])) hw h with ⟨h1, h2⟩ | ⟨N, h1, h2, h3⟩
        · exact .inl ⟨h1, .inr h2⟩
        · exact .inr ⟨N, .fn h1, h2, h3⟩
  | dep d n rs ih =>
    simp only [replace] at h hw
    split at h
    · next hd =>
      rw [if_pos hd] at hw
      exact .inr ⟨_, .refl _, h, hw, .inr ⟨d, n, rs, rfl, hd⟩⟩
    · next hd =>
      rcases h with rfl | ⟨k, hk, h⟩
      · exact .inl ⟨hd, .inl rfl⟩
      · rw [hag d hd (by simp [anyAccept])] at hk
        rw [if_neg hd] at hw
        simp only [wf, decide_eq_true_eq] at hw
        rcases ih k (fun e h1 h2 => hag e h1 (by
          simp only [anyAccept, Bool.or_eq_true, decide_eq_true_eq]; exact .inr ⟨k, h2⟩)) (hw k) h with ⟨h1, h2⟩ | ⟨N, h1, h2, h3⟩
        · exact .inl ⟨h1, .inr ⟨k, hk, h2⟩⟩
        · exact .inr ⟨N, .dep hk h1, h2, h3⟩

/-- The node begins with one of the given dimensions. -/
def Starts (ds : List Dim) (N : Sig) : Prop :=
  (∃ d l r, N = .fn d l r ∧ d ∈ ds) ∨ ∃ d n rs, N = .dep d n rs ∧ d ∈ ds

theorem uniq_replace_aux {P : Dim → Prop} {R : Sig → Sig} {ds New : List Dim}
    (h1 : ∀ N, N.uniq → Starts ds N → (R N).wf = true → (∀ q, N.anyAccept q = true → P q) →
      (R N).uniq ∧ ∀ q, (R N).anyAccept q = true → N.anyAccept q = true ∨ q ∈ New)
    (h2 : ∀ q ∈ New, q ∈ ds ∨ ¬ P q) {S : Sig} (hP : ∀ q, S.anyAccept q = true → P q) (hu : S.uniq)
    (hw : (S.replace R ds).wf = true) :
    (S.replace R ds).uniq ∧ ∀ q, (S.replace R ds).anyAccept q = true → S.anyAccept q = true ∨ q ∈ New := by
  induction S with
  | scalar s => exact ⟨trivial, fun q h => .inl h⟩
  | void => exact ⟨trivial, fun q h => .inl h⟩
  | ill => exact ⟨trivial, fun q h => .inl h⟩
  | fn d l r ih =>
    simp only [replace] at hw ⊢
    split at hw
    · next hd =>
      rw [if_pos hd]
      exact h1 _ hu (.inl ⟨d, l, r, rfl, hd⟩) hw hP
    · next hd =>
      rw [if_neg hd]
      obtain ⟨i1, i2⟩ := ih (fun q h => hP q (by simp [anyAccept, h])) hu.2 hw
      refine ⟨⟨?_, i1⟩, fun q hq => ?_⟩
      · cases hc : (r.replace R ds).anyAccept d with
        | false => rfl
        | true =>
          rcases i2 d hc with h | h
          · rw [hu.1] at h; cases h
          · rcases h2 d h with h | h
            · exact absurd h hd
            · exact absurd (hP d (by simp [anyAccept])) h
      · simp only [anyAccept, Bool.or_eq_true] at hq ⊢
        rcases hq with h | h
        · exact .inl (.inl h)
        · rcases i2 q h with h | h
          · exact .inl (.inr h)
          · exact .inr h
  | dep d n rs ih =>
    simp only [replace] at hw ⊢
    split at hw
    · next hd =>
      rw [if_pos hd]
      exact h1 _ hu (.inr ⟨d, n, rs, rfl, hd⟩) hw hP
    · next hd =>
      rw [if_neg hd]
      simp only [wf, decide_eq_true_eq] at hw
      have ih := fun k => ih k (fun q h => hP q (by
        simp only [anyAccept, Bool.or_eq_true, decide_eq_true_eq]; exact .inr ⟨k, h⟩)) (hu k).2 (hw k)
      refine ⟨fun k => ⟨?_, (ih k).1⟩, fun q hq => ?_⟩
      · cases hc : ((rs k).replace R ds).anyAccept d with
        | false => rfl
        | true =>
          rcases (ih k).2 d hc with h | h
          · rw [(hu k).1] at h; cases h
          · rcases h2 d h with h | h
            · exact absurd h hd
            · exact absurd (hP d (by simp [anyAccept])) h
      · simp only [anyAccept, Bool.or_eq_true, decide_eq_true_eq] at hq ⊢
        rcases hq with h | ⟨k, h⟩
        · exact .inl (.inl h)
        · rcases (ih k).2 q h with h | h
          · exact .inl (.inr ⟨k, h⟩)
          · exact .inr h

/-- Replacing nodes keeps dimensions distinct, if the new ones are new. -/
theorem uniq_replace {R : Sig → Sig} {ds New : List Dim} {S : Sig}
    (h1 : ∀ N, N.uniq → Starts ds N → (R N).wf = true →
      (∀ q, N.anyAccept q = true → S.anyAccept q = true) →
      (R N).uniq ∧ ∀ q, (R N).anyAccept q = true → N.anyAccept q = true ∨ q ∈ New)
    (h2 : ∀ q ∈ New, q ∈ ds ∨ S.anyAccept q = false) (hu : S.uniq)
    (hw : (S.replace R ds).wf = true) :
    (S.replace R ds).uniq ∧ ∀ q, (S.replace R ds).anyAccept q = true → S.anyAccept q = true ∨ q ∈ New :=
  uniq_replace_aux (P := fun q => S.anyAccept q = true) h1
    (fun q hq => (h2 q hq).imp_right fun h => by simp [h]) (fun _ h => h) hu hw

/-- A tuple some of whose fields are selected. -/
theorem uniq_select {d : Dim} {n m : Nat} {rs : Fin n → Sig} {f : Nat → Nat}
    (hu : (Sig.dep d n rs).uniq) (hw : (select d rs m f).wf = true) :
    (select d rs m f).uniq ∧
      ∀ q, (select d rs m f).anyAccept q = true → (Sig.dep d n rs).anyAccept q = true := by
  unfold select at hw ⊢
  split
  · next h =>
    refine ⟨fun i => hu _, fun q hq => ?_⟩
    simp only [anyAccept, Bool.or_eq_true, decide_eq_true_eq] at hq ⊢
    rcases hq with h | ⟨k, h⟩
    · exact .inl h
    · exact .inr ⟨_, h⟩
  · next h => simp [h, wf] at hw

theorem needs_select {d : Dim} {n m : Nat} {rs : Fin n → Sig} {f : Nat → Nat} {st : State} {q : Dim}
    (h : (select d rs m f).needs st q) :
    q = d ∨ ∃ k, ∃ h' : f k < n, st (.idx d) = some (.lit k) ∧ k < m ∧ (rs ⟨f k, h'⟩).needs st q := by
  unfold select at h
  split at h
  · next hf =>
    rcases h with h | ⟨k, hk, h⟩
    · exact .inl h
    · exact .inr ⟨k, hf k, litIdx_eq_some hk, k.2, h⟩
  · exact absurd h id

end Sig

end Noarr
