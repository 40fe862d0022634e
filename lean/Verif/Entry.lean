import Verif.TraverseLemmas
import Verif.AliasNeeds

/-
The dimensions on the path through a signature that the tuple indices of a state select, with the
number of fields for tuple dimensions; and how the views change them. Used for C28 and C29.
-/

set_option linter.unusedVariables false
set_option linter.unusedSimpArgs false

namespace Noarr

namespace Sig

/-- On the path selected by `st` there is the dimension `q`: an ordinary one (`none`) or a tuple
dimension with `n` fields (`some n`). -/
def entry (st : State) (q : Dim) (o : Option Nat) : Sig → Prop
  | scalar _ => False
  | void => False
  | fn d _ r => (q = d ∧ o = none) ∨ r.entry st q o
  | dep d n rs => (q = d ∧ o = some n) ∨ ∃ k, litIdx n (st (.idx d)) = some k ∧ (rs k).entry st q o
  | ill => False

theorem needs_iff_entry {S : Sig} {st : State} {q : Dim} : S.needs st q ↔ ∃ o, S.entry st q o := by
  induction S with
  | scalar s => simp [needs, entry]
  | void => simp [needs, entry]
  | ill => simp [needs, entry]
  | fn d l r ih =>
    simp only [needs, entry, ih]
    constructor
    · rintro (rfl | ⟨o, h⟩)
      · exact ⟨none, .inl ⟨rfl, rfl⟩⟩
      · exact ⟨o, .inr h⟩
    · rintro ⟨o, ⟨rfl, -⟩ | h⟩
      · exact .inl rfl
      · exact .inr ⟨o, h⟩
  | dep d n rs ih =>
    simp only [needs, entry, ih]
    constructor
    · rintro (rfl | ⟨k, hk, o, h⟩)
      · exact ⟨some n, .inl ⟨rfl, rfl⟩⟩
      · exact ⟨o, .inr ⟨k, hk, h⟩⟩
    · rintro ⟨o, ⟨rfl, -⟩ | ⟨k, hk, h⟩⟩
      · exact .inl rfl
      · exact .inr ⟨k, hk, o, h⟩

theorem entry_accept {S : Sig} {st : State} {q : Dim} {o : Option Nat} (h : S.entry st q o) :
    S.anyAccept q = true := needs_anyAccept (needs_iff_entry.2 ⟨o, h⟩)

theorem entry_congr {S : Sig} {st st' : State} {q : Dim} {o : Option Nat}
    (h : ∀ e, S.anyAccept e = true → st (.idx e) = st' (.idx e)) : S.entry st q o ↔ S.entry st' q o := by
  induction S with
  | scalar s => exact Iff.rfl
  | void => exact Iff.rfl
  | ill => exact Iff.rfl
  | fn d l r ih =>
    simp only [entry]
    rw [ih (fun e he => h e (by simp [anyAccept, he]))]
  | dep d n rs ih =>
    simp only [entry]
    rw [h d (by simp [anyAccept])]
    have : ∀ k, (rs k).entry st q o ↔ (rs k).entry st' q o := fun k =>
      ih k (fun e he => h e (by simp only [anyAccept, Bool.or_eq_true, decide_eq_true_eq]; exact .inr ⟨k, he⟩))
    simp only [this]

theorem At.entry {st : State} {S N : Sig} (h : At st S N) {q : Dim} {o : Option Nat} (hq : N.entry st q o) :
    S.entry st q o := by
  induction h with
  | refl => exact hq
  | fn _ ih => exact .inr (ih hq)
  | dep hk _ ih => exact .inr ⟨_, hk, ih hq⟩

theorem entry_hasDep {S : Sig} {st : State} {q : Dim} {n : Nat} (h : S.entry st q (some n)) : S.hasDep q := by
  induction S with
  | scalar s => exact absurd h id
  | void => exact absurd h id
  | ill => exact absurd h id
  | fn d l r ih =>
    rcases h with ⟨-, h⟩ | h
    · cases h
    · exact ih h
  | dep d m rs ih =>
    rcases h with ⟨rfl, h⟩ | ⟨k, hk, h⟩
    · exact .inl rfl
    · exact .inr ⟨k, ih k h⟩

/-- Whether a dimension is on the path does not depend on its own index. -/
theorem entry_remove {S : Sig} (hu : S.uniq) {st : State} {q : Dim} {o : Option Nat} (h : S.entry st q o) :
    S.entry (st.remove (.idx q)) q o := by
  induction S with
  | scalar s => exact absurd h id
  | void => exact absurd h id
  | ill => exact absurd h id
  | fn d l r ih =>
    rcases h with h | h
    · exact .inl h
    · exact .inr (ih hu.2 h)
  | dep d n rs ih =>
    rcases h with h | ⟨k, hk, h⟩
    · exact .inl h
    · have : d ≠ q := by rintro rfl; have := entry_accept h; rw [(hu k).1] at this; simp at this
      exact .inr ⟨k, by simpa [State.remove, this] using hk, ih k (hu k).2 h⟩

/-- The kind of a dimension on the path is what `sig_find_dim` finds. -/
theorem find_entry {S : Sig} (hu : S.uniq) {st : State} {q : Dim} {o : Option Nat} (h : S.entry st q o) :
    (o = none → ∃ l r, S.find q st = .fn q l r) ∧
    (∀ n, o = some n → ∃ rs, S.find q st = .dep q n rs) := by
  induction S with
  | scalar s => exact absurd h id
  | void => exact absurd h id
  | ill => exact absurd h id
  | fn d l r ih =>
    rcases h with ⟨rfl, rfl⟩ | h
    · exact ⟨fun _ => ⟨l, r, by simp [find]⟩, fun n h => by cases h⟩
    · have : d ≠ q := by rintro rfl; have := entry_accept h; rw [hu.1] at this; simp at this
      simp only [find, this, if_false]
      exact ih hu.2 h
  | dep d n rs ih =>
    rcases h with ⟨rfl, rfl⟩ | ⟨k, hk, h⟩
    · refine ⟨by simp, ?_⟩
      rintro _ ⟨⟩
      exact ⟨rs, by simp [find]⟩
    · have : d ≠ q := by rintro rfl; have := entry_accept h; rw [(hu k).1] at this; simp at this
      simp only [find, this, if_false, hk]
      exact ih k (hu k).2 h

theorem entry_det {S : Sig} (hu : S.uniq) {st : State} {q : Dim} {o o' : Option Nat} (h : S.entry st q o)
    (h' : S.entry st q o') : o = o' := by
  have h1 := find_entry hu h
  have h2 := find_entry hu h'
  cases o <;> cases o' <;> grind

/-- What `sig_find_dim` finds is on the path. -/
theorem entry_find {S : Sig} {d : Dim} {st0 st : State}
    (hag : ∀ e k, st0 (.idx e) = some (.lit k) → st (.idx e) = some (.lit k)) :
    (∀ e l r, S.find d st0 = .fn e l r → e = d ∧ S.entry st d none) ∧
    (∀ e n rs, S.find d st0 = .dep e n rs → e = d ∧ S.entry st d (some n)) := by
  induction S with
  | scalar s => simp [find]
  | void => simp [find]
  | ill => simp [find]
  | fn e l r ih =>
    simp only [find]
    by_cases he : e = d
    · subst he
      refine ⟨?_, by simp⟩
      simp only [if_true, fn.injEq]
      rintro _ _ _ ⟨rfl, -, -⟩
      exact ⟨rfl, .inl ⟨rfl, rfl⟩⟩
    · simp only [he, if_false, entry]
      exact ⟨fun a b c h => (ih.1 a b c h).imp_right .inr, fun a b c h => (ih.2 a b c h).imp_right .inr⟩
  | dep e n rs ih =>
    simp only [find]
    by_cases he : e = d
    · subst he
      refine ⟨by simp, ?_⟩
      simp only [if_true, dep.injEq]
      rintro _ _ _ ⟨rfl, rfl, -⟩
      exact ⟨rfl, .inl ⟨rfl, rfl⟩⟩
    · simp only [he, if_false, entry]
      cases hk : litIdx n (st0 (.idx e)) with
      | none => simp
      | some k =>
        have hk' : litIdx n (st (.idx e)) = some k := by
          rw [hag e k (litIdx_eq_some hk)]; exact litIdx_lit k.2
        exact ⟨fun a b c h => ((ih k).1 a b c h).imp_right fun h => .inr ⟨k, hk', h⟩,
          fun a b c h => ((ih k).2 a b c h).imp_right fun h => .inr ⟨k, hk', h⟩⟩

/-- The path through a signature after the replacement of one dimension. -/
theorem entry_replace {S : Sig} {R : Sig → Sig} {d : Dim} {st u : State} {New : Dim → Option Nat → Prop}
    (hag : ∀ e, e ≠ d → S.anyAccept e = true → st (.idx e) = u (.idx e)) (hu : S.uniq)
    (hw : (S.replace R [d]).wf = true)
    (hR : ∀ N, At u S N → N.uniq → Starts [d] N → (R N).wf = true → ∀ q o,
      ((R N).entry st q o ↔ New q o ∨ (q ≠ d ∧ N.entry u q o))) (q : Dim) (o : Option Nat) :
    (S.replace R [d]).entry st q o ↔
      (q ≠ d ∧ S.entry u q o) ∨ (New q o ∧ ∃ o', S.entry u d o') := by
  induction S with
  | scalar s => simp [replace, entry]
  | void => simp [replace, entry]
  | ill => simp [replace, entry]
  | fn e l r ih =>
    simp only [replace, List.mem_singleton] at hw ⊢
    by_cases he : e = d
    · subst he
      simp only [if_true] at hw ⊢
      rw [hR _ (.refl _) hu (.inl ⟨e, l, r, rfl, by simp⟩) hw]
      have : ∃ o', (Sig.fn e l r).entry u e o' := ⟨none, .inl ⟨rfl, rfl⟩⟩
      grind
    · simp only [he, if_false] at hw ⊢
      have ih := ih (fun x h1 h2 => hag x h1 (by simp [anyAccept, h2])) hu.2 hw
        (fun N hN => hR N (.fn hN))
      simp only [entry, ih]
      grind
  | dep e n rs ih =>
    simp only [replace, List.mem_singleton] at hw ⊢
    by_cases he : e = d
    · subst he
      simp only [if_true] at hw ⊢
      rw [hR _ (.refl _) hu (.inr ⟨e, n, rs, rfl, by simp⟩) hw]
      have : ∃ o', (Sig.dep e n rs).entry u e o' := ⟨some n, .inl ⟨rfl, rfl⟩⟩
      grind
    · simp only [he, if_false] at hw ⊢
      simp only [wf, decide_eq_true_eq] at hw
      have hst := hag e he (by simp [anyAccept])
      have ih := fun k (hk : litIdx n (u (.idx e)) = some k) => ih k (fun x h1 h2 => hag x h1 (by
        simp only [anyAccept, Bool.or_eq_true, decide_eq_true_eq]; exact .inr ⟨k, h2⟩)) (hu k).2 (hw k)
        (fun N hN => hR N (.dep hk hN))
      simp only [entry, hst]
      constructor
      · rintro (h | ⟨k, hk, h⟩)
        · left; exact ⟨by rw [h.1]; exact he, .inl h⟩
        · rcases (ih k hk).1 h with ⟨h1, h2⟩ | ⟨h1, o', h2⟩
          · exact .inl ⟨h1, .inr ⟨k, hk, h2⟩⟩
          · exact .inr ⟨h1, o', .inr ⟨k, hk, h2⟩⟩
      · rintro (⟨h1, h | ⟨k, hk, h⟩⟩ | ⟨h1, o', ⟨h, -⟩ | ⟨k, hk, h⟩⟩)
        · exact .inl h
        · exact .inr ⟨k, hk, (ih k hk).2 (.inl ⟨h1, h⟩)⟩
        · exact absurd h.symm he
        · exact .inr ⟨k, hk, (ih k hk).2 (.inr ⟨h1, o', h⟩)⟩

theorem At.replace {S N : Sig} {R : Sig → Sig} {d : Dim} {st u : State} (h : At u S N) (hu : S.uniq)
    (hd : Starts [d] N) (hag : ∀ e, e ≠ d → S.anyAccept e = true → st (.idx e) = u (.idx e)) :
    At st (S.replace R [d]) (R N) := by
  have hacc : N.anyAccept d = true := by
    rcases hd with ⟨e, l, r, rfl, he⟩ | ⟨e, n, rs, rfl, he⟩ <;> simp at he <;> simp [anyAccept, he]
  induction h with
  | refl N =>
    rcases hd with ⟨e, l, r, rfl, he⟩ | ⟨e, n, rs, rfl, he⟩ <;> simp only [Sig.replace, he, if_true] <;>
      exact .refl _
  | @fn e l r N hr ih =>
    have h1 := hr.accept hacc
    have : e ≠ d := by rintro rfl; rw [hu.1] at h1; simp at h1
    simp only [Sig.replace, List.mem_singleton, this, if_false]
    exact .fn (ih hu.2 hd (fun x h1 h2 => hag x h1 (by simp [anyAccept, h2])) hacc)
  | @dep e n rs k N hk hr ih =>
    have h1 := hr.accept hacc
    have : e ≠ d := by rintro rfl; rw [(hu k).1] at h1; simp at h1
    simp only [Sig.replace, List.mem_singleton, this, if_false]
    refine .dep (k := k) ?_ (ih (hu k).2 hd (fun x h1 h2 => hag x h1 (by
        simp only [anyAccept, Bool.or_eq_true, decide_eq_true_eq]; exact .inr ⟨k, h2⟩)) hacc)
    rw [hag e this (by simp [anyAccept])]; exact hk

theorem entry_at {S : Sig} {st : State} {q : Dim} {n : Nat} (h : S.entry st q (some n)) :
    ∃ rs, At st S (.dep q n rs) := by
  induction S with
  | scalar s => exact absurd h id
  | void => exact absurd h id
  | ill => exact absurd h id
  | fn d l r ih =>
    rcases h with ⟨-, h⟩ | h
    · cases h
    · obtain ⟨rs, h⟩ := ih h
      exact ⟨rs, .fn h⟩
  | dep d m rs ih =>
    rcases h with ⟨rfl, h⟩ | ⟨k, hk, h⟩
    · cases h; exact ⟨rs, .refl _⟩
    · obtain ⟨rs', h⟩ := ih k h
      exact ⟨rs', .dep hk h⟩

/-- A dimension that a view replaces is not a tuple dimension, if the view refuses those. -/
theorem entry_nodep {S : Sig} {R : Sig → Sig} {d : Dim} {st u : State}
    (hag : ∀ e, e ≠ d → S.anyAccept e = true → st (.idx e) = u (.idx e)) (hu : S.uniq)
    (hw : (S.replace R [d]).wf = true)
    (hdep : ∀ n rs, At u S (.dep d n rs) → (R (.dep d n rs)).wf = true → False) {o : Option Nat}
    (h : S.entry u d o) : o = none := by
  cases o with
  | none => rfl
  | some n =>
    obtain ⟨rs, hN⟩ := entry_at h
    exact absurd ((hN.replace (R := R) hu (.inr ⟨d, n, rs, rfl, by simp⟩) hag).wf hw) (hdep n rs hN)

/-- Views that keep the node of the dimension. -/
theorem entry_keep {S : Sig} {R : Sig → Sig} {d : Dim} {st u : State}
    (hag : ∀ e, e ≠ d → S.anyAccept e = true → st (.idx e) = u (.idx e)) (hu : S.uniq)
    (hw : (S.replace R [d]).wf = true)
    (hdep : ∀ n rs, At u S (.dep d n rs) → (R (.dep d n rs)).wf = true → False)
    (hfn : ∀ l r, (R (.fn d l r)).wf = true → ∃ l', R (.fn d l r) = .fn d l' r) (q : Dim) (o : Option Nat) :
    (S.replace R [d]).entry st q o ↔ S.entry u q o := by
  rw [entry_replace (New := fun q o => q = d ∧ o = none) hag hu hw]
  · constructor
    · rintro (h | ⟨⟨rfl, rfl⟩, o', h⟩)
      · exact h.2
      · cases entry_nodep hag hu hw hdep h
        exact h
    · intro h
      by_cases hq : q = d
      · subst hq
        cases entry_nodep hag hu hw hdep h
        exact .inr ⟨⟨rfl, rfl⟩, none, h⟩
      · exact .inl ⟨hq, h⟩
  · intro N hN hNu hs hw' q o
    rcases hs with ⟨e, l, r, rfl, he⟩ | ⟨e, n, rs, rfl, he⟩
    · simp at he; subst he
      obtain ⟨l', h'⟩ := hfn l r hw'
      rw [h']
      have hr : ∀ q o, r.entry st q o ↔ r.entry u q o := fun q o => entry_congr fun x hx =>
        hag x (by rintro rfl; rw [hNu.1] at hx; simp at hx) (hN.accept (accept_fn.2 (.inr hx)))
      have hq : ∀ o, ¬ r.entry u e o := fun o h => by
        have := entry_accept h; rw [hNu.1] at this; simp at this
      simp only [entry, hr]
      grind
    · simp at he; subst he
      exact (hdep n rs hN hw').elim

theorem entry_mapDims {S : Sig} {f : Dim → Dim} {st u : State} {q : Dim} {o : Option Nat}
    (hag : ∀ e, S.anyAccept e = true → u (.idx e) = st (.idx (f e))) :
    (S.mapDims f).entry st q o ↔ ∃ e, S.entry u e o ∧ f e = q := by
  induction S with
  | scalar s => simp [mapDims, entry]
  | void => simp [mapDims, entry]
  | ill => simp [mapDims, entry]
  | fn d l r ih =>
    simp only [mapDims, entry, ih (fun e he => hag e (accept_fn.2 (.inr he)))]
    grind
  | dep d n rs ih =>
    simp only [mapDims, entry, fun k => ih k (fun e he => hag e (accept_dep.2 (.inr ⟨k, he⟩))),
      hag d (accept_dep.2 (.inl rfl))]
    grind

theorem entry_reassembleScalar {S : Sig} {st0 st : State} {q : Dim} {o : Option Nat} :
    ¬ (S.reassembleScalar st0).entry st q o := fun h =>
  needs_reassembleScalar (needs_iff_entry.2 ⟨o, h⟩)

/-- `reorder`: a dimension of the new signature is one of the old. -/
theorem entry_reassemble_of {top : Sig} {ds : List Dim} {st0 st : State} {q : Dim} {o : Option Nat}
    (hag : ∀ e k, st0 (.idx e) = some (.lit k) → st (.idx e) = some (.lit k))
    (h : (top.reassemble ds st0).entry st q o) : top.entry st q o := by
  induction ds generalizing st0 with
  | nil => exact absurd h entry_reassembleScalar
  | cons d ds ih =>
    simp only [reassemble] at h
    split at h
    · exact absurd h id
    · split at h
      · next hf =>
        rcases h with ⟨rfl, rfl⟩ | h
        · exact ((entry_find hag).1 _ _ _ hf).2
        · refine ih ?_ h
          intro e k he
          simp only [State.set] at he
          split at he
          · simp at he
          · exact hag e k he
      · next hf =>
        rcases h with ⟨rfl, rfl⟩ | ⟨k, hk, h⟩
        · exact ((entry_find hag).2 _ _ _ hf).2
        · refine ih ?_ h
          intro e k' he
          simp only [State.set] at he
          split at he
          · next heq =>
            injection heq with heq
            subst heq
            simp only [Option.some.injEq, Val.lit.injEq] at he
            rw [← he]
            exact litIdx_eq_some hk
          · exact hag e k' he
      · exact absurd h id

theorem entry_of_complete {S : Sig} {st0 st : State} {q : Dim} {o : Option Nat}
    (hag : ∀ e k, st0 (.idx e) = some (.lit k) → st (.idx e) = some (.lit k))
    (hc : (S.reassembleScalar st0).complete = true) (h : S.entry st q o) : st0.has (.idx q) = true := by
  induction S with
  | scalar s => exact absurd h id
  | void => exact absurd h id
  | ill => exact absurd h id
  | fn d l r ih =>
    simp only [reassembleScalar] at hc
    split at hc
    · next hd =>
      rcases h with ⟨rfl, -⟩ | h
      · exact hd
      · exact ih hc h
    · simp [complete] at hc
  | dep d n rs ih =>
    simp only [reassembleScalar] at hc
    split at hc
    · next hd =>
      split at hc
      · next k hk =>
        rcases h with ⟨rfl, -⟩ | ⟨j, hj, h⟩
        · exact hd
        · rw [hag d k (litIdx_eq_some hk), litIdx_lit k.2] at hj
          cases hj
          exact ih k hc h
      · simp [complete] at hc
    · simp [complete] at hc

/-- `reorder` that names all the dimensions: a dimension of the old signature is one of the new. -/
theorem entry_reassemble_to {top : Sig} (hu : top.uniq) {ds : List Dim} {st0 st : State} {q : Dim} {o : Option Nat}
    (hag : ∀ e k, st0 (.idx e) = some (.lit k) → st (.idx e) = some (.lit k))
    (hc : (top.reassemble ds st0).complete = true)
    (hset : ∀ e n, (top.reassemble ds st0).entry st e (some n) → ∃ k, litIdx n (st (.idx e)) = some k)
    (h : top.entry st q o) : st0.has (.idx q) = true ∨ (top.reassemble ds st0).entry st q o := by
  induction ds generalizing st0 with
  | nil => exact .inl (entry_of_complete hag hc h)
  | cons d ds ih =>
    simp only [reassemble] at hc hset ⊢
    split at hc
    · simp [complete] at hc
    · next hd =>
      rw [if_neg hd] at hset ⊢
      split at hc
      · next hf =>
        rw [hf] at hset
        have hfe := (entry_find hag).1 _ _ _ hf
        rcases ih (st0 := st0.set (.idx d) (.dyn 0)) (by
          intro e k he
          simp only [State.set] at he
          split at he
          · simp at he
          · exact hag e k he) hc (fun e n he => hset e n (.inr he)) with h1 | h1
        · by_cases hq : q = d
          · subst hq
            exact .inr (.inl ⟨rfl, entry_det hu h hfe.2⟩)
          · left
            simpa [State.has, State.set, hq] using h1
        · exact .inr (.inr h1)
      · next n rs hf =>
        rw [hf] at hset
        have hfe := (entry_find hag).2 _ _ _ hf
        obtain ⟨k, hk⟩ := hset d _ (.inl ⟨rfl, rfl⟩)
        simp only [complete, decide_eq_true_eq] at hc
        rcases ih (st0 := st0.set (.idx d) (.lit k)) (by
          intro e k' he
          simp only [State.set] at he
          split at he
          · next heq =>
            injection heq with heq
            subst heq
            simp only [Option.some.injEq, Val.lit.injEq] at he
            rw [← he]
            exact litIdx_eq_some hk
          · exact hag e k' he) (hc k) (fun e n he => hset e n (.inr ⟨k, hk, he⟩)) with h1 | h1
        · by_cases hq : q = d
          · subst hq
            exact .inr (.inl ⟨rfl, entry_det hu h hfe.2⟩)
          · left
            simpa [State.has, State.set, hq] using h1
        · exact .inr (.inr ⟨k, hk, h1⟩)
      · simp [complete] at hc

end Sig

end Noarr
