import Verif.Entry
import Verif.OrderSpec
import Verif.AliasDecode
import Verif.LenDefined

/-
What part of the elements of a structure the views address. Used for C28 and C29.
-/

set_option linter.unusedVariables false
set_option linter.unusedSimpArgs false

namespace Noarr

/-- The index in dimension `q` is in range. -/
def EntryOk (S : Sem) (st : State) (q : Dim) : Option Nat → Prop
  | some n => ∃ k, k < n ∧ st (.idx q) = some (.lit k)
  | none => ∃ k l m, st (.idx q) = some (.dyn k) ∧ S.len q (st.remove (.idx q)) = some l ∧
      l.Num m ∧ k < m

/-- As `Addresses`, with given lengths in the state. -/
structure Addr (S : Sem) (L : Lens) (st : State) : Prop where
  ok : ∀ q o, S.sig.entry st q o → EntryOk S st q o
  only : ∀ q, (st (.idx q)).isSome → ∃ o, S.sig.entry st q o
  lens : ∀ q, st (.len q) = L q

theorem indexOk_iff {S : Sem} (hu : S.sig.uniq) {st : State} {q : Dim} {o : Option Nat}
    (h : S.sig.entry st q o) : IndexOk S st q ↔ EntryOk S st q o := by
  obtain ⟨h1, h2⟩ := Sig.find_entry hu h
  cases o with
  | none =>
    obtain ⟨l, r, hf⟩ := h1 rfl
    simp only [IndexOk, hf, EntryOk]
  | some n =>
    obtain ⟨rs, hf⟩ := h2 n rfl
    simp only [IndexOk, hf, EntryOk]

theorem addr_iff' {S : Sem} (hu : S.sig.uniq) {L : Lens} {st : State} :
    Addr S L st ↔ AddressesWith S L st := by
  constructor
  · intro h
    refine ⟨fun q hq => ?_, fun q hq => Sig.needs_iff_entry.2 (h.only q hq), h.lens⟩
    obtain ⟨o, ho⟩ := Sig.needs_iff_entry.1 hq
    exact (indexOk_iff hu ho).2 (h.ok q o ho)
  · intro h
    exact ⟨fun q o hq => (indexOk_iff hu hq).1 (h.ok q (Sig.needs_iff_entry.2 ⟨o, hq⟩)),
      fun q hq => Sig.needs_iff_entry.1 (h.only q hq), h.lens⟩

theorem addr_iff {S : Sem} (hu : S.sig.uniq) {st : State} :
    Addr S (fun _ => none) st ↔ Addresses S st := by
  constructor
  · intro h
    refine ⟨fun q hq => ?_, fun q hq => Sig.needs_iff_entry.2 (h.only q hq), h.lens⟩
    obtain ⟨o, ho⟩ := Sig.needs_iff_entry.1 hq
    exact (indexOk_iff hu ho).2 (h.ok q o ho)
  · intro h
    exact ⟨fun q o hq => (indexOk_iff hu hq).1 (h.ok q (Sig.needs_iff_entry.2 ⟨o, hq⟩)),
      fun q hq => Sig.needs_iff_entry.1 (h.only q hq), h.noLen⟩

/-- The view addresses exactly the elements with `P`, each in one way. `L` are the lengths given to
the view, `L'` those it hands down. -/
structure Selects (A : Arith) (s : Struct) (v : View) (L L' : Lens) (P : State → Prop) : Prop where
  fwd : ∀ st, Addr ((Struct.view v s).sem A) L st →
    ∃ u, (v.sem A (s.sem A)).sub st = some u ∧ Addr (s.sem A) L' u ∧ P u
  bwd : ∀ u, Addr (s.sem A) L' u → P u →
    ∃ st, Addr ((Struct.view v s).sem A) L st ∧ (v.sem A (s.sem A)).sub st = some u
  inj : ∀ st st' u, Addr ((Struct.view v s).sem A) L st → Addr ((Struct.view v s).sem A) L st' →
    (v.sem A (s.sem A)).sub st = some u → (v.sem A (s.sem A)).sub st' = some u → st = st'

/-- A length that is defined is available. -/
theorem guard_len (A : Arith) (s : Struct) (q : Dim) (st : State) :
    guardLen ((s.sem A).hasLen q st) ((s.sem A).len q st) = (s.sem A).len q st := by
  have key : ∀ b x, guardLen b (guardLen b x) = guardLen b x := by
    intro b x
    rcases b with _ | _ | _ <;> rfl
  cases s with
  | scalar sz al => rfl
  | tuple t n fs => exact key _ _
  | vector d s => exact key _ _
  | union n ss => exact key _ _
  | view v s => cases v <;> exact key _ _

/-- The length of a dimension the view does not deal with is that of the structure below. -/
def View.passes (S : Sem) : View → Prop
  | .reverse _ | .join _ _ _ => False
  | .reorder ds => (S.sig.reassemble ds .empty).complete = true
  | _ => True

/-- The length in another dimension is that of the structure below. -/
theorem len_other {A : Arith} {v : View} {s : Struct} {st u : State} {q : Dim} (hq : q ∉ v.dims)
    (hv : v.passes (s.sem A))
    (hst : st (.idx q) = none) (hu : (v.sem A (s.sem A)).sub st = some u) :
    ((Struct.view v s).sem A).len q st = (s.sem A).len q u := by
  have hh : st.has (.idx q) = false := by simp [State.has, hst]
  have hg := guard_len A s q u
  simp only [Struct.sem, ViewSem.toSem]
  generalize hS : s.sem A = S at *
  cases v with
  | bcast d =>
    simp only [View.dims, List.mem_singleton] at hq
    simp only [View.sem, bcastSem, Option.some.injEq] at hu ⊢
    subst hu; simp only [hq, if_false]; exact hg
  | fix d i =>
    simp only [View.dims, List.mem_singleton] at hq
    simp only [View.sem, fixSem, Option.some.injEq] at hu ⊢
    subst hu; simp only [hq, if_false]; exact hg
  | setLength d l =>
    simp only [View.sem, setLengthSem, Option.some.injEq] at hu ⊢
    subst hu; exact hg
  | shift d a =>
    simp only [View.dims, List.mem_singleton] at hq
    simp only [View.sem, shiftSem, Option.some.injEq] at hu ⊢
    subst hu; simp only [hq, if_false]; exact hg
  | slice d a n =>
    simp only [View.dims, List.mem_singleton] at hq
    simp only [View.sem, sliceSem, Option.some.injEq] at hu ⊢
    subst hu; simp only [hq, if_false]; exact hg
  | span d a n =>
    simp only [View.dims, List.mem_singleton] at hq
    simp only [View.sem, spanSem, Option.some.injEq] at hu ⊢
    subst hu; simp only [hq, if_false]; exact hg
  | step d a n =>
    simp only [View.dims, List.mem_singleton] at hq
    simp only [View.sem, stepSem, Option.some.injEq] at hu ⊢
    subst hu; simp only [hq, if_false]; exact hg
  | reverse d => exact absurd hv id
  | reorder ds =>
    simp only [View.sem, reorderSem, Option.some.injEq] at hu ⊢
    subst hu; simp only [show (S.sig.reassemble ds .empty).complete = true from hv, Bool.true_or, if_true]; exact hg
  | hoist d =>
    simp only [View.sem, hoistSem, Option.some.injEq] at hu ⊢
    subst hu; exact hg
  | rename ps =>
    simp only [View.dims, List.mem_append, not_or] at hq
    simp only [View.sem, renameSem, Option.some.injEq] at hu ⊢
    subst hu
    rw [renameDim_of_not_mem (by simpa [Function.comp_def] using hq.2)]
    exact hg
  | join a b d => exact absurd hv id
  | intoBlocks d maj min =>
    simp only [View.dims, List.mem_cons, List.not_mem_nil, or_false, not_or] at hq
    simp only [View.sem, intoBlocksSem] at hu ⊢
    simp only [hq.1, hq.2.1, hq.2.2, if_false, hu, Option.bind_some]; exact hg
  | intoBlocksDyn d maj min pres =>
    simp only [View.dims, List.mem_cons, List.not_mem_nil, or_false, not_or] at hq
    simp only [View.sem, intoBlocksDynSem] at hu ⊢
    simp only [hq.1, hq.2.1, hq.2.2.1, hq.2.2.2, if_false, hu, Option.bind_some]; exact hg
  | intoBlocksStat d border maj min nl =>
    simp only [View.dims, List.mem_cons, List.not_mem_nil, or_false, not_or] at hq
    simp only [View.sem, intoBlocksStatSem] at hu ⊢
    simp only [hq.1, hq.2.1, hq.2.2.1, hq.2.2.2, if_false, hu, Option.bind_some, hh,
      Bool.false_eq_true]
    exact hg
  | mergeBlocks maj min d =>
    simp only [View.dims, List.mem_cons, List.not_mem_nil, or_false, not_or] at hq
    simp only [View.sem, mergeBlocksSem] at hu ⊢
    simp only [hq.1, hq.2.1, hq.2.2, or_false, if_false, hu, Option.bind_some, hh, Bool.false_eq_true]
    exact hg
  | mergeZ sl gl ds d =>
    simp only [View.dims, List.mem_cons, not_or] at hq
    simp only [View.sem, mergeZSem] at hu ⊢
    simp only [hq.1, if_false, hu, Option.bind_some, hh, Bool.false_eq_true]
    exact hg

/-- Ranges in the other dimensions. -/
theorem entryOk_other {S T : Sem} {st u : State} {q : Dim} {o : Option Nat} (hi : u (.idx q) = st (.idx q))
    (hl : o = none → T.len q (st.remove (.idx q)) = S.len q (u.remove (.idx q))) :
    EntryOk T st q o ↔ EntryOk S u q o := by
  cases o with
  | none => simp only [EntryOk, hi, hl rfl]
  | some n => simp only [EntryOk, hi]

theorem State.ext {st st' : State} (hi : ∀ q, st (.idx q) = st' (.idx q))
    (hl : ∀ q, st (.len q) = st' (.len q)) : st = st' := by
  funext t
  cases t with
  | idx q => exact hi q
  | len q => exact hl q

/-- Ranges in the dimensions `ds`. -/
structure Part (S : Sem) (ds : List Dim) (st : State) : Prop where
  ok : ∀ q o, q ∈ ds → S.sig.entry st q o → EntryOk S st q o
  only : ∀ q, q ∈ ds → (st (.idx q)).isSome → ∃ o, S.sig.entry st q o

theorem Addr.part {S : Sem} {L : Lens} {st : State} (h : Addr S L st) (ds : List Dim) : Part S ds st :=
  ⟨fun q o _ => h.ok q o, fun q _ => h.only q⟩

/-- It is enough to look at the dimensions of the view. -/
theorem select_core {A : Arith} {s : Struct} {v : View} {L L' : Lens} {P : State → Prop}
    (hfwd : ∀ st, Addr ((Struct.view v s).sem A) L st → ∃ u, (v.sem A (s.sem A)).sub st = some u ∧
      (∀ q, u (.len q) = L' q) ∧ Part (s.sem A) v.dims u ∧ P u)
    (hbwd : ∀ u, Addr (s.sem A) L' u → P u → ∃ st, (v.sem A (s.sem A)).sub st = some u ∧
      (∀ q, st (.len q) = L q) ∧ Part ((Struct.view v s).sem A) v.dims st)
    (hent : ∀ st u, (v.sem A (s.sem A)).sub st = some u →
      (Addr ((Struct.view v s).sem A) L st ∨
        (Addr (s.sem A) L' u ∧ Part ((Struct.view v s).sem A) v.dims st)) →
      ∀ q o, q ∉ v.dims → (((Struct.view v s).sem A).sig.entry st q o ↔ (s.sem A).sig.entry u q o))
    (hlen : ∀ st u q, (v.sem A (s.sem A)).sub st = some u → (∀ q, st (.len q) = L q) →
      Part ((Struct.view v s).sem A) v.dims st → q ∉ v.dims → (s.sem A).sig.entry u q none →
      ((Struct.view v s).sem A).len q (st.remove (.idx q)) = (s.sem A).len q (u.remove (.idx q)))
    (hinj : ∀ st st' u, Addr ((Struct.view v s).sem A) L st → Addr ((Struct.view v s).sem A) L st' →
      (v.sem A (s.sem A)).sub st = some u → (v.sem A (s.sem A)).sub st' = some u →
      ∀ q, q ∈ v.dims → st (.idx q) = st' (.idx q)) :
    Selects A s v L L' P := by
  refine ⟨fun st h => ?_, fun u h hP => ?_, fun st st' u h h' hu hu' => ?_⟩
  · obtain ⟨u, hu, hL, hp, hP⟩ := hfwd st h
    refine ⟨u, hu, ⟨fun q o hq => ?_, fun q hq => ?_, hL⟩, hP⟩
    · by_cases hd : q ∈ v.dims
      · exact hp.ok q o hd hq
      · refine (entryOk_other (T := (Struct.view v s).sem A) (sub_idx hd hu) ?_).1
          (h.ok q o ((hent st u hu (.inl h) q o hd).2 hq))
        rintro rfl
        exact hlen st u q hu h.lens (h.part _) hd hq
    · by_cases hd : q ∈ v.dims
      · exact hp.only q hd hq
      · rw [sub_idx hd hu] at hq
        obtain ⟨o, ho⟩ := h.only q hq
        exact ⟨o, (hent st u hu (.inl h) q o hd).1 ho⟩
  · obtain ⟨st, hu, hL, hp⟩ := hbwd u h hP
    refine ⟨st, ⟨fun q o hq => ?_, fun q hq => ?_, hL⟩, hu⟩
    · by_cases hd : q ∈ v.dims
      · exact hp.ok q o hd hq
      · have hq' := (hent st u hu (.inr ⟨h, hp⟩) q o hd).1 hq
        refine (entryOk_other (T := (Struct.view v s).sem A) (sub_idx hd hu) ?_).2 (h.ok q o hq')
        rintro rfl
        exact hlen st u q hu hL hp hd hq'
    · by_cases hd : q ∈ v.dims
      · exact hp.only q hd hq
      · rw [← sub_idx hd hu] at hq
        obtain ⟨o, ho⟩ := h.only q hq
        exact ⟨o, (hent st u hu (.inr ⟨h, hp⟩) q o hd).2 ho⟩
  · refine State.ext (fun q => ?_) (fun q => by rw [h.lens, h'.lens])
    by_cases hd : q ∈ v.dims
    · exact hinj st st' u h h' hu hu' q hd
    · rw [← sub_idx hd hu, sub_idx hd hu']

theorem Sig.entry_hasFn {S : Sig} {st : State} {q : Dim} (h : S.entry st q none) : S.hasFn q := by
  induction S with
  | scalar s => exact absurd h id
  | void => exact absurd h id
  | ill => exact absurd h id
  | fn d l r ih =>
    rcases h with ⟨rfl, -⟩ | h
    · exact .inl rfl
    · exact .inr (ih h)
  | dep d m rs ih =>
    rcases h with ⟨-, h⟩ | ⟨k, hk, h⟩
    · cases h
    · exact ⟨k, ih k h⟩

/-- The lengths in the other dimensions. -/
theorem len_remove {A : Arith} {v : View} {s : Struct} {st u : State} {q : Dim}
    (ht : (Struct.view v s).tame) (hm : s.unmixed A)
    (hv : v.passes (s.sem A))
    (hu : (v.sem A (s.sem A)).sub st = some u) (hd : q ∉ v.dims)
    (hq : (s.sem A).sig.entry u q none) :
    ((Struct.view v s).sem A).len q (st.remove (.idx q)) = (s.sem A).len q (u.remove (.idx q)) := by
  refine len_other hd hv (by simp [State.remove]) (sub_remove (Struct.length_dep A s ht.1) ht.2 (hm q (Sig.entry_hasFn hq)) hd ?_ hu)
  rintro d rfl
  exact absurd hv id

/-! ### Views that change no index -/

theorem select_reorder {A : Arith} {s : Struct} {ds : List Dim} {L : Lens}
    (ht : (Struct.view (.reorder ds) s).tame) (hu : (s.sem A).sig.uniq) (hm : s.unmixed A)
    (hc : ((s.sem A).sig.reassemble ds .empty).complete = true) :
    Selects A s (.reorder ds) L L fun _ => True := by
  refine select_core (fun st h => ⟨st, rfl, h.lens, ⟨by simp [View.dims], by simp [View.dims]⟩, trivial⟩)
    (fun u h _ => ⟨u, rfl, h.lens, ⟨by simp [View.dims], by simp [View.dims]⟩⟩) ?_ ?_ ?_
  · intro st u hsub had q o _
    cases hsub
    have h1 : ∀ {q o}, ((s.sem A).sig.reassemble ds .empty).entry st q o → (s.sem A).sig.entry st q o :=
      fun h => Sig.entry_reassemble_of (by intro e k h; simp [State.empty] at h) h
    refine ⟨h1, fun h => ?_⟩
    have := Sig.entry_reassemble_to (ds := ds) (st0 := .empty) hu (by intro e k h; simp [State.empty] at h) hc ?_ h
    · rcases this with h | h
      · simp [State.has, State.empty] at h
      · exact h
    · intro e n he
      have : EntryOk (s.sem A) st e (some n) ∨ EntryOk ((Struct.view (.reorder ds) s).sem A) st e (some n) := by
        rcases had with had | ⟨had, -⟩
        · exact .inr (had.ok e _ he)
        · exact .inl (had.ok e _ (h1 he))
      rcases this with ⟨k, hk, h⟩ | ⟨k, hk, h⟩
      · exact ⟨⟨k, hk⟩, by rw [h]; exact Sig.litIdx_lit hk⟩
      · exact ⟨⟨k, hk⟩, by rw [h]; exact Sig.litIdx_lit hk⟩
  · intro st u q hsub _ _ hd hq
    exact len_remove ht hm hc hsub hd hq
  · intro st st' u _ _ _ _ q hq
    simp [View.dims] at hq

theorem select_hoist {A : Arith} {s : Struct} {d : Dim} {L : Lens}
    (ht : (Struct.view (.hoist d) s).tame) (hu : (s.sem A).sig.uniq) (hm : s.unmixed A)
    (hw : ((Struct.view (.hoist d) s).sem A).sig.wf = true) :
    Selects A s (.hoist d) L L fun _ => True := by
  refine select_core (fun st h => ⟨st, rfl, h.lens, ⟨by simp [View.dims], by simp [View.dims]⟩, trivial⟩)
    (fun u h _ => ⟨u, rfl, h.lens, ⟨by simp [View.dims], by simp [View.dims]⟩⟩) ?_ ?_ ?_
  · intro st u hsub had q o _
    cases hsub
    simp only [Struct.sem, ViewSem.toSem, View.sem, hoistSem] at hw ⊢
    split at hw
    · next l r hf =>
      have hf' := ((Sig.entry_find (S := (s.sem A).sig) (st0 := .empty) (st := st)
        (by intro e k h; simp [State.empty] at h)).1 _ _ _ hf)
      simp only [hf, Sig.entry]
      rw [Sig.entry_replace (New := fun _ _ => False) (u := st) (fun _ _ _ => rfl) hu hw]
      · constructor
        · rintro (⟨rfl, rfl⟩ | ⟨-, h⟩ | ⟨h, -⟩)
          · exact hf'.2
          · exact h
          · exact absurd h id
        · intro h
          by_cases hq : q = d
          · subst hq; exact .inl ⟨rfl, Sig.entry_det hu h hf'.2⟩
          · exact .inr (.inl ⟨hq, h⟩)
      · intro N hN hNu hs hw' q o
        obtain ⟨e, l, r, rfl, he⟩ := Sig.starts_fn hs Sig.retRepl (fun _ _ _ => rfl) hw'
        simp at he; subst he
        simp only [Sig.retRepl, Sig.entry]
        have hq : ∀ o, ¬ r.entry st e o := fun o h => by
          have := Sig.entry_accept h; rw [hNu.1] at this; simp at this
        grind
    · simp [Sig.wf] at hw
  · intro st u q hsub _ _ hd hq
    exact len_remove ht hm trivial hsub hd hq
  · intro st st' u _ _ _ _ q hq
    simp [View.dims] at hq

theorem select_setLength {A : Arith} {s : Struct} {d : Dim} {l : Val} {L : Lens}
    (ht : (Struct.view (.setLength d l) s).tame) (hu : (s.sem A).sig.uniq) (hm : s.unmixed A)
    (hw : ((Struct.view (.setLength d l) s).sem A).sig.wf = true) (hL : ∀ l', L d = some l' → l' = l) :
    Selects A s (.setLength d l) L (L.set d l) fun _ => True := by
  refine select_core (fun st h => ⟨_, rfl, ?_, ⟨by simp [View.dims], by simp [View.dims]⟩, trivial⟩)
    (fun u h _ => ⟨fun t => match t with | .idx q => u (.idx q) | .len q => L q, ?_, fun _ => rfl,
      ⟨by simp [View.dims], by simp [View.dims]⟩⟩) ?_ ?_ ?_
  · intro q; simp only [State.set, Lens.set, Tag.len.injEq, h.lens]
  · simp only [View.sem, setLengthSem, Option.some.injEq]
    refine State.ext (fun q => by simp [State.set]) (fun q => ?_)
    rw [h.lens]; simp only [State.set, Lens.set, Tag.len.injEq]
  · intro st u hsub had q o _
    cases hsub
    simp only [Struct.sem, ViewSem.toSem, View.sem, setLengthSem] at hw ⊢
    refine Sig.entry_keep (R := Sig.setLengthRepl l) (fun e _ _ => by simp [State.set]) hu hw ?_ ?_ q o
    · intro n rs _ h; simp [Sig.setLengthRepl, Sig.wf] at h
    · intro l' r _; exact ⟨_, rfl⟩
  · intro st u q hsub _ _ hd hq
    exact len_remove ht hm trivial hsub hd hq
  · intro st st' u _ _ _ _ q hq
    simp [View.dims] at hq

/-! ### Views that change one index -/

theorem idx_none_or {S : Sem} {st : State} {d : Dim} (h : Part S [d] st)
    (hn : ∀ n, ¬ S.sig.entry st d (some n)) :
    (st (.idx d) = none ∧ ∀ o, ¬ S.sig.entry st d o) ∨
      (S.sig.entry st d none ∧ ∃ k l m, st (.idx d) = some (.dyn k) ∧
        S.len d (st.remove (.idx d)) = some l ∧ l.Num m ∧ k < m) := by
  by_cases he : ∃ o, S.sig.entry st d o
  · obtain ⟨o, ho⟩ := he
    cases o with
    | some n => exact absurd ho (hn n)
    | none => exact .inr ⟨ho, h.ok d none (by simp) ho⟩
  · refine .inl ⟨?_, fun o ho => he ⟨o, ho⟩⟩
    cases hi : st (.idx d) with
    | none => rfl
    | some x => exact absurd (h.only d (by simp) (by simp [hi])) he

end Noarr
