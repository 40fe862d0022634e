import Verif.SelectMap
import Verif.AliasMain

/-
What `reverse`, `fix` and `rename` address. Used for C28 and C29.
-/

set_option linter.unusedVariables false
set_option linter.unusedSimpArgs false

namespace Noarr

section
variable {s : Struct} {d : Dim} {L : Lens}

/-- Lengths do not depend on the index in `d` as a number. -/
theorem len_index {A : Arith} (ht : s.tame) (hd : ¬ s.hard d) (hdr : ¬ s.drive d) {q : Dim} (hq : q ≠ d)
    {a b : State} (hag : ∀ t, t ≠ .idx d → a t = b t) (hi : a (.idx d) = none ↔ b (.idx d) = none) :
    (s.sem A).len q a = (s.sem A).len q b ∧ (s.sem A).hasLen q a = (s.sem A).hasLen q b := by
  have key : ∀ {a b : State}, (∀ t, t ≠ .idx d → a t = b t) → (a (.idx d) = none ↔ b (.idx d) = none) →
      Rel s q a b := by
    intro a b hag hi
    have hne : ∀ e, e ≠ d → a (.idx e) = b (.idx e) := fun e he => hag _ (by simpa using he)
    constructor
    · intro e; exact hag _ (by simp)
    · intro e he
      by_cases h : e = d
      · subst h; exact hi.1 he
      · rw [← hne e h]; exact he
    · rw [hne q hq]; exact id
    · intro e he; exact hne e (by rintro rfl; exact hd he)
    · intro _ e he; exact hne e (by rintro rfl; exact hdr he)
    · intro _ e he
      by_cases h : e = d
      · subst h; exact hi.2 he
      · rw [hne e h]; exact he
  have h1 := Struct.length_dep A s ht q a b (key hag hi)
  have h2 := Struct.length_dep A s ht q b a (key (fun t ht => (hag t ht).symm) hi.symm)
  constructor
  · cases h : (s.sem A).len q a with
    | some x => exact (h1.2 x h).symm
    | none =>
      cases h' : (s.sem A).len q b with
      | none => rfl
      | some y => rw [h2.2 y h'] at h; cases h
  · cases h : (s.sem A).hasLen q a with
    | some x => exact (h1.1 x h).symm
    | none =>
      cases h' : (s.sem A).hasLen q b with
      | none => rfl
      | some y => rw [h2.1 y h'] at h; cases h

theorem reverse_len (d : Dim) (s : Struct) (w : State) (hw : w (.idx d) = none) :
    ((Struct.view (.reverse d) s).sem .ideal).len d w = (s.sem .ideal).len d w := by
  have hg := guard_len .ideal s d w
  simp only [Struct.sem, ViewSem.toSem, View.sem, reverseSem, hw, Option.bind_some]
  exact hg

theorem select_reverse
    (ht : (Struct.view (.reverse d) s).tame) (hu : (s.sem .ideal).sig.uniq)
    (huv : ((Struct.view (.reverse d) s).sem .ideal).sig.uniq) (hm : s.unmixed .ideal)
    (hw : ((Struct.view (.reverse d) s).sem .ideal).sig.wf = true)
    (hd : ¬ (s.sem .ideal).sig.hasDep d) (hh : ¬ s.hard d) (hdr : ¬ s.drive d) :
    Selects .ideal s (.reverse d) L L fun _ => True := by
  have h0 : ∀ w : State, w (.idx d) = none → (View.reverse d |>.sem .ideal (s.sem .ideal)).sub w = some w := by
    intro w hw; simp only [View.sem, reverseSem, hw]
  have h1 : ∀ (w : State) k, w (.idx d) = none → Below (s.sem .ideal) d w k → ∃ N, k < N ∧
      (∀ x, Below (s.sem .ideal) d w x ↔ x < N) ∧
      (((s.sem .ideal).len d w).bind Val.nat?).getD 0 = N ∧
      (View.reverse d |>.sem .ideal (s.sem .ideal)).sub (w.set (.idx d) (.dyn k)) =
        some (w.set (.idx d) (.dyn (N - 1 - k))) := by
    rintro w k hw ⟨l, N, hl, hN, hk⟩
    have e : (w.set (.idx d) (.dyn k)).remove (.idx d) = w := by
      rw [State.remove_set_self, remove_self hw]
    refine ⟨N, hk, fun x => ?_, ?_, ?_⟩
    · constructor
      · rintro ⟨l', N', hl', hN', hx⟩
        cases hl.symm.trans hl'
        have := hN.eq hN'
        omega
      · intro hx; exact ⟨l, N, hl, hN, hx⟩
    · rw [hl]; simp only [Option.bind_some]; rw [show l.nat? = some N from hN]; rfl
    · simp only [View.sem, reverseSem, State.set_self, e, Struct.hasLen_of_len hl, hl, bind, Option.bind_some]
      rw [Val.sub_dyn (x := N - 1) (Val.nat?_sub.2 ⟨N, 1, hN, rfl, by omega, rfl⟩) (by omega)]
  have hsel : Selects .ideal s (.reverse d) L L fun u => ∀ x, u (.idx d) = some (.dyn x) → True := by
    refine select_map (f := fun w k => (((s.sem .ideal).len d w).bind Val.nat?).getD 0 - 1 - k)
      (Q := fun i => True) rfl hu huv ?_ ?_ ?_ (nodep_entry hd) ?_ ?_ ?_ ?_
    · intro w hL hi; exact ⟨w, h0 w hi, hL, hi⟩
    · intro w wb k hL hi hs hB
      cases (h0 w hi).symm.trans hs
      rw [Below, reverse_len d s w hi] at hB
      obtain ⟨N, hk, -, hN, he⟩ := h1 w k hi hB
      rw [hN, he]
    · intro st u hsub q o
      have hst : ∀ e, e ≠ d → st (.idx e) = u (.idx e) := fun e he =>
        (sub_idx (by simpa [View.dims] using he) hsub).symm
      refine Sig.entry_keep (R := Sig.reverseRepl) (fun e he _ => hst e he) hu hw ?_ ?_ q o
      · intro n rs h _; exact nodep_at hd h
      · intro l' r _; exact ⟨_, rfl⟩
    · intro w wb hL hi hs he k
      cases (h0 w hi).symm.trans hs
      rw [Below, reverse_len d s w hi, ← Below]
      intro hB
      obtain ⟨N, hk, hiff, hN, -⟩ := h1 w k hi hB
      exact ⟨(hiff _).2 (by omega), trivial⟩
    · intro w k k' hL hi hB hB' h
      rw [Below, reverse_len d s w hi, ← Below] at hB hB'
      obtain ⟨N, hk, hiff, hN, -⟩ := h1 w k hi hB
      obtain ⟨N', hk', -, hN', -⟩ := h1 w k' hi hB'
      omega
    · intro w wb x hL hi hs he hB _
      cases (h0 w hi).symm.trans hs
      obtain ⟨N, hk, hiff, hN, -⟩ := h1 w x hi hB
      refine ⟨N - 1 - x, ?_, by omega⟩
      rw [Below, reverse_len d s w hi, ← Below]
      exact (hiff _).2 (by omega)
    · intro st u q hs hL hB hq he
      have hs' : (View.reverse d |>.sem .ideal (s.sem .ideal)).sub (st.remove (.idx q)) =
          some (u.remove (.idx q)) :=
        sub_remove (Struct.length_dep .ideal s ht.1) ht.2 (hm q (Sig.entry_hasFn he)) (by simpa [View.dims] using hq)
          (fun _ h => by cases h; exact hh) hs
      have hag : ∀ t, t ≠ .idx d → u t = st t ∧ (u (.idx d) = none ↔ st (.idx d) = none) := by
        rcases hB with hi | ⟨k, hi, hB⟩
        · cases (h0 st hi).symm.trans hs
          exact fun _ _ => ⟨rfl, Iff.rfl⟩
        · rw [Below, reverse_len d s _ (by simp [State.remove]), ← Below] at hB
          obtain ⟨N, hk, hiff, hN, he⟩ := h1 _ k (by simp [State.remove]) hB
          rw [set_remove_self hi, hs] at he
          cases he
          intro t ht
          refine ⟨by simp [State.set, State.remove, ht], by simp [State.set, hi]⟩
      have := len_index (A := .ideal) ht.1 hh hdr hq (a := u.remove (.idx q)) (b := st.remove (.idx q))
        (fun t ht => by simp only [State.remove, (hag t ht).1]) (by
          simp only [State.remove, Tag.idx.injEq, Ne.symm hq, if_false]
          exact (hag (.len d) (by simp)).2)
      have hg := guard_len .ideal s q (u.remove (.idx q))
      simp only [Struct.sem, ViewSem.toSem, View.sem, reverseSem] at hs' ⊢
      rw [hs', Option.bind_some, ← this.1]
      exact hg
  exact ⟨fun st h => by
      obtain ⟨u, h1, h2, -⟩ := hsel.fwd st h
      exact ⟨u, h1, h2, trivial⟩, fun u h _ => hsel.bwd u h (fun _ _ => trivial), hsel.inj⟩

/-! ### fix -/

theorem Sig.entry_of_allAccept {S : Sig} {u : State} {d : Dim} (h : S.allAccept d = true)
    (hl : ∀ e n, e ≠ d → S.entry u e (some n) → ∃ k, k < n ∧ u (.idx e) = some (.lit k)) :
    ∃ o, S.entry u d o := by
  induction S with
  | scalar s => simp [allAccept] at h
  | void => simp [allAccept] at h
  | ill => simp [allAccept] at h
  | fn e l r ih =>
    simp only [allAccept, Bool.or_eq_true, beq_iff_eq] at h
    rcases h with rfl | h
    · exact ⟨none, .inl ⟨rfl, rfl⟩⟩
    · obtain ⟨o, ho⟩ := ih h (fun x n hx he => hl x n hx (.inr he))
      exact ⟨o, .inr ho⟩
  | dep e n rs ih =>
    simp only [allAccept, Bool.or_eq_true, beq_iff_eq, decide_eq_true_eq] at h
    by_cases he : e = d
    · subst he; exact ⟨some n, .inl ⟨rfl, rfl⟩⟩
    · rcases h with h | h
      · exact absurd h he
      · obtain ⟨k, hk, hu⟩ := hl e n he (.inl ⟨rfl, rfl⟩)
        have hk' : litIdx n (u (.idx e)) = some ⟨k, hk⟩ := by rw [hu]; exact litIdx_lit hk
        obtain ⟨o, ho⟩ := ih ⟨k, hk⟩ (h _) (fun x m hx he => hl x m hx (.inr ⟨_, hk', he⟩))
        exact ⟨o, .inr ⟨_, hk', ho⟩⟩

theorem Sig.entry_fix {S : Sig} {i : Val} {st u : State}
    (hag : ∀ e, e ≠ d → S.anyAccept e = true → st (.idx e) = u (.idx e)) (hi : u (.idx d) = some i)
    (hu : S.uniq) (hw : (S.replace (Sig.fixRepl i) [d]).wf = true) (q : Dim) (o : Option Nat) :
    (S.replace (Sig.fixRepl i) [d]).entry st q o ↔ q ≠ d ∧ S.entry u q o := by
  rw [entry_replace (New := fun _ _ => False) hag hu hw]
  · simp
  · intro N hN hNu hs hw' q o
    rcases hs with ⟨e, l, r, rfl, he⟩ | ⟨e, n, rs, rfl, he⟩
    · simp at he; subst he
      have hr : ∀ q o, r.entry st q o ↔ r.entry u q o := fun q o => entry_congr fun x hx =>
        hag x (by rintro rfl; rw [hNu.1] at hx; simp at hx) (hN.accept (accept_fn.2 (.inr hx)))
      have hq : ∀ o, ¬ r.entry u e o := fun o h => by
        have := entry_accept h; rw [hNu.1] at this; simp at this
      simp only [fixRepl, entry, hr]
      grind
    · simp at he; subst he
      cases i with
      | dyn k => simp [fixRepl, branch, wf] at hw'
      | bad f => simp [fixRepl, branch, wf] at hw'
      | lit k =>
        by_cases hk : k < n
        · simp only [fixRepl, branch, hk, dif_pos]
          have hl : litIdx n (u (.idx e)) = some ⟨k, hk⟩ := by rw [hi]; exact litIdx_lit hk
          have hr : ∀ q o, (rs ⟨k, hk⟩).entry st q o ↔ (rs ⟨k, hk⟩).entry u q o := fun q o =>
            entry_congr fun x hx =>
              hag x (by rintro rfl; rw [(hNu ⟨k, hk⟩).1] at hx; simp at hx)
                (hN.accept (accept_dep.2 (.inr ⟨_, hx⟩)))
          have hq : ∀ o, ¬ (rs ⟨k, hk⟩).entry u e o := fun o h => by
            have := entry_accept h; rw [(hNu ⟨k, hk⟩).1] at this; simp at this
          simp only [entry, hr, hl, Option.some.injEq, exists_eq_left']
          grind
        · simp [fixRepl, branch, hk, wf] at hw'

/-- The structure with one index given. -/
theorem select_fix {A : Arith} {i : Val} (ht : (Struct.view (.fix d i) s).tame) (hm : s.unmixed A)
    (hu : (s.sem A).sig.uniq) (hw : ((Struct.view (.fix d i) s).sem A).sig.wf = true)
    (hall : (s.sem A).sig.allAccept d = true)
    (hr : ∀ u o, (∀ q, u (.len q) = L.remove [d] q) → (s.sem A).sig.entry u d o → u (.idx d) = some i →
      EntryOk (s.sem A) u d o) :
    Selects A s (.fix d i) L (L.remove [d]) fun u => u (.idx d) = some i := by
  have hent : ∀ st u, (View.fix d i |>.sem A (s.sem A)).sub st = some u → ∀ q o,
      ((Struct.view (.fix d i) s).sem A).sig.entry st q o ↔ q ≠ d ∧ (s.sem A).sig.entry u q o := by
    intro st u hs q o
    cases hs
    exact Sig.entry_fix (fun e he _ => by simp [State.set, State.remove, he]) (by simp [State.set]) hu hw q o
  refine select_core (fun st h => ?_) (fun u h hP => ?_) (fun st u hu _ q o hq => ?_)
    (fun st u q hu _ _ hd hq => len_remove ht hm trivial hu hd hq) (fun st st' u h h' hu hu' q hq => ?_)
  · refine ⟨_, rfl, fun q => ?_, ⟨fun q o hq ho => ?_, fun q hq ho => ?_⟩, by simp [State.set]⟩
    · simp only [State.set, State.remove, Lens.remove, reduceCtorEq, if_false, Tag.len.injEq,
        List.mem_singleton, h.lens]
    · simp only [View.dims, List.mem_singleton] at hq; subst hq
      refine hr _ o (fun q => ?_) ho (by simp [State.set])
      simp only [State.set, State.remove, Lens.remove, reduceCtorEq, if_false, Tag.len.injEq,
        List.mem_singleton, h.lens]
    · simp only [View.dims, List.mem_singleton] at hq; subst hq
      refine Sig.entry_of_allAccept hall (fun e n he hen => ?_)
      obtain ⟨k, hk, hi⟩ := h.ok e (some n) ((hent st _ rfl _ _).2 ⟨he, hen⟩)
      exact ⟨k, hk, by simpa [State.set, State.remove, he] using hi⟩
  · let st : State := fun t => match t with
      | .idx q => if q = d then none else u (.idx q)
      | .len q => L q
    have hs : (View.fix d i |>.sem A (s.sem A)).sub st = some u := by
      simp only [View.sem, fixSem, Option.some.injEq]
      refine State.ext (fun q => ?_) (fun q => ?_)
      · by_cases hq : q = d
        · subst hq; simp [State.set, hP]
        · simp [State.set, State.remove, hq, st]
      · simp [State.set, State.remove, st, h.lens, Lens.remove]
    refine ⟨st, hs, fun _ => rfl, fun q o hq ho => ?_, fun q hq ho => ?_⟩
    · simp only [View.dims, List.mem_singleton] at hq; subst hq
      exact absurd rfl ((hent st u hs _ _).1 ho).1
    · simp only [View.dims, List.mem_singleton] at hq; subst hq
      simp [st] at ho
  · simp only [View.dims, List.mem_singleton] at hq
    rw [hent st u hu]; simp [hq]
  · simp only [View.dims, List.mem_singleton] at hq; subst hq
    have key : ∀ st, Addr ((Struct.view (.fix q i) s).sem A) L st →
        (View.fix q i |>.sem A (s.sem A)).sub st = some u → st (.idx q) = none := by
      intro st h hs
      cases hi : st (.idx q) with
      | none => rfl
      | some x =>
        obtain ⟨o, ho⟩ := h.only q (by simp [hi])
        exact absurd rfl ((hent st u hs _ _).1 ho).1
    rw [key st h hu, key st' h' hu']

end

/-! ### rename -/

theorem select_rename {A : Arith} {s : Struct} {ps : List (Dim × Dim)} {L : Lens}
    (hw : ((Struct.view (.rename ps) s).sem A).sig.wf = true) :
    Selects A s (.rename ps) L ((View.rename ps).lens A L) fun _ => True := by
  have hok : renameOk ps (s.sem A).sig = true := by
    simp only [Struct.sem, ViewSem.toSem, View.sem, renameSem] at hw
    split at hw
    · assumption
    · simp [Sig.wf] at hw
  have hsig : ((Struct.view (.rename ps) s).sem A).sig = (s.sem A).sig.mapDims (Sig.renameDim ps) := by
    simp only [Struct.sem, ViewSem.toSem, View.sem, renameSem, hok, if_true]
  have hok' := hok
  simp only [renameOk, Bool.and_eq_true, decide_eq_true_eq, List.all_eq_true, Bool.or_eq_true,
    Bool.not_eq_true'] at hok'
  obtain ⟨⟨h1, h2⟩, h3⟩ := hok'
  have hacc : ∀ e, (s.sem A).sig.anyAccept e = true → e ∈ ps.map Prod.fst ∨ e ∉ ps.map Prod.snd := by
    intro e he
    by_cases hs : e ∈ ps.map Prod.snd
    · rcases h3 e hs with h | h
      · rw [he] at h; cases h
      · exact .inl h
    · exact .inr hs
  have hent : ∀ st q o, ((Struct.view (.rename ps) s).sem A).sig.entry st q o ↔
      ∃ e, (s.sem A).sig.entry (renameState ps st) e o ∧ Sig.renameDim ps e = q := by
    intro st q o
    rw [hsig]
    exact Sig.entry_mapDims fun e he => by rw [renameState_idx, if_pos (hacc e he)]
  have hidx : ∀ st e, (s.sem A).sig.anyAccept e = true →
      renameState ps st (.idx e) = st (.idx (Sig.renameDim ps e)) := fun st e he => by
    rw [renameState_idx, if_pos (hacc e he)]
  have hback : ∀ e, e ∈ ps.map Prod.fst ∨ e ∉ ps.map Prod.snd →
      Sig.renameDim (ps.map Prod.swap) (Sig.renameDim ps e) = e := fun e he =>
    renameDim_swap h1 h2 e (by rintro ⟨ha, hb⟩; exact he.elim hb (fun h => h ha))
  have hlen : ∀ st e, (s.sem A).sig.anyAccept e = true →
      ((Struct.view (.rename ps) s).sem A).len (Sig.renameDim ps e) (st.remove (.idx (Sig.renameDim ps e))) =
        (s.sem A).len e ((renameState ps st).remove (.idx e)) := by
    intro st e he
    have hs : renameState ps (st.remove (.idx (Sig.renameDim ps e))) = (renameState ps st).remove (.idx e) := by
      refine State.ext (fun q => ?_) (fun q => by simp only [renameState_len, State.remove, reduceCtorEq, if_false])
      simp only [renameState_idx, State.remove, Tag.idx.injEq]
      by_cases hq : q = e
      · subst hq; simp
      · simp only [hq, if_false]
        split
        · next h =>
          split
          · next h' =>
            have := hback q h
            rw [h', hback e (hacc e he)] at this
            exact absurd this.symm hq
          · rfl
        · rfl
    have hg := guard_len A s e ((renameState ps st).remove (.idx e))
    simp only [Struct.sem, ViewSem.toSem, View.sem, renameSem, hback e (hacc e he), hs]
    exact hg
  have hok2 : ∀ st e o, (s.sem A).sig.entry (renameState ps st) e o →
      (EntryOk ((Struct.view (.rename ps) s).sem A) st (Sig.renameDim ps e) o ↔
        EntryOk (s.sem A) (renameState ps st) e o) := by
    intro st e o he
    have ha := Sig.entry_accept he
    cases o with
    | some n => simp only [EntryOk, hidx st e ha]
    | none => simp only [EntryOk, hidx st e ha, hlen st e ha]
  have hlens : ∀ st : State, (∀ q, st (.len q) = L q) →
      ∀ q, renameState ps st (.len q) = (View.rename ps).lens A L q := by
    intro st h q
    simp only [renameState, View.lens, h]
  refine ⟨fun st h => ⟨_, rfl, ⟨fun e o he => ?_, fun e he => ?_, hlens st h.lens⟩, trivial⟩,
    fun u h _ => ?_, fun st st' u h h' hu hu' => ?_⟩
  · exact (hok2 st e o he).1 (h.ok _ _ ((hent st _ _).2 ⟨e, he, rfl⟩))
  · rw [renameState_idx] at he
    split at he
    · next hc =>
      obtain ⟨o, ho⟩ := h.only _ he
      obtain ⟨e', ho', he'⟩ := (hent st _ _).1 ho
      have := hback e' (hacc e' (Sig.entry_accept ho'))
      rw [he', hback e hc] at this
      subst this
      exact ⟨o, ho'⟩
    · simp at he
  · let st : State := fun t => match t with
      | .idx q => renameState (ps.map Prod.swap) u (.idx q)
      | .len q => L q
    have hsw1 : (ps.map Prod.swap).map Prod.fst = ps.map Prod.snd := by simp [Function.comp_def]
    have hsw2 : (ps.map Prod.swap).map Prod.snd = ps.map Prod.fst := by simp [Function.comp_def]
    have hs : renameState ps st = u := by
      refine State.ext (fun q => ?_) (fun q => by rw [hlens st (fun _ => rfl), h.lens])
      rw [renameState_idx]
      split
      · next hc =>
        show renameState (ps.map Prod.swap) u (.idx _) = _
        rw [renameState_idx, hback q hc, if_pos]
        rw [hsw1, hsw2]
        by_cases hf : q ∈ ps.map Prod.fst
        · exact .inl (renameDim_mem_snd hf)
        · rw [renameDim_of_not_mem hf]; exact .inr hf
      · next hc =>
        simp only [not_or, Classical.not_not] at hc
        cases hi : u (.idx q) with
        | none => rfl
        | some x =>
          obtain ⟨o, ho⟩ := h.only q (by simp [hi])
          rcases hacc q (Sig.entry_accept ho) with h | h
          · exact absurd h hc.1
          · exact absurd hc.2 h
    refine ⟨st, ⟨fun q o ho => ?_, fun q hq => ?_, fun _ => rfl⟩, congrArg some hs⟩
    · obtain ⟨e, he, rfl⟩ := (hent st _ _).1 ho
      refine (hok2 st e o he).2 ?_
      rw [hs] at he ⊢
      exact h.ok e o he
    · simp only [st, renameState_idx, hsw1, hsw2] at hq
      split at hq
      · next hc =>
        obtain ⟨o, ho⟩ := h.only _ hq
        refine ⟨o, (hent st _ _).2 ⟨_, by rw [hs]; exact ho, ?_⟩⟩
        exact renameDim_swap' h1 h2 q (by rintro ⟨ha, hb⟩; exact hc.elim hb (fun h => h ha))
      · simp at hq
  · refine State.ext (fun q => ?_) (fun q => by rw [h.lens, h'.lens])
    have e1 : renameState ps st = u := by simpa [View.sem, renameSem] using hu
    have e2 : renameState ps st' = u := by simpa [View.sem, renameSem] using hu'
    by_cases hc : q ∈ ps.map Prod.snd ∨ q ∉ ps.map Prod.fst
    · have hb : Sig.renameDim ps (Sig.renameDim (ps.map Prod.swap) q) = q :=
        renameDim_swap' h1 h2 q (by rintro ⟨ha, hb⟩; exact hc.elim hb (fun h => h ha))
      have hk := renameDim_swap_keep h2 q
      have a1 := congrFun e1 (.idx (Sig.renameDim (ps.map Prod.swap) q))
      have a2 := congrFun e2 (.idx (Sig.renameDim (ps.map Prod.swap) q))
      rw [renameState_idx, if_pos hk, hb] at a1 a2
      rw [a1, a2]
    · simp only [not_or, Classical.not_not] at hc
      have key : ∀ st, Addr ((Struct.view (.rename ps) s).sem A) L st → st (.idx q) = none := by
        intro st h
        cases hi : st (.idx q) with
        | none => rfl
        | some x =>
          obtain ⟨o, ho⟩ := h.only q (by simp [hi])
          obtain ⟨e, -, he⟩ := (hent st _ _).1 ho
          by_cases hf : e ∈ ps.map Prod.fst
          · exact absurd (he ▸ renameDim_mem_snd hf) hc.1
          · rw [renameDim_of_not_mem hf] at he; exact absurd (he ▸ hc.2) hf
      rw [key st h, key st' h']

end Noarr
