import Verif.Inside
import Verif.SigHard

/-
Which indices of the underlying structure the needed indices of a view correspond to. Used for C06.
-/

set_option linter.unusedVariables false
set_option linter.unusedSimpArgs false

namespace Noarr

/-- A view does not change the indices of the other dimensions. -/
theorem sub_idx {A : Arith} {v : View} {S : Sem} {st u : State} {q : Dim} (hq : q ∉ v.dims)
    (hu : (v.sem A S).sub st = some u) : u (.idx q) = st (.idx q) := by
  cases v with
  | bcast d =>
    simp only [View.dims, List.mem_singleton] at hq
    cases hu; simp [State.removeAll, hq]
  | fix d i =>
    simp only [View.dims, List.mem_singleton] at hq
    cases hu; simp [State.set, State.remove, hq]
  | setLength d l => cases hu; simp [State.set]
  | shift d a =>
    simp only [View.dims, List.mem_singleton] at hq
    cases hu; simp [State.mapAt, hq]
  | slice d a n =>
    simp only [View.dims, List.mem_singleton] at hq
    cases hu; simp [State.mapAt, hq]
  | span d a n =>
    simp only [View.dims, List.mem_singleton] at hq
    cases hu; simp [State.mapAt, hq]
  | step d a n =>
    simp only [View.dims, List.mem_singleton] at hq
    cases hu; simp [State.mapAt, hq]
  | reverse d =>
    simp only [View.dims, List.mem_singleton] at hq
    simp only [View.sem, reverseSem] at hu
    split at hu
    · cases hu; rfl
    · split at hu
      · simp at hu
      · cases hu; simp [State.remove, hq]
      · simp only [bind, Option.bind_eq_some_iff, Option.some.injEq] at hu
        obtain ⟨l, -, rfl⟩ := hu
        simp [State.set, State.remove, hq]
  | reorder ds => cases hu; rfl
  | hoist d => cases hu; rfl
  | rename ps =>
    simp only [View.dims, List.mem_append, not_or] at hq
    cases hu
    rw [renameState_idx, if_pos (.inr hq.2), renameDim_of_not_mem hq.1]
  | join a b d =>
    simp only [View.dims, List.mem_cons, List.not_mem_nil, or_false, not_or] at hq
    obtain ⟨x, h1, h2, h3⟩ := join_sub_eq_some (S := S) hu
    rcases h3 with ⟨l, hl, hx, rfl⟩ | ⟨hl, rfl⟩ <;> cases st (.idx d) <;>
      simp [joinClean, State.removeAll, State.set] <;> grind
  | intoBlocks d maj min =>
    simp only [View.dims, List.mem_cons, List.not_mem_nil, or_false, not_or] at hq
    rw [ibSub_idx (S := S) hu hq.1]; simp [blocksClean, State.removeAll, hq]
  | intoBlocksDyn d maj min pres =>
    simp only [View.dims, List.mem_cons, List.not_mem_nil, or_false, not_or] at hq
    rw [ibdSub_idx (S := S) hu hq.1]; simp [dynClean, State.removeAll, hq]
  | intoBlocksStat d border maj min nl =>
    simp only [View.dims, List.mem_cons, List.not_mem_nil, or_false, not_or] at hq
    rw [ibsSub_idx (S := S) hu hq.1]; simp [statClean, State.removeAll, hq]
  | mergeBlocks maj min d =>
    simp only [View.dims, List.mem_cons, List.not_mem_nil, or_false, not_or] at hq
    rw [mbSub_idx (S := S) hu hq.1 hq.2.1]; simp [blocksClean, State.removeAll, hq]
  | mergeZ sl gl ds d =>
    simp only [View.dims, List.mem_cons, not_or] at hq
    have hu' : mergeZSub A sl gl ds d S st = some u := hu
    simp only [mergeZSub] at hu'
    split at hu'
    · cases hu'; simp [State.removeAll, hq]
    · simp only [bind, Option.bind_eq_some_iff, Option.some.injEq] at hu'
      obtain ⟨lens, -, rfl⟩ := hu'
      rw [setIdxs_idx_not_mem]
      · simp [State.removeAll, hq]
      · intro h
        simp only [List.mem_map] at h
        obtain ⟨p, hp, rfl⟩ := h
        exact hq.2 (List.of_mem_zip hp).1

namespace Sig

/-- Needed indices after the replacement of one dimension: the others are needed by the original,
and the new ones only if the replaced one is. -/
theorem needs_replace1 {S : Sig} {R : Sig → Sig} {d : Dim} {T New : List Dim} {st u : State} {q : Dim}
    (hd : d ∈ T) (hT : ∀ e ∈ T, e = d ∨ S.anyAccept e = false)
    (hag : ∀ e, e ∉ T → st (.idx e) = u (.idx e)) (hu : S.uniq) (hw : (S.replace R [d]).wf = true)
    (hR : ∀ N, At u S N → N.uniq → Starts [d] N → (R N).wf = true → (R N).needs st q →
      q ∈ New ∨ ∃ c, At u N c ∧ c.anyAccept d = false ∧ c.needs st q)
    (h : (S.replace R [d]).needs st q) :
    (q ∉ T ∧ S.needs u q) ∨ (q ∈ New ∧ S.needs u d) := by
  have hout : ∀ e, e ≠ d → S.anyAccept e = true → e ∉ T := by
    intro e h1 h2 h3
    rcases hT e h3 with h | h
    · exact h1 h
    · rw [h2] at h; cases h
  rcases needs_replace (u := u) (fun e h1 h2 => hag e (hout e (by simpa using h1) h2)) hw h with
    ⟨h1, h2⟩ | ⟨N, h1, h2, h3, h4⟩
  · exact .inl ⟨hout q (by simpa using h1) (needs_anyAccept h2), h2⟩
  · rcases hR N h1 (h1.uniq hu) h4 h3 h2 with h5 | ⟨c, h5, h6, h7⟩
    · refine .inr ⟨h5, h1.needs ?_⟩
      rcases h4 with ⟨e, l, r, rfl, he⟩ | ⟨e, n, rs, rfl, he⟩
      · simp at he; exact .inl he.symm
      · simp at he; exact .inl he.symm
    · have hacc : ∀ e, c.anyAccept e = true → e ∉ T := by
        intro e he
        refine hout e ?_ (h1.accept (h5.accept he))
        rintro rfl; rw [h6] at he; cases he
      refine .inl ⟨hacc q (needs_anyAccept h7), h1.needs (h5.needs ?_)⟩
      exact (needs_congr fun e he => hag e (hacc e he)).1 h7

theorem find_needs {S : Sig} {d : Dim} {st0 st : State}
    (hag : ∀ e k, st0 (.idx e) = some (.lit k) → st (.idx e) = some (.lit k))
    (h : ∀ N, S.find d st0 = N → N ≠ .ill) : S.needs st d := by
  induction S with
  | scalar s => exact absurd rfl (h _ rfl)
  | void => exact absurd rfl (h _ rfl)
  | ill => exact absurd rfl (h _ rfl)
  | fn e l r ih =>
    simp only [find] at h
    by_cases he : e = d
    · exact .inl he.symm
    · simp only [he, if_false] at h
      exact .inr (ih h)
  | dep e n rs ih =>
    simp only [find] at h
    by_cases he : e = d
    · exact .inl he.symm
    · simp only [he, if_false] at h
      cases hk : litIdx n (st0 (.idx e)) with
      | none => simp only [hk] at h; exact absurd rfl (h _ rfl)
      | some k =>
        simp only [hk] at h
        refine .inr ⟨k, ?_, ih k h⟩
        rw [hag e k (litIdx_eq_some hk)]
        exact litIdx_lit k.2

theorem needs_reassembleScalar {S : Sig} {st0 st : State} {q : Dim} :
    ¬ (S.reassembleScalar st0).needs st q := by
  intro h
  have := needs_anyAccept h
  rw [accept_reassembleScalar] at this; cases this

theorem needs_reassemble {top : Sig} {ds : List Dim} {st0 st : State} {q : Dim}
    (hag : ∀ e k, st0 (.idx e) = some (.lit k) → st (.idx e) = some (.lit k))
    (h : (top.reassemble ds st0).needs st q) : top.needs st q := by
  induction ds generalizing st0 with
  | nil => exact absurd h needs_reassembleScalar
  | cons d ds ih =>
    simp only [reassemble] at h
    split at h
    · exact absurd h id
    · split at h
      · next hf =>
        rcases h with rfl | h
        · exact find_needs hag (by intro N hN; rw [← hN, hf]; simp)
        · refine ih ?_ h
          intro e k he
          simp only [State.set] at he
          split at he
          · simp at he
          · exact hag e k he
      · next hf =>
        rcases h with rfl | ⟨k, hk, h⟩
        · exact find_needs hag (by intro N hN; rw [← hN, hf]; simp)
        · refine ih ?_ h
          intro e k' he
          simp only [State.set] at he
          split at he
          · next heq =>
            injection heq with heq
            subst heq
            simp only [Option.some.injEq, Val.lit.injEq] at he
            rw [← he]
            exact litIdx_eq_some hk
          · exact hag e k' he
      · exact absurd h id

theorem needs_mapDims {S : Sig} {f : Dim → Dim} {st u : State} {q : Dim}
    (hag : ∀ e, S.anyAccept e = true → u (.idx e) = st (.idx (f e))) (h : (S.mapDims f).needs st q) :
    ∃ e, S.needs u e ∧ f e = q := by
  induction S with
  | scalar s => exact absurd h id
  | void => exact absurd h id
  | ill => exact absurd h id
  | fn d l r ih =>
    rcases h with rfl | h
    · exact ⟨d, .inl rfl, rfl⟩
    · obtain ⟨e, h1, h2⟩ := ih (fun e he => hag e (accept_fn.2 (.inr he))) h
      exact ⟨e, .inr h1, h2⟩
  | dep d n rs ih =>
    rcases h with rfl | ⟨k, hk, h⟩
    · exact ⟨d, .inl rfl, rfl⟩
    · obtain ⟨e, h1, h2⟩ := ih k (fun e he => hag e (accept_dep.2 (.inr ⟨k, he⟩))) h
      rw [← hag d (accept_dep.2 (.inl rfl))] at hk
      exact ⟨e, .inr ⟨k, hk, h1⟩, h2⟩

theorem needs_mergeZ {ds : List Dim} {d : Dim} (hnd : ds.Nodup) {S : Sig} (hd : d ∈ ds ∨ S.anyAccept d = false)
    {rem : Nat} {acc : ArgLen} (seen : List Dim) (hsn : seen.Nodup) (hss : ∀ x ∈ seen, x ∈ ds)
    (hlen : seen.length + rem = ds.length) (hS : ∀ x ∈ seen, S.anyAccept x = false)
    (hu : S.uniq) {st u : State} (hag : ∀ e, e ∉ d :: ds → st (.idx e) = u (.idx e)) {q : Dim}
    (hw : (S.mergeZRepl ds d rem acc).wf = true)
    (h : (S.mergeZRepl ds d rem acc).needs st q) :
    (q ∉ d :: ds ∧ S.needs u q) ∨ (q = d ∧ ∀ e ∈ ds, e ∈ seen ∨ S.needs u e) := by
  induction S generalizing rem acc seen with
  | scalar s => exact absurd h id
  | void => exact absurd h id
  | ill => exact absurd h id
  | fn e l r ih =>
    simp only [mergeZRepl] at h hw
    by_cases he : e ∈ ds
    · have hes : e ∉ seen := fun h => by have := hS e h; simp [anyAccept] at this
      rw [if_pos he] at h hw
      by_cases hr : rem ≤ 1
      · rw [if_pos hr] at h hw
        have hall := all_seen (l1 := e :: seen) (l2 := ds) (by simp [hes, hsn])
              (by simp; exact ⟨he, hss⟩) (by simp; omega)
        rcases h with rfl | h
        · refine .inr ⟨rfl, fun x hx => ?_⟩
          rcases List.mem_cons.1 (hall x hx) with rfl | h
          · exact .inr (.inl rfl)
          · exact .inl h
        · have hacc : ∀ x, r.anyAccept x = true → x ∉ d :: ds := by
            intro x hx hmem
            have hx' : x ∈ ds := by
              rcases List.mem_cons.1 hmem with rfl | h
              · rcases hd with h | h
                · exact h
                · simp [anyAccept] at h; rw [h.2] at hx; cases hx
              · exact h
            rcases List.mem_cons.1 (hall x hx') with rfl | h
            · rw [hu.1] at hx; cases hx
            · have := hS x h
              simp [anyAccept] at this
              rw [this.2] at hx; cases hx
          refine .inl ⟨hacc q (needs_anyAccept h), .inr ?_⟩
          exact (needs_congr fun e he => hag e (hacc e he)).1 h
      · rw [if_neg hr] at h hw
        rcases ih (hd.imp_right fun h => by simp [anyAccept] at h; exact h.2) (e :: seen)
          (by simp [hes, hsn]) (by simp; exact ⟨he, hss⟩) (by simp; omega) (by
            intro x hx
            rcases List.mem_cons.1 hx with rfl | h
            · exact hu.1
            · have := hS x h
              simp [anyAccept] at this
              exact this.2) hu.2 hw h with ⟨h1, h2⟩ | ⟨h1, h2⟩
        · exact .inl ⟨h1, .inr h2⟩
        · refine .inr ⟨h1, fun x hx => ?_⟩
          rcases h2 x hx with h | h
          · rcases List.mem_cons.1 h with rfl | h
            · exact .inr (.inl rfl)
            · exact .inl h
          · exact .inr (.inr h)
    · rw [if_neg he] at h hw
      have hed : e ≠ d := by
        rintro rfl
        rcases hd with h | h
        · exact he h
        · simp [anyAccept] at h
      rcases h with rfl | h
      · exact .inl ⟨by simp [he, hed], .inl rfl⟩
      · rcases ih (hd.imp_right fun h => by simp [anyAccept] at h; exact h.2) seen hsn hss hlen (by
            intro x hx
            have := hS x hx
            simp [anyAccept] at this
            exact this.2) hu.2 hw h with ⟨h1, h2⟩ | ⟨h1, h2⟩
        · exact .inl ⟨h1, .inr h2⟩
        · exact .inr ⟨h1, fun x hx => (h2 x hx).imp_right .inr⟩
  | dep e n rs ih =>
    simp only [mergeZRepl] at h hw
    by_cases he : e ∈ ds
    · rw [if_pos he] at h; exact absurd h id
    · rw [if_neg he] at h hw
      have hed : e ≠ d := by
        rintro rfl
        rcases hd with h | h
        · exact he h
        · simp [anyAccept] at h
      simp only [wf, decide_eq_true_eq] at hw
      have hno : ∀ {x}, (Sig.dep e n rs).anyAccept x = false → ∀ k, (rs k).anyAccept x = false := by
        intro x hx k
        cases hc : (rs k).anyAccept x with
        | false => rfl
        | true => rw [accept_dep.2 (.inr ⟨k, hc⟩)] at hx; cases hx
      rcases h with rfl | ⟨k, hk, h⟩
      · exact .inl ⟨by simp [he, hed], .inl rfl⟩
      · rw [hag e (by simp [he, hed])] at hk
        rcases ih k (hd.imp_right fun h => hno h k) seen hsn hss hlen
          (fun x hx => hno (hS x hx) k) (hu k).2 (hw k) h with ⟨h1, h2⟩ | ⟨h1, h2⟩
        · exact .inl ⟨h1, .inr ⟨k, hk, h2⟩⟩
        · exact .inr ⟨h1, fun x hx => (h2 x hx).imp_right fun h => .inr ⟨k, hk, h⟩⟩

theorem At.hasDep {st : State} {S N : Sig} (h : At st S N) {q : Dim} (hq : N.hasDep q) :
    S.hasDep q := by
  induction h with
  | refl => exact hq
  | fn _ ih => exact ih hq
  | dep _ _ ih => exact .inr ⟨_, ih hq⟩

/-- The views that change an index. -/
theorem needs_indexmap {S : Sig} {R : Sig → Sig} {d : Dim} {st u : State} {q : Dim}
    (hag : ∀ e, e ≠ d → st (.idx e) = u (.idx e)) (hu : S.uniq) (hw : (S.replace R [d]).wf = true)
    (hfn : ∀ e l r, (R (.fn e l r)).wf = true → ∃ l', R (.fn e l r) = .fn e l' r)
    (hdep : ∀ n rs, At u S (.dep d n rs) → (R (.dep d n rs)).wf = true →
      ∃ m f, R (.dep d n rs) = select d rs m f ∧
        ∀ k, st (.idx d) = some (.lit k) → u (.idx d) = some (.lit (f k)))
    (h : (S.replace R [d]).needs st q) : (q ≠ d ∧ S.needs u q) ∨ (q = d ∧ S.needs u d) := by
  have := needs_replace1 (T := [d]) (New := [d]) (by simp) (by simp) (fun e he => hag e (by simpa using he)) hu hw ?_ h
  · simpa using this
  · intro N hN hNu hs hw' hq
    rcases hs with ⟨e, l, r, rfl, he⟩ | ⟨e, n, rs, rfl, he⟩
    · simp at he; subst he
      obtain ⟨l', h'⟩ := hfn e l r hw'
      rw [h'] at hq
      rcases hq with rfl | hq
      · exact .inl (by simp)
      · exact .inr ⟨r, .fn (.refl _), hNu.1, hq⟩
    · simp at he; subst he
      obtain ⟨m, f, h', hk⟩ := hdep n rs hN hw'
      rw [h'] at hq
      rcases needs_select hq with rfl | ⟨k, hfk, h1, h2, h3⟩
      · exact .inl (by simp)
      · refine .inr ⟨_, .dep (k := ⟨f k, hfk⟩) ?_ (.refl _), (hNu _).1, h3⟩
        rw [hk k h1]
        exact litIdx_lit hfk

end Sig

/-- The dimension `q` of the view stands for dimensions that satisfy `N`. -/
def View.from (N : Dim → Prop) (q : Dim) : View → Prop
  | .shift d _ | .slice d _ _ | .span d _ _ | .step d _ _ | .reverse d => q = d ∧ N d
  | .rename ps => ∃ n, N n ∧ (n ∈ ps.map Prod.fst ∨ n ∉ ps.map Prod.snd) ∧ Sig.renameDim ps n = q
  | .intoBlocks d maj min => (q = maj ∨ q = min) ∧ N d
  | .intoBlocksDyn d maj min pres => (q = maj ∨ q = min ∨ q = pres) ∧ N d
  | .intoBlocksStat d border maj min _ => (q = border ∨ q = maj ∨ q = min) ∧ N d
  | .mergeBlocks maj min d => q = d ∧ N maj ∧ N min
  | .mergeZ _ _ ds d => q = d ∧ ∀ e ∈ ds, N e
  | _ => False

open Sig in
/-- Where the needed indices of a view come from. -/
theorem needs_sub {v : View} {s : Struct} {st u : State} {q : Dim} (hw : (Struct.view v s).wf .ideal)
    (hn : (Struct.view v s).noAlias) (hs : (Struct.view v s).sane .ideal)
    (hu : (v.sem .ideal (s.sem .ideal)).sub st = some u)
    (h : ((Struct.view v s).sem .ideal).sig.needs st q) :
    (q ∉ v.dims ∧ (s.sem .ideal).sig.needs u q) ∨
    v.from (fun e => (s.sem .ideal).sig.needs u e) q := by
  have ih := Struct.sig_uniq .ideal s hw.2 hn.1
  have hhard := fun q => Struct.hard_of_hasDep .ideal s hw.2 (s.noDup_of_noAlias .ideal hw.2 hn.1) (q := q)
  have hw := hw.1
  simp only [Struct.sem, ViewSem.toSem] at h hw
  have hsi := fun e (he : e ∉ v.dims) => (sub_idx (A := .ideal) (S := s.sem .ideal) he hu).symm
  generalize hS : s.sem .ideal = S at h ih hu hw hhard hsi ⊢
  cases v with
  | bcast d => exact absurd hn.2 id
  | join a b d => exact absurd hn.2 id
  | fix d i =>
    simp only [View.sem, fixSem] at h hw hu
    have := needs_replace1 (T := [d]) (New := []) (u := u) (by simp) (by simp) (fun e he => hsi e he) ih hw ?_ h
    · simpa [View.dims, View.from] using this
    · intro N hN hNu hs hw' hq
      rcases hs with ⟨e, l, r, rfl, he⟩ | ⟨e, n, rs, rfl, he⟩
      · simp at he; subst he
        exact .inr ⟨r, .fn (.refl _), hNu.1, hq⟩
      · simp at he; subst he
        cases i <;> simp only [fixRepl, branch] at hw' hq <;>
          first | (simp [Sig.wf] at hw'; done) | skip
        split at hw'
        · next hk =>
          rw [dif_pos hk] at hq
          refine .inr ⟨_, .dep (k := ⟨_, hk⟩) ?_ (.refl _), (hNu _).1, hq⟩
          cases hu
          simp only [State.set, if_true]
          exact litIdx_lit hk
        · simp [Sig.wf] at hw'
  | setLength d l =>
    left
    refine ⟨by simp [View.dims], ?_⟩
    have := needs_indexmap (R := setLengthRepl l) (u := u) (fun e he => hsi e (by simp [View.dims])) ih hw ?_ ?_ h
    · rcases this with h | ⟨rfl, h⟩
      · exact h.2
      · exact h
    · intro e l' r _; exact ⟨_, rfl⟩
    · intro n rs _ h; simp [setLengthRepl, Sig.wf] at h
  | shift d a =>
    have := needs_indexmap (R := shiftRepl a) (u := u) (fun e he => hsi e (by simpa [View.dims, View.from] using he)) ih hw ?_ ?_ h
    · simpa [View.dims, View.from] using this
    · intro e l' r _; exact ⟨_, rfl⟩
    · intro n rs _ h
      cases a <;> simp only [shiftRepl] at h ⊢ <;> first | (simp [Sig.wf] at h; done) | skip
      split at h
      · next h' =>
        rw [if_pos h']
        refine ⟨_, _, rfl, fun k hk => ?_⟩
        cases hu
        simp [State.mapAt, hk, Val.add, Val.ofLit, Arith.ideal]
      · simp [Sig.wf] at h
  | slice d a m =>
    have := needs_indexmap (R := sliceRepl a m) (u := u) (fun e he => hsi e (by simpa [View.dims, View.from] using he)) ih hw ?_ ?_ h
    · simpa [View.dims, View.from] using this
    · intro e l' r _; exact ⟨_, rfl⟩
    · intro n rs _ h
      cases a <;> cases m <;> simp only [sliceRepl] at h ⊢ <;> first | (simp [Sig.wf] at h; done) | skip
      refine ⟨_, _, rfl, fun k hk => ?_⟩
      cases hu
      simp [State.mapAt, hk, Val.add, Val.ofLit, Arith.ideal]
  | span d a m =>
    have := needs_indexmap (R := spanRepl a m) (u := u) (fun e he => hsi e (by simpa [View.dims, View.from] using he)) ih hw ?_ ?_ h
    · simpa [View.dims, View.from] using this
    · intro e l' r _; exact ⟨_, rfl⟩
    · intro n rs _ h
      cases a <;> cases m <;> simp only [spanRepl] at h ⊢ <;> first | (simp [Sig.wf] at h; done) | skip
      split at h
      · next h' =>
        rw [if_pos h']
        refine ⟨_, _, rfl, fun k hk => ?_⟩
        cases hu
        simp [State.mapAt, hk, Val.add, Val.ofLit, Arith.ideal]
      · simp [Sig.wf] at h
  | step d a m =>
    have := needs_indexmap (R := stepRepl a m) (u := u) (fun e he => hsi e (by simpa [View.dims, View.from] using he)) ih hw ?_ ?_ h
    · simpa [View.dims, View.from] using this
    · intro e l' r _; exact ⟨_, rfl⟩
    · intro n rs _ h
      cases a <;> cases m <;> simp only [stepRepl] at h ⊢ <;> first | (simp [Sig.wf] at h; done) | skip
      split at h
      · next h' =>
        rw [if_pos h']
        refine ⟨_, _, rfl, fun k hk => ?_⟩
        cases hu
        simp [State.mapAt, hk, Val.add, Val.mul, Val.ofLit, Arith.ideal]
      · simp [Sig.wf] at h
  | reverse d =>
    have := needs_indexmap (R := reverseRepl) (u := u) (fun e he => hsi e (by simpa [View.dims, View.from] using he)) ih hw ?_ ?_ h
    · simpa [View.dims, View.from] using this
    · intro e l' r _; exact ⟨_, rfl⟩
    · intro n rs hat _
      exact absurd (hhard d (hat.hasDep (.inl rfl))) hs.2.1
  | reorder ds =>
    left
    cases hu
    exact ⟨by simp [View.dims], needs_reassemble (by intro e k h; simp [State.empty] at h) h⟩
  | hoist d =>
    left
    cases hu
    refine ⟨by simp [View.dims], ?_⟩
    simp only [View.sem, hoistSem] at h hw
    split at h
    · next hf =>
      rw [hf] at hw
      rcases h with rfl | h
      · exact find_needs (st0 := State.empty) (by intro e k h; simp [State.empty] at h)
          (by intro N hN; rw [← hN, hf]; simp)
      · have := needs_replace1 (T := [d]) (New := []) (u := st) (by simp) (by simp) (fun e he => rfl) ih hw ?_ h
        · simp at this; exact this.2
        · intro N hN hNu hs hw' hq
          obtain ⟨e, l, r, rfl, he⟩ := starts_fn hs retRepl (fun _ _ _ => rfl) hw'
          simp at he; subst he
          exact .inr ⟨r, .fn (.refl _), hNu.1, hq⟩
    · exact absurd h id
  | rename ps =>
    right
    cases hu
    simp only [View.sem, renameSem] at h
    split at h
    · next hok =>
      have hk : ∀ x, S.sig.anyAccept x = true → x ∈ ps.map Prod.fst ∨ x ∉ ps.map Prod.snd := by
        intro x hx
        simp only [renameOk, Bool.and_eq_true, decide_eq_true_eq, List.all_eq_true, Bool.or_eq_true,
          Bool.not_eq_true'] at hok
        by_cases hs : x ∈ ps.map Prod.snd
        · rcases hok.2 x hs with h | h
          · rw [hx] at h; cases h
          · exact .inl h
        · exact .inr hs
      obtain ⟨e, h1, h2⟩ := needs_mapDims (u := renameState ps st) (fun e he => by
        rw [renameState_idx, if_pos (hk e he)]) h
      exact ⟨e, h1, hk e (needs_anyAccept h1), h2⟩
    · exact absurd h id
  | intoBlocks d maj min =>
    simp only [View.sem, intoBlocksSem] at h hw
    split at h
    · exact absurd h id
    · next hc =>
      rw [if_neg hc] at hw
      simp only [not_or, not_and, Bool.not_eq_true] at hc
      obtain ⟨hne, h1, h2⟩ := hc
      have := needs_replace1 (T := [d, maj, min]) (New := [maj, min]) (u := u) (by simp) ?_ (fun e he => hsi e he) ih hw ?_ h
      · simpa [View.dims, View.from] using this
      · intro e he; simp at he; grind
      · intro N hN hNu hs hw' hq
        obtain ⟨e, l, r, rfl, he⟩ := starts_fn hs (intoBlocksRepl maj min) (fun _ _ _ => rfl) hw'
        simp at he; subst he
        rcases hq with rfl | rfl | hq
        · exact .inl (by simp)
        · exact .inl (by simp)
        · exact .inr ⟨r, .fn (.refl _), hNu.1, hq⟩
  | intoBlocksDyn d maj min pres =>
    simp only [View.sem, intoBlocksDynSem] at h hw
    split at h
    · exact absurd h id
    · next hc =>
      rw [if_neg hc] at hw
      simp only [not_or, not_and, Bool.not_eq_true] at hc
      obtain ⟨hne, hne1, hne2, h1, h2, h3⟩ := hc
      have := needs_replace1 (T := [d, maj, min, pres]) (New := [maj, min, pres]) (u := u) (by simp) ?_ (fun e he => hsi e he) ih hw ?_ h
      · simpa [View.dims, View.from] using this
      · intro e he; simp at he; grind
      · intro N hN hNu hs hw' hq
        obtain ⟨e, l, r, rfl, he⟩ := starts_fn hs (intoBlocksDynRepl maj min pres) (fun _ _ _ => rfl) hw'
        simp at he; subst he
        rcases hq with rfl | rfl | rfl | hq
        · exact .inl (by simp)
        · exact .inl (by simp)
        · exact .inl (by simp)
        · exact .inr ⟨r, .fn (.refl _), hNu.1, hq⟩
  | intoBlocksStat d border maj min nl =>
    simp only [View.sem, intoBlocksStatSem] at h hw
    split at h
    · exact absurd h id
    · next hc =>
      rw [if_neg hc] at hw
      simp only [not_or, not_and, Bool.not_eq_true] at hc
      obtain ⟨hne, hne1, hne2, h1, h2, h3⟩ := hc
      have := needs_replace1 (T := [d, border, maj, min]) (New := [border, maj, min]) (u := u) (by simp) ?_ (fun e he => hsi e he) ih hw ?_ h
      · simpa [View.dims, View.from] using this
      · intro e he; simp at he; grind
      · intro N hN hNu hs hw' hq
        obtain ⟨e, l, r, rfl, he⟩ := starts_fn hs (intoBlocksStatRepl border maj min nl) (fun _ _ _ => rfl) hw'
        simp at he; subst he
        obtain ⟨l1, l2, he⟩ := intoBlocksStatRepl_fn hw'
        rw [he] at hq
        rcases hq with rfl | ⟨k, -, hq⟩
        · exact .inl (by simp)
        · dsimp only at hq
          split at hq
          · rcases hq with rfl | rfl | hq
            · exact .inl (by simp)
            · exact .inl (by simp)
            · exact .inr ⟨r, .fn (.refl _), hNu.1, hq⟩
          · rcases hq with rfl | rfl | hq
            · exact .inl (by simp)
            · exact .inl (by simp)
            · exact .inr ⟨r, .fn (.refl _), hNu.1, hq⟩
  | mergeBlocks maj min d =>
    simp only [View.sem, mergeBlocksSem] at h hw
    split at h
    · exact absurd h id
    · next hc =>
      rw [if_neg hc] at hw
      simp only [not_or, not_and, Bool.not_eq_true] at hc
      obtain ⟨hne, h1⟩ := hc
      have hT : ∀ e, e ∉ [maj, min] → S.sig.anyAccept e = true → e ∉ (View.mergeBlocks maj min d).dims := by
        intro e h2 h3 h4
        simp [View.dims] at h2 h4
        grind
      rcases needs_replace (u := u) (fun e h2 h3 => hsi e (hT e h2 h3)) hw h with ⟨h2, h3⟩ | ⟨N, hN, hq, hw', hst⟩
      · exact .inl ⟨hT q h2 (needs_anyAccept h3), h3⟩
      · obtain ⟨e, l, r, rfl, he⟩ := starts_fn hst (mergeBlocksRepl maj min d) (fun _ _ _ => rfl) hw'
        have hNu := hN.uniq ih
        simp only [mergeBlocksRepl] at hw' hq
        have hT' : ∀ x, x ∉ [min, maj] → r.anyAccept x = true → x ∉ (View.mergeBlocks maj min d).dims := by
          intro x h2 h3
          exact hT x (by simp at h2 ⊢; grind) (hN.accept (accept_fn.2 (.inr h3)))
        rcases needs_replace (u := u) (fun x h2 h3 => hsi x (hT' x h2 h3)) hw' hq with
          ⟨h2, h3⟩ | ⟨M, hM, hq, hw'', hst'⟩
        · exact .inl ⟨hT' q h2 (needs_anyAccept h3), hN.needs (.inr h3)⟩
        · obtain ⟨e', l', r', rfl, he'⟩ := starts_fn hst' (mergeBlocksInner maj min d e l) (fun _ _ _ => rfl) hw''
          have hMu := hM.uniq hNu.2
          have hat' : At u S.sig r' := hN.trans (.fn (hM.trans (.fn (.refl _))))
          simp only [mergeBlocksInner] at hq hw''
          split at hq
          · next hcase =>
            have hne' : S.sig.needs u e := hN.needs (.inl rfl)
            have hne'' : S.sig.needs u e' := hN.needs (.inr (hM.needs (.inl rfl)))
            rcases hq with rfl | hq
            · right
              rcases hcase with ⟨rfl, rfl⟩ | ⟨rfl, rfl⟩
              · exact ⟨rfl, hne', hne''⟩
              · exact ⟨rfl, hne'', hne'⟩
            · have hacc : ∀ x, r'.anyAccept x = true → x ∉ (View.mergeBlocks maj min d).dims := by
                intro x hx
                refine hT x ?_ (hat'.accept hx)
                have h1 : x ≠ e' := by rintro rfl; rw [hMu.1] at hx; cases hx
                have h2 : x ≠ e := by
                  rintro rfl
                  have := hM.accept (accept_fn.2 (.inr hx))
                  rw [hNu.1] at this; cases this
                simp; grind
              refine .inl ⟨hacc q (needs_anyAccept hq), hat'.needs ?_⟩
              exact (needs_congr fun x hx => hsi x (hacc x hx)).1 hq
          · exact absurd hq id
  | mergeZ sl gl ds d =>
    simp only [View.sem, mergeZSem] at h hw
    split at h
    · exact absurd h id
    · next hc =>
      rw [if_neg hc] at hw
      simp only [not_or, not_and, Bool.not_eq_true, Classical.not_not] at hc
      obtain ⟨-, -, -, hnd, hd⟩ := hc
      have := needs_mergeZ hnd (by by_cases hx : d ∈ ds; exact .inl hx; exact .inr (hd hx)) []
          (by simp) (by simp) (by simp) (by simp) ih (u := u) (fun e he => hsi e he) hw h
      simpa [View.dims, View.from] using this

end Noarr
