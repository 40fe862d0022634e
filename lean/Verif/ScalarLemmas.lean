import Verif.ScalarType
import Verif.AliasNeeds
import Verif.Select
import Verif.SubLemmas

/-
The path through a signature and the structures it corresponds to, for C55.
-/

set_option linter.unusedVariables false
set_option linter.unusedSimpArgs false

namespace Noarr

namespace Sig

/-- A signature without dimensions. -/
inductive Leaf : Sig → Prop
  | scalar (e : Nat) : Leaf (.scalar e)
  | void : Leaf .void

theorem at_leaf {st : State} {S N : Sig} (hS : Leaf S) (h : At st S N) : N = S := by
  cases hS <;> cases h <;> rfl

theorem at_congr {S L : Sig} {st st' : State} (h : ∀ e, S.hasDep e → st (.idx e) = st' (.idx e))
    (ha : At st S L) : At st' S L := by
  induction ha with
  | refl => exact .refl _
  | fn _ ih => exact .fn (ih h)
  | @dep d n rs k N hk _ ih =>
    refine .dep (k := k) ?_ (ih fun e he => h e (.inr ⟨k, he⟩))
    rw [← h d (.inl rfl)]; exact hk

/-- The path through a signature in which some nodes are replaced. -/
theorem at_replace {S L : Sig} {R : Sig → Sig} {ds : List Dim} {st u : State} (hL : Leaf L)
    (hag : ∀ e, e ∉ ds → S.hasDep e → st (.idx e) = u (.idx e)) (hu : S.uniq)
    (hw : (S.replace R ds).wf = true)
    (hR : ∀ N, At u S N → N.uniq → Starts ds N → (R N).wf = true → At st (R N) L → At u N L)
    (h : At st (S.replace R ds) L) : At u S L := by
  induction S with
  | scalar s => rw [at_leaf (.scalar s) h]; exact .refl _
  | void => rw [at_leaf .void h]; exact .refl _
  | ill => simp [replace, wf] at hw
  | fn d l r ih =>
    simp only [replace] at h hw
    by_cases hd : d ∈ ds
    · rw [if_pos hd] at h hw
      exact hR _ (.refl _) hu (.inl ⟨d, l, r, rfl, hd⟩) hw h
    · rw [if_neg hd] at h hw
      refine .fn (ih (fun e h1 h2 => hag e h1 h2) hu.2 hw (fun N hN => hR N (.fn hN)) ?_)
      cases h with
      | refl => cases hL
      | fn h => exact h
  | dep d n rs ih =>
    simp only [replace] at h hw
    by_cases hd : d ∈ ds
    · rw [if_pos hd] at h hw
      exact hR _ (.refl _) hu (.inr ⟨d, n, rs, rfl, hd⟩) hw h
    · rw [if_neg hd] at h hw
      simp only [wf, decide_eq_true_eq] at hw
      cases h with
      | refl => cases hL
      | @dep _ _ _ k _ hk h =>
        rw [hag d hd (.inl rfl)] at hk
        exact .dep hk (ih k (fun e h1 h2 => hag e h1 (.inr ⟨k, h2⟩)) (hu k).2 (hw k)
          (fun N hN => hR N (.dep hk hN)) h)

theorem at_fn {d : Dim} {l : ArgLen} {r L : Sig} {st : State} (hL : Leaf L) (h : At st (.fn d l r) L) :
    At st r L := by
  cases h with
  | refl => cases hL
  | fn h => exact h

theorem at_dep {d : Dim} {n : Nat} {rs : Fin n → Sig} {L : Sig} {st : State} (hL : Leaf L)
    (h : At st (.dep d n rs) L) : ∃ k, litIdx n (st (.idx d)) = some k ∧ At st (rs k) L := by
  cases h with
  | refl => cases hL
  | dep hk h => exact ⟨_, hk, h⟩

/-- The views that change an index. -/
theorem at_indexmap {S L : Sig} {R : Sig → Sig} {d : Dim} {st u : State} (hL : Leaf L)
    (hag : ∀ e, e ≠ d → st (.idx e) = u (.idx e)) (hu : S.uniq) (hw : (S.replace R [d]).wf = true)
    (hfn : ∀ e l r, (R (.fn e l r)).wf = true → ∃ l', R (.fn e l r) = .fn e l' r)
    (hdep : ∀ n rs, At u S (.dep d n rs) → (R (.dep d n rs)).wf = true →
      ∃ m f, R (.dep d n rs) = select d rs m f ∧
        ∀ k, st (.idx d) = some (.lit k) → u (.idx d) = some (.lit (f k)))
    (h : At st (S.replace R [d]) L) : At u S L := by
  refine at_replace hL (fun e he _ => hag e (by simpa using he)) hu hw (fun N hN hNu hs hw' hl => ?_) h
  rcases hs with ⟨e, l, r, rfl, he⟩ | ⟨e, n, rs, rfl, he⟩
  · simp at he; subst he
    obtain ⟨l', h'⟩ := hfn e l r hw'
    rw [h'] at hl
    refine .fn (at_congr (fun x hx => hag x ?_) (at_fn hL hl))
    rintro rfl
    have := hasDep_accept hx
    rw [hNu.1] at this; cases this
  · simp at he; subst he
    obtain ⟨m, f, h', hk⟩ := hdep n rs hN hw'
    rw [h'] at hl hw'
    simp only [select] at hl hw'
    split at hl
    · next hf =>
      obtain ⟨k, h1, h2⟩ := at_dep hL hl
      refine .dep (k := ⟨f k, hf k⟩) ?_ (at_congr (fun x hx => hag x ?_) h2)
      · rw [hk k (litIdx_eq_some h1)]; exact litIdx_lit (hf k)
      · rintro rfl
        have := hasDep_accept hx
        rw [(hNu _).1] at this; cases this
    · next hf => rw [dif_neg hf] at hw'; simp [wf] at hw'

theorem at_reassembleScalar {S : Sig} {st0 st : State} {e : Nat}
    (hag : ∀ e k, st0 (.idx e) = some (.lit k) → st (.idx e) = some (.lit k))
    (h : S.reassembleScalar st0 = .scalar e) : At st S (.scalar e) := by
  induction S with
  | scalar s => simp only [reassembleScalar] at h; rw [h]; exact .refl _
  | void => simp [reassembleScalar] at h
  | ill => simp [reassembleScalar] at h
  | fn d l r ih =>
    simp only [reassembleScalar] at h
    split at h
    · exact .fn (ih h)
    · cases h
  | dep d n rs ih =>
    simp only [reassembleScalar] at h
    split at h
    · split at h
      · next k hk =>
        refine .dep (k := k) ?_ (ih k h)
        rw [hag d k (litIdx_eq_some hk)]
        exact litIdx_lit k.2
      · cases h
    · cases h

theorem leaf_reassembleScalar {S : Sig} {st0 : State} :
    Leaf (S.reassembleScalar st0) ∨ S.reassembleScalar st0 = .ill := by
  induction S with
  | scalar s => exact .inl (.scalar s)
  | void => exact .inl .void
  | ill => exact .inr rfl
  | fn d l r ih =>
    simp only [reassembleScalar]
    split
    · exact ih
    · exact .inl .void
  | dep d n rs ih =>
    simp only [reassembleScalar]
    split
    · split
      · exact ih _
      · exact .inr rfl
    · exact .inl .void

theorem at_reassemble {top L : Sig} {ds : List Dim} {st0 st : State} (hL : Leaf L)
    (hag : ∀ e k, st0 (.idx e) = some (.lit k) → st (.idx e) = some (.lit k))
    (hv : L = .void → (top.reassemble ds st0).complete = true)
    (h : At st (top.reassemble ds st0) L) : At st top L := by
  induction ds generalizing st0 with
  | nil =>
    simp only [reassemble] at h hv
    rcases leaf_reassembleScalar (S := top) (st0 := st0) with hl | hl
    · have := at_leaf hl h
      cases hL with
      | scalar e => exact at_reassembleScalar hag this.symm
      | void => have := hv rfl; rw [← at_leaf hl h] at this; simp [complete] at this
    · rw [hl] at h; cases h; cases hL
  | cons d ds ih =>
    simp only [reassemble] at h hv
    split at h
    · cases h; cases hL
    · next hd =>
      rw [if_neg hd] at hv
      split at h
      · next hf =>
        rw [hf] at hv
        refine ih ?_ hv (at_fn hL h)
        intro e k he
        simp only [State.set] at he
        split at he
        · simp at he
        · exact hag e k he
      · next hf =>
        rw [hf] at hv
        obtain ⟨k, hk, h⟩ := at_dep hL h
        refine ih ?_ (fun h => by have := hv h; simp only [complete, decide_eq_true_eq] at this; exact this k) h
        intro e k' he
        simp only [State.set] at he
        split at he
        · next heq =>
          injection heq with heq
          subst heq
          simp only [Option.some.injEq, Val.lit.injEq] at he
          rw [← he]
          exact litIdx_eq_some hk
        · exact hag e k' he
      · cases h; cases hL

theorem at_mapDims {S L : Sig} {f : Dim → Dim} {st u : State} (hL : Leaf L)
    (hag : ∀ e, S.anyAccept e = true → u (.idx e) = st (.idx (f e))) (h : At st (S.mapDims f) L) :
    At u S L := by
  induction S with
  | scalar s => rw [at_leaf (.scalar s) h]; exact .refl _
  | void => rw [at_leaf .void h]; exact .refl _
  | ill => cases h; cases hL
  | fn d l r ih => exact .fn (ih (fun e he => hag e (accept_fn.2 (.inr he))) (at_fn hL h))
  | dep d n rs ih =>
    obtain ⟨k, hk, h⟩ := at_dep hL h
    rw [← hag d (accept_dep.2 (.inl rfl))] at hk
    exact .dep hk (ih k (fun e he => hag e (accept_dep.2 (.inr ⟨k, he⟩))) h)

theorem at_mergeZ {ds : List Dim} {d : Dim} (hnd : ds.Nodup) {S L : Sig} (hL : Leaf L)
    (hd : d ∈ ds ∨ S.anyAccept d = false)
    {rem : Nat} {acc : ArgLen} (seen : List Dim) (hsn : seen.Nodup) (hss : ∀ x ∈ seen, x ∈ ds)
    (hlen : seen.length + rem = ds.length) (hS : ∀ x ∈ seen, S.anyAccept x = false)
    (hu : S.uniq) {st u : State} (hag : ∀ e, e ∉ d :: ds → st (.idx e) = u (.idx e))
    (h : At st (S.mergeZRepl ds d rem acc) L) : At u S L := by
  induction S generalizing rem acc seen with
  | scalar s => simp only [mergeZRepl] at h; rw [at_leaf (.scalar s) h]; exact .refl _
  | void => simp only [mergeZRepl] at h; rw [at_leaf .void h]; exact .refl _
  | ill => simp only [mergeZRepl] at h; cases h; cases hL
  | fn e l r ih =>
    simp only [mergeZRepl] at h
    by_cases he : e ∈ ds
    · have hes : e ∉ seen := fun h => by have := hS e h; simp [anyAccept] at this
      rw [if_pos he] at h
      by_cases hr : rem ≤ 1
      · rw [if_pos hr] at h
        have hall := all_seen (l1 := e :: seen) (l2 := ds) (by simp [hes, hsn])
              (by simp; exact ⟨he, hss⟩) (by simp; omega)
        refine .fn (at_congr (fun x hx => hag x ?_) (at_fn hL h))
        replace hx := hasDep_accept hx
        intro hmem
        have hx' : x ∈ ds := by
          rcases List.mem_cons.1 hmem with rfl | h
          · rcases hd with h | h
            · exact h
            · simp [anyAccept] at h; rw [h.2] at hx; cases hx
          · exact h
        rcases List.mem_cons.1 (hall x hx') with rfl | h
        · rw [hu.1] at hx; cases hx
        · have := hS x h
          simp [anyAccept] at this
          rw [this.2] at hx; cases hx
      · rw [if_neg hr] at h
        refine .fn (ih (hd.imp_right fun h => by simp [anyAccept] at h; exact h.2) (e :: seen)
          (by simp [hes, hsn]) (by simp; exact ⟨he, hss⟩) (by simp; omega) (by
            intro x hx
            rcases List.mem_cons.1 hx with rfl | h
            · exact hu.1
            · have := hS x h
              simp [anyAccept] at this
              exact this.2) hu.2 h)
    · rw [if_neg he] at h
      refine .fn (ih (hd.imp_right fun h => by simp [anyAccept] at h; exact h.2) seen hsn hss hlen (by
            intro x hx
            have := hS x hx
            simp [anyAccept] at this
            exact this.2) hu.2 (at_fn hL h))
  | dep e n rs ih =>
    simp only [mergeZRepl] at h
    by_cases he : e ∈ ds
    · rw [if_pos he] at h; cases h; cases hL
    · rw [if_neg he] at h
      have hed : e ≠ d := by
        rintro rfl
        rcases hd with h | h
        · exact he h
        · simp [anyAccept] at h
      have hno : ∀ {x}, (Sig.dep e n rs).anyAccept x = false → ∀ k, (rs k).anyAccept x = false := by
        intro x hx k
        cases hc : (rs k).anyAccept x with
        | false => rfl
        | true => rw [accept_dep.2 (.inr ⟨k, hc⟩)] at hx; cases hx
      obtain ⟨k, hk, h⟩ := at_dep hL h
      rw [hag e (by simp [he, hed])] at hk
      exact .dep hk (ih k (hd.imp_right fun h => hno h k) seen hsn hss hlen
          (fun x hx => hno (hS x hx) k) (hu k).2 h)

/-- A dimension found without tuple indices is not one of a tuple. -/
theorem find_nodep {S : Sig} (hu : S.uniq) {d e : Dim} {l : ArgLen} {r : Sig}
    (h : S.find d State.empty = .fn e l r) : ¬ S.hasDep d := by
  induction S with
  | scalar s => exact id
  | void => exact id
  | ill => exact id
  | fn d' l' r' ih =>
    simp only [find] at h
    split at h
    · next hd =>
      subst hd
      intro hx
      have := hasDep_accept (S := r') hx
      rw [hu.1] at this; cases this
    · exact ih hu.2 h
  | dep d' n rs ih =>
    simp only [find] at h
    split at h
    · cases h
    · simp [State.empty, litIdx] at h

/-- The selected type, and the path. -/
theorem scalarAt_iff {S : Sig} (hu : S.uniq) {st : State} {e : Nat} :
    S.scalarAt st = some e ↔ At st S (.scalar e) := by
  have key : ∀ {S : Sig} {d : Dim} (st : State), S.anyAccept d = false → ∀ x, S.hasDep x →
      (st.removeAll [.idx d, .len d]) (.idx x) = st (.idx x) := by
    intro S d st hd x hx
    have : x ≠ d := by rintro rfl; rw [hasDep_accept hx] at hd; cases hd
    simp [State.removeAll, this]
  induction S generalizing st with
  | scalar s =>
    simp only [scalarAt, Option.some.injEq]
    constructor
    · rintro rfl; exact .refl _
    · intro h; cases h; rfl
  | void => simp only [scalarAt]; exact ⟨(fun h => nomatch h), (fun h => nomatch h)⟩
  | ill => simp only [scalarAt]; exact ⟨(fun h => nomatch h), (fun h => nomatch h)⟩
  | fn d l r ih =>
    refine (ih hu.2).trans ?_
    constructor
    · intro h; exact .fn (at_congr (key st hu.1) h)
    · intro h; exact at_congr (fun x hx => (key st hu.1 x hx).symm) (at_fn (.scalar e) h)
  | dep d n rs ih =>
    simp only [scalarAt]
    constructor
    · intro h
      split at h
      · next k hk => exact .dep hk (at_congr (key st (hu k).1) ((ih k (hu k).2).1 h))
      · cases h
    · intro h
      obtain ⟨k, hk, h⟩ := at_dep (.scalar e) h
      rw [hk]
      exact (ih k (hu k).2).2 (at_congr (fun x hx => (key st (hu k).1 x hx).symm) h)

end Sig

open Sig in
/-- The path through the signature of a view leads to the same end as the path through the signature of
the structure, with the state that the view hands down. -/
theorem at_sub {v : View} {s : Struct} {st u : State} {L : Sig} (hL : Leaf L)
    (hw : (Struct.view v s).wf .ideal) (hn : (Struct.view v s).noDup .ideal)
    (hs : (Struct.view v s).sane .ideal)
    (hu : (v.sem .ideal (s.sem .ideal)).sub st = some u)
    (hv : L = .void → (v.sem .ideal (s.sem .ideal)).sizeOk = true ∨ (v.sem .ideal (s.sem .ideal)).offOk st = true)
    (h : At st ((Struct.view v s).sem .ideal).sig L) : At u (s.sem .ideal).sig L := by
  have ih := hn.2.uniq
  have hun := hn.uniq
  have hhard := fun q => Struct.hard_of_hasDep .ideal s hw.2 hn.2 (q := q)
  have hw := hw.1
  simp only [Struct.sem, ViewSem.toSem] at h hw hun
  have hsi := fun e (he : e ∉ v.dims) => (sub_idx (A := .ideal) (S := s.sem .ideal) he hu).symm
  generalize hS : s.sem .ideal = S at h ih hu hw hhard hsi hv hun ⊢
  have hna : ∀ {r : Sig} {x : Dim}, r.hasDep x → ∀ {y}, r.anyAccept y = false → x ≠ y := by
    intro r x hx y hy e
    subst e
    rw [hasDep_accept hx] at hy; cases hy
  cases v with
  | bcast d =>
    simp only [View.sem, bcastSem] at h hun
    exact at_congr (fun x hx => hsi x (by simpa [View.dims] using hna hx hun.1)) (at_fn hL h)
  | join a b d =>
    simp only [View.sem, joinSem] at h hw hun
    split at h
    · cases h; cases hL
    · next hc =>
      rw [if_neg hc] at hw hun
      split at h
      · next e1 la r1 e2 lb r2 hfa hfb =>
        rw [hfa, hfb] at hw hun
        simp only at hw hun
        split at h
        · next hll =>
          rw [if_pos hll] at hw hun
          have hda := find_nodep ih hfa
          have hdb := find_nodep ih hfb
          have hout : ∀ e, S.sig.hasDep e → e ∉ (View.join a b d).dims := by
            intro e he hmem
            have h1 := hasDep_accept he
            simp only [not_or, not_and, Bool.not_eq_true] at hc
            simp [View.dims] at hmem
            grind
          refine at_replace hL (fun e _ he => hsi e (hout e he)) ih hw (fun N hN hNu hst hw' hl => ?_) (at_fn hL h)
          obtain ⟨e, l, r, rfl, he⟩ := starts_fn hst retRepl (fun _ _ _ => rfl) hw'
          exact .fn (at_congr (fun x hx => hsi x (hout x (hN.hasDep hx))) hl)
        · cases h; cases hL
      · cases h; cases hL
  | fix d i =>
    simp only [View.sem, fixSem] at h hw hu
    refine at_replace hL (fun e he _ => hsi e (by simpa [View.dims] using he)) ih hw (fun N hN hNu hst hw' hl => ?_) h
    rcases hst with ⟨e, l, r, rfl, he⟩ | ⟨e, n, rs, rfl, he⟩
    · simp at he; subst he
      exact .fn (at_congr (fun x hx => hsi x (by simpa [View.dims] using hna hx hNu.1)) hl)
    · simp at he; subst he
      cases i <;> simp only [fixRepl, branch] at hw' hl <;>
        first | (simp [Sig.wf] at hw'; done) | skip
      split at hw'
      · next hk =>
        rw [dif_pos hk] at hl
        refine .dep (k := ⟨_, hk⟩) ?_
          (at_congr (fun x hx => hsi x (by simpa [View.dims] using hna hx (hNu _).1)) hl)
        cases hu
        simp only [State.set, if_true]
        exact litIdx_lit hk
      · simp [Sig.wf] at hw'
  | setLength d l =>
    refine at_indexmap (R := setLengthRepl l) hL (fun e he => hsi e (by simp [View.dims])) ih hw ?_ ?_ h
    · intro e l' r _; exact ⟨_, rfl⟩
    · intro n rs _ h; simp [setLengthRepl, Sig.wf] at h
  | shift d a =>
    refine at_indexmap (R := shiftRepl a) hL (fun e he => hsi e (by simpa [View.dims] using he)) ih hw ?_ ?_ h
    · intro e l' r _; exact ⟨_, rfl⟩
    · intro n rs _ h
      cases a <;> simp only [shiftRepl] at h ⊢ <;> first | (simp [Sig.wf] at h; done) | skip
      split at h
      · next h' =>
        rw [if_pos h']
        refine ⟨_, _, rfl, fun k hk => ?_⟩
        cases hu
        simp [State.mapAt, hk, Val.add, Val.ofLit, Arith.ideal]
      · simp [Sig.wf] at h
  | slice d a m =>
    refine at_indexmap (R := sliceRepl a m) hL (fun e he => hsi e (by simpa [View.dims] using he)) ih hw ?_ ?_ h
    · intro e l' r _; exact ⟨_, rfl⟩
    · intro n rs _ h
      cases a <;> cases m <;> simp only [sliceRepl] at h ⊢ <;> first | (simp [Sig.wf] at h; done) | skip
      refine ⟨_, _, rfl, fun k hk => ?_⟩
      cases hu
      simp [State.mapAt, hk, Val.add, Val.ofLit, Arith.ideal]
  | span d a m =>
    refine at_indexmap (R := spanRepl a m) hL (fun e he => hsi e (by simpa [View.dims] using he)) ih hw ?_ ?_ h
    · intro e l' r _; exact ⟨_, rfl⟩
    · intro n rs _ h
      cases a <;> cases m <;> simp only [spanRepl] at h ⊢ <;> first | (simp [Sig.wf] at h; done) | skip
      split at h
      · next h' =>
        rw [if_pos h']
        refine ⟨_, _, rfl, fun k hk => ?_⟩
        cases hu
        simp [State.mapAt, hk, Val.add, Val.ofLit, Arith.ideal]
      · simp [Sig.wf] at h
  | step d a m =>
    refine at_indexmap (R := stepRepl a m) hL (fun e he => hsi e (by simpa [View.dims] using he)) ih hw ?_ ?_ h
    · intro e l' r _; exact ⟨_, rfl⟩
    · intro n rs _ h
      cases a <;> cases m <;> simp only [stepRepl] at h ⊢ <;> first | (simp [Sig.wf] at h; done) | skip
      split at h
      · next h' =>
        rw [if_pos h']
        refine ⟨_, _, rfl, fun k hk => ?_⟩
        cases hu
        simp [State.mapAt, hk, Val.add, Val.mul, Val.ofLit, Arith.ideal]
      · simp [Sig.wf] at h
  | reverse d =>
    refine at_indexmap (R := reverseRepl) hL (fun e he => hsi e (by simpa [View.dims] using he)) ih hw ?_ ?_ h
    · intro e l' r _; exact ⟨_, rfl⟩
    · intro n rs hat _
      exact absurd (hhard d (hat.hasDep (.inl rfl))) hs.2.1
  | reorder ds =>
    cases hu
    exact at_reassemble hL (by intro e k h; simp [State.empty] at h)
      (fun h => (hv h).elim id id) h
  | hoist d =>
    cases hu
    simp only [View.sem, hoistSem] at h hw
    split at h
    · next hf =>
      rw [hf] at hw
      refine at_replace hL (fun _ _ _ => rfl) ih hw (fun N hN hNu hst hw' hl => ?_) (at_fn hL h)
      obtain ⟨e, l, r, rfl, he⟩ := starts_fn hst retRepl (fun _ _ _ => rfl) hw'
      exact .fn hl
    · cases h; cases hL
  | rename ps =>
    cases hu
    simp only [View.sem, renameSem] at h
    split at h
    · next hok =>
      refine at_mapDims hL (fun e he => ?_) h
      rw [renameState_idx, if_pos]
      simp only [renameOk, Bool.and_eq_true, decide_eq_true_eq, List.all_eq_true, Bool.or_eq_true,
        Bool.not_eq_true'] at hok
      by_cases hs : e ∈ ps.map Prod.snd
      · rcases hok.2 e hs with h | h
        · rw [he] at h; cases h
        · exact .inl h
      · exact .inr hs
    · cases h; cases hL
  | intoBlocks d maj min =>
    simp only [View.sem, intoBlocksSem] at h hw
    split at h
    · cases h; cases hL
    · next hc =>
      rw [if_neg hc] at hw
      simp only [not_or, not_and, Bool.not_eq_true] at hc
      obtain ⟨hne, h1, h2⟩ := hc
      have hout : ∀ e, e ≠ d → S.sig.anyAccept e = true → e ∉ (View.intoBlocks d maj min).dims := by
        intro e he hx hmem; simp [View.dims] at hmem; grind
      refine at_replace hL (fun e he hx => hsi e (hout e (by simpa using he) (hasDep_accept hx))) ih hw
        (fun N hN hNu hst hw' hl => ?_) h
      obtain ⟨e, l, r, rfl, he⟩ := starts_fn hst (intoBlocksRepl maj min) (fun _ _ _ => rfl) hw'
      simp at he; subst he
      exact .fn (at_congr (fun x hx => hsi x (hout x (hna hx hNu.1)
        (hN.accept (accept_fn.2 (.inr (hasDep_accept hx)))))) (at_fn hL (at_fn hL hl)))
  | intoBlocksDyn d maj min pres =>
    simp only [View.sem, intoBlocksDynSem] at h hw
    split at h
    · cases h; cases hL
    · next hc =>
      rw [if_neg hc] at hw
      simp only [not_or, not_and, Bool.not_eq_true] at hc
      obtain ⟨hne, hne1, hne2, h1, h2, h3⟩ := hc
      have hout : ∀ e, e ≠ d → S.sig.anyAccept e = true → e ∉ (View.intoBlocksDyn d maj min pres).dims := by
        intro e he hx hmem; simp [View.dims] at hmem; grind
      refine at_replace hL (fun e he hx => hsi e (hout e (by simpa using he) (hasDep_accept hx))) ih hw
        (fun N hN hNu hst hw' hl => ?_) h
      obtain ⟨e, l, r, rfl, he⟩ := starts_fn hst (intoBlocksDynRepl maj min pres) (fun _ _ _ => rfl) hw'
      simp at he; subst he
      exact .fn (at_congr (fun x hx => hsi x (hout x (hna hx hNu.1)
        (hN.accept (accept_fn.2 (.inr (hasDep_accept hx)))))) (at_fn hL (at_fn hL (at_fn hL hl))))
  | intoBlocksStat d border maj min nl =>
    simp only [View.sem, intoBlocksStatSem] at h hw
    split at h
    · cases h; cases hL
    · next hc =>
      rw [if_neg hc] at hw
      simp only [not_or, not_and, Bool.not_eq_true] at hc
      obtain ⟨hne, hne1, hne2, h1, h2, h3⟩ := hc
      have hout : ∀ e, e ≠ d → S.sig.anyAccept e = true → e ∉ (View.intoBlocksStat d border maj min nl).dims := by
        intro e he hx hmem; simp [View.dims] at hmem; grind
      refine at_replace hL (fun e he hx => hsi e (hout e (by simpa using he) (hasDep_accept hx))) ih hw
        (fun N hN hNu hst hw' hl => ?_) h
      obtain ⟨e, l, r, rfl, he⟩ := starts_fn hst (intoBlocksStatRepl border maj min nl) (fun _ _ _ => rfl) hw'
      simp at he; subst he
      obtain ⟨l1, l2, he⟩ := intoBlocksStatRepl_fn hw'
      rw [he] at hl
      obtain ⟨k, -, hl⟩ := at_dep hL hl
      have hl : At st r L := by
        split at hl <;> exact at_fn hL (at_fn hL hl)
      exact .fn (at_congr (fun x hx => hsi x (hout x (hna hx hNu.1)
        (hN.accept (accept_fn.2 (.inr (hasDep_accept hx)))))) hl)
  | mergeBlocks maj min d =>
    simp only [View.sem, mergeBlocksSem] at h hw
    split at h
    · cases h; cases hL
    · next hc =>
      rw [if_neg hc] at hw
      simp only [not_or, not_and, Bool.not_eq_true] at hc
      obtain ⟨hne, h1⟩ := hc
      have hT : ∀ e, e ∉ [maj, min] → S.sig.anyAccept e = true → e ∉ (View.mergeBlocks maj min d).dims := by
        intro e h2 h3 h4
        simp [View.dims] at h2 h4
        grind
      refine at_replace hL (fun e he hx => hsi e (hT e he (hasDep_accept hx))) ih hw
        (fun N hN hNu hst hw' hl => ?_) h
      obtain ⟨e, l, r, rfl, he⟩ := starts_fn hst (mergeBlocksRepl maj min d) (fun _ _ _ => rfl) hw'
      simp only [mergeBlocksRepl] at hw' hl
      have hT' : ∀ x, x ∉ [min, maj] → r.anyAccept x = true → x ∉ (View.mergeBlocks maj min d).dims := by
        intro x h2 h3
        exact hT x (by simp at h2 ⊢; grind) (hN.accept (accept_fn.2 (.inr h3)))
      refine .fn (at_replace hL (fun x hx hd => hsi x (hT' x hx (hasDep_accept hd))) hNu.2 hw'
        (fun M hM hMu hst' hw'' hl' => ?_) hl)
      obtain ⟨e', l', r', rfl, he'⟩ := starts_fn hst' (mergeBlocksInner maj min d e l) (fun _ _ _ => rfl) hw''
      simp only [mergeBlocksInner] at hl' hw''
      split at hl'
      · next hcase =>
        refine .fn (at_congr (fun x hx => hsi x ?_) (at_fn hL hl'))
        have hx := hasDep_accept hx
        refine hT' x ?_ (hM.accept (accept_fn.2 (.inr hx)))
        have h1 : x ≠ e' := by rintro rfl; rw [hMu.1] at hx; cases hx
        have h2 : x ≠ e := by
          rintro rfl
          have := hM.accept (accept_fn.2 (.inr hx))
          rw [hNu.1] at this; cases this
        simp; grind
      · cases hl'; cases hL
  | mergeZ sl gl ds d =>
    simp only [View.sem, mergeZSem] at h hw
    split at h
    · cases h; cases hL
    · next hc =>
      simp only [not_or, not_and, Bool.not_eq_true, Classical.not_not] at hc
      obtain ⟨-, -, -, hnd, hd⟩ := hc
      exact at_mergeZ hnd hL (by by_cases hx : d ∈ ds; exact .inl hx; exact .inr (hd hx)) []
          (by simp) (by simp) (by simp) (by simp) ih (u := u) (fun e he => hsi e he) h

theorem litIdx_constIdx {n : Nat} {o : Option Val} {k : Fin n} (h : Sig.litIdx n o = some k) :
    constIdx o = some k.1 := by
  rw [Sig.litIdx_eq_some h]; rfl

open Sig in
/-- The type at the end of the path through the signature is that of the element. -/
theorem Struct.at_elem (s : Struct) (hw : s.wf .ideal) (hn : s.noDup .ideal) (hs : s.sane .ideal) {st : State}
    {e e' : Nat} (h : At st (s.sem .ideal).sig (.scalar e)) (he : (s.sem .ideal).elem st = some e') : e = e' := by
  induction s generalizing st with
  | scalar z a =>
    cases h
    simpa [Struct.sem, scalarSem] using he
  | tuple t n fs ih =>
    have h1 := hw.1
    simp only [Struct.sem, tupleSem] at h he h1
    split at h
    · next hc => rw [if_pos hc] at h1; simp [Sig.wf] at h1
    · next hc =>
      obtain ⟨k, hk, h⟩ := at_dep (.scalar e) h
      simp only [litIdx_constIdx hk, bind, Option.bind_some, k.2, dite_true] at he
      refine ih k (hw.2 k) (hn.2 k) (hs.1 k) (at_congr (fun x hx => ?_) h) he
      have : x ≠ t := by rintro rfl; exact hc ⟨k, hasDep_accept hx⟩
      simp [State.remove, this]
  | vector d s ih =>
    have h1 := hw.1
    simp only [Struct.sem, vectorSem] at h he h1
    split at h
    · next hc => rw [if_pos hc] at h1; simp [Sig.wf] at h1
    · next hc =>
      refine ih hw.2 hn.2 hs (at_congr (fun x hx => ?_) (at_fn (.scalar e) h)) he
      have : x ≠ d := by rintro rfl; exact hc (hasDep_accept hx)
      simp [State.removeAll, this]
  | union n ss ih => simp [Struct.sem, unionSem] at he
  | view v s ih =>
    simp only [Struct.sem, ViewSem.toSem, Option.bind_eq_some_iff] at he
    obtain ⟨u, hu, he⟩ := he
    exact ih hw.2 hn.2 hs.1 (at_sub (.scalar e) hw hn hs hu (by simp) h) he

theorem sizeAcc_mem {A : Arith} {st : State} {l : List Sem} {start z : Val} (h : sizeAcc A st l start = some z) (S : Sem)
    (hS : S ∈ l) : ∃ y, S.size st = some y := by
  induction l generalizing start with
  | nil => cases hS
  | cons T l ih =>
    simp only [sizeAcc, bind, Option.bind_eq_some_iff] at h
    obtain ⟨_, -, y, hy, h⟩ := h
    rcases List.mem_cons.1 hS with rfl | hS
    · exact ⟨y, hy⟩
    · exact ih h hS

open Sig in
/-- Where there is an offset or a size, there is an element. -/
theorem Struct.at_void (s : Struct) (hw : s.wf .ideal) (hn : s.noDup .ideal) (hs : s.sane .ideal) {st : State}
    (h : At st (s.sem .ideal).sig .void) :
    (∀ start, (s.sem .ideal).off st start = none) ∧ (s.sem .ideal).size st = none := by
  induction s generalizing st with
  | scalar z a => cases h
  | tuple t n fs ih =>
    have h1 := hw.1
    simp only [Struct.sem, tupleSem] at h h1 ⊢
    split at h
    · next hc => rw [if_pos hc] at h1; simp [Sig.wf] at h1
    · next hc =>
      obtain ⟨k, hk, h⟩ := at_dep .void h
      have := ih k (hw.2 k) (hn.2 k) (hs.1 k) (st := st.remove (.idx t)) (at_congr (fun x hx => by
        have : x ≠ t := by rintro rfl; exact hc ⟨k, hasDep_accept hx⟩
        simp [State.remove, this]) h)
      simp only [litIdx_constIdx hk, bind, Option.bind_some, k.2, dite_true, this.1]
      refine ⟨fun start => by cases sizeAcc .ideal (st.remove (.idx t)) _ _ <;> rfl, ?_⟩
      cases hz : sizeAcc .ideal (st.remove (.idx t)) (List.ofFn fun i => (fs i).sem .ideal) (.lit 0) with
      | none => rfl
      | some z =>
        obtain ⟨y, hy⟩ := sizeAcc_mem hz ((fs k).sem .ideal) (List.mem_ofFn.2 ⟨k, rfl⟩)
        rw [this.2] at hy; cases hy
  | vector d s ih =>
    have h1 := hw.1
    simp only [Struct.sem, vectorSem] at h h1 ⊢
    split at h
    · next hc => rw [if_pos hc] at h1; simp [Sig.wf] at h1
    · next hc =>
      have := ih hw.2 hn.2 hs (st := st.removeAll [.idx d, .len d]) (at_congr (fun x hx => by
        have : x ≠ d := by rintro rfl; exact hc (hasDep_accept hx)
        simp [State.removeAll, this]) (at_fn .void h))
      simp only [this.1, this.2, bind]
      constructor
      · intro start
        cases st (.idx d) with
        | none => rfl
        | some i =>
          cases st (.len d) with
          | none => rfl
          | some l => simp only [Option.bind_some]; split <;> rfl
      · cases st (.len d) <;> rfl
  | union n ss ih => exact ⟨fun _ => rfl, rfl⟩
  | view v s ih =>
    simp only [Struct.sem, ViewSem.toSem]
    cases hu : (v.sem .ideal (s.sem .ideal)).sub st with
    | none => simp
    | some u =>
      have := fun h' => ih hw.2 hn.2 hs.1 (at_sub .void hw hn hs hu h' h)
      constructor
      · intro start
        split
        · next hc => exact (this fun _ => .inr hc).1 start
        · rfl
      · split
        · next hc => exact (this fun _ => .inl hc).2
        · rfl

open Sig in
/-- Where a size is announced, there is an element. -/
theorem Struct.at_void_hasSize (s : Struct) (hw : s.wf .ideal) (hn : s.noDup .ideal) (hs : s.sane .ideal)
    {st : State} (h : At st (s.sem .ideal).sig .void) : s.hasSize .ideal st ≠ some true := by
  induction s generalizing st with
  | scalar z a => cases h
  | tuple t n fs ih =>
    have h1 := hw.1
    simp only [Struct.sem, tupleSem] at h h1
    split at h
    · next hc => rw [if_pos hc] at h1; simp [Sig.wf] at h1
    · next hc =>
      obtain ⟨k, hk, h⟩ := at_dep .void h
      have := ih k (hw.2 k) (hn.2 k) (hs.1 k) (st := st.remove (.idx t)) (at_congr (fun x hx => by
        have : x ≠ t := by rintro rfl; exact hc ⟨k, hasDep_accept hx⟩
        simp [State.remove, this]) h)
      intro h'
      simp only [hasSize, andAll_true] at h'
      exact this (h' _ (List.mem_ofFn.2 ⟨k, rfl⟩))
  | vector d s ih =>
    have h1 := hw.1
    simp only [Struct.sem, vectorSem] at h h1
    split at h
    · next hc => rw [if_pos hc] at h1; simp [Sig.wf] at h1
    · next hc =>
      have := ih hw.2 hn.2 hs (st := st.removeAll [.idx d, .len d]) (at_congr (fun x hx => by
        have : x ≠ d := by rintro rfl; exact hc (hasDep_accept hx)
        simp [State.removeAll, this]) (at_fn .void h))
      simp only [hasSize]
      split
      · exact this
      · simp
  | union n ss ih => simp [hasSize]
  | view v s ih =>
    intro h'
    simp only [hasSize, bind, Option.bind_eq_some_iff, Option.some.injEq, Bool.and_eq_true] at h'
    obtain ⟨u, hu, b, hb, hk, rfl⟩ := h'
    exact ih hw.2 hn.2 hs.1 (at_sub .void hw hn hs hu (fun _ => .inl hk) h) hb

theorem Struct.elem_of_off (A : Arith) (s : Struct) {st : State} {start : Val} {o : Val}
    (h : (s.sem A).off st start = some o) : ∃ e, (s.sem A).elem st = some e := by
  induction s generalizing st start o with
  | scalar z a => exact ⟨z, rfl⟩
  | tuple t n fs ih =>
    simp only [Struct.sem, tupleSem, bind, Option.bind_eq_some_iff] at h ⊢
    obtain ⟨k, hk, S, ⟨k', hk', hS⟩, b, hb, ho⟩ := h
    split at hS
    · next hlt =>
      cases hS
      obtain ⟨e, he⟩ := ih _ ho
      exact ⟨e, _, ⟨k', hk', by rw [dif_pos hlt]⟩, he⟩
    · cases hS
  | vector d s ih =>
    simp only [Struct.sem, vectorSem, bind, Option.bind_eq_some_iff] at h ⊢
    obtain ⟨i, hi, l, hl, h⟩ := h
    split at h
    · exact ih h
    · simp only [Option.bind_eq_some_iff] at h
      obtain ⟨o', h, -⟩ := h
      exact ih h
    · simp only [Option.bind_eq_some_iff] at h
      obtain ⟨z, hz, h⟩ := h
      exact ih h
  | union n ss ih => simp [Struct.sem, unionSem] at h
  | view v s ih =>
    simp only [Struct.sem, ViewSem.toSem] at h ⊢
    split at h
    · simp only [Option.bind_eq_some_iff] at h
      obtain ⟨u, hu, h⟩ := h
      obtain ⟨e, he⟩ := ih h
      exact ⟨e, by simp [hu, he]⟩
    · cases h

/-- If the indices of tuples are constants in range, the path leads to an end. -/
theorem Sig.at_end {S : Sig} (hw : S.wf = true) {st : State}
    (h : ∀ q n, S.entry st q (some n) → ∃ k, k < n ∧ st (.idx q) = some (.lit k)) :
    ∃ L, Leaf L ∧ At st S L := by
  induction S with
  | scalar s => exact ⟨_, .scalar s, .refl _⟩
  | void => exact ⟨_, .void, .refl _⟩
  | ill => simp [wf] at hw
  | fn d l r ih =>
    obtain ⟨L, h1, h2⟩ := ih hw (fun q n hq => h q n (.inr hq))
    exact ⟨L, h1, .fn h2⟩
  | dep d n rs ih =>
    obtain ⟨k, hk, hi⟩ := h d n (.inl ⟨rfl, rfl⟩)
    have hlit : litIdx n (st (.idx d)) = some ⟨k, hk⟩ := by rw [hi]; exact litIdx_lit hk
    simp only [wf, decide_eq_true_eq] at hw
    obtain ⟨L, h1, h2⟩ := ih ⟨k, hk⟩ (hw _) (fun q m hq => h q m (.inr ⟨_, hlit, hq⟩))
    exact ⟨L, h1, .dep hlit h2⟩

namespace Sig

/-- A path that needs no index is the same in all states. -/
theorem at_any {S L : Sig} (h : At State.empty S L) (st : State) : At st S L := by
  induction h with
  | refl => exact .refl _
  | fn _ ih => exact .fn ih
  | dep hk => simp [State.empty, litIdx] at hk

theorem cube_end {S : Sig} (h : S.isCube = true) : ∃ L, Leaf L ∧ ∀ st, At st S L := by
  induction S with
  | scalar s => exact ⟨_, .scalar s, fun _ => .refl _⟩
  | void => exact ⟨_, .void, fun _ => .refl _⟩
  | ill => simp [isCube] at h
  | dep d n rs ih => simp [isCube] at h
  | fn d l r ih =>
    obtain ⟨L, h1, h2⟩ := ih h
    exact ⟨L, h1, fun st => .fn (h2 st)⟩

theorem cube_needs {S : Sig} (h : S.isCube = true) {st : State} {q : Dim} :
    S.needs st q ↔ S.anyAccept q = true := by
  induction S with
  | scalar s => simp [needs, anyAccept]
  | void => simp [needs, anyAccept]
  | ill => simp [isCube] at h
  | dep d n rs ih => simp [isCube] at h
  | fn d l r ih => rw [needs, ih h, accept_fn, eq_comm (a := q)]

theorem cube_find {S : Sig} (h : S.isCube = true) {st : State} {q d : Dim} {n : Nat} {rs : Fin n → Sig} :
    S.find q st ≠ .dep d n rs := by
  induction S with
  | scalar s => simp [find]
  | void => simp [find]
  | ill => simp [isCube] at h
  | dep d n rs ih => simp [isCube] at h
  | fn d l r ih =>
    simp only [find]
    split
    · simp
    · exact ih h

end Sig

end Noarr
