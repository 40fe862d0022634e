import Verif.SigPath
import Verif.Struct

/-
The signature of a structure that compiles has no repeated dimension (without `bcast` and `join`).
-/

set_option linter.unusedVariables false
set_option linter.unusedSimpArgs false

namespace Noarr

theorem all_seen {l1 l2 : List Dim} (hn : l1.Nodup) (hs : ∀ x ∈ l1, x ∈ l2)
    (hl : l2.length ≤ l1.length) : ∀ x ∈ l2, x ∈ l1 := by
  induction l1 generalizing l2 with
  | nil => intro x hx; simp at hl; simp [hl] at hx
  | cons a l1 ih =>
    intro x hx
    rw [List.nodup_cons] at hn
    by_cases hxa : x = a
    · simp [hxa]
    · have ha : a ∈ l2 := hs a (by simp)
      have := ih (l2 := l2.erase a) hn.2 (fun y hy => by
        have : y ≠ a := by rintro rfl; exact hn.1 hy
        exact (List.mem_erase_of_ne this).2 (hs y (by simp [hy])))
        (by rw [List.length_erase_of_mem ha]; simp at hl; omega) x ((List.mem_erase_of_ne hxa).2 hx)
      simp [this]

/-- Everything compiles, at every level. -/
def Struct.wf (A : Arith) : Struct → Prop
  | .scalar _ _ => True
  | .tuple t n fs => ((Struct.tuple t n fs).sem A).sig.wf = true ∧ ∀ i, (fs i).wf A
  | .vector d s => ((Struct.vector d s).sem A).sig.wf = true ∧ s.wf A
  | .union n ss => ((Struct.union n ss).sem A).sig.wf = true ∧ ∀ i, (ss i).wf A
  | .view v s => ((Struct.view v s).sem A).sig.wf = true ∧ s.wf A

/-- At no level does a signature name a dimension twice (`bcast` with a name that is in use, and some
uses of `join`, lead to such signatures). -/
def Struct.noDup (A : Arith) : Struct → Prop
  | .scalar _ _ => True
  | .tuple t n fs => ((Struct.tuple t n fs).sem A).sig.uniq ∧ ∀ i, (fs i).noDup A
  | .vector d s => ((Struct.vector d s).sem A).sig.uniq ∧ s.noDup A
  | .union n ss => ((Struct.union n ss).sem A).sig.uniq ∧ ∀ i, (ss i).noDup A
  | .view v s => ((Struct.view v s).sem A).sig.uniq ∧ s.noDup A

theorem Struct.noDup.uniq {A : Arith} {s : Struct} (h : s.noDup A) : (s.sem A).sig.uniq := by
  cases s with
  | scalar => trivial
  | tuple => exact h.1
  | vector => exact h.1
  | union => exact h.1
  | view => exact h.1

/-- There is no `bcast` and no `join`. -/
def Struct.noAlias : Struct → Prop
  | .scalar _ _ => True
  | .tuple _ _ fs => ∀ i, (fs i).noAlias
  | .vector _ s => s.noAlias
  | .union _ ss => ∀ i, (ss i).noAlias
  | .view v s => s.noAlias ∧
    match v with
    | .bcast _ => False
    | .join _ _ _ => False
    | _ => True

namespace Sig

theorem accept_replace_self {R : Sig → Sig} {d : Dim} {S : Sig}
    (h : ∀ N, N.uniq → Starts [d] N → (R N).wf = true → (R N).anyAccept d = false) (hu : S.uniq)
    (hw : (S.replace R [d]).wf = true) : (S.replace R [d]).anyAccept d = false := by
  induction S with
  | scalar s => rfl
  | void => rfl
  | ill => rfl
  | fn e l r ih =>
    simp only [replace, List.mem_singleton] at hw ⊢
    split
    · next he => rw [if_pos he] at hw; exact h _ hu (.inl ⟨e, l, r, rfl, by simp [he]⟩) hw
    · next he =>
      rw [if_neg he] at hw
      simp [anyAccept, he, ih hu.2 hw]
  | dep e n rs ih =>
    simp only [replace, List.mem_singleton] at hw ⊢
    split
    · next he => rw [if_pos he] at hw; exact h _ hu (.inr ⟨e, n, rs, rfl, by simp [he]⟩) hw
    · next he =>
      rw [if_neg he] at hw
      simp only [wf, decide_eq_true_eq] at hw
      have := fun k => ih k (hu k).2 (hw k)
      simp [anyAccept, he, this]

theorem starts_fn {ds : List Dim} {N : Sig} (h : Starts ds N) (R : Sig → Sig)
    (hR : ∀ d n rs, R (.dep d n rs) = .ill) (hw : (R N).wf = true) :
    ∃ d l r, N = .fn d l r ∧ d ∈ ds := by
  rcases h with h | ⟨d, n, rs, rfl, hd⟩
  · exact h
  · rw [hR] at hw; simp [wf] at hw

theorem accept_fn {d : Dim} {l : ArgLen} {r : Sig} {q : Dim} :
    (Sig.fn d l r).anyAccept q = true ↔ d = q ∨ r.anyAccept q = true := by
  simp [anyAccept]

theorem accept_dep {d : Dim} {n : Nat} {rs : Fin n → Sig} {q : Dim} :
    (Sig.dep d n rs).anyAccept q = true ↔ d = q ∨ ∃ i, (rs i).anyAccept q = true := by
  simp [anyAccept]

/-- The views that change an index: the node keeps its dimension. -/
theorem uniq_indexmap {R : Sig → Sig} {d : Dim} {S : Sig}
    (hfn : ∀ e l r, (R (.fn e l r)).wf = true → ∃ l', R (.fn e l r) = .fn e l' r)
    (hdep : ∀ e n rs, (R (.dep e n rs)).wf = true → ∃ m f, R (.dep e n rs) = select e rs m f)
    (hu : S.uniq) (hw : (S.replace R [d]).wf = true) : (S.replace R [d]).uniq := by
  refine (uniq_replace (New := []) ?_ (by simp) hu hw).1
  intro N hN hs hw' _
  rcases hs with ⟨e, l, r, rfl, he⟩ | ⟨e, n, rs, rfl, he⟩
  · obtain ⟨l', h⟩ := hfn e l r hw'
    rw [h]
    exact ⟨hN, fun q hq => .inl (by rw [accept_fn] at hq ⊢; exact hq)⟩
  · obtain ⟨m, f, h⟩ := hdep e n rs hw'
    rw [h] at hw' ⊢
    obtain ⟨h1, h2⟩ := uniq_select hN hw'
    exact ⟨h1, fun q hq => .inl (h2 q hq)⟩

theorem intoBlocksStatRepl_fn {border maj min e : Dim} {nl : Val} {l : ArgLen} {r : Sig}
    (h : (intoBlocksStatRepl border maj min nl (.fn e l r)).wf = true) :
    ∃ l1 l2, intoBlocksStatRepl border maj min nl (.fn e l r) = .dep border 2 (fun i =>
      if i = 0 then .fn maj l1 (.fn min (.ofVal nl) r) else .fn maj (.static 1) (.fn min l2 r)) := by
  simp only [intoBlocksStatRepl] at h ⊢
  cases l <;> cases hv : ArgLen.ofVal nl <;> simp only [hv] at h ⊢
  · exact ⟨_, _, rfl⟩
  · exact ⟨_, _, rfl⟩
  · exact ⟨_, _, rfl⟩
  · split at h
    · simp [wf] at h
    · next hb => rw [if_neg hb]; exact ⟨_, _, rfl⟩

theorem uniq_mergeZ {ds : List Dim} {d : Dim} (hnd : ds.Nodup) {S : Sig} (hd : d ∈ ds ∨ S.anyAccept d = false)
    {rem : Nat} {acc : ArgLen} (seen : List Dim) (hsn : seen.Nodup) (hss : ∀ x ∈ seen, x ∈ ds)
    (hlen : seen.length + rem = ds.length) (hS : ∀ x ∈ seen, S.anyAccept x = false)
    (hu : S.uniq) (hw : (S.mergeZRepl ds d rem acc).wf = true) :
    (S.mergeZRepl ds d rem acc).uniq ∧
      ∀ q, (S.mergeZRepl ds d rem acc).anyAccept q = true → S.anyAccept q = true ∨ q = d := by
  induction S generalizing rem acc seen with
  | scalar s => exact ⟨trivial, fun q h => .inl h⟩
  | void => exact ⟨trivial, fun q h => .inl h⟩
  | ill => exact ⟨trivial, fun q h => .inl h⟩
  | fn e l r ih =>
    simp only [mergeZRepl] at hw ⊢
    by_cases he : e ∈ ds
    · have hes : e ∉ seen := fun h => by have := hS e h; simp [anyAccept] at this
      rw [if_pos he] at hw ⊢
      by_cases hr : rem ≤ 1
      · rw [if_pos hr] at hw ⊢
        have hdr : r.anyAccept d = false := by
          rcases hd with hd | hd
          · have := all_seen (l1 := e :: seen) (l2 := ds) (by simp [hes, hsn])
              (by simp; exact ⟨he, hss⟩) (by simp; omega) d hd
            simp only [List.mem_cons] at this
            rcases this with rfl | h
            · exact hu.1
            · have := hS d h
              simp [anyAccept] at this
              exact this.2
          · simp [anyAccept] at hd; exact hd.2
        refine ⟨⟨hdr, hu.2⟩, fun q hq => ?_⟩
        rw [accept_fn] at hq ⊢
        rcases hq with rfl | h
        · exact .inr rfl
        · exact .inl (.inr h)
      · rw [if_neg hr] at hw ⊢
        obtain ⟨i1, i2⟩ := ih (hd.imp_right fun h => by simp [anyAccept] at h; exact h.2) (e :: seen)
          (by simp [hes, hsn]) (by simp; exact ⟨he, hss⟩) (by simp; omega) (by
            intro x hx
            rcases List.mem_cons.1 hx with rfl | h
            · exact hu.1
            · have := hS x h
              simp [anyAccept] at this
              exact this.2) hu.2 hw
        refine ⟨i1, fun q hq => ?_⟩
        rw [accept_fn]
        exact (i2 q hq).imp_left .inr
    · rw [if_neg he] at hw ⊢
      obtain ⟨i1, i2⟩ := ih (hd.imp_right fun h => by simp [anyAccept] at h; exact h.2) seen hsn hss hlen
        (fun x h => by have := hS x h; simp [anyAccept] at this; exact this.2) hu.2 hw
      refine ⟨⟨?_, i1⟩, fun q hq => ?_⟩
      · cases hc : (r.mergeZRepl ds d rem acc).anyAccept e with
        | false => rfl
        | true =>
          rcases i2 e hc with h | rfl
          · rw [hu.1] at h; cases h
          · rcases hd with h | h
            · exact absurd h he
            · simp [anyAccept] at h
      · rw [accept_fn] at hq ⊢
        rcases hq with h | h
        · exact .inl (.inl h)
        · exact (i2 q h).imp_left .inr
  | dep e n rs ih =>
    simp only [mergeZRepl] at hw ⊢
    by_cases he : e ∈ ds
    · rw [if_pos he] at hw; simp [wf] at hw
    · rw [if_neg he] at hw ⊢
      simp only [wf, decide_eq_true_eq] at hw
      have ih := fun k => ih k (hd.imp_right fun h => by simp [anyAccept] at h; exact h.2 k) seen hsn hss hlen
        (fun x h => by have := hS x h; simp [anyAccept] at this; exact this.2 k) (hu k).2 (hw k)
      refine ⟨fun k => ⟨?_, (ih k).1⟩, fun q hq => ?_⟩
      · cases hc : ((rs k).mergeZRepl ds d rem acc).anyAccept e with
        | false => rfl
        | true =>
          rcases (ih k).2 e hc with h | rfl
          · rw [(hu k).1] at h; cases h
          · rcases hd with h | h
            · exact absurd h he
            · simp [anyAccept] at h
      · rw [accept_dep] at hq ⊢
        rcases hq with h | ⟨k, h⟩
        · exact .inl (.inl h)
        · exact ((ih k).2 q h).imp_left fun h => .inr ⟨k, h⟩

theorem accept_reassembleScalar {S : Sig} {st : State} {q : Dim} :
    (S.reassembleScalar st).anyAccept q = false := by
  induction S with
  | scalar s => rfl
  | void => rfl
  | ill => rfl
  | fn d l r ih => simp only [reassembleScalar]; split; exact ih; rfl
  | dep d n rs ih =>
    simp only [reassembleScalar]
    split
    · split
      · exact ih _
      · rfl
    · rfl

theorem uniq_reassembleScalar {S : Sig} {st : State} : (S.reassembleScalar st).uniq := by
  induction S with
  | scalar s => trivial
  | void => trivial
  | ill => trivial
  | fn d l r ih => simp only [reassembleScalar]; split; exact ih; trivial
  | dep d n rs ih =>
    simp only [reassembleScalar]
    split
    · split
      · exact ih _
      · trivial
    · trivial

theorem uniq_reassemble {top : Sig} {ds : List Dim} {st : State} :
    (top.reassemble ds st).uniq ∧ ∀ q, (top.reassemble ds st).anyAccept q = true → q ∈ ds := by
  induction ds generalizing st with
  | nil => exact ⟨uniq_reassembleScalar, fun q h => by simp [reassemble, accept_reassembleScalar] at h⟩
  | cons d ds ih =>
    simp only [reassemble]
    split
    · exact ⟨trivial, fun q h => by simp [anyAccept] at h⟩
    · next hd =>
      have hda : ∀ st, (top.reassemble ds st).anyAccept d = false := fun st => by
        cases hc : (top.reassemble ds st).anyAccept d with
        | false => rfl
        | true => exact absurd (ih.2 d hc) hd
      split
      · refine ⟨⟨hda _, ih.1⟩, fun q hq => ?_⟩
        rw [accept_fn] at hq
        rcases hq with rfl | h
        · simp
        · simp [ih.2 q h]
      · refine ⟨fun i => ⟨hda _, ih.1⟩, fun q hq => ?_⟩
        rw [accept_dep] at hq
        rcases hq with rfl | ⟨k, h⟩
        · simp
        · simp [ih.2 q h]
      · exact ⟨trivial, fun q h => by simp [anyAccept] at h⟩

theorem accept_mapDims {S : Sig} {f : Dim → Dim} {q : Dim} :
    (S.mapDims f).anyAccept q = true ↔ ∃ e, S.anyAccept e = true ∧ f e = q := by
  induction S with
  | scalar s => simp [mapDims, anyAccept]
  | void => simp [mapDims, anyAccept]
  | ill => simp [mapDims, anyAccept]
  | fn d l r ih =>
    simp only [mapDims, accept_fn, ih]
    constructor
    · rintro (h | ⟨e, h1, h2⟩)
      · exact ⟨d, .inl rfl, h⟩
      · exact ⟨e, .inr h1, h2⟩
    · rintro ⟨e, rfl | h1, h2⟩
      · exact .inl h2
      · exact .inr ⟨e, h1, h2⟩
  | dep d n rs ih =>
    simp only [mapDims, accept_dep, ih]
    constructor
    · rintro (h | ⟨k, e, h1, h2⟩)
      · exact ⟨d, .inl rfl, h⟩
      · exact ⟨e, .inr ⟨k, h1⟩, h2⟩
    · rintro ⟨e, rfl | ⟨k, h1⟩, h2⟩
      · exact .inl h2
      · exact .inr ⟨k, e, h1, h2⟩

theorem uniq_mapDims {S : Sig} {f : Dim → Dim} (hu : S.uniq)
    (hf : ∀ a b, S.anyAccept a = true → S.anyAccept b = true → f a = f b → a = b) :
    (S.mapDims f).uniq := by
  induction S with
  | scalar s => trivial
  | void => trivial
  | ill => trivial
  | fn d l r ih =>
    refine ⟨?_, ih hu.2 fun a b ha hb => hf a b (accept_fn.2 (.inr ha)) (accept_fn.2 (.inr hb))⟩
    cases hc : (r.mapDims f).anyAccept (f d) with
    | false => rfl
    | true =>
      obtain ⟨e, h1, h2⟩ := accept_mapDims.1 hc
      have := hf e d (accept_fn.2 (.inr h1)) (accept_fn.2 (.inl rfl)) h2
      subst this
      rw [hu.1] at h1; cases h1
  | dep d n rs ih =>
    intro k
    refine ⟨?_, ih k (hu k).2 fun a b ha hb => hf a b (accept_dep.2 (.inr ⟨k, ha⟩)) (accept_dep.2 (.inr ⟨k, hb⟩))⟩
    cases hc : ((rs k).mapDims f).anyAccept (f d) with
    | false => rfl
    | true =>
      obtain ⟨e, h1, h2⟩ := accept_mapDims.1 hc
      have := hf e d (accept_dep.2 (.inr ⟨k, h1⟩)) (accept_dep.2 (.inl rfl)) h2
      subst this
      rw [(hu k).1] at h1; cases h1

/-- Renaming does not identify two dimensions of the structure. -/
theorem renameDim_inj_on {ps : List (Dim × Dim)} {S : Sig} (hok : renameOk ps S = true) {a b : Dim}
    (ha : S.anyAccept a = true) (hb : S.anyAccept b = true)
    (h : renameDim ps a = renameDim ps b) : a = b := by
  simp only [renameOk, Bool.and_eq_true, decide_eq_true_eq, List.all_eq_true, Bool.or_eq_true,
    Bool.not_eq_true'] at hok
  obtain ⟨⟨h1, h2⟩, h3⟩ := hok
  have hk : ∀ x, S.anyAccept x = true → x ∈ ps.map Prod.fst ∨ x ∉ ps.map Prod.snd := by
    intro x hx
    by_cases hs : x ∈ ps.map Prod.snd
    · rcases h3 x hs with h | h
      · rw [hx] at h; cases h
      · exact .inl h
    · exact .inr hs
  have e1 := renameDim_swap h1 h2 a (by have := hk a ha; grind)
  have e2 := renameDim_swap h1 h2 b (by have := hk b hb; grind)
  rw [← e1, ← e2, h]

theorem union2_accept {S1 S2 : Sig} {q : Dim} (h : (union2 S1 S2).anyAccept q = true) :
    S1.anyAccept q = true ∨ S2.anyAccept q = true := by
  induction S2 with
  | scalar s => exact .inl h
  | void => exact .inl h
  | ill => exact absurd h (by simp [union2, anyAccept])
  | dep d n rs => exact absurd h (by simp [union2, anyAccept])
  | fn d l r ih =>
    simp only [union2] at h
    simp only [anyAccept, Bool.or_eq_true] at ih ⊢
    split at h
    · rcases ih h with h | h
      · exact .inl h
      · exact .inr (.inr h)
    · simp only [anyAccept, Bool.or_eq_true] at h
      rcases h with h | h
      · exact .inr (.inl h)
      · rcases ih h with h | h
        · exact .inl h
        · exact .inr (.inr h)

theorem union2_uniq {S1 S2 : Sig} (h1 : S1.uniq) (h2 : S2.uniq) : (union2 S1 S2).uniq := by
  induction S2 with
  | scalar s => exact h1
  | void => exact h1
  | ill => trivial
  | dep d n rs => trivial
  | fn d l r ih =>
    simp only [union2]
    split
    · exact ih h2.2
    · next hd =>
      refine ⟨?_, ih h2.2⟩
      cases hc : (union2 S1 r).anyAccept d with
      | false => rfl
      | true =>
        rcases union2_accept hc with h | h
        · exact absurd h hd
        · rw [h2.1] at h; simp at h

theorem unionAll_uniq (l : List Sig) (h : ∀ S ∈ l, S.uniq) : (unionAll l).uniq := by
  cases l with
  | nil => trivial
  | cons S l =>
    simp only [unionAll]
    have hS := h S (by simp)
    replace h := fun T hT => h T (List.mem_cons_of_mem _ hT)
    induction l generalizing S with
    | nil => exact hS
    | cons T l ih =>
      exact ih _ (union2_uniq hS (h T (by simp))) fun U hU => h U (by simp [hU])

end Sig

open Sig in
/-- No dimension occurs twice on a path of the signature. -/
theorem Struct.sig_uniq (A : Arith) (s : Struct) (hw : s.wf A) (hn : s.noAlias) : (s.sem A).sig.uniq := by
  induction s with
  | scalar s a => trivial
  | tuple t n fs ih =>
    have h := hw.1
    simp only [Struct.sem, tupleSem] at h ⊢
    split
    · trivial
    · next hna =>
      intro i
      refine ⟨?_, ih i (hw.2 i) (hn i)⟩
      cases hc : ((fs i).sem A).sig.anyAccept t with
      | false => rfl
      | true => exact absurd ⟨i, hc⟩ hna
  | vector d s ih =>
    simp only [Struct.sem, vectorSem]
    split
    · trivial
    · next h => exact ⟨by simpa using h, ih hw.2 hn⟩
  | union n ss ih =>
    refine unionAll_uniq _ fun S hS => ?_
    obtain ⟨i, rfl⟩ := List.mem_ofFn.1 hS
    exact ih i (hw.2 i) (hn i)
  | view v s ih =>
    have ih := ih hw.2 hn.1
    have h := hw.1
    simp only [Struct.sem, ViewSem.toSem] at h ⊢
    generalize s.sem A = S at h ih ⊢
    cases v with
    | bcast d => exact absurd hn.2 id
    | join a b d => exact absurd hn.2 id
    | fix d i =>
      simp only [View.sem, fixSem] at h ⊢
      refine (uniq_replace (New := []) ?_ (by simp) ih h).1
      intro N hN hs hw' _
      rcases hs with ⟨e, l, r, rfl, he⟩ | ⟨e, n, rs, rfl, he⟩
      · exact ⟨hN.2, fun q hq => .inl (accept_fn.2 (.inr hq))⟩
      · cases i with
        | lit k =>
          simp only [fixRepl, branch] at hw' ⊢
          split at hw'
          · next hk =>
            rw [dif_pos hk]
            exact ⟨(hN _).2, fun q hq => .inl (accept_dep.2 (.inr ⟨_, hq⟩))⟩
          · simp [Sig.wf] at hw'
        | dyn k => simp [fixRepl, branch, Sig.wf] at hw'
        | bad k => simp [fixRepl, branch, Sig.wf] at hw'
    | setLength d l =>
      refine uniq_indexmap (R := setLengthRepl l) ?_ ?_ ih h
      · intro e l' r _; exact ⟨_, rfl⟩
      · intro e n rs h; simp [setLengthRepl, Sig.wf] at h
    | shift d a =>
      refine uniq_indexmap (R := shiftRepl a) ?_ ?_ ih h
      · intro e l' r _; exact ⟨_, rfl⟩
      · intro e n rs h
        cases a <;> simp only [shiftRepl] at h ⊢ <;> first | (simp [Sig.wf] at h; done) | skip
        split at h
        · next h' => rw [if_pos h']; exact ⟨_, _, rfl⟩
        · simp [Sig.wf] at h
    | slice d a m =>
      refine uniq_indexmap (R := sliceRepl a m) ?_ ?_ ih h
      · intro e l' r _; exact ⟨_, rfl⟩
      · intro e n rs h
        cases a <;> cases m <;> simp only [sliceRepl] at h ⊢ <;> first | (simp [Sig.wf] at h; done) | skip
        exact ⟨_, _, rfl⟩
    | span d a m =>
      refine uniq_indexmap (R := spanRepl a m) ?_ ?_ ih h
      · intro e l' r _; exact ⟨_, rfl⟩
      · intro e n rs h
        cases a <;> cases m <;> simp only [spanRepl] at h ⊢ <;> first | (simp [Sig.wf] at h; done) | skip
        split at h
        · next h' => rw [if_pos h']; exact ⟨_, _, rfl⟩
        · simp [Sig.wf] at h
    | step d a m =>
      refine uniq_indexmap (R := stepRepl a m) ?_ ?_ ih h
      · intro e l' r _; exact ⟨_, rfl⟩
      · intro e n rs h
        cases a <;> cases m <;> simp only [stepRepl] at h ⊢ <;> first | (simp [Sig.wf] at h; done) | skip
        split at h
        · next h' => rw [if_pos h']; exact ⟨_, _, rfl⟩
        · simp [Sig.wf] at h
    | reverse d =>
      refine uniq_indexmap (R := reverseRepl) ?_ ?_ ih h
      · intro e l' r _; exact ⟨_, rfl⟩
      · intro e n rs h; exact ⟨_, _, rfl⟩
    | reorder ds => exact uniq_reassemble.1
    | hoist d =>
      simp only [View.sem, hoistSem] at h ⊢
      split
      · next d' l r hf =>
        rw [hf] at h
        have hret : ∀ N, N.uniq → Starts [d] N → (retRepl N).wf = true →
            (retRepl N).uniq ∧ (∀ q, (retRepl N).anyAccept q = true → N.anyAccept q = true) ∧
              (retRepl N).anyAccept d = false := by
          intro N hN hs hw'
          obtain ⟨e, l, r, rfl, he⟩ := starts_fn hs retRepl (fun _ _ _ => rfl) hw'
          simp at he; subst he
          exact ⟨hN.2, fun q hq => accept_fn.2 (.inr hq), hN.1⟩
        exact ⟨accept_replace_self (fun N a b c => (hret N a b c).2.2) ih h,
          (uniq_replace (New := []) (fun N a b c _ => ⟨(hret N a b c).1, fun q hq =>
            .inl ((hret N a b c).2.1 q hq)⟩) (by simp) ih h).1⟩
      · trivial
    | rename ps =>
      simp only [View.sem, renameSem] at h ⊢
      split
      · next hok => exact uniq_mapDims ih fun a b => renameDim_inj_on hok
      · trivial
    | intoBlocks d maj min =>
      simp only [View.sem, intoBlocksSem] at h ⊢
      split
      · trivial
      · next hc =>
        rw [if_neg hc] at h
        simp only [not_or, not_and, Bool.not_eq_true] at hc
        obtain ⟨hne, h1, h2⟩ := hc
        refine (uniq_replace (New := [maj, min]) ?_ ?_ ih h).1
        · intro N hN hs hw' hsub
          obtain ⟨e, l, r, rfl, he⟩ := starts_fn hs (intoBlocksRepl maj min) (fun _ _ _ => rfl) hw'
          simp at he; subst he
          have hr : ∀ x, (x ≠ e → S.sig.anyAccept x = false) → r.anyAccept x = false := by
            intro x hx
            by_cases hxe : x = e
            · rw [hxe]; exact hN.1
            · have := hsub x
              rw [hx hxe, accept_fn] at this
              cases hc : r.anyAccept x with
              | false => rfl
              | true => simpa using this (.inr hc)
          refine ⟨⟨?_, hr _ h2, hN.2⟩, fun q hq => ?_⟩
          · simp [anyAccept, hr _ h1, Ne.symm hne]
          · simp only [intoBlocksRepl, accept_fn] at hq ⊢
            grind
        · intro q hq
          simp only [List.mem_cons, List.not_mem_nil, or_false] at hq ⊢
          rcases hq with rfl | rfl
          · by_cases hx : q = d; exact .inl hx; exact .inr (h1 hx)
          · by_cases hx : q = d; exact .inl hx; exact .inr (h2 hx)
    | intoBlocksDyn d maj min pres =>
      simp only [View.sem, intoBlocksDynSem] at h ⊢
      split
      · trivial
      · next hc =>
        rw [if_neg hc] at h
        simp only [not_or, not_and, Bool.not_eq_true] at hc
        obtain ⟨hne, hne1, hne2, h1, h2, h3⟩ := hc
        refine (uniq_replace (New := [maj, min, pres]) ?_ ?_ ih h).1
        · intro N hN hs hw' hsub
          obtain ⟨e, l, r, rfl, he⟩ := starts_fn hs (intoBlocksDynRepl maj min pres) (fun _ _ _ => rfl) hw'
          simp at he; subst he
          have hr : ∀ x, (x ≠ e → S.sig.anyAccept x = false) → r.anyAccept x = false := by
            intro x hx
            by_cases hxe : x = e
            · rw [hxe]; exact hN.1
            · have := hsub x
              rw [hx hxe, accept_fn] at this
              cases hc : r.anyAccept x with
              | false => rfl
              | true => simpa using this (.inr hc)
          refine ⟨⟨?_, ?_, hr _ h3, hN.2⟩, fun q hq => ?_⟩
          · simp [anyAccept, hr _ h1, Ne.symm hne, hne2]
          · simp [anyAccept, hr _ h2, Ne.symm hne1]
          · simp only [intoBlocksDynRepl, accept_fn] at hq ⊢
            grind
        · intro q hq
          simp only [List.mem_cons, List.not_mem_nil, or_false] at hq ⊢
          rcases hq with rfl | rfl | rfl
          · by_cases hx : q = d; exact .inl hx; exact .inr (h1 hx)
          · by_cases hx : q = d; exact .inl hx; exact .inr (h2 hx)
          · by_cases hx : q = d; exact .inl hx; exact .inr (h3 hx)
    | intoBlocksStat d border maj min nl =>
      simp only [View.sem, intoBlocksStatSem] at h ⊢
      split
      · trivial
      · next hc =>
        rw [if_neg hc] at h
        simp only [not_or, not_and, Bool.not_eq_true] at hc
        obtain ⟨hne, hne1, hne2, h1, h2, h3⟩ := hc
        refine (uniq_replace (New := [border, maj, min]) ?_ ?_ ih h).1
        · intro N hN hs hw' hsub
          obtain ⟨e, l, r, rfl, he⟩ := starts_fn hs (intoBlocksStatRepl border maj min nl) (fun _ _ _ => rfl) hw'
          simp at he; subst he
          have hr : ∀ x, (x ≠ e → S.sig.anyAccept x = false) → r.anyAccept x = false := by
            intro x hx
            by_cases hxe : x = e
            · rw [hxe]; exact hN.1
            · have := hsub x
              rw [hx hxe, accept_fn] at this
              cases hc : r.anyAccept x with
              | false => rfl
              | true => simpa using this (.inr hc)
          obtain ⟨l1, l2, he⟩ := intoBlocksStatRepl_fn hw'
          rw [he]
          refine ⟨fun i => ?_, fun q hq => ?_⟩
          · dsimp only; split
            · refine ⟨?_, ?_, hr _ h3, hN.2⟩
              · simp [anyAccept, hr _ h1, Ne.symm hne, Ne.symm hne1]
              · simp [anyAccept, hr _ h2, Ne.symm hne2]
            · refine ⟨?_, ?_, hr _ h3, hN.2⟩
              · simp [anyAccept, hr _ h1, Ne.symm hne, Ne.symm hne1]
              · simp [anyAccept, hr _ h2, Ne.symm hne2]
          · rw [accept_dep] at hq
            rcases hq with rfl | ⟨i, hq⟩
            · simp
            · split at hq <;> simp only [accept_fn] at hq ⊢ <;> grind
        · intro q hq
          simp only [List.mem_cons, List.not_mem_nil, or_false] at hq ⊢
          rcases hq with rfl | rfl | rfl
          · by_cases hx : q = d; exact .inl hx; exact .inr (h1 hx)
          · by_cases hx : q = d; exact .inl hx; exact .inr (h2 hx)
          · by_cases hx : q = d; exact .inl hx; exact .inr (h3 hx)
    | mergeBlocks maj min d =>
      simp only [View.sem, mergeBlocksSem] at h ⊢
      split
      · trivial
      · next hc =>
        rw [if_neg hc] at h
        simp only [not_or, not_and, Bool.not_eq_true] at hc
        obtain ⟨hne, h1⟩ := hc
        refine (uniq_replace (New := [d]) ?_ ?_ ih h).1
        · intro N hN hs hw' hsub
          obtain ⟨e, l, r, rfl, he⟩ := starts_fn hs (mergeBlocksRepl maj min d) (fun _ _ _ => rfl) hw'
          simp only [mergeBlocksRepl] at hw' ⊢
          have := uniq_replace (S := r) (R := mergeBlocksInner maj min d e l) (ds := [min, maj])
            (New := [d]) ?_ ?_ hN.2 hw'
          · exact ⟨this.1, fun q hq => (this.2 q hq).imp_left fun h => accept_fn.2 (.inr h)⟩
          · intro M hM hs' hw'' hsub'
            obtain ⟨e', l', r', rfl, he'⟩ := starts_fn hs' (mergeBlocksInner maj min d e l) (fun _ _ _ => rfl) hw''
            simp only [mergeBlocksInner] at hw'' ⊢
            split
            · next hcase =>
              refine ⟨⟨?_, hM.2⟩, fun q hq => ?_⟩
              · by_cases hd : d = maj ∨ d = min
                · have : d = e ∨ d = e' := by grind
                  rcases this with rfl | rfl
                  · cases hc : r'.anyAccept d with
                    | false => rfl
                    | true =>
                      have := hsub' d (accept_fn.2 (.inr hc))
                      rw [hN.1] at this; cases this
                  · exact hM.1
                · rw [not_or] at hd
                  cases hc : r'.anyAccept d with
                  | false => rfl
                  | true =>
                    have := hsub d (accept_fn.2 (.inr (hsub' d (accept_fn.2 (.inr hc)))))
                    rw [h1 hd.1 hd.2] at this; cases this
              · simp only [accept_fn] at hq ⊢
                rcases hq with rfl | h
                · simp
                · exact .inl (.inr h)
            · next hcase => rw [if_neg hcase] at hw''; simp [Sig.wf] at hw''
          · intro q hq
            simp only [List.mem_singleton] at hq
            subst hq
            by_cases hd : q = maj ∨ q = min
            · left; simp; grind
            · rw [not_or] at hd
              right
              cases hc : r.anyAccept q with
              | false => rfl
              | true =>
                have := hsub q (accept_fn.2 (.inr hc))
                rw [h1 hd.1 hd.2] at this; cases this
        · intro q hq
          simp only [List.mem_singleton] at hq
          subst hq
          by_cases hd : q = maj ∨ q = min
          · left; simpa using hd
          · rw [not_or] at hd
            exact .inr (h1 hd.1 hd.2)
    | mergeZ sl gl ds d =>
      simp only [View.sem, mergeZSem] at h ⊢
      split
      · trivial
      · next hc =>
        rw [if_neg hc] at h
        simp only [not_or, not_and, Bool.not_eq_true, Classical.not_not] at hc
        obtain ⟨-, -, -, hnd, hd⟩ := hc
        exact (uniq_mergeZ hnd (by by_cases hx : d ∈ ds; exact .inl hx; exact .inr (hd hx)) []
          (by simp) (by simp) (by simp) (by simp) ih h).1

theorem Struct.noDup_of_noAlias (A : Arith) (s : Struct) (hw : s.wf A) (hn : s.noAlias) : s.noDup A := by
  have h := Struct.sig_uniq A s hw hn
  induction s with
  | scalar => trivial
  | tuple t n fs ih => exact ⟨h, fun i => ih i (hw.2 i) (hn i) (Struct.sig_uniq A _ (hw.2 i) (hn i))⟩
  | vector d s ih => exact ⟨h, ih hw.2 hn (Struct.sig_uniq A _ hw.2 hn)⟩
  | union n ss ih => exact ⟨h, fun i => ih i (hw.2 i) (hn i) (Struct.sig_uniq A _ (hw.2 i) (hn i))⟩
  | view v s ih => exact ⟨h, ih hw.2 hn.1 (Struct.sig_uniq A _ hw.2 hn.1)⟩

end Noarr
