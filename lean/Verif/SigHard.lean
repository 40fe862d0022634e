import Verif.SigUniq
import Verif.Depend

/-
The tuple dimensions in the signature are the `hard` ones.
-/

set_option linter.unusedVariables false
set_option linter.unusedSimpArgs false

namespace Noarr

namespace Sig

/-- There is a tuple node with this dimension. -/
def hasDep (q : Dim) : Sig → Prop
  | scalar _ => False
  | void => False
  | fn _ _ r => r.hasDep q
  | dep d _ rs => q = d ∨ ∃ i, (rs i).hasDep q
  | ill => False

theorem hasDep_accept {S : Sig} {q : Dim} (h : S.hasDep q) : S.anyAccept q = true := by
  induction S with
  | scalar s => exact absurd h id
  | void => exact absurd h id
  | ill => exact absurd h id
  | fn d l r ih => exact accept_fn.2 (.inr (ih h))
  | dep d n rs ih =>
    rcases h with rfl | ⟨i, h⟩
    · exact accept_dep.2 (.inl rfl)
    · exact accept_dep.2 (.inr ⟨i, ih i h⟩)

theorem hasDep_replace {R : Sig → Sig} {ds : List Dim} {New : Dim → Prop} {q : Dim}
    (h1 : ∀ N, (R N).hasDep q → N.hasDep q ∨ New q) {S : Sig} (h : (S.replace R ds).hasDep q) :
    S.hasDep q ∨ New q := by
  induction S with
  | scalar s => exact absurd h id
  | void => exact absurd h id
  | ill => exact absurd h id
  | fn d l r ih =>
    simp only [replace] at h
    split at h
    · exact h1 _ h
    · exact ih h
  | dep d n rs ih =>
    simp only [replace] at h
    split at h
    · exact h1 _ h
    · rcases h with rfl | ⟨i, h⟩
      · exact .inl (.inl rfl)
      · exact (ih i h).imp_left fun h => .inr ⟨i, h⟩

theorem hasDep_select {d : Dim} {n m : Nat} {rs : Fin n → Sig} {f : Nat → Nat} {q : Dim}
    (h : (select d rs m f).hasDep q) : (Sig.dep d n rs).hasDep q := by
  unfold select at h
  split at h
  · rcases h with rfl | ⟨i, h⟩
    · exact .inl rfl
    · exact .inr ⟨_, h⟩
  · exact absurd h id

theorem find_hasDep {S : Sig} {d : Dim} {st : State} {e n rs} (h : S.find d st = .dep e n rs) :
    S.hasDep d := by
  induction S with
  | scalar s => simp [find] at h
  | void => simp [find] at h
  | ill => simp [find] at h
  | fn d' l r ih =>
    simp only [find] at h
    split at h
    · simp at h
    · exact ih h
  | dep d' m rs' ih =>
    simp only [find] at h
    split at h
    · next he => exact .inl he.symm
    · split at h
      · exact .inr ⟨_, ih _ h⟩
      · simp at h

theorem hasDep_reassemble {top : Sig} {ds : List Dim} {st : State} {q : Dim}
    (h : (top.reassemble ds st).hasDep q) : top.hasDep q := by
  induction ds generalizing st with
  | nil =>
    have := hasDep_accept h
    rw [reassemble, accept_reassembleScalar] at this; cases this
  | cons d ds ih =>
    simp only [reassemble] at h
    split at h
    · exact absurd h id
    · split at h
      · exact ih h
      · next hf =>
        rcases h with rfl | ⟨i, h⟩
        · exact find_hasDep hf
        · exact ih h
      · exact absurd h id

theorem hasDep_mapDims {S : Sig} {f : Dim → Dim} {q : Dim} (h : (S.mapDims f).hasDep q) :
    ∃ e, S.hasDep e ∧ f e = q := by
  induction S with
  | scalar s => exact absurd h id
  | void => exact absurd h id
  | ill => exact absurd h id
  | fn d l r ih => exact ih h
  | dep d n rs ih =>
    rcases h with rfl | ⟨i, h⟩
    · exact ⟨d, .inl rfl, rfl⟩
    · obtain ⟨e, h1, h2⟩ := ih i h
      exact ⟨e, .inr ⟨i, h1⟩, h2⟩

theorem hasDep_mergeZ {ds : List Dim} {d q : Dim} {S : Sig} {rem : Nat} {acc : ArgLen}
    (h : (S.mergeZRepl ds d rem acc).hasDep q) : S.hasDep q := by
  induction S generalizing rem acc with
  | scalar s => exact absurd h id
  | void => exact absurd h id
  | ill => exact absurd h id
  | fn e l r ih =>
    simp only [mergeZRepl] at h
    split at h
    · split at h
      · exact h
      · exact ih h
    · exact ih h
  | dep e n rs ih =>
    simp only [mergeZRepl] at h
    split at h
    · exact absurd h id
    · rcases h with rfl | ⟨i, h⟩
      · exact .inl rfl
      · exact .inr ⟨i, ih i h⟩

theorem union2_hasDep {S1 S2 : Sig} {q : Dim} (h : (union2 S1 S2).hasDep q) : S1.hasDep q := by
  induction S2 with
  | scalar s => exact h
  | void => exact h
  | ill => exact absurd h id
  | dep d n rs => exact absurd h id
  | fn d l r ih =>
    simp only [union2] at h
    split at h
    · exact ih h
    · exact ih h

theorem unionAll_hasDep {l : List Sig} {q : Dim} (h : (unionAll l).hasDep q) :
    ∃ S ∈ l, S.hasDep q := by
  cases l with
  | nil => exact absurd h id
  | cons S l =>
    refine ⟨S, by simp, ?_⟩
    simp only [unionAll] at h
    induction l generalizing S with
    | nil => exact h
    | cons T l ih => exact union2_hasDep (ih _ h)

end Sig

open Sig in
/-- A tuple node of the signature belongs to a hard dimension. -/
theorem Struct.hard_of_hasDep (A : Arith) (s : Struct) (hw : s.wf A) (hn : s.noDup A) {q : Dim}
    (h : (s.sem A).sig.hasDep q) : s.hard q := by
  induction s generalizing q with
  | scalar s a => exact absurd h id
  | tuple t n fs ih =>
    simp only [Struct.sem, tupleSem] at h
    split at h
    · exact absurd h id
    · rcases h with rfl | ⟨i, h⟩
      · exact .inl rfl
      · exact .inr ⟨i, ih i (hw.2 i) (hn.2 i) h⟩
  | vector d s ih =>
    simp only [Struct.sem, vectorSem] at h
    split at h
    · exact absurd h id
    · next hd =>
      refine ⟨?_, ih hw.2 hn.2 h⟩
      rintro rfl
      exact hd (hasDep_accept h)
  | union n ss ih =>
    obtain ⟨S, hS, h⟩ := unionAll_hasDep h
    obtain ⟨i, rfl⟩ := List.mem_ofFn.1 hS
    exact ⟨i, ih i (hw.2 i) (hn.2 i) h⟩
  | view v s ih =>
    have ih := fun {q} h => ih hw.2 hn.2 (q := q) h
    have hw1 := hw.1
    have huniq := hn.2.uniq
    simp only [Struct.sem, ViewSem.toSem] at h hw1
    cases v with
    | bcast d =>
      refine ⟨?_, ih h⟩
      rintro rfl
      have h1 := hasDep_accept (S := (s.sem A).sig) h
      have h2 : (s.sem A).sig.anyAccept q = false := hn.1.1
      rw [h1] at h2; cases h2
    | join a b d =>
      simp only [View.sem, joinSem] at h
      split at h
      · exact absurd h id
      · split at h
        · split at h
          · refine ih ((hasDep_replace (R := retRepl) (New := fun _ => False) ?_ h).resolve_right id)
            intro N hN
            cases N <;> first | (exact .inl hN) | (exact absurd hN id)
          · exact absurd h id
        · exact absurd h id
    | fix d i =>
      simp only [View.sem, fixSem] at h hw1
      constructor
      · rintro rfl
        have := hasDep_accept h
        rw [accept_replace_self ?_ huniq hw1] at this
        · cases this
        · intro N hN hs hw'
          rcases hs with ⟨e, l, r, rfl, he⟩ | ⟨e, n, rs, rfl, he⟩
          · simp at he; subst he; exact hN.1
          · simp at he; subst he
            cases i <;> simp only [fixRepl, branch] at hw' ⊢ <;>
              first | (simp [Sig.wf] at hw'; done) | skip
            split at hw'
            · next hk => rw [dif_pos hk]; exact (hN _).1
            · simp [Sig.wf] at hw'
      · refine ih ((hasDep_replace (New := fun _ => False) ?_ h).resolve_right id)
        intro N hN
        cases N with
        | fn e l r => exact .inl hN
        | dep e n rs =>
          cases i <;> simp only [fixRepl, branch] at hN <;> first | (exact absurd hN id) | skip
          split at hN
          · exact .inl (.inr ⟨_, hN⟩)
          · exact absurd hN id
        | scalar _ => exact absurd hN id
        | void => exact absurd hN id
        | ill => exact absurd hN id
    | setLength d l =>
      refine ih ((hasDep_replace (R := setLengthRepl l) (New := fun _ => False) ?_ h).resolve_right id)
      intro N hN
      cases N <;> first | (exact .inl hN) | (exact absurd hN id)
    | shift d a =>
      refine ih ((hasDep_replace (R := shiftRepl a) (New := fun _ => False) ?_ h).resolve_right id)
      intro N hN
      cases N <;> first | (exact .inl hN) | (exact absurd hN id) | skip
      cases a <;> simp only [shiftRepl] at hN <;> first | (exact absurd hN id) | skip
      split at hN
      · exact .inl (hasDep_select hN)
      · exact absurd hN id
    | slice d a m =>
      refine ih ((hasDep_replace (R := sliceRepl a m) (New := fun _ => False) ?_ h).resolve_right id)
      intro N hN
      cases N <;> first | (exact .inl hN) | (exact absurd hN id) | skip
      cases a <;> cases m <;> simp only [sliceRepl] at hN <;> first | (exact absurd hN id) | skip
      exact .inl (hasDep_select hN)
    | span d a m =>
      refine ih ((hasDep_replace (R := spanRepl a m) (New := fun _ => False) ?_ h).resolve_right id)
      intro N hN
      cases N <;> first | (exact .inl hN) | (exact absurd hN id) | skip
      cases a <;> cases m <;> simp only [spanRepl] at hN <;> first | (exact absurd hN id) | skip
      split at hN
      · exact .inl (hasDep_select hN)
      · exact absurd hN id
    | step d a m =>
      refine ih ((hasDep_replace (R := stepRepl a m) (New := fun _ => False) ?_ h).resolve_right id)
      intro N hN
      cases N <;> first | (exact .inl hN) | (exact absurd hN id) | skip
      cases a <;> cases m <;> simp only [stepRepl] at hN <;> first | (exact absurd hN id) | skip
      split at hN
      · exact .inl (hasDep_select hN)
      · exact absurd hN id
    | reverse d =>
      refine ih ((hasDep_replace (R := reverseRepl) (New := fun _ => False) ?_ h).resolve_right id)
      intro N hN
      cases N <;> first | (exact .inl hN) | (exact absurd hN id) | skip
      exact .inl (hasDep_select hN)
    | reorder ds => exact ih (hasDep_reassemble h)
    | hoist d =>
      simp only [View.sem, hoistSem] at h
      split at h
      · refine ih ((hasDep_replace (R := retRepl) (New := fun _ => False) ?_ h).resolve_right id)
        intro N hN
        cases N <;> first | (exact .inl hN) | (exact absurd hN id)
      · exact absurd h id
    | rename ps =>
      simp only [View.sem, renameSem] at h
      split at h
      · next hok =>
        obtain ⟨e, h1, h2⟩ := hasDep_mapDims h
        refine ⟨e, ih h1, ?_, h2⟩
        simp only [renameOk, Bool.and_eq_true, decide_eq_true_eq, List.all_eq_true, Bool.or_eq_true,
          Bool.not_eq_true'] at hok
        by_cases hs : e ∈ ps.map Prod.snd
        · rcases hok.2 e hs with h | h
          · rw [hasDep_accept h1] at h; cases h
          · exact .inl h
        · exact .inr hs
      · exact absurd h id
    | intoBlocks d maj min =>
      simp only [View.sem, intoBlocksSem] at h
      split at h
      · exact absurd h id
      · refine ih ((hasDep_replace (New := fun _ => False) ?_ h).resolve_right id)
        intro N hN
        cases N <;> first | (exact .inl hN) | (exact absurd hN id)
    | intoBlocksDyn d maj min pres =>
      simp only [View.sem, intoBlocksDynSem] at h
      split at h
      · exact absurd h id
      · refine ih ((hasDep_replace (New := fun _ => False) ?_ h).resolve_right id)
        intro N hN
        cases N <;> first | (exact .inl hN) | (exact absurd hN id)
    | intoBlocksStat d border maj min nl =>
      simp only [View.sem, intoBlocksStatSem] at h
      split at h
      · exact absurd h id
      · refine (hasDep_replace (New := fun q => q = border) ?_ h).symm.imp_right ih
        intro N hN
        cases N <;> first | (exact absurd hN id) | skip
        next e l r =>
        by_cases hwf : (intoBlocksStatRepl border maj min nl (.fn e l r)) = .ill
        · rw [hwf] at hN; exact absurd hN id
        · have : ∃ l1 l2, intoBlocksStatRepl border maj min nl (.fn e l r) = .dep border 2 (fun i =>
              if i = 0 then .fn maj l1 (.fn min (.ofVal nl) r) else .fn maj (.static 1) (.fn min l2 r)) := by
            simp only [intoBlocksStatRepl] at hwf ⊢
            cases l <;> cases hv : ArgLen.ofVal nl <;> simp only [hv] at hwf ⊢
            · exact ⟨_, _, rfl⟩
            · exact ⟨_, _, rfl⟩
            · exact ⟨_, _, rfl⟩
            · split at hwf
              · exact absurd rfl hwf
              · next hb => rw [if_neg hb]; exact ⟨_, _, rfl⟩
          obtain ⟨l1, l2, he⟩ := this
          rw [he] at hN
          rcases hN with rfl | ⟨i, hN⟩
          · exact .inr rfl
          · dsimp only at hN
            split at hN
            · exact .inl hN
            · exact .inl hN
    | mergeBlocks maj min d =>
      simp only [View.sem, mergeBlocksSem] at h
      split at h
      · exact absurd h id
      · refine ih ((hasDep_replace (New := fun _ => False) ?_ h).resolve_right id)
        intro N hN
        cases N <;> first | (exact absurd hN id) | skip
        next e l r =>
        refine hasDep_replace (S := r) (R := mergeBlocksInner maj min d e l) (ds := [min, maj])
          (New := fun _ => False) ?_ hN
        intro M hM
        cases M <;> first | (exact absurd hM id) | skip
        simp only [mergeBlocksInner] at hM
        split at hM
        · exact .inl hM
        · exact absurd hM id
    | mergeZ sl gl ds d =>
      simp only [View.sem, mergeZSem] at h
      split at h
      · exact absurd h id
      · exact ih (hasDep_mergeZ h)

end Noarr
