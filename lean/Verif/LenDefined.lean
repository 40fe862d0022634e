import Verif.DependLemmas

/-
Whenever `has_length` holds, `length` is available. Used for C46 and C05.
-/

set_option linter.unusedSimpArgs false

namespace Noarr

/-- No `reverse`, no `step` over a tuple, and two static assertions that the lengths rely on
(structs/blocks.hpp:481, structs/zcurve.hpp:153). -/
def Struct.lenOk : Struct → Prop
  | .scalar _ _ => True
  | .tuple _ _ fs => ∀ i, (fs i).lenOk
  | .vector _ s => s.lenOk
  | .union _ ss => ∀ i, (ss i).lenOk
  | .view (.reverse _) _ => False
  | .view (.step d _ _) s => (¬ s.hard d ∧ ¬ s.soft d) ∧ s.lenOk
  | .view (.intoBlocksStat _ _ maj min _) s => maj ≠ min ∧ s.lenOk
  | .view (.mergeZ _ _ ds _) s => ds ≠ [] ∧ s.lenOk
  | .view _ s => s.lenOk

theorem guardLen_some {h : Option Bool} {v : Option Val} (h1 : h = some true)
    (h2 : ∃ x, v = some x) : ∃ x, guardLen h v = some x := by
  subst h1; exact h2

theorem allSome_map_len {S : Sem} {st : State} {ds : List Dim} {bs : List Bool}
    (h : allSome (ds.map (S.hasLen · st)) = some bs) (hall : bs.all id = true)
    (ih : ∀ q, S.hasLen q st = some true → ∃ v, S.len q st = some v) :
    ∃ ls, allSome (ds.map (S.len · st)) = some ls := by
  induction ds generalizing bs with
  | nil => exact ⟨[], rfl⟩
  | cons d ds ihd =>
    simp only [List.map_cons, allSome, bind, Option.bind_eq_some_iff, Option.some.injEq] at h
    obtain ⟨a, h1, as, h2, rfl⟩ := h
    simp only [List.all_cons, id, Bool.and_eq_true] at hall
    obtain ⟨rfl, hall⟩ := hall
    obtain ⟨v, hv⟩ := ih d h1
    obtain ⟨ls, hls⟩ := ihd h2 hall
    exact ⟨v :: ls, by simp [allSome, hv, hls]⟩

section
variable {A : Arith} {S : Sem} (ih : ∀ q st, S.hasLen q st = some true → ∃ v, S.len q st = some v)
  {q : Dim} {st : State}
include ih

theorem lenDef_sub {V : ViewSem} (h : (V.sub st).bind (S.hasLen q) = some true) :
    ∃ v, (V.sub st).bind (S.len q) = some v := by
  rw [Option.bind_eq_some_iff] at h
  obtain ⟨u, hu, h⟩ := h
  obtain ⟨v, hv⟩ := ih _ _ h
  exact ⟨v, by rw [hu]; exact hv⟩

theorem lenDef_bcast {d : Dim} (h : (bcastSem d S).hasLen q st = some true) :
    ∃ v, (bcastSem d S).len q st = some v := by
  refine guardLen_some h ?_
  simp only [bcastSem] at h
  split at h
  · simp [State.has, Option.isSome_iff_exists] at h
    next e => simp [e, h]
  · next e => simp only [e, ↓reduceIte]; exact ih _ _ h

theorem lenDef_fix {d : Dim} {i : Val} (h : (fixSem d i S).hasLen q st = some true) :
    ∃ v, (fixSem d i S).len q st = some v := by
  refine guardLen_some h ?_
  simp only [fixSem] at h
  split at h
  · simp at h
  · exact ih _ _ h

theorem lenDef_shift {d : Dim} {a : Val} (h : (shiftSem A d a S).hasLen q st = some true) :
    ∃ v, (shiftSem A d a S).len q st = some v := by
  refine guardLen_some h ?_
  simp only [shiftSem] at h
  split at h
  · next e =>
    simp only [e, ↓reduceIte]
    cases hl : st (.len d) with
    | some l => exact ⟨_, rfl⟩
    | none =>
      simp only [State.has, hl, Option.isSome_none, Bool.false_eq_true, ↓reduceIte] at h
      obtain ⟨v, hv⟩ := ih _ _ h
      exact ⟨_, by simp only [hv]; rfl⟩
  · next e => simp only [e, ↓reduceIte]; exact ih _ _ h

theorem lenDef_slice {d : Dim} {a n : Val} (h : (sliceSem A d a n S).hasLen q st = some true) :
    ∃ v, (sliceSem A d a n S).len q st = some v := by
  refine guardLen_some h ?_
  simp only [sliceSem] at h
  split
  · exact ⟨_, rfl⟩
  · exact ih _ _ h

theorem lenDef_span {d : Dim} {a n : Val} (h : (spanSem A d a n S).hasLen q st = some true) :
    ∃ v, (spanSem A d a n S).len q st = some v := by
  refine guardLen_some h ?_
  simp only [spanSem] at h
  split
  · exact ⟨_, rfl⟩
  · exact ih _ _ h

theorem lenDef_join {a b d : Dim} (h : (joinSem a b d S).hasLen q st = some true) :
    ∃ v, (joinSem a b d S).len q st = some v := by
  refine guardLen_some h ?_
  exact lenDef_sub (V := joinSem a b d S) ih h

theorem lenDef_rename {ps : List (Dim × Dim)} (h : (renameSem ps S).hasLen q st = some true) :
    ∃ v, (renameSem ps S).len q st = some v :=
  guardLen_some h (ih _ _ h)

theorem lenDef_reorder {ds : List Dim} (h : (reorderSem ds S).hasLen q st = some true) :
    ∃ v, (reorderSem ds S).len q st = some v := by
  refine guardLen_some h ?_
  simp only [reorderSem] at h
  split at h
  · exact ih _ _ h
  · simp at h

theorem lenDef_bind {α : Type} {o : Option α} {f : α → State} {g : Val → Val}
    (h : (o.bind fun u => S.hasLen q (f u)) = some true) :
    ∃ v, (o.bind fun u => (S.len q (f u)).bind fun l => some (g l)) = some v := by
  rw [Option.bind_eq_some_iff] at h
  obtain ⟨u, hu, h⟩ := h
  obtain ⟨v, hv⟩ := ih _ _ h
  exact ⟨g v, by simp [hu, hv]⟩

theorem lenDef_ib {d maj min : Dim} (h : (intoBlocksSem A d maj min S).hasLen q st = some true) :
    ∃ v, (intoBlocksSem A d maj min S).len q st = some v := by
  refine guardLen_some h ?_
  have hsub : st (.len min) = none → st (.idx min) = none → ∀ u,
      intoBlocksSub A d maj min S st = some u → u = blocksClean d maj min st := by
    intro h1 h2 u hu
    simp only [intoBlocksSub, h1, h2] at hu
    revert hu
    cases S.hasLen d (blocksClean d maj min st) with
    | none => simp
    | some b =>
      cases b
      · simp only [Option.some.injEq]; exact Eq.symm
      · cases st (.len maj) <;> cases st (.idx maj) <;> simp only [Option.some.injEq] <;>
          exact Eq.symm
  simp only [intoBlocksSem] at h
  split
  · next e =>
    simp only [e, ↓reduceIte] at h
    cases hl : st (.len min) with
    | some l => exact ⟨_, rfl⟩
    | none =>
      simp only [State.has, hl, Option.isSome_none, Bool.false_eq_true, ↓reduceIte] at h
      cases hi : st (.idx min) with
      | some i => simp [hi] at h
      | none =>
        cases hm : st (.len maj) with
        | none => simp [hi, hm] at h
        | some ml =>
          simp only [hi, hm, Option.isSome_none, Option.isSome_some, Bool.false_eq_true,
            ↓reduceIte, Option.bind_eq_some_iff] at h
          obtain ⟨u, hu, h⟩ := h
          obtain ⟨v, hv⟩ := ih _ _ h
          rw [hsub hl hi u hu] at hv
          exact ⟨_, by simp only [bind, Option.bind_some, hv]; rfl⟩
  · split
    · next e0 e =>
      simp only [e0, e, ↓reduceIte] at h
      cases hl : st (.len maj) with
      | some l => exact ⟨_, rfl⟩
      | none =>
        simp only [State.has, hl, Option.isSome_none, Bool.false_eq_true, ↓reduceIte] at h
        cases hi : st (.idx maj) with
        | some i =>
          by_cases h3 : maj = min
          · exact absurd (e.trans h3) e0
          · simp [hi, h3] at h
        | none =>
          by_cases h3 : maj = min
          · exact absurd (e.trans h3) e0
          cases hm : st (.len min) with
          | none => simp [hi, hm, h3] at h
          | some ml =>
            simp only [hi, hm, h3, Option.isSome_none, Option.isSome_some, Bool.false_eq_true,
              ↓reduceIte] at h
            simp only [bind, Option.bind_some]
            exact lenDef_bind ih h
    · next e0 e1 =>
      simp only [e0, e1, ↓reduceIte] at h
      split at h
      · simp at h
      · exact lenDef_sub (V := intoBlocksSem A d maj min S) ih h

theorem lenDef_ibd {d maj min pres : Dim}
    (h : (intoBlocksDynSem A d maj min pres S).hasLen q st = some true) :
    ∃ v, (intoBlocksDynSem A d maj min pres S).len q st = some v := by
  refine guardLen_some h ?_
  simp only [intoBlocksDynSem] at h
  split
  · next e =>
    simp only [e, ↓reduceIte] at h
    cases hi : st (.idx maj) with
    | none => simp [State.has, hi] at h
    | some i =>
      cases hj : st (.idx min) with
      | none => simp [State.has, hi, hj] at h
      | some j =>
        simp only [State.has, hi, hj, Option.isSome_some, Bool.and_self, ↓reduceIte] at h
        simp only [bind, Option.bind_some]
        cases hl : st (.len min) with
        | some nl =>
          cases hm : st (.len maj) with
          | some ml => exact ⟨_, rfl⟩
          | none =>
            simp only [hl, hm, Option.isSome_some, Option.isSome_none, Bool.and_false,
              Bool.false_eq_true, ↓reduceIte, Bool.or_false] at h
            exact lenDef_bind (f := id) ih h
        | none =>
          cases hm : st (.len maj) with
          | some ml =>
            simp only [hl, hm, Option.isSome_some, Option.isSome_none, Bool.false_and,
              Bool.false_eq_true, ↓reduceIte, Bool.or_true] at h
            exact lenDef_bind (f := id) ih h
          | none => simp [hl, hm] at h
  · split
    · next e0 e =>
      have e2 : min ≠ pres := fun x => e0 (e.trans x)
      simp only [e, e2, ↓reduceIte] at h
      cases hl : st (.len min) with
      | some l => exact ⟨_, rfl⟩
      | none =>
        simp only [State.has, hl, Option.isSome_none, Bool.false_eq_true, ↓reduceIte] at h
        cases hi : st (.idx min) with
        | some i => simp [hi] at h
        | none =>
          cases hm : st (.len maj) with
          | none => simp [hi, hm] at h
          | some ml =>
            simp only [hi, hm, Option.isSome_none, Option.isSome_some, Bool.false_eq_true,
              ↓reduceIte, Option.bind_eq_some_iff] at h
            obtain ⟨u, hu, h⟩ := h
            obtain ⟨v, hv⟩ := ih _ _ h
            rw [intoBlocksDynSub_noidx (Or.inr hi)] at hu
            simp only [hl] at hu
            rw [blocksDynClean_eq]
            split at hu
            · simp at hu
            · next hp =>
              cases hu
              exact ⟨_, by simp only [hp, ↓reduceIte, Bool.false_eq_true, bind,
                Option.bind_some, hv]; rfl⟩
    · next e0 e1 =>
      split
      · next e =>
        have e2 : maj ≠ pres := fun x => e0 (e.trans x)
        have e3 : maj ≠ min := fun x => e1 (e.trans x)
        simp only [e, e2, e3, ↓reduceIte] at h
        cases hl : st (.len maj) with
        | some l => exact ⟨_, rfl⟩
        | none =>
          cases hi : st (.idx maj) with
          | some i => simp [State.has, hi] at h
          | none =>
            cases hm : st (.len min) with
            | none => simp [State.has, hi, hm, hl] at h
            | some ml =>
              simp only [State.has, hl, hi, hm, Option.isSome_none, Option.isSome_some,
                Bool.false_eq_true, ↓reduceIte] at h
              simp only [bind, Option.bind_some]
              exact lenDef_bind (f := id) ih h
      · next e2 =>
        simp only [e0, e1, e2, ↓reduceIte] at h
        split at h
        · simp at h
        · exact lenDef_sub (V := intoBlocksDynSem A d maj min pres S) ih h

theorem lenDef_ibs {d border maj min : Dim} {nl : Val} (hne : maj ≠ min)
    (h : (intoBlocksStatSem A d border maj min nl S).hasLen q st = some true) :
    ∃ v, (intoBlocksStatSem A d border maj min nl S).len q st = some v := by
  refine guardLen_some h ?_
  simp only [intoBlocksStatSem] at h
  split at h
  · simp at h
  split
  · exact ⟨_, rfl⟩
  · next e0 =>
    split at h
    · next e1 =>
      have : isBody border st ≠ none := by intro e; simp [e] at h
      split
      · next e2 => exact absurd (e1.symm.trans e2) hne
      · next e2 =>
        cases hb : isBody border st with
        | none => simp [hb] at h
        | some b =>
          cases b
          · exact ⟨_, rfl⟩
          · simp only [hb] at h
            exact lenDef_bind (f := id) ih h
    · next e1 =>
      split at h
      · next e2 =>
        simp only [e2, ↓reduceIte]
        cases hb : isBody border st with
        | none => simp [hb] at h
        | some b =>
          cases b
          · simp only [hb] at h
            exact lenDef_bind (f := id) ih h
          · exact ⟨_, rfl⟩
      · next e2 =>
        simp only [e0, e1, e2, ↓reduceIte] at h ⊢
        split at h
        · simp at h
        · exact lenDef_sub (V := intoBlocksStatSem A d border maj min nl S) ih h

theorem lenDef_mb {maj min d : Dim} (h : (mergeBlocksSem A maj min d S).hasLen q st = some true) :
    ∃ v, (mergeBlocksSem A maj min d S).len q st = some v := by
  refine guardLen_some h ?_
  simp only [mergeBlocksSem] at h
  split at h
  · simp at h
  split
  · next e =>
    cases hl : st (.len d) with
    | some l => exact ⟨_, rfl⟩
    | none =>
      simp only [e, State.has, hl, Option.isSome_none, Bool.false_eq_true, ↓reduceIte, bind,
        Option.bind_eq_some_iff, Option.some.injEq, Bool.and_eq_true] at h
      obtain ⟨u, hu, a, ha, b, hb, rfl, rfl⟩ := h
      obtain ⟨v, hv⟩ := ih _ _ ha
      obtain ⟨w, hw⟩ := ih _ _ hb
      exact ⟨_, by simp only [bind, hu, hv, hw, Option.bind_some]; rfl⟩
  · next e =>
    simp only [e, ↓reduceIte] at h
    split at h
    · simp at h
    · exact lenDef_sub (V := mergeBlocksSem A maj min d S) ih h

theorem lenDef_mz {sl gl : Nat} {ds : List Dim} {d : Dim} (hne : ds ≠ [])
    (h : (mergeZSem A sl gl ds d S).hasLen q st = some true) :
    ∃ v, (mergeZSem A sl gl ds d S).len q st = some v := by
  refine guardLen_some h ?_
  simp only [mergeZSem] at h
  split at h
  · simp at h
  split
  · next e =>
    simp only [e, ↓reduceIte, bind, Option.bind_eq_some_iff, Option.some.injEq] at h
    obtain ⟨u, hu, bs, hbs, hall⟩ := h
    obtain ⟨ls, hls⟩ := allSome_map_len hbs hall (fun q => ih q u)
    have hlen := allSome_length hls
    cases ls with
    | nil => simp at hlen; exact absurd (List.eq_nil_of_length_eq_zero hlen.symm) hne
    | cons l ls => exact ⟨_, by simp only [bind, hu, hls, Option.bind_some]; rfl⟩
  · next e =>
    simp only [e, ↓reduceIte] at h
    exact lenDef_sub (V := mergeZSem A sl gl ds d S) ih h

end

/-- In a structure without `reverse`, `length` is available whenever `has_length` holds. -/
theorem Struct.len_defined (A : Arith) (s : Struct) (ht : s.tame) (hs : s.lenOk) (q : Dim) (st : State)
    (h : (s.sem A).hasLen q st = some true) : ∃ v, (s.sem A).len q st = some v := by
  induction s generalizing q st with
  | scalar s a => simp [Struct.sem, scalarSem] at h
  | tuple t n fs ih =>
    simp only [Struct.sem] at h ⊢
    refine guardLen_some h ?_
    simp only [tupleSem] at h
    split
    · exact ⟨_, rfl⟩
    · next e =>
      simp only [e, ↓reduceIte] at h
      split at h
      · simp only [bind, Option.bind_eq_some_iff] at h ⊢
        obtain ⟨S, ⟨k, hk, hS⟩, h⟩ := h
        split at hS
        · next hn =>
          cases hS
          obtain ⟨v, hv⟩ := ih _ (ht _) (hs _) _ _ h
          exact ⟨v, _, ⟨k, hk, by simp [hn]⟩, hv⟩
        · simp at hS
      · simp at h
  | vector d s ih =>
    simp only [Struct.sem] at h ⊢
    refine guardLen_some h ?_
    simp only [vectorSem] at h
    split at h
    · next e =>
      simp [State.has, Option.isSome_iff_exists] at h
      simp [e, h]
    · next e => simp only [e, ↓reduceIte]; exact ih ht hs _ _ h
  | union n ss ih =>
    simp only [Struct.sem] at h ⊢
    refine guardLen_some h ?_
    simp only [unionSem] at h
    split
    · next i e => rw [e] at h; exact ih i (ht i) (hs i) _ _ h
    · next e => rw [e] at h; simp at h
  | view v s ih =>
    cases v with
    | bcast d => exact lenDef_bcast (ih ht.1 hs) h
    | fix d i => exact lenDef_fix (ih ht.1 hs) h
    | setLength d l => exact guardLen_some h (ih ht.1 hs _ _ h)
    | shift d a => exact lenDef_shift (ih ht.1 hs) h
    | slice d a n => exact lenDef_slice (ih ht.1 hs) h
    | span d a n => exact lenDef_span (ih ht.1 hs) h
    | step d a k =>
      refine guardLen_some h ?_
      split
      · next e =>
        subst e
        have hr : Rel s q (st.mapAt (.idx q) (fun i => (i.mul A k).add A a)) st := by
          obtain ⟨⟨h1, h2⟩, -⟩ := hs
          constructor <;> intros <;> simp only [State.mapAt] at * <;> grind [Option.map_eq_none_iff]
        have h' := (s.length_dep A ht.1 q _ _ hr).1 _ h
        obtain ⟨v, hv⟩ := ih ht.1 hs.2 _ _ h'
        exact ⟨_, by simp only [bind, hv, Option.bind_some]; rfl⟩
      · exact ih ht.1 hs.2 _ _ h
    | reverse d => exact absurd hs id
    | reorder ds => exact lenDef_reorder (ih ht.1 hs) h
    | hoist d => exact guardLen_some h (ih ht.1 hs _ _ h)
    | rename ps => exact lenDef_rename (ih ht.1 hs) h
    | join a b d => exact lenDef_join (ih ht.1 hs) h
    | intoBlocks d maj min => exact lenDef_ib (ih ht.1 hs) h
    | intoBlocksDyn d maj min pres => exact lenDef_ibd (ih ht.1 hs) h
    | intoBlocksStat d border maj min nl => exact lenDef_ibs (ih ht.1 hs.2) hs.1 h
    | mergeBlocks maj min d => exact lenDef_mb (ih ht.1 hs) h
    | mergeZ sl gl ds d => exact lenDef_mz (ih ht.1 hs.2) hs.1 h

end Noarr
