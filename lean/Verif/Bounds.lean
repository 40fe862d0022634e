import Verif.ZSub
import Verif.BoundsSpec

/-
Valid indices stay valid when a view hands them down. Used for C05 and C06.
-/

set_option linter.unusedVariables false
set_option linter.unusedSimpArgs false

namespace Noarr

/-- The dimensions whose indices a view changes. -/
def View.dims : View → List Dim
  | .bcast d => [d]
  | .fix d _ => [d]
  | .setLength _ _ => []
  | .shift d _ => [d]
  | .slice d _ _ => [d]
  | .span d _ _ => [d]
  | .step d _ _ => [d]
  | .reverse d => [d]
  | .reorder _ => []
  | .hoist _ => []
  | .rename ps => ps.map Prod.fst ++ ps.map Prod.snd
  | .join a b d => [a, b, d]
  | .intoBlocks d maj min => [d, maj, min]
  | .intoBlocksDyn d maj min pres => [d, maj, min, pres]
  | .intoBlocksStat d border maj min _ => [d, border, maj, min]
  | .mergeBlocks maj min d => [maj, min, d]
  | .mergeZ _ _ ds d => d :: ds

/-- An index does not influence the length in an ordinary dimension, unless it is that of a tuple. -/
theorem dep_remove {A : Arith} {s : Struct} (ih : LD A s) {d q : Dim} (hd : s.plain d)
    (hq : ¬ s.hard q) (hqd : q ≠ d) (st : State) :
    Le ((s.sem A).hasLen d st) ((s.sem A).hasLen d (st.remove (.idx q))) ∧
    Le ((s.sem A).len d st) ((s.sem A).len d (st.remove (.idx q))) := by
  apply ih
  obtain ⟨h1, h2, h3⟩ := hd
  constructor <;> intros <;> simp only [State.remove] at * <;> grind

/-- Leaving out an index a view does not touch. -/
theorem sub_remove {A : Arith} {v : View} {s : Struct} (ih : LD A s) (ht : v.tame s) {q : Dim}
    (hq : ¬ s.hard q) (hqd : q ∉ v.dims) {st u : State} (hrev : ∀ d, v = .reverse d → ¬ s.hard d)
    (hu : (v.sem A (s.sem A)).sub st = some u) :
    (v.sem A (s.sem A)).sub (st.remove (.idx q)) = some (u.remove (.idx q)) := by
  cases v with
  | bcast d =>
    cases hu; simp only [View.sem, bcastSem, Option.some.injEq]; state_eq
  | fix d i =>
    simp only [View.dims, List.mem_singleton] at hqd
    cases hu; simp only [View.sem, fixSem, Option.some.injEq]; state_eq
  | setLength d l => cases hu; simp only [View.sem, setLengthSem, Option.some.injEq]; state_eq
  | shift d a =>
    simp only [View.dims, List.mem_singleton] at hqd
    cases hu; simp only [View.sem, shiftSem, Option.some.injEq]; state_eq
  | slice d a n =>
    simp only [View.dims, List.mem_singleton] at hqd
    cases hu; simp only [View.sem, sliceSem, Option.some.injEq]; state_eq
  | span d a n =>
    simp only [View.dims, List.mem_singleton] at hqd
    cases hu; simp only [View.sem, spanSem, Option.some.injEq]; state_eq
  | step d a n =>
    simp only [View.dims, List.mem_singleton] at hqd
    cases hu; simp only [View.sem, stepSem, Option.some.injEq]; state_eq
  | reverse d =>
    simp only [View.dims, List.mem_singleton] at hqd
    have hd := hrev d rfl
    obtain ⟨D1, D2⟩ := dep_remove ih (d := d) (q := q) ⟨hd, ht.1, ht.2⟩ hq hqd (st.remove (.idx d))
    simp only [View.sem, reverseSem] at hu ⊢
    have e1 : (st.remove (.idx q)) (.idx d) = st (.idx d) := by state_val
    have e2 : (st.remove (.idx q)).remove (.idx d) = (st.remove (.idx d)).remove (.idx q) := by state_eq
    rw [e1, e2]
    cases hi : st (.idx d) with
    | none => simp only [hi, Option.some.injEq] at hu ⊢; subst hu; rfl
    | some i =>
      simp only [hi] at hu ⊢
      cases hb : (s.sem A).hasLen d (st.remove (.idx d)) with
      | none => simp [hb] at hu
      | some b =>
        simp only [hb, D1 _ hb] at hu ⊢
        cases b with
        | false => cases hu; rfl
        | true =>
          simp only [bind, Option.bind_eq_some_iff] at hu
          obtain ⟨l, hl, hu⟩ := hu
          cases hu
          simp only [D2 _ hl, bind, Option.bind_some, Option.some.injEq]
          state_eq
  | reorder ds => cases hu; rfl
  | hoist d => cases hu; rfl
  | rename ps =>
    simp only [View.dims, List.mem_append, not_or] at hqd
    cases hu
    simp only [View.sem, renameSem, Option.some.injEq]
    funext tag
    cases tag with
    | idx n =>
      simp only [State.remove, Tag.idx.injEq, renameState_idx]
      by_cases hn : n ∈ ps.map Prod.fst
      · have : Sig.renameDim ps n ≠ q := by
          intro h
          obtain ⟨⟨a, e⟩, hm, rfl⟩ := List.mem_map.1 hn
          rw [renameDim_of_mem ht.1 hm] at h
          exact hqd.2 (h ▸ List.mem_map.2 ⟨_, hm, rfl⟩)
        have h2 : n ≠ q := fun h => hqd.1 (h ▸ hn)
        simp [hn, this, h2]
      · rw [renameDim_of_not_mem hn]
        by_cases hn2 : n = q
        · simp [hn2]
        · simp [hn2]
    | len n => simp only [State.remove, renameState_len, reduceCtorEq, if_false]
  | join a b d =>
    simp only [View.dims, List.mem_cons, List.not_mem_nil, or_false, not_or] at hqd
    obtain ⟨x, h1, h2, h3⟩ := join_sub_eq_some hu
    have e : joinClean a b d (st.remove (.idx q)) = (joinClean a b d st).remove (.idx q) := by
      unfold joinClean; state_eq
    have D1 := (dep_remove ih ht.1 hq hqd.1 (joinClean a b d st)).1 _ h1
    have D2 := (dep_remove ih ht.2 hq hqd.2.1 (joinClean a b d st)).1 _ h2
    have e1 : (st.remove (.idx q)) (.idx d) = st (.idx d) := by state_val
    have e2 : (st.remove (.idx q)) (.len d) = st (.len d) := by state_val
    refine join_sub_of (by rw [e]; exact D1) (by rw [e]; exact D2) ?_
    rw [e1, e2, e]
    rcases h3 with ⟨l, hl, hx, rfl⟩ | ⟨hl, rfl⟩
    · refine .inl ⟨l, hl, hx, ?_⟩
      cases st (.idx d) <;> state_eq
    · refine .inr ⟨hl, ?_⟩
      cases st (.idx d) <;> state_eq
  | intoBlocks d maj min =>
    simp only [View.dims, List.mem_cons, List.not_mem_nil, or_false, not_or] at hqd
    have e : blocksClean d maj min (st.remove (.idx q)) =
      (blocksClean d maj min st).remove (.idx q) := by state_eq
    obtain ⟨D1, D2⟩ := dep_remove ih ht.1 hq hqd.1 (blocksClean d maj min st)
    have e1 : (st.remove (.idx q)) (.idx maj) = st (.idx maj) := by state_val
    have e2 : (st.remove (.idx q)) (.idx min) = st (.idx min) := by state_val
    have e3 : (st.remove (.idx q)) (.len maj) = st (.len maj) := by state_val
    have e4 : (st.remove (.idx q)) (.len min) = st (.len min) := by state_val
    simp only [View.sem, intoBlocksSem, intoBlocksSub] at hu ⊢
    rw [e, e1, e2, e3, e4]
    cases hl : st (.len min) with
    | some nl =>
      simp only [hl] at hu ⊢
      cases hm : st (.len maj) <;> cases hi : st (.idx maj) <;> cases hj : st (.idx min) <;>
        simp only [hm, hi, hj, Option.some.injEq] at hu ⊢ <;> subst hu <;> state_eq
    | none =>
      simp only [hl] at hu ⊢
      cases hb : (s.sem A).hasLen d (blocksClean d maj min st) with
      | none => simp [hb] at hu
      | some b =>
        simp only [hb, D1 _ hb] at hu ⊢
        cases b with
        | false => cases hu; rfl
        | true =>
          cases hm : st (.len maj) <;> cases hi : st (.idx maj) <;> cases hj : st (.idx min) <;>
            simp only [hm, hi, hj, Option.some.injEq, bind, Option.bind_eq_some_iff] at hu ⊢ <;>
            first
            | (subst hu; state_eq; done)
            | (obtain ⟨l, hl, rfl⟩ := hu; refine ⟨l, D2 _ hl, ?_⟩; state_eq)
  | intoBlocksDyn d maj min pres =>
    simp only [View.dims, List.mem_cons, List.not_mem_nil, or_false, not_or] at hqd
    have e : dynClean d maj min pres (st.remove (.idx q)) =
      (dynClean d maj min pres st).remove (.idx q) := by unfold dynClean; state_eq
    obtain ⟨D1, D2⟩ := dep_remove ih ht.1 hq hqd.1 (dynClean d maj min pres st)
    have e1 : (st.remove (.idx q)) (.idx maj) = st (.idx maj) := by state_val
    have e2 : (st.remove (.idx q)) (.idx min) = st (.idx min) := by state_val
    have e3 : (st.remove (.idx q)) (.len maj) = st (.len maj) := by state_val
    have e4 : (st.remove (.idx q)) (.len min) = st (.len min) := by state_val
    have e5 : (st.remove (.idx q)).has (.len pres) = st.has (.len pres) := by state_val
    simp only [View.sem, intoBlocksDynSem, intoBlocksDynSub, blocksDynClean_eq] at hu ⊢
    rw [e, e1, e2, e3, e4, e5]
    split at hu
    · simp at hu
    next hp =>
    simp only [hp, Bool.false_eq_true, ↓reduceIte, bind, Option.bind_some] at hu ⊢
    cases hl : st (.len min) with
    | some nl =>
      simp only [hl] at hu ⊢
      cases hm : st (.len maj) <;> cases hi : st (.idx maj) <;> cases hj : st (.idx min) <;>
        simp only [hm, hi, hj, Option.some.injEq] at hu ⊢ <;> subst hu <;> state_eq
    | none =>
      simp only [hl] at hu ⊢
      cases hm : st (.len maj) <;> cases hi : st (.idx maj) <;> cases hj : st (.idx min) <;>
        simp only [hm, hi, hj, Option.some.injEq, bind, Option.bind_eq_some_iff] at hu ⊢ <;>
        first
        | (subst hu; state_eq; done)
        | (obtain ⟨l, hl, rfl⟩ := hu; refine ⟨l, D2 _ hl, ?_⟩; state_eq)
  | intoBlocksStat d border maj min nl =>
    simp only [View.dims, List.mem_cons, List.not_mem_nil, or_false, not_or] at hqd
    have e : statClean d border maj min (st.remove (.idx q)) =
      (statClean d border maj min st).remove (.idx q) := by unfold statClean; state_eq
    obtain ⟨D1, D2⟩ := dep_remove ih ht.1 hq hqd.1 (statClean d border maj min st)
    have e1 : (st.remove (.idx q)) (.idx maj) = st (.idx maj) := by state_val
    have e2 : (st.remove (.idx q)) (.idx min) = st (.idx min) := by state_val
    have e3 : (st.remove (.idx q)).has (.len maj) = st.has (.len maj) := by state_val
    have e4 : (st.remove (.idx q)).has (.len min) = st.has (.len min) := by state_val
    have e5 : (st.remove (.idx q)).has (.len border) = st.has (.len border) := by state_val
    have e6 : (st.remove (.idx q)).has (.idx border) = st.has (.idx border) := by state_val
    have e7 : (st.remove (.idx q)) (.idx border) = st (.idx border) := by state_val
    have e8 : isBody border (st.remove (.idx q)) = isBody border st := by
      unfold isBody; rw [e7]
    simp only [View.sem, intoBlocksStatSem, intoBlocksStatSub, blocksStatClean_eq] at hu ⊢
    rw [e, e1, e2, e3, e4, e5, e6, e8]
    split at hu
    · simp at hu
    next hp =>
    simp only [hp, Bool.false_eq_true, ↓reduceIte, bind, Option.bind_some] at hu ⊢
    cases hbi : st.has (.idx border) with
    | false => simp only [hbi, Bool.false_eq_true, ↓reduceIte, Option.some.injEq] at hu ⊢; rw [hu]
    | true =>
      simp only [hbi, ↓reduceIte] at hu ⊢
      cases hi : st (.idx maj) <;> cases hj : st (.idx min) <;>
        simp only [hi, hj, Option.some.injEq, Option.bind_eq_some_iff] at hu ⊢
      · rw [hu]
      · rw [hu]
      · rw [hu]
      · obtain ⟨b, hb, hu⟩ := hu
        refine ⟨b, hb, ?_⟩
        cases b with
        | true =>
          simp only [↓reduceIte, Option.some.injEq] at hu ⊢
          subst hu; state_eq
        | false =>
          simp only [Bool.false_eq_true, ↓reduceIte, Option.bind_eq_some_iff,
            Option.some.injEq] at hu ⊢
          obtain ⟨l, hl, rfl⟩ := hu
          refine ⟨l, D2 _ hl, ?_⟩
          state_eq
  | mergeBlocks maj min d =>
    simp only [View.dims, List.mem_cons, List.not_mem_nil, or_false, not_or] at hqd
    have e : blocksClean d maj min (st.remove (.idx q)) =
      (blocksClean d maj min st).remove (.idx q) := by state_eq
    obtain ⟨M1, M2⟩ := dep_remove ih ht.1 hq hqd.1 (blocksClean d maj min st)
    obtain ⟨N1, N2⟩ := dep_remove ih ht.2 hq hqd.2.1 (blocksClean d maj min st)
    have e1 : (st.remove (.idx q)) (.idx d) = st (.idx d) := by state_val
    have e2 : (st.remove (.idx q)) (.len d) = st (.len d) := by state_val
    simp only [View.sem, mergeBlocksSem, mergeBlocksSub, bind, Option.bind_eq_some_iff] at hu ⊢
    rw [e, e1, e2]
    obtain ⟨b1, h1, b2, h2, hu⟩ := hu
    refine ⟨b1, N1 _ h1, b2, M1 _ h2, ?_⟩
    cases b1 with
    | true =>
      simp only [↓reduceIte, Option.bind_eq_some_iff] at hu ⊢
      obtain ⟨nl, h3, hu⟩ := hu
      refine ⟨nl, N2 _ h3, ?_⟩
      cases hi : st (.idx d) <;> cases hl : st (.len d) <;> cases b2 <;>
        simp only [hi, hl, ↓reduceIte, Bool.false_eq_true, Option.some.injEq] at hu ⊢ <;>
        subst hu <;> state_eq
    | false =>
      cases b2 with
      | true =>
        simp only [↓reduceIte, Bool.false_eq_true, Option.bind_eq_some_iff] at hu ⊢
        obtain ⟨ml, h3, hu⟩ := hu
        refine ⟨ml, M2 _ h3, ?_⟩
        cases hi : st (.idx d) <;> cases hl : st (.len d) <;>
          simp only [hi, hl, ↓reduceIte, Bool.false_eq_true, Option.some.injEq] at hu ⊢ <;>
          subst hu <;> state_eq
      | false =>
        simp only [↓reduceIte, Bool.false_eq_true, Option.some.injEq] at hu ⊢
        rw [hu]
  | mergeZ sl gl ds d =>
    simp only [View.dims, List.mem_cons, not_or] at hqd
    have e : zClean ds d (st.remove (.idx q)) = (zClean ds d st).remove (.idx q) := by
      funext tag; cases tag <;> simp only [zClean_idx, zClean_len, State.remove] <;> grind
    have e1 : (st.remove (.idx q)) (.idx d) = st (.idx d) := by state_val
    simp only [View.sem, mergeZSem] at hu ⊢
    have hz : ∀ st, mergeZSub A sl gl ds d (s.sem A) st = (match st (.idx d) with
        | none => some (zClean ds d st)
        | some z => do
          let lens ← allSome (ds.map ((s.sem A).len · (zClean ds d st)))
          some (setIdxs (zClean ds d st) (ds.zip (zcIndices A sl gl lens z)))) := fun st => rfl
    rw [hz] at hu ⊢
    rw [e, e1]
    cases hi : st (.idx d) with
    | none => simp only [hi, Option.some.injEq] at hu ⊢; rw [hu]
    | some z =>
      simp only [hi, bind, Option.bind_eq_some_iff, Option.some.injEq] at hu ⊢
      obtain ⟨lens, hl, rfl⟩ := hu
      refine ⟨lens, Le.allSome (fun x hx => (dep_remove ih (ht x hx) hq (by grind) _).2) _ hl, ?_⟩
      have hlen : ds.length = lens.length := by simpa using (allSome_length hl).symm
      have hfst : (ds.zip (zcIndices A sl gl lens z)).map Prod.fst = ds := by
        rw [List.map_fst_zip]; rw [zcIndices_length]; omega
      funext tag
      cases tag with
      | len x => rw [setIdxs_len]; simp only [State.remove]; rw [setIdxs_len]
      | idx x =>
        by_cases hx : x ∈ ds
        · have hxq : x ≠ q := by grind
          simp only [State.remove, Tag.idx.injEq, hxq, ↓reduceIte]
          exact setIdxs_congr (by rw [hfst]; exact hx)
        · rw [setIdxs_idx_not_mem (by rw [hfst]; exact hx)]
          simp only [State.remove]
          rw [setIdxs_idx_not_mem (by rw [hfst]; exact hx)]

/-- A view that leaves a dimension alone reports its length in the state handed down. -/
theorem len_of_sub {A : Arith} {v : View} {s : Struct} {q : Dim} {st u : State} {n : Val}
    (hq : q ∉ v.dims) (hi : st (.idx q) = none) (hrev : ∀ d, v ≠ .reverse d)
    (hreo : ∀ ds, v = .reorder ds → ((s.sem A).sig.reassemble ds State.empty).complete = true)
    (hu : (v.sem A (s.sem A)).sub st = some u) (hn : (s.sem A).len q u = some n) :
    (v.sem A (s.sem A)).len q st = some n := by
  have hh := Struct.hasLen_of_len hn
  have hg : ∀ x, guardLen (some true) x = x := fun _ => rfl
  have hhas : st.has (.idx q) = false := by simp [State.has, hi]
  cases v with
  | bcast d =>
    simp only [View.dims, List.mem_singleton] at hq
    cases hu; simp only [View.sem, bcastSem, hq, ↓reduceIte, hh, hn, hg]
  | fix d i =>
    simp only [View.dims, List.mem_singleton] at hq
    cases hu; simp only [View.sem, fixSem, hq, ↓reduceIte, hh, hn, hg]
  | setLength d l => cases hu; simp only [View.sem, setLengthSem, hh, hn, hg]
  | shift d a =>
    simp only [View.dims, List.mem_singleton] at hq
    cases hu; simp only [View.sem, shiftSem, hq, ↓reduceIte, hh, hn, hg]
  | slice d a n =>
    simp only [View.dims, List.mem_singleton] at hq
    cases hu; simp only [View.sem, sliceSem, hq, ↓reduceIte, hh, hn, hg]
  | span d a n =>
    simp only [View.dims, List.mem_singleton] at hq
    cases hu; simp only [View.sem, spanSem, hq, ↓reduceIte, hh, hn, hg]
  | step d a n =>
    simp only [View.dims, List.mem_singleton] at hq
    cases hu; simp only [View.sem, stepSem, hq, ↓reduceIte, hh, hn, hg]
  | reverse d => exact absurd rfl (hrev d)
  | reorder ds =>
    cases hu
    simp only [View.sem, reorderSem, hreo ds rfl, Bool.true_or, ↓reduceIte, hh, hn, hg]
  | hoist d => cases hu; simp only [View.sem, hoistSem, hh, hn, hg]
  | rename ps =>
    simp only [View.dims, List.mem_append, not_or] at hq
    cases hu
    have : Sig.renameDim (ps.map Prod.swap) q = q :=
      renameDim_of_not_mem (by rw [map_swap_fst]; exact hq.2)
    simp only [View.sem, renameSem, this, hh, hn, hg]
  | join a b d =>
    have hu' : (joinSem a b d (s.sem A)).sub st = some u := hu
    show guardLen (((joinSem a b d (s.sem A)).sub st).bind ((s.sem A).hasLen q))
      (((joinSem a b d (s.sem A)).sub st).bind ((s.sem A).len q)) = _
    rw [hu']
    simp only [Option.bind_some, hh, hn, hg]
  | intoBlocks d maj min =>
    simp only [View.dims, List.mem_cons, List.not_mem_nil, or_false, not_or] at hq
    have hu' : intoBlocksSub A d maj min (s.sem A) st = some u := hu
    simp only [View.sem, intoBlocksSem, hq.1, hq.2.1, hq.2.2, ↓reduceIte, hu', Option.bind_some, hh, hn, hg]
  | intoBlocksDyn d maj min pres =>
    simp only [View.dims, List.mem_cons, List.not_mem_nil, or_false, not_or] at hq
    have hu' : intoBlocksDynSub A d maj min pres (s.sem A) st = some u := hu
    simp only [View.sem, intoBlocksDynSem, hq.1, hq.2.1, hq.2.2.1, hq.2.2.2, ↓reduceIte, hu',
      Option.bind_some, hh, hn, hg]
  | intoBlocksStat d border maj min nl =>
    simp only [View.dims, List.mem_cons, List.not_mem_nil, or_false, not_or] at hq
    have hu' : intoBlocksStatSub A d border maj min nl (s.sem A) st = some u := hu
    simp only [View.sem, intoBlocksStatSem, hq.1, hq.2.1, hq.2.2.1, hq.2.2.2, ↓reduceIte, hu', hhas,
      Option.bind_some, hh, hn, hg, Bool.false_eq_true]
  | mergeBlocks maj min d =>
    simp only [View.dims, List.mem_cons, List.not_mem_nil, or_false, not_or] at hq
    have hu' : mergeBlocksSub A maj min d (s.sem A) st = some u := hu
    simp only [View.sem, mergeBlocksSem, hq.1, hq.2.1, hq.2.2, ↓reduceIte, hu', hhas,
      Option.bind_some, hh, hn, hg, Bool.false_eq_true, or_self]
  | mergeZ sl gl ds d =>
    simp only [View.dims, List.mem_cons, not_or] at hq
    have hu' : mergeZSub A sl gl ds d (s.sem A) st = some u := hu
    simp only [View.sem, mergeZSem, hq.1, ↓reduceIte, hu', hhas,
      Option.bind_some, hh, hn, hg, Bool.false_eq_true]

/-- Every index is below the length reported for its dimension (where one is reported), except
possibly for tuple dimensions. -/
def ValidR (A : Arith) (s : Struct) (st : State) : Prop :=
  ∀ q i n, ¬ s.hard q → st (.idx q) = some i →
    (s.sem A).len q (st.remove (.idx q)) = some n → LtVal i n

end Noarr
