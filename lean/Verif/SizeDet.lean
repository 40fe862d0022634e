import Verif.DependLemmas

/-
Sizes do not depend on indices. Used for C06 and C47.
-/

set_option linter.unusedSimpArgs false

namespace Noarr

/-- the state with its lengths only -/
def State.lensOnly (st : State) : State
  | .idx _ => none
  | .len d => st (.len d)

/-- the same lengths -/
def SameLens (st st' : State) : Prop := ∀ d, st (.len d) = st' (.len d)

/-- Alignments depend on nothing. -/
theorem Struct.align_det (A : Arith) (s : Struct) {st st' : State} {x y : Nat}
    (hx : (s.sem A).align st = some x) (hy : (s.sem A).align st' = some y) : x = y := by
  induction s generalizing st st' x y with
  | scalar s a => simp [sem, scalarSem] at hx hy; omega
  | tuple t n fs ih =>
    simp only [sem, tupleSem] at hx hy
    have key : ∀ (l : List Sem), (∀ S ∈ l, ∀ st st' x y, S.align st = some x →
        S.align st' = some y → x = y) → ∀ st st' x y, alignAll st l = some x →
        alignAll st' l = some y → x = y := by
      intro l hl
      induction l with
      | nil => simp [alignAll]
      | cons S l ihl =>
        cases l with
        | nil => intro st st' x y h1 h2; exact hl S (by simp) _ _ _ _ h1 h2
        | cons S' l =>
          intro st st' x y h1 h2
          simp only [alignAll, bind, Option.bind_eq_some_iff] at h1 h2
          obtain ⟨a, ha, b, hb, he⟩ := h1
          obtain ⟨a', ha', b', hb', he'⟩ := h2
          split at he <;> simp at he
          split at he' <;> simp at he'
          rw [← he, ← he']
          exact hl S (by simp) _ _ _ _ ha ha'
    refine key _ ?_ _ _ _ _ hx hy
    intro S hS st st' x y h1 h2
    rw [List.mem_ofFn] at hS
    obtain ⟨i, rfl⟩ := hS
    exact ih i h1 h2
  | vector d s ih => exact ih hx hy
  | union n ss ih => simp [sem, unionSem] at hx
  | view v s ih =>
    simp only [sem, ViewSem.toSem] at hx hy
    split at hx
    · next h =>
      simp only [h, ↓reduceIte, Option.bind_eq_some_iff] at hx hy
      obtain ⟨u, -, hx⟩ := hx
      obtain ⟨u', -, hy⟩ := hy
      exact ih hx hy
    · simp at hx

/-- No length given for a `merge_blocks` above fields of different lengths. -/
def Struct.rigid (A : Arith) : Struct → State → Prop
  | .scalar _ _, _ => True
  | .tuple t _ fs, st => ∀ i, (fs i).rigid A (st.remove (.idx t))
  | .vector d s, st => s.rigid A (st.removeAll [.idx d, .len d])
  | .union _ ss, st => ∀ i, (ss i).rigid A st
  | .view v s, st =>
    (match v with
     | .mergeBlocks maj min d => st (.len d) = none ∨
        ((∀ e, ¬ s.hard e) ∧ s.tame ∧ s.plain maj ∧ s.plain min)
     | _ => True) ∧
    ∀ u, (v.sem A (s.sem A)).sub st = some u → s.rigid A u

theorem SameLens.clean {d maj min : Dim} {st st' : State} (h : SameLens st st') :
    SameLens (blocksClean d maj min st) (blocksClean d maj min st') := by
  intro e; simp [blocksClean, State.removeAll, h e]

/-- the lengths that `merge_blocks` hands down -/
theorem mergeBlocksSub_len {A : Arith} {maj min d : Dim} {S : Sem} {st u : State}
    (hu : mergeBlocksSub A maj min d S st = some u) :
    ∃ b1 b2 nl ml, S.hasLen min (blocksClean d maj min st) = some b1 ∧
      S.hasLen maj (blocksClean d maj min st) = some b2 ∧
      (b1 = true → S.len min (blocksClean d maj min st) = some nl) ∧
      (b1 = false → b2 = true → S.len maj (blocksClean d maj min st) = some ml) ∧
      ∀ e, u (.len e) = match st (.len d) with
        | none => blocksClean d maj min st (.len e)
        | some l =>
          if b1 = true ∧ b2 = false ∧ e = maj then some (l.div A nl)
          else if b1 = false ∧ b2 = true ∧ e = min then some (l.div A ml)
          else blocksClean d maj min st (.len e) := by
  simp only [mergeBlocksSub, bind, Option.bind_eq_some_iff] at hu
  obtain ⟨b1, e1, b2, e2, hu⟩ := hu
  cases b1 with
  | true =>
    simp only [↓reduceIte, Option.bind_eq_some_iff] at hu
    obtain ⟨nl, e3, hu⟩ := hu
    refine ⟨true, b2, nl, nl, e1, e2, fun _ => e3, by simp, ?_⟩
    intro e
    cases hl : st (.len d) <;> cases hi : st (.idx d) <;> cases b2 <;>
      simp only [hl, hi, ↓reduceIte, Bool.false_eq_true, Option.some.injEq] at hu <;>
      subst hu <;> simp [State.set]
  | false =>
    cases b2 with
    | true =>
      simp only [↓reduceIte, Option.bind_eq_some_iff, Bool.false_eq_true] at hu
      obtain ⟨ml, e3, hu⟩ := hu
      refine ⟨false, true, ml, ml, e1, e2, by simp, fun _ _ => e3, ?_⟩
      intro e
      cases hl : st (.len d) <;> cases hi : st (.idx d) <;>
        simp only [hl, hi, Option.some.injEq] at hu <;> subst hu <;> simp [State.set]
    | false =>
      simp only [↓reduceIte, Bool.false_eq_true, Option.some.injEq] at hu
      subst hu
      refine ⟨false, false, .lit 0, .lit 0, e1, e2, by simp, by simp, ?_⟩
      intro e
      cases st (.len d) <;> simp

theorem sameLens_mb {A : Arith} {maj min d : Dim} {s : Struct} {st st' u u' : State}
    (h : SameLens st st')
    (hr : st (.len d) = none ∨ ((∀ e, ¬ s.hard e) ∧ s.tame ∧ s.plain maj ∧ s.plain min))
    (hu : mergeBlocksSub A maj min d (s.sem A) st = some u)
    (hu' : mergeBlocksSub A maj min d (s.sem A) st' = some u') : SameLens u u' := by
  have h2 := h.clean (d := d) (maj := maj) (min := min)
  have hl : st' (.len d) = st (.len d) := (h d).symm
  obtain ⟨b1, b2, nl, ml, e1, e2, e3, e4, hu⟩ := mergeBlocksSub_len hu
  obtain ⟨b1', b2', nl', ml', e1', e2', e3', e4', hu'⟩ := mergeBlocksSub_len hu'
  rw [hl] at hu'
  rcases hr with hr | ⟨hh, ht, pM, pm⟩
  · intro e
    rw [hu, hu', hr]
    exact h2 e
  · have hrel : ∀ st x, (x = maj ∨ x = min) → Rel s x (blocksClean d maj min st)
        (blocksClean d maj min st).lensOnly := by
      intro st x hx
      have p : s.plain x ∧ blocksClean d maj min st (.idx x) = none := by
        rcases hx with rfl | rfl
        · exact ⟨pM, by simp [blocksClean, State.removeAll]⟩
        · exact ⟨pm, by simp [blocksClean, State.removeAll]⟩
      obtain ⟨⟨p1, p2, p3⟩, p4⟩ := p
      constructor <;> intros <;> simp only [State.lensOnly] at * <;> grind
    have hlo : (blocksClean d maj min st').lensOnly = (blocksClean d maj min st).lensOnly := by
      funext t; cases t <;> simp [State.lensOnly, h2 _]
    have L := fun q => s.length_dep A ht q
    have u1 := (L _ _ _ (hrel st min (Or.inr rfl))).1 _ e1
    have u2 := (L _ _ _ (hrel st' min (Or.inr rfl))).1 _ e1'
    have v1 := (L _ _ _ (hrel st maj (Or.inl rfl))).1 _ e2
    have v2 := (L _ _ _ (hrel st' maj (Or.inl rfl))).1 _ e2'
    rw [hlo, u1] at u2
    rw [hlo, v1] at v2
    cases u2; cases v2
    have n1 : b1 = true → nl' = nl := by
      intro hb
      have w1 := (L _ _ _ (hrel st min (Or.inr rfl))).2 _ (e3 hb)
      have w2 := (L _ _ _ (hrel st' min (Or.inr rfl))).2 _ (e3' hb)
      rw [hlo, w1] at w2
      exact (Option.some.inj w2).symm
    have n2 : b1 = false → b2 = true → ml' = ml := by
      intro hb hb2
      have w1 := (L _ _ _ (hrel st maj (Or.inl rfl))).2 _ (e4 hb hb2)
      have w2 := (L _ _ _ (hrel st' maj (Or.inl rfl))).2 _ (e4' hb hb2)
      rw [hlo, w1] at w2
      exact (Option.some.inj w2).symm
    intro e
    rw [hu, hu', h2 e]
    cases st (.len d) with
    | none => rfl
    | some l => cases b1 <;> cases b2 <;> simp_all

theorem sameLens_sub {A : Arith} {v : View} {s : Struct} {st st' u u' : State}
    (h : SameLens st st') (hr : (Struct.view v s).rigid A st)
    (hu : (v.sem A (s.sem A)).sub st = some u) (hu' : (v.sem A (s.sem A)).sub st' = some u') :
    SameLens u u' := by
  have hlen : ∀ x, st'.has (.len x) = st.has (.len x) := fun x => by simp [State.has, h x]
  cases v with
  | bcast d =>
    cases hu; cases hu'; intro e; simp [State.removeAll, h e]
  | fix d i => cases hu; cases hu'; intro e; simp [State.set, State.remove, h e]
  | setLength d l => cases hu; cases hu'; intro e; simp [State.set, h e]
  | shift d a => cases hu; cases hu'; intro e; simp [State.mapAt, h e, h d]
  | slice d a n => cases hu; cases hu'; intro e; simp [State.mapAt, h e]
  | span d a n => cases hu; cases hu'; intro e; simp [State.mapAt, h e]
  | step d a n => cases hu; cases hu'; intro e; simp [State.mapAt, h e]
  | reverse d =>
    have g : ∀ st u, (reverseSem A d (s.sem A)).sub st = some u → SameLens u st := by
      intro st u hu
      simp only [reverseSem] at hu
      cases hi : st (.idx d) with
      | none => simp only [hi, Option.some.injEq] at hu; subst hu; intro e; rfl
      | some i =>
        simp only [hi] at hu
        split at hu
        · simp at hu
        · cases hu; intro e; simp [State.remove]
        · simp only [bind, Option.bind_eq_some_iff, Option.some.injEq] at hu
          obtain ⟨l, -, rfl⟩ := hu
          intro e; simp [State.remove, State.set]
    intro e
    rw [g _ _ hu, g _ _ hu', h e]
  | reorder ds => cases hu; cases hu'; exact h
  | hoist d => cases hu; cases hu'; exact h
  | rename ps => cases hu; cases hu'; intro e; simp only [renameState]; rw [h, h]
  | join a b d =>
    have g : ∀ st u, (joinSem a b d (s.sem A)).sub st = some u → ∀ e, u (.len e) =
        match st (.len d) with
        | some l => if e = a ∨ e = b then some l else if e = d then none else st (.len e)
        | none => if e = a ∨ e = b ∨ e = d then none else st (.len e) := by
      intro st u hu e
      simp only [joinSem, bind, Option.bind_eq_some_iff] at hu
      obtain ⟨ha, -, hb, -, hu⟩ := hu
      split at hu
      · simp at hu
      · cases hl : st (.len d) <;> cases hi : st (.idx d) <;> simp only [hl, hi] at hu
        · cases hu; simp [State.removeAll]; grind
        · cases hu; simp [State.removeAll, State.set]; grind
        · split at hu
          · simp at hu
          · cases hu; simp [State.removeAll, State.set]; grind
        · split at hu
          · simp at hu
          · cases hu; simp [State.removeAll, State.set]; grind
    intro e
    rw [g _ _ hu, g _ _ hu', h d, h e]
  | intoBlocks d maj min =>
    have g : ∀ st u, intoBlocksSub A d maj min (s.sem A) st = some u → ∀ e, u (.len e) =
        match st (.len min), st (.len maj) with
        | some nl, some ml => if e = d then some (ml.mul A nl)
          else blocksClean d maj min st (.len e)
        | _, _ => blocksClean d maj min st (.len e) := by
      intro st u hu e
      simp only [intoBlocksSub] at hu
      cases hl : st (.len min) with
      | some nl =>
        simp only [hl] at hu
        cases hm : st (.len maj) <;> cases hi : st (.idx maj) <;> cases hj : st (.idx min) <;>
          simp only [hm, hi, hj, Option.some.injEq] at hu <;> subst hu <;> simp [State.set]
      | none =>
        simp only [hl] at hu
        split at hu
        · simp at hu
        · cases hu; rfl
        · cases hm : st (.len maj) <;> cases hi : st (.idx maj) <;> cases hj : st (.idx min) <;>
            simp only [hm, hi, hj, Option.some.injEq, bind, Option.bind_eq_some_iff] at hu <;>
            first
            | (subst hu; simp [State.set]; done)
            | (obtain ⟨l, -, rfl⟩ := hu; simp [State.set])
    intro e
    rw [g _ _ hu, g _ _ hu', h min, h maj, h.clean e]
  | intoBlocksDyn d maj min pres =>
    have h2 : SameLens (dynClean d maj min pres st) (dynClean d maj min pres st') := by
      intro e; simp [dynClean, State.removeAll, h e]
    have g : ∀ st u, intoBlocksDynSub A d maj min pres (s.sem A) st = some u → ∀ e, u (.len e) =
        match st (.len min), st (.len maj) with
        | some nl, some ml => if e = d then some (ml.mul A nl)
          else dynClean d maj min pres st (.len e)
        | _, _ => dynClean d maj min pres st (.len e) := by
      intro st u hu e
      simp only [intoBlocksDynSub, blocksDynClean_eq] at hu
      split at hu
      · simp at hu
      simp only [bind, Option.bind_some] at hu
      cases hl : st (.len min) with
      | some nl =>
        simp only [hl] at hu
        cases hm : st (.len maj) <;> cases hi : st (.idx maj) <;> cases hj : st (.idx min) <;>
          simp only [hm, hi, hj, Option.some.injEq] at hu <;> subst hu <;> simp [State.set]
      | none =>
        simp only [hl] at hu
        cases hm : st (.len maj) <;> cases hi : st (.idx maj) <;> cases hj : st (.idx min) <;>
            simp only [hm, hi, hj, Option.some.injEq, bind, Option.bind_eq_some_iff] at hu <;>
            first
            | (subst hu; simp [State.set]; done)
            | (obtain ⟨l, -, rfl⟩ := hu; simp [State.set])
    intro e
    rw [g _ _ hu, g _ _ hu', h min, h maj, h2 e]
  | intoBlocksStat d border maj min nl =>
    have h2 : SameLens (statClean d border maj min st) (statClean d border maj min st') := by
      intro e; simp [statClean, State.removeAll, h e]
    have g : ∀ st u, intoBlocksStatSub A d border maj min nl (s.sem A) st = some u →
        ∀ e, u (.len e) = statClean d border maj min st (.len e) := by
      intro st u hu e
      simp only [intoBlocksStatSub, blocksStatClean_eq] at hu
      split at hu
      · simp at hu
      simp only [bind, Option.bind_some] at hu
      split at hu
      · cases hi : st (.idx maj) <;> cases hj : st (.idx min) <;>
          simp only [hi, hj, Option.some.injEq, Option.bind_eq_some_iff] at hu
        · subst hu; rfl
        · subst hu; rfl
        · subst hu; rfl
        · obtain ⟨b, -, hu⟩ := hu
          split at hu
          · cases hu; simp [State.set]
          · simp only [Option.bind_eq_some_iff, Option.some.injEq] at hu
            obtain ⟨l, -, rfl⟩ := hu
            simp [State.set]
      · cases hu; rfl
    intro e
    rw [g _ _ hu, g _ _ hu', h2 e]
  | mergeBlocks maj min d => exact sameLens_mb h hr.1 hu hu'
  | mergeZ sl gl ds d =>
    have h2 : SameLens (zClean ds d st) (zClean ds d st') := by
      intro e; simp [h e]
    have g : ∀ st u, mergeZSub A sl gl ds d (s.sem A) st = some u →
        ∀ e, u (.len e) = zClean ds d st (.len e) := by
      intro st u hu e
      simp only [mergeZSub] at hu
      cases hi : st (.idx d) with
      | none => simp only [hi, Option.some.injEq] at hu; subst hu; rfl
      | some z =>
        simp only [hi, bind, Option.bind_eq_some_iff, Option.some.injEq] at hu
        obtain ⟨lens, -, rfl⟩ := hu
        rw [setIdxs_len]; rfl
    intro e
    rw [g _ _ hu, g _ _ hu', h2 e]

theorem Struct.size_det (A : Arith) (s : Struct) {st st' : State} {x y : Val}
    (hr : s.rigid A st) (h : SameLens st st')
    (hx : (s.sem A).size st = some x) (hy : (s.sem A).size st' = some y) : x = y := by
  induction s generalizing st st' x y with
  | scalar s a => simp [sem, scalarSem] at hx hy; rw [← hx, ← hy]
  | tuple t n fs ih =>
    simp only [sem, tupleSem] at hx hy
    have h2 : SameLens (st.remove (.idx t)) (st'.remove (.idx t)) := by
      intro e; simp [State.remove, h e]
    have key : ∀ (l : List Sem), (∀ S ∈ l, ∀ x y, S.size (st.remove (.idx t)) = some x →
        S.size (st'.remove (.idx t)) = some y → x = y) →
        (∀ S ∈ l, ∀ x y, S.align (st.remove (.idx t)) = some x →
        S.align (st'.remove (.idx t)) = some y → x = y) →
        ∀ start x y, sizeAcc A (st.remove (.idx t)) l start = some x →
        sizeAcc A (st'.remove (.idx t)) l start = some y → x = y := by
      intro l hl hl2
      induction l with
      | nil => intro start x y h1 h2; simp [sizeAcc] at h1 h2; rw [← h1, ← h2]
      | cons S l ihl =>
        intro start x y h1 h2
        simp only [sizeAcc, bind, Option.bind_eq_some_iff] at h1 h2
        obtain ⟨a, ha, b, hb, he⟩ := h1
        obtain ⟨a', ha', b', hb', he'⟩ := h2
        cases hl S (by simp) _ _ hb hb'
        cases hl2 S (by simp) _ _ ha ha'
        exact ihl (fun S h => hl S (by simp [h])) (fun S h => hl2 S (by simp [h])) _ _ _ he he'
    refine key _ ?_ ?_ _ _ _ hx hy
    · intro S hS x y h1 h3
      rw [List.mem_ofFn] at hS
      obtain ⟨i, rfl⟩ := hS
      exact ih i (hr i) h2 h1 h3
    · intro S hS x y h1 h3
      rw [List.mem_ofFn] at hS
      obtain ⟨i, rfl⟩ := hS
      exact (fs i).align_det A h1 h3
  | vector d s ih =>
    have h2 : SameLens (st.removeAll [.idx d, .len d]) (st'.removeAll [.idx d, .len d]) := by
      intro e; simp [State.removeAll, h e]
    simp only [sem, vectorSem, bind, Option.bind_eq_some_iff, Option.some.injEq] at hx hy
    obtain ⟨l, hl, z, hz, rfl⟩ := hx
    obtain ⟨l', hl', z', hz', rfl⟩ := hy
    rw [h d] at hl
    rw [hl] at hl'
    cases hl'
    rw [ih hr h2 hz hz']
  | union n ss ih => simp [sem, unionSem] at hx
  | view v s ih =>
    simp only [sem, ViewSem.toSem] at hx hy
    split at hx
    · next hok =>
      simp only [hok, ↓reduceIte, Option.bind_eq_some_iff] at hx hy
      obtain ⟨u, hu, hx⟩ := hx
      obtain ⟨u', hu', hy⟩ := hy
      exact ih (hr.2 u hu) (sameLens_sub h hr hu hu') hx hy
    · simp at hx

end Noarr
