import Verif.AliasDecode

/-
Lengths do not change when more indices are set. Used for C26: a loop asks for a length when only
the indices of the outer loops are known.
-/

set_option linter.unusedVariables false
set_option linter.unusedSimpArgs false

namespace Noarr

/-- `f` has the lengths of `p`, the indices of `p`, and possibly more indices. -/
structure Grow (p f : State) : Prop where
  lens : ∀ d, f (.len d) = p (.len d)
  idxs : ∀ e v, p (.idx e) = some v → f (.idx e) = some v

theorem Grow.has {p f : State} (h : Grow p f) (d : Dim) : f.has (.len d) = p.has (.len d) := by
  simp [State.has, h.lens]

theorem Grow.none {p f : State} (h : Grow p f) {e : Dim} (hf : f (.idx e) = none) :
    p (.idx e) = none := by
  cases hp : p (.idx e) with
  | none => rfl
  | some v => rw [h.idxs e v hp] at hf; simp at hf

/-- The dimensions with a length in the state handed down, from those with a length in the state
given to the view (`merge_blocks`: when the merged dimension has no length). -/
def View.pat (L : Dim → Bool) : View → Dim → Bool
  | .bcast d => fun e => if e = d then false else L e
  | .fix d _ => fun e => if e = d then false else L e
  | .setLength d _ => fun e => if e = d then true else L e
  | .rename ps => fun n =>
      if n ∈ ps.map Prod.fst ∨ n ∉ ps.map Prod.snd then L (Sig.renameDim ps n) else false
  | .join a b d => fun e => if e = a ∨ e = b then L d else if e = d then false else L e
  | .intoBlocks d maj min => fun e =>
      if e = d then L min && L maj else if e = maj ∨ e = min then false else L e
  | .intoBlocksDyn d maj min _ => fun e =>
      if e = d then L min && L maj else if e = maj ∨ e = min then false else L e
  | .intoBlocksStat d _ _ _ _ => fun e => if e = d then false else L e
  | .mergeBlocks maj min d => fun e => if e = d ∨ e = maj ∨ e = min then false else L e
  | .mergeZ _ _ ds _ => fun e => if e ∈ ds then false else L e
  | _ => L

/-- No length given for a `merge_blocks` above fields of different lengths, when the dimensions in
`L` have a length in the state. -/
def Struct.firm : Struct → (Dim → Bool) → Prop
  | .scalar _ _, _ => True
  | .tuple _ _ fs, L => ∀ i, (fs i).firm L
  | .vector d s, L => s.firm (fun e => if e = d then false else L e)
  | .union _ ss, L => ∀ i, (ss i).firm L
  | .view v s, L =>
    match v with
    | .mergeBlocks maj min d => (L d = false ∧ s.firm (v.pat L)) ∨
        ((∀ e, ¬ s.hard e) ∧ s.tame ∧ s.plain maj ∧ s.plain min ∧ ∀ L', s.firm L')
    | _ => s.firm (v.pat L)

def Firm (s : Struct) (st : State) : Prop := s.firm (fun d => st.has (.len d))

theorem Firm.congr {s : Struct} {a b : State} (h : ∀ d, a (.len d) = b (.len d)) (hf : Firm s a) :
    Firm s b := by
  have : (fun d => b.has (.len d)) = fun d => a.has (.len d) := by
    funext d; simp [State.has, h d]
  unfold Firm; rw [this]; exact hf

theorem Firm.of_pat {s : Struct} {L : Dim → Bool} {u : State} (h : ∀ d, u.has (.len d) = L d)
    (hf : s.firm L) : Firm s u := by
  have : (fun d => u.has (.len d)) = L := funext h
  unfold Firm; rw [this]; exact hf

variable {A : Arith}

macro "lens_tac" : tactic => `(tactic| (
  intro e
  simp +zetaDelta only [State.at, blocksClean, dynClean, statClean, State.removeAll, State.set, State.mapAt, State.has,
    State.remove, View.pat, List.mem_cons, List.not_mem_nil, or_false, Tag.idx.injEq, Tag.len.injEq,
    reduceCtorEq, false_or, or_self, if_false] <;> grind))

theorem firm_sub {v : View} {s : Struct} {st u : State} (h : Firm (.view v s) st)
    (hu : (v.sem A (s.sem A)).sub st = some u) : Firm s u := by
  cases v with
  | bcast d => cases hu; refine Firm.of_pat ?_ h; lens_tac
  | fix d i => cases hu; refine Firm.of_pat ?_ h; lens_tac
  | setLength d l => cases hu; refine Firm.of_pat ?_ h; lens_tac
  | shift d a => cases hu; refine Firm.of_pat ?_ h; lens_tac
  | slice d a n => cases hu; refine Firm.of_pat ?_ h; lens_tac
  | span d a n => cases hu; refine Firm.of_pat ?_ h; lens_tac
  | step d a n => cases hu; refine Firm.of_pat ?_ h; lens_tac
  | reverse d =>
    simp only [View.sem, reverseSem] at hu
    refine Firm.of_pat ?_ h
    cases hi : st (.idx d) with
    | none => simp only [hi, Option.some.injEq] at hu; subst hu; lens_tac
    | some i =>
      simp only [hi] at hu
      split at hu
      · simp at hu
      · cases hu; lens_tac
      · simp only [bind, Option.bind_eq_some_iff, Option.some.injEq] at hu
        obtain ⟨l, -, rfl⟩ := hu; lens_tac
  | reorder ds => cases hu; exact h
  | hoist d => cases hu; exact h
  | rename ps =>
    cases hu; refine Firm.of_pat ?_ h
    intro e
    simp only [State.has, renameState_len, View.pat]
    split <;> rfl
  | join a b d =>
    refine Firm.of_pat ?_ h
    simp only [View.sem, joinSem, bind, Option.bind_eq_some_iff] at hu
    obtain ⟨ha, -, hb, -, hu⟩ := hu
    split at hu
    · simp at hu
    · cases hl : st (.len d) <;> cases hi : st (.idx d) <;> simp only [hl, hi, Option.some.injEq] at hu
      · subst hu; lens_tac
      · subst hu; lens_tac
      · split at hu <;> simp at hu
        subst hu; lens_tac
      · split at hu <;> simp at hu
        subst hu; lens_tac
  | intoBlocks d maj min =>
    refine Firm.of_pat ?_ h
    simp only [View.sem, intoBlocksSem, intoBlocksSub] at hu
    cases hm : st (.len min) <;> cases hM : st (.len maj) <;> cases hI : st (.idx maj) <;>
      cases hJ : st (.idx min) <;> simp only [hm, hM, hI, hJ, Option.some.injEq] at hu <;>
      first
      | (subst hu; lens_tac; done)
      | skip
    all_goals
      split at hu
      · simp at hu
      · cases hu; lens_tac
      · first
        | (cases hu; lens_tac; done)
        | (simp only [bind, Option.bind_eq_some_iff, Option.some.injEq] at hu
           obtain ⟨l, -, rfl⟩ := hu; lens_tac)
  | intoBlocksDyn d maj min pres =>
    refine Firm.of_pat ?_ h
    simp only [View.sem, intoBlocksDynSem, intoBlocksDynSub, blocksDynClean_eq] at hu
    split at hu
    · simp at hu
    next hp =>
    simp only [bind, Option.bind_some] at hu
    cases hm : st (.len min) <;> cases hM : st (.len maj) <;> cases hI : st (.idx maj) <;>
      cases hJ : st (.idx min) <;> simp only [hm, hM, hI, hJ, Option.some.injEq] at hu <;>
      first
      | (subst hu; lens_tac; done)
      | (simp only [Option.bind_eq_some_iff, Option.some.injEq] at hu
         obtain ⟨l, -, rfl⟩ := hu; lens_tac)
  | intoBlocksStat d border maj min nl =>
    refine Firm.of_pat ?_ h
    simp only [View.sem, intoBlocksStatSem, intoBlocksStatSub, blocksStatClean_eq] at hu
    split at hu
    · simp at hu
    next hp =>
    simp only [bind, Option.bind_some] at hu
    split at hu
    · cases hI : st (.idx maj) <;> cases hJ : st (.idx min) <;>
        simp only [hI, hJ, Option.some.injEq, Option.bind_eq_some_iff] at hu <;>
        first
        | (subst hu; lens_tac; done)
        | skip
      obtain ⟨b, -, hu⟩ := hu
      cases b <;> simp only [Bool.false_eq_true, ↓reduceIte, Option.some.injEq,
        Option.bind_eq_some_iff] at hu
      · obtain ⟨l, -, rfl⟩ := hu; lens_tac
      · subst hu; lens_tac
    · cases hu; lens_tac
  | mergeBlocks maj min d =>
    rcases h with ⟨h1, h2⟩ | ⟨-, -, -, -, h⟩
    · refine Firm.of_pat ?_ h2
      have h1' : st (.len d) = none := by simpa [State.has] using h1
      obtain ⟨b1, b2, nl, ml, -, -, -, -, hl⟩ := mergeBlocksSub_len hu
      intro e
      simp only [State.has, hl, h1', View.pat]
      have := h1'
      simp [blocksClean, State.removeAll]
      grind
    · exact h _
  | mergeZ sl gl ds d =>
    refine Firm.of_pat ?_ h
    simp only [View.sem, mergeZSem, mergeZSub] at hu
    cases hi : st (.idx d) with
    | none =>
      simp only [hi, Option.some.injEq] at hu
      subst hu
      intro e; simp [State.has, State.removeAll, View.pat]; grind
    | some z =>
      simp only [hi, bind, Option.bind_eq_some_iff, Option.some.injEq] at hu
      obtain ⟨l, -, rfl⟩ := hu
      intro e
      simp only [State.has, setIdxs_len, State.removeAll, View.pat]
      simp; grind

/-- What `firm` is for. -/
theorem Firm.rigid {s : Struct} {st : State} (h : Firm s st) : s.rigid A st := by
  induction s generalizing st with
  | scalar => trivial
  | tuple t n fs ih =>
    intro i
    refine ih i (Firm.congr (a := st) ?_ (h i))
    intro d; simp [State.remove]
  | vector d s ih => refine ih (Firm.of_pat ?_ h); lens_tac
  | union n ss ih => exact fun i => ih i (h i)
  | view v s ih =>
    refine ⟨?_, fun u hu => ih (firm_sub h hu)⟩
    cases v with
    | mergeBlocks maj min d =>
      rcases h with ⟨h1, h2⟩ | ⟨h1, h2, h3, h4, -⟩
      · left; simpa [State.has] using h1
      · exact .inr ⟨h1, h2, h3, h4⟩
    | _ => trivial

/-- The statement: lengths known with few indices stay the same with more indices, and a dimension
that has a length keeps it. -/
structure Grows (A : Arith) (s : Struct) : Prop where
  len : ∀ p f q l v, Grow p f → Firm s f → (s.sem A).len q p = some l →
    (s.sem A).len q f = some v → l = v
  has : ∀ p f q b, Grow p f → Firm s f → ¬ s.stale q → f (.idx q) = none →
    (s.sem A).hasLen q p = some true → (s.sem A).hasLen q f = some b → b = true

theorem grow_clean {d maj min : Dim} {p f : State} (h : Grow p f) :
    Grow (blocksClean d maj min p) (blocksClean d maj min f) := by
  constructor
  · intro e; simp [blocksClean, State.removeAll, h.lens]
  · intro e v hv
    have := h.idxs e v
    simp only [blocksClean, State.removeAll] at hv ⊢
    grind

theorem grow_dynClean {d maj min pres : Dim} {p f : State} (h : Grow p f) :
    Grow (dynClean d maj min pres p) (dynClean d maj min pres f) := by
  constructor
  · intro e; simp [dynClean, State.removeAll, h.lens]
  · intro e v hv
    have := h.idxs e v
    simp only [dynClean, State.removeAll] at hv ⊢
    grind

theorem grow_statClean {d border maj min : Dim} {p f : State} (h : Grow p f) :
    Grow (statClean d border maj min p) (statClean d border maj min f) := by
  constructor
  · intro e; simp [statClean, State.removeAll, h.lens]
  · intro e v hv
    have := h.idxs e v
    simp only [statClean, State.removeAll] at hv ⊢
    grind

theorem grow_remove {t : Dim} {p f : State} (h : Grow p f) :
    Grow (p.remove (.idx t)) (f.remove (.idx t)) := by
  constructor
  · intro e; simp [State.remove, h.lens]
  · intro e v hv
    have := h.idxs e v
    simp only [State.remove] at hv ⊢
    grind

theorem grow_vector {d : Dim} {p f : State} (h : Grow p f) :
    Grow (p.removeAll [.idx d, .len d]) (f.removeAll [.idx d, .len d]) := by
  constructor
  · intro e; simp [State.removeAll, h.lens]
  · intro e v hv
    have := h.idxs e v
    simp only [State.removeAll] at hv ⊢
    grind

theorem grow_zClean {ds : List Dim} {d : Dim} {p f : State} (h : Grow p f) :
    Grow (p.removeAll (.idx d :: (ds.map .idx ++ ds.map .len)))
      (f.removeAll (.idx d :: (ds.map .idx ++ ds.map .len))) := by
  constructor
  · intro e; simp [State.removeAll, h.lens]
  · intro e v hv
    have := h.idxs e v
    simp [State.removeAll] at hv ⊢
    grind

/-- the states that the views ask for a length in -/
theorem firm_ib {d maj min : Dim} {s : Struct} {st : State}
    (h : Firm (.view (.intoBlocks d maj min) s) st) (hn : st (.len maj) = none ∨ st (.len min) = none) :
    Firm s (blocksClean d maj min st) := by
  refine Firm.of_pat ?_ h
  intro e
  simp only [State.has, blocksClean, State.removeAll, View.pat]
  rcases hn with hn | hn <;> simp [hn] <;> grind

theorem firm_ibd {d maj min pres : Dim} {s : Struct} {st : State}
    (h : Firm (.view (.intoBlocksDyn d maj min pres) s) st)
    (hn : st (.len maj) = none ∨ st (.len min) = none) :
    Firm s (dynClean d maj min pres st) := by
  refine Firm.of_pat ?_ h
  intro e
  simp only [State.has, dynClean, State.removeAll, View.pat]
  rcases hn with hn | hn <;> simp [hn] <;> grind

theorem firm_ibs {d border maj min : Dim} {nl : Val} {s : Struct} {st : State}
    (h : Firm (.view (.intoBlocksStat d border maj min nl) s) st) :
    Firm s (statClean d border maj min st) := by
  refine Firm.of_pat ?_ h
  intro e
  simp only [State.has, statClean, State.removeAll, View.pat]
  simp; grind

theorem firm_mb {d maj min : Dim} {s : Struct} {st : State}
    (h : Firm (.view (.mergeBlocks maj min d) s) st) : Firm s (blocksClean d maj min st) := by
  rcases h with ⟨h1, h2⟩ | ⟨-, -, -, -, h⟩
  · refine Firm.of_pat ?_ h2
    intro e
    simp only [State.has, blocksClean, State.removeAll, View.pat]
    simp; grind
  · exact h _

theorem firm_mz {sl gl : Nat} {ds : List Dim} {d : Dim} {s : Struct} {st : State}
    (h : Firm (.view (.mergeZ sl gl ds d) s) st) :
    Firm s (st.removeAll (.idx d :: (ds.map .idx ++ ds.map .len))) := by
  refine Firm.of_pat ?_ h
  intro e
  simp [State.has, State.removeAll, View.pat]; grind

theorem allSome_grow {ds : List Dim} {S : Sem} {p f : State} {l l' : List Val}
    (h : ∀ e ∈ ds, ∀ a b, S.len e p = some a → S.len e f = some b → a = b)
    (h1 : allSome (ds.map (S.len · p)) = some l) (h2 : allSome (ds.map (S.len · f)) = some l') :
    l = l' := by
  induction ds generalizing l l' with
  | nil => simp [allSome] at h1 h2; simp [h1, h2]
  | cons e ds ih =>
    simp only [List.map_cons, allSome, bind, Option.bind_eq_some_iff, Option.some.injEq] at h1 h2
    obtain ⟨a, ha, as, has, rfl⟩ := h1
    obtain ⟨b, hb, bs, hbs, rfl⟩ := h2
    rw [h e (by simp) a b ha hb, ih (fun e he => h e (by simp [he])) has hbs]

theorem sub_grow {v : View} {s : Struct} {p f u u' : State} (ih : Grows A s)
    (ht : (Struct.view v s).tame) (hg : Grow p f) (hf : Firm (.view v s) f)
    (hu : (v.sem A (s.sem A)).sub p = some u) (hu' : (v.sem A (s.sem A)).sub f = some u') :
    Grow u u' := by
  refine ⟨fun d => sameLens_sub (A := A) (v := v) (s := s) (fun d => hg.lens d) hf.rigid hu' hu d, ?_⟩
  intro e x hx
  have hi := hg.idxs
  by_cases hq : e ∈ v.dims
  rotate_left
  · rw [sub_idx hq hu] at hx
    rw [sub_idx hq hu']
    exact hi _ _ hx
  cases v with
  | bcast d =>
    cases hu; simp [View.dims] at hq; subst hq; simp [State.removeAll] at hx
  | fix d i =>
    cases hu; cases hu'; simp [View.dims] at hq; subst hq; simpa [State.set] using hx
  | setLength d l => simp [View.dims] at hq
  | shift d a =>
    cases hu; cases hu'; simp [View.dims] at hq; subst hq
    simp [State.mapAt] at hx ⊢
    obtain ⟨a, h1, h2⟩ := hx
    exact ⟨a, hi _ _ h1, h2⟩
  | slice d a n =>
    cases hu; cases hu'; simp [View.dims] at hq; subst hq
    simp [State.mapAt] at hx ⊢
    obtain ⟨a, h1, h2⟩ := hx
    exact ⟨a, hi _ _ h1, h2⟩
  | span d a n =>
    cases hu; cases hu'; simp [View.dims] at hq; subst hq
    simp [State.mapAt] at hx ⊢
    obtain ⟨a, h1, h2⟩ := hx
    exact ⟨a, hi _ _ h1, h2⟩
  | step d a n =>
    cases hu; cases hu'; simp [View.dims] at hq; subst hq
    simp [State.mapAt] at hx ⊢
    obtain ⟨a, h1, h2⟩ := hx
    exact ⟨a, hi _ _ h1, h2⟩
  | reverse d =>
    simp [View.dims] at hq; subst hq
    simp only [View.sem, reverseSem] at hu hu'
    have hr : ∀ st : State, (st.remove (.idx e)) (.idx e) = none := by intro st; simp [State.remove]
    have hfirm : Firm s (f.remove (.idx e)) :=
      Firm.congr (a := f) (by intro d; simp [State.remove]) hf
    cases hp : p (.idx e) with
    | none => simp only [hp, Option.some.injEq] at hu; subst hu; rw [hp] at hx; simp at hx
    | some i =>
      have hfe := hi _ _ hp
      simp only [hp] at hu
      simp only [hfe] at hu'
      cases h1 : (s.sem A).hasLen e (p.remove (.idx e)) with
      | none => simp [h1] at hu
      | some b =>
        cases b with
        | false => simp only [h1, Option.some.injEq] at hu; subst hu; simp [hr] at hx
        | true =>
          cases h2 : (s.sem A).hasLen e (f.remove (.idx e)) with
          | none => simp [h2] at hu'
          | some b =>
            have := ih.has _ _ e b (grow_remove hg) hfirm ht.2.2 (hr _) h1 h2
            subst this
            simp only [h1, h2, bind, Option.bind_eq_some_iff, Option.some.injEq] at hu hu'
            obtain ⟨l, hl, rfl⟩ := hu
            obtain ⟨l', hl', rfl⟩ := hu'
            have := ih.len _ _ e l l' (grow_remove hg) hfirm hl hl'
            subst this
            simpa [State.set] using hx
  | reorder ds => simp [View.dims] at hq
  | hoist d => simp [View.dims] at hq
  | rename ps =>
    cases hu; cases hu'
    rw [renameState_idx] at hx ⊢
    split at hx
    · next h => rw [if_pos h]; exact hi _ _ hx
    · simp at hx
  | join a b d =>
    simp only [View.sem, joinSem, bind, Option.bind_eq_some_iff] at hu hu'
    obtain ⟨ha, -, hb, -, hu⟩ := hu
    obtain ⟨ha', -, hb', -, hu'⟩ := hu'
    split at hu
    · simp at hu
    split at hu'
    · simp at hu'
    rw [hg.lens] at hu'
    have hc : (p.removeAll [.idx d, .idx a, .idx b, .len d, .len a, .len b]) (.idx e) = none := by
      simp [View.dims] at hq
      simp [State.removeAll]; grind
    cases hp : p (.idx d) with
    | none =>
      exfalso
      cases hl : p (.len d) <;> simp only [hl, hp, Option.some.injEq] at hu
      · subst hu; rw [hc] at hx; simp at hx
      · split at hu <;> simp at hu
        subst hu; simp [State.set, hc] at hx
    | some i =>
      have hfe := hi _ _ hp
      cases hl : p (.len d) <;> simp only [hl, hp, hfe, Option.some.injEq] at hu hu'
      · subst hu; subst hu'
        simp only [State.set, hc] at hx ⊢
        grind
      · split at hu <;> simp at hu
        split at hu' <;> simp at hu'
        subst hu; subst hu'
        simp only [State.set, hc] at hx ⊢
        grind
  | intoBlocks d maj min =>
    simp only [View.sem, intoBlocksSem, intoBlocksSub] at hu hu'
    have hc : ∀ st : State, blocksClean d maj min st (.idx e) = none := by
      intro st
      simp [View.dims] at hq
      simp [blocksClean, State.removeAll]; grind
    have hd : ∀ st : State, blocksClean d maj min st (.idx d) = none := by
      intro st; simp [blocksClean, State.removeAll]
    rw [hg.lens, hg.lens] at hu'
    have key : ∃ i j, p (.idx maj) = some i ∧ p (.idx min) = some j := by
      cases hI : p (.idx maj) <;> cases hJ : p (.idx min) <;>
        first
        | exact ⟨_, _, rfl, rfl⟩
        | (exfalso
           simp only [hI, hJ] at hu
           split at hu
           · cases hM : p (.len maj) <;> simp only [hM, Option.some.injEq] at hu <;> subst hu <;>
               simp [State.set, hc] at hx
           · split at hu <;> simp at hu
             · subst hu; simp [hc] at hx
             · subst hu; simp [hc] at hx)
    obtain ⟨i, j, hI, hJ⟩ := key
    simp only [hI, hJ, hi _ _ hI, hi _ _ hJ] at hu hu'
    cases hm : p (.len min) with
    | some nl =>
      simp only [hm, Option.some.injEq] at hu hu'
      subst hu; subst hu'
      cases hM : p (.len maj) <;> simp only [hM, State.set, hc] at hx ⊢ <;> simpa using hx
    | none =>
      simp only [hm] at hu hu'
      have hfirm := firm_ib hf (.inr (by rw [hg.lens]; exact hm))
      cases h1 : (s.sem A).hasLen d (blocksClean d maj min p) with
      | none => simp [h1] at hu
      | some b =>
        cases b with
        | false => simp only [h1, Option.some.injEq] at hu; subst hu; simp [hc] at hx
        | true =>
          cases h2 : (s.sem A).hasLen d (blocksClean d maj min f) with
          | none => simp [h2] at hu'
          | some b =>
            have := ih.has _ _ d b (grow_clean hg) hfirm ht.2.1.2.2 (hd _) h1 h2
            subst this
            cases hM : p (.len maj) with
            | none => simp only [h1, hM, Option.some.injEq] at hu; subst hu; simp [hc] at hx
            | some ml =>
              simp only [h1, h2, hM, bind, Option.bind_eq_some_iff, Option.some.injEq] at hu hu'
              obtain ⟨l, hl, rfl⟩ := hu
              obtain ⟨l', hl', rfl⟩ := hu'
              have := ih.len _ _ d l l' (grow_clean hg) hfirm hl hl'
              subst this
              simp only [State.set, hc] at hx ⊢
              simpa using hx
  | intoBlocksDyn d maj min pres =>
    simp only [View.sem, intoBlocksDynSem, intoBlocksDynSub, blocksDynClean_eq] at hu hu'
    have hc : ∀ st : State, dynClean d maj min pres st (.idx e) = none := by
      intro st
      simp [View.dims] at hq
      simp [dynClean, State.removeAll]; grind
    have hd : ∀ st : State, dynClean d maj min pres st (.idx d) = none := by
      intro st; simp [dynClean, State.removeAll]
    split at hu
    · simp at hu
    split at hu'
    · simp at hu'
    simp only [bind, Option.bind_some] at hu hu'
    rw [hg.lens, hg.lens] at hu'
    have key : ∃ i j, p (.idx maj) = some i ∧ p (.idx min) = some j := by
      cases hI : p (.idx maj) <;> cases hJ : p (.idx min) <;>
        first
        | exact ⟨_, _, rfl, rfl⟩
        | (exfalso
           simp only [hI, hJ] at hu
           split at hu
           · cases hM : p (.len maj) <;> simp only [hM, Option.some.injEq] at hu <;> subst hu <;>
               simp [State.set, hc] at hx
           · cases hM : p (.len maj) <;> simp only [hM, Option.some.injEq] at hu <;> subst hu <;>
               simp [hc] at hx)
    obtain ⟨i, j, hI, hJ⟩ := key
    simp only [hI, hJ, hi _ _ hI, hi _ _ hJ] at hu hu'
    cases hm : p (.len min) with
    | some nl =>
      simp only [hm, Option.some.injEq] at hu hu'
      subst hu; subst hu'
      cases hM : p (.len maj) <;> simp only [hM, State.set, hc] at hx ⊢ <;> simpa using hx
    | none =>
      simp only [hm] at hu hu'
      have hfirm := firm_ibd hf (.inr (by rw [hg.lens]; exact hm))
      cases hM : p (.len maj) with
      | none => simp only [hM, Option.some.injEq] at hu; subst hu; simp [hc] at hx
      | some ml =>
        simp only [hM, bind, Option.bind_eq_some_iff, Option.some.injEq] at hu hu'
        obtain ⟨l, hl, rfl⟩ := hu
        obtain ⟨l', hl', rfl⟩ := hu'
        have := ih.len _ _ d l l' (grow_dynClean hg) hfirm hl hl'
        subst this
        simp only [State.set, hc] at hx ⊢
        simpa using hx
  | intoBlocksStat d border maj min nl =>
    simp only [View.sem, intoBlocksStatSem, intoBlocksStatSub, blocksStatClean_eq] at hu hu'
    have hc : ∀ st : State, statClean d border maj min st (.idx e) = none := by
      intro st
      simp [View.dims] at hq
      simp [statClean, State.removeAll]; grind
    split at hu
    · simp at hu
    split at hu'
    · simp at hu'
    simp only [bind, Option.bind_some] at hu hu'
    split at hu
    rotate_left
    · simp only [Option.some.injEq] at hu; subst hu; simp [hc] at hx
    next hb =>
    obtain ⟨b, hb⟩ := Option.isSome_iff_exists.1 hb
    have hbf := hi _ _ hb
    rw [if_pos (by simp [State.has, hbf])] at hu'
    have key : ∃ i j, p (.idx maj) = some i ∧ p (.idx min) = some j := by
      cases hI : p (.idx maj) <;> cases hJ : p (.idx min) <;>
        first
        | exact ⟨_, _, rfl, rfl⟩
        | (exfalso
           simp only [hI, hJ, Option.some.injEq] at hu
           subst hu; simp [hc] at hx)
    obtain ⟨i, j, hI, hJ⟩ := key
    have hbody : isBody border f = isBody border p := by simp [isBody, hb, hbf]
    simp only [hI, hJ, hi _ _ hI, hi _ _ hJ, hbody, Option.bind_eq_some_iff] at hu hu'
    obtain ⟨c, h1, hu⟩ := hu
    obtain ⟨c', h1', hu'⟩ := hu'
    rw [h1] at h1'; cases h1'
    cases c with
    | true =>
      simp only [if_true, Option.some.injEq] at hu hu'
      subst hu; subst hu'
      simp only [State.set, hc] at hx ⊢
      simpa using hx
    | false =>
      simp only [Bool.false_eq_true, ↓reduceIte, Option.bind_eq_some_iff, Option.some.injEq] at hu hu'
      obtain ⟨l, hl, rfl⟩ := hu
      obtain ⟨l', hl', rfl⟩ := hu'
      have := ih.len _ _ d l l' (grow_statClean hg) (firm_ibs hf) hl hl'
      subst this
      simp only [State.set, hc] at hx ⊢
      simpa using hx
  | mergeBlocks maj min d =>
    have hc : ∀ st : State, blocksClean d maj min st (.idx e) = none := by
      intro st
      simp [View.dims] at hq
      simp [blocksClean, State.removeAll]; grind
    have hm : ∀ st : State, blocksClean d maj min st (.idx min) = none := by
      intro st; simp [blocksClean, State.removeAll]
    have hM : ∀ st : State, blocksClean d maj min st (.idx maj) = none := by
      intro st; simp [blocksClean, State.removeAll]
    have hfirm := firm_mb hf
    have hcg := grow_clean (d := d) (maj := maj) (min := min) hg
    simp only [View.sem, mergeBlocksSem, mergeBlocksSub, bind, Option.bind_eq_some_iff] at hu hu'
    obtain ⟨hmin, h1, hmaj, h2, hu⟩ := hu
    obtain ⟨hmin', h1', hmaj', h2', hu'⟩ := hu'
    rw [hg.lens] at hu'
    cases hp : p (.idx d) with
    | none =>
      exfalso
      cases hmin <;> cases hmaj <;> cases hl : p (.len d) <;>
        simp only [hp, hl, Bool.false_eq_true, ↓reduceIte, Option.some.injEq, Option.bind_eq_some_iff] at hu <;>
        first
        | (subst hu; simp [State.set, hc] at hx; done)
        | (obtain ⟨_, _, rfl⟩ := hu; simp [State.set, hc] at hx; done)
    | some i =>
      have hfi := hi _ _ hp
      cases hmin with
      | true =>
        have := ih.has _ _ min _ hcg hfirm ht.2.2.2.2 (hm _) h1 h1'
        subst this
        simp only [hp, hfi, ↓reduceIte, Option.bind_eq_some_iff] at hu hu'
        obtain ⟨nl, hnl, hu⟩ := hu
        obtain ⟨nl', hnl', hu'⟩ := hu'
        have := ih.len _ _ min _ _ hcg hfirm hnl hnl'
        subst this
        cases hmaj <;> cases hmaj' <;> cases hl : p (.len d) <;>
          simp only [hl, Bool.false_eq_true, ↓reduceIte, Option.some.injEq] at hu hu' <;>
          subst hu <;> subst hu' <;> simp only [State.set, hc] at hx ⊢ <;> simpa using hx
      | false =>
        cases hmaj with
        | false =>
          simp only [Bool.false_eq_true, ↓reduceIte, Option.some.injEq] at hu
          subst hu; simp [hc] at hx
        | true =>
          cases hl : p (.len d) with
          | none =>
            simp only [hl, Bool.false_eq_true, ↓reduceIte, Option.some.injEq, Option.bind_eq_some_iff] at hu
            obtain ⟨_, _, rfl⟩ := hu; simp [hc] at hx
          | some l =>
            rcases hf with ⟨hf, -⟩ | ⟨hh, ht', hpM, hpm, -⟩
            · simp [State.has, hg.lens, hl] at hf
            · have h3 := lens_agree (B := A) (Struct.length_dep A s ht') hpm
                (a := blocksClean d maj min p) (b := blocksClean d maj min f)
                (fun e => (hcg.lens e).symm) (fun e he => absurd he (hh e)) (hm _) (hm _)
              have h4 := lens_agree (B := A) (Struct.length_dep A s ht') hpM
                (a := blocksClean d maj min p) (b := blocksClean d maj min f)
                (fun e => (hcg.lens e).symm) (fun e he => absurd he (hh e)) (hM _) (hM _)
              cases h3.2 _ _ h1 h1'
              cases h4.2 _ _ h2 h2'
              simp only [hl, hp, hfi, Bool.false_eq_true, ↓reduceIte, Option.some.injEq,
                Option.bind_eq_some_iff] at hu hu'
              obtain ⟨ml, hml, rfl⟩ := hu
              obtain ⟨ml', hml', rfl⟩ := hu'
              cases h4.1 _ _ hml hml'
              simp only [State.set, hc] at hx ⊢
              simpa using hx
  | mergeZ sl gl ds d =>
    simp only [View.sem, mergeZSem, mergeZSub] at hu hu'
    have hcg := grow_zClean (ds := ds) (d := d) hg
    have hc : (p.removeAll (.idx d :: (ds.map .idx ++ ds.map .len))) (.idx e) = none := by
      simp [View.dims] at hq
      simp [State.removeAll]; grind
    cases hp : p (.idx d) with
    | none =>
      simp only [hp, Option.some.injEq] at hu
      subst hu; rw [hc] at hx; simp at hx
    | some z =>
      have hfi := hi _ _ hp
      simp only [hp, hfi, bind, Option.bind_eq_some_iff, Option.some.injEq] at hu hu'
      obtain ⟨l, hl, rfl⟩ := hu
      obtain ⟨l', hl', rfl⟩ := hu'
      have := allSome_grow (fun e _ a b h1 h2 => ih.len _ _ e a b hcg (firm_mz hf) h1 h2) hl hl'
      subst this
      by_cases hm : e ∈ (ds.zip (zcIndices A sl gl l z)).map Prod.fst
      · rw [← hx]; exact setIdxs_congr hm
      · rw [setIdxs_idx_not_mem hm, hc] at hx; simp at hx

theorem bind_len {α : Type} {o : Option State} {F : State → Option α} {x : α} (h : o.bind F = some x) :
    ∃ u, o = some u ∧ F u = some x := Option.bind_eq_some_iff.1 h

/-- The queries a view passes down. -/
theorem pass_len {v : View} {s : Struct} {p f : State} (ih : Grows A s)
    (ht : (Struct.view v s).tame) (hg : Grow p f) (hf : Firm (.view v s) f) {q : Dim} {l x : Val}
    (hl : ((v.sem A (s.sem A)).sub p).bind ((s.sem A).len q) = some l)
    (hx : ((v.sem A (s.sem A)).sub f).bind ((s.sem A).len q) = some x) : l = x := by
  obtain ⟨u, hu, hl⟩ := bind_len hl
  obtain ⟨u', hu', hx⟩ := bind_len hx
  exact ih.len _ _ q l x (sub_grow ih ht hg hf hu hu') (firm_sub hf hu') hl hx

theorem pass_has {v : View} {s : Struct} {p f : State} (ih : Grows A s)
    (ht : (Struct.view v s).tame) (hg : Grow p f) (hf : Firm (.view v s) f) {q : Dim} {b : Bool}
    (hs : ¬ s.stale q) (hi : ∀ u, (v.sem A (s.sem A)).sub f = some u → u (.idx q) = none)
    (hl : ((v.sem A (s.sem A)).sub p).bind ((s.sem A).hasLen q) = some true)
    (hx : ((v.sem A (s.sem A)).sub f).bind ((s.sem A).hasLen q) = some b) : b = true := by
  obtain ⟨u, hu, hl⟩ := bind_len hl
  obtain ⟨u', hu', hx⟩ := bind_len hx
  exact ih.has _ _ q b (sub_grow ih ht hg hf hu hu') (firm_sub hf hu') hs (hi _ hu') hl hx

theorem grows_view (v : View) {s : Struct} (ih : Grows A s) (ht : (Struct.view v s).tame) :
    Grows A (.view v s) := by
  have PL : ∀ {p f : State} (hg : Grow p f) (hf : Firm (.view v s) f) {q : Dim} {l x : Val},
    ((v.sem A (s.sem A)).sub p).bind ((s.sem A).len q) = some l →
    ((v.sem A (s.sem A)).sub f).bind ((s.sem A).len q) = some x → l = x :=
    fun hg hf => pass_len ih ht hg hf
  have PH : ∀ {p f : State} (hg : Grow p f) (hf : Firm (.view v s) f) {q : Dim} {b : Bool}
    (hs : ¬ s.stale q) (hi : ∀ u, (v.sem A (s.sem A)).sub f = some u → u (.idx q) = none),
    ((v.sem A (s.sem A)).sub p).bind ((s.sem A).hasLen q) = some true →
    ((v.sem A (s.sem A)).sub f).bind ((s.sem A).hasLen q) = some b → b = true :=
    fun hg hf _ _ hs hi => pass_has ih ht hg hf hs hi
  have PI : ∀ {f : State} {q : Dim}, f (.idx q) = none → q ∉ v.dims →
    ∀ u, (v.sem A (s.sem A)).sub f = some u → u (.idx q) = none :=
    fun hf hq u hu => by rw [sub_idx hq hu]; exact hf
  constructor
  · intro p f q l x hg hf hl hx
    cases v with
    | bcast d =>
      simp only [Struct.sem, View.sem, ViewSem.toSem, bcastSem, guardLen_eq_some] at hl hx
      by_cases hq : q = d
      · simp only [hq, if_true] at hl hx
        rw [hg.lens, hl.2] at hx
        exact Option.some.inj hx.2
      · simp only [hq, if_false] at hl hx
        exact PL hg hf hl.2 hx.2
    | fix d i =>
      simp only [Struct.sem, View.sem, ViewSem.toSem, fixSem, guardLen_eq_some] at hl hx
      exact PL hg hf hl.2 hx.2
    | setLength d i =>
      simp only [Struct.sem, View.sem, ViewSem.toSem, setLengthSem, guardLen_eq_some] at hl hx
      exact PL hg hf hl.2 hx.2
    | shift d a =>
      simp only [Struct.sem, View.sem, ViewSem.toSem, shiftSem, guardLen_eq_some] at hl hx
      by_cases hq : q = d
      · simp only [hq, if_true] at hl hx
        rw [hg.lens] at hx
        cases hd : p (.len d) with
        | some y =>
          rw [hd] at hl hx
          have h1 := hl.2
          rw [hx.2] at h1
          exact (Option.some.inj h1).symm
        | none =>
          simp only [hd, bind, Option.bind_eq_some_iff, Option.some.injEq] at hl hx
          obtain ⟨-, y, hy, rfl⟩ := hl
          obtain ⟨-, y', hy', rfl⟩ := hx
          have := PL hg hf (q := d) (l := y) (x := y') hy hy'
          rw [this]
      · simp only [hq, if_false] at hl hx
        exact PL hg hf hl.2 hx.2
    | slice d a n =>
      simp only [Struct.sem, View.sem, ViewSem.toSem, sliceSem, guardLen_eq_some] at hl hx
      by_cases hq : q = d
      · simp only [hq, if_true, Option.some.injEq] at hl hx
        exact hl.2.symm.trans hx.2
      · simp only [hq, if_false] at hl hx
        exact PL hg hf hl.2 hx.2
    | span d a n =>
      simp only [Struct.sem, View.sem, ViewSem.toSem, spanSem, guardLen_eq_some] at hl hx
      by_cases hq : q = d
      · simp only [hq, if_true, Option.some.injEq] at hl hx
        exact hl.2.symm.trans hx.2
      · simp only [hq, if_false] at hl hx
        exact PL hg hf hl.2 hx.2
    | step d a n =>
      simp only [Struct.sem, View.sem, ViewSem.toSem, stepSem, guardLen_eq_some] at hl hx
      by_cases hq : q = d
      · simp only [hq, if_true, bind, Option.bind_eq_some_iff, Option.some.injEq] at hl hx
        obtain ⟨-, y, hy, rfl⟩ := hl
        obtain ⟨-, y', hy', rfl⟩ := hx
        rw [ih.len _ _ _ _ _ hg (Firm.congr (a := f) (fun _ => rfl) hf) hy hy']
      · simp only [hq, if_false] at hl hx
        exact PL hg hf hl.2 hx.2
    | reverse d =>
      simp only [Struct.sem, View.sem, ViewSem.toSem, reverseSem, guardLen_eq_some] at hl hx
      exact ih.len _ _ _ _ _ hg (Firm.congr (a := f) (fun _ => rfl) hf) hl.2 hx.2
    | reorder ds =>
      simp only [Struct.sem, View.sem, ViewSem.toSem, reorderSem, guardLen_eq_some] at hl hx
      exact PL hg hf hl.2 hx.2
    | hoist d =>
      simp only [Struct.sem, View.sem, ViewSem.toSem, hoistSem, guardLen_eq_some] at hl hx
      exact PL hg hf hl.2 hx.2
    | rename ps =>
      simp only [Struct.sem, View.sem, ViewSem.toSem, renameSem, guardLen_eq_some] at hl hx
      exact PL hg hf hl.2 hx.2
    | join a b d =>
      simp only [Struct.sem, View.sem, ViewSem.toSem, joinSem, guardLen_eq_some] at hl hx
      exact PL hg hf hl.2 hx.2
    | intoBlocks d maj min =>
      simp only [Struct.sem, View.sem, ViewSem.toSem, intoBlocksSem, guardLen_eq_some] at hl hx
      replace hl := hl.2
      replace hx := hx.2
      rw [hg.lens, hg.lens] at hx
      by_cases hq : q = min
      · simp only [hq, if_true] at hl hx
        cases hm : p (.len min) with
        | some y => simp only [hm] at hl hx; exact Option.some.inj (hl.symm.trans hx)
        | none =>
          simp only [hm, bind, Option.bind_eq_some_iff, Option.some.injEq] at hl hx
          obtain ⟨ml, hml, y, hy, rfl⟩ := hl
          obtain ⟨ml', hml', y', hy', rfl⟩ := hx
          rw [hml] at hml'; cases hml'
          rw [ih.len _ _ _ _ _ (grow_clean hg) (firm_ib hf (.inr (by rw [hg.lens]; exact hm))) hy hy']
      · simp only [hq, if_false] at hl hx
        by_cases hq : q = maj
        · simp only [hq, if_true] at hl hx
          cases hM : p (.len maj) with
          | some y => simp only [hM] at hl hx; exact Option.some.inj (hl.symm.trans hx)
          | none =>
            simp only [hM, bind, Option.bind_eq_some_iff, Option.some.injEq] at hl hx
            obtain ⟨ml, hml, u, hu, y, hy, rfl⟩ := hl
            obtain ⟨ml', hml', u', hu', y', hy', rfl⟩ := hx
            rw [hml] at hml'; cases hml'
            rw [PL hg hf (q := d) (l := y) (x := y') (Option.bind_eq_some_iff.2 ⟨u, hu, hy⟩)
              (Option.bind_eq_some_iff.2 ⟨u', hu', hy'⟩)]
        · simp only [hq, if_false] at hl hx
          exact PL hg hf hl hx
    | intoBlocksDyn d maj min pres =>
      simp only [Struct.sem, View.sem, ViewSem.toSem, intoBlocksDynSem, guardLen_eq_some] at hl hx
      replace hl := hl.2
      replace hx := hx.2
      rw [hg.lens, hg.lens] at hx
      simp only [blocksDynClean_eq, hg.has] at hl hx
      have hcl : ∀ {st : State} {y : Val}, ((if p.has (.len pres) = true then none else
          some (dynClean d maj min pres st)).bind fun cs => (s.sem A).len d cs) = some y →
          (s.sem A).len d (dynClean d maj min pres st) = some y := by
        intro st y h
        split at h
        · simp at h
        · exact h
      by_cases hq : q = pres
      · simp only [hq, if_true, bind, Option.bind_eq_some_iff] at hl hx
        obtain ⟨i, hi, j, hj, hl⟩ := hl
        obtain ⟨i', hi', j', hj', hx⟩ := hx
        rw [hg.idxs _ _ hi] at hi'; cases hi'
        rw [hg.idxs _ _ hj] at hj'; cases hj'
        cases hm : p (.len min) with
        | some nl =>
          cases hM : p (.len maj) with
          | some ml => simp only [hm, hM, Option.some.injEq] at hl hx; exact hl.symm.trans hx
          | none =>
            simp only [hm, hM, Option.bind_eq_some_iff, Option.some.injEq] at hl hx
            obtain ⟨c, hc, y, hy, rfl⟩ := hl
            obtain ⟨c', hc', y', hy', rfl⟩ := hx
            have hy := hcl (Option.bind_eq_some_iff.2 ⟨c, hc, hy⟩)
            have hy' := hcl (Option.bind_eq_some_iff.2 ⟨c', hc', hy'⟩)
            rw [ih.len _ _ _ _ _ (grow_dynClean hg) (firm_ibd hf (.inl (by rw [hg.lens]; exact hM))) hy hy']
        | none =>
          simp only [hm, Option.bind_eq_some_iff, Option.some.injEq] at hl hx
          obtain ⟨ml, hml, c, hc, y, hy, rfl⟩ := hl
          obtain ⟨ml', hml', c', hc', y', hy', rfl⟩ := hx
          rw [hml] at hml'; cases hml'
          have hy := hcl (Option.bind_eq_some_iff.2 ⟨c, hc, hy⟩)
          have hy' := hcl (Option.bind_eq_some_iff.2 ⟨c', hc', hy'⟩)
          rw [ih.len _ _ _ _ _ (grow_dynClean hg) (firm_ibd hf (.inr (by rw [hg.lens]; exact hm))) hy hy']
      simp only [hq, if_false] at hl hx
      clear hq
      by_cases hq : q = min
      · simp only [hq, if_true] at hl hx
        cases hm : p (.len min) with
        | some y => simp only [hm] at hl hx; exact Option.some.inj (hl.symm.trans hx)
        | none =>
          simp only [hm, bind, Option.bind_eq_some_iff, Option.some.injEq] at hl hx
          obtain ⟨ml, hml, c, hc, y, hy, rfl⟩ := hl
          obtain ⟨ml', hml', c', hc', y', hy', rfl⟩ := hx
          rw [hml] at hml'; cases hml'
          have hy := hcl (Option.bind_eq_some_iff.2 ⟨c, hc, hy⟩)
          have hy' := hcl (Option.bind_eq_some_iff.2 ⟨c', hc', hy'⟩)
          rw [ih.len _ _ _ _ _ (grow_dynClean hg) (firm_ibd hf (.inr (by rw [hg.lens]; exact hm))) hy hy']
      · simp only [hq, if_false] at hl hx
        by_cases hq : q = maj
        · simp only [hq, if_true] at hl hx
          cases hM : p (.len maj) with
          | some y => simp only [hM] at hl hx; exact Option.some.inj (hl.symm.trans hx)
          | none =>
            simp only [hM, bind, Option.bind_eq_some_iff, Option.some.injEq] at hl hx
            obtain ⟨ml, hml, u, hu, y, hy, rfl⟩ := hl
            obtain ⟨ml', hml', u', hu', y', hy', rfl⟩ := hx
            rw [hml] at hml'; cases hml'
            rw [PL hg hf (q := d) (l := y) (x := y') (Option.bind_eq_some_iff.2 ⟨u, hu, hy⟩)
              (Option.bind_eq_some_iff.2 ⟨u', hu', hy'⟩)]
        · simp only [hq, if_false] at hl hx
          exact PL hg hf hl hx
    | intoBlocksStat d border maj min nl =>
      simp only [Struct.sem, View.sem, ViewSem.toSem, intoBlocksStatSem, guardLen_eq_some] at hl hx
      replace hl := hl.2
      replace hx := hx.2
      by_cases hq : q = border
      · simp only [hq, if_true, Option.some.injEq] at hl hx; exact hl.symm.trans hx
      simp only [hq, if_false] at hl hx
      have hbody : ∀ b, isBody border p = some b → isBody border f = some b := by
        intro b hb
        unfold isBody at hb ⊢
        cases hi : p (.idx border) with
        | none => simp [hi] at hb
        | some i => rw [hi] at hb; rw [hg.idxs _ _ hi]; exact hb
      have key : ∀ {u u' y y'}, intoBlocksStatSub A d border maj min nl (s.sem A) p = some u →
          intoBlocksStatSub A d border maj min nl (s.sem A) f = some u' →
          (s.sem A).len d u = some y → (s.sem A).len d u' = some y' → y = y' :=
        fun hu hu' hy hy' => PL hg hf (Option.bind_eq_some_iff.2 ⟨_, hu, hy⟩)
              (Option.bind_eq_some_iff.2 ⟨_, hu', hy'⟩)
      by_cases hq : q = min
      · simp only [hq, if_true] at hl hx
        cases hb : isBody border p with
        | none => simp [hb] at hl
        | some b =>
          rw [hbody b hb] at hx
          rw [hb] at hl
          cases b with
          | true => exact Option.some.inj (hl.symm.trans hx)
          | false =>
            simp only [bind, Option.bind_eq_some_iff, Option.some.injEq] at hl hx
            obtain ⟨u, hu, y, hy, rfl⟩ := hl
            obtain ⟨u', hu', y', hy', rfl⟩ := hx
            rw [key hu hu' hy hy']
      · simp only [hq, if_false] at hl hx
        by_cases hq : q = maj
        · simp only [hq, if_true] at hl hx
          cases hb : isBody border p with
          | none => simp [hb] at hl
          | some b =>
            rw [hbody b hb] at hx
            rw [hb] at hl
            cases b with
            | false => exact Option.some.inj (hl.symm.trans hx)
            | true =>
              simp only [bind, Option.bind_eq_some_iff, Option.some.injEq] at hl hx
              obtain ⟨u, hu, y, hy, rfl⟩ := hl
              obtain ⟨u', hu', y', hy', rfl⟩ := hx
              rw [key hu hu' hy hy']
        · simp only [hq, if_false] at hl hx
          exact PL hg hf hl hx
    | mergeBlocks maj min d =>
      simp only [Struct.sem, View.sem, ViewSem.toSem, mergeBlocksSem, guardLen_eq_some] at hl hx
      replace hl := hl.2
      replace hx := hx.2
      rw [hg.lens] at hx
      by_cases hq : q = d
      · simp only [hq, if_true] at hl hx
        cases hm : p (.len d) with
        | some y => simp only [hm] at hl hx; exact Option.some.inj (hl.symm.trans hx)
        | none =>
          simp only [hm, bind, Option.bind_eq_some_iff, Option.some.injEq] at hl hx
          obtain ⟨u, hu, y, hy, z, hz, rfl⟩ := hl
          obtain ⟨u', hu', y', hy', z', hz', rfl⟩ := hx
          have h1 := PL hg hf (Option.bind_eq_some_iff.2 ⟨_, hu, hy⟩)
              (Option.bind_eq_some_iff.2 ⟨_, hu', hy'⟩)
          have h2 := PL hg hf (Option.bind_eq_some_iff.2 ⟨_, hu, hz⟩)
              (Option.bind_eq_some_iff.2 ⟨_, hu', hz'⟩)
          rw [h1, h2]
      · simp only [hq, if_false] at hl hx
        exact PL hg hf hl hx
    | mergeZ sl gl ds d =>
      simp only [Struct.sem, View.sem, ViewSem.toSem, mergeZSem, guardLen_eq_some] at hl hx
      replace hl := hl.2
      replace hx := hx.2
      by_cases hq : q = d
      · simp only [hq, if_true, bind, Option.bind_eq_some_iff] at hl hx
        obtain ⟨u, hu, ls, hls, hl⟩ := hl
        obtain ⟨u', hu', ls', hls', hx⟩ := hx
        have := allSome_grow (fun e _ a b h1 h2 => PL hg hf (Option.bind_eq_some_iff.2 ⟨_, hu, h1⟩)
              (Option.bind_eq_some_iff.2 ⟨_, hu', h2⟩)) hls hls'
        subst this
        exact Option.some.inj (hl.symm.trans hx)
      · simp only [hq, if_false] at hl hx
        exact PL hg hf hl hx
  · intro p f q b hg hf hst hi hl hx
    have hfn : f.has (.idx q) = false := by simp [State.has, hi]
    have hpn : p.has (.idx q) = false := by simp [State.has, hg.none hi]
    cases v with
    | bcast d =>
      simp only [Struct.sem, View.sem, ViewSem.toSem, bcastSem] at hl hx
      by_cases hq : q = d
      · subst hq
        simp only [if_true, hg.has] at hl hx
        simp only [State.has, hi, hg.none hi] at hl hx
        simp at hl hx; simp [← hx, hl]
      · simp only [hq, if_false] at hl hx
        exact PH hg hf (fun h => hst ⟨hq, h⟩) (PI hi (by simp [View.dims, hq])) hl hx
    | fix d i =>
      simp only [Struct.sem, View.sem, ViewSem.toSem, fixSem] at hl hx
      by_cases hq : q = d
      · simp [hq] at hl
      · simp only [hq, if_false] at hl hx
        exact PH hg hf (fun h => hst ⟨hq, h⟩) (PI hi (by simp [View.dims, hq])) hl hx
    | setLength d i =>
      exact PH hg hf hst (PI hi (by simp [View.dims])) hl hx
    | shift d a =>
      simp only [Struct.sem, View.sem, ViewSem.toSem, shiftSem] at hl hx
      have h0 : ∀ u, (shiftSem A d a (s.sem A)).sub f = some u → u (.idx q) = none := by
        intro u hu; cases hu; simp [State.mapAt, hi]
        intro h; subst h; exact hi
      by_cases hq : q = d
      · simp only [hq, if_true, hg.has] at hl hx
        split at hx
        · simpa using hx.symm
        · next h =>
          rw [if_neg h] at hl
          rw [hq] at hst h0
          exact PH hg hf hst h0 hl hx
      · simp only [hq, if_false] at hl hx
        exact PH hg hf hst h0 hl hx
    | slice d a n =>
      refine PH hg hf hst ?_ hl hx
      intro u hu; cases hu; simp [State.mapAt, hi]
      intro h; subst h; exact hi
    | span d a n =>
      refine PH hg hf hst ?_ hl hx
      intro u hu; cases hu; simp [State.mapAt, hi]
      intro h; subst h; exact hi
    | step d a n =>
      refine PH hg hf hst ?_ hl hx
      intro u hu; cases hu; simp [State.mapAt, hi]
      intro h; subst h; exact hi
    | reverse d =>
      refine PH hg hf hst ?_ hl hx
      intro u hu
      by_cases hq : q = d
      · subst hq; simp only [View.sem, reverseSem, hi, Option.some.injEq] at hu; subst hu; exact hi
      · exact PI hi (by simp [View.dims, hq]) u hu
    | reorder ds =>
      simp only [Struct.sem, View.sem, ViewSem.toSem, reorderSem] at hl hx
      split at hl
      · next h =>
        rw [if_pos h] at hx
        exact PH hg hf hst (PI hi (by simp [View.dims])) hl hx
      · simp at hl
    | hoist d => exact PH hg hf hst (PI hi (by simp [View.dims])) hl hx
    | rename ps =>
      have hst' : ¬ ((q ∈ ps.map Prod.fst ∧ q ∉ ps.map Prod.snd) ∨ renamed ps s.stale q) := hst
      rw [not_or] at hst'
      have hqq := renameDim_swap' ht.2.1 ht.2.2 q hst'.1
      have hk := renameDim_swap_keep (ps := ps) ht.2.2 q
      refine PH hg hf ?_ ?_ hl hx
      · intro h; exact hst'.2 ⟨_, h, hk, hqq⟩
      · intro u hu; cases hu
        rw [renameState_idx, if_pos hk, hqq]; exact hi
    | join a b' d =>
      have hst' : ¬ ((q = a ∧ a ≠ d) ∨ (q = b' ∧ b' ≠ d) ∨ s.stale q) := hst
      refine PH hg hf (fun h => hst' (.inr (.inr h))) ?_ hl hx
      by_cases hq : q ∈ [a, b', d]
      · have hqd : q = d := by
          simp only [List.mem_cons, List.not_mem_nil, or_false] at hq
          grind
        subst hqd
        intro u hu
        simp only [View.sem, joinSem, bind, Option.bind_eq_some_iff, hi] at hu
        obtain ⟨ha, -, hb, -, hu⟩ := hu
        split at hu
        · simp at hu
        · split at hu
          · split at hu <;> simp at hu
            subst hu; simp [State.set, State.removeAll]
          · simp at hu; subst hu; simp [State.removeAll]
      · exact PI hi hq
    | intoBlocks d maj min =>
      have hst' : ¬ (s.stale q ∧ q ≠ d ∧ q ≠ maj ∧ q ≠ min) := hst
      simp only [Struct.sem, View.sem, ViewSem.toSem, intoBlocksSem, hg.has] at hl hx
      have hsub : ∀ u, intoBlocksSub A d maj min (s.sem A) f = some u → (f (.idx maj) = none ∨
          f (.idx min) = none) → u (.idx d) = none := by
        intro u hu hn
        cases hd : u (.idx d) with
        | none => rfl
        | some z =>
          exfalso
          have hc : blocksClean d maj min f (.idx d) = none := by simp [blocksClean, State.removeAll]
          simp only [intoBlocksSub] at hu
          rcases hn with hn | hn
          all_goals
            simp only [hn] at hu
            split at hu
            · cases hM : f (.len maj) <;> cases hI : f (.idx maj) <;> cases hJ : f (.idx min) <;> simp only [hM, hI, hJ, Option.some.injEq] at hu <;>
                subst hu <;> simp [State.set, hc] at hd
            · split at hu
              · simp at hu
              · simp at hu; subst hu; simp [hc] at hd
              · cases hM : f (.len maj) <;> cases hI : f (.idx maj) <;> cases hJ : f (.idx min) <;>
                  simp only [hM, hI, hJ, Option.some.injEq] at hu <;>
                  first
                  | (subst hu; simp [hc] at hd; done)
                  | simp_all
      by_cases hq : q = min
      · subst hq
        simp only [if_true, hfn, hpn, Bool.false_eq_true, if_false] at hl hx
        by_cases h : p.has (.len q) = true
        · rw [if_pos h] at hx
          by_cases h2 : p.has (.len maj) = true
          · rw [if_pos h2] at hx
            split at hx <;> simp at hx
            first | exact hx | exact hx.symm
          · rw [if_neg h2] at hx; simpa using hx.symm
        · rw [if_neg h] at hl hx
          by_cases h2 : p.has (.len maj) = true
          · rw [if_pos h2] at hl hx
            exact PH hg hf ht.2.1.2.2 (fun u hu => hsub u hu (.inr hi)) hl hx
          · rw [if_neg h2] at hl; simp at hl
      simp only [hq, if_false] at hl hx
      by_cases hq2 : q = maj
      · subst hq2
        simp only [if_true, hfn, hpn, Bool.false_eq_true, if_false] at hl hx
        by_cases h : p.has (.len q) = true
        · rw [if_pos h] at hx
          by_cases h2 : p.has (.len min) = true
          · rw [if_pos h2] at hx
            split at hx <;> simp at hx
            first | exact hx | exact hx.symm
          · rw [if_neg h2] at hx; simpa using hx.symm
        · rw [if_neg h] at hl hx
          by_cases h2 : p.has (.len min) = true
          · rw [if_pos h2] at hl hx
            exact PH hg hf ht.2.1.2.2 (fun u hu => hsub u hu (.inl hi)) hl hx
          · rw [if_neg h2] at hl; simp at hl
      simp only [hq2, if_false] at hl hx
      by_cases hq3 : q = d
      · simp [hq3] at hl
      simp only [hq3, if_false] at hl hx
      exact PH hg hf (fun h => hst' ⟨h, hq3, hq2, hq⟩) (PI hi (by simp [View.dims, hq, hq2, hq3])) hl hx
    | intoBlocksDyn d maj min pres =>
      have hst' : ¬ (s.stale q ∧ q ≠ d ∧ q ≠ maj ∧ q ≠ min ∧ q ≠ pres) := hst
      simp only [Struct.sem, View.sem, ViewSem.toSem, intoBlocksDynSem, hg.has] at hl hx
      have hsub : ∀ u, intoBlocksDynSub A d maj min pres (s.sem A) f = some u → (f (.idx maj) = none ∨
          f (.idx min) = none) → u (.idx d) = none := by
        intro u hu hn
        cases hd : u (.idx d) with
        | none => rfl
        | some z =>
          exfalso
          have hc : dynClean d maj min pres f (.idx d) = none := by simp [dynClean, State.removeAll]
          simp only [intoBlocksDynSub, blocksDynClean_eq] at hu
          split at hu
          · simp at hu
          simp only [bind, Option.bind_some] at hu
          rcases hn with hn | hn
          all_goals
            simp only [hn] at hu
            split at hu
            · cases hM : f (.len maj) <;> cases hI : f (.idx maj) <;> cases hJ : f (.idx min) <;> simp only [hM, hI, hJ, Option.some.injEq] at hu <;>
                subst hu <;> simp [State.set, hc] at hd
            · cases hM : f (.len maj) <;> cases hI : f (.idx maj) <;> cases hJ : f (.idx min) <;>
                  simp only [hM, hI, hJ, Option.some.injEq] at hu <;>
                  first
                  | (subst hu; simp [hc] at hd; done)
                  | simp_all
      by_cases hqp : q = pres
      · subst hqp
        simp only [if_true] at hl hx
        split at hl
        rotate_left
        · simp at hl
        next h1 =>
        have h1' : (f.has (.idx maj) && f.has (.idx min)) = true := by
          simp only [Bool.and_eq_true, State.has, Option.isSome_iff_exists] at h1 ⊢
          obtain ⟨⟨a, ha⟩, c, hc⟩ := h1
          exact ⟨⟨a, hg.idxs _ _ ha⟩, c, hg.idxs _ _ hc⟩
        rw [if_pos h1'] at hx
        split at hl
        · next h2 =>
          rw [if_pos h2] at hx
          split at hx <;> simp at hx
          first | exact hx | exact hx.symm
        · next h2 =>
          rw [if_neg h2] at hx
          split at hl
          · next h3 =>
            rw [if_pos h3] at hx
            simp only [blocksDynClean_eq, hg.has] at hl hx
            split at hl
            · simp at hl
            · next h4 =>
              rw [if_neg h4] at hx
              simp only [Option.bind_some] at hl hx
              refine ih.has _ _ d b (grow_dynClean hg) (firm_ibd hf ?_) ht.2.1.2.2 (by simp [dynClean, State.removeAll]) hl hx
              rw [hg.lens, hg.lens]
              simp only [Bool.and_eq_true, State.has, not_and] at h2
              cases hm : p (.len min) with
              | none => exact .inr rfl
              | some _ =>
                left
                simp [hm] at h2
                exact h2
          · simp at hl
      simp only [hqp, if_false] at hl hx
      by_cases hq : q = min
      · subst hq
        simp only [if_true, hfn, hpn, Bool.false_eq_true, if_false] at hl hx
        by_cases h : p.has (.len q) = true
        · rw [if_pos h] at hx
          by_cases h2 : p.has (.len maj) = true
          · rw [if_pos h2] at hx
            split at hx <;> simp at hx
            first | exact hx | exact hx.symm
          · rw [if_neg h2] at hx; simpa using hx.symm
        · rw [if_neg h] at hl hx
          by_cases h2 : p.has (.len maj) = true
          · rw [if_pos h2] at hl hx
            exact PH hg hf ht.2.1.2.2 (fun u hu => hsub u hu (.inr hi)) hl hx
          · rw [if_neg h2] at hl; simp at hl
      simp only [hq, if_false] at hl hx
      by_cases hq2 : q = maj
      · subst hq2
        simp only [if_true, hfn, hpn, Bool.false_eq_true, if_false] at hl hx
        by_cases h : p.has (.len q) = true
        · rw [if_pos h] at hx
          by_cases h2 : p.has (.len min) = true
          · rw [if_pos h2] at hx
            split at hx <;> simp at hx
            first | exact hx | exact hx.symm
          · rw [if_neg h2] at hx; simpa using hx.symm
        · rw [if_neg h] at hl hx
          by_cases h2 : p.has (.len min) = true
          · rw [if_pos h2] at hl hx
            exact PH hg hf ht.2.1.2.2 (fun u hu => hsub u hu (.inl hi)) hl hx
          · rw [if_neg h2] at hl; simp at hl
      simp only [hq2, if_false] at hl hx
      by_cases hq3 : q = d
      · simp [hq3] at hl
      simp only [hq3, if_false] at hl hx
      exact PH hg hf (fun h => hst' ⟨h, hq3, hq2, hq, hqp⟩) (PI hi (by simp [View.dims, hq, hq2, hq3, hqp])) hl hx
    | intoBlocksStat d border maj min nl =>
      have hst' : ¬ (s.stale q ∧ q ≠ d ∧ q ≠ maj ∧ q ≠ min ∧ q ≠ border) := hst
      simp only [Struct.sem, View.sem, ViewSem.toSem, intoBlocksStatSem] at hl hx
      simp only [hfn, hpn, Bool.false_eq_true, if_false] at hl hx
      have hbody : ∀ b, isBody border p = some b → isBody border f = some b := by
        intro b hb
        unfold isBody at hb ⊢
        cases hi : p (.idx border) with
        | none => simp [hi] at hb
        | some i => rw [hi] at hb; rw [hg.idxs _ _ hi]; exact hb
      have hsub : ∀ u, intoBlocksStatSub A d border maj min nl (s.sem A) f = some u → (f (.idx maj) = none ∨
          f (.idx min) = none) → u (.idx d) = none := by
        intro u hu hn
        have hc : statClean d border maj min f (.idx d) = none := by simp [statClean, State.removeAll]
        simp only [intoBlocksStatSub, blocksStatClean_eq] at hu
        split at hu
        · simp at hu
        simp only [bind, Option.bind_some] at hu
        split at hu
        · rcases hn with hn | hn
          · simp only [hn, Option.some.injEq] at hu; subst hu; exact hc
          · cases hI : f (.idx maj) <;> simp only [hn, hI, Option.some.injEq] at hu <;> subst hu <;> exact hc
        · simp at hu; subst hu; exact hc
      by_cases hqM : q = maj
      · subst hqM
        simp only [if_true] at hl hx
        cases hb : isBody border p with
        | none => simp [hb] at hl
        | some c =>
          simp only [hb, hbody c hb] at hl hx
          cases c with
          | true => exact PH hg hf ht.2.1.2.2 (fun u hu => hsub u hu (.inl hi)) hl hx
          | false => simpa using hx.symm
      simp only [hqM, if_false] at hl hx
      by_cases hqm : q = min
      · subst hqm
        simp only [if_true] at hl hx
        cases hb : isBody border p with
        | none => simp [hb] at hl
        | some c =>
          simp only [hb, hbody c hb] at hl hx
          cases c with
          | false => exact PH hg hf ht.2.1.2.2 (fun u hu => hsub u hu (.inr hi)) hl hx
          | true => simpa using hx.symm
      simp only [hqm, if_false] at hl hx
      by_cases hqb : q = border
      · simp only [hqb, if_true] at hx
        by_cases h : f.has (.len border) = true
        · rw [if_pos h] at hx; simp at hx
        · rw [if_neg h] at hx; simpa using hx.symm
      simp only [hqb, if_false] at hl hx
      by_cases hq3 : q = d
      · simp [hq3] at hl
      simp only [hq3, if_false] at hl hx
      exact PH hg hf (fun h => hst' ⟨h, hq3, hqM, hqm, hqb⟩)
        (PI hi (by simp [View.dims, hqM, hqm, hq3, hqb])) hl hx
    | mergeBlocks maj min d =>
      have hst' : ¬ (s.stale q ∧ q ≠ d ∧ q ≠ maj ∧ q ≠ min) := hst
      simp only [Struct.sem, View.sem, ViewSem.toSem, mergeBlocksSem, hg.has] at hl hx
      simp only [hfn, hpn, Bool.false_eq_true, if_false] at hl hx
      by_cases hq : q = d
      · subst hq
        simp only [if_true] at hl hx
        by_cases h : p.has (.len q) = true
        · rw [if_pos h] at hx
          simp only [bind, Option.bind_eq_some_iff] at hx
          obtain ⟨_, -, _, -, hx⟩ := hx
          split at hx <;> simp at hx
          first | exact hx | exact hx.symm
        · rw [if_neg h] at hl hx
          simp only [bind, Option.bind_eq_some_iff, Option.some.injEq, Bool.and_eq_true] at hl hx
          obtain ⟨u, hu, _, h1, _, h2, rfl, rfl⟩ := hl
          obtain ⟨u', hu', c1, h1', c2, h2', rfl⟩ := hx
          have hz : u' (.idx maj) = none ∧ u' (.idx min) = none := by
            have hcM : blocksClean q maj min f (.idx maj) = none := by simp [blocksClean, State.removeAll]
            have hcm : blocksClean q maj min f (.idx min) = none := by simp [blocksClean, State.removeAll]
            simp only [mergeBlocksSub, bind, Option.bind_eq_some_iff, hi] at hu'
            obtain ⟨b1, -, b2, -, hu'⟩ := hu'
            cases b1 <;> cases b2 <;> cases hl : f (.len q) <;>
              simp only [hl, Bool.false_eq_true, ↓reduceIte, Option.some.injEq, Option.bind_eq_some_iff] at hu' <;>
              first
              | (subst hu'; simp [State.set, hcM, hcm]; done)
              | (obtain ⟨_, _, rfl⟩ := hu'; simp [State.set, hcM, hcm]; done)
          have g := sub_grow (v := .mergeBlocks maj min q) ih ht hg hf hu hu'
          have hf' := firm_sub (v := .mergeBlocks maj min q) hf hu'
          have e1 := ih.has _ _ maj c1 g hf' ht.2.1.2.2 hz.1 h1 h1'
          have e2 := ih.has _ _ min c2 g hf' ht.2.2.2.2 hz.2 h2 h2'
          simp [e1, e2]
      simp only [hq, if_false] at hl hx
      by_cases hq2 : q = min ∨ q = maj
      · simp [hq2] at hl
      simp only [hq2, if_false] at hl hx
      rw [not_or] at hq2
      exact PH hg hf (fun h => hst' ⟨h, hq, hq2.2, hq2.1⟩) (PI hi (by simp [View.dims, hq, hq2])) hl hx
    | mergeZ sl gl ds d =>
      have hst' : ¬ (q ≠ d ∧ (q ∈ ds ∨ s.stale q)) := hst
      simp only [Struct.sem, View.sem, ViewSem.toSem, mergeZSem] at hl hx
      simp only [hfn, hpn, Bool.false_eq_true, if_false] at hl hx
      by_cases hq : q = d
      · subst hq
        simp only [if_true, bind, Option.bind_eq_some_iff, Option.some.injEq] at hl hx
        obtain ⟨u, hu, bs, hbs, h1⟩ := hl
        obtain ⟨u', hu', bs', hbs', rfl⟩ := hx
        have g := sub_grow (v := .mergeZ sl gl ds q) ih ht hg hf hu hu'
        have hf' := firm_sub (v := .mergeZ sl gl ds q) hf hu'
        have hz : ∀ e ∈ ds, u' (.idx e) = none := by
          intro e he
          simp only [mergeZSub, hi, Option.some.injEq] at hu'
          subst hu'
          simp [State.removeAll, he]
        have key : ∀ e ∈ ds, ∀ c, (s.sem A).hasLen e u = some true → (s.sem A).hasLen e u' = some c → c = true :=
          fun e he c h1 h2 => ih.has _ _ e c g hf' (ht.2 e he).2.2 (hz e he) h1 h2
        clear hz hst hst' hu hu' g hf' hf hi PL PH PI ht
        induction ds generalizing bs bs' with
        | nil => simp [allSome] at hbs'; simp [hbs']
        | cons e ds ihd =>
          simp only [List.map_cons, allSome, bind, Option.bind_eq_some_iff, Option.some.injEq] at hbs hbs'
          obtain ⟨a, ha, as, has, rfl⟩ := hbs
          obtain ⟨a', ha', as', has', rfl⟩ := hbs'
          simp only [List.all_cons, id, Bool.and_eq_true] at h1 ⊢
          obtain ⟨rfl, h1⟩ := h1
          exact ⟨key e (by simp) a' ha ha', ihd as has h1 as' has' (fun e he => key e (by simp [he]))⟩
      · simp only [hq, if_false] at hl hx
        by_cases hm : q ∈ ds
        · exact absurd ⟨hq, .inl hm⟩ hst'
        · exact PH hg hf (fun h => hst' ⟨hq, .inr h⟩) (PI hi (by simp [View.dims, hq, hm])) hl hx

/-- Setting more indices does not change lengths. -/
theorem Struct.grows (A : Arith) (s : Struct) (ht : s.tame) : Grows A s := by
  induction s with
  | scalar sz al =>
    constructor
    · intro p f q l v _ _ h; simp [Struct.sem, scalarSem] at h
    · intro p f q b _ _ _ _ h; simp [Struct.sem, scalarSem] at h
  | tuple t n fs ih =>
    have hfirm : ∀ {f : State} (i : Fin n), Firm (.tuple t n fs) f → Firm (fs i) (f.remove (.idx t)) :=
      fun i h => Firm.congr (a := _) (by intro d; simp [State.remove]) (h i)
    constructor
    · intro p f q l v hg hf hl hv
      simp only [Struct.sem, tupleSem, guardLen_eq_some] at hl hv
      obtain ⟨h1, hl⟩ := hl
      obtain ⟨h2, hv⟩ := hv
      by_cases hq : q = t
      · simp only [hq, if_true, Option.some.injEq] at hl hv; exact hl.symm.trans hv
      simp only [hq, if_false, bind, Option.bind_eq_some_iff] at hl hv
      obtain ⟨S, ⟨k, hk, hS⟩, hl⟩ := hl
      obtain ⟨S', ⟨k', hk', hS'⟩, hv⟩ := hv
      have : f (.idx t) = p (.idx t) := by
        cases hp : p (.idx t) with
        | none => simp [hp, constIdx] at hk
        | some x => exact hg.idxs _ _ hp
      rw [this, hk] at hk'; cases hk'
      rw [hS] at hS'; cases hS'
      split at hS <;> simp at hS
      subst hS
      exact (ih _ (ht _)).len _ _ q l v (grow_remove hg) (hfirm _ hf) hl hv
    · intro p f q b hg hf hst hi hl hx
      simp only [Struct.sem, tupleSem] at hl hx
      by_cases hq : q = t
      · subst hq; simp [State.has, hi] at hx; first | exact hx | exact hx.symm
      simp only [hq, if_false] at hl hx
      split at hl
      rotate_left
      · simp at hl
      next h =>
      obtain ⟨x, hp⟩ := Option.isSome_iff_exists.1 h
      rw [if_pos (by simp [State.has, hg.idxs _ _ hp])] at hx
      rw [hp] at hl
      rw [hg.idxs _ _ hp] at hx
      simp only [bind, Option.bind_eq_some_iff] at hl hx
      obtain ⟨S, ⟨k, hk, hS⟩, hl⟩ := hl
      obtain ⟨S', ⟨k', hk', hS'⟩, hx⟩ := hx
      rw [hk] at hk'; cases hk'
      rw [hS] at hS'; cases hS'
      split at hS <;> simp at hS
      subst hS
      exact (ih _ (ht _)).has _ _ q b (grow_remove hg) (hfirm _ hf) (fun h => hst ⟨_, h⟩)
        (by simp [State.remove, hi]) hl hx
  | vector d s ih =>
    have hfirm : ∀ {f : State}, Firm (.vector d s) f → Firm s (f.removeAll [.idx d, .len d]) := by
      intro f h
      refine Firm.of_pat ?_ h
      lens_tac
    constructor
    · intro p f q l v hg hf hl hv
      simp only [Struct.sem, vectorSem, guardLen_eq_some] at hl hv
      by_cases hq : q = d
      · simp only [hq, if_true] at hl hv
        rw [hg.lens, hl.2] at hv
        exact Option.some.inj hv.2
      simp only [hq, if_false] at hl hv
      exact (ih ht).len _ _ q l v (grow_vector hg) (hfirm hf) hl.2 hv.2
    · intro p f q b hg hf hst hi hl hx
      simp only [Struct.sem, vectorSem] at hl hx
      by_cases hq : q = d
      · subst hq
        simp only [if_true, hg.has] at hl hx
        simp only [State.has, hi, hg.none hi] at hl hx
        simp at hl hx; simp [← hx, hl]
      · simp only [hq, if_false] at hl hx
        exact (ih ht).has _ _ q b (grow_vector hg) (hfirm hf) (fun h => hst ⟨hq, h⟩)
          (by simp [State.removeAll, hi]) hl hx
  | union n ss ih =>
    constructor
    · intro p f q l v hg hf hl hv
      simp only [Struct.sem, unionSem, guardLen_eq_some] at hl hv
      cases hm : firstMatch (fun i => (ss i).sem A) q with
      | none => simp [hm] at hl
      | some i =>
        simp only [hm] at hl hv
        exact (ih i (ht i)).len _ _ q l v hg (hf i) hl.2 hv.2
    · intro p f q b hg hf hst hi hl hx
      simp only [Struct.sem, unionSem] at hl hx
      cases hm : firstMatch (fun i => (ss i).sem A) q with
      | none => simp [hm] at hl
      | some i =>
        simp only [hm] at hl hx
        exact (ih i (ht i)).has _ _ q b hg (hf i) (fun h => hst ⟨_, h⟩) hi hl hx
  | view v s ih => exact grows_view v (ih ht.1) ht

end Noarr
