import Verif.Depend

/-
Lengths depend only on the indices named in `Verif/Depend.lean`.
-/

set_option linter.unusedVariables false
set_option linter.unusedSimpArgs false

namespace Noarr

/-- what the induction hypothesis says about a structure -/
def LD (A : Arith) (s : Struct) : Prop :=
  ∀ q st st', Rel s q st st' →
    Le ((s.sem A).hasLen q st) ((s.sem A).hasLen q st') ∧
    Le ((s.sem A).len q st) ((s.sem A).len q st')

theorem Rel.iff {s : Struct} {q : Dim} {st st' : State} (h : Rel s q st st') :
    st.has (.idx q) = st'.has (.idx q) := by
  have h1 := h.fewer q
  have h2 := h.here
  unfold State.has
  cases h3 : st (.idx q) <;> cases h4 : st' (.idx q) <;> simp_all

theorem ld_union (A : Arith) (n : Nat) (ss : Fin n → Struct)
    (ih : ∀ i, LD A (ss i)) : LD A (.union n ss) := by
  intro q st st' h
  have hrel : ∀ i, Rel (ss i) q st st' := fun i =>
    ⟨h.lens, h.fewer, h.here, fun e he => h.hard e ⟨i, he⟩,
      fun hs e he => h.soft ⟨i, hs⟩ e ⟨i, he⟩, fun hs e => h.stale ⟨i, hs⟩ e⟩
  have h1 : Le ((Struct.union n ss).sem A |>.hasLen q st)
      ((Struct.union n ss).sem A |>.hasLen q st') := by
    simp only [Struct.sem, unionSem]
    split
    · exact (ih _ q _ _ (hrel _)).1
    · exact Le.refl _
  refine ⟨h1, Le.guard h1 fun _ => ?_⟩
  split
  · exact (ih _ q _ _ (hrel _)).2
  · exact Le.refl _

theorem ld_tuple (A : Arith) (t : Dim) (n : Nat) (fs : Fin n → Struct)
    (ih : ∀ i, LD A (fs i)) : LD A (.tuple t n fs) := by
  intro q st st' h
  have ht := h.hard t (Or.inl rfl)
  have hh : st.has (.idx t) = st'.has (.idx t) := by simp [State.has, ht]
  have hrel : ∀ i, Rel (fs i) q (st.remove (.idx t)) (st'.remove (.idx t)) := by
    intro i
    constructor
    · intro d; simpa [State.remove] using h.lens d
    · intro e; have := h.fewer e; simp only [State.remove]; grind
    · have := h.here; simp only [State.remove]; grind
    · intro e he; have := h.hard e (Or.inr ⟨i, he⟩); simp only [State.remove]; grind
    · intro hs e he
      have := h.soft ⟨i, hs⟩ e ⟨i, he⟩; simp only [State.remove]; grind
    · intro hs e; have := h.stale ⟨i, hs⟩ e; simp only [State.remove]; grind
  by_cases hqt : q = t
  · subst hqt
    constructor
    · simp [Struct.sem, tupleSem, hh, Le.refl]
    · simp [Struct.sem, tupleSem, hh, Le.refl]
  · have h1 : Le ((Struct.tuple t n fs).sem A |>.hasLen q st)
        ((Struct.tuple t n fs).sem A |>.hasLen q st') := by
      simp only [Struct.sem, tupleSem, hqt, ↓reduceIte, hh, ht]
      split
      · apply Le.bind (Le.refl _)
        intro S hS
        simp only [bind, Option.bind_eq_some_iff] at hS
        obtain ⟨k, -, hk⟩ := hS
        by_cases hkn : k < n
        · simp [hkn] at hk
          subst hk
          exact (ih _ q _ _ (hrel _)).1
        · simp [hkn] at hk
      · exact Le.refl _
    refine ⟨h1, Le.guard h1 fun _ => ?_⟩
    simp only [hqt, ↓reduceIte, ht]
    apply Le.bind (Le.refl _)
    intro S hS
    simp only [bind, Option.bind_eq_some_iff] at hS
    obtain ⟨k, -, hk⟩ := hS
    by_cases hkn : k < n
    · simp [hkn] at hk
      subst hk
      exact (ih _ q _ _ (hrel _)).2
    · simp [hkn] at hk

theorem ld_vector (A : Arith) (d : Dim) (s : Struct) (ih : LD A s) : LD A (.vector d s) := by
  intro q st st' h
  have hq := h.iff
  by_cases hqd : q = d
  · subst hqd
    have h1 := h.lens q
    have hl : st.has (.len q) = st'.has (.len q) := by simp [State.has, h1]
    constructor <;> simp [Struct.sem, vectorSem, hl, h1, hq, Le.refl]
  · have hrel : Rel s q (st.removeAll [.idx d, .len d]) (st'.removeAll [.idx d, .len d]) := by
      constructor
      · intro e; have := h.lens e; simp only [State.removeAll]; grind
      · intro e; have := h.fewer e; simp only [State.removeAll]; grind
      · have := h.here; simp only [State.removeAll]; grind
      · intro e he; have := h.hard e
        simp only [State.removeAll]; simp only [Struct.hard] at this; grind
      · intro hs e he
        have := h.soft ⟨hqd, hs⟩ e
        simp only [State.removeAll]; simp only [Struct.drive] at this; grind
      · intro hs e; have := h.stale ⟨hqd, hs⟩ e; simp only [State.removeAll]; grind
    have h1 : Le ((Struct.vector d s).sem A |>.hasLen q st)
        ((Struct.vector d s).sem A |>.hasLen q st') := by
      simp only [Struct.sem, vectorSem, hqd, ↓reduceIte]
      exact (ih q _ _ hrel).1
    refine ⟨h1, Le.guard h1 fun _ => ?_⟩
    simp only [hqd, ↓reduceIte]
    exact (ih q _ _ hrel).2

/-- proves `Rel` for states built by the map operations, from `Rel` for the given states -/
macro "rel_tac" h:ident : tactic => `(tactic| (
  have rlens := ($h).lens
  have rfewer := ($h).fewer
  have rhere := ($h).here
  have rhard := ($h).hard
  have rsoft := ($h).soft
  have rstale := ($h).stale
  clear $h
  try simp only [Struct.hard, Struct.soft, Struct.drive, Struct.stale, View.hard, View.soft,
    View.drive, View.stale] at rhard rsoft rstale
  constructor <;> intros <;>
  simp only [State.removeAll, State.set, State.mapAt,
    State.remove, List.mem_cons, List.not_mem_nil, or_false, Tag.idx.injEq, Tag.len.injEq,
    reduceCtorEq, false_or, or_self, if_false] at * <;> grind [Option.map_eq_none_iff]))

theorem ld_bcast (A : Arith) (d : Dim) (s : Struct) (ih : LD A s) : LD A (.view (.bcast d) s) := by
  intro q st st' h
  have hq := h.iff
  by_cases hqd : q = d
  · subst hqd
    have h1 := h.lens q
    have hl : st.has (.len q) = st'.has (.len q) := by simp [State.has, h1]
    constructor <;> simp [Struct.sem, View.sem, ViewSem.toSem, bcastSem, hl, h1, hq, Le.refl]
  · have hrel : Rel s q (st.removeAll [.idx d, .len d]) (st'.removeAll [.idx d, .len d]) := by
      rel_tac h
    have h1 : Le (((Struct.view (.bcast d) s).sem A).hasLen q st)
        (((Struct.view (.bcast d) s).sem A).hasLen q st') := by
      simp only [Struct.sem, View.sem, ViewSem.toSem, bcastSem, hqd, ↓reduceIte]
      exact (ih q _ _ hrel).1
    refine ⟨h1, Le.guard h1 fun _ => ?_⟩
    simp only [hqd, ↓reduceIte]
    exact (ih q _ _ hrel).2

theorem ld_fix (A : Arith) (d : Dim) (i : Val) (s : Struct) (ih : LD A s) :
    LD A (.view (.fix d i) s) := by
  intro q st st' h
  by_cases hqd : q = d
  · subst hqd
    constructor <;> simp [Struct.sem, View.sem, ViewSem.toSem, fixSem, guardLen, Le.refl]
  · have hrel : Rel s q ((st.remove (.len d)).set (.idx d) i)
        ((st'.remove (.len d)).set (.idx d) i) := by
      rel_tac h
    have h1 : Le (((Struct.view (.fix d i) s).sem A).hasLen q st)
        (((Struct.view (.fix d i) s).sem A).hasLen q st') := by
      simp only [Struct.sem, View.sem, ViewSem.toSem, fixSem, hqd, ↓reduceIte]
      exact (ih q _ _ hrel).1
    exact ⟨h1, Le.guard h1 fun _ => (ih q _ _ hrel).2⟩

theorem ld_setLength (A : Arith) (d : Dim) (l : Val) (s : Struct) (ih : LD A s) :
    LD A (.view (.setLength d l) s) := by
  intro q st st' h
  have hrel : Rel s q (st.set (.len d) l) (st'.set (.len d) l) := by rel_tac h
  exact ⟨(ih q _ _ hrel).1, Le.guard (ih q _ _ hrel).1 fun _ => (ih q _ _ hrel).2⟩

theorem ld_shift (A : Arith) (d : Dim) (a : Val) (s : Struct) (ih : LD A s) :
    LD A (.view (.shift d a) s) := by
  intro q st st' h
  have hrel : Rel s q ((st.mapAt (.idx d) (·.add A a)).mapAt (.len d) (·.add A a))
      ((st'.mapAt (.idx d) (·.add A a)).mapAt (.len d) (·.add A a)) := by
    rel_tac h
  have hl := h.lens d
  have hl' : st.has (.len d) = st'.has (.len d) := by simp [State.has, hl]
  have h1 : Le (((Struct.view (.shift d a) s).sem A).hasLen q st)
      (((Struct.view (.shift d a) s).sem A).hasLen q st') := by
    simp only [Struct.sem, View.sem, ViewSem.toSem, shiftSem, hl']
    split
    · subst_vars
      split
      · exact Le.refl _
      · exact (ih _ _ _ hrel).1
    · exact (ih q _ _ hrel).1
  refine ⟨h1, Le.guard h1 fun _ => ?_⟩
  simp only [hl]
  split
  · subst_vars
    cases st' (.len q) with
    | some l => exact Le.refl _
    | none => exact Le.bind (ih _ _ _ hrel).2 fun _ _ => Le.refl _
  · exact (ih q _ _ hrel).2

theorem ld_slice (A : Arith) (d : Dim) (a n : Val) (s : Struct) (ih : LD A s) :
    LD A (.view (.slice d a n) s) := by
  intro q st st' h
  have hrel : Rel s q (st.mapAt (.idx d) (·.add A a)) (st'.mapAt (.idx d) (·.add A a)) := by
    rel_tac h
  refine ⟨(ih q _ _ hrel).1, Le.guard (ih q _ _ hrel).1 fun _ => ?_⟩
  dsimp only
  split
  · exact Le.refl _
  · exact (ih q _ _ hrel).2

theorem ld_span (A : Arith) (d : Dim) (a n : Val) (s : Struct) (ih : LD A s) :
    LD A (.view (.span d a n) s) := by
  intro q st st' h
  have hrel : Rel s q (st.mapAt (.idx d) (·.add A a)) (st'.mapAt (.idx d) (·.add A a)) := by
    rel_tac h
  refine ⟨(ih q _ _ hrel).1, Le.guard (ih q _ _ hrel).1 fun _ => ?_⟩
  dsimp only
  split
  · exact Le.refl _
  · exact (ih q _ _ hrel).2

theorem ld_step (A : Arith) (d : Dim) (a k : Val) (s : Struct) (ih : LD A s) :
    LD A (.view (.step d a k) s) := by
  intro q st st' h
  have hrel : Rel s q (st.mapAt (.idx d) (fun i => (i.mul A k).add A a))
      (st'.mapAt (.idx d) (fun i => (i.mul A k).add A a)) := by
    rel_tac h
  have hrel' : Rel s q st st' := ⟨h.lens, h.fewer, h.here, h.hard, h.soft, h.stale⟩
  refine ⟨(ih q _ _ hrel).1, Le.guard (ih q _ _ hrel).1 fun _ => ?_⟩
  dsimp only
  split
  · subst_vars
    exact Le.bind (ih _ _ _ hrel').2 fun _ _ => Le.refl _
  · exact (ih q _ _ hrel).2

theorem ld_reorder (A : Arith) (ds : List Dim) (s : Struct) (ih : LD A s) :
    LD A (.view (.reorder ds) s) := by
  intro q st st' h
  have hrel' : Rel s q st st' := ⟨h.lens, h.fewer, h.here, h.hard, h.soft, h.stale⟩
  have h1 : Le (((Struct.view (.reorder ds) s).sem A).hasLen q st)
      (((Struct.view (.reorder ds) s).sem A).hasLen q st') := by
    simp only [Struct.sem, View.sem, ViewSem.toSem, reorderSem]
    split
    · exact (ih _ _ _ hrel').1
    · exact Le.refl _
  exact ⟨h1, Le.guard h1 fun _ => (ih q _ _ hrel').2⟩

theorem ld_hoist (A : Arith) (d : Dim) (s : Struct) (ih : LD A s) :
    LD A (.view (.hoist d) s) := by
  intro q st st' h
  have hrel' : Rel s q st st' := ⟨h.lens, h.fewer, h.here, h.hard, h.soft, h.stale⟩
  exact ⟨(ih q _ _ hrel').1, Le.guard (ih q _ _ hrel').1 fun _ => (ih q _ _ hrel').2⟩

/-- The translated states of `reverse`. -/
theorem rel_reverse {A : Arith} {d : Dim} {s : Struct} (ih : LD A s) (hd : ¬ s.soft d)
    (hd' : ¬ s.stale d) {q : Dim} {st st' u : State} (h : Rel (.view (.reverse d) s) q st st')
    (hu : (reverseSem A d (s.sem A)).sub st = some u) :
    ∃ u', (reverseSem A d (s.sem A)).sub st' = some u' ∧ Rel s q u u' := by
  have hrel0 : Rel s d (st.remove (.idx d)) (st'.remove (.idx d)) := by rel_tac h
  have h1 := (ih _ _ _ hrel0).1
  have h2 := (ih _ _ _ hrel0).2
  simp only [reverseSem] at hu ⊢
  cases hi : st (.idx d) with
  | none =>
    have hi' := h.fewer d hi
    simp only [hi, hi'] at hu ⊢
    cases hu
    exact ⟨_, rfl, ⟨h.lens, h.fewer, h.here, h.hard, h.soft, h.stale⟩⟩
  | some i =>
    simp only [hi] at hu
    cases hb : (s.sem A).hasLen d (st.remove (.idx d)) with
    | none => simp [hb] at hu
    | some b =>
      simp only [hb, bind, Option.bind_eq_some_iff] at hu
      have hb' := h1 _ hb
      cases b with
      | false =>
        cases hu
        cases hi' : st' (.idx d) with
        | none =>
          refine ⟨_, rfl, ?_⟩
          rel_tac h
        | some i' =>
          simp only [hb']
          refine ⟨_, rfl, ?_⟩
          rel_tac h
      | true =>
        simp only [Option.bind_eq_some_iff] at hu
        obtain ⟨l, hl, hu⟩ := hu
        cases hu
        have hl' := h2 _ hl
        cases hi' : st' (.idx d) with
        | none =>
          refine ⟨_, rfl, ?_⟩
          rel_tac h
        | some i' =>
          simp only [hb', hl', bind, Option.bind]
          refine ⟨_, rfl, ?_⟩
          rel_tac h

theorem ld_reverse (A : Arith) (d : Dim) (s : Struct) (ih : LD A s) (hd : ¬ s.soft d)
    (hd' : ¬ s.stale d) : LD A (.view (.reverse d) s) := by
  intro q st st' h
  have h1 : Le (((Struct.view (.reverse d) s).sem A).hasLen q st)
      (((Struct.view (.reverse d) s).sem A).hasLen q st') := by
    intro b hb
    simp only [Struct.sem, View.sem, ViewSem.toSem] at hb ⊢
    have hb : ((reverseSem A d (s.sem A)).sub st).bind ((s.sem A).hasLen q) = some b := hb
    rw [Option.bind_eq_some_iff] at hb
    obtain ⟨u, hu, hb⟩ := hb
    obtain ⟨u', hu', hr⟩ := rel_reverse ih hd hd' h hu
    show ((reverseSem A d (s.sem A)).sub st').bind ((s.sem A).hasLen q) = some b
    rw [hu']
    exact (ih _ _ _ hr).1 _ hb
  have hrel' : Rel s q st st' := ⟨h.lens, h.fewer, h.here, h.hard, h.soft, h.stale⟩
  exact ⟨h1, Le.guard h1 fun _ => (ih q _ _ hrel').2⟩

theorem rel_rename {ps : List (Dim × Dim)} {s : Struct} (h1 : (ps.map Prod.fst).Nodup)
    (h2 : (ps.map Prod.snd).Nodup) {q : Dim} {st st' : State}
    (h : Rel (.view (.rename ps) s) q st st') :
    Rel s (Sig.renameDim (ps.map Prod.swap) q) (renameState ps st) (renameState ps st') := by
  have hk := renameDim_swap_keep h2 q
  have hb := renameDim_swap' h1 h2 q
  constructor
  · intro d; simp only [renameState_len, h.lens]
  · intro e; simp only [renameState_idx]
    split
    · exact h.fewer _
    · exact id
  · simp only [renameState_idx, if_pos hk]
    by_cases hq : q ∈ ps.map Prod.fst ∧ q ∉ ps.map Prod.snd
    · exact h.stale (Or.inl hq) _
    · rw [hb hq]; exact h.here
  · intro e he
    simp only [renameState_idx]
    split
    · next hc => exact h.hard _ ⟨e, he, hc, rfl⟩
    · rfl
  · intro hs e he
    have hsq : (Struct.view (.rename ps) s).soft q := by
      by_cases hq : q ∈ ps.map Prod.fst ∧ q ∉ ps.map Prod.snd
      · right
        refine ⟨hq.1, hq.2, ?_⟩
        rwa [renameDim_of_not_mem (by rw [map_swap_fst]; exact hq.2)] at hs
      · exact Or.inl ⟨_, hs, hk, hb hq⟩
    simp only [renameState_idx]
    split
    · next hc => exact h.soft hsq _ ⟨e, he, hc, rfl⟩
    · rfl
  · intro hs e
    have hsq : (Struct.view (.rename ps) s).stale q := by
      by_cases hq : q ∈ ps.map Prod.fst ∧ q ∉ ps.map Prod.snd
      · exact Or.inl hq
      · exact Or.inr ⟨_, hs, hk, hb hq⟩
    simp only [renameState_idx]
    split
    · exact h.stale hsq _
    · exact id

theorem ld_rename (A : Arith) (ps : List (Dim × Dim)) (s : Struct) (ih : LD A s)
    (h1 : (ps.map Prod.fst).Nodup) (h2 : (ps.map Prod.snd).Nodup) :
    LD A (.view (.rename ps) s) := by
  intro q st st' h
  have hr := rel_rename h1 h2 h
  exact ⟨(ih _ _ _ hr).1, Le.guard (ih _ _ _ hr).1 fun _ => (ih _ _ _ hr).2⟩

/-- the state without the dimensions of `join` -/
def joinClean (a b d : Dim) (st : State) : State :=
  st.removeAll [.idx d, .idx a, .idx b, .len d, .len a, .len b]

/-- `join` in the cases of its definition -/
theorem join_sub_eq_some {a b d : Dim} {S : Sem} {st u : State}
    (h : (joinSem a b d S).sub st = some u) :
    ∃ x, S.hasLen a (joinClean a b d st) = some x ∧ S.hasLen b (joinClean a b d st) = some x ∧
      ((∃ l, st (.len d) = some l ∧ x = false ∧
          u = (((match st (.idx d) with
            | some i => ((joinClean a b d st).set (.idx a) i).set (.idx b) i
            | none => joinClean a b d st).set (.len a) l).set (.len b) l)) ∨
        (st (.len d) = none ∧ u = (match st (.idx d) with
            | some i => ((joinClean a b d st).set (.idx a) i).set (.idx b) i
            | none => joinClean a b d st))) := by
  simp only [joinSem, bind, Option.bind_eq_some_iff] at h
  obtain ⟨ha, h1, hb, h2, h⟩ := h
  by_cases hab : ha = hb
  · subst hab
    simp only [bne_self_eq_false, Bool.false_eq_true, ↓reduceIte] at h
    refine ⟨ha, h1, h2, ?_⟩
    cases hl : st (.len d) with
    | none =>
      right
      simp only [hl, Option.some.injEq] at h
      exact ⟨rfl, h.symm⟩
    | some l =>
      left
      cases ha with
      | true => simp [hl] at h
      | false =>
        simp only [hl, Bool.or_self, Bool.false_eq_true, ↓reduceIte, Option.some.injEq] at h
        exact ⟨l, rfl, rfl, h.symm⟩
  · simp [bne_iff_ne, hab] at h

theorem join_sub_of {a b d : Dim} {S : Sem} {st u : State} {x : Bool}
    (h1 : S.hasLen a (joinClean a b d st) = some x) (h2 : S.hasLen b (joinClean a b d st) = some x)
    (h : ((∃ l, st (.len d) = some l ∧ x = false ∧
          u = (((match st (.idx d) with
            | some i => ((joinClean a b d st).set (.idx a) i).set (.idx b) i
            | none => joinClean a b d st).set (.len a) l).set (.len b) l)) ∨
        (st (.len d) = none ∧ u = (match st (.idx d) with
            | some i => ((joinClean a b d st).set (.idx a) i).set (.idx b) i
            | none => joinClean a b d st)))) :
    (joinSem a b d S).sub st = some u := by
  unfold joinClean at h1 h2 h
  simp only [joinSem, bind, h1, h2, Option.bind_some, bne_self_eq_false, Bool.false_eq_true,
    ↓reduceIte]
  rcases h with ⟨l, hl, rfl, rfl⟩ | ⟨hl, rfl⟩
  · simp only [hl, Bool.or_self, Bool.false_eq_true, ↓reduceIte]
    cases st (.idx d) <;> rfl
  · simp only [hl]
    cases st (.idx d) <;> rfl

theorem rel_join {A : Arith} {a b d : Dim} {s : Struct} (ih : LD A s) (pa : s.plain a)
    (pb : s.plain b) {q : Dim} {st st' u : State} (h : Rel (.view (.join a b d) s) q st st')
    (hu : (joinSem a b d (s.sem A)).sub st = some u) :
    ∃ u', (joinSem a b d (s.sem A)).sub st' = some u' ∧ Rel s q u u' := by
  obtain ⟨pa1, pa2, pa3⟩ := pa
  obtain ⟨pb1, pb2, pb3⟩ := pb
  have hra : Rel s a (joinClean a b d st) (joinClean a b d st') := by
    unfold joinClean; rel_tac h
  have hrb : Rel s b (joinClean a b d st) (joinClean a b d st') := by
    unfold joinClean; rel_tac h
  have hl := h.lens d
  obtain ⟨x, h1, h2, h3⟩ := join_sub_eq_some hu
  refine ⟨_, join_sub_of ((ih _ _ _ hra).1 _ h1) ((ih _ _ _ hrb).1 _ h2)
    (u := (match st' (.len d) with
      | some l => (((match st' (.idx d) with
            | some i => ((joinClean a b d st').set (.idx a) i).set (.idx b) i
            | none => joinClean a b d st').set (.len a) l).set (.len b) l)
      | none => (match st' (.idx d) with
            | some i => ((joinClean a b d st').set (.idx a) i).set (.idx b) i
            | none => joinClean a b d st'))) ?_, ?_⟩
  · rcases h3 with ⟨l, hl', hx, -⟩ | ⟨hl', -⟩
    · left; rw [hl'] at hl; exact ⟨l, hl.symm, hx, by rw [← hl]⟩
    · right; rw [hl'] at hl; exact ⟨hl.symm, by rw [← hl]⟩
  · clear hra hrb h1 h2 hu
    rcases h3 with ⟨l, hl', hx, rfl⟩ | ⟨hl', rfl⟩
    · rw [← hl, hl']
      dsimp only
      cases hi : st (.idx d) with
      | none =>
        have hi' := h.fewer d hi
        rw [hi']
        dsimp only
        unfold joinClean
        rel_tac h
      | some i =>
        cases hi' : st' (.idx d) with
        | none => dsimp only; unfold joinClean; rel_tac h
        | some i' => dsimp only; unfold joinClean; rel_tac h
    · rw [← hl, hl']
      dsimp only
      cases hi : st (.idx d) with
      | none =>
        have hi' := h.fewer d hi
        rw [hi']
        dsimp only
        unfold joinClean
        rel_tac h
      | some i =>
        cases hi' : st' (.idx d) with
        | none => dsimp only; unfold joinClean; rel_tac h
        | some i' => dsimp only; unfold joinClean; rel_tac h

/-- A query that is passed on with the translated state. -/
theorem Le.sub {α : Type} {V : ViewSem} {s : Struct} {q : Dim} {st st' : State}
    {f : State → Option α}
    (hr : ∀ u, V.sub st = some u → ∃ u', V.sub st' = some u' ∧ Rel s q u u')
    (hf : ∀ u u', Rel s q u u' → Le (f u) (f u')) : Le ((V.sub st).bind f) ((V.sub st').bind f) := by
  intro x hx
  rw [Option.bind_eq_some_iff] at hx ⊢
  obtain ⟨u, hu, hx⟩ := hx
  obtain ⟨u', hu', hr⟩ := hr u hu
  exact ⟨u', hu', hf u u' hr x hx⟩

theorem ld_join (A : Arith) (a b d : Dim) (s : Struct) (ih : LD A s) (pa : s.plain a)
    (pb : s.plain b) : LD A (.view (.join a b d) s) := by
  intro q st st' h
  have hr := fun u hu => rel_join (u := u) ih pa pb h hu
  have h1 : Le (((Struct.view (.join a b d) s).sem A).hasLen q st)
      (((Struct.view (.join a b d) s).sem A).hasLen q st') :=
    Le.sub (V := joinSem a b d (s.sem A)) hr fun u u' h => (ih _ _ _ h).1
  exact ⟨h1, Le.guard h1 fun _ =>
    Le.sub (V := joinSem a b d (s.sem A)) hr fun u u' h => (ih _ _ _ h).2⟩

/-- Cleaned states of `into_blocks` are related for queries of the blocked dimension. -/
theorem rel_ib_clean {d maj min : Dim} {s : Struct} (pd : s.plain d) (hM : ¬ s.hard maj)
    (hm : ¬ s.hard min) {q : Dim} {st st' : State}
    (h : Rel (.view (.intoBlocks d maj min) s) q st st') :
    Rel s d (blocksClean d maj min st) (blocksClean d maj min st') := by
  obtain ⟨p1, p2, p3⟩ := pd
  unfold blocksClean
  rel_tac h

theorem rel_ib {A : Arith} {d maj min : Dim} {s : Struct} (ih : LD A s) (pd : s.plain d)
    (hM : ¬ s.hard maj) (hm : ¬ s.hard min) {q : Dim} (h1 : q ≠ d) (h2 : q ≠ maj) (h3 : q ≠ min)
    {st st' u : State} (h : Rel (.view (.intoBlocks d maj min) s) q st st')
    (hu : intoBlocksSub A d maj min (s.sem A) st = some u) :
    ∃ u', intoBlocksSub A d maj min (s.sem A) st' = some u' ∧ Rel s q u u' := by
  have hc := rel_ib_clean pd hM hm h
  have hl := (ih _ _ _ hc).1
  have hn := (ih _ _ _ hc).2
  obtain ⟨p1, p2, p3⟩ := pd
  clear hc ih
  simp only [intoBlocksSub, ← h.lens] at hu ⊢
  cases hnl : st (.len min) with
  | some nl =>
    simp only [hnl] at hu ⊢
    cases hi : st (.idx maj) with
    | none =>
      have hi' := h.fewer _ hi
      simp only [hi, hi', Option.some.injEq] at hu ⊢
      subst hu
      refine ⟨_, rfl, ?_⟩
      cases st (.len maj) <;> dsimp only <;> unfold blocksClean <;> rel_tac h
    | some i =>
      cases hj : st (.idx min) with
      | none =>
        have hj' := h.fewer _ hj
        simp only [hi, hj, hj', Option.some.injEq] at hu ⊢
        subst hu
        cases hi' : st' (.idx maj) <;> refine ⟨_, rfl, ?_⟩ <;>
          cases st (.len maj) <;> dsimp only <;> unfold blocksClean <;> rel_tac h
      | some j =>
        simp only [hi, hj, Option.some.injEq] at hu
        subst hu
        cases hi' : st' (.idx maj) with
        | none =>
          refine ⟨_, rfl, ?_⟩
          cases st (.len maj) <;> dsimp only <;> unfold blocksClean <;> rel_tac h
        | some i' =>
          cases hj' : st' (.idx min) with
          | none =>
            refine ⟨_, rfl, ?_⟩
            cases st (.len maj) <;> dsimp only <;> unfold blocksClean <;> rel_tac h
          | some j' =>
            refine ⟨_, rfl, ?_⟩
            cases st (.len maj) <;> dsimp only <;> unfold blocksClean <;> rel_tac h
  | none =>
    simp only [hnl] at hu ⊢
    cases hb : (s.sem A).hasLen d (blocksClean d maj min st) with
    | none => simp [hb] at hu
    | some b =>
      have hb' := hl _ hb
      clear hl
      simp only [hb, hb'] at hu ⊢
      cases b with
      | false =>
        cases hu
        refine ⟨_, rfl, ?_⟩
        clear hb hb' hn
        unfold blocksClean; rel_tac h
      | true =>
        dsimp only at hu ⊢
        cases hml : st (.len maj) with
        | none =>
          simp only [hml] at hu ⊢
          cases hu
          refine ⟨_, rfl, ?_⟩
          clear hb hb' hn
          unfold blocksClean; rel_tac h
        | some ml =>
          cases hi : st (.idx maj) with
          | none =>
            have hi' := h.fewer _ hi
            simp only [hml, hi, hi', Option.some.injEq] at hu ⊢
            subst hu
            refine ⟨_, rfl, ?_⟩
            clear hb hb' hn
            unfold blocksClean; rel_tac h
          | some i =>
            cases hj : st (.idx min) with
            | none =>
              have hj' := h.fewer _ hj
              simp only [hml, hi, hj, hj', Option.some.injEq] at hu ⊢
              subst hu
              clear hb hb' hn
              cases hi' : st' (.idx maj) <;> refine ⟨_, rfl, ?_⟩ <;>
                unfold blocksClean <;> rel_tac h
            | some j =>
              simp only [hml, hi, hj, bind, Option.bind_eq_some_iff, Option.some.injEq] at hu
              obtain ⟨l, hll, hu⟩ := hu
              subst hu
              have hll' := hn _ hll
              cases hi' : st' (.idx maj) with
              | none =>
                refine ⟨_, rfl, ?_⟩
                clear hb hb' hn hll hll'
                unfold blocksClean; rel_tac h
              | some i' =>
                cases hj' : st' (.idx min) with
                | none =>
                  refine ⟨_, rfl, ?_⟩
                  clear hb hb' hn hll hll'
                  unfold blocksClean; rel_tac h
                | some j' =>
                  simp only [hll', bind, Option.bind_some]
                  refine ⟨_, rfl, ?_⟩
                  clear hb hb' hn hll hll'
                  unfold blocksClean; rel_tac h

/-- Without one of the two block indices, `into_blocks` passes on no index. -/
theorem intoBlocksSub_noidx {A : Arith} {d maj min : Dim} {S : Sem} {st : State}
    (hx : st (.idx maj) = none ∨ st (.idx min) = none) :
    intoBlocksSub A d maj min S st =
      match st (.len min) with
      | some nl => some (match st (.len maj) with
        | some ml => (blocksClean d maj min st).set (.len d) (ml.mul A nl)
        | none => blocksClean d maj min st)
      | none => match S.hasLen d (blocksClean d maj min st) with
        | none => none
        | some _ => some (blocksClean d maj min st) := by
  simp only [intoBlocksSub]
  rcases hx with hx | hx <;> simp only [hx]
  · cases st (.len min) with
    | some nl => rfl
    | none =>
      cases S.hasLen d (blocksClean d maj min st) with
      | none => rfl
      | some b => cases b <;> cases st (.len maj) <;> rfl
  · cases st (.len min) with
    | some nl => cases st (.idx maj) <;> rfl
    | none =>
      cases S.hasLen d (blocksClean d maj min st) with
      | none => rfl
      | some b => cases b <;> cases st (.len maj) <;> cases st (.idx maj) <;> rfl

theorem rel_ib_noidx {A : Arith} {d maj min : Dim} {s : Struct} (ih : LD A s) (pd : s.plain d)
    (hM : ¬ s.hard maj) (hm : ¬ s.hard min) {q : Dim} {st st' : State}
    (h : Rel (.view (.intoBlocks d maj min) s) q st st')
    (hx : st (.idx maj) = none ∨ st (.idx min) = none) {u : State}
    (hu : intoBlocksSub A d maj min (s.sem A) st = some u) :
    ∃ u', intoBlocksSub A d maj min (s.sem A) st' = some u' ∧ Rel s d u u' := by
  have hc := rel_ib_clean pd hM hm h
  have hx' : st' (.idx maj) = none ∨ st' (.idx min) = none := hx.imp (h.fewer _) (h.fewer _)
  rw [intoBlocksSub_noidx hx] at hu
  rw [intoBlocksSub_noidx hx']
  simp only [← h.lens]
  cases hn : st (.len min) with
  | some nl =>
    simp only [hn, Option.some.injEq] at hu ⊢
    subst hu
    refine ⟨_, rfl, ?_⟩
    cases st (.len maj) with
    | none => exact hc
    | some ml => dsimp only; rel_tac hc
  | none =>
    simp only [hn] at hu ⊢
    cases hb : (s.sem A).hasLen d (blocksClean d maj min st) with
    | none => simp [hb] at hu
    | some b =>
      simp only [hb, Option.some.injEq] at hu
      subst hu
      simp only [(ih _ _ _ hc).1 _ hb]
      exact ⟨_, rfl, hc⟩

/-- the test in `has_length` of the block views, when both block lengths are given -/
def onFalse (a : Option Bool) : Option Bool :=
  match a with
  | some false => some true
  | _ => none

theorem Le.both {a b : Option Bool} (h : Le a b) : Le (onFalse a) (onFalse b) := by
  intro x hx
  cases a with
  | none => simp [onFalse] at hx
  | some y => rwa [h _ rfl]

theorem ld_ib (A : Arith) (d maj min : Dim) (s : Struct) (ih : LD A s) (pd : s.plain d)
    (hM : ¬ s.hard maj) (hm : ¬ s.hard min) : LD A (.view (.intoBlocks d maj min) s) := by
  intro q st st' h
  have hc := rel_ib_clean pd hM hm h
  have hlen : ∀ x, st.has (.len x) = st'.has (.len x) := fun x => by simp [State.has, h.lens]
  have hq := h.iff
  have hno := @rel_ib_noidx A d maj min s ih pd hM hm q st st' h
  have h1 : Le (((Struct.view (.intoBlocks d maj min) s).sem A).hasLen q st)
      (((Struct.view (.intoBlocks d maj min) s).sem A).hasLen q st') := by
    simp only [Struct.sem, View.sem, ViewSem.toSem, intoBlocksSem, ← hlen]
    split
    · subst q
      rw [← hq]
      split
      · exact Le.refl _
      · next hx =>
        have hx : st (.idx min) = none := by simpa [State.has] using hx
        split
        · split
          · exact Le.both (ih _ _ _ hc).1
          · exact Le.refl _
        · split
          · exact Le.sub (V := intoBlocksSem A d maj min (s.sem A)) (fun u hu => hno (Or.inr hx) hu)
              fun u u' h => (ih _ _ _ h).1
          · exact Le.refl _
    · split
      · subst q
        rw [← hq]
        split
        · exact Le.refl _
        · next hx =>
          have hx : st (.idx maj) = none := by simpa [State.has] using hx
          split
          · split
            · exact Le.both (ih _ _ _ hc).1
            · exact Le.refl _
          · split
            · exact Le.sub (V := intoBlocksSem A d maj min (s.sem A))
                (fun u hu => hno (Or.inl hx) hu) fun u u' h => (ih _ _ _ h).1
            · exact Le.refl _
      · split
        · exact Le.refl _
        · next hx1 hx2 hx3 =>
          exact Le.sub (V := intoBlocksSem A d maj min (s.sem A))
            (fun u hu => rel_ib ih pd hM hm hx3 hx2 hx1 h hu) fun u u' h => (ih _ _ _ h).1
  refine ⟨h1, Le.guard h1 fun htrue => ?_⟩
  simp only [← h.lens]
  split
  · cases st (.len min) with
    | some l => exact Le.refl _
    | none =>
      refine Le.bind (Le.refl _) fun _ _ => Le.bind (ih _ _ _ hc).2 fun _ _ => Le.refl _
  · split
    · subst q
      next hx1 =>
      have hx : st (.idx maj) = none := by
        cases hx : st (.idx maj) with
        | none => rfl
        | some i =>
          simp [Struct.sem, View.sem, ViewSem.toSem, intoBlocksSem, State.has, hx, hx1] at htrue
      cases st (.len maj) with
      | some l => exact Le.refl _
      | none =>
        refine Le.bind (Le.refl _) fun _ _ => ?_
        exact Le.sub (V := intoBlocksSem A d maj min (s.sem A))
            (fun u hu => hno (Or.inl hx) hu)
            fun u u' h => Le.bind (ih _ _ _ h).2 fun _ _ => Le.refl _
    · by_cases hqd : q = d
      · next hx1 hx2 =>
        simp [Struct.sem, View.sem, ViewSem.toSem, intoBlocksSem, hx1, hx2, hqd,
          show d ≠ min from hqd ▸ hx1, show d ≠ maj from hqd ▸ hx2] at htrue
      · next hx1 hx2 =>
        exact Le.sub (V := intoBlocksSem A d maj min (s.sem A))
          (fun u hu => rel_ib ih pd hM hm hqd hx2 hx1 h hu) fun u u' h => (ih _ _ _ h).2

/-! `into_blocks_dynamic` -/

/-- the state without the dimensions of `into_blocks_dynamic` -/
def dynClean (d maj min pres : Dim) (st : State) : State :=
  st.removeAll [.idx d, .len d, .idx maj, .idx min, .len maj, .len min, .idx pres]

theorem blocksDynClean_eq {d maj min pres : Dim} {st : State} :
    blocksDynClean d maj min pres st =
      if st.has (.len pres) then none else some (dynClean d maj min pres st) := rfl

theorem rel_ibd_clean {d maj min pres : Dim} {s : Struct} (pd : s.plain d) (hM : ¬ s.hard maj)
    (hm : ¬ s.hard min) (hp : ¬ s.hard pres) {q : Dim} {st st' : State}
    (h : Rel (.view (.intoBlocksDyn d maj min pres) s) q st st') :
    Rel s d (dynClean d maj min pres st) (dynClean d maj min pres st') := by
  obtain ⟨p1, p2, p3⟩ := pd
  unfold dynClean
  rel_tac h

theorem rel_ibd {A : Arith} {d maj min pres : Dim} {s : Struct} (ih : LD A s) (pd : s.plain d)
    (hM : ¬ s.hard maj) (hm : ¬ s.hard min) (hp : ¬ s.hard pres) {q : Dim} (h1 : q ≠ d)
    (h2 : q ≠ maj) (h3 : q ≠ min)
    {st st' u : State} (h : Rel (.view (.intoBlocksDyn d maj min pres) s) q st st')
    (hq : q ≠ pres)
    (hu : intoBlocksDynSub A d maj min pres (s.sem A) st = some u) :
    ∃ u', intoBlocksDynSub A d maj min pres (s.sem A) st' = some u' ∧ Rel s q u u' := by
  have hc := rel_ibd_clean pd hM hm hp h
  have hn := (ih _ _ _ hc).2
  obtain ⟨p1, p2, p3⟩ := pd
  clear hc ih
  have hlen : ∀ x, st.has (.len x) = st'.has (.len x) := fun x => by simp [State.has, h.lens]
  simp only [intoBlocksDynSub, blocksDynClean_eq, ← hlen, ← h.lens] at hu ⊢
  by_cases hpl : st.has (.len pres) = true
  · simp [hpl] at hu
  simp only [hpl, Bool.false_eq_true, ↓reduceIte, bind, Option.bind_some] at hu ⊢
  clear hlen
  cases hnl : st (.len min) with
  | some nl =>
    clear hn
    simp only [hnl] at hu ⊢
    cases hi : st (.idx maj) with
    | none =>
      have hi' := h.fewer _ hi
      simp only [hi, hi', Option.some.injEq] at hu ⊢
      subst hu
      refine ⟨_, rfl, ?_⟩
      cases st (.len maj) <;> dsimp only <;> unfold dynClean <;> rel_tac h
    | some i =>
      cases hj : st (.idx min) with
      | none =>
        have hj' := h.fewer _ hj
        simp only [hi, hj, hj', Option.some.injEq] at hu ⊢
        subst hu
        cases hi' : st' (.idx maj) <;> refine ⟨_, rfl, ?_⟩ <;>
          cases st (.len maj) <;> dsimp only <;> unfold dynClean <;> rel_tac h
      | some j =>
        simp only [hi, hj, Option.some.injEq] at hu
        subst hu
        cases hi' : st' (.idx maj) with
        | none =>
          refine ⟨_, rfl, ?_⟩
          cases st (.len maj) <;> dsimp only <;> unfold dynClean <;> rel_tac h
        | some i' =>
          cases hj' : st' (.idx min) with
          | none =>
            refine ⟨_, rfl, ?_⟩
            cases st (.len maj) <;> dsimp only <;> unfold dynClean <;> rel_tac h
          | some j' =>
            refine ⟨_, rfl, ?_⟩
            cases st (.len maj) <;> dsimp only <;> unfold dynClean <;> rel_tac h
  | none =>
    simp only [hnl] at hu ⊢
    cases hml : st (.len maj) with
    | none =>
      simp only [hml, Option.some.injEq] at hu ⊢
      cases hu
      refine ⟨_, rfl, ?_⟩
      clear hn
      unfold dynClean; rel_tac h
    | some ml =>
      cases hi : st (.idx maj) with
      | none =>
        have hi' := h.fewer _ hi
        simp only [hml, hi, hi', Option.some.injEq] at hu ⊢
        subst hu
        refine ⟨_, rfl, ?_⟩
        clear hn
        unfold dynClean; rel_tac h
      | some i =>
        cases hj : st (.idx min) with
        | none =>
          have hj' := h.fewer _ hj
          simp only [hml, hi, hj, hj', Option.some.injEq] at hu ⊢
          subst hu
          clear hn
          cases hi' : st' (.idx maj) <;> refine ⟨_, rfl, ?_⟩ <;>
            unfold dynClean <;> rel_tac h
        | some j =>
          simp only [hml, hi, hj, Option.bind_eq_some_iff, Option.some.injEq] at hu
          obtain ⟨l, hll, hu⟩ := hu
          subst hu
          have hll' := hn _ hll
          cases hi' : st' (.idx maj) with
          | none =>
            refine ⟨_, rfl, ?_⟩
            clear hn hll hll'
            unfold dynClean; rel_tac h
          | some i' =>
            cases hj' : st' (.idx min) with
            | none =>
              refine ⟨_, rfl, ?_⟩
              clear hn hll hll'
              unfold dynClean; rel_tac h
            | some j' =>
              simp only [hll', Option.bind_some]
              refine ⟨_, rfl, ?_⟩
              clear hn hll hll'
              unfold dynClean; rel_tac h

/-- Without one of the two block indices, `into_blocks_dynamic` passes on no index. -/
theorem intoBlocksDynSub_noidx {A : Arith} {d maj min pres : Dim} {S : Sem} {st : State}
    (hx : st (.idx maj) = none ∨ st (.idx min) = none) :
    intoBlocksDynSub A d maj min pres S st =
      if st.has (.len pres) then none else
      match st (.len min), st (.len maj) with
      | some nl, some ml => some ((dynClean d maj min pres st).set (.len d) (ml.mul A nl))
      | _, _ => some (dynClean d maj min pres st) := by
  simp only [intoBlocksDynSub, blocksDynClean_eq]
  by_cases hpl : st.has (.len pres) = true
  · simp [hpl]
  simp only [hpl, Bool.false_eq_true, ↓reduceIte, bind, Option.bind_some]
  rcases hx with hx | hx <;> simp only [hx]
  · cases st (.len min) <;> cases st (.len maj) <;> rfl
  · cases st (.len min) <;> cases st (.len maj) <;> cases st (.idx maj) <;> rfl

theorem rel_ibd_noidx {A : Arith} {d maj min pres : Dim} {s : Struct} (pd : s.plain d)
    (hM : ¬ s.hard maj) (hm : ¬ s.hard min) (hp : ¬ s.hard pres) {q : Dim} {st st' : State}
    (h : Rel (.view (.intoBlocksDyn d maj min pres) s) q st st')
    (hx : st (.idx maj) = none ∨ st (.idx min) = none) {u : State}
    (hu : intoBlocksDynSub A d maj min pres (s.sem A) st = some u) :
    ∃ u', intoBlocksDynSub A d maj min pres (s.sem A) st' = some u' ∧ Rel s d u u' := by
  have hc := rel_ibd_clean pd hM hm hp h
  have hlen : ∀ x, st.has (.len x) = st'.has (.len x) := fun x => by simp [State.has, h.lens]
  have hx' : st' (.idx maj) = none ∨ st' (.idx min) = none := hx.imp (h.fewer _) (h.fewer _)
  rw [intoBlocksDynSub_noidx hx] at hu
  rw [intoBlocksDynSub_noidx hx']
  simp only [← h.lens, ← hlen]
  by_cases hpl : st.has (.len pres) = true
  · simp [hpl] at hu
  simp only [hpl, Bool.false_eq_true, ↓reduceIte] at hu ⊢
  clear h
  cases hn : st (.len min) with
  | some nl =>
    cases hml : st (.len maj) with
    | none =>
      simp only [hn, hml, Option.some.injEq] at hu ⊢
      subst hu
      exact ⟨_, rfl, hc⟩
    | some ml =>
      simp only [hn, hml, Option.some.injEq] at hu ⊢
      subst hu
      refine ⟨_, rfl, ?_⟩
      rel_tac hc
  | none =>
    simp only [hn, Option.some.injEq] at hu ⊢
    subst hu
    exact ⟨_, rfl, hc⟩

theorem ld_ibd (A : Arith) (d maj min pres : Dim) (s : Struct) (ih : LD A s) (pd : s.plain d)
    (hM : ¬ s.hard maj) (hm : ¬ s.hard min) (hp : ¬ s.hard pres) :
    LD A (.view (.intoBlocksDyn d maj min pres) s) := by
  intro q st st' h
  have hc := rel_ibd_clean pd hM hm hp h
  have hlen : ∀ x, st.has (.len x) = st'.has (.len x) := fun x => by simp [State.has, h.lens]
  have hq := h.iff
  have hno := @rel_ibd_noidx A d maj min pres s pd hM hm hp q st st' h
  have hcl : Le ((blocksDynClean d maj min pres st).bind ((s.sem A).hasLen d))
      ((blocksDynClean d maj min pres st').bind ((s.sem A).hasLen d)) := by
    simp only [blocksDynClean_eq, hlen]
    split
    · exact Le.refl _
    · exact (ih _ _ _ hc).1
  have hcn : ∀ f : Val → Option Val,
      Le ((blocksDynClean d maj min pres st).bind fun cs => ((s.sem A).len d cs).bind f)
      ((blocksDynClean d maj min pres st').bind fun cs => ((s.sem A).len d cs).bind f) := by
    intro f
    simp only [blocksDynClean_eq, hlen]
    split
    · exact Le.refl _
    · exact Le.bind (f := f) (g := f) (ih _ _ _ hc).2 fun _ _ => Le.refl _
  have h1 : Le (((Struct.view (.intoBlocksDyn d maj min pres) s).sem A).hasLen q st)
      (((Struct.view (.intoBlocksDyn d maj min pres) s).sem A).hasLen q st') := by
    simp only [Struct.sem, View.sem, ViewSem.toSem, intoBlocksDynSem, ← hlen]
    split
    · subst q
      have e1 := h.soft (Or.inl rfl) maj (Or.inr (Or.inl rfl))
      have e2 := h.soft (Or.inl rfl) min (Or.inr (Or.inr rfl))
      have e1' : st.has (.idx maj) = st'.has (.idx maj) := by simp [State.has, e1]
      have e2' : st.has (.idx min) = st'.has (.idx min) := by simp [State.has, e2]
      rw [e1', e2']
      split
      · split
        · exact Le.both hcl
        · split
          · exact hcl
          · exact Le.refl _
      · exact Le.refl _
    · split
      · subst q
        rw [← hq]
        split
        · exact Le.refl _
        · next hx =>
          have hx : st (.idx min) = none := by simpa [State.has] using hx
          split
          · split
            · exact Le.both hcl
            · exact Le.refl _
          · split
            · exact Le.sub (V := intoBlocksDynSem A d maj min pres (s.sem A))
                (fun u hu => hno (Or.inr hx) hu) fun u u' h => (ih _ _ _ h).1
            · exact Le.refl _
      · split
        · subst q
          rw [← hq]
          split
          · exact Le.refl _
          · next hx =>
            have hx : st (.idx maj) = none := by simpa [State.has] using hx
            split
            · split
              · exact Le.both hcl
              · exact Le.refl _
            · split
              · exact Le.sub (V := intoBlocksDynSem A d maj min pres (s.sem A))
                  (fun u hu => hno (Or.inl hx) hu) fun u u' h => (ih _ _ _ h).1
              · exact Le.refl _
        · split
          · exact Le.refl _
          · next hx0 hx1 hx2 hx3 =>
            exact Le.sub (V := intoBlocksDynSem A d maj min pres (s.sem A))
              (fun u hu => rel_ibd ih pd hM hm hp hx3 hx2 hx1 h hx0 hu) fun u u' h => (ih _ _ _ h).1
  refine ⟨h1, Le.guard h1 fun htrue => ?_⟩
  simp only [← h.lens]
  split
  · subst q
    have e1 := h.soft (Or.inl rfl) maj (Or.inr (Or.inl rfl))
    have e2 := h.soft (Or.inl rfl) min (Or.inr (Or.inr rfl))
    rw [e1, e2]
    refine Le.bind (Le.refl _) fun _ _ => Le.bind (Le.refl _) fun _ _ => ?_
    cases st (.len min) with
    | some nl =>
      cases st (.len maj) with
      | some ml => exact Le.refl _
      | none => exact hcn _
    | none => exact Le.bind (Le.refl _) fun _ _ => hcn _
  · split
    · cases st (.len min) with
      | some l => exact Le.refl _
      | none =>
        refine Le.bind (Le.refl _) fun _ _ => hcn _
    · split
      · subst q
        next hx0 hx1 =>
        have hx : st (.idx maj) = none := by
          cases hx : st (.idx maj) with
          | none => rfl
          | some i => simp [State.has, hx, hx1, hx0] at htrue
        cases st (.len maj) with
        | some l => exact Le.refl _
        | none =>
          refine Le.bind (Le.refl _) fun _ _ => ?_
          exact Le.sub (V := intoBlocksDynSem A d maj min pres (s.sem A))
              (fun u hu => hno (Or.inl hx) hu)
              fun u u' h => Le.bind (ih _ _ _ h).2 fun _ _ => Le.refl _
      · by_cases hqd : q = d
        · next hx0 hx1 hx2 =>
          simp [hqd, show d ≠ pres from hqd ▸ hx0,
            show d ≠ min from hqd ▸ hx1, show d ≠ maj from hqd ▸ hx2] at htrue
        · next hx0 hx1 hx2 =>
          exact Le.sub (V := intoBlocksDynSem A d maj min pres (s.sem A))
            (fun u hu => rel_ibd ih pd hM hm hp hqd hx2 hx1 h hx0 hu) fun u u' h => (ih _ _ _ h).2

/-! `into_blocks_static` -/

def statClean (d border maj min : Dim) (st : State) : State :=
  st.removeAll [.idx d, .len d, .idx border, .idx maj, .idx min]

theorem blocksStatClean_eq {d border maj min : Dim} {st : State} :
    blocksStatClean d border maj min st =
      if st.has (.len border) || st.has (.len maj) || st.has (.len min) then none
      else some (statClean d border maj min st) := rfl

theorem rel_ibs_clean {d border maj min : Dim} {nl : Val} {s : Struct} (pd : s.plain d)
    (hM : ¬ s.hard maj) (hm : ¬ s.hard min) {q : Dim} {st st' : State}
    (h : Rel (.view (.intoBlocksStat d border maj min nl) s) q st st') :
    Rel s d (statClean d border maj min st) (statClean d border maj min st') := by
  obtain ⟨p1, p2, p3⟩ := pd
  unfold statClean
  rel_tac h

theorem rel_ibs {A : Arith} {d border maj min : Dim} {nl : Val} {s : Struct} (ih : LD A s)
    (pd : s.plain d) (hM : ¬ s.hard maj) (hm : ¬ s.hard min) {q : Dim} (h1 : q ≠ d)
    (h2 : q ≠ maj) (h3 : q ≠ min) (h4 : q ≠ border)
    {st st' u : State} (h : Rel (.view (.intoBlocksStat d border maj min nl) s) q st st')
    (hu : intoBlocksStatSub A d border maj min nl (s.sem A) st = some u) :
    ∃ u', intoBlocksStatSub A d border maj min nl (s.sem A) st' = some u' ∧ Rel s q u u' := by
  have hc := rel_ibs_clean pd hM hm h
  have hn := (ih _ _ _ hc).2
  obtain ⟨p1, p2, p3⟩ := pd
  clear hc ih
  have hlen : ∀ x, st.has (.len x) = st'.has (.len x) := fun x => by simp [State.has, h.lens]
  have hb := h.hard border (Or.inl rfl)
  have hb' : st.has (.idx border) = st'.has (.idx border) := by simp [State.has, hb]
  have hbb : isBody border st = isBody border st' := by simp only [isBody, hb]
  simp only [intoBlocksStatSub, blocksStatClean_eq, ← hlen, ← hb', ← hbb] at hu ⊢
  clear hb' hbb
  by_cases hpl : (st.has (.len border) || st.has (.len maj) || st.has (.len min)) = true
  · simp [hpl] at hu
  simp only [hpl, Bool.false_eq_true, ↓reduceIte, bind, Option.bind_some] at hu ⊢
  clear hlen hpl
  by_cases hbo : st.has (.idx border) = true
  · simp only [hbo, ↓reduceIte] at hu ⊢
    cases hi : st (.idx maj) with
    | none =>
      have hi' := h.fewer _ hi
      simp only [hi, hi', Option.some.injEq] at hu ⊢
      subst hu
      clear hn
      refine ⟨_, rfl, ?_⟩
      unfold statClean; rel_tac h
    | some i =>
      cases hj : st (.idx min) with
      | none =>
        have hj' := h.fewer _ hj
        simp only [hi, hj, hj', Option.some.injEq] at hu ⊢
        subst hu
        clear hn
        cases hi' : st' (.idx maj) <;> refine ⟨_, rfl, ?_⟩ <;> unfold statClean <;> rel_tac h
      | some j =>
        simp only [hi, hj] at hu
        cases hbd : isBody border st with
        | none => simp [hbd] at hu
        | some bd =>
          cases bd with
          | true =>
            simp only [hbd, Option.bind_some, ↓reduceIte, Option.some.injEq] at hu ⊢
            subst hu
            clear hn
            cases hi' : st' (.idx maj) <;> cases hj' : st' (.idx min) <;>
              refine ⟨_, rfl, ?_⟩ <;> unfold statClean <;> rel_tac h
          | false =>
            simp only [hbd, Option.bind_some, Bool.false_eq_true, ↓reduceIte,
              Option.bind_eq_some_iff, Option.some.injEq] at hu ⊢
            obtain ⟨l, hl, hu⟩ := hu
            subst hu
            have hl' := hn _ hl
            simp only [hl']
            clear hn hl hl'
            cases hi' : st' (.idx maj) with
            | none =>
              refine ⟨_, rfl, ?_⟩; unfold statClean; rel_tac h
            | some i' =>
              cases hj' : st' (.idx min) with
              | none => refine ⟨_, rfl, ?_⟩; unfold statClean; rel_tac h
              | some j' => refine ⟨_, rfl, ?_⟩; unfold statClean; rel_tac h
  · simp only [hbo, Bool.false_eq_true, ↓reduceIte, Option.some.injEq] at hu ⊢
    subst hu
    clear hn
    refine ⟨_, rfl, ?_⟩
    unfold statClean; rel_tac h

/-- Without one of the two block indices, `into_blocks_static` passes on no index. -/
theorem intoBlocksStatSub_noidx {A : Arith} {d border maj min : Dim} {nl : Val} {S : Sem}
    {st : State} (hx : st (.idx maj) = none ∨ st (.idx min) = none) :
    intoBlocksStatSub A d border maj min nl S st = blocksStatClean d border maj min st := by
  simp only [intoBlocksStatSub, blocksStatClean_eq]
  by_cases hpl : (st.has (.len border) || st.has (.len maj) || st.has (.len min)) = true
  · simp [hpl]
  simp only [hpl, Bool.false_eq_true, ↓reduceIte, bind, Option.bind_some]
  by_cases hbo : st.has (.idx border) = true
  · simp only [hbo, ↓reduceIte]
    rcases hx with hx | hx <;> simp only [hx]
    cases st (.idx maj) <;> rfl
  · simp only [hbo, Bool.false_eq_true, ↓reduceIte]

theorem rel_ibs_noidx {A : Arith} {d border maj min : Dim} {nl : Val} {s : Struct}
    (pd : s.plain d) (hM : ¬ s.hard maj) (hm : ¬ s.hard min) {q : Dim} {st st' : State}
    (h : Rel (.view (.intoBlocksStat d border maj min nl) s) q st st')
    (hx : st (.idx maj) = none ∨ st (.idx min) = none) {u : State}
    (hu : intoBlocksStatSub A d border maj min nl (s.sem A) st = some u) :
    ∃ u', intoBlocksStatSub A d border maj min nl (s.sem A) st' = some u' ∧ Rel s d u u' := by
  have hc := rel_ibs_clean pd hM hm h
  have hlen : ∀ x, st.has (.len x) = st'.has (.len x) := fun x => by simp [State.has, h.lens]
  have hx' : st' (.idx maj) = none ∨ st' (.idx min) = none := hx.imp (h.fewer _) (h.fewer _)
  rw [intoBlocksStatSub_noidx hx, blocksStatClean_eq] at hu
  rw [intoBlocksStatSub_noidx hx', blocksStatClean_eq, ← hlen, ← hlen, ← hlen]
  split at hu
  · simp at hu
  · next hpl =>
    cases hu
    simp only [hpl, Bool.false_eq_true, ↓reduceIte]
    exact ⟨_, rfl, hc⟩

theorem ld_ibs (A : Arith) (d border maj min : Dim) (nl : Val) (s : Struct) (ih : LD A s)
    (pd : s.plain d) (hM : ¬ s.hard maj) (hm : ¬ s.hard min) :
    LD A (.view (.intoBlocksStat d border maj min nl) s) := by
  intro q st st' h
  have hlen : ∀ x, st.has (.len x) = st'.has (.len x) := fun x => by simp [State.has, h.lens]
  have hq := h.iff
  have hno := @rel_ibs_noidx A d border maj min nl s pd hM hm q st st' h
  have hb := h.hard border (Or.inl rfl)
  have hbb : isBody border st = isBody border st' := by simp only [isBody, hb]
  have h1 : Le (((Struct.view (.intoBlocksStat d border maj min nl) s).sem A).hasLen q st)
      (((Struct.view (.intoBlocksStat d border maj min nl) s).sem A).hasLen q st') := by
    simp only [Struct.sem, View.sem, ViewSem.toSem, intoBlocksStatSem, ← hlen, ← hq, ← hbb]
    split
    · exact Le.refl _
    · next hx =>
      have hx : st (.idx q) = none := by simpa [State.has] using hx
      split
      · subst q
        cases isBody border st with
        | none => exact Le.refl _
        | some b =>
          cases b
          · exact Le.refl _
          · exact Le.sub (V := intoBlocksStatSem A d border maj min nl (s.sem A))
              (fun u hu => hno (Or.inl hx) hu) fun u u' h => (ih _ _ _ h).1
      · split
        · subst q
          cases isBody border st with
          | none => exact Le.refl _
          | some b =>
            cases b
            · exact Le.sub (V := intoBlocksStatSem A d border maj min nl (s.sem A))
                (fun u hu => hno (Or.inr hx) hu) fun u u' h => (ih _ _ _ h).1
            · exact Le.refl _
        · split
          · exact Le.refl _
          · split
            · exact Le.refl _
            · next hx2 hx3 hx1 hx0 =>
              exact Le.sub (V := intoBlocksStatSem A d border maj min nl (s.sem A))
                (fun u hu => rel_ibs ih pd hM hm hx0 hx2 hx3 hx1 h hu)
                fun u u' h => (ih _ _ _ h).1
  refine ⟨h1, Le.guard h1 fun htrue => ?_⟩
  have hx : st (.idx q) = none := by
    cases hx : st (.idx q) with
    | none => rfl
    | some i => simp [State.has, hx] at htrue
  simp only [← hbb]
  split
  · exact Le.refl _
  · split
    · subst q
      cases isBody border st with
      | none => exact Le.refl _
      | some b =>
        cases b
        · exact Le.sub (V := intoBlocksStatSem A d border maj min nl (s.sem A))
            (fun u hu => hno (Or.inr hx) hu)
            fun u u' h => Le.bind (ih _ _ _ h).2 fun _ _ => Le.refl _
        · exact Le.refl _
    · split
      · subst q
        cases isBody border st with
        | none => exact Le.refl _
        | some b =>
          cases b
          · exact Le.refl _
          · exact Le.sub (V := intoBlocksStatSem A d border maj min nl (s.sem A))
              (fun u hu => hno (Or.inl hx) hu)
              fun u u' h => Le.bind (ih _ _ _ h).2 fun _ _ => Le.refl _
      · next hx1 hx3 hx2 =>
        by_cases hqd : q = d
        · have : st.has (.idx d) = false := by simp [State.has, ← hqd, hx]
          simp [hqd, this, show d ≠ border from hqd ▸ hx1,
            show d ≠ min from hqd ▸ hx3, show d ≠ maj from hqd ▸ hx2] at htrue
        · exact Le.sub (V := intoBlocksStatSem A d border maj min nl (s.sem A))
            (fun u hu => rel_ibs ih pd hM hm hqd hx2 hx3 hx1 h hu) fun u u' h => (ih _ _ _ h).2

/-! `merge_blocks` -/

theorem rel_mb_clean {maj min d : Dim} {s : Struct} {q x : Dim} (hM : s.plain maj)
    (hm : s.plain min) (hx : x = maj ∨ x = min) {st st' : State}
    (h : Rel (.view (.mergeBlocks maj min d) s) q st st') :
    Rel s x (blocksClean d maj min st) (blocksClean d maj min st') := by
  obtain ⟨p1, p2, p3⟩ := hM
  obtain ⟨q1, q2, q3⟩ := hm
  unfold blocksClean
  rcases hx with rfl | rfl <;> rel_tac h

theorem rel_mb {A : Arith} {maj min d : Dim} {s : Struct} (ih : LD A s) (hM : s.plain maj)
    (hm : s.plain min) {q x : Dim}
    (hx : (x = q ∧ q ≠ d ∧ q ≠ maj ∧ q ≠ min) ∨ (q = d ∧ (x = maj ∨ x = min)))
    {st st' u : State} (h : Rel (.view (.mergeBlocks maj min d) s) q st st')
    (hq : q = d → st (.idx d) = none)
    (hu : mergeBlocksSub A maj min d (s.sem A) st = some u) :
    ∃ u', mergeBlocksSub A maj min d (s.sem A) st' = some u' ∧ Rel s x u u' := by
  have c1 := ih _ _ _ (rel_mb_clean hM hm (Or.inl rfl) h)
  have c2 := ih _ _ _ (rel_mb_clean hM hm (Or.inr rfl) h)
  obtain ⟨p1, p2, p3⟩ := hM
  obtain ⟨q1, q2, q3⟩ := hm
  clear ih
  simp only [mergeBlocksSub, ← h.lens, bind, Option.bind_eq_some_iff] at hu
  obtain ⟨hmin, e1, hmaj, e2, hu⟩ := hu
  have e1' := c2.1 _ e1
  have e2' := c1.1 _ e2
  simp only [mergeBlocksSub, ← h.lens, bind, e1', e2', Option.bind_some]
  clear e1 e2 e1' e2'
  cases hmin with
  | true =>
    simp only [↓reduceIte, Option.bind_eq_some_iff] at hu
    obtain ⟨nl, e3, hu⟩ := hu
    have e3' := c2.2 _ e3
    simp only [↓reduceIte, e3', Option.bind_some]
    clear c1 c2 e3 e3'
    cases hi : st (.idx d) with
    | none =>
      have hi' := h.fewer _ hi
      simp only [hi, hi'] at hu ⊢
      cases hmaj with
      | true =>
        simp only [↓reduceIte, Option.some.injEq] at hu ⊢
        subst hu
        refine ⟨_, rfl, ?_⟩
        unfold blocksClean
        rcases hx with ⟨rfl, hx⟩ | ⟨rfl, rfl | rfl⟩ <;> rel_tac h
      | false =>
        cases hl : st (.len d) with
        | none =>
          simp only [hl, Bool.false_eq_true, ↓reduceIte, Option.some.injEq] at hu ⊢
          subst hu
          refine ⟨_, rfl, ?_⟩
          unfold blocksClean
          rcases hx with ⟨rfl, hx⟩ | ⟨rfl, rfl | rfl⟩ <;> rel_tac h
        | some l =>
          simp only [hl, Bool.false_eq_true, ↓reduceIte, Option.some.injEq] at hu ⊢
          subst hu
          refine ⟨_, rfl, ?_⟩
          unfold blocksClean
          rcases hx with ⟨rfl, hx⟩ | ⟨rfl, rfl | rfl⟩ <;> rel_tac h
    | some i =>
      rcases hx with ⟨rfl, hx⟩ | ⟨rfl, hx⟩
      · cases hi' : st' (.idx d) <;> simp only [hi, hi'] at hu ⊢ <;>
        cases hmaj <;> cases hl : st (.len d) <;>
          simp only [hl, Bool.false_eq_true, ↓reduceIte, Option.some.injEq] at hu ⊢ <;>
          subst hu <;> refine ⟨_, rfl, ?_⟩ <;> unfold blocksClean <;> rel_tac h
      · simp [hq rfl] at hi
  | false =>
    cases hmaj with
    | true =>
      simp only [Bool.false_eq_true, ↓reduceIte, Option.bind_eq_some_iff] at hu
      obtain ⟨ml, e3, hu⟩ := hu
      have e3' := c1.2 _ e3
      simp only [Bool.false_eq_true, ↓reduceIte, e3', Option.bind_some]
      clear c1 c2 e3 e3'
      cases hl : st (.len d) with
      | none =>
        simp only [hl, Option.some.injEq] at hu ⊢
        subst hu
        refine ⟨_, rfl, ?_⟩
        unfold blocksClean
        rcases hx with ⟨rfl, hx⟩ | ⟨rfl, rfl | rfl⟩ <;> rel_tac h
      | some l =>
        cases hi : st (.idx d) with
        | none =>
          have hi' := h.fewer _ hi
          simp only [hl, hi, hi', Option.some.injEq] at hu ⊢
          subst hu
          refine ⟨_, rfl, ?_⟩
          unfold blocksClean
          rcases hx with ⟨rfl, hx⟩ | ⟨rfl, rfl | rfl⟩ <;> rel_tac h
        | some i =>
          rcases hx with ⟨rfl, hx⟩ | ⟨rfl, hx⟩
          · cases hi' : st' (.idx d) <;> simp only [hl, hi, hi', Option.some.injEq] at hu ⊢ <;>
              subst hu <;> refine ⟨_, rfl, ?_⟩ <;> unfold blocksClean <;> rel_tac h
          · simp [hq rfl] at hi
    | false =>
      simp only [Bool.false_eq_true, ↓reduceIte, Option.some.injEq] at hu ⊢
      clear c1 c2
      subst hu
      refine ⟨_, rfl, ?_⟩
      unfold blocksClean
      rcases hx with ⟨rfl, hx⟩ | ⟨rfl, rfl | rfl⟩ <;> rel_tac h

theorem ld_mb (A : Arith) (maj min d : Dim) (s : Struct) (ih : LD A s)
    (hM : s.plain maj) (hm : s.plain min) : LD A (.view (.mergeBlocks maj min d) s) := by
  intro q st st' h
  have c1 := ih _ _ _ (rel_mb_clean hM hm (Or.inl rfl) h)
  have c2 := ih _ _ _ (rel_mb_clean hM hm (Or.inr rfl) h)
  have hlen : ∀ x, st.has (.len x) = st'.has (.len x) := fun x => by simp [State.has, h.lens]
  have hq := h.iff
  have h1 : Le (((Struct.view (.mergeBlocks maj min d) s).sem A).hasLen q st)
      (((Struct.view (.mergeBlocks maj min d) s).sem A).hasLen q st') := by
    simp only [Struct.sem, View.sem, ViewSem.toSem, mergeBlocksSem, ← hlen, ← hq]
    split
    · exact Le.refl _
    · next hx =>
      have hx : st (.idx q) = none := by simpa [State.has] using hx
      split
      · subst q
        split
        · exact Le.bind c1.1 fun _ _ => Le.bind c2.1 fun _ _ => Le.refl _
        · intro y hy
          simp only [bind, Option.bind_eq_some_iff] at hy ⊢
          obtain ⟨u, hu, a, ha, b, hb, he⟩ := hy
          obtain ⟨u', hu', r1⟩ := rel_mb ih hM hm (Or.inr ⟨rfl, Or.inl rfl⟩) h (fun _ => hx) hu
          obtain ⟨u'', hu'', r2⟩ := rel_mb ih hM hm (Or.inr ⟨rfl, Or.inr rfl⟩) h (fun _ => hx) hu
          rw [hu'] at hu''
          cases hu''
          exact ⟨u', hu', a, (ih _ _ _ r1).1 _ ha, b, (ih _ _ _ r2).1 _ hb, he⟩
      · split
        · exact Le.refl _
        · next n1 n2 =>
          exact Le.sub (V := mergeBlocksSem A maj min d (s.sem A))
            (fun u hu => rel_mb ih hM hm (Or.inl ⟨rfl, n1, fun e => n2 (Or.inr e), fun e => n2 (Or.inl e)⟩) h
              (fun e => absurd e n1) hu)
            fun u u' h => (ih _ _ _ h).1
  refine ⟨h1, Le.guard h1 fun htrue => ?_⟩
  have hx : st (.idx q) = none := by
    cases hx : st (.idx q) with
    | none => rfl
    | some i => simp [State.has, hx] at htrue
  simp only [← h.lens]
  split
  · subst q
    cases st (.len d) with
    | some l => exact Le.refl _
    | none =>
      intro y hy
      simp only [bind, Option.bind_eq_some_iff] at hy ⊢
      obtain ⟨u, hu, a, ha, b, hb, he⟩ := hy
      obtain ⟨u', hu', r1⟩ := rel_mb ih hM hm (Or.inr ⟨rfl, Or.inl rfl⟩) h (fun _ => hx) hu
      obtain ⟨u'', hu'', r2⟩ := rel_mb ih hM hm (Or.inr ⟨rfl, Or.inr rfl⟩) h (fun _ => hx) hu
      rw [hu'] at hu''
      cases hu''
      exact ⟨u', hu', a, (ih _ _ _ r1).2 _ ha, b, (ih _ _ _ r2).2 _ hb, he⟩
  · next n1 =>
    by_cases n2 : q = min ∨ q = maj
    · have : st.has (.idx q) = false := by simp [State.has, hx]
      simp [this, n1, n2] at htrue
    · exact Le.sub (V := mergeBlocksSem A maj min d (s.sem A))
        (fun u hu => rel_mb ih hM hm (Or.inl ⟨rfl, n1, fun e => n2 (Or.inr e), fun e => n2 (Or.inl e)⟩) h
          (fun e => absurd e n1) hu)
        fun u u' h => (ih _ _ _ h).2

/-! `merge_zcurve` -/

theorem allSome_length {α : Type} {os : List (Option α)} {xs : List α} (h : allSome os = some xs) :
    xs.length = os.length := by
  induction os generalizing xs with
  | nil => simp only [allSome, Option.some.injEq] at h; subst h; rfl
  | cons o os ih =>
    simp only [allSome, bind, Option.bind_eq_some_iff, Option.some.injEq] at h
    obtain ⟨a, -, as, h2, rfl⟩ := h
    simp [ih h2]

theorem zcIndices_length {A : Arith} {sl gl : Nat} {lens : List Val} {z : Val} :
    (zcIndices A sl gl lens z).length = lens.length := by
  unfold zcIndices
  split
  · next h2 => simp [allSome_length h2]
  · simp

theorem setIdxs_len {st : State} {ps : List (Dim × Val)} {e : Dim} :
    setIdxs st ps (.len e) = st (.len e) := by
  induction ps generalizing st with
  | nil => rfl
  | cons p ps ih => simp only [setIdxs]; rw [ih]; simp [State.set]

theorem setIdxs_idx_not_mem {st : State} {ps : List (Dim × Val)} {e : Dim}
    (h : e ∉ ps.map Prod.fst) : setIdxs st ps (.idx e) = st (.idx e) := by
  induction ps generalizing st with
  | nil => rfl
  | cons p ps ih =>
    simp only [List.map_cons, List.mem_cons, not_or] at h
    simp only [setIdxs]; rw [ih h.2]; simp [State.set, h.1]

theorem setIdxs_idx_mem {st : State} {ps : List (Dim × Val)} {e : Dim}
    (h : e ∈ ps.map Prod.fst) : ∃ v, setIdxs st ps (.idx e) = some v := by
  induction ps generalizing st with
  | nil => simp at h
  | cons p ps ih =>
    simp only [setIdxs]
    by_cases h2 : e ∈ ps.map Prod.fst
    · exact ih h2
    · rw [setIdxs_idx_not_mem h2]
      have : e = p.1 := by simp only [List.map_cons, List.mem_cons] at h; grind
      exact ⟨p.2, by simp [State.set, this]⟩

theorem setIdxs_congr {st st' : State} {ps : List (Dim × Val)} {e : Dim}
    (h : e ∈ ps.map Prod.fst) : setIdxs st ps (.idx e) = setIdxs st' ps (.idx e) := by
  induction ps generalizing st st' with
  | nil => simp at h
  | cons p ps ih =>
    simp only [setIdxs]
    by_cases h2 : e ∈ ps.map Prod.fst
    · exact ih h2
    · rw [setIdxs_idx_not_mem h2, setIdxs_idx_not_mem h2]
      have : e = p.1 := by simp only [List.map_cons, List.mem_cons] at h; grind
      simp [State.set, this]

theorem Le.allSome {α β : Type} {f g : α → Option β} {as : List α}
    (h : ∀ a ∈ as, Le (f a) (g a)) : Le (allSome (as.map f)) (allSome (as.map g)) := by
  induction as with
  | nil => exact Le.refl _
  | cons a as ih =>
    simp only [List.map_cons, Noarr.allSome]
    refine Le.bind (h a (by simp)) fun _ _ => Le.bind (ih fun b hb => h b (by simp [hb])) ?_
    exact fun _ _ => Le.refl _

/-- the state without the dimensions of `merge_zcurve` -/
def zClean (ds : List Dim) (d : Dim) (st : State) : State :=
  st.removeAll (.idx d :: (ds.map .idx ++ ds.map .len))

@[simp] theorem zClean_idx {ds : List Dim} {d e : Dim} {st : State} :
    zClean ds d st (.idx e) = if e = d ∨ e ∈ ds then none else st (.idx e) := by
  simp [zClean, State.removeAll]

@[simp] theorem zClean_len {ds : List Dim} {d e : Dim} {st : State} :
    zClean ds d st (.len e) = if e ∈ ds then none else st (.len e) := by
  simp [zClean, State.removeAll]

theorem rel_mz_clean {sl gl : Nat} {ds : List Dim} {d : Dim} {s : Struct}
    (hp : ∀ e, e ∈ ds → s.plain e) {q x : Dim} (hx : x ∈ ds) {st st' : State}
    (h : Rel (.view (.mergeZ sl gl ds d) s) q st st') :
    Rel s x (zClean ds d st) (zClean ds d st') := by
  obtain ⟨p1, p2, p3⟩ := hp x hx
  obtain ⟨l1, l2, l3, l4, l5, l6⟩ := h
  simp only [Struct.hard, View.hard] at l4
  constructor <;> simp only [zClean_idx, zClean_len] <;> grind

theorem rel_mz {A : Arith} {sl gl : Nat} {ds : List Dim} {d : Dim} {s : Struct} (ih : LD A s)
    (hp : ∀ e, e ∈ ds → s.plain e) {q : Dim} (hq : q ≠ d)
    {st st' u : State} (h : Rel (.view (.mergeZ sl gl ds d) s) q st st')
    (hu : mergeZSub A sl gl ds d (s.sem A) st = some u) :
    ∃ u', mergeZSub A sl gl ds d (s.sem A) st' = some u' ∧ Rel s q u u' := by
  have c : ∀ e, e ∈ ds → _ := fun e he => ih _ _ _ (rel_mz_clean hp he h)
  have cl := Le.allSome (fun e he => (c e he).2)
  have hh : ∀ e, e ∈ ds → ¬ s.hard e := fun e he => (hp e he).1
  have hs : ∀ e, e ∈ ds → ¬ s.soft e := fun e he => (hp e he).2.1
  have hst : ∀ e, e ∈ ds → ¬ s.stale e := fun e he => (hp e he).2.2
  obtain ⟨l1, l2, l3, l4, l5, l6⟩ := h
  simp only [Struct.hard, View.hard, Struct.soft, View.soft, Struct.drive, View.drive,
    Struct.stale, View.stale] at l4 l5 l6
  clear c ih hp
  simp only [mergeZSub] at hu ⊢
  have e1 : ∀ st, State.removeAll st (.idx d :: (ds.map .idx ++ ds.map .len)) = zClean ds d st :=
    fun _ => rfl
  simp only [e1] at hu ⊢
  clear e1
  cases hi : st (.idx d) with
  | none =>
    have hi' := l2 _ hi
    simp only [hi, hi', Option.some.injEq] at hu ⊢
    subst hu
    refine ⟨_, rfl, ?_⟩
    constructor <;> simp only [zClean_idx, zClean_len] <;> grind
  | some z =>
    simp only [hi, bind, Option.bind_eq_some_iff, Option.some.injEq] at hu
    obtain ⟨lens, hl, rfl⟩ := hu
    have hl' := cl _ hl
    have hlen : ds.length = lens.length := by simpa using (allSome_length hl).symm
    have hfst : ∀ z, (ds.zip (zcIndices A sl gl lens z)).map Prod.fst = ds := fun z => by
      rw [List.map_fst_zip]; rw [zcIndices_length]; omega
    clear cl hl
    have hu : ∀ e, e ∉ ds → setIdxs (zClean ds d st) (ds.zip (zcIndices A sl gl lens z)) (.idx e) =
        zClean ds d st (.idx e) := fun e he => setIdxs_idx_not_mem (by rw [hfst]; exact he)
    have hm : ∀ e, e ∈ ds → ∃ v, setIdxs (zClean ds d st) (ds.zip (zcIndices A sl gl lens z))
        (.idx e) = some v := fun e he => setIdxs_idx_mem (by rw [hfst]; exact he)
    have hz := hfst z
    generalize hU : setIdxs (zClean ds d st) (ds.zip (zcIndices A sl gl lens z)) = U at hu hm
    have hlU : ∀ e, U (.len e) = zClean ds d st (.len e) := fun e => by rw [← hU, setIdxs_len]
    cases hi' : st' (.idx d) with
    | none =>
      refine ⟨_, rfl, ?_⟩
      simp only [zClean_idx, zClean_len] at hu hm hlU
      clear hU hfst hz
      constructor <;> simp only [zClean_idx, zClean_len] <;> grind
    | some z' =>
      simp only [hl', Option.bind_some]
      refine ⟨_, rfl, ?_⟩
      have hu' : ∀ e, e ∉ ds → setIdxs (zClean ds d st') (ds.zip (zcIndices A sl gl lens z'))
          (.idx e) = zClean ds d st' (.idx e) :=
        fun e he => setIdxs_idx_not_mem (by rw [hfst]; exact he)
      have hm' : ∀ e, e ∈ ds → ∃ v, setIdxs (zClean ds d st')
          (ds.zip (zcIndices A sl gl lens z')) (.idx e) = some v :=
        fun e he => setIdxs_idx_mem (by rw [hfst]; exact he)
      have hcon : z = z' → ∀ e, e ∈ ds → U (.idx e) = setIdxs (zClean ds d st')
          (ds.zip (zcIndices A sl gl lens z')) (.idx e) := by
        intro e1 e he
        rw [← hU, e1]
        exact setIdxs_congr (by rw [hfst]; exact he)
      generalize hU' : setIdxs (zClean ds d st') (ds.zip (zcIndices A sl gl lens z')) = U'
        at hu' hm' hcon
      have hlU' : ∀ e, U' (.len e) = zClean ds d st' (.len e) :=
        fun e => by rw [← hU', setIdxs_len]
      simp only [zClean_idx, zClean_len] at hu hm hlU hu' hm' hlU'
      clear hU hU' hfst hz
      have hzz : s.soft q → ∀ e, e ∈ ds → s.drive e → z = z' := by
        intro a e he b
        have := l5 a d (Or.inr ⟨⟨e, he, b⟩, rfl⟩)
        rw [hi, hi'] at this
        exact Option.some.inj this
      constructor <;> grind

theorem ld_mz (A : Arith) (sl gl : Nat) (ds : List Dim) (d : Dim) (s : Struct) (ih : LD A s)
    (hp : ∀ e, e ∈ ds → s.plain e) : LD A (.view (.mergeZ sl gl ds d) s) := by
  intro q st st' h
  have c : ∀ e, e ∈ ds → _ := fun e he => ih _ _ _ (rel_mz_clean hp he h)
  have hq := h.iff
  have hsub : ∀ st, st (.idx d) = none → mergeZSub A sl gl ds d (s.sem A) st =
      some (zClean ds d st) := fun st hs => by simp [mergeZSub, hs, zClean]
  have h1 : Le (((Struct.view (.mergeZ sl gl ds d) s).sem A).hasLen q st)
      (((Struct.view (.mergeZ sl gl ds d) s).sem A).hasLen q st') := by
    simp only [Struct.sem, View.sem, ViewSem.toSem, mergeZSem, ← hq]
    split
    · exact Le.refl _
    · next hx =>
      have hx : st (.idx q) = none := by simpa [State.has] using hx
      split
      · subst q
        rw [hsub _ hx, hsub _ (h.fewer _ hx)]
        simp only [bind, Option.bind_some]
        exact Le.bind (Le.allSome fun e he => (c e he).1) fun _ _ => Le.refl _
      · next n1 =>
        exact Le.sub (V := mergeZSem A sl gl ds d (s.sem A))
          (fun u hu => rel_mz ih hp n1 h hu) fun u u' h => (ih _ _ _ h).1
  refine ⟨h1, Le.guard h1 fun htrue => ?_⟩
  have hx : st (.idx q) = none := by
    cases hx : st (.idx q) with
    | none => rfl
    | some i => simp [State.has, hx] at htrue
  split
  · subst q
    rw [hsub _ hx, hsub _ (h.fewer _ hx)]
    simp only [bind, Option.bind_some]
    exact Le.bind (Le.allSome fun e he => (c e he).2) fun _ _ => Le.refl _
  · next n1 =>
    exact Le.sub (V := mergeZSem A sl gl ds d (s.sem A))
      (fun u hu => rel_mz ih hp n1 h hu) fun u u' h => (ih _ _ _ h).2

/-- Lengths depend only on the indices the structure names, in any arithmetic. -/
theorem Struct.length_dep (A : Arith) (s : Struct) (h : s.tame) : LD A s := by
  induction s with
  | scalar s a => intro q st st' _; exact ⟨Le.refl _, Le.refl _⟩
  | tuple t n fs ih => exact ld_tuple A t n fs fun i => ih i (h i)
  | vector d s ih => exact ld_vector A d s (ih h)
  | union n ss ih => exact ld_union A n ss fun i => ih i (h i)
  | view v s ih =>
    obtain ⟨h1, h2⟩ := h
    have ih := ih h1
    cases v with
    | bcast d => exact ld_bcast A d s ih
    | fix d i => exact ld_fix A d i s ih
    | setLength d l => exact ld_setLength A d l s ih
    | shift d a => exact ld_shift A d a s ih
    | slice d a n => exact ld_slice A d a n s ih
    | span d a n => exact ld_span A d a n s ih
    | step d a k => exact ld_step A d a k s ih
    | reverse d => exact ld_reverse A d s ih h2.1 h2.2
    | reorder ds => exact ld_reorder A ds s ih
    | hoist d => exact ld_hoist A d s ih
    | rename ps => exact ld_rename A ps s ih h2.1 h2.2
    | join a b d => exact ld_join A a b d s ih h2.1 h2.2
    | intoBlocks d maj min => exact ld_ib A d maj min s ih h2.1 h2.2.1 h2.2.2
    | intoBlocksDyn d maj min pres => exact ld_ibd A d maj min pres s ih h2.1 h2.2.1 h2.2.2.1 h2.2.2.2
    | intoBlocksStat d border maj min nl =>
      exact ld_ibs A d border maj min nl s ih h2.1 h2.2.1 h2.2.2.1
    | mergeBlocks maj min d => exact ld_mb A maj min d s ih h2.1 h2.2
    | mergeZ sl gl ds d => exact ld_mz A sl gl ds d s ih h2

end Noarr
