import Verif.PlannerSpec
import Verif.SectionTrees
import Verif.AliasMain

/-
Lemmas about planners. Used for C35.
-/

set_option linter.unusedVariables false
set_option linter.unusedSimpArgs false

namespace Noarr

theorem planWalk_shape (S : Sem) (act : State → Option Bool) (d : Dim) (n : Nat) (bs : Fin n → DimTree) (st : State) :
    planWalk S act (.node d n bs) st = match act st with
    | none => none
    | some true => some [[]]
    | some false =>
      match (S.sig.find d st).shape with
      | some true => none
      | some false =>
        if h : n = 1 then (S.len d st).bind fun l => l.nat?.bind fun m =>
          seqAll ((List.range m).map fun i =>
            (planWalk S act (bs ⟨0, by omega⟩) (st.set (.idx d) (.dyn i))).map fun ps =>
              ps.map fun p => (d, .dyn i) :: p)
        else none
      | none => none := by
  rw [planWalk]
  cases S.sig.find d st <;> rfl

theorem planWalk_sub {S' S : Sem} {act' act : State → Option Bool} {sub : State → State} {t : DimTree}
    (ha : ∀ st, act' st = act (sub st))
    (hs : ∀ q, t.contains q = true → ∀ st v, sub (st.set (.idx q) v) = (sub st).set (.idx q) v)
    (hf : ∀ q, t.contains q = true → ∀ st, (S'.sig.find q st).shape = (S.sig.find q (sub st)).shape)
    (hl : ∀ q, t.contains q = true → ∀ st, S'.len q st = S.len q (sub st)) (st : State) :
    planWalk S' act' t st = planWalk S act t (sub st) := by
  induction t generalizing st with
  | leaf => simp only [planWalk, ha]
  | bad => rfl
  | node d n bs ih =>
    have hd : (DimTree.node d n bs).contains d = true := by simp [DimTree.contains]
    have hb : ∀ i q, (bs i).contains q = true → (DimTree.node d n bs).contains q = true := by
      intro i q h; simp only [DimTree.contains, Bool.or_eq_true, decide_eq_true_eq]; exact .inr ⟨i, h⟩
    have ih' := fun i st => ih i (fun q h => hs q (hb i q h)) (fun q h => hf q (hb i q h))
      (fun q h => hl q (hb i q h)) st
    simp only [planWalk_shape, ha, hf d hd, hl d hd, ih', hs d hd]

/-- The state of the structure whose index `d` is fixed. -/
def fixSub (d : Dim) (v : Val) (st : State) : State := (st.remove (.len d)).set (.idx d) v

theorem fixSub_empty (d : Dim) (v : Val) : fixSub d v .empty = State.empty.set (.idx d) v := by
  funext t
  cases t with
  | idx e => simp [fixSub, State.set, State.remove]
  | len e => simp [fixSub, State.set, State.remove, State.empty]

/-- As `walk_fix`. -/
theorem planWalk_fix {A : Arith} {s : Struct} (hu : (s.sem A).sig.uniq) {d : Dim} {t : DimTree}
    (ht : t.contains d = false) (v : Val) (act : State → Option Bool) :
    planWalk (s.sem A) act t (State.empty.set (.idx d) v) =
      planWalk ((Struct.view (.fix d v) s).sem A) (fun st => act (fixSub d v st)) t .empty := by
  have hne : ∀ q, t.contains q = true → q ≠ d := by
    rintro q h rfl
    rw [h] at ht; cases ht
  rw [planWalk_sub (S' := (Struct.view (.fix d v) s).sem A) (S := s.sem A) (act := act) (sub := fixSub d v)
    (fun _ => rfl), fixSub_empty]
  · intro q h st v
    have := hne q h
    funext t
    cases t with
    | idx e => simp only [fixSub, State.set, State.remove, Tag.idx.injEq, reduceCtorEq, ↓reduceIte]; grind
    | len e => simp [fixSub, State.set, State.remove]
  · intro q h st
    exact Sig.find_cut hu (hne q h) (fun e he => by simp [fixSub, State.set, State.remove, he])
      (by simp [fixSub, State.set])
  · intro q h st
    simp only [Struct.sem, View.sem, ViewSem.toSem, fixSem, hne q h, ↓reduceIte]
    exact guard_self

section loops

variable {A : Arith} {s : Struct} {d : Dim}

theorem fix_sig_fn {l r} (h : (s.sem A).sig = .fn d l r) (v : Val) :
    ((Struct.view (.fix d v) s).sem A).sig = r := by
  show (s.sem A).sig.replace (Sig.fixRepl v) [d] = r
  rw [h]
  simp [Sig.replace, Sig.fixRepl]

theorem fix_sig_dep {n rs} (h : (s.sem A).sig = .dep d n rs) (k : Fin n) :
    ((Struct.view (.fix d (.lit k)) s).sem A).sig = rs k := by
  show (s.sem A).sig.replace (Sig.fixRepl (.lit k)) [d] = rs k
  rw [h]
  simp [Sig.replace, Sig.fixRepl, Sig.branch, Sig.litIdx]

theorem walk_top_fn {l r} (h : (s.sem A).sig = .fn d l r) (hu : (s.sem A).sig.uniq) :
    walk (s.sem A) (s.sem A).sig.tree .empty = ((s.sem A).len d .empty).bind fun l => l.nat?.bind fun m =>
      seqAll ((List.range m).map fun i =>
        (walk ((Struct.view (.fix d (.dyn i)) s).sem A) ((Struct.view (.fix d (.dyn i)) s).sem A).sig.tree .empty).map
          fun ps => ps.map fun p => (d, .dyn i) :: p) := by
  have hu' := hu
  have ht : r.tree.contains d = false := by
    rw [h] at hu'
    cases hc : r.tree.contains d with
    | false => rfl
    | true => have := Sig.tree_contains hc; rw [hu'.1] at this; cases this
  have hf : ((s.sem A).sig.find d .empty).shape = some false := by rw [h]; simp [Sig.find, Sig.shape]
  have h1 : (s.sem A).sig.tree = .node d 1 (fun _ => r.tree) := by rw [h]; rfl
  rw [h1, walk_shape, hf]
  simp only [dite_true, fix_sig_fn h, walk_fix hu ht]

theorem planWalk_top_fn {l r} (h : (s.sem A).sig = .fn d l r) (hu : (s.sem A).sig.uniq) (act : State → Option Bool) :
    planWalk (s.sem A) act (s.sem A).sig.tree .empty = match act .empty with
    | none => none
    | some true => some [[]]
    | some false => ((s.sem A).len d .empty).bind fun l => l.nat?.bind fun m =>
      seqAll ((List.range m).map fun i =>
        (planWalk ((Struct.view (.fix d (.dyn i)) s).sem A) (fun st => act (fixSub d (.dyn i) st))
          ((Struct.view (.fix d (.dyn i)) s).sem A).sig.tree .empty).map
          fun ps => ps.map fun p => (d, .dyn i) :: p) := by
  have hu' := hu
  have ht : r.tree.contains d = false := by
    rw [h] at hu'
    cases hc : r.tree.contains d with
    | false => rfl
    | true => have := Sig.tree_contains hc; rw [hu'.1] at this; cases this
  have hf : ((s.sem A).sig.find d .empty).shape = some false := by rw [h]; simp [Sig.find, Sig.shape]
  have h1 : (s.sem A).sig.tree = .node d 1 (fun _ => r.tree) := by rw [h]; rfl
  rw [h1, planWalk_shape, hf]
  simp only [dite_true, fix_sig_fn h, planWalk_fix hu ht]

theorem walk_top_dep {n rs} (h : (s.sem A).sig = .dep d n rs) (hu : (s.sem A).sig.uniq) :
    walk (s.sem A) (s.sem A).sig.tree .empty = seqAll ((List.finRange n).map fun k : Fin n =>
        (walk ((Struct.view (.fix d (.lit k)) s).sem A) ((Struct.view (.fix d (.lit k)) s).sem A).sig.tree .empty).map
          fun ps => ps.map fun p => (d, .lit k) :: p) := by
  have hu' := hu
  have ht : ∀ k, (rs k).tree.contains d = false := by
    intro k
    rw [h] at hu'
    cases hc : (rs k).tree.contains d with
    | false => rfl
    | true => have := Sig.tree_contains hc; rw [(hu' k).1] at this; cases this
  have hf : ((s.sem A).sig.find d .empty).shape = some true := by rw [h]; simp [Sig.find, Sig.shape]
  have h1 : (s.sem A).sig.tree = .node d n (fun k => (rs k).tree) := by rw [h]; rfl
  rw [h1, walk_shape, hf]
  simp only [fix_sig_dep h, walk_fix hu (ht _)]

theorem planWalk_top_dep {n rs} (h : (s.sem A).sig = .dep d n rs) (act : State → Option Bool) :
    planWalk (s.sem A) act (s.sem A).sig.tree .empty = match act .empty with
    | none => none
    | some true => some [[]]
    | some false => none := by
  have hf : ((s.sem A).sig.find d .empty).shape = some true := by rw [h]; simp [Sig.find, Sig.shape]
  have h1 : (s.sem A).sig.tree = .node d n (fun k => (rs k).tree) := by rw [h]; rfl
  rw [h1, planWalk_shape, hf]

end loops

/-- All the loops of the structure. -/
def allLoops (A : Arith) (s : Struct) : List Path :=
  (walk (s.sem A) (s.sem A).sig.tree .empty).getD []

theorem seqAll_split {ι : Type} {l : List ι} {c : ι → Dim × Val} {P W : ι → Option (List Path)} {R : Path → List Path}
    {ps fs : List Path} (hp : seqAll (l.map fun i => (P i).map fun qs => qs.map fun q => c i :: q) = some ps)
    (hw : seqAll (l.map fun i => (W i).map fun qs => qs.map fun q => c i :: q) = some fs)
    (h : ∀ i ∈ l, ∀ qs gs, P i = some qs → W i = some gs →
      gs = qs.flatMap fun q => (R (c i :: q)).map (q ++ ·)) :
    fs = ps.flatMap fun p => (R p).map (p ++ ·) := by
  induction l generalizing ps fs with
  | nil => cases hp; cases hw; rfl
  | cons i l ih =>
    simp only [List.map_cons, seqAll, bind, Option.bind_eq_some_iff, Option.some.injEq,
      Option.map_eq_some_iff] at hp hw
    obtain ⟨_, ⟨qs, h1, rfl⟩, ps', h2, rfl⟩ := hp
    obtain ⟨_, ⟨gs, h3, rfl⟩, fs', h4, rfl⟩ := hw
    rw [List.flatMap_append, ← ih h2 h4 (fun j hj => h j (List.mem_cons_of_mem _ hj)),
      h i (by simp) qs gs h1 h3]
    congr 1
    simp only [List.map_flatMap, List.flatMap_map, List.map_map]
    rfl

theorem Struct.wf.sig {A : Arith} {s : Struct} (h : s.wf A) : (s.sem A).sig.wf = true := by
  cases s with
  | scalar _ _ => rfl
  | tuple _ _ _ => exact h.1
  | vector _ _ => exact h.1
  | union _ _ => exact h.1
  | view _ _ => exact h.1

/-- The loops of the planner are the outer loops; the others are those of the structures with the outer
indices fixed. -/
theorem planWalk_split {A : Arith} {s : Struct} {act : State → Option Bool} (hu : (s.sem A).sig.uniq)
    {ps fs : List Path} (hp : planWalk (s.sem A) act (s.sem A).sig.tree .empty = some ps)
    (hw : walk (s.sem A) (s.sem A).sig.tree .empty = some fs) :
    (∀ p ∈ ps, (walk ((s.apply (fixes p)).sem A) ((s.apply (fixes p)).sem A).sig.tree .empty).isSome ∧
      (s.wf A → (s.apply (fixes p)).wf A) ∧
      ((s.apply (fixes p)).sem A).sig.uniq) ∧
    fs = ps.flatMap fun p => (allLoops A (s.apply (fixes p))).map (p ++ ·) := by
  generalize hS : (s.sem A).sig = S
  induction S generalizing s act ps fs with
  | scalar x =>
    rw [hS] at hp hw
    simp only [Sig.tree, walk, Option.some.injEq] at hw
    simp only [Sig.tree, planWalk] at hp
    split at hp
    · cases hp; subst hw
      have : walk (s.sem A) (s.sem A).sig.tree .empty = some [[]] := by rw [hS]; rfl
      refine ⟨?_, ?_⟩
      · intro p h
        rw [List.mem_singleton.1 h]
        refine ⟨?_, id, hu⟩
        show (walk (s.sem A) (s.sem A).sig.tree .empty).isSome; rw [this]; rfl
      · simp [allLoops, fixes, Struct.apply, this]
    · cases hp
  | void =>
    rw [hS] at hp hw
    simp only [Sig.tree, walk, Option.some.injEq] at hw
    simp only [Sig.tree, planWalk] at hp
    split at hp
    · cases hp; subst hw
      have : walk (s.sem A) (s.sem A).sig.tree .empty = some [[]] := by rw [hS]; rfl
      refine ⟨?_, ?_⟩
      · intro p h
        rw [List.mem_singleton.1 h]
        refine ⟨?_, id, hu⟩
        show (walk (s.sem A) (s.sem A).sig.tree .empty).isSome; rw [this]; rfl
      · simp [allLoops, fixes, Struct.apply, this]
    · cases hp
  | ill => rw [hS] at hp; simp [Sig.tree, planWalk] at hp
  | fn d l r ih =>
    rw [planWalk_top_fn hS hu] at hp
    split at hp
    · cases hp
    · cases hp
      refine ⟨?_, ?_⟩
      · intro p h
        rw [List.mem_singleton.1 h]
        refine ⟨?_, id, hu⟩
        show (walk (s.sem A) (s.sem A).sig.tree .empty).isSome; rw [hw]; rfl
      · simp [allLoops, fixes, Struct.apply, hw]
    · rw [walk_top_fn hS hu] at hw
      simp only [Option.bind_eq_some_iff] at hp hw
      obtain ⟨l', hl, m, hm, hp⟩ := hp
      obtain ⟨l'', hl', m', hm', hw⟩ := hw
      rw [hl] at hl'; cases hl'
      rw [hm] at hm'; cases hm'
      have hur : r.uniq := by rw [hS] at hu; exact hu.2
      have hsub : ∀ i, ((Struct.view (.fix d (.dyn i)) s).sem A).sig.uniq := by
        intro i; rw [fix_sig_fn hS]; exact hur
      constructor
      · intro p hpm
        rw [seqAll_mem hp] at hpm
        obtain ⟨i, hi, a, ha, hpa⟩ := hpm
        obtain ⟨qs, hqs, rfl⟩ := Option.map_eq_some_iff.1 ha
        obtain ⟨q, hq, rfl⟩ := List.mem_map.1 hpa
        obtain ⟨b, hb⟩ := seqAll_map_some hw i hi
        obtain ⟨gs, hgs, rfl⟩ := Option.map_eq_some_iff.1 hb
        obtain ⟨h1, h2, h3⟩ := (ih (s := .view (.fix d (.dyn i)) s) (hsub i) hqs hgs (fix_sig_fn hS _)).1 q hq
        refine ⟨h1, ?_, h3⟩
        intro h4
        refine h2 ⟨?_, h4⟩
        rw [fix_sig_fn hS]
        have := h4.sig
        rw [hS] at this
        exact this
      · refine seqAll_split (R := fun p => allLoops A (s.apply (fixes p))) hp hw ?_
        intro i hi qs gs hqs hgs
        exact (ih (s := .view (.fix d (.dyn i)) s) (hsub i) hqs hgs (fix_sig_fn hS _)).2
  | dep d n rs ih =>
    rw [planWalk_top_dep hS] at hp
    split at hp
    · cases hp
    · cases hp
      refine ⟨?_, ?_⟩
      · intro p h
        rw [List.mem_singleton.1 h]
        refine ⟨?_, id, hu⟩
        show (walk (s.sem A) (s.sem A).sig.tree .empty).isSome; rw [hw]; rfl
      · simp [allLoops, fixes, Struct.apply, hw]
    · cases hp

theorem planWalk_sorted (S : Sem) (act : State → Option Bool) {t : DimTree} {st : State} {ps : List Path}
    (h : planWalk S act t st = some ps) : ps.Pairwise PathLt := by
  induction t generalizing st ps with
  | leaf =>
    simp only [planWalk] at h
    split at h
    · cases h; simp
    · cases h
  | bad => simp [planWalk] at h
  | node d n bs ih =>
    have hmap : ∀ {di : Dim × Val} {ps : List Path}, ps.Pairwise PathLt →
        (ps.map fun p => di :: p).Pairwise PathLt := by
      intro di ps h
      rw [List.pairwise_map]
      exact h.imp fun h => .tail h
    rw [planWalk_shape] at h
    split at h
    · cases h
    · cases h; simp
    split at h
    · cases h
    · split at h
      · simp only [bind, Option.bind_eq_some_iff] at h
        obtain ⟨l, hl, m, hm, h⟩ := h
        refine seqAll_pairwise h (Q := fun i j => i < j) List.pairwise_lt_range ?_ ?_
        · intro i _ a ha
          obtain ⟨ps, hps, rfl⟩ := Option.map_eq_some_iff.1 ha
          exact hmap (ih _ hps)
        · intro i _ j _ hij a b ha hb x hx y hy
          obtain ⟨pa, -, rfl⟩ := Option.map_eq_some_iff.1 ha
          obtain ⟨pb, -, rfl⟩ := Option.map_eq_some_iff.1 hb
          obtain ⟨x, -, rfl⟩ := List.mem_map.1 hx
          obtain ⟨y, -, rfl⟩ := List.mem_map.1 hy
          exact .head (a := i) (b := j) rfl rfl hij
      · cases h
    · cases h

/-- What the loops of a planner visit. -/
theorem planWalk_mem (S : Sem) {act : State → Option Bool} {stop : State → Prop}
    (hact : ∀ st, (act st).isSome → (act st = some true ↔ stop st)) (hu : S.sig.uniq) {N : Sig} {st : State}
    {ps : List Path} (hA : Sig.At st S.sig N)
    (h : planWalk S act N.tree st = some ps) (p : Path) : p ∈ ps ↔ Outer S stop N st p := by
  induction N generalizing st ps p with
  | scalar s =>
    simp only [Sig.tree, planWalk] at h
    split at h
    · next ha =>
      cases h
      simp only [List.mem_singleton]
      exact ⟨fun h => h ▸ .here ((hact st (by rw [ha]; rfl)).1 ha), fun h => by cases h; rfl⟩
    · cases h
  | void =>
    simp only [Sig.tree, planWalk] at h
    split at h
    · next ha =>
      cases h
      simp only [List.mem_singleton]
      exact ⟨fun h => h ▸ .here ((hact st (by rw [ha]; rfl)).1 ha), fun h => by cases h; rfl⟩
    · cases h
  | ill => simp [Sig.tree, planWalk] at h
  | fn d l r ih =>
    have hf := hA.find hu (d := d) (.inl ⟨d, l, r, rfl, by simp⟩)
    have hr : ∀ v, Sig.At (st.set (.idx d) v) S.sig r := by
      intro v
      refine Sig.At.trans (hA.congr hu ?_) (.fn (.refl _))
      intro e he
      simp only [Sig.anyAccept, Bool.or_eq_false_iff, beq_eq_false_iff_ne] at he
      simp [State.set, Ne.symm he.1]
    simp only [Sig.tree, planWalk_shape, hf, Sig.shape, ↓reduceDIte] at h
    cases ha : act st with
    | none => simp [ha] at h
    | some b =>
      have hst := hact st (by rw [ha]; rfl)
      cases b with
      | true =>
        have hs := hst.1 ha
        simp only [ha, Option.some.injEq] at h
        subst h
        simp only [List.mem_singleton]
        constructor
        · rintro rfl; exact .here hs
        · intro hp
          cases hp with
          | here => rfl
          | fn _ hn => exact absurd hs hn
      | false =>
        have hs : ¬ stop st := fun h => by have := hst.2 h; rw [ha] at this; cases this
        simp only [ha, Option.bind_eq_some_iff] at h
        obtain ⟨v, hv, m, hm, h⟩ := h
        rw [seqAll_mem h]
        constructor
        · rintro ⟨i, hi, a, ha, hp⟩
          obtain ⟨qs, hqs, rfl⟩ := Option.map_eq_some_iff.1 ha
          obtain ⟨q, hq, rfl⟩ := List.mem_map.1 hp
          exact .fn i hs hv hm (by simpa using hi) ((ih (hr _) hqs q).1 hq)
        · intro hp
          cases hp with
          | here h => exact absurd h hs
          | @fn _ _ _ _ l' m' q i h0 h1 h2 h3 h4 =>
            rw [hv] at h1; cases h1
            rw [show v.nat? = some m' from h2] at hm; cases hm
            obtain ⟨a, ha⟩ := seqAll_map_some h i (by simpa using h3)
            refine ⟨i, by simpa using h3, a, ha, ?_⟩
            obtain ⟨qs, hqs, rfl⟩ := Option.map_eq_some_iff.1 ha
            exact List.mem_map.2 ⟨q, (ih (hr _) hqs q).2 h4, rfl⟩
  | dep d n rs ih =>
    have hf := hA.find hu (d := d) (.inr ⟨d, n, rs, rfl, by simp⟩)
    simp only [Sig.tree, planWalk_shape, hf, Sig.shape] at h
    cases ha : act st with
    | none => simp [ha] at h
    | some b =>
      have hst := hact st (by rw [ha]; rfl)
      cases b with
      | true =>
        have hs := hst.1 ha
        simp only [ha, Option.some.injEq] at h
        subst h
        simp only [List.mem_singleton]
        constructor
        · rintro rfl; exact .here hs
        · intro hp
          cases hp with
          | here => rfl
          | dep _ hn => exact absurd hs hn
      | false =>
        have hs : ¬ stop st := fun h => by have := hst.2 h; rw [ha] at this; cases this
        simp [ha] at h

/-! ### Endings -/

theorem Sig.fixState_ground {S : Sig} {u : State} (hw : (S.fixState u).wf = true) :
    (S.fixState u).ground = true ↔ ∀ q, S.needs u q → (u (.idx q)).isSome := by
  induction S with
  | scalar s => simp [fixState, ground, needs]
  | void => simp [fixState, ground, needs]
  | ill => simp [fixState, wf] at hw
  | fn d l r ih =>
    simp only [fixState] at hw ⊢
    by_cases hd : u.has (.idx d) = true
    · simp only [hd, if_true] at hw ⊢
      rw [ih hw]
      constructor
      · rintro h q (rfl | hq)
        · exact hd
        · exact h q hq
      · exact fun h q hq => h q (.inr hq)
    · rw [if_neg hd]
      simp only [ground, Bool.false_eq_true, false_iff]
      intro h
      exact hd (h d (.inl rfl))
  | dep d n rs ih =>
    simp only [fixState] at hw ⊢
    by_cases hd : u.has (.idx d) = true
    · simp only [hd, if_true] at hw ⊢
      cases hk : litIdx n (u (.idx d)) with
      | none => simp [hk, wf] at hw
      | some k =>
        simp only [hk] at hw ⊢
        rw [ih k hw]
        constructor
        · rintro h q (rfl | ⟨j, hj, hq⟩)
          · exact hd
          · rw [hk] at hj; cases hj; exact h q hq
        · exact fun h q hq => h q (.inr ⟨k, hk, hq⟩)
    · rw [if_neg hd]
      simp only [ground, Bool.false_eq_true, false_iff]
      intro h
      exact hd (h d (.inl rfl))

theorem Ending.activated_iff {e : Ending} {u : State} {b : Bool} (h : e.activated u = some b) :
    b = true ↔ e.complete u := by
  simp only [Ending.activated] at h
  split at h
  · next hw =>
    cases h
    exact Sig.fixState_ground hw
  · cases h

/-- A function registered by `for_sections` has the given dimensions. -/
theorem Sig.needs_sections {top : Sig} {ds : List Dim} {st u : State}
    (hw : ((top.reassemble ds st).fixState u).wf = true) :
    (∀ q, (top.reassemble ds st).needs u q → (u (.idx q)).isSome) ↔ ∀ q ∈ ds, (u (.idx q)).isSome := by
  induction ds generalizing st with
  | nil => exact ⟨by simp, fun _ q h => absurd h needs_reassembleScalar⟩
  | cons d ds ih =>
    simp only [reassemble] at hw ⊢
    split at hw
    · simp [fixState, wf] at hw
    · next hd =>
      simp only [hd, if_false]
      split at hw
      · next hf =>
        simp only [hf, fixState] at hw ⊢
        by_cases hs : u.has (.idx d) = true
        · rw [if_pos hs] at hw
          have hi := ih hw
          constructor
          · intro h q hq
            rcases List.mem_cons.1 hq with rfl | hq
            · exact hs
            · exact hi.1 (fun q h' => h q (.inr h')) q hq
          · rintro h q (rfl | hq)
            · exact hs
            · exact hi.2 (fun q h' => h q (.tail _ h')) q hq
        · exact ⟨fun h => absurd (h d (.inl rfl)) hs, fun h => absurd (h d (.head _)) hs⟩
      · next hf =>
        simp only [hf, fixState] at hw ⊢
        by_cases hs : u.has (.idx d) = true
        · rw [if_pos hs] at hw
          split at hw
          · next k hk =>
            have hi := ih hw
            constructor
            · intro h q hq
              rcases List.mem_cons.1 hq with rfl | hq
              · exact hs
              · exact hi.1 (fun q h' => h q (.inr ⟨k, hk, h'⟩)) q hq
            · rintro h q (rfl | ⟨j, hj, hq⟩)
              · exact hs
              · rw [hk] at hj; cases hj
                exact hi.2 (fun q h' => h q (.tail _ h')) q hq
          · simp [wf] at hw
        · exact ⟨fun h => absurd (h d (.inl rfl)) hs, fun h => absurd (h d (.head _)) hs⟩
      · simp [fixState, wf] at hw

theorem activatedEnding_some {es : List Ending} {u : State} {o : Option Ending}
    (h : activatedEnding es u = some o) :
    (∀ e ∈ es, (e.activated u).isSome) ∧
    (∀ e, o = some e → e ∈ es ∧ e.complete u) ∧ (o.isSome = true ↔ ∃ e ∈ es, e.complete u) := by
  simp only [activatedEnding, bind, Option.bind_eq_some_iff] at h
  obtain ⟨bs, hbs, h⟩ := h
  have hm := mapM_some hbs
  have hall : ∀ e ∈ es, ∃ b, e.activated u = some b ∧ (e, b) ∈ bs := by
    intro e he
    have : (e.activated u).map (fun b => (e, b)) ∈ bs.map some := hm ▸ List.mem_map.2 ⟨e, he, rfl⟩
    obtain ⟨x, hx, h1⟩ := List.mem_map.1 this
    obtain ⟨b, hb, rfl⟩ := Option.map_eq_some_iff.1 h1.symm
    exact ⟨b, hb, hx⟩
  have hback : ∀ x ∈ bs, x.1 ∈ es ∧ x.1.activated u = some x.2 := by
    intro x hx
    have : some x ∈ es.map fun e => (e.activated u).map fun b => (e, b) := hm ▸ List.mem_map.2 ⟨x, hx, rfl⟩
    obtain ⟨e, he, h1⟩ := List.mem_map.1 this
    obtain ⟨b, hb, rfl⟩ := Option.map_eq_some_iff.1 h1
    exact ⟨he, hb⟩
  refine ⟨fun e he => by obtain ⟨b, hb, -⟩ := hall e he; rw [hb]; rfl, ?_⟩
  split at h
  · next hn =>
    cases h
    refine ⟨by simp, ?_⟩
    simp only [Option.isSome_none, Bool.false_eq_true, false_iff]
    rintro ⟨e, he, hc⟩
    obtain ⟨b, hb, hmem⟩ := hall e he
    have hb' := (Ending.activated_iff hb).2 hc
    have : (e, b) ∈ bs.filter (fun eb => eb.2) := List.mem_filter.2 ⟨hmem, hb'⟩
    rw [hn] at this; cases this
  · next x hn =>
    cases h
    have hx : x ∈ bs.filter (fun eb => eb.2) := by rw [hn]; simp
    obtain ⟨h1, h2⟩ := List.mem_filter.1 hx
    obtain ⟨h3, h4⟩ := hback x h1
    have h5 := (Ending.activated_iff h4).1 h2
    refine ⟨?_, ?_⟩
    · intro e he; cases he; exact ⟨h3, h5⟩
    · simp only [Option.isSome_some, true_iff]
      exact ⟨x.1, h3, h5⟩
  · cases h

/-! ### No loops are left over when all the indices of the structure are known -/

theorem ibSub_set {B : Arith} {S : Sem} {d maj min : Dim} {st u : State}
    (hu : intoBlocksSub B d maj min S st = some u) (h : (u (.idx d)).isSome) :
    (st (.idx maj)).isSome ∧ (st (.idx min)).isSome := by
  have hc : blocksClean d maj min st (.idx d) = none := by simp [blocksClean, State.removeAll]
  simp only [intoBlocksSub] at hu
  cases hI : st (.idx maj) <;> cases hJ : st (.idx min)
  case some.some => exact ⟨rfl, rfl⟩
  all_goals
    exfalso
    cases hnl : st (.len min) with
    | some nl =>
      simp only [hnl, hI, hJ, Option.some.injEq] at hu
      subst hu
      cases hm : st (.len maj) <;> simp [hm, State.set, hc] at h
    | none =>
      simp only [hnl] at hu
      split at hu
      · cases hu
      · cases hu; rw [hc] at h; cases h
      · simp only [hI, hJ] at hu
        cases hm : st (.len maj) <;> simp only [hm, Option.some.injEq] at hu <;>
          (subst hu; rw [hc] at h; cases h)

theorem ibsSub_set {B : Arith} {S : Sem} {d border maj min : Dim} {nl : Val} {st u : State}
    (hu : intoBlocksStatSub B d border maj min nl S st = some u) (h : (u (.idx d)).isSome) :
    (st (.idx border)).isSome ∧ (st (.idx maj)).isSome ∧ (st (.idx min)).isSome := by
  have hc : statClean d border maj min st (.idx d) = none := by simp [statClean, State.removeAll]
  simp only [intoBlocksStatSub, blocksStatClean_eq] at hu
  split at hu
  · simp at hu
  simp only [bind, Option.bind_some] at hu
  split at hu
  · next hb =>
    refine ⟨hb, ?_⟩
    cases hI : st (.idx maj) <;> cases hJ : st (.idx min)
    case some.some => exact ⟨rfl, rfl⟩
    all_goals
      exfalso
      simp only [hI, hJ, Option.some.injEq] at hu
      subst hu; rw [hc] at h; cases h
  · cases hu; rw [hc] at h; cases h

theorem mbSub_set {B : Arith} {S : Sem} {d maj min : Dim} {st u : State}
    (hu : mergeBlocksSub B maj min d S st = some u) (h : (u (.idx maj)).isSome) : (st (.idx d)).isSome := by
  have hc : blocksClean d maj min st (.idx maj) = none := by simp [blocksClean, State.removeAll]
  cases hI : st (.idx d) with
  | some x => rfl
  | none =>
    exfalso
    simp only [mergeBlocksSub, bind, Option.bind_eq_some_iff] at hu
    obtain ⟨hmin, h1, hmaj, h2, hu⟩ := hu
    cases hmin <;> cases hmaj <;> cases hl : st (.len d) <;>
      simp only [hI, hl, Bool.false_eq_true, ↓reduceIte, Option.some.injEq,
        Option.bind_eq_some_iff] at hu <;>
      first
      | (subst hu; simp [State.set, hc] at h; done)
      | (obtain ⟨l, hl, rfl⟩ := hu; simp [State.set, hc] at h)

theorem mzSub_set {B : Arith} {S : Sem} {sl gl : Nat} {ds : List Dim} {d e : Dim} {st u : State}
    (hu : mergeZSub B sl gl ds d S st = some u) (he : e ∈ ds) (h : (u (.idx e)).isSome) :
    (st (.idx d)).isSome := by
  cases hI : st (.idx d) with
  | some x => rfl
  | none =>
    simp only [mergeZSub, hI, Option.some.injEq] at hu
    subst hu
    simp [State.removeAll, he] at h

theorem needs_direct {v : View} {s : Struct} {st u : State} (hw : (Struct.view v s).wf .ideal)
    (hn : (Struct.view v s).noAlias) (hs : (Struct.view v s).sane .ideal) (hd : v.direct)
    (hu : (v.sem .ideal (s.sem .ideal)).sub st = some u)
    (hall : ∀ q, (s.sem .ideal).sig.needs u q → (u (.idx q)).isSome) {q : Dim}
    (h : ((Struct.view v s).sem .ideal).sig.needs st q) : (st (.idx q)).isSome := by
  rcases needs_sub hw hn hs hu h with ⟨h1, h2⟩ | h1
  · rw [← sub_idx h1 hu]; exact hall q h2
  · cases v with
    | bcast d => exact absurd h1 id
    | fix d i => exact absurd h1 id
    | setLength d l => exact absurd h1 id
    | reorder ds => exact absurd h1 id
    | hoist d => exact absurd h1 id
    | join a b d => exact absurd h1 id
    | intoBlocksDyn d maj min pres => exact absurd hd id
    | shift d a =>
      obtain ⟨rfl, h1⟩ := h1
      have := hall q h1
      cases hu
      cases hq : st (.idx q) with
      | some x => rfl
      | none => simp [State.mapAt, hq] at this
    | slice d a n =>
      obtain ⟨rfl, h1⟩ := h1
      have := hall q h1
      cases hu
      cases hq : st (.idx q) with
      | some x => rfl
      | none => simp [State.mapAt, hq] at this
    | span d a n =>
      obtain ⟨rfl, h1⟩ := h1
      have := hall q h1
      cases hu
      cases hq : st (.idx q) with
      | some x => rfl
      | none => simp [State.mapAt, hq] at this
    | step d a n =>
      obtain ⟨rfl, h1⟩ := h1
      have := hall q h1
      cases hu
      cases hq : st (.idx q) with
      | some x => rfl
      | none => simp [State.mapAt, hq] at this
    | reverse d =>
      obtain ⟨rfl, h1⟩ := h1
      have := hall q h1
      cases hq : st (.idx q) with
      | some x => rfl
      | none =>
        simp only [View.sem, reverseSem, hq] at hu
        cases hu
        rw [hq] at this; cases this
    | rename ps =>
      obtain ⟨n, h1, h2, rfl⟩ := h1
      have := hall n h1
      cases hu
      rw [renameState_idx, if_pos h2] at this
      exact this
    | intoBlocks d maj min =>
      obtain ⟨h1, h2⟩ := h1
      obtain ⟨h3, h4⟩ := ibSub_set hu (hall d h2)
      rcases h1 with rfl | rfl
      · exact h3
      · exact h4
    | intoBlocksStat d border maj min nl =>
      obtain ⟨h1, h2⟩ := h1
      obtain ⟨h3, h4, h5⟩ := ibsSub_set hu (hall d h2)
      rcases h1 with rfl | rfl | rfl
      · exact h3
      · exact h4
      · exact h5
    | mergeBlocks maj min d =>
      obtain ⟨rfl, h1, -⟩ := h1
      exact mbSub_set hu (hall maj h1)
    | mergeZ sl gl ds d =>
      obtain ⟨rfl, h1⟩ := h1
      cases ds with
      | nil =>
        exfalso
        have := hw.1
        simp [Struct.sem, View.sem, mergeZSem, ViewSem.toSem, Sig.wf] at this
      | cons e es => exact mzSub_set hu (.head _) (hall e (h1 e (.head _)))

theorem Struct.wf_of_apply {A : Arith} {s : Struct} {vs : List View} (h : (s.apply vs).wf A) : s.wf A := by
  induction vs generalizing s with
  | nil => exact h
  | cons v vs ih => exact (ih (s := .view v s) h).2

theorem Struct.noAlias_of_apply {s : Struct} {vs : List View} (h : (s.apply vs).noAlias) : s.noAlias := by
  induction vs generalizing s with
  | nil => exact h
  | cons v vs ih => exact (ih (s := .view v s) h).1

theorem Struct.sane_of_apply {A : Arith} {s : Struct} {vs : List View} (h : (s.apply vs).sane A) : s.sane A := by
  induction vs generalizing s with
  | nil => exact h
  | cons v vs ih => exact (ih (s := .view v s) h).1

/-- If all the indices of the structure are set, all those of the views are. -/
theorem needs_top {s : Struct} {vs : List View} {st u : State} (hw : (s.apply vs).wf .ideal)
    (hn : (s.apply vs).noAlias) (hs : (s.apply vs).sane .ideal) (hd : ∀ v ∈ vs, v.direct)
    (hu : stateAt .ideal s vs st = some u)
    (hall : ∀ q, (s.sem .ideal).sig.needs u q → (u (.idx q)).isSome) :
    ∀ q, ((s.apply vs).sem .ideal).sig.needs st q → (st (.idx q)).isSome := by
  induction vs generalizing s u with
  | nil =>
    simp only [stateAt, Option.some.injEq] at hu
    subst hu; exact hall
  | cons v vs ih =>
    simp only [stateAt, bind, Option.bind_eq_some_iff] at hu
    obtain ⟨w, h1, h2⟩ := hu
    refine ih (s := .view v s) hw hn hs (fun v h => hd v (.tail _ h)) h1 ?_
    intro q hq
    exact needs_direct (Struct.wf_of_apply (s := .view v s) hw) (Struct.noAlias_of_apply (s := .view v s) hn)
      (Struct.sane_of_apply (s := .view v s) hs) (hd v (.head _)) h2 hall hq

theorem Sig.ground_of_needs {S : Sig} (h : ∀ q, S.needs .empty q → ((State.empty : State) (.idx q)).isSome)
    (hw : S.wf = true) : S.ground = true := by
  cases S with
  | scalar s => rfl
  | void => rfl
  | ill => cases hw
  | fn d l r => have := h d (.inl rfl); cases this
  | dep d n rs => have := h d (.inl rfl); cases this

end Noarr
