import Verif.RangeLemmas
import Verif.CudaLemmas
import Verif.Props.Range

/-
Lemmas about the sections of parts of a range, and about ranges over any dimension.
-/

namespace Noarr

theorem Sig.fix_slice {S : Sig} {d : Dim} (hd : ¬ S.hasDep d) {a m i j : Val} :
    (S.replace (Sig.sliceRepl a m) [d]).replace (Sig.fixRepl i) [d] = S.replace (Sig.fixRepl j) [d] := by
  induction S with
  | scalar s => rfl
  | void => rfl
  | ill => rfl
  | fn e l r ih =>
    by_cases he : e = d
    · subst he; simp [Sig.replace, Sig.sliceRepl, Sig.fixRepl]
    · simp only [Sig.replace, List.mem_singleton, he, if_false]; rw [ih hd]
  | dep e n rs ih =>
    simp only [Sig.hasDep, not_or, not_exists] at hd
    simp only [Sig.replace, List.mem_singleton, Ne.symm hd.1, if_false]
    congr 1
    funext k
    exact ih k (hd.2 k)

/-- One index of a slice is one index of the structure, for all queries. -/
theorem fix_slice_sem {s : Struct} {d : Dim} (hd : ¬ (s.sem .ideal).sig.hasDep d) (a m i : Nat) :
    (Struct.view (.fix d (.dyn i)) (.view (.slice d (.dyn a) (.dyn m)) s)).sem .ideal =
      (Struct.view (.fix d (.dyn (a + i))) s).sem .ideal := by
  have hsub : ∀ st : State, ((st.remove (.len d)).set (.idx d) (.dyn i)).mapAt (.idx d) (·.add .ideal (.dyn a)) =
      (st.remove (.len d)).set (.idx d) (.dyn (a + i)) := by
    intro st
    funext t
    by_cases ht : t = .idx d
    · subst ht; simp [State.mapAt, State.set, Val.add, Arith.ideal, Val.ofDyn, Nat.add_comm]
    · simp [State.mapAt, State.set, ht]
  simp only [Struct.sem, View.sem, ViewSem.toSem, fixSem, sliceSem, hsub, Sig.fix_slice hd (j := .dyn (a + i)), if_true,
    Option.bind_some]
  congr 1
  funext q st
  by_cases hq : q = d
  · subst hq; simp [guardLen]
  · simp only [hq, if_false]
    rw [guard_len, guard_len]

theorem apply_sem_congr {A : Arith} {s s' : Struct} (h : s.sem A = s'.sem A) (vs : List View) :
    (s.apply vs).sem A = (s'.apply vs).sem A := by
  induction vs generalizing s s' with
  | nil => exact h
  | cons v vs ih =>
    refine ih (s := .view v s) (s' := .view v s') ?_
    simp only [Struct.sem, h]

theorem stateAt_congr {A : Arith} {s s' : Struct} (h : s.sem A = s'.sem A) (vs : List View) (st : State) :
    stateAt A s vs st = stateAt A s' vs st := by
  induction vs generalizing s s' with
  | nil => rfl
  | cons v vs ih =>
    simp only [stateAt, h]
    rw [ih (s := .view v s) (s' := .view v s')]
    simp only [Struct.sem, h]

/-- The section of a part of a range behaves as the item of the range, with any further order. -/
theorem section_forEach {t : Traverser} {d : Dim} (hd : ¬ (t.top.sem .ideal).sig.hasDep d) (a m i : Nat)
    (vs : List View) (ds : List Dim) :
    ((t.order [.slice d (.dyn a) (.dyn m), .fix d (.dyn i)]).order vs).forEach .ideal ds =
      ((t.order [.fix d (.dyn (a + i))]).order vs).forEach .ideal ds := by
  have hsem := apply_sem_congr (fix_slice_sem (s := t.top) hd a m i) vs
  have htop : ∀ ws : List View, ((t.order ws).order vs).top = (t.top.apply ws).apply vs := by
    intro ws; simp [Traverser.order, Traverser.top, Struct.apply_append]
  have hstate : ∀ p : Path, (((t.order [.slice d (.dyn a) (.dyn m), .fix d (.dyn i)]).order vs).visit p).state .ideal =
      (((t.order [.fix d (.dyn (a + i))]).order vs).visit p).state .ideal := by
    intro p
    simp only [Traverser.visit, Traverser.state, Traverser.order, List.append_assoc]
    rw [stateAt_append .ideal t.base t.views, stateAt_append .ideal t.base t.views]
    congr 1
    simp only [List.cons_append, List.nil_append, stateAt]
    rw [stateAt_congr (fix_slice_sem (s := t.base.apply t.views) hd a m i)]
    cases stateAt Arith.ideal (.view (.fix d (.dyn (a + i))) (t.base.apply t.views))
        (vs ++ p.map fun di => View.fix di.1 di.2) .empty with
    | none => rfl
    | some u =>
      simp only [bind, Option.bind_some, View.sem, fixSem, sliceSem]
      congr 1
      funext t
      cases t with
      | idx e =>
        by_cases h : e = d
        · subst h; simp [State.mapAt, State.set, Val.add, Arith.ideal, Val.ofDyn, Nat.add_comm]
        · simp [State.mapAt, State.set, State.remove, h]
      | len e => simp [State.mapAt, State.set, State.remove]
  have hrun : ∀ tree, (((t.order [.slice d (.dyn a) (.dyn m), .fix d (.dyn i)]).order vs).run .ideal tree).bind
      (fun ts => ts.mapM fun t => t.state .ideal) =
      (((t.order [.fix d (.dyn (a + i))]).order vs).run .ideal tree).bind (fun ts => ts.mapM fun t => t.state .ideal) := by
    intro tree
    simp only [Traverser.run, htop, Struct.apply]
    rw [hsem]
    cases walk (((Struct.view (.fix d (.dyn (a + i))) t.top).apply vs).sem .ideal) tree .empty with
    | none => rfl
    | some ps =>
      simp only [Option.map_some, Option.bind_some, mapM_map_left, hstate]
  cases ds with
  | nil =>
    simp only [Traverser.forEach, Traverser.forSections, bind, htop, Struct.apply, hsem]
    exact hrun _
  | cons e ds =>
    simp only [Traverser.forEach, Traverser.forSections, bind, htop, Struct.apply, hsem]
    split
    · exact hrun _
    · rfl

theorem Sig.filter_none {S : Sig} {d : Dim} (h : S.anyAccept d = false) :
    S.tree.filter (fun e => [d].contains e) = .leaf ∨ S.tree.filter (fun e => [d].contains e) = .bad := by
  induction S with
  | scalar s => exact .inl rfl
  | void => exact .inl rfl
  | ill => exact .inr rfl
  | fn e l r ih =>
    simp only [Sig.anyAccept, Bool.or_eq_false_iff, beq_eq_false_iff_ne] at h
    simpa [Sig.tree, DimTree.filter, h.1] using ih h.2
  | dep e n rs ih =>
    simp only [Sig.anyAccept, Bool.or_eq_false_iff, beq_eq_false_iff_ne, decide_eq_false_iff_not, not_exists,
      Bool.not_eq_true] at h
    simp only [Sig.tree, DimTree.filter, List.contains_cons, List.contains_nil, Bool.or_false, beq_iff_eq, h.1, if_false]
    split
    · have := ih ⟨0, by omega⟩ (h.2 _)
      simpa only [List.contains_cons, List.contains_nil, Bool.or_false] using this
    · exact .inr rfl

/-- What the function of `tbb_for_sections` is called with in a part of the range. -/
theorem sections_eq {t : Traverser} {d : Dim} {l : ArgLen} {s : Sig} (hsig : (t.top.sem .ideal).sig = .fn d l s)
    (hu : (t.top.sem .ideal).sig.uniq) {v : Val} (hv : (t.top.sem .ideal).len d .empty = some v) {r : Range}
    (hd : r.dim = d) (hb : r.base = t.base) (hvs : r.views = t.views) {ts : List Traverser}
    (h : r.sections .ideal = some ts) :
    ts = (List.range r.size).map fun i =>
      t.order [.slice d (.dyn r.lo) (.dyn (r.hi - r.lo)), .fix d (.dyn i)] := by
  have htop : r.asTraverser.top = .view (.slice d (.dyn r.lo) (.dyn (r.hi - r.lo))) t.top := by
    simp [Range.asTraverser, Traverser.top, Struct.apply_append, Struct.apply, hd, hb, hvs]
  have hsig' : (r.asTraverser.top.sem .ideal).sig = .fn d (.ofVal (.dyn (r.hi - r.lo))) s := by
    rw [htop]
    simp [Struct.sem, View.sem, ViewSem.toSem, sliceSem, hsig, Sig.replace, Sig.sliceRepl]
  have hlen : (r.asTraverser.top.sem .ideal).len d .empty = some (.dyn (r.hi - r.lo)) := by
    rw [htop]
    have he : State.mapAt .empty (.idx d) (·.add .ideal (.dyn r.lo)) = .empty := by
      funext t; cases t <;> simp [State.mapAt, State.empty]
    simp only [Struct.sem, View.sem, ViewSem.toSem, sliceSem, he, Struct.hasLen_of_len hv, guardLen, ↓reduceIte]
  rw [hsig] at hu
  have hfind : (r.asTraverser.top.sem .ideal).sig.find d .empty = .fn d (.ofVal (.dyn (r.hi - r.lo))) s := by
    rw [hsig']; simp [Sig.find]
  simp only [Range.sections, Traverser.forSections, hd] at h
  split at h
  · rw [hsig'] at h
    simp only [Sig.tree, DimTree.filter, List.contains_cons, List.contains_nil, beq_self_eq_true, Bool.true_or,
      if_true, Traverser.run, walk, hfind, hlen, Val.nat?, bind, Option.bind_some, ↓reduceDIte] at h
    obtain ⟨ps, h1, rfl⟩ := Option.map_eq_some_iff.1 h
    have hps : ps = (List.range r.size).map fun i => [(d, Val.dyn i)] := by
      have hk := Sig.filter_none hu.1
      simp only [List.contains_cons, List.contains_nil] at hk
      rcases hk with hk | hk
      · rw [hk] at h1
        simp only [walk, Option.map_some, List.map_cons, List.map_nil] at h1
        rw [seqAll_some (g := fun i : Nat => [[(d, Val.dyn i)]]) (fun _ _ => rfl)] at h1
        cases h1
        simp only [Range.size, List.flatMap_def]
        induction List.range (r.hi - r.lo) with
        | nil => rfl
        | cons x xs ih => simpa using ih
      · rw [hk] at h1
        simp only [walk, Option.map_none] at h1
        cases hr : r.hi - r.lo with
        | zero => rw [hr] at h1; cases h1; simp [Range.size, hr]
        | succ n => rw [hr, List.range_succ_eq_map] at h1; simp [seqAll] at h1
    rw [hps, List.map_map]
    apply List.map_congr_left
    intro i _
    simp [Traverser.visit, Range.asTraverser, Traverser.order, hd, hb, hvs]
  · cases h

end Noarr
