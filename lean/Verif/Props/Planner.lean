import Verif.PlannerMain

/-
C35: planners.
-/

namespace Noarr

/-- C35 for functions registered by `for_each`: the planner calls the function with the states a
traverser calls it with (C26), in the same order. The order consists of views whose dimensions are all
needed (see `C35_dynamic_blocks_out_of_range` and `C35_broadcast_dimension_skipped` for the others). -/
theorem C35_for_each_like_a_traverser_partial (p q : Planner) (f : Nat) (hw : p.top.wf .ideal)
    (hn : p.top.noAlias) (hs : p.top.sane .ideal) (hd : ∀ v ∈ p.views, v.direct)
    (hq : p.forEach .ideal f = some q) (calls : List (Body × Planner))
    (h : q.execute .ideal = some calls) :
    ∃ sts, (Traverser.mk p.base p.views).forEach .ideal [] = some sts ∧
      calls.map (fun c => (c.1, c.2.state .ideal)) = sts.map fun u => (Body.each f, some u) := by
  obtain ⟨ps, hps, hc, hok⟩ := forEach_paths hw hn hs hd hq h
  have hm : ∃ sts, ps.mapM (fun path => stateAt .ideal p.base (p.views ++ fixes path) .empty) = some sts := by
    clear hps hc
    induction ps with
    | nil => exact ⟨[], rfl⟩
    | cons a ps ih =>
      obtain ⟨u, hu⟩ := Option.isSome_iff_exists.1 (hok a (by simp))
      obtain ⟨us, hus⟩ := ih fun b hb => hok b (.tail _ hb)
      exact ⟨u :: us, by rw [List.mapM_cons, hu, hus]; rfl⟩
  obtain ⟨sts, hm⟩ := hm
  refine ⟨sts, ?_, ?_⟩
  · rw [forEach_nil]
    show (walk (p.top.sem .ideal) (p.top.sem .ideal).sig.tree .empty).bind _ = _
    rw [hps]
    exact hm
  · rw [hc]
    have := mapM_some hm
    have e : ps.map (fun path => (Body.each f, stateAt .ideal p.base (p.views ++ fixes path) .empty)) =
        (ps.map fun path => stateAt .ideal p.base (p.views ++ fixes path) .empty).map fun o => (Body.each f, o) := by
      simp [List.map_map, Function.comp_def]
    rw [e, ← this, List.map_map]
    rfl

/-- C35 for functions registered by `for_each`: it is called once for each combination of indices, all
of them in range, in the order of nested loops; with the state the structure sees for that
combination. -/
theorem C35_for_each_partial (p q : Planner) (f : Nat) (hw : p.top.wf .ideal)
    (hn : p.top.noAlias) (hs : p.top.sane .ideal) (hd : ∀ v ∈ p.views, v.direct)
    (hq : p.forEach .ideal f = some q) (calls : List (Body × Planner))
    (h : q.execute .ideal = some calls) :
    ∃ ps : List Path, ps.Pairwise PathLt ∧
      (∀ path, path ∈ ps ↔ Nested (p.top.sem .ideal) (p.top.sem .ideal).sig .empty path) ∧
      calls.map (fun c => (c.1, c.2.state .ideal)) =
        ps.map fun path => (Body.each f, stateAt .ideal p.base p.views (path.state .empty)) := by
  have hu : (p.top.sem .ideal).sig.uniq := Struct.sig_uniq .ideal _ hw hn
  obtain ⟨sts, h1, h2⟩ := C35_for_each_like_a_traverser_partial p q f hw hn hs hd hq calls h
  obtain ⟨ps, h3, h4⟩ := forEach_states (t := ⟨p.base, p.views⟩) hu h1
  refine ⟨ps, walk_sorted _ h3, walk_mem _ hu (.refl _) h3, ?_⟩
  rw [h2]
  have : sts.map (fun u => (Body.each f, some u)) = (sts.map some).map fun o => (Body.each f, o) := by
    simp [List.map_map, Function.comp_def]
  rw [this, h4, List.map_map]
  rfl

/-- C35 for nested functions: when the functions registered by `for_sections` or `for_dims` just
execute the planner they are called with, the function registered by `for_each` is called with the
states a traverser calls it with, in the same order - whichever sections are registered. -/
theorem C35_nested_like_a_traverser_partial (p : Planner) (rs : List Registered) (n : Nat)
    (hr : p.endings = rs.map (·.ending .ideal p.base)) (hw : p.top.wf .ideal) (hn : p.top.noAlias)
    (hs : p.top.sane .ideal) (hd : ∀ v ∈ p.views, v.direct) (sts sts' : List State)
    (h : p.runAll .ideal n = some sts)
    (ht : (Traverser.mk p.base p.views).forEach .ideal [] = some sts') : sts = sts' := by
  refine runAll_eq ⟨hw, hn, hs, hd, ?_⟩ h ht
  intro e he f hf
  rw [hr] at he
  obtain ⟨r, -, rfl⟩ := List.mem_map.1 he
  cases r with
  | each g => rfl
  | sections ds g => cases hf

/-- C35 for all the functions registered: the calls are made in the order of nested loops, one for each
combination of indices of the outermost loops that are needed for some registered function to have an
index in all of its dimensions; each index is below the length of its loop. It is that function which is
called - there is only one -, and the planner it gets has these indices fixed and the other functions
registered. -/
theorem C35_calls_in_loop_order (A : Arith) (p : Planner) (rs : List Registered)
    (hu : (p.top.sem A).sig.uniq) (hr : p.endings = rs.map (·.ending A p.base))
    (calls : List (Body × Planner)) (h : p.execute A = some calls) :
    ∃ ps : List Path, ps.Pairwise PathLt ∧
      (∀ path, path ∈ ps ↔ Outer (p.top.sem A) (p.due A rs) (p.top.sem A).sig .empty path) ∧
      calls.length = ps.length ∧
      ∀ c path, (c, path) ∈ calls.zip ps →
        c.2.base = p.base ∧ c.2.views = p.views ++ path.map (fun di => .fix di.1 di.2) ∧
        ∃ u r, c.2.state A = some u ∧ r ∈ rs ∧ r.given A p.base u ∧ c.1 = r.body ∧
          rs.Pairwise (fun r r' => ¬ (r.given A p.base u ∧ r'.given A p.base u)) ∧
          ∀ e, e ∈ c.2.endings ↔ ∃ r' ∈ rs, ¬ r'.given A p.base u ∧ e = r'.ending A p.base :=
  execute_calls hu hr h

/-- C35 for `for_dims`: the function is called once for each combination of indices of the given
dimensions, each below the length of its loop, in the given order of loops - if the dimensions are those
of the structure, that is, the views do not redefine them. -/
theorem C35_for_dims_partial (A : Arith) (p : Planner) (ds : List Dim) (f : Nat) (hp : p.endings = [])
    (hu : ((p.forDims A ds f).top.sem A).sig.uniq) (hn : ds.Nodup)
    (hv : ∀ v ∈ p.views, ∀ q ∈ ds, q ∉ v.dims)
    (calls : List (Body × Planner)) (h : (p.forDims A ds f).execute A = some calls) :
    ∃ ps : List Path, ps.Pairwise PathLt ∧ (∀ path ∈ ps, path.map Prod.fst = ds) ∧
      (∀ path, path ∈ ps ↔ Outer ((p.forDims A ds f).top.sem A) ((p.forDims A ds f).due A [.sections ds f])
        ((p.forDims A ds f).top.sem A).sig .empty path) ∧
      calls.map (fun c => (c.1, c.2.views)) = ps.map fun path =>
        (Body.section f, p.views ++ ds.reverse.map .hoist ++ path.map fun di => .fix di.1 di.2) := by
  have hends : (p.forDims A ds f).endings = [Registered.sections ds f].map (·.ending A (p.forDims A ds f).base) := by
    simp only [Planner.forDims, Planner.forSections, Planner.order, hp, List.nil_append, Registered.ending,
      List.map_cons, List.map_nil]
  obtain ⟨ps, h1, h2, h3, h4⟩ := execute_calls hu hends h
  have hps : ∃ ps', planWalk ((p.forDims A ds f).top.sem A)
      (fun st => ((p.forDims A ds f).activated A st).map Option.isSome)
      ((p.forDims A ds f).top.sem A).sig.tree .empty = some ps' := by
    simp only [Planner.execute] at h
    split at h
    · cases h
    · simp only [bind, Option.bind_eq_some_iff] at h
      exact ⟨h.choose, h.choose_spec.1⟩
  obtain ⟨ps', hps'⟩ := hps
  have hd := forDims_paths hp hu hn hv hps'
  have hmem : ∀ path, path ∈ ps ↔ path ∈ ps' := by
    intro path
    rw [h2]
    refine (planWalk_mem _ ?_ hu (.refl _) hps' path).symm
    intro st hs
    simp only [Option.isSome_map] at hs
    obtain ⟨o, ho⟩ := Option.isSome_iff_exists.1 hs
    rw [ho]
    simp only [Planner.activated, Option.bind_eq_some_iff] at ho
    obtain ⟨u, hu, ho⟩ := ho
    obtain ⟨g1, g2, g3⟩ := activatedEnding_some ho
    simp only [Option.map_some, Option.some.injEq, g3]
    constructor
    · rintro ⟨e, he, hce⟩
      have he' := he
      rw [hends] at he'
      obtain ⟨r, hr', rfl⟩ := List.mem_map.1 he'
      exact ⟨u, hu, r, hr', (Registered.given_iff (g1 _ he)).1 hce⟩
    · rintro ⟨u', hu', r, hr', hg⟩
      rw [hu] at hu'; cases hu'
      have hm : r.ending A (p.forDims A ds f).base ∈ (p.forDims A ds f).endings := by
        rw [hends]; exact List.mem_map.2 ⟨r, hr', rfl⟩
      exact ⟨_, hm, (Registered.given_iff (g1 _ hm)).2 hg⟩
  refine ⟨ps, h1, fun path hp => hd path ((hmem path).1 hp), h2, ?_⟩
  have : ∀ c path, (c, path) ∈ calls.zip ps → (c.1, c.2.views) =
      (Body.section f, p.views ++ ds.reverse.map .hoist ++ path.map fun di => .fix di.1 di.2) := by
    intro c path hm
    obtain ⟨-, g2, u, r, -, g3, -, g4, -⟩ := h4 c path hm
    rw [List.mem_singleton] at g3
    subst g3
    rw [g4, g2]
    rfl
  clear h1 h2 h4 hd hmem h hps'
  induction calls generalizing ps with
  | nil => cases ps with
    | nil => rfl
    | cons _ _ => simp at h3
  | cons c calls ih =>
    cases ps with
    | nil => simp at h3
    | cons a ps =>
      simp only [List.map_cons, List.cons.injEq]
      refine ⟨this c a (by simp), ih ps (by simpa using h3) ?_⟩
      intro c' path' hm
      exact this c' path' (by simp only [List.zip_cons_cons, List.mem_cons]; exact .inr hm)

/-! ### Where the property does not hold -/

/-- Ten elements (of four bytes) in blocks of four. -/
def c35Blocks : Planner :=
  ⟨.view (.setLength 0 (.dyn 10)) (.vector 0 (.scalar 4 4)), [.intoBlocksDyn 0 1 2 3, .setLength 2 (.dyn 4)], []⟩

/-- C35 does not hold for `into_blocks_dynamic`: all the indices of the structure are known before the loop
over the third dimension, which would leave the absent elements out. The function is called twelve
times, for the elements 0 to 11; there are ten. -/
theorem C35_dynamic_blocks_out_of_range :
    (((c35Blocks.forEach .ideal 0).bind (·.execute .ideal)).map fun cs =>
      cs.map fun c => (c.2.state .ideal).bind fun u => u (.idx 0)) =
      some ((List.range 12).map fun i => some (.dyn i)) ∧
    (((Traverser.mk c35Blocks.base c35Blocks.views).forEach .ideal []).map fun sts =>
      sts.map fun u => u (.idx 0)) = some ((List.range 10).map fun i => some (.dyn i)) := by
  decide

/-- Two elements, repeated three times. -/
def c35Bcast (vs : List View) : Planner :=
  ⟨.view (.setLength 0 (.dyn 2)) (.vector 0 (.scalar 4 4)), [.bcast 1, .setLength 1 (.dyn 3)] ++ vs, []⟩

/-- C35 does not hold for `bcast`: whether the function is called for all the indices of the added dimension
depends on the order of the loops. -/
theorem C35_broadcast_dimension_skipped :
    (((c35Bcast []).forEach .ideal 0).bind (·.execute .ideal)).map List.length = some 6 ∧
    (((c35Bcast [.hoist 0]).forEach .ideal 0).bind (·.execute .ideal)).map List.length = some 2 ∧
    ((Traverser.mk (c35Bcast [.hoist 0]).base (c35Bcast [.hoist 0]).views).forEach .ideal []).map List.length =
      some 6 := by
  decide

/-- Two rows of three elements. -/
def c35Matrix : Planner :=
  ⟨.view (.setLength 1 (.dyn 2)) (.view (.setLength 0 (.dyn 3)) (.vector 1 (.vector 0 (.scalar 4 4)))), [], []⟩

/-- C35 does not hold for `for_sections` over a dimension that is not outermost: the function is called for
each of the indices of the outer dimension again, six times instead of three. `for_dims` calls it three
times. -/
theorem C35_sections_repeated :
    ((c35Matrix.forSections .ideal [0] 7).execute .ideal).map (fun cs => cs.map Prod.fst) =
      some (List.replicate 6 (.section 7)) ∧
    ((c35Matrix.forDims .ideal [0] 7).execute .ideal).map (fun cs => cs.map Prod.fst) =
      some (List.replicate 3 (.section 7)) := by
  decide

/-- A tuple of an array of two elements and one of three elements. -/
def c35Tuple : Planner :=
  ⟨.tuple 1 2 (fun i => .view (.setLength 0 (.dyn (i + 2))) (.vector 0 (.scalar 4 4))), [], []⟩

/-- C35 does not hold for tuples: a planner that has to go over a tuple dimension does not compile; a
traverser visits the five elements. If the function is called for one field only, there is a loop over
that field. -/
theorem C35_tuple_does_not_compile :
    (((c35Tuple.forEach .ideal 0).bind (·.execute .ideal)).map List.length) = none ∧
    ((Traverser.mk c35Tuple.base c35Tuple.views).forEach .ideal []).map List.length = some 5 ∧
    ((((c35Tuple.order [.fix 1 (.lit 1)]).forEach .ideal 0).bind (·.execute .ideal)).map List.length) = some 3 := by
  decide

/-! ### Examples -/

/-- The hypotheses of `C35_for_each_partial` for a matrix, with the columns as the outer loop. -/
example : ∃ q calls, (c35Matrix.order [.hoist 0]).forEach .ideal 5 = some q ∧
    q.execute .ideal = some calls ∧ (c35Matrix.order [.hoist 0]).top.wf .ideal ∧
    (c35Matrix.order [.hoist 0]).top.noAlias ∧ (c35Matrix.order [.hoist 0]).top.sane .ideal ∧
    (∀ v ∈ (c35Matrix.order [.hoist 0]).views, v.direct) ∧
    calls.map (fun c => ((c.2.state .ideal).bind fun u => u (.idx 1), (c.2.state .ideal).bind fun u => u (.idx 0))) =
      [(some (.dyn 0), some (.dyn 0)), (some (.dyn 1), some (.dyn 0)), (some (.dyn 0), some (.dyn 1)),
        (some (.dyn 1), some (.dyn 1)), (some (.dyn 0), some (.dyn 2)), (some (.dyn 1), some (.dyn 2))] := by
  refine ⟨_, _, rfl, rfl, ⟨by decide, by decide, by decide, by decide, by decide, trivial⟩, ?_, ?_, ?_, by decide⟩
  · simp [c35Matrix, Planner.order, Planner.top, Struct.apply, Struct.noAlias]
  · simp [c35Matrix, Planner.order, Planner.top, Struct.apply, Struct.sane]
  · simp [c35Matrix, Planner.order, View.direct]

/-- Nested: sections for each row, for which the function is called with each element. -/
def c35Nested : Planner :=
  ((c35Matrix.forEach .ideal 5).map (·.forSections .ideal [1] 6)).getD c35Matrix

example : c35Nested.endings = [Registered.each 5, .sections [1] 6].map (·.ending .ideal c35Nested.base) := rfl

example : (c35Nested.execute .ideal).map (fun cs => cs.map fun c => (c.1, c.2.endings.length)) =
    some [(.section 6, 1), (.section 6, 1)] := by decide

example : (c35Nested.runAll .ideal 2).map List.length = some 6 := by decide

example : ((c35Matrix.forDims .ideal [0] 7).top.sem .ideal).sig.uniq := by
  refine ⟨rfl, rfl, trivial⟩

end Noarr
