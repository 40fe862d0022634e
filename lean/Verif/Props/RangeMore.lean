import Verif.RangeSections
import Verif.CudaSpec

/-
C32: ranges over any dimension. C33: `tbb_for_sections`.
-/

namespace Noarr

/-- What a traverser does: the states that its `for_each` over any dimensions visits, with any further
order. -/
def behaviour (u : Traverser) (vs : List View) (ds : List Dim) : Option (List State) :=
  (u.order vs).forEach .ideal ds

theorem leaves_sections {t : Traverser} {d : Dim} {l : ArgLen} {s : Sig}
    (hsig : (t.top.sem .ideal).sig = .fn d l s) (hu : (t.top.sem .ideal).sig.uniq) {v : Val}
    (hv : (t.top.sem .ideal).len d .empty = some v) (tree : SplitTree) (r : Range) (hd : r.dim = d)
    (hb : r.base = t.base) (hvs : r.views = t.views) (hr : r.lo ≤ r.hi) (ls : List Range)
    (h : tree.leaves r = some ls) (secs : List (List Traverser))
    (hs : ls.map (fun p => p.sections .ideal) = secs.map some) :
    secs.flatten.map behaviour = (List.range r.size).map fun i => behaviour (r.item i) := by
  have hdep : ¬ (t.top.sem .ideal).sig.hasDep d := by
    rw [hsig] at hu ⊢
    intro h'
    have := Sig.hasDep_accept (S := s) h'
    rw [hu.1] at this; cases this
  induction tree generalizing r ls secs with
  | leaf =>
    cases h
    cases secs with
    | nil => cases hs
    | cons ts secs =>
      simp only [List.map_cons, List.map_nil, List.cons.injEq] at hs
      obtain ⟨h1, h2⟩ := hs
      rw [eq_comm, List.map_eq_nil_iff] at h2
      subst h2
      simp only [List.flatten_cons, List.flatten_nil, List.append_nil]
      rw [sections_eq hsig hu hv hd hb hvs h1, List.map_map]
      apply List.map_congr_left
      intro i _
      funext vs ds
      have := section_forEach hdep r.lo (r.hi - r.lo) i vs ds
      simpa only [behaviour, Function.comp, Range.item, Traverser.order, hd, hb, hvs] using this
  | node a b iha ihb =>
    simp only [SplitTree.leaves] at h
    split at h
    · simp only [bind, Option.bind_eq_some_iff, Option.some.injEq] at h
      obtain ⟨l1, hl, l2, hl', rfl⟩ := h
      rw [List.map_append] at hs
      obtain ⟨s1, s2, rfl, e1, e2⟩ := List.append_eq_map_iff.1 hs
      have ea := iha r.split.1 hd hb hvs (by simp only [Range.split]; omega) l1 hl s1 e1.symm
      have eb := ihb r.split.2 hd hb hvs (by simp only [Range.split]; omega) l2 hl' s2 e2.symm
      rw [List.flatten_append, List.map_append, ea, eb]
      have e : r.size = r.split.1.size + r.split.2.size := by
        simp only [Range.split, Range.size]; omega
      rw [e, List.range_add, List.map_append, List.map_map]
      congr 1
      apply List.map_congr_left
      intro i _
      have hi : r.split.2.lo + i = r.lo + (r.split.1.size + i) := by
        simp only [Range.split, Range.size]; omega
      simp only [Function.comp, Range.item, hi]
      rfl
    · cases h

/-- C33: `tbb_for_sections`, with any splitting of the range: the function is called once for each index of
the top dimension (the calls of the parts, put together, are as many as the indices), and the traverser that
it gets for an index behaves as the item of the range with that index, also when it is ordered further. -/
theorem C33_tbb_for_sections (t : Traverser) (r : Range) (hr : t.range .ideal = some r)
    (hu : (t.top.sem .ideal).sig.uniq) (tree : SplitTree) (ls : List Range) (h : tree.leaves r = some ls)
    (secs : List (List Traverser)) (hs : ls.map (fun p => p.sections .ideal) = secs.map some) :
    secs.flatten.length = r.size ∧
    ∀ i u, secs.flatten[i]? = some u → ∀ vs ds,
      (u.order vs).forEach .ideal ds = ((r.item i).order vs).forEach .ideal ds := by
  obtain ⟨l, s, v, h1, h2, h3, h4, h5, h6⟩ := Traverser.range_eq hr
  have e := leaves_sections h1 hu h2 tree r rfl h5 h6 (by omega) ls h secs hs
  have hlen : secs.flatten.length = r.size := by
    have := congrArg List.length e
    simpa only [List.length_map, List.length_range] using this
  refine ⟨hlen, fun i u hi vs ds => ?_⟩
  have h7 := congrArg (fun l => l[i]?) e
  simp only [List.getElem?_map, hi, Option.map_some] at h7
  have hlt : i < r.size := by
    rw [← hlen]; exact (List.getElem?_eq_some_iff.1 hi).1
  rw [List.getElem?_range hlt, Option.map_some, Option.some.injEq] at h7
  exact congrFun (congrFun h7 vs) ds

/-- C33: so, `for_each` of the sections of `tbb_for_sections` visits what `for_each` of the traverser visits,
each element once, for any splitting and any interleaving of the parts. -/
theorem C33_tbb_sections_visit_each_element_once (t : Traverser) (r : Range) (hr : t.range .ideal = some r)
    (hu : (t.top.sem .ideal).sig.uniq) (tree : SplitTree) (ls : List Range) (h : tree.leaves r = some ls)
    (secs : List (List Traverser)) (hs : ls.map (fun p => p.sections .ideal) = secs.map some)
    (sts : List State) (hall : t.forEach .ideal [] = some sts) :
    ∃ parts : List (List State), secs.map (fun us => seqAll (us.map fun u => u.forEach .ideal [])) = parts.map some ∧
      parts.flatten = sts ∧ ∀ xs, Interleaved parts xs → xs.Perm sts := by
  obtain ⟨l, s, v, h1, h2, h3, h4, h5, h6⟩ := Traverser.range_eq hr
  have e := leaves_sections h1 hu h2 tree r rfl h5 h6 (by omega) ls h secs hs
  rw [(C32_items_of_the_range .ideal t r hr hu).2] at hall
  have hord : ∀ u : Traverser, behaviour u [] [] = u.forEach .ideal [] := by
    intro u; simp [behaviour, Traverser.order]
  have e' : (secs.flatten.map fun u => u.forEach .ideal []) =
      (List.range r.size).map fun i => (r.item i).forEach .ideal [] := by
    have := congrArg (List.map fun b => b [] []) e
    simpa only [List.map_map, Function.comp_def, hord] using this
  rw [← e'] at hall
  have key : ∀ (secs : List (List Traverser)) x, seqAll (secs.flatten.map fun u => u.forEach .ideal []) = some x →
      ∃ parts : List (List State), secs.map (fun us => seqAll (us.map fun u => u.forEach .ideal [])) = parts.map some ∧
        parts.flatten = x := by
    intro secs
    induction secs with
    | nil => intro x hx; cases hx; exact ⟨[], rfl, rfl⟩
    | cons us secs ih =>
      intro x hx
      rw [List.flatten_cons, List.map_append, seqAll_append] at hx
      simp only [Option.bind_eq_some_iff, Option.map_eq_some_iff] at hx
      obtain ⟨y, hy, z, hz, rfl⟩ := hx
      obtain ⟨ps, hp, rfl⟩ := ih z hz
      exact ⟨y :: ps, by simp [hy, hp], by simp⟩
  obtain ⟨parts, hp, hf⟩ := key _ _ hall
  exact ⟨parts, hp, hf, fun xs hx => hf ▸ hx.perm⟩

/-- C32: `range<Dim>()` over any ordinary dimension (not only the top one) outside tuples: the traversals of
its items together visit what `for_each` visits, each element once. -/
theorem C32_range_along_any_dimension (A : Arith) (t : Traverser) (d : Dim) (ht : t.top.tame)
    (hf : t.top.firm fun _ => false) (hw : (t.top.sem A).sig.wf = true) (hu : (t.top.sem A).sig.uniq)
    (hl : ∀ st, (∀ q, st (.len q) = none) → LengthsKnown (t.top.sem A) st) (ho : Outside (t.top.sem A) d)
    (r : Range) (hr : t.rangeAlong A d = some r) (xss : List (List State))
    (hx : (List.range r.size).mapM (fun i => (r.item i).forEach A []) = some xss)
    (sts : List State) (hall : t.forEach A [] = some sts) :
    (∃ v, (t.top.sem A).len d .empty = some v ∧ v.Num r.size) ∧ ∀ run, Interleaved xss run → run.Perm sts := by
  simp only [Traverser.rangeAlong, bind, Option.bind_eq_some_iff, Option.some.injEq] at hr
  obtain ⟨v, hv, n, hn, rfl⟩ := hr
  refine ⟨⟨v, hv, hn⟩, fun run hrun => hrun.perm.trans ?_⟩
  obtain ⟨l, s, ho⟩ := ho
  have hsuit := suits_chain (ds := [d]) hu (by simp) (fun e he => by
    rw [List.mem_singleton] at he; subst he; rw [ho]; rfl)
  have hrun : t.run A (chain [d]) = some ((List.range n).map fun i => t.visit [(d, .dyn i)]) := by
    simp only [Traverser.run, chain, walk, ho, hv, bind, Option.bind_some, hn, ↓reduceDIte, Option.map_some,
      List.map_cons, List.map_nil]
    rw [seqAll_some (g := fun i : Nat => [[(d, Val.dyn i)]]) (fun _ _ => rfl)]
    simp only [Option.map_some, List.flatMap_def]
    congr 1
    induction List.range n with
    | nil => rfl
    | cons x xs ih => simpa using ih
  refine run_perm ⟨ht, hf, hw, hu⟩ hsuit hrun hall ?_ hl
  rw [mapM_some hx, List.map_map]
  apply List.map_congr_left
  intro i _
  simp [Traverser.visit, Range.item, Traverser.order]

/-! ### Examples -/

/-- The matrix of the examples of C33, split into the rows 0-1, 2 and 3-4: a section for each row. -/
example : ∀ r, c32Traverser.range .ideal = some r → ∃ (ls : List Range) (secs : List (List Traverser)),
    (SplitTree.node .leaf (.node .leaf .leaf)).leaves r = some ls ∧
    ls.map (fun p => p.sections .ideal) = secs.map some ∧ secs.map List.length = [2, 1, 2] ∧
    (secs.flatten.map fun u => (u.forEach .ideal []).map List.length) = [some 3, some 3, some 3, some 3, some 3] := by
  rintro r h
  obtain rfl := Option.some.inj h
  exact ⟨_, [_, _, _], rfl, rfl, rfl, by decide⟩

/-- The range over the columns, each of which is traversed by an item. -/
example : ∃ r, c32Traverser.rangeAlong .ideal 0 = some r ∧ r.size = 3 ∧
    (List.range r.size).map (fun i => ((r.item i).forEach .ideal []).map List.length) = [some 5, some 5, some 5] :=
  ⟨_, rfl, rfl, by decide⟩

example : Outside (c32Traverser.top.sem .ideal) 0 := ⟨_, _, rfl⟩

example : c32Traverser.top.tame ∧ c32Traverser.top.firm fun _ => false := by
  simp [c32Traverser, Traverser.top, Struct.apply, Struct.tame, View.tame, Struct.firm, Struct.soft, Struct.stale,
    View.soft, View.stale]

example : (c32Traverser.top.sem .ideal).sig.wf = true := by decide

example (st : State) (_ : ∀ q, st (.len q) = none) : LengthsKnown (c32Traverser.top.sem .ideal) st := by
  have hs : (c32Traverser.top.sem .ideal).sig = .fn 1 (.static 5) (.fn 0 .dynamic (.scalar 4)) := rfl
  intro q hq _
  rw [hs] at hq
  rcases hq with rfl | rfl | hq
  · cases h0 : st (.idx 0) <;>
      simp [c32Traverser, Traverser.top, Struct.apply, Struct.sem, View.sem, ViewSem.toSem, reverseSem,
        setLengthSem, vectorSem, guardLen, State.has, State.set, State.remove, State.removeAll, h0]
  · simp [c32Traverser, Traverser.top, Struct.apply, Struct.sem, View.sem, ViewSem.toSem, reverseSem,
      setLengthSem, vectorSem, guardLen, State.has, State.set, State.remove, State.removeAll]
  · exact absurd hq id

end Noarr
