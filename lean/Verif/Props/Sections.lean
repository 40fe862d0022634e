import Verif.SectionTrees
import Verif.RangeLemmas

/-
C29: nested traversals.
-/

namespace Noarr

/-- C29: `for_sections` over any dimensions with `for_each` inside visits what `for_each` visits, each
element once. The lengths of the dimensions that remain are known in every state. -/
theorem C29_sections_decompose (A : Arith) (t : Traverser) (ht : t.top.tame)
    (hf : t.top.firm fun _ => false) (hw : (t.top.sem A).sig.wf = true) (hu : (t.top.sem A).sig.uniq)
    (hl : ∀ st, (∀ q, st (.len q) = none) → LengthsKnown (t.top.sem A) st)
    (ds : List Dim) (ts : List Traverser) (h : t.forSections A ds = some ts)
    (inner : List (List State)) (hi : ts.map (fun u => u.forEach A []) = inner.map some)
    (sts : List State) (hall : t.forEach A [] = some sts) : inner.flatten.Perm sts := by
  have hs : Plain A t.top := ⟨ht, hf, hw, hu⟩
  cases ds with
  | nil => exact run_perm hs (suits_tree hu) h hall hi hl
  | cons d ds =>
    simp only [Traverser.forSections] at h
    split at h
    · exact run_perm hs (suits_filter hu (c := []) (by simp)) h hall hi hl
    · cases h

/-- C29: `for_dims` over any dimensions, in any order in which they can be iterated, with `for_each`
inside visits what `for_each` visits, each element once. -/
theorem C29_dims_decompose (A : Arith) (t : Traverser) (ht : t.top.tame)
    (hf : t.top.firm fun _ => false) (hw : (t.top.sem A).sig.wf = true) (hu : (t.top.sem A).sig.uniq)
    (hl : ∀ st, (∀ q, st (.len q) = none) → LengthsKnown (t.top.sem A) st)
    (ds : List Dim) (hds : ds.Nodup)
    (hc : Compiles (((t.top.sem A).sig.tree.filter fun d => ds.contains d).reorder ds) (t.top.sem A).sig)
    (ts : List Traverser) (h : t.forDims A ds = some ts)
    (inner : List (List State)) (hi : ts.map (fun u => u.forEach A []) = inner.map some)
    (sts : List State) (hall : t.forEach A [] = some sts) : inner.flatten.Perm sts := by
  have hs : Plain A t.top := ⟨ht, hf, hw, hu⟩
  simp only [Traverser.forDims] at h
  split at h
  · exact run_perm hs (suits_reorder hu (fun d hd => by simpa using hd) hds hc) h hall hi hl
  · cases h

/-- The outermost loops of a reordered tree are those of the named dimensions. -/
theorem reorder_prefix {S : Sem} {X : DimTree} {ds : List Dim} (hn : ds.Nodup) {φ : List (Dim × Nat)}
    (hφ : ∀ d ∈ ds, d ∉ φ.map Prod.fst) {st : State} {ps : List Path}
    (h : walk S ((X.reorder ds).fixAll φ) st = some ps) {p : Path} (hp : p ∈ ps) : ds <+: p.map Prod.fst := by
  induction ds generalizing φ st ps p with
  | nil => exact List.nil_prefix
  | cons e ds ih =>
    rw [List.nodup_cons] at hn
    have he := hφ e (by simp)
    have hφ' : ∀ j, ∀ d ∈ ds, d ∉ ((e, j) :: φ : List (Dim × Nat)).map Prod.fst := by
      intro j d hd
      rw [List.map_cons, List.mem_cons, not_or]
      exact ⟨by rintro rfl; exact hn.1 hd, hφ d (by simp [hd])⟩
    rw [DimTree.reorder_fixAll _ he, walk_shape] at h
    split at h
    · obtain ⟨i, -, qs, h1, h2⟩ := (seqAll_mem h).1 hp
      obtain ⟨qs', h3, rfl⟩ := Option.map_eq_some_iff.1 h1
      obtain ⟨q, hq, rfl⟩ := List.mem_map.1 h2
      exact List.cons_prefix_cons.2 ⟨rfl, ih hn.2 (hφ' _) h3 hq⟩
    · split at h
      · simp only [Option.bind_eq_some_iff] at h
        obtain ⟨l, -, m, -, h⟩ := h
        obtain ⟨i, -, qs, h1, h2⟩ := (seqAll_mem h).1 hp
        obtain ⟨qs', h3, rfl⟩ := Option.map_eq_some_iff.1 h1
        obtain ⟨q, hq, rfl⟩ := List.mem_map.1 h2
        exact List.cons_prefix_cons.2 ⟨rfl, ih hn.2 (hφ' _) h3 hq⟩
      · cases h
    · cases h

/-- C29: `for_dims` iterates the dimensions in the given order: each call gets a traverser with the
indices of one combination given, the combinations being in lexicographic order, with the first named
dimension the most significant. -/
theorem C29_dims_in_the_given_order (A : Arith) (t : Traverser) (ds : List Dim) (hds : ds.Nodup)
    (ts : List Traverser) (h : t.forDims A ds = some ts) :
    ∃ ps : List Path, ts = ps.map t.visit ∧ ps.Pairwise PathLt ∧ ∀ p ∈ ps, ds <+: p.map Prod.fst := by
  simp only [Traverser.forDims] at h
  split at h
  · obtain ⟨ps, hps, rfl⟩ := Option.map_eq_some_iff.1 h
    exact ⟨ps, rfl, walk_sorted _ hps, fun p hp => reorder_prefix (φ := []) hds (by simp) hps hp⟩
  · cases h

/-- C29: `for_sections` iterates the named dimensions in the order of the signature, the combinations
being in lexicographic order. Only the named dimensions have an index. -/
theorem C29_sections_in_order (A : Arith) (t : Traverser) (ds : List Dim) (hne : ds ≠ [])
    (ts : List Traverser) (h : t.forSections A ds = some ts) :
    ∃ ps : List Path, ts = ps.map t.visit ∧ ps.Pairwise PathLt ∧
      ∀ p ∈ ps, ∀ di ∈ p, di.1 ∈ ds := by
  cases ds with
  | nil => exact absurd rfl hne
  | cons d ds =>
    simp only [Traverser.forSections] at h
    split at h
    · obtain ⟨ps, hps, rfl⟩ := Option.map_eq_some_iff.1 h
      refine ⟨ps, rfl, walk_sorted _ hps, fun p hp di hdi => ?_⟩
      have := (DimTree.filter_contains (walk_dims hps hp hdi)).2
      simpa using this
    · cases h

/-- C29: `for_sections` and `for_dims` are refused when one of the named dimensions is not a dimension of
the traversed structure. -/
theorem C29_named_dimensions_exist (A : Arith) (t : Traverser) (ds : List Dim) (ts : List Traverser)
    (h : t.forSections A ds = some ts ∨ t.forDims A ds = some ts) :
    ∀ d ∈ ds, (t.top.sem A).sig.anyAccept d = true := by
  have key : ∀ es : List Dim,
      (ds.all fun d => ((t.top.sem A).sig.tree.filter fun d => es.contains d).contains d) = true →
      ∀ d ∈ ds, (t.top.sem A).sig.anyAccept d = true := fun es he d hd =>
    Sig.tree_contains (DimTree.filter_contains (List.all_eq_true.1 he d hd)).1
  rcases h with h | h
  · cases ds with
    | nil => simp
    | cons d ds =>
      simp only [Traverser.forSections] at h
      split at h
      · next hc => exact key _ hc
      · cases h
  · simp only [Traverser.forDims] at h
    split at h
    · next hc => exact key _ hc
    · cases h

/-! ### Examples -/

/-- The example of C26 (a vector of pairs), as a traverser. -/
def c29Example : Traverser := ⟨c26Example, []⟩

example : c29Example.top.tame := by
  refine ⟨fun i => ?_, trivial⟩
  dsimp only
  split <;> simp [Struct.tame, View.tame]

example : c29Example.top.firm fun _ => false := by
  intro i
  dsimp only
  split <;> simp [Struct.firm]

example : (c29Example.top.sem .ideal).sig.wf = true := by decide

example : (c29Example.top.sem .ideal).sig.uniq := by
  refine ⟨by decide, fun i => ?_⟩
  refine ⟨by revert i; decide, ?_⟩
  match i with
  | 0 => exact trivial
  | 1 => exact ⟨rfl, trivial⟩

theorem c29Example_sig : (c29Example.top.sem .ideal).sig =
    .fn 0 .dynamic (.dep 9 2 fun i => if i = 0 then .scalar 4 else .fn 1 (.static 3) (.scalar 4)) := by
  have h9 : ((Struct.tuple 9 2 fun i => if i = 0 then .scalar 4 4
      else .view (.setLength 1 (.lit 3)) (.vector 1 (.scalar 4 4))).sem .ideal).sig =
      .dep 9 2 fun i => if i = 0 then .scalar 4 else .fn 1 (.static 3) (.scalar 4) := by
    simp only [Struct.sem, tupleSem]
    rw [if_neg (by decide)]
    congr 1
    funext i
    match i with
    | 0 => rfl
    | 1 => rfl
  show ((Struct.view (.setLength 0 (.dyn 2)) (.vector 0 _)).sem .ideal).sig = _
  rw [Struct.sem, Struct.sem]
  simp only [View.sem, ViewSem.toSem, setLengthSem, vectorSem, h9]
  rw [if_neg (by decide)]
  rfl

/-- The lengths are known. -/
example (st : State) (hn : ∀ q, st (.len q) = none) : LengthsKnown (c29Example.top.sem .ideal) st := by
  intro q hq hd
  rw [c29Example_sig] at hq hd
  rcases hq with rfl | rfl | ⟨k, hk, hq⟩
  · simp [c29Example, Traverser.top, Struct.apply, c26Example, Struct.sem, View.sem, ViewSem.toSem, setLengthSem,
      vectorSem, guardLen, State.has, State.set, State.remove]
  · exact absurd (by simp [Sig.find] <;> rfl) (hd 9 2 _)
  · match k with
    | 0 => exact absurd hq id
    | 1 =>
      rcases hq with rfl | hq
      · have h9 : st (.idx 9) = some (.lit 1) := Sig.litIdx_eq_some hk
        simp [c29Example, Traverser.top, Struct.apply, c26Example, Struct.sem, View.sem, ViewSem.toSem, setLengthSem,
          vectorSem, tupleSem, guardLen, State.has, State.set, State.remove, State.removeAll, constIdx, h9, Sig.litIdx]
      · exact absurd hq id

/-- The fields outside, the elements of the vector inside. -/
example : ∃ (ts : List Traverser) (inner : List (List State)) (sts : List State), c29Example.forDims .ideal [9, 0] = some ts ∧
    ts.map (fun u => u.forEach .ideal []) = inner.map some ∧ inner.map List.length = [1, 1, 3, 3] ∧
    c29Example.forEach .ideal [] = some sts := by
  exact ⟨_, [_, _, _, _], _, rfl, rfl, rfl, rfl⟩

example : Compiles (((c29Example.top.sem .ideal).sig.tree.filter fun d => [9, 0].contains d).reorder [9, 0])
    (c29Example.top.sem .ideal).sig := by
  rw [c29Example_sig]
  refine ⟨by decide, fun i => ⟨by revert i; decide, ?_⟩⟩
  intro j v
  obtain ⟨j, hj⟩ := j
  have : j = 0 := by have : j < 1 := hj; omega
  subst this
  match i with
  | ⟨0, _⟩ => exact trivial
  | ⟨1, _⟩ => exact trivial

/-- A section for each of the fields. -/
example : (c29Example.forSections .ideal [9]).map (fun ts => ts.map fun u =>
    (u.forEach .ideal []).map List.length) = some [some 2, some 6] := by decide

/-- Sections of the vector do not compile, as the fields of the pairs would have to be skipped
(base/utility.hpp:300-318). -/
example : (c29Example.forSections .ideal [0]).isNone = true := by decide

end Noarr
