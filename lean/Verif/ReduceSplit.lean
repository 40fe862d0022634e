import Verif.ReduceLemmas
import Verif.RangeLemmas
import Verif.SelectMore
import Verif.Props.Range

/-
How the states of a traversal are distributed among threads. For C34.
-/

set_option linter.unusedSimpArgs false

namespace Noarr

/-- the states of a range, if its traversal compiles -/
def Range.states (r : Range) : List State := (r.forEach .ideal).getD []

theorem seqAll_states {ls : List Range} {xs : List State}
    (h : seqAll (ls.map fun r => r.forEach .ideal) = some xs) : xs = (ls.map Range.states).flatten := by
  induction ls generalizing xs with
  | nil => cases h; rfl
  | cons l ls ih =>
    simp only [List.map_cons, seqAll, bind, Option.bind_eq_some_iff, Option.some.injEq] at h
    obtain ⟨a, ha, b, hb, rfl⟩ := h
    rw [List.map_cons, List.flatten_cons, ← ih hb, Range.states, ha]
    rfl

theorem mapM_states {threads : List (List Range)} {xss : List (List State)}
    (h : threads.mapM (threadStates .ideal) = some xss) :
    xss = threads.map fun ls => (ls.map Range.states).flatten := by
  have h1 := mapM_some h
  have h2 : xss.map some = (threads.map fun ls => (ls.map Range.states).flatten).map some := by
    rw [h1, List.map_map]
    apply List.map_congr_left
    intro ls hls
    have : threadStates .ideal ls ∈ xss.map some := by rw [h1]; exact List.mem_map_of_mem hls
    obtain ⟨xs, -, hx⟩ := List.mem_map.1 this
    simp only [Function.comp]
    rw [← hx, ← seqAll_states hx.symm]
  exact (List.map_inj_right (fun _ _ h => Option.some.inj h)).1 h2

section
variable {t : Traverser} {d : Dim} {l : ArgLen} {s : Sig}

theorem Range.forEach_eq (hsig : (t.top.sem .ideal).sig = .fn d l s) (hu : (t.top.sem .ideal).sig.uniq) {v : Val}
    (hv : (t.top.sem .ideal).len d .empty = some v) (p : Range) (h1 : p.dim = d) (h2 : p.base = t.base)
    (h3 : p.views = t.views) :
    p.forEach .ideal = seqAll ((List.range (p.hi - p.lo)).map fun i =>
      (t.order [.fix d (.dyn (p.lo + i))]).forEach .ideal []) := by
  have := slice_items hsig hu hv p.lo (p.hi - p.lo)
  rw [← this]
  simp only [Range.forEach, Range.asTraverser, Traverser.order, h1, h2, h3]

/-- A state of a range is visited with one of the indices of the range. -/
theorem Range.states_mem (hsig : (t.top.sem .ideal).sig = .fn d l s) (hu : (t.top.sem .ideal).sig.uniq) {v : Val}
    (hv : (t.top.sem .ideal).len d .empty = some v) (p : Range) (h1 : p.dim = d) (h2 : p.base = t.base)
    (h3 : p.views = t.views) {st : State} (h : st ∈ p.states) :
    ∃ i, p.lo ≤ i ∧ i < p.hi ∧ ∃ xs, (t.order [.fix d (.dyn i)]).forEach .ideal [] = some xs ∧ st ∈ xs := by
  cases e : p.forEach .ideal with
  | none => simp [Range.states, e] at h
  | some xs =>
    rw [Range.states, e, Option.getD_some] at h
    rw [Range.forEach_eq hsig hu hv p h1 h2 h3] at e
    have hh := (seqAll_mem e).1 h
    obtain ⟨i, hi, ys, hys, hst⟩ := hh
    have := List.mem_range.1 hi
    exact ⟨p.lo + i, by omega, by omega, ys, hys, hst⟩

theorem Range.states_empty (hsig : (t.top.sem .ideal).sig = .fn d l s) (hu : (t.top.sem .ideal).sig.uniq) {v : Val}
    (hv : (t.top.sem .ideal).len d .empty = some v) (p : Range) (h1 : p.dim = d) (h2 : p.base = t.base)
    (h3 : p.views = t.views) (he : p.empty = true) : p.states = [] := by
  have : p.hi = p.lo := by simpa [Range.empty] using he
  rw [Range.states, Range.forEach_eq hsig hu hv p h1 h2 h3, this, Nat.sub_self]
  rfl

end

/-- The leaves of a split range: they are parts of it that follow one another. -/
theorem leaves_ranges (tree : SplitTree) (r : Range) (hr : r.lo ≤ r.hi) (ls : List Range)
    (h : tree.leaves r = some ls) :
    (∀ p ∈ ls, p.dim = r.dim ∧ p.base = r.base ∧ p.views = r.views ∧ r.lo ≤ p.lo ∧ p.lo ≤ p.hi ∧ p.hi ≤ r.hi) ∧
    ls.Pairwise fun p p' => p.hi ≤ p'.lo := by
  induction tree generalizing r ls with
  | leaf => cases h; simp; exact hr
  | node a b iha ihb =>
    simp only [SplitTree.leaves] at h
    split at h
    · simp only [bind, Option.bind_eq_some_iff, Option.some.injEq] at h
      obtain ⟨l, hl, l', hl', rfl⟩ := h
      have ea := iha r.split.1 (by simp only [Range.split]; omega) l hl
      have eb := ihb r.split.2 (by simp only [Range.split]; omega) l' hl'
      simp only [Range.split] at ea eb
      constructor
      · intro p hp
        rcases List.mem_append.1 hp with hp | hp
        · obtain ⟨g1, g2, g3, g4, g5, g6⟩ := ea.1 p hp
          exact ⟨g1, g2, g3, by omega, g5, by omega⟩
        · obtain ⟨g1, g2, g3, g4, g5, g6⟩ := eb.1 p hp
          exact ⟨g1, g2, g3, by omega, g5, by omega⟩
      · rw [List.pairwise_append]
        refine ⟨ea.2, eb.2, fun p hp p' hp' => ?_⟩
        obtain ⟨-, -, -, g4, g5, g6⟩ := ea.1 p hp
        obtain ⟨-, -, -, g4', g5', g6'⟩ := eb.1 p' hp'
        omega
    · cases h

/-- All threads together visit the states of the traversal. -/
theorem threads_perm {t : Traverser} {r : Range} (hr : t.range .ideal = some r)
    (hu : (t.top.sem .ideal).sig.uniq) {sts : List State} (hs : t.forEach .ideal [] = some sts)
    {tree : SplitTree} {ls : List Range} (h : tree.leaves r = some ls) {threads : List (List Range)}
    (hp : threads.flatten.Perm (ls.filter fun l => !l.empty)) {xss : List (List State)}
    (hx : threads.mapM (threadStates .ideal) = some xss) : xss.flatten.Perm sts := by
  obtain ⟨l, s, v, h1, h2, h3, h4, h5, h6⟩ := Traverser.range_eq hr
  obtain ⟨parts, hparts, hf, -⟩ := C33_parallel_for_each t r hr hu sts hs tree ls h
  have hl := leaves_ranges tree r (by omega) ls h
  have e1 : ls.map Range.states = parts := by
    have : ls.map Range.states = (ls.map fun p => p.forEach .ideal).map (·.getD []) := by
      rw [List.map_map]; rfl
    rw [this, hparts, List.map_map]
    exact (List.map_congr_left (fun _ _ => rfl)).trans (List.map_id _)
  have e2 : ((ls.filter fun l => !l.empty).map Range.states).flatten = (ls.map Range.states).flatten := by
    clear hp hparts h e1
    induction ls with
    | nil => rfl
    | cons p ls ih =>
      have ihh := ih ⟨fun p hp => hl.1 p (List.mem_cons_of_mem _ hp), (List.pairwise_cons.1 hl.2).2⟩
      obtain ⟨g1, g2, g3, -⟩ := hl.1 p (List.mem_cons_self ..)
      cases e : p.empty with
      | false => simp [List.filter_cons, e, ihh]
      | true =>
        have := Range.states_empty h1 hu h2 p g1 (g2.trans h5) (g3.trans h6) e
        simp [List.filter_cons, e, ihh, this]
  rw [mapM_states hx]
  have e3 : (threads.map fun ls => (ls.map Range.states).flatten).flatten =
      (threads.flatten.map Range.states).flatten := by
    clear hp hx
    induction threads with
    | nil => rfl
    | cons a as ih => simp [ih]
  rw [e3, ← hf, ← e1, ← e2]
  exact (hp.map _).flatten

/-- Two threads never visit states with the same index of the split dimension. -/
theorem threads_pairwise {t : Traverser} {r : Range} (hr : t.range .ideal = some r)
    (hu : (t.top.sem .ideal).sig.uniq) {tree : SplitTree} {ls : List Range} (h : tree.leaves r = some ls)
    {threads : List (List Range)} (hp : threads.flatten.Perm (ls.filter fun l => !l.empty))
    {xss : List (List State)} (hx : threads.mapM (threadStates .ideal) = some xss) {Q : State → State → Prop}
    (hQ : ∀ i j, i ≠ j → ∀ xs ys, (t.order [.fix r.dim (.dyn i)]).forEach .ideal [] = some xs →
      (t.order [.fix r.dim (.dyn j)]).forEach .ideal [] = some ys → ∀ st ∈ xs, ∀ st' ∈ ys, Q st st') :
    xss.Pairwise fun xs ys => ∀ st ∈ xs, ∀ st' ∈ ys, Q st st' := by
  obtain ⟨l, s, v, h1, h2, h3, h4, h5, h6⟩ := Traverser.range_eq hr
  have hl := leaves_ranges tree r (by omega) ls h
  let D (p p' : Range) : Prop := (p.hi ≤ p'.lo ∨ p'.hi ≤ p.lo)
  have hD : (ls.filter fun l => !l.empty).Pairwise D :=
    (hl.2.filter _).imp fun h => .inl h
  have hD2 : threads.flatten.Pairwise D := (hp.pairwise_iff (fun {a b} h => Or.symm h)).2 hD
  have hm : ∀ ts ∈ threads, ∀ p ∈ ts, p ∈ ls := fun ts hts p hpt =>
    (List.mem_filter.1 (hp.subset (List.mem_flatten.2 ⟨ts, hts, hpt⟩))).1
  rw [mapM_states hx, List.pairwise_map]
  rw [List.pairwise_flatten] at hD2
  refine List.Pairwise.imp_of_mem ?_ hD2.2
  intro a b ha hb hab st hst st' hst'
  simp only [List.mem_flatten, List.mem_map] at hst hst'
  obtain ⟨_, ⟨p, hpa, rfl⟩, hst⟩ := hst
  obtain ⟨_, ⟨p', hpb, rfl⟩, hst'⟩ := hst'
  obtain ⟨g1, g2, g3, -⟩ := hl.1 p (hm a ha p hpa)
  obtain ⟨g1', g2', g3', -⟩ := hl.1 p' (hm b hb p' hpb)
  obtain ⟨i, i1, i2, xs, hxs, hsx⟩ := p.states_mem h1 hu h2 g1 (g2.trans h5) (g3.trans h6) hst
  obtain ⟨j, j1, j2, ys, hys, hsy⟩ := p'.states_mem h1 hu h2 g1' (g2'.trans h5) (g3'.trans h6) hst'
  have : D p p' := hab p hpa p' hpb
  exact hQ i j (by simp only [D] at this; omega) xs ys hxs hys st hsx st' hsy

end Noarr
