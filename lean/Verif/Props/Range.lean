import Verif.RangeSpec
import Verif.RangeLemmas

/-
C32: ranges and iterators. C33: splitting of ranges.
-/

namespace Noarr

theorem Traverser.range_eq {A : Arith} {t : Traverser} {r : Range} (h : t.range A = some r) :
    ∃ l s v, (t.top.sem A).sig = .fn r.dim l s ∧ (t.top.sem A).len r.dim .empty = some v ∧ v.nat? = some r.hi ∧
      r.lo = 0 ∧ r.base = t.base ∧ r.views = t.views := by
  unfold Traverser.range at h
  split at h
  · next d l s hs =>
    simp only [bind, Option.bind_eq_some_iff, Option.some.injEq] at h
    obtain ⟨v, hv, n, hn, rfl⟩ := h
    exact ⟨l, s, v, hs, hv, hn, rfl, rfl, rfl⟩
  · cases h

/-- C32: the range of a traverser goes over the indices below the length of its top dimension, and the
traversal of the traverser is the traversals of the items of the range, one after another. -/
theorem C32_items_of_the_range (A : Arith) (t : Traverser) (r : Range) (hr : t.range A = some r)
    (hu : (t.top.sem A).sig.uniq) :
    (∃ v, (t.top.sem A).len r.dim .empty = some v ∧ v.Num r.size) ∧
    t.forEach A [] = seqAll ((List.range r.size).map fun i => (r.item i).forEach A []) := by
  obtain ⟨l, s, v, h1, h2, h3, h4, h5, h6⟩ := Traverser.range_eq hr
  have hs : r.size = r.hi := by simp [Range.size, h4]
  refine ⟨⟨v, h2, by rw [hs]; exact h3⟩, ?_⟩
  rw [forEach_items h1 hu h2 h3, hs]
  simp only [Range.item, Traverser.order, h4, h5, h6, Nat.zero_add]

/-- C32: `as_traverser()` of any part of the range visits what the items of that part visit, in the
same order. -/
theorem C32_as_traverser_visits_the_items (t : Traverser) (r : Range) (hr : t.range .ideal = some r)
    (hu : (t.top.sem .ideal).sig.uniq) (lo hi : Nat) :
    ({ r with lo := lo, hi := hi } : Range).asTraverser.forEach .ideal [] =
      seqAll ((List.range ({ r with lo := lo, hi := hi } : Range).size).map fun i =>
        (({ r with lo := lo, hi := hi } : Range).item i).forEach .ideal []) := by
  obtain ⟨l, s, v, h1, h2, -, -, h5, h6⟩ := Traverser.range_eq hr
  have := slice_items h1 hu h2 lo (hi - lo)
  simpa only [Range.asTraverser, Range.item, Range.size, Traverser.order, h5, h6] using this

/-- C32: what is ordered by `order` is the part of the structure in the range. -/
theorem C32_order_of_a_range (r : Range) (vs : List View) :
    (r.order vs).base = r.base ∧
    (r.order vs).top =
      (Struct.view (.slice r.dim (.dyn r.lo) (.dyn r.size)) (r.base.apply r.views)).apply vs := by
  simp [Range.order, Range.size, Traverser.top, Struct.apply_append, Struct.apply]

/-- C32: from `begin()`, repeated increments reach `end()` after `size()` steps and not earlier, and on
the way they give the items of the range in order. The bounds fit into `size_t` (of `w` bits). -/
theorem C32_begin_to_end (w : Nat) (r : Range) (h : r.lo ≤ r.hi) (hw : r.hi < 2 ^ w) :
    (∀ k, k ≤ r.size → (((r.begin w).incs k).eq (r.end w) = true ↔ k = r.size)) ∧
    (∀ k, k < r.size → ((r.begin w).incs k).deref = r.item k ∧ ((r.begin w).incs k).lt (r.end w) = true) ∧
    ((r.end w).diff (r.begin w)).toNat = r.size := by
  have key : ∀ k, k ≤ r.size → ((r.begin w).incs k).idx.toNat = r.lo + k ∧
      ((r.begin w).incs k).dim = r.dim ∧ ((r.begin w).incs k).base = r.base ∧
      ((r.begin w).incs k).views = r.views := by
    intro k
    induction k with
    | zero =>
      intro _
      refine ⟨?_, rfl, rfl, rfl⟩
      simp only [Iter.incs, Range.begin, BitVec.toNat_ofNat]
      rw [Nat.mod_eq_of_lt (by omega)]; rfl
    | succ k ih =>
      intro hk
      obtain ⟨h1, h2, h3, h4⟩ := ih (by omega)
      refine ⟨?_, h2, h3, h4⟩
      simp only [Range.size] at hk
      have hw1 : 1 < 2 ^ w := by omega
      simp only [Iter.incs, Iter.inc, BitVec.toNat_add, h1]
      rw [show (1 : BitVec w).toNat = 1 from by simp [BitVec.toNat_ofNat, Nat.mod_eq_of_lt hw1]]
      rw [Nat.mod_eq_of_lt (by omega)]; omega
  have hend : (r.end w).idx.toNat = r.hi := by
    simp only [Range.end, BitVec.toNat_ofNat]; exact Nat.mod_eq_of_lt hw
  refine ⟨fun k hk => ?_, fun k hk => ⟨?_, ?_⟩, ?_⟩
  · simp only [Iter.eq, beq_iff_eq, ← BitVec.toNat_inj, (key k hk).1, hend]
    simp only [Range.size] at hk ⊢
    omega
  · obtain ⟨h1, h2, h3, h4⟩ := key k (by omega)
    simp only [Iter.deref, Range.item, h1, h2, h3, h4]
  · simp only [Range.size] at hk
    simp only [Iter.lt, BitVec.ult, decide_eq_true_eq, hend, (key k (by simp only [Range.size]; omega)).1]
    omega
  · simp only [Iter.diff, BitVec.toNat_sub, hend]
    simp only [Range.begin, BitVec.toNat_ofNat, Range.size]
    rw [Nat.mod_eq_of_lt (show r.lo < 2 ^ w by omega)]
    rw [show 2 ^ w - r.lo + r.hi = (r.hi - r.lo) + 2 ^ w by omega, Nat.add_mod_right,
      Nat.mod_eq_of_lt (by omega)]

/-- C32: the arithmetic of iterators, for all differences (also negative ones, and those that leave the
range and come back). -/
theorem C32_iterator_arithmetic {w : Nat} (a b : Iter w) (n m : BitVec w)
    (h : a.dim = b.dim ∧ a.base = b.base ∧ a.views = b.views) :
    (a.plus n).minus n = a ∧ (a.minus n).plus n = a ∧ (a.plus n).diff a = n ∧ b.plus (a.diff b) = a ∧
    (a.plus n).plus m = a.plus (n + m) ∧ a.minus n = a.plus (-n) ∧ a.inc = a.plus 1 ∧ a.inc.dec = a ∧
    a.dec.inc = a ∧ a.get n = (a.plus n).deref ∧ (a.eq b = true ↔ a = b) ∧
    (a.diff b = 0 ↔ a.eq b = true) := by
  have hsub : ∀ x y : BitVec w, x - y = x + -y := fun x y => BitVec.sub_eq_add_neg x y
  obtain ⟨h1, h2, h3⟩ := h
  refine ⟨?_, ?_, ?_, ?_, ?_, ?_, rfl, ?_, ?_, rfl, ?_, ?_⟩
  · simp only [Iter.plus, Iter.minus, BitVec.add_sub_cancel]
  · simp only [Iter.plus, Iter.minus, BitVec.sub_add_cancel]
  · simp only [Iter.plus, Iter.diff]; rw [BitVec.add_comm, BitVec.add_sub_cancel]
  · cases a; cases b
    simp only [Iter.plus, Iter.diff] at *
    subst h1 h2 h3
    rw [BitVec.add_comm, BitVec.sub_add_cancel]
  · simp only [Iter.plus, BitVec.add_assoc]
  · simp only [Iter.plus, Iter.minus, hsub]
  · simp only [Iter.inc, Iter.dec, BitVec.add_sub_cancel]
  · simp only [Iter.inc, Iter.dec, BitVec.sub_add_cancel]
  · simp only [Iter.eq, beq_iff_eq]
    constructor
    · intro e; cases a; cases b; simp_all
    · rintro rfl; rfl
  · simp only [Iter.diff, Iter.eq, beq_iff_eq]
    constructor
    · intro e
      have := congrArg (· + b.idx) e
      simpa [BitVec.sub_add_cancel] using this
    · intro e; rw [e]; simp

/-! ### Splitting -/

/-- C33: however a range is split, the parts have the same traverser, are in order and disjoint, cover
exactly the range, and are not empty if the range is not. -/
theorem C33_splitting_partitions (tree : SplitTree) (r : Range) (hr : r.lo ≤ r.hi) (ls : List Range)
    (h : tree.leaves r = some ls) :
    (∀ p ∈ ls, p.dim = r.dim ∧ p.base = r.base ∧ p.views = r.views ∧ p.lo ≤ p.hi ∧
      (r.empty = false → p.empty = false)) ∧
    ls.Pairwise (fun p q => p.hi ≤ q.lo) ∧
    ∀ i, (r.lo ≤ i ∧ i < r.hi) ↔ ∃ p ∈ ls, p.lo ≤ i ∧ i < p.hi := by
  have key : (∀ p ∈ ls, p.dim = r.dim ∧ p.base = r.base ∧ p.views = r.views ∧ p.lo ≤ p.hi ∧ r.lo ≤ p.lo ∧
      p.hi ≤ r.hi ∧ (r.lo < r.hi → p.lo < p.hi)) ∧
      ls.Pairwise (fun p q => p.hi ≤ q.lo) ∧
      ∀ i, (r.lo ≤ i ∧ i < r.hi) ↔ ∃ p ∈ ls, p.lo ≤ i ∧ i < p.hi := by
    induction tree generalizing r ls with
    | leaf =>
      cases h
      refine ⟨?_, List.pairwise_singleton _ _, fun i => by simp⟩
      intro p hp
      rw [List.mem_singleton] at hp
      subst hp
      exact ⟨rfl, rfl, rfl, hr, Nat.le_refl _, Nat.le_refl _, fun h => h⟩
    | node a b iha ihb =>
      simp only [SplitTree.leaves] at h
      split at h
      · next hd =>
        simp only [Range.isDivisible, decide_eq_true_eq] at hd
        simp only [bind, Option.bind_eq_some_iff, Option.some.injEq] at h
        obtain ⟨l, hl, l', hl', rfl⟩ := h
        obtain ⟨a1, a2, a3⟩ := iha r.split.1 (by simp only [Range.split]; omega) l hl
        obtain ⟨b1, b2, b3⟩ := ihb r.split.2 (by simp only [Range.split]; omega) l' hl'
        simp only [Range.split] at a1 a3 b1 b3
        refine ⟨?_, ?_, ?_⟩
        · intro p hp
          rcases List.mem_append.1 hp with hp | hp
          · obtain ⟨c1, c2, c3, c4, c5, c6, c7⟩ := a1 p hp
            exact ⟨c1, c2, c3, c4, c5, by omega, fun h => c7 (by omega)⟩
          · obtain ⟨c1, c2, c3, c4, c5, c6, c7⟩ := b1 p hp
            exact ⟨c1, c2, c3, c4, by omega, c6, fun h => c7 (by omega)⟩
        · refine List.pairwise_append.2 ⟨a2, b2, fun p hp q hq => ?_⟩
          obtain ⟨-, -, -, -, -, c6, -⟩ := a1 p hp
          obtain ⟨-, -, -, -, c5, -, -⟩ := b1 q hq
          omega
        · intro i
          constructor
          · intro hi
            by_cases hm : i < r.lo + (r.hi - r.lo) / 2
            · obtain ⟨p, hp, h⟩ := (a3 i).1 ⟨hi.1, hm⟩
              exact ⟨p, List.mem_append_left _ hp, h⟩
            · obtain ⟨p, hp, h⟩ := (b3 i).1 ⟨by omega, hi.2⟩
              exact ⟨p, List.mem_append_right _ hp, h⟩
          · rintro ⟨p, hp, h⟩
            rcases List.mem_append.1 hp with hp | hp
            · have := (a3 i).2 ⟨p, hp, h⟩; omega
            · have := (b3 i).2 ⟨p, hp, h⟩; omega
      · cases h
  obtain ⟨h1, h2, h3⟩ := key
  refine ⟨fun p hp => ?_, h2, h3⟩
  obtain ⟨c1, c2, c3, c4, -, -, c7⟩ := h1 p hp
  refine ⟨c1, c2, c3, c4, fun he => ?_⟩
  simp only [Range.empty, beq_eq_false_iff_ne] at he ⊢
  have := c7 (by omega)
  omega

theorem seqAll_append {α : Type} (a b : List (Option (List α))) :
    seqAll (a ++ b) = (seqAll a).bind fun x => (seqAll b).map fun y => x ++ y := by
  induction a with
  | nil => simp [seqAll]
  | cons o a ih =>
    simp only [List.cons_append, seqAll, ih, bind]
    cases o with
    | none => rfl
    | some x =>
      simp only [Option.bind_some]
      cases seqAll a with
      | none => rfl
      | some y =>
        simp only [Option.bind_some]
        cases seqAll b with
        | none => rfl
        | some z => simp

/-- The traversals of the leaves make up the traversal of the range. -/
theorem leaves_forEach {t : Traverser} {d : Dim} {l : ArgLen} {s : Sig}
    (hsig : (t.top.sem .ideal).sig = .fn d l s) (hu : (t.top.sem .ideal).sig.uniq) {v : Val}
    (hv : (t.top.sem .ideal).len d .empty = some v) (tree : SplitTree) (r : Range) (hd : r.dim = d)
    (hb : r.base = t.base) (hvs : r.views = t.views) (hr : r.lo ≤ r.hi) (ls : List Range)
    (h : tree.leaves r = some ls) :
    seqAll (ls.map fun p => p.forEach .ideal) = r.forEach .ideal := by
  have key : ∀ p : Range, p.dim = d → p.base = t.base → p.views = t.views →
      p.forEach .ideal = seqAll ((List.range (p.hi - p.lo)).map fun i =>
        (t.order [.fix d (.dyn (p.lo + i))]).forEach .ideal []) := by
    intro p h1 h2 h3
    have := slice_items hsig hu hv p.lo (p.hi - p.lo)
    rw [← this]
    simp only [Range.forEach, Range.asTraverser, Traverser.order, h1, h2, h3]
  induction tree generalizing r ls with
  | leaf =>
    cases h
    simp only [List.map_cons, List.map_nil, seqAll]
    cases r.forEach .ideal <;> simp
  | node a b iha ihb =>
    simp only [SplitTree.leaves] at h
    split at h
    · simp only [bind, Option.bind_eq_some_iff, Option.some.injEq] at h
      obtain ⟨l, hl, l', hl', rfl⟩ := h
      have ea := iha r.split.1 hd hb hvs (by simp only [Range.split]; omega) l hl
      have eb := ihb r.split.2 hd hb hvs (by simp only [Range.split]; omega) l' hl'
      rw [List.map_append, seqAll_append, ea, eb, key r hd hb hvs, key r.split.1 hd hb hvs,
        key r.split.2 hd hb hvs]
      have e : r.hi - r.lo = (r.split.1.hi - r.split.1.lo) + (r.split.2.hi - r.split.2.lo) := by
        simp only [Range.split]; omega
      rw [e, List.range_add, List.map_append, seqAll_append, List.map_map]
      congr 1
      funext x
      congr 1
      congr 1
      apply List.map_congr_left
      intro i _
      simp only [Function.comp, Range.split]
      congr 5
      omega
    · cases h

/-- C33: a parallel `for_each` (`tbb_for_each`, interop/tbb.hpp:31-34), with any splitting and any
interleaving of the parts, calls the function exactly once for each element: on the same states as
the sequential one, up to their order. -/
theorem C33_parallel_for_each (t : Traverser) (r : Range) (hr : t.range .ideal = some r)
    (hu : (t.top.sem .ideal).sig.uniq) (sts : List State) (hs : t.forEach .ideal [] = some sts)
    (tree : SplitTree) (ls : List Range) (h : tree.leaves r = some ls) :
    ∃ parts : List (List State), ls.map (fun p => p.forEach .ideal) = parts.map some ∧ parts.flatten = sts ∧
      ∀ xs, Interleaved parts xs → xs.Perm sts := by
  obtain ⟨l, s, v, h1, h2, h3, h4, h5, h6⟩ := Traverser.range_eq hr
  have e := leaves_forEach h1 hu h2 tree r rfl h5 h6 (by omega) ls h
  have e2 : r.forEach .ideal = some sts := by
    have := slice_items h1 hu h2 r.lo (r.hi - r.lo)
    rw [← hs, forEach_items h1 hu h2 h3]
    simp only [Range.forEach, Range.asTraverser, Traverser.order, h5, h6] at this ⊢
    rw [this, h4]
    simp
  rw [e2] at e
  have key : ∀ (os : List (Option (List State))) x, seqAll os = some x →
      ∃ parts : List (List State), os = parts.map some ∧ parts.flatten = x := by
    intro os
    induction os with
    | nil => intro x hx; cases hx; exact ⟨[], rfl, rfl⟩
    | cons o os ih =>
      intro x hx
      simp only [seqAll, bind, Option.bind_eq_some_iff, Option.some.injEq] at hx
      obtain ⟨a, rfl, b, hb, rfl⟩ := hx
      obtain ⟨ps, hp, hf⟩ := ih b hb
      exact ⟨a :: ps, by simp [hp], by simp [hf]⟩
  obtain ⟨parts, hp, hf⟩ := key _ _ e
  exact ⟨parts, hp, hf, fun xs hx => hf ▸ hx.perm⟩

/-- C33: `omp_for_each` and `std_for_each`, which traverse the items of the range in parallel, call the
function exactly once for each element, whatever the interleaving is. -/
theorem C33_items_in_parallel (A : Arith) (t : Traverser) (r : Range) (hr : t.range A = some r)
    (hu : (t.top.sem A).sig.uniq) (sts : List State) (hs : t.forEach A [] = some sts) :
    ∃ parts : List (List State), t.itemsForEach A = some parts ∧ parts.flatten = sts ∧
      ∀ xs, Interleaved parts xs → xs.Perm sts := by
  rw [(C32_items_of_the_range A t r hr hu).2] at hs
  have key : ∀ (is : List Nat) x, seqAll (is.map fun i => (r.item i).forEach A []) = some x →
      ∃ parts : List (List State), is.mapM (fun i => (r.item i).forEach A []) = some parts ∧ parts.flatten = x := by
    intro is
    induction is with
    | nil => intro x hx; cases hx; exact ⟨[], rfl, rfl⟩
    | cons i is ih =>
      intro x hx
      simp only [List.map_cons, seqAll, bind, Option.bind_eq_some_iff, Option.some.injEq] at hx
      obtain ⟨a, ha, b, hb, rfl⟩ := hx
      obtain ⟨ps, hp, hf⟩ := ih b hb
      exact ⟨a :: ps, by rw [List.mapM_cons, ha, hp]; rfl, by simp [hf]⟩
  obtain ⟨parts, hp, hf⟩ := key _ _ hs
  refine ⟨parts, ?_, hf, fun xs hx => hf ▸ hx.perm⟩
  simp only [Traverser.itemsForEach, hr, bind, Option.bind_some, hp]

/-- C33: the sections of `omp_for_sections` and `std_for_sections` together have the elements of the whole
traversal, in the same order if they are executed in order. -/
theorem C33_sections_in_parallel (A : Arith) (t : Traverser) (r : Range) (hr : t.range A = some r)
    (hu : (t.top.sem A).sig.uniq) :
    ∃ ts : List Traverser, t.itemSections A = some ts ∧ ts.length = r.size ∧
      seqAll (ts.map fun t => t.forEach A []) = t.forEach A [] := by
  refine ⟨(List.range r.size).map r.item, ?_, by simp, ?_⟩
  · simp only [Traverser.itemSections, hr, bind, Option.bind_some]
  · rw [(C32_items_of_the_range A t r hr hu).2, List.map_map]
    rfl

/-! ### Examples -/

/-- A matrix of 5 rows and 3 columns with the columns reversed ... -/
def c32Traverser : Traverser :=
  ⟨.apply (.vector 1 (.vector 0 (.scalar 4 4))) [.setLength 0 (.dyn 3), .setLength 1 (.lit 5)], [.reverse 0]⟩

example : ∃ r, c32Traverser.range .ideal = some r ∧ r.size = 5 ∧ r.dim = 1 := ⟨_, rfl, rfl, rfl⟩

example : (c32Traverser.top.sem .ideal).sig.uniq := ⟨rfl, rfl, trivial⟩

example : (c32Traverser.itemsForEach .ideal).map (fun parts => parts.map List.length) = some [3, 3, 3, 3, 3] := by
  decide

/-- ... split into the rows 0-1, 2 and 3-4. -/
example : ∀ r, c32Traverser.range .ideal = some r → ∃ ls,
    (SplitTree.node .leaf (.node .leaf .leaf)).leaves r = some ls ∧
    ls.map (fun p => (p.lo, p.hi)) = [(0, 2), (2, 3), (3, 5)] ∧
    (ls.map fun p => (p.forEach .ideal).map List.length) = [some 6, some 3, some 6] := by
  rintro r h
  obtain rfl := Option.some.inj h
  exact ⟨_, rfl, by decide, by decide⟩

example : (c32Traverser.forEach .ideal []).map List.length = some 15 := by decide

end Noarr
