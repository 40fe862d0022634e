import Verif.PlannerIterLemmas
import Verif.PlannerIterSpec

/-
C51: ranges and iterators of planners.
-/

namespace Noarr

/-- If `execute` compiles and no function is due before the first loop, then none is activated there. -/
theorem Planner.activated_none {A : Arith} {p : Planner} {rs : List Registered} {calls : List (Body × Planner)}
    (hr : p.endings = rs.map (·.ending A p.base)) (hd : ¬ p.due A rs .empty)
    (h : p.execute A = some calls) : p.endings ≠ [] ∧ p.activated A .empty = some none := by
  have he : p.endings ≠ [] := by
    intro he
    simp [Planner.execute, he] at h
  refine ⟨he, ?_⟩
  rw [Planner.execute_eq he, Option.bind_eq_some_iff] at h
  obtain ⟨ps, hp, -⟩ := h
  have hs : ∃ o, p.activated A .empty = some o := by
    cases ht : (p.top.sem A).sig.tree with
    | bad => rw [ht] at hp; cases hp
    | leaf =>
      rw [ht] at hp
      simp only [planWalk] at hp
      cases ha : p.activated A .empty with
      | none => rw [ha] at hp; cases hp
      | some o => exact ⟨o, rfl⟩
    | node d n bs =>
      rw [ht] at hp
      simp only [planWalk] at hp
      cases ha : p.activated A .empty with
      | none => rw [ha] at hp; cases hp
      | some o => exact ⟨o, rfl⟩
  obtain ⟨o, ho⟩ := hs
  rw [ho]
  cases o with
  | none => rfl
  | some e =>
    exfalso
    apply hd
    simp only [Planner.activated, Option.bind_eq_some_iff] at ho
    obtain ⟨u, hu, ho⟩ := ho
    obtain ⟨g1, g2, -⟩ := activatedEnding_some ho
    obtain ⟨hm, hc⟩ := g2 e rfl
    have hm' := hm
    rw [hr] at hm'
    obtain ⟨r, hr', rfl⟩ := List.mem_map.1 hm'
    exact ⟨u, hu, r, hr', (Registered.given_iff (g1 _ hm)).1 hc⟩

theorem seqAll_parts {α : Type} {os : List (Option (List α))} {x : List α} (h : seqAll os = some x) :
    ∃ parts : List (List α), os = parts.map some ∧ parts.flatten = x := by
  induction os generalizing x with
  | nil => cases h; exact ⟨[], rfl, rfl⟩
  | cons o os ih =>
    simp only [seqAll, bind, Option.bind_eq_some_iff, Option.some.injEq] at h
    obtain ⟨a, rfl, b, hb, rfl⟩ := h
    obtain ⟨ps, hp, hf⟩ := ih hb
    exact ⟨a :: ps, by simp [hp], by simp [hf]⟩

/-- C51: the range of a planner goes over the indices below the length of its top dimension; and the items
of the range, executed one after another, make exactly the calls the planner makes. Provided that no
function is called before the first loop (see `C51_called_before_the_loop`). -/
theorem C51_items_of_the_range_partial (A : Arith) (p : Planner) (rs : List Registered) (r : PlanRange)
    (hr : p.endings = rs.map (·.ending A p.base)) (hg : p.range A = some r) (hu : (p.top.sem A).sig.uniq)
    (hd : ¬ p.due A rs .empty) (calls : List (Body × Planner)) (h : p.execute A = some calls) :
    (∃ v, (p.top.sem A).len r.dim .empty = some v ∧ v.Num r.size) ∧
    ∃ parts : List (List (Body × Planner)), (List.range r.size).map (fun i => (r.item i).execute A) = parts.map some ∧ parts.flatten = calls := by
  obtain ⟨l, s, v, h1, h2, h3, h4, h5⟩ := Planner.range_eq hg
  obtain ⟨he, ha⟩ := Planner.activated_none hr hd h
  have hs : r.size = r.hi := by simp [PlanRange.size, h4]
  refine ⟨⟨v, h2, by rw [hs]; exact h3⟩, ?_⟩
  rw [execute_items he h1 hu h2 h3 ha] at h
  obtain ⟨parts, hp, hf⟩ := seqAll_parts h
  refine ⟨parts, ?_, hf⟩
  rw [← hp, hs]
  simp [PlanRange.item, h4, h5]

/-- C51: `planner | planner_omp_execute()`, whatever the interleaving of the items is, makes exactly the
calls the sequential `execute` makes, each as many times, up to their order. -/
theorem C51_omp_execute_partial (A : Arith) (p : Planner) (rs : List Registered) (r : PlanRange)
    (hr : p.endings = rs.map (·.ending A p.base)) (hg : p.range A = some r) (hu : (p.top.sem A).sig.uniq)
    (hd : ¬ p.due A rs .empty) (calls : List (Body × Planner)) (h : p.execute A = some calls) :
    ∃ parts : List (List (Body × Planner)), p.ompExecute A = some parts ∧ ∀ xs, Interleaved parts xs → xs.Perm calls := by
  obtain ⟨-, parts, hp, hf⟩ := C51_items_of_the_range_partial A p rs r hr hg hu hd calls h
  refine ⟨parts, ?_, fun xs hx => hf ▸ hx.perm⟩
  simp only [Planner.ompExecute, hg, bind, Option.bind_some]
  have : ∀ (is : List Nat) (parts : List (List (Body × Planner))),
      is.map (fun i => (r.item i).execute A) = parts.map some → is.mapM (fun i => (r.item i).execute A) = some parts := by
    intro is
    induction is with
    | nil => intro parts h; cases parts with
      | nil => rfl
      | cons _ _ => cases h
    | cons i is ih =>
      intro parts h
      cases parts with
      | nil => cases h
      | cons a parts =>
        simp only [List.map_cons, List.cons.injEq] at h
        rw [List.mapM_cons, h.1, ih parts h.2]
        rfl
  exact this _ _ hp

/-- C51: `as_planner()` of any part of the range calls what the items of that part call, in the same order:
the same functions, with the same states, and with the same functions left registered. -/
theorem C51_as_planner_partial (p : Planner) (rs : List Registered) (r : PlanRange)
    (hr : p.endings = rs.map (·.ending .ideal p.base)) (hg : p.range .ideal = some r)
    (hu : (p.top.sem .ideal).sig.uniq) (hd : ¬ p.due .ideal rs .empty) (calls : List (Body × Planner))
    (h : p.execute .ideal = some calls) (lo hi : Nat) :
    let part : PlanRange := { r with lo := lo, hi := hi }
    (part.asPlanner.execute .ideal).map (fun cs => cs.map fun c => (c.1, c.2.state .ideal, c.2.endings)) =
      (seqAll ((List.range part.size).map fun i => (part.item i).execute .ideal)).map fun cs =>
        cs.map fun c => (c.1, c.2.state .ideal, c.2.endings) := by
  obtain ⟨l, s, v, h1, h2, h3, h4, h5⟩ := Planner.range_eq hg
  obtain ⟨he, ha⟩ := Planner.activated_none hr hd h
  have := slice_execute he h1 hu h2 ha lo (hi - lo)
  simp only [PlanRange.asPlanner, PlanRange.item, PlanRange.size, h5]
  exact this

/-- C51: what is ordered by `order` is the part of the structure in the range; the registered functions
stay. -/
theorem C51_order_of_a_range (r : PlanRange) (vs : List View) :
    (r.order vs).base = r.planner.base ∧ (r.order vs).endings = r.planner.endings ∧
    (r.order vs).top = (Struct.view (.slice r.dim (.dyn r.lo) (.dyn r.size)) r.planner.top).apply vs := by
  simp [PlanRange.order, PlanRange.size, Planner.order, Planner.top, Struct.apply_append, Struct.apply]

/-- C51: from `begin()`, repeated increments reach `end()` after `size()` steps and not earlier, and on
the way they give the items of the range in order. The bounds fit into `size_t` (of `w` bits). -/
theorem C51_begin_to_end (w : Nat) (r : PlanRange) (h : r.lo ≤ r.hi) (hw : r.hi < 2 ^ w) :
    (∀ k, k ≤ r.size → (((r.begin w).incs k).eq (r.end w) = true ↔ k = r.size)) ∧
    (∀ k, k < r.size → ((r.begin w).incs k).deref = r.item k ∧ ((r.begin w).incs k).lt (r.end w) = true) ∧
    ((r.end w).diff (r.begin w)).toNat = r.size := by
  have key : ∀ k, k ≤ r.size → ((r.begin w).incs k).idx.toNat = r.lo + k ∧
      ((r.begin w).incs k).dim = r.dim ∧ ((r.begin w).incs k).planner = r.planner := by
    intro k
    induction k with
    | zero =>
      intro _
      refine ⟨?_, rfl, rfl⟩
      simp only [PlanIter.incs, PlanRange.begin, BitVec.toNat_ofNat]
      rw [Nat.mod_eq_of_lt (by omega)]; rfl
    | succ k ih =>
      intro hk
      obtain ⟨h1, h2, h3⟩ := ih (by omega)
      refine ⟨?_, h2, h3⟩
      simp only [PlanRange.size] at hk
      have hw1 : 1 < 2 ^ w := by omega
      simp only [PlanIter.incs, PlanIter.inc, BitVec.toNat_add, h1]
      rw [show (1 : BitVec w).toNat = 1 from by simp [BitVec.toNat_ofNat, Nat.mod_eq_of_lt hw1]]
      rw [Nat.mod_eq_of_lt (by omega)]; omega
  have hend : (r.end w).idx.toNat = r.hi := by
    simp only [PlanRange.end, BitVec.toNat_ofNat]; exact Nat.mod_eq_of_lt hw
  refine ⟨fun k hk => ?_, fun k hk => ⟨?_, ?_⟩, ?_⟩
  · simp only [PlanIter.eq, beq_iff_eq, ← BitVec.toNat_inj, (key k hk).1, hend]
    simp only [PlanRange.size] at hk ⊢
    omega
  · obtain ⟨h1, h2, h3⟩ := key k (by omega)
    simp only [PlanIter.deref, PlanRange.item, h1, h2, h3]
  · simp only [PlanRange.size] at hk
    simp only [PlanIter.lt, BitVec.ult, decide_eq_true_eq, hend, (key k (by simp only [PlanRange.size]; omega)).1]
    omega
  · simp only [PlanIter.diff, BitVec.toNat_sub, hend]
    simp only [PlanRange.begin, BitVec.toNat_ofNat, PlanRange.size]
    rw [Nat.mod_eq_of_lt (show r.lo < 2 ^ w by omega)]
    rw [show 2 ^ w - r.lo + r.hi = (r.hi - r.lo) + 2 ^ w by omega, Nat.add_mod_right,
      Nat.mod_eq_of_lt (by omega)]

/-- C51: the arithmetic of iterators, for all differences (also negative ones, and those that leave the
range and come back). -/
theorem C51_iterator_arithmetic {w : Nat} (a b : PlanIter w) (n m : BitVec w)
    (h : a.dim = b.dim ∧ a.planner = b.planner) :
    (a.plus n).minus n = a ∧ (a.minus n).plus n = a ∧ (a.plus n).diff a = n ∧ b.plus (a.diff b) = a ∧
    (a.plus n).plus m = a.plus (n + m) ∧ a.minus n = a.plus (-n) ∧ a.inc = a.plus 1 ∧ a.inc.dec = a ∧
    a.dec.inc = a ∧ a.get n = (a.plus n).deref ∧ (a.eq b = true ↔ a = b) ∧
    (a.diff b = 0 ↔ a.eq b = true) := by
  have hsub : ∀ x y : BitVec w, x - y = x + -y := fun x y => BitVec.sub_eq_add_neg x y
  obtain ⟨h1, h2⟩ := h
  refine ⟨?_, ?_, ?_, ?_, ?_, ?_, rfl, ?_, ?_, rfl, ?_, ?_⟩
  · simp only [PlanIter.plus, PlanIter.minus, BitVec.add_sub_cancel]
  · simp only [PlanIter.plus, PlanIter.minus, BitVec.sub_add_cancel]
  · simp only [PlanIter.plus, PlanIter.diff]; rw [BitVec.add_comm, BitVec.add_sub_cancel]
  · cases a; cases b
    simp only [PlanIter.plus, PlanIter.diff] at *
    subst h1 h2
    rw [BitVec.add_comm, BitVec.sub_add_cancel]
  · simp only [PlanIter.plus, BitVec.add_assoc]
  · simp only [PlanIter.plus, PlanIter.minus, hsub]
  · simp only [PlanIter.inc, PlanIter.dec, BitVec.add_sub_cancel]
  · simp only [PlanIter.inc, PlanIter.dec, BitVec.sub_add_cancel]
  · simp only [PlanIter.eq, beq_iff_eq]
    constructor
    · intro e; cases a; cases b; simp_all
    · rintro rfl; rfl
  · simp only [PlanIter.diff, PlanIter.eq, beq_iff_eq]
    constructor
    · intro e
      have := congrArg (· + b.idx) e
      simpa [BitVec.sub_add_cancel] using this
    · intro e; rw [e]; simp

/-! ### Where the property does not hold -/

/-- Two rows of three elements, for which a function is registered by `for_sections<>()`, without any
dimension. -/
def c51Early : Planner :=
  Planner.forSections .ideal
    ⟨.view (.setLength 1 (.dyn 2)) (.view (.setLength 0 (.dyn 3)) (.vector 1 (.vector 0 (.scalar 4 4)))), [], []⟩ [] 7

/-- C51 does not hold if a function is called before the first loop: `execute` calls it once, the items call
it once each. -/
theorem C51_called_before_the_loop :
    (c51Early.execute .ideal).map List.length = some 1 ∧
    (c51Early.ompExecute .ideal).map (fun parts => parts.map List.length) = some [1, 1] := by
  decide

/-! ### Examples -/

/-- Two rows of three elements; a function for each element, and one for each row. -/
def c51Planner : Planner :=
  Planner.forSections .ideal ((Planner.forEach .ideal
    ⟨.view (.setLength 1 (.dyn 2)) (.view (.setLength 0 (.dyn 3)) (.vector 1 (.vector 0 (.scalar 4 4)))), [], []⟩
    5).getD ⟨.scalar 1 1, [], []⟩) [1] 6

/-- The hypotheses of `C51_items_of_the_range_partial`. -/
example : ∃ r calls, c51Planner.endings = [Registered.each 5, .sections [1] 6].map (·.ending .ideal c51Planner.base) ∧
    c51Planner.range .ideal = some r ∧ r.size = 2 ∧ (c51Planner.top.sem .ideal).sig.uniq ∧
    (¬ c51Planner.due .ideal [.each 5, .sections [1] 6] .empty) ∧ c51Planner.execute .ideal = some calls ∧
    calls.length = 2 := by
  refine ⟨_, _, rfl, rfl, rfl, ⟨rfl, rfl, trivial⟩, ?_, rfl, rfl⟩
  rintro ⟨u, hu, r, hr, hg⟩
  obtain rfl : State.empty = u := Option.some.inj hu
  simp only [List.mem_cons, List.not_mem_nil, or_false] at hr
  rcases hr with rfl | rfl
  · have := hg 1 (by simp [c51Planner, Planner.forSections, Planner.forEach, Struct.sem, ViewSem.toSem, View.sem,
      setLengthSem, vectorSem, scalarSem, Sig.anyAccept, Sig.setLengthRepl, Sig.replace, Sig.needs])
    cases this
  · have := hg 1 (by simp)
    cases this

/-- The second row only. -/
example : ∃ r, (c51Planner.range .ideal) = some r ∧
    ((({ r with lo := 1, hi := 2 } : PlanRange).asPlanner.execute .ideal).map fun cs =>
      cs.map fun c => ((c.2.state .ideal).bind fun u => u (.idx 1))) = some [some (.dyn 1)] :=
  ⟨_, rfl, by decide⟩

end Noarr
