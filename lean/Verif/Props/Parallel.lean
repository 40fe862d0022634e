import Verif.ParallelLemmas
import Verif.Props.ForEach
import Verif.Props.Range
import Verif.Props.Reduce

/-
C74: threads that work on the same bags without disturbing each other.
-/

namespace Noarr
variable {I : Nat → Space}

theorem Execution.undisturbed {ps : List (Prog Unit)} {B : Bags} {V : Arrays} (hB : BagsHold I B V) {us : Nat → List Use}
    {ms : Nat → Nat} {Vs : Nat → Arrays} {R : Arrays}
    (hu : ∀ i (p : Prog Unit), ps[i]? = some p → p.Counts I V (us i) (ms i) () (Vs i))
    (ha : ∀ i j, i < ps.length → j < ps.length → i ≠ j → NoConflict (us i) (us j)) (hR : Merged V ps.length us Vs R)
    {log : List (Nat × Option Access)} {qs : List (Prog Unit)} {C : Bags} (h : Execution .ideal ps B log qs C) :
    (∀ e ∈ log, e.1 < ps.length) ∧ ∃ V' us' ms' Vs', Undisturbed I B ps.length us ms R log qs C V' us' ms' Vs' := by
  induction h with
  | start =>
    exact ⟨fun _ h => (nomatch h), V, us, ms, Vs, rfl, hB, fun _ => rfl, hu, fun _ _ _ h => h, hR, fun i hi => by simp,
      fun _ _ h => (nomatch h)⟩
  | step _ hi hp hs ih =>
    obtain ⟨h0, V', us', ms', Vs', ih⟩ := ih
    obtain ⟨q, C', acc, h1, h2⟩ := ih.step ha hi hp
    rw [h1] at hs
    cases hs
    refine ⟨fun e he => ?_, h2⟩
    rcases List.mem_append.1 he with he | he
    · exact h0 e he
    · rw [List.mem_singleton] at he
      subst he
      obtain ⟨hi, -⟩ := List.getElem?_eq_some_iff.1 hi
      rw [ih.length] at hi
      exact hi

theorem log_bound (n : Nat) (ms : Nat → Nat) (log : List (Nat × Option Access)) (h : ∀ e ∈ log, e.1 < n)
    (hm : ∀ i, i < n → (log.filter fun e => e.1 == i).length ≤ ms i) : log.length ≤ ((List.range n).map ms).sum := by
  induction n generalizing log with
  | zero =>
    cases log with
    | nil => simp
    | cons e log => exact absurd (h e (List.mem_cons_self ..)) (by omega)
  | succ n ih =>
    have h1 := ih (log.filter fun e => !(e.1 == n)) (fun e he => by
        have := h e ((List.mem_filter.1 he).1)
        have := (List.mem_filter.1 he).2
        simp at this
        omega) fun i hi => by
      refine Nat.le_trans ?_ (hm i (by omega))
      rw [List.filter_filter]
      rw [← List.countP_eq_length_filter, ← List.countP_eq_length_filter]
      exact List.countP_mono_left fun e _ he => by simp only [Bool.and_eq_true] at he; exact he.1
    have h2 := hm n (by omega)
    have h3 := List.length_eq_countP_add_countP (fun e : Nat × Option Access => e.1 == n) (l := log)
    rw [List.countP_eq_length_filter, List.countP_eq_length_filter] at h3
    have h4 : (log.filter fun e => !(e.1 == n)) = log.filter fun e => decide ¬ (e.1 == n) = true := by
      congr 1; funext e; cases e.1 == n <;> rfl
    rw [h4] at h1
    simp only [List.range_succ, List.map_append, List.sum_append, List.map_cons, List.map_nil, List.sum_cons,
      List.sum_nil]
    omega

/-- C74: threads of which none uses an element that another one writes. In every execution, no operation is undefined,
no two operations of different threads are a data race in memory, and the number of operations is bounded; in the end,
every element has the value given to it by the thread that writes it, as if that thread were alone. -/
theorem C74_threads (ps : List (Prog Unit)) (V : Arrays) (us : Nat → List Use) (Vs : Nat → Arrays)
    (hu : ∀ i (p : Prog Unit), ps[i]? = some p → p.Uses I V (us i) () (Vs i))
    (ha : ∀ i j, i < ps.length → j < ps.length → i ≠ j → NoConflict (us i) (us j)) (B : Bags) (hB : BagsHold I B V) :
    ∃ R, Merged V ps.length us Vs R ∧ RunsTo I ps B R := by
  obtain ⟨R, hR⟩ := Merged.exists V ps.length us Vs ha
  have hm : ∀ i, ∃ m, ∀ p : Prog Unit, ps[i]? = some p → p.Counts I V (us i) m () (Vs i) := by
    intro i
    cases hi : ps[i]? with
    | none => exact ⟨0, fun _ e => (nomatch e)⟩
    | some p =>
      obtain ⟨m, hm⟩ := (hu i p hi).counts
      exact ⟨m, fun _ e => by cases e; exact hm⟩
  obtain ⟨ms, hms⟩ := Classical.axiomOfChoice hm
  refine ⟨R, hR, ((List.range ps.length).map ms).sum, fun log qs C h => ?_⟩
  obtain ⟨h0, V', us', ms', Vs', h⟩ := h.undisturbed hB hms ha hR
  refine ⟨fun p hp hd => ?_, fun i j a b hi hj hij => ?_, ?_, h.same, fun hd => ?_⟩
  · obtain ⟨i, hi, rfl⟩ := List.getElem_of_mem hp
    obtain ⟨q, C', acc, h1, -⟩ := h.step ha (List.getElem?_eq_getElem hi) hd
    exact ⟨_, h1⟩
  · rintro ⟨hb, hw, k, hk⟩
    obtain ⟨hin, u, h1, h2⟩ := h.uses i a hi
    obtain ⟨hjn, u', h1', h2'⟩ := h.uses j b hj
    rw [← hb] at h1' h2'
    by_cases e : u = u'
    · subst e
      have := ha i j hin hjn hij _ _ _ _ h1 h1'
      simp [this.1, this.2] at hw
    · have g := (hu i _ (List.getElem?_eq_getElem hin)).has h1
      have g' := (hu j _ (List.getElem?_eq_getElem hjn)).has h1'
      obtain ⟨p, p', e1, e2, hd⟩ := (hB.layout a.bag).apart g g' e
      rw [h2] at e1; cases e1
      rw [h2'] at e2; cases e2
      omega
  · exact log_bound _ ms log h0 fun i hi => by have := h.steps i hi; omega
  · have : R = V' := by
      funext x u
      refine (h.merged x u).2 fun i hi hm => ?_
      rw [← h.length] at hi
      have hc := (h.counts i _ (List.getElem?_eq_getElem hi)).uses
      have hdi := hd _ (List.getElem_mem hi)
      generalize qs[i] = p at hc hdi
      generalize us' i = l at hc hm
      cases hc with
      | done => exact nomatch hm
      | get | set | length => cases hdi
    rw [this]
    exact h.hold

/-- C74: such threads come to an end, whatever has been done up to now. -/
theorem C74_threads_end (ps : List (Prog Unit)) (B : Bags) (R : Arrays) (hN : RunsTo I ps B R)
    (log : List (Nat × Option Access)) (qs : List (Prog Unit)) (C : Bags) (h : Execution .ideal ps B log qs C) :
    ∃ log' qs' C', Execution .ideal ps B (log ++ log') qs' C' ∧ ∀ p ∈ qs', p.isDone = true := by
  obtain ⟨N, hN⟩ := hN
  generalize hm : N - log.length = m
  induction m using Nat.strongRecOn generalizing log qs C with
  | _ m ih =>
    by_cases hd : ∀ p ∈ qs, p.isDone = true
    · exact ⟨[], qs, C, by simpa using h, hd⟩
    · have ⟨p, hp, hd⟩ : ∃ p, p ∈ qs ∧ p.isDone = false := by
        refine Classical.byContradiction fun hno => hd fun p hp => ?_
        cases e : p.isDone with
        | true => rfl
        | false => exact absurd ⟨p, hp, e⟩ hno
      obtain ⟨⟨q, C', a⟩, hs⟩ := (hN log qs C h).1 p hp hd
      obtain ⟨i, hi, rfl⟩ := List.getElem_of_mem hp
      have h' := h.step (List.getElem?_eq_getElem hi) hd hs
      have hle := (hN _ _ _ h').2.2.1
      simp only [List.length_append, List.length_cons, List.length_nil] at hle
      obtain ⟨log', qs', C'', h1, h2⟩ := ih (N - (log ++ [(i, a)]).length)
        (by simp only [List.length_append, List.length_cons, List.length_nil]; omega) _ _ _ h' rfl
      exact ⟨(i, a) :: log', qs', C'', by simpa using h1, h2⟩

theorem inOrder_uses (ps : List (Prog Unit)) (V : Arrays) (us : Nat → List Use) (Vs : Nat → Arrays)
    (hu : ∀ i (p : Prog Unit), ps[i]? = some p → p.Uses I V (us i) () (Vs i))
    (ha : ∀ i j, i < ps.length → j < ps.length → i ≠ j → NoConflict (us i) (us j)) :
    ∃ l R, (Prog.inOrder ps).Uses I V l () R ∧ Merged V ps.length us Vs R ∧
      ∀ e, e ∈ l ↔ ∃ i, i < ps.length ∧ e ∈ us i := by
  induction ps generalizing V us Vs with
  | nil =>
    exact ⟨[], V, .done, fun x u => ⟨fun i hi => absurd hi (Nat.not_lt_zero _), fun _ => rfl⟩,
      fun e => ⟨fun h => (nomatch h), fun ⟨i, hi, _⟩ => absurd hi (Nat.not_lt_zero _)⟩⟩
  | cons p ps ih =>
    have h0 := hu 0 p rfl
    have key : ∀ j, ∃ W', ∀ p' : Prog Unit, ps[j]? = some p' → p'.Uses I (Vs 0) (us (j + 1)) () W' ∧
        ∀ x u, (x, u, true) ∈ us (j + 1) → W' x u = Vs (j + 1) x u := by
      intro j
      cases hj : ps[j]? with
      | none => exact ⟨V, fun _ e => (nomatch e)⟩
      | some p' =>
        obtain ⟨hjl, -⟩ := List.getElem?_eq_some_iff.1 hj
        obtain ⟨W', g⟩ := (hu (j + 1) p' (by simpa using hj)).frame (W := Vs 0) fun x u w hm =>
          h0.unwritten fun hm' => absurd (ha 0 (j + 1) (by simp) (by simpa using hjl) (by omega) x u _ _ hm' hm).1
            (by decide)
        exact ⟨W', fun _ e => by cases e; exact g⟩
    obtain ⟨Ws, hWs⟩ := Classical.axiomOfChoice key
    obtain ⟨l, R, h1, h2, h3⟩ := ih (Vs 0) (fun j => us (j + 1)) Ws (fun i p hi => (hWs i p hi).1)
      fun i j hi hj hij => ha (i + 1) (j + 1) (by simpa using hi) (by simpa using hj) (by omega)
    refine ⟨_, R, h0.bind h1, fun x u => ⟨fun i hi hm => ?_, fun hno => ?_⟩, fun e => ?_⟩
    · cases i with
      | zero =>
        refine (h2 x u).2 fun j hj hm' => ?_
        exact absurd (ha 0 (j + 1) (by simp) (by simpa using hj) (by omega) x u _ _ hm hm').1 (by decide)
      | succ j =>
        have hj : j < ps.length := by simpa using hi
        rw [(h2 x u).1 j hj hm]
        exact (hWs j _ (List.getElem?_eq_getElem hj)).2 x u hm
    · rw [(h2 x u).2 fun j hj => hno (j + 1) (by simpa using hj)]
      exact h0.unwritten (hno 0 (by simp))
    · rw [List.mem_append, h3]
      constructor
      · rintro (h | ⟨i, hi, h⟩)
        · exact ⟨0, by simp, h⟩
        · exact ⟨i + 1, by simpa using hi, h⟩
      · rintro ⟨i, hi, h⟩
        cases i with
        | zero => exact .inl h
        | succ i => exact .inr ⟨i, by simpa using hi, h⟩

/-- C74: such threads do the same as if they ran one after another. -/
theorem C74_same_as_in_order (ps : List (Prog Unit)) (V : Arrays) (us : Nat → List Use) (Vs : Nat → Arrays)
    (hu : ∀ i (p : Prog Unit), ps[i]? = some p → p.Uses I V (us i) () (Vs i))
    (ha : ∀ i j, i < ps.length → j < ps.length → i ≠ j → NoConflict (us i) (us j)) (B : Bags) (hB : BagsHold I B V) :
    ∃ B' R, (Prog.inOrder ps).run .ideal B = .ok ((), B') ∧ BagsHold I B' R ∧ RunsTo I ps B R := by
  obtain ⟨l, R, h1, h2, -⟩ := inOrder_uses ps V us Vs hu ha
  obtain ⟨B', h3, -, h4⟩ := h1.yields.run hB
  obtain ⟨R', h5, h6⟩ := C74_threads ps V us Vs hu ha B hB
  have := h2.unique h5
  subst this
  exact ⟨B', R, h3, h4, h6⟩

theorem each_eq (body : State → Prog Unit) (xs : List State) : Prog.each body xs = Prog.inOrder (xs.map body) := by
  induction xs with
  | nil => rfl
  | cons x xs ih => simp only [Prog.each, Prog.inOrder, List.map_cons, ih]

theorem NoConflict.symm {us us' : List Use} (h : NoConflict us us') : NoConflict us' us :=
  fun x u w w' h1 h2 => ⟨(h x u w' w h2 h1).2, (h x u w' w h2 h1).1⟩

theorem each_uses {body : State → Prog Unit} {V : Arrays} {us : State → List Use} {Vs : State → Arrays} (xs : List State)
    (hu : ∀ st ∈ xs, (body st).Uses I V (us st) () (Vs st)) (ha : xs.Pairwise fun a b => NoConflict (us a) (us b)) :
    ∃ l R, (Prog.each body xs).Uses I V l () R ∧
      (∀ x u, (∀ st ∈ xs, (x, u, true) ∈ us st → R x u = Vs st x u) ∧
        ((∀ st ∈ xs, (x, u, true) ∉ us st) → R x u = V x u)) ∧ ∀ e, e ∈ l ↔ ∃ st ∈ xs, e ∈ us st := by
  have hget : ∀ i (h : i < xs.length), xs.getD i .empty = xs[i] := fun i h => by simp [h]
  obtain ⟨l, R, h1, h2, h3⟩ := inOrder_uses (I := I) (xs.map body) V (fun i => us (xs.getD i .empty))
    (fun i => Vs (xs.getD i .empty)) (fun i p hi => by
      rw [List.getElem?_map] at hi
      obtain ⟨st, h, rfl⟩ := Option.map_eq_some_iff.1 hi
      obtain ⟨hl, rfl⟩ := List.getElem?_eq_some_iff.1 h
      rw [hget i hl]
      exact hu _ (List.getElem_mem hl)) fun i j hi hj hij => by
      rw [List.length_map] at hi hj
      rw [hget i hi, hget j hj]
      rw [List.pairwise_iff_getElem] at ha
      rcases Nat.lt_or_gt_of_ne hij with h | h
      · exact ha i j hi hj h
      · exact (ha j i hj hi h).symm
  rw [List.length_map] at h2 h3
  refine ⟨l, R, each_eq body xs ▸ h1, fun x u => ⟨fun st hst hm => ?_, fun hno => ?_⟩, fun e => ?_⟩
  · obtain ⟨i, hi, rfl⟩ := List.getElem_of_mem hst
    have := (h2 x u).1 i hi
    simp only [hget i hi] at this
    exact this hm
  · exact (h2 x u).2 fun i hi => by simp only [hget i hi]; exact hno _ (List.getElem_mem hi)
  · rw [h3]
    constructor
    · rintro ⟨i, hi, h⟩
      rw [hget i hi] at h
      exact ⟨_, List.getElem_mem hi, h⟩
    · rintro ⟨st, hst, h⟩
      obtain ⟨i, hi, rfl⟩ := List.getElem_of_mem hst
      exact ⟨i, hi, by rw [hget i hi]; exact h⟩

/-- C74: a loop whose iterations do not disturb each other can be executed in parallel. However the iterations are given
to threads, and in whatever order the operations of the threads are executed, there is no data race, and the bags have
the same values as after the loop. -/
theorem C74_iterations (body : State → Prog Unit) (sts : List State) (V : Arrays) (us : State → List Use)
    (Vs : State → Arrays) (hu : ∀ st ∈ sts, (body st).Uses I V (us st) () (Vs st))
    (ha : sts.Pairwise fun a b => NoConflict (us a) (us b)) (B : Bags) (hB : BagsHold I B V) (xss : List (List State))
    (hx : xss.flatten.Perm sts) :
    ∃ B' R, (Prog.each body sts).run .ideal B = .ok ((), B') ∧ BagsHold I B' R ∧
      RunsTo I (xss.map (Prog.each body)) B R := by
  obtain ⟨l, R, h1, h2, -⟩ := each_uses sts hu ha
  obtain ⟨B', h3, -, h4⟩ := h1.yields.run hB
  have ha' := (hx.pairwise_iff (fun {_ _} h => NoConflict.symm h)).2 ha
  rw [List.pairwise_flatten] at ha'
  have hmem : ∀ xs ∈ xss, ∀ st ∈ xs, st ∈ sts := fun xs hxs st hst =>
    hx.mem_iff.1 (List.mem_flatten.2 ⟨xs, hxs, hst⟩)
  have key : ∀ i : Nat, ∃ lR : List Use × Arrays, ∀ xs, xss[i]? = some xs → (Prog.each body xs).Uses I V lR.1 () lR.2 ∧
      (∀ x u, (∀ st ∈ xs, (x, u, true) ∈ us st → lR.2 x u = Vs st x u) ∧
        ((∀ st ∈ xs, (x, u, true) ∉ us st) → lR.2 x u = V x u)) ∧ ∀ e, e ∈ lR.1 ↔ ∃ st ∈ xs, e ∈ us st := by
    intro i
    cases hi : xss[i]? with
    | none => exact ⟨([], V), fun _ e => (nomatch e)⟩
    | some xs =>
      have hxs := List.mem_of_getElem? hi
      obtain ⟨l, R, g⟩ := each_uses xs (fun st hst => hu st (hmem xs hxs st hst)) (ha'.1 xs hxs)
      exact ⟨(l, R), fun _ e => by cases e; exact g⟩
  obtain ⟨lR, hlR⟩ := Classical.axiomOfChoice key
  obtain ⟨R', h5, h6⟩ := C74_threads (I := I) (xss.map (Prog.each body)) V (fun i => (lR i).1) (fun i => (lR i).2)
    (fun i p hi => by
      rw [List.getElem?_map] at hi
      obtain ⟨xs, h, rfl⟩ := Option.map_eq_some_iff.1 hi
      exact (hlR i xs h).1) (fun i j hi hj hij => by
      rw [List.length_map] at hi hj
      have key : ∀ i j (hi : i < xss.length) (hj : j < xss.length), i < j → NoConflict (lR i).1 (lR j).1 := by
        intro i j hi hj hij x u w w' hm hm'
        obtain ⟨st, hst, hm⟩ := ((hlR i _ (List.getElem?_eq_getElem hi)).2.2 _).1 hm
        obtain ⟨st', hst', hm'⟩ := ((hlR j _ (List.getElem?_eq_getElem hj)).2.2 _).1 hm'
        have := ha'.2
        rw [List.pairwise_iff_getElem] at this
        exact this i j hi hj hij st hst st' hst' x u w w' hm hm'
      rcases Nat.lt_or_gt_of_ne hij with h | h
      · exact key i j hi hj h
      · exact (key j i hj hi h).symm) B hB
  have : R' = R := by
    rw [List.length_map] at h5
    funext x u
    by_cases hw : ∃ st, st ∈ sts ∧ (x, u, true) ∈ us st
    · obtain ⟨st, hst, hm⟩ := hw
      rw [(h2 x u).1 st hst hm]
      obtain ⟨xs, hxs, hst'⟩ := List.mem_flatten.1 (hx.mem_iff.2 hst)
      obtain ⟨i, hi, rfl⟩ := List.getElem_of_mem hxs
      have g := hlR i _ (List.getElem?_eq_getElem hi)
      rw [(h5 x u).1 i hi ((g.2.2 _).2 ⟨st, hst', hm⟩)]
      exact (g.2.1 x u).1 st hst' hm
    · have hno : ∀ st ∈ sts, (x, u, true) ∉ us st := fun st hst hm => hw ⟨st, hst, hm⟩
      rw [(h2 x u).2 hno]
      refine (h5 x u).2 fun i hi hm => ?_
      obtain ⟨st, hst, hm⟩ := ((hlR i _ (List.getElem?_eq_getElem hi)).2.2 _).1 hm
      exact hno st (hmem _ (List.getElem_mem hi) st hst) hm
  subst this
  exact ⟨B', R', h3, h4, h6⟩

theorem parts_progs (body : State → Prog Unit) {ls : List Range} {parts : List (List State)}
    (h : ls.map (fun p => p.forEach .ideal) = parts.map some) :
    ls.mapM (fun l => l.asTraverser.forEachProg .ideal body) = some (parts.map (Prog.each body)) := by
  induction ls generalizing parts with
  | nil =>
    cases parts with
    | nil => rfl
    | cons => simp at h
  | cons l ls ih =>
    cases parts with
    | nil => simp at h
    | cons q parts =>
      simp only [List.map_cons, List.cons.injEq] at h
      rw [List.mapM_cons, ih h.2]
      have : l.asTraverser.forEach .ideal [] = some q := h.1
      rw [Traverser.forEachProg, this]
      rfl

/-- C74 for `tbb_for_each`: the range is split in any way, and each part is executed by a thread of its own. (If a thread
executes several parts, that is one of the orders.) -/
theorem C74_tbb_for_each (t : Traverser) (r : Range) (hr : t.range .ideal = some r)
    (huniq : (t.top.sem .ideal).sig.uniq) (sts : List State) (hs : t.forEach .ideal [] = some sts)
    (tree : SplitTree) (ls : List Range) (h : tree.leaves r = some ls) (body : State → Prog Unit) (V : Arrays)
    (us : State → List Use) (Vs : State → Arrays) (hu : ∀ st ∈ sts, (body st).Uses I V (us st) () (Vs st))
    (ha : sts.Pairwise fun a b => NoConflict (us a) (us b)) (B : Bags) (hB : BagsHold I B V) :
    ∃ p ps B' R, t.forEachProg .ideal body = some p ∧ p.run .ideal B = .ok ((), B') ∧
      ls.mapM (fun l => l.asTraverser.forEachProg .ideal body) = some ps ∧ BagsHold I B' R ∧ RunsTo I ps B R := by
  obtain ⟨parts, h1, h2, -⟩ := C33_parallel_for_each t r hr huniq sts hs tree ls h
  obtain ⟨B', R, g1, g2, g3⟩ := C74_iterations body sts V us Vs hu ha B hB parts (by rw [h2])
  exact ⟨_, _, B', R, by rw [Traverser.forEachProg, hs]; rfl, g1, parts_progs body h1, g2, g3⟩

/-- C74 for `omp_for_each` and `std_for_each`: each item of the range is executed by a thread of its own. -/
theorem C74_omp_for_each (t : Traverser) (r : Range) (hr : t.range .ideal = some r)
    (huniq : (t.top.sem .ideal).sig.uniq) (sts : List State) (hs : t.forEach .ideal [] = some sts)
    (body : State → Prog Unit) (V : Arrays) (us : State → List Use) (Vs : State → Arrays)
    (hu : ∀ st ∈ sts, (body st).Uses I V (us st) () (Vs st))
    (ha : sts.Pairwise fun a b => NoConflict (us a) (us b)) (B : Bags) (hB : BagsHold I B V) :
    ∃ p parts B' R, t.forEachProg .ideal body = some p ∧ p.run .ideal B = .ok ((), B') ∧
      t.itemsForEach .ideal = some parts ∧ BagsHold I B' R ∧ RunsTo I (parts.map (Prog.each body)) B R := by
  obtain ⟨parts, h1, h2, -⟩ := C33_items_in_parallel .ideal t r hr huniq sts hs
  obtain ⟨B', R, g1, g2, g3⟩ := C74_iterations body sts V us Vs hu ha B hB parts (by rw [h2])
  exact ⟨_, parts, B', R, by rw [Traverser.forEachProg, hs]; rfl, g1, h1, g2, g3⟩

/-- In the state `st`, the program `e` computes the value `val st` for the element `key st` of the array `out`, without
using the array `out`, and without writing anything. -/
def OnlyReads {β : Type} (I : Nat → Space) (V : Arrays) (out : Nat) (e : State → Prog (State × β)) (key : State → State)
    (val : State → β) (st : State) : Prop :=
  ∃ u us, (I out).At u (key st) ∧ (e st).Uses I V us (u, val st) V ∧ ∀ y w b, (y, w, b) ∈ us → y ≠ out ∧ b = false

section
variable {β : Type} {out : Nat} {e : State → Prog (State × β)} {op : List UInt8 → β → List UInt8}
  {key : State → State} {val : State → β}

theorem OnlyReads.other {V V' : Arrays} {st : State} (h : OnlyReads I V out e key val st) (hV : ∀ y, y ≠ out → V' y = V y) :
    OnlyReads I V' out e key val st := by
  obtain ⟨u, us, h1, h2, h3⟩ := h
  obtain ⟨W, h4, -⟩ := h2.frame (W := V') fun x u w hm => by rw [hV x (h3 _ _ _ hm).1]
  have : W = V' := by
    funext x u
    exact h4.unwritten fun hm => absurd (h3 _ _ _ hm).2 (by decide)
  subst this
  exact ⟨u, us, h1, h4, h3⟩

theorem OnlyReads.computes {V : Arrays} {st : State} (h : OnlyReads I V out e key val st) : Computes I V out e key val st := by
  intro V' hV'
  obtain ⟨u, us, h1, h2, -⟩ := h.other hV'
  exact ⟨u, h1, h2.yields⟩

theorem accumulate_uses_of {P : Nat → Prop} (hP : ∀ y, P y → y ≠ out) {V : Arrays} {sts : List State}
    (he : ∀ st ∈ sts, ∃ u us, (I out).At u (key st) ∧ (e st).Uses I V us (u, val st) V ∧
      ∀ y w b, (y, w, b) ∈ us → P y ∧ b = false)
    (hop : ∀ st ∈ sts, ∀ w, w.length = (I out).size (key st) → (op w (val st)).length = (I out).size (key st))
    (hV : ∀ u, (I out).has u → (V out u).length = (I out).size u) :
    ∃ us, (Prog.each (accumulate out e op) sts).Uses I V us () (V.accumulated out op key val sts) ∧
      (∀ y w b, (y, w, b) ∈ us → P y ∧ b = false ∨ y = out ∧ ∃ st ∈ sts, key st = w) ∧
      ∀ st ∈ sts, (out, key st, true) ∈ us := by
  induction sts generalizing V with
  | nil =>
    have : V.accumulated out op key val [] = V := by
      funext y u; simp [Arrays.accumulated, foldAt]
    rw [this]
    exact ⟨[], .done, fun _ _ _ h => (nomatch h), fun _ h => (nomatch h)⟩
  | cons st sts ih =>
    obtain ⟨u, us, hu, hy, hr⟩ := he st (List.mem_cons_self ..)
    have hlen := hop st (List.mem_cons_self ..) _ (hV _ hu.2.1)
    have hput : ∀ y, y ≠ out → (V.put out (key st) (op (V out (key st)) (val st))) y = V y := by
      intro y hy; funext w; simp [Arrays.put, hy]
    have h1 : (accumulate out e op st).Uses I V (us ++ [(out, key st, false), (out, key st, true)]) ()
        (V.put out (key st) (op (V out (key st)) (val st))) :=
      hy.bind (.get (key st) hu (.set (key st) hu hlen .done))
    obtain ⟨us', h2, h4, h5⟩ := ih (V := V.put out (key st) (op (V out (key st)) (val st)))
      (fun s hs => by
        obtain ⟨u, us, h1, h2, h3⟩ := he s (List.mem_cons_of_mem _ hs)
        obtain ⟨W, h4, -⟩ := h2.frame (W := V.put out (key st) (op (V out (key st)) (val st))) fun x u w hm => by
          rw [hput x (hP x (h3 _ _ _ hm).1)]
        have : W = V.put out (key st) (op (V out (key st)) (val st)) := by
          funext x u
          exact h4.unwritten fun hm => absurd (h3 _ _ _ hm).2 (by decide)
        subst this
        exact ⟨u, us, h1, h4, h3⟩)
      (fun s hs => hop s (List.mem_cons_of_mem _ hs)) (fun w hw => by
        simp only [Arrays.put]
        split
        · next h => rw [h.2]; exact hlen
        · exact hV w hw)
    have h3 : (V.put out (key st) (op (V out (key st)) (val st))).accumulated out op key val sts =
        V.accumulated out op key val (st :: sts) := by
      funext y w
      simp only [Arrays.accumulated]
      split
      · next h =>
        subst h
        simp only [foldAt, List.foldl_cons, Arrays.put]
        by_cases hw : w = key st
        · subst hw; simp
        · rw [if_neg fun h => hw h.2, if_neg (Ne.symm hw)]
      · next h => rw [hput y h]
    rw [← h3]
    refine ⟨_, h1.bind h2, fun y w b hm => ?_, fun s hs => ?_⟩
    · rcases List.mem_append.1 hm with hm | hm
      · rcases List.mem_append.1 hm with hm | hm
        · exact .inl (hr y w b hm)
        · refine .inr ?_
          simp only [List.mem_cons, Prod.mk.injEq, List.not_mem_nil, or_false] at hm
          rcases hm with ⟨rfl, rfl, -⟩ | ⟨rfl, rfl, -⟩ <;> exact ⟨rfl, st, List.mem_cons_self .., rfl⟩
      · rcases h4 y w b hm with h | ⟨h, s, hs, h'⟩
        · exact .inl h
        · exact .inr ⟨h, s, List.mem_cons_of_mem _ hs, h'⟩
    · rcases List.mem_cons.1 hs with rfl | hs
      · exact List.mem_append_left _ (List.mem_append_right _ (by simp))
      · exact List.mem_append_right _ (h5 s hs)

theorem accumulate_uses {V : Arrays} {sts : List State} (he : ∀ st ∈ sts, OnlyReads I V out e key val st)
    (hop : ∀ st ∈ sts, ∀ w, w.length = (I out).size (key st) → (op w (val st)).length = (I out).size (key st))
    (hV : ∀ u, (I out).has u → (V out u).length = (I out).size u) :
    ∃ us, (Prog.each (accumulate out e op) sts).Uses I V us () (V.accumulated out op key val sts) ∧
      (∀ y w b, (y, w, b) ∈ us → y ≠ out ∧ b = false ∨ y = out ∧ ∃ st ∈ sts, key st = w) ∧
      ∀ st ∈ sts, (out, key st, true) ∈ us :=
  accumulate_uses_of (fun _ h => h) he hop hV

theorem foldAt_none {u : State} {w : List UInt8} {sts : List State} (h : ∀ st ∈ sts, key st ≠ u) :
    foldAt op key val u w sts = w := by
  induction sts generalizing w with
  | nil => rfl
  | cons st sts ih =>
    simp only [foldAt, List.foldl_cons, if_neg (h st (List.mem_cons_self ..))]
    exact ih fun s hs => h s (List.mem_cons_of_mem _ hs)

theorem foldAt_flatten {u : State} {w : List UInt8} {xss : List (List State)} {i : Nat} (hi : i < xss.length)
    (h : ∀ j (hj : j < xss.length), j ≠ i → ∀ st ∈ xss[j], key st ≠ u) :
    foldAt op key val u w xss.flatten = foldAt op key val u w xss[i] := by
  induction xss generalizing i w with
  | nil => exact absurd hi (Nat.not_lt_zero _)
  | cons xs xss ih =>
    have happ : foldAt op key val u w (xs :: xss).flatten =
        foldAt op key val u (foldAt op key val u w xs) xss.flatten := by
      simp only [foldAt, List.flatten_cons, List.foldl_append]
    rw [happ]
    cases i with
    | zero =>
      refine foldAt_none fun st hst => ?_
      obtain ⟨ys, hys, hst⟩ := List.mem_flatten.1 hst
      obtain ⟨j, hj, rfl⟩ := List.getElem_of_mem hys
      exact h (j + 1) (by simpa using hj) (by omega) st (by simpa using hst)
    | succ i =>
      rw [foldAt_none (sts := xs) (h 0 (by simp) (by omega))]
      rw [ih (i := i) (by simpa using hi) fun j hj hji st hst =>
        h (j + 1) (by simpa using hj) (by omega) st (by simpa using hst)]
      simp

/-- C74 for loops that update the elements of a bag (C73), of which several iterations can be for one element: if these
are always given to the same thread, there is no data race, and every element ends up as the fold of the values that are
meant for it. -/
theorem C74_accumulate (V : Arrays) (xss : List (List State)) (he : ∀ st ∈ xss.flatten, OnlyReads I V out e key val st)
    (hop : ∀ st ∈ xss.flatten, ∀ w, w.length = (I out).size (key st) → (op w (val st)).length = (I out).size (key st))
    (hk : xss.Pairwise fun xs ys => ∀ st ∈ xs, ∀ st' ∈ ys, key st ≠ key st') (B : Bags) (hB : BagsHold I B V) :
    RunsTo I (xss.map (Prog.each (accumulate out e op))) B (V.accumulated out op key val xss.flatten) := by
  have hk' : ∀ i j (hi : i < xss.length) (hj : j < xss.length), i ≠ j → ∀ st ∈ xss[i], ∀ st' ∈ xss[j],
      key st ≠ key st' := by
    rw [List.pairwise_iff_getElem] at hk
    intro i j hi hj hij st hst st' hst'
    rcases Nat.lt_or_gt_of_ne hij with h | h
    · exact hk i j hi hj h st hst st' hst'
    · exact (hk j i hj hi h st' hst' st hst).symm
  have hkey : ∀ i : Nat, ∃ us : List Use, ∀ xs, xss[i]? = some xs →
      (Prog.each (accumulate out e op) xs).Uses I V us () (V.accumulated out op key val xs) ∧
      (∀ y w b, (y, w, b) ∈ us → y ≠ out ∧ b = false ∨ y = out ∧ ∃ st ∈ xs, key st = w) ∧
      ∀ st ∈ xs, (out, key st, true) ∈ us := by
    intro i
    cases hi : xss[i]? with
    | none => exact ⟨[], fun _ e => (nomatch e)⟩
    | some xs =>
      have hxs := List.mem_of_getElem? hi
      obtain ⟨us, g⟩ := accumulate_uses (fun st hst => he st (List.mem_flatten.2 ⟨xs, hxs, hst⟩))
        (fun st hst => hop st (List.mem_flatten.2 ⟨xs, hxs, hst⟩)) (fun u hu => hB.length_eq hu)
      exact ⟨us, fun _ e => by cases e; exact g⟩
  obtain ⟨us, hus⟩ := Classical.axiomOfChoice hkey
  obtain ⟨R, h5, h6⟩ := C74_threads (I := I) (xss.map (Prog.each (accumulate out e op))) V us
    (fun i => V.accumulated out op key val (xss.getD i []))
    (fun i p hi => by
      rw [List.getElem?_map] at hi
      obtain ⟨xs, h, rfl⟩ := Option.map_eq_some_iff.1 hi
      have : xss.getD i [] = xs := by simp [h]
      rw [this]
      exact (hus i xs h).1) (fun i j hi hj hij x u w w' hm hm' => by
      rw [List.length_map] at hi hj
      rcases (hus i _ (List.getElem?_eq_getElem hi)).2.1 x u w hm with ⟨h1, h2⟩ | ⟨h1, st, h2, h3⟩ <;>
        rcases (hus j _ (List.getElem?_eq_getElem hj)).2.1 x u w' hm' with ⟨h1', h2'⟩ | ⟨h1', st', h2', h3'⟩
      · exact ⟨h2, h2'⟩
      · exact absurd h1' h1
      · exact absurd h1 h1'
      · exact absurd (h3.trans h3'.symm) (hk' i j hi hj hij st h2 st' h2')) B hB
  have : R = V.accumulated out op key val xss.flatten := by
    rw [List.length_map] at h5
    funext x u
    by_cases hx : x = out
    · subst hx
      by_cases hw : ∃ i, ∃ hi : i < xss.length, ∃ st ∈ xss[i], key st = u
      · obtain ⟨i, hi, st, hst, rfl⟩ := hw
        rw [(h5 x (key st)).1 i hi ((hus i _ (List.getElem?_eq_getElem hi)).2.2 st hst)]
        simp only [Arrays.accumulated, if_true, List.getD_eq_getElem?_getD, List.getElem?_eq_getElem hi,
          Option.getD_some]
        exact (foldAt_flatten hi fun j hj hji st' hst' => hk' j i hj hi hji st' hst' st hst).symm
      · rw [(h5 x u).2 fun i hi hm => ?_]
        · simp only [Arrays.accumulated, if_true]
          refine (foldAt_none fun st hst e => hw ?_).symm
          obtain ⟨xs, hxs, hst⟩ := List.mem_flatten.1 hst
          obtain ⟨i, hi, rfl⟩ := List.getElem_of_mem hxs
          exact ⟨i, hi, st, hst, e⟩
        · rcases (hus i _ (List.getElem?_eq_getElem hi)).2.1 x u true hm with ⟨h1, h2⟩ | ⟨h1, st, h2, h3⟩
          · cases h2
          · exact hw ⟨i, hi, st, h2, h3⟩
    · rw [(h5 x u).2 fun i hi hm => ?_]
      · simp only [Arrays.accumulated, if_neg hx]
      · rcases (hus i _ (List.getElem?_eq_getElem hi)).2.1 x u true hm with ⟨h1, h2⟩ | ⟨h1, -⟩
        · cases h2
        · exact hx h1
  rw [← this]
  exact h6

/-- Leaves of a range have different indices in the dimension that is split. -/
theorem leaves_differ {t : Traverser} {r : Range} (hr : t.range .ideal = some r) (huniq : (t.top.sem .ideal).sig.uniq)
    (hsplit : Splits t r.dim) {tree : SplitTree} {ls : List Range} (h : tree.leaves r = some ls)
    {parts : List (List State)} (hparts : ls.map (fun p => p.forEach .ideal) = parts.map some) :
    parts.Pairwise fun xs ys => ∀ st ∈ xs, ∀ st' ∈ ys, ¬ SameNum (st (.idx r.dim)) (st' (.idx r.dim)) := by
  obtain ⟨l, s, v, h1, h2, h3, h4, h5, h6⟩ := Traverser.range_eq hr
  have hlr := leaves_ranges tree r (by omega) ls h
  have key : (ls.map fun p => p.forEach .ideal).Pairwise fun a b => ∀ xs ys, a = some xs → b = some ys →
      ∀ st ∈ xs, ∀ st' ∈ ys, ¬ SameNum (st (.idx r.dim)) (st' (.idx r.dim)) := by
    rw [List.pairwise_map]
    refine List.Pairwise.imp_of_mem ?_ hlr.2
    intro p p' hp hp' hle xs ys hxs hys st hst st' hst'
    obtain ⟨g1, g2, g3, -⟩ := hlr.1 p hp
    obtain ⟨g1', g2', g3', -⟩ := hlr.1 p' hp'
    obtain ⟨i, i1, i2, xs', hxs', hsx⟩ := p.states_mem h1 huniq h2 g1 (g2.trans h5) (g3.trans h6) (st := st)
      (by rw [Range.states, hxs]; exact hst)
    obtain ⟨j, j1, j2, ys', hys', hsy⟩ := p'.states_mem h1 huniq h2 g1' (g2'.trans h5) (g3'.trans h6) (st := st')
      (by rw [Range.states, hys]; exact hst')
    exact hsplit i j (by omega) xs' ys' hxs' hys' st hsx st' hsy
  rw [hparts, List.pairwise_map] at key
  exact key.imp fun h => h _ _ rfl rfl

/-- C74 for `tbb_for_each` with a loop that updates the elements of a bag: if iterations for the same element have the
same index in the dimension that is split, the loop can be executed in parallel. -/
theorem C74_tbb_accumulate (t : Traverser) (r : Range) (hr : t.range .ideal = some r)
    (huniq : (t.top.sem .ideal).sig.uniq) (hsplit : Splits t r.dim) (sts : List State)
    (hs : t.forEach .ideal [] = some sts) (tree : SplitTree) (ls : List Range) (h : tree.leaves r = some ls) (V : Arrays)
    (he : ∀ st ∈ sts, OnlyReads I V out e key val st)
    (hop : ∀ st ∈ sts, ∀ w, w.length = (I out).size (key st) → (op w (val st)).length = (I out).size (key st))
    (hk : ∀ st ∈ sts, ∀ st' ∈ sts, key st = key st' → SameNum (st (.idx r.dim)) (st' (.idx r.dim))) (B : Bags)
    (hB : BagsHold I B V) :
    ∃ ps, ls.mapM (fun l => l.asTraverser.forEachProg .ideal (accumulate out e op)) = some ps ∧
      RunsTo I ps B (V.accumulated out op key val sts) := by
  obtain ⟨parts, h1, rfl, -⟩ := C33_parallel_for_each t r hr huniq sts hs tree ls h
  refine ⟨_, parts_progs _ h1, C74_accumulate V parts he hop ?_ B hB⟩
  refine List.Pairwise.imp_of_mem ?_ (leaves_differ hr huniq hsplit h h1)
  intro xs ys hxs hys hd st hst st' hst' hkey
  exact hd st hst st' hst' (hk st (List.mem_flatten.2 ⟨xs, hxs, hst⟩) st' (List.mem_flatten.2 ⟨ys, hys, hst'⟩) hkey)

end

/-- C74: the product of matrices (C73) in parallel: `tbb_for_each(traverser, [&](auto state) { c[state] += a[state] *
b[state]; })`, if the outermost dimension of the traverser is one of `c`. -/
theorem C74_matrix_product {R : Type} [Add R] [Mul R] (hadd : ∀ a b c : R, a + b + c = a + c + b) (E : ElemType R)
    {i j k : Dim} (hij : i ≠ j) (hik : i ≠ k) (hjk : j ≠ k) (N : Dim → Nat) (I : Nat → Space)
    (h0 : I 0 = .box [i, k] N E.size) (h1 : I 1 = .box [k, j] N E.size) (h2 : I 2 = .box [i, j] N E.size)
    (t : Traverser) (r : Range) (hr : t.range .ideal = some r) (hd : r.dim = i ∨ r.dim = j)
    (huniq : (t.top.sem .ideal).sig.uniq) (hsplit : Splits t r.dim) (sts : List State)
    (hs : t.forEach .ideal [] = some sts) (hnd : sts.Nodup) (hsts : ∀ u, u ∈ sts ↔ OnBox (· ∈ [i, j, k]) N u)
    (tree : SplitTree) (ls : List Range) (h : tree.leaves r = some ls) (V : Arrays) (B : Bags) (hB : BagsHold I B V) :
    ∃ ps V', ls.mapM (fun l => l.asTraverser.forEachProg .ideal (addProduct E)) = some ps ∧ RunsTo I ps B V' ∧
      (∀ y u, y ≠ 2 → V' y u = V y u) ∧
      ∀ x y, x < N i → y < N j → E.dec (V' 2 (atNM i j x y)) = (List.range (N k)).foldl
        (fun r z => r + E.dec (V 0 (atNM i k x z)) * E.dec (V 1 (atNM k j z y))) (E.dec (V 2 (atNM i j x y))) := by
  let key : State → State := fun st => st.only fun q => decide (q ∈ [i, j])
  let val : State → R := fun st => E.dec (V 0 (st.only fun q => decide (q ∈ [i, k]))) *
    E.dec (V 1 (st.only fun q => decide (q ∈ [k, j])))
  obtain ⟨ps, g1, g2⟩ := C74_tbb_accumulate (I := I) (out := 2) (key := key) (val := val)
    (e := fun st => .get 0 st fun a => .get 1 st fun b => .done (st, E.dec a * E.dec b))
    (op := fun w v => E.enc (E.dec w + v)) t r hr huniq hsplit sts hs tree ls h V (fun st hst => by
      have hbox := (hsts st).1 hst
      have a0 : (I 0).At st (st.only fun q => decide (q ∈ [i, k])) := by
        rw [h0]; exact Space.box_at hbox (by simp)
      have a1 : (I 1).At st (st.only fun q => decide (q ∈ [k, j])) := by
        rw [h1]; exact Space.box_at hbox (by simp)
      have a2 : (I 2).At st (key st) := by
        rw [h2]; exact Space.box_at hbox (by simp)
      refine ⟨st, _, a2, .get _ a0 (.get _ a1 .done), fun y w b hm => ?_⟩
      simp only [List.mem_cons, Prod.mk.injEq, List.not_mem_nil, or_false] at hm
      rcases hm with ⟨rfl, -, rfl⟩ | ⟨rfl, -, rfl⟩ <;> exact ⟨by decide, rfl⟩)
    (fun st _ w _ => by rw [E.enc_length, h2]; rfl) (fun st hst st' hst' hk => by
      have hin : r.dim ∈ [i, j] := by rcases hd with h | h <;> simp [h]
      have hin' : r.dim ∈ [i, j, k] := by rcases hd with h | h <;> simp [h]
      have := congrFun hk (.idx r.dim)
      simp only [key, State.only, hin, decide_true, if_true] at this
      obtain ⟨x, -, hx⟩ := ((hsts st).1 hst).ok r.dim hin'
      rw [hx] at this ⊢
      rw [← this]
      exact ⟨_, _, x, rfl, rfl, rfl, rfl⟩) B hB
  exact ⟨ps, _, g1, g2, fun y u hy => by simp [Arrays.accumulated, hy],
    product_value hadd E hij hik hjk N sts hnd hsts V⟩

/-- C74: the same for a traverser of three structures, as in C73. -/
theorem C74_matrix_product_by_traverser {R : Type} [Add R] [Mul R] (hadd : ∀ a b c : R, a + b + c = a + c + b)
    (E : ElemType R) {i j k : Dim} (hij : i ≠ j) (hik : i ≠ k) (hjk : j ≠ k) (N : Dim → Nat) (I : Nat → Space)
    (h0 : I 0 = .box [i, k] N E.size) (h1 : I 1 = .box [k, j] N E.size) (h2 : I 2 = .box [i, j] N E.size)
    (V : Arrays) (B : Bags) (hB : BagsHold I B V) (s : Fin 3 → Struct)
    (hu : ∀ n, ((s n).sem .ideal).sig.uniq) (hf : ∀ n, ((s n).sem .ideal).sig.flat)
    (d0 : ∀ q, ((s 0).sem .ideal).sig.anyAccept q = true ↔ q ∈ [i, k])
    (d1 : ∀ q, ((s 1).sem .ideal).sig.anyAccept q = true ↔ q ∈ [k, j])
    (d2 : ∀ q, ((s 2).sem .ideal).sig.anyAccept q = true ↔ q ∈ [i, j])
    (hN : ∀ n q, ((s n).sem .ideal).sig.anyAccept q = true → ∀ st : State, (∀ e, st (.len e) = none) →
      st (.idx q) = none → ∃ l, ((s n).sem .ideal).len q st = some l ∧ l.Num (N q))
    (r : Range) (hr : (Traverser.mk (.union 3 s) []).range .ideal = some r) (hd : r.dim = i ∨ r.dim = j)
    (tree : SplitTree) (ls : List Range) (h : tree.leaves r = some ls) :
    ∃ ps V', ls.mapM (fun l => l.asTraverser.forEachProg .ideal (addProduct E)) = some ps ∧ RunsTo I ps B V' ∧
      (∀ y u, y ≠ 2 → V' y u = V y u) ∧
      ∀ x y, x < N i → y < N j → E.dec (V' 2 (atNM i j x y)) = (List.range (N k)).foldl
        (fun r z => r + E.dec (V 0 (atNM i k x z)) * E.dec (V 1 (atNM k j z y))) (E.dec (V 2 (atNM i j x y))) := by
  obtain ⟨sts, g1, g2, g3⟩ := C31_visits_the_union_box_partial .ideal s N hu hf (fun q n hq _ => hN n q hq)
  rw [union_dims d0 d1 d2] at g3
  have huniq : ((Traverser.mk (.union 3 s) []).top.sem .ideal).sig.uniq := by
    show (Sig.unionAll ((List.finRange 3).map fun n => ((s n).sem .ideal).sig)).uniq
    refine Sig.unionAll_uniq _ fun S hS => ?_
    obtain ⟨n, -, rfl⟩ := List.mem_map.1 hS
    exact hu n
  exact C74_matrix_product hadd E hij hik hjk N I h0 h1 h2 _ r hr hd huniq
    (C34_top_dimension_splits _ r hr huniq fun _ h => (nomatch h)) sts g1 g2 g3 tree ls h V B hB

/-! ### Examples -/

/-- Structures for the traversal: `j` is its outermost dimension. -/
def c74Structs : Fin 3 → Struct
  | 0 => matrixColumns 0 2 4 2
  | 1 => matrixColumns 2 1 2 6
  | 2 => matrixRows 0 1 4 6

/-- The product of matrices of 32-bit integers with any layouts: columns 0-2, 3 and 4-5 are given to
three threads. -/
example (V : Arrays) (B : Bags) (hB : BagsHold c73Spaces B V) : ∃ r ls ps V',
    (Traverser.mk (.union 3 c74Structs) []).range .ideal = some r ∧
    (SplitTree.node .leaf (.node .leaf .leaf)).leaves r = some ls ∧ ls.map (fun l => (l.lo, l.hi)) = [(0, 3), (3, 4), (4, 6)] ∧
    ls.mapM (fun l => l.asTraverser.forEachProg .ideal (addProduct c70Int)) = some ps ∧ RunsTo c73Spaces ps B V' ∧
      (∀ y u, y ≠ 2 → V' y u = V y u) ∧
      ∀ x y, x < 4 → y < 6 → c70Int.dec (V' 2 (atNM 0 1 x y)) = (List.range 2).foldl
        (fun r z => r + c70Int.dec (V 0 (atNM 0 2 x z)) * c70Int.dec (V 1 (atNM 2 1 z y)))
        (c70Int.dec (V 2 (atNM 0 1 x y))) := by
  have e0 : ((c74Structs 0).sem .ideal).sig = .fn 0 .dynamic (.fn 2 .dynamic (.scalar 4)) := rfl
  have e1 : ((c74Structs 1).sem .ideal).sig = .fn 2 .dynamic (.fn 1 .dynamic (.scalar 4)) := rfl
  have e2 : ((c74Structs 2).sem .ideal).sig = .fn 1 .dynamic (.fn 0 .dynamic (.scalar 4)) := rfl
  obtain ⟨ps, V', h1, h2, h3⟩ := C74_matrix_product_by_traverser (i := 0) (j := 1) (k := 2) (fun a b c => by grind) c70Int
    (by decide) (by decide) (by decide) c73Len c73Spaces rfl rfl rfl V B hB c74Structs
    (fun n => match n with
      | 0 => ⟨rfl, rfl, trivial⟩
      | 1 => ⟨rfl, rfl, trivial⟩
      | 2 => ⟨rfl, rfl, trivial⟩)
    (fun n => match n with
      | 0 => trivial
      | 1 => trivial
      | 2 => trivial)
    (fun q => by simp [e0, Sig.anyAccept]; grind) (fun q => by simp [e1, Sig.anyAccept]; grind)
    (fun q => by simp [e2, Sig.anyAccept]; grind)
    (fun n q hq st hl hi => by
      match n with
      | 0 =>
        rw [e0] at hq
        simp [Sig.anyAccept] at hq
        rcases hq with rfl | rfl <;>
        simp [c74Structs, matrixColumns, Struct.apply, Struct.sem, View.sem, ViewSem.toSem, setLengthSem, vectorSem,
          guardLen, State.set, State.has, State.removeAll, hi, Val.Num, Val.nat?, c73Len]
      | 1 =>
        rw [e1] at hq
        simp [Sig.anyAccept] at hq
        rcases hq with rfl | rfl <;>
        simp [c74Structs, matrixColumns, Struct.apply, Struct.sem, View.sem, ViewSem.toSem, setLengthSem, vectorSem,
          guardLen, State.set, State.has, State.removeAll, hi, Val.Num, Val.nat?, c73Len]
      | 2 =>
        rw [e2] at hq
        simp [Sig.anyAccept] at hq
        rcases hq with rfl | rfl <;>
        simp [c74Structs, matrixRows, Struct.apply, Struct.sem, View.sem, ViewSem.toSem, setLengthSem, vectorSem,
          guardLen, State.set, State.has, State.removeAll, hi, Val.Num, Val.nat?, c73Len])
    ⟨1, .union 3 c74Structs, [], 0, 6⟩ rfl (.inr rfl) (.node .leaf (.node .leaf .leaf))
    [⟨1, .union 3 c74Structs, [], 0, 3⟩, ⟨1, .union 3 c74Structs, [], 3, 4⟩, ⟨1, .union 3 c74Structs, [], 4, 6⟩] rfl
  exact ⟨_, _, ps, V', rfl, rfl, by decide, h1, h2, h3⟩

/-- Two threads that add one to the same element can lose an update, and the model shows it: both read 0 before either
writes 1, and two of the accesses are a data race. -/
def c74Increment : Prog Unit := .get 0 (atNM 0 1 2 3) fun v => .set 0 (atNM 0 1 2 3) [v.headD 0 + 1, 0, 0, 0] (.done ())

example : ∃ log C a b, Execution .ideal [c74Increment, c74Increment] (fun _ => ⟨matrixRows 0 1 4 6, List.replicate 96 0⟩)
      log [.done (), .done ()] C ∧ (C 0).get .ideal (atNM 0 1 2 3) = .ok [1, 0, 0, 0] ∧
    (0, some a) ∈ log ∧ (1, some b) ∈ log ∧ a.conflicts b := by
  refine ⟨_, _, ⟨0, 56, 4, true⟩, ⟨0, 56, 4, false⟩,
    .step (i := 1) (.step (i := 0) (.step (i := 1) (.step (i := 0) .start rfl rfl rfl) rfl rfl rfl) rfl rfl rfl) rfl rfl
      rfl, rfl, ?_, ?_, rfl, .inl rfl, 56, by decide⟩
  · exact List.mem_append_left _ (List.mem_append_right _ (List.mem_singleton.2 rfl))
  · exact List.mem_append_left _ (List.mem_append_left _ (List.mem_append_right _ (List.mem_singleton.2 rfl)))

/-- Two threads that write neighbouring elements do not disturb each other, with any layout. -/
example (V : Arrays) (B : Bags) (hB : BagsHold (fun _ => Space.matrix 0 1 4 6 4) B V) : ∃ R,
    RunsTo (fun _ => Space.matrix 0 1 4 6 4)
      [.set 0 (atNM 0 1 2 3) [1, 0, 0, 0] (.done ()), .set 0 (atNM 0 1 2 4) [2, 0, 0, 0] (.done ())] B R ∧
    R 0 (atNM 0 1 2 3) = [1, 0, 0, 0] ∧ R 0 (atNM 0 1 2 4) = [2, 0, 0, 0] := by
  have hne : atNM 0 1 2 3 ≠ atNM 0 1 2 4 := fun h => by
    have := congrFun h (.idx 1)
    have e : atNM 0 1 2 3 (.idx 1) = some (.dyn 3) ∧ atNM 0 1 2 4 (.idx 1) = some (.dyn 4) := ⟨rfl, rfl⟩
    rw [e.1, e.2] at this
    exact absurd this (by simp)
  obtain ⟨R, h1, h2⟩ := C74_threads (I := fun _ => Space.matrix 0 1 4 6 4)
    [.set 0 (atNM 0 1 2 3) [1, 0, 0, 0] (.done ()), .set 0 (atNM 0 1 2 4) [2, 0, 0, 0] (.done ())] V
    (fun i => if i = 0 then [(0, atNM 0 1 2 3, true)] else [(0, atNM 0 1 2 4, true)])
    (fun i => if i = 0 then V.put 0 (atNM 0 1 2 3) [1, 0, 0, 0] else V.put 0 (atNM 0 1 2 4) [2, 0, 0, 0])
    (fun i p hp => by
      match i with
      | 0 => cases hp; exact .set _ (Space.matrix_at (by decide) (by decide)) rfl .done
      | 1 => cases hp; exact .set _ (Space.matrix_at (by decide) (by decide)) rfl .done)
    (fun i j hi hj hij x u w w' h h' => by
      simp only [List.length_cons, List.length_nil] at hi hj
      have : i = 0 ∧ j = 1 ∨ i = 1 ∧ j = 0 := by omega
      rcases this with ⟨rfl, rfl⟩ | ⟨rfl, rfl⟩ <;> simp at h h' <;> grind) B hB
  exact ⟨R, h2, by rw [(h1 0 _).1 0 (by decide) (by simp)]; simp [Arrays.put],
    by rw [(h1 0 _).1 1 (by decide) (by simp)]; simp [Arrays.put]⟩

end Noarr
