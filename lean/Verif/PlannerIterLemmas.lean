import Verif.PlannerMain
import Verif.PlannerIter
import Verif.RangeLemmas

/-
The items of planner ranges. Used for C51.
-/

namespace Noarr

theorem Planner.execute_eq {A : Arith} {p : Planner} (h : p.endings ≠ []) :
    p.execute A = (planWalk (p.top.sem A) (fun st => (p.activated A st).map Option.isSome)
      (p.top.sem A).sig.tree .empty).bind fun ps => ps.mapM fun path => (p.visit path).call A := by
  unfold Planner.execute
  split
  · next e => exact absurd e h
  · rfl

theorem Planner.range_eq {A : Arith} {p : Planner} {r : PlanRange} (h : p.range A = some r) :
    ∃ l s v, (p.top.sem A).sig = .fn r.dim l s ∧ (p.top.sem A).len r.dim .empty = some v ∧ v.nat? = some r.hi ∧
      r.lo = 0 ∧ r.planner = p := by
  unfold Planner.range at h
  split at h
  · next d l s hs =>
    simp only [bind, Option.bind_eq_some_iff, Option.some.injEq] at h
    obtain ⟨v, hv, n, hn, rfl⟩ := h
    exact ⟨l, s, v, hs, hv, hn, rfl, rfl⟩
  · cases h

theorem Planner.order_top (p : Planner) (v : View) : (p.order [v]).top = .view v p.top := by
  simp [Planner.order, Planner.top, Struct.apply_append, Struct.apply]

theorem Planner.activated_fix (A : Arith) (p : Planner) (d : Dim) (v : Val) (st : State) :
    (p.order [.fix d v]).activated A st = p.activated A (fixSub d v st) := by
  simp only [Planner.activated, Planner.order]
  rw [stateAt_append]
  rfl

/-- The calls made for one index of the top dimension. -/
theorem item_execute {A : Arith} {p : Planner} (he : p.endings ≠ []) (d : Dim) (v : Val) :
    (p.order [.fix d v]).execute A =
      (planWalk ((Struct.view (.fix d v) p.top).sem A)
        (fun st => (p.activated A (fixSub d v st)).map Option.isSome)
        ((Struct.view (.fix d v) p.top).sem A).sig.tree .empty).bind fun ps =>
      ps.mapM fun path => (p.visit ((d, v) :: path)).call A := by
  rw [Planner.execute_eq (p := p.order [.fix d v]) he, p.order_top]
  simp only [Planner.activated_fix]
  congr 1
  funext ps
  congr 1
  funext path
  simp [Planner.visit, Planner.order]

/-- If no function is called before the first loop, `execute` goes through the indices of the top
dimension. -/
theorem execute_items {A : Arith} {p : Planner} (he : p.endings ≠ []) {d : Dim} {l : ArgLen} {r : Sig}
    (hsig : (p.top.sem A).sig = .fn d l r) (hu : (p.top.sem A).sig.uniq) {v : Val} {n : Nat}
    (hv : (p.top.sem A).len d .empty = some v) (hn : v.nat? = some n) (ha : p.activated A .empty = some none) :
    p.execute A = seqAll ((List.range n).map fun i => (p.order [.fix d (.dyn i)]).execute A) := by
  rw [Planner.execute_eq he, planWalk_top_fn hsig hu]
  simp only [ha, Option.map_some, Option.isSome_none, hv, hn, Option.bind_some]
  rw [seqAll_bind]
  congr 1
  apply List.map_congr_left
  intro i _
  rw [item_execute he]
  cases planWalk ((Struct.view (.fix d (.dyn i)) p.top).sem A)
        (fun st => (p.activated A (fixSub d (.dyn i) st)).map Option.isSome)
        ((Struct.view (.fix d (.dyn i)) p.top).sem A).sig.tree .empty with
  | none => rfl
  | some ps => simp only [Option.map_some, Option.bind_some, mapM_map_left]

/-- What can be seen of a call: the function, the state, and the functions that remain registered. -/
def callSeen (A : Arith) (c : Body × Planner) : Body × Option State × List Ending :=
  (c.1, c.2.state A, c.2.endings)

theorem call_seen {A : Arith} {p q : Planner} (hb : p.endings = q.endings) (hs : p.state A = q.state A) :
    (p.call A).map (callSeen A) = (q.call A).map (callSeen A) := by
  simp only [Planner.state] at hs
  simp only [Planner.call, Planner.activated, Planner.pop, hs, hb, bind]
  cases hu : stateAt A q.base q.views .empty with
  | none => rfl
  | some u =>
    simp only [Option.bind_some]
    cases activatedEnding q.endings u with
    | none => rfl
    | some o =>
      cases o with
      | none => rfl
      | some e => simp only [Option.bind_some, Option.map_some, callSeen, Planner.state, hs, hu, hb]

theorem mapM_map_seen {α β γ : Type} {f g : α → Option β} {k : β → γ} {l : List α}
    (h : ∀ a, (f a).map k = (g a).map k) : (l.mapM f).map (fun bs => bs.map k) = (l.mapM g).map fun bs => bs.map k := by
  induction l with
  | nil => rfl
  | cons a l ih =>
    have ha := h a
    simp only [List.mapM_cons, bind, pure] at ih ⊢
    cases hf : f a <;> cases hg : g a <;> rw [hf, hg] at ha
    · rfl
    · cases ha
    · cases ha
    · simp only [Option.map_some, Option.some.injEq] at ha
      simp only [Option.bind_some]
      cases h1 : l.mapM f <;> cases h2 : l.mapM g <;> rw [h1, h2] at ih
      · rfl
      · cases ih
      · cases ih
      · simp only [Option.map_some, Option.some.injEq] at ih
        simp only [Option.bind_some, Option.map_some, List.map_cons, ha, ih]

theorem seqAll_map_seen {α β γ : Type} {f g : α → Option (List β)} {k : β → γ} {l : List α}
    (h : ∀ a ∈ l, (f a).map (fun bs => bs.map k) = (g a).map fun bs => bs.map k) :
    (seqAll (l.map f)).map (fun bs => bs.map k) = (seqAll (l.map g)).map fun bs => bs.map k := by
  induction l with
  | nil => rfl
  | cons a l ih =>
    have ha := h a (by simp)
    have ih := ih fun b hb => h b (.tail _ hb)
    simp only [List.map_cons, seqAll, bind] at ih ⊢
    cases hf : f a <;> cases hg : g a <;> rw [hf, hg] at ha
    · rfl
    · cases ha
    · cases ha
    · simp only [Option.map_some, Option.some.injEq] at ha
      simp only [Option.bind_some]
      cases h1 : seqAll (l.map f) <;> cases h2 : seqAll (l.map g) <;> rw [h1, h2] at ih
      · rfl
      · cases ih
      · cases ih
      · simp only [Option.map_some, Option.some.injEq] at ih
        simp only [Option.bind_some, Option.map_some, List.map_append, ha, ih]

theorem planWalk_slice {A : Arith} {s : Struct} {d : Dim} {l : ArgLen} {r : Sig}
    (hsig : (s.sem A).sig = .fn d l r) (hu : r.anyAccept d = false) (a m : Val) (act : State → Option Bool)
    (st : State) :
    planWalk ((Struct.view (.slice d a m) s).sem A) (fun st => act (st.mapAt (.idx d) (·.add A a))) r.tree st =
      planWalk (s.sem A) act r.tree (st.mapAt (.idx d) (·.add A a)) := by
  have hne : ∀ q, r.tree.contains q = true → q ≠ d := by
    rintro q h rfl
    rw [Sig.tree_contains h] at hu; cases hu
  refine planWalk_sub (S := s.sem A) (sub := fun st => st.mapAt (.idx d) (·.add A a)) (fun _ => rfl) ?_ ?_ ?_ st
  · intro q h st v
    have := hne q h
    funext t
    cases t with
    | idx e => simp only [State.set, State.mapAt, Tag.idx.injEq]; grind
    | len e => simp [State.set, State.mapAt]
  · intro q h st
    have := hne q h
    have e : ((Struct.view (.slice d a m) s).sem A).sig = .fn d (.ofVal m) r := by
      simp [Struct.sem, View.sem, ViewSem.toSem, sliceSem, hsig, Sig.replace, Sig.sliceRepl]
    rw [e, hsig]
    simp only [Sig.find, Ne.symm this, ↓reduceIte]
    congr 1
    apply Sig.find_congr
    intro e he
    have : e ≠ d := by rintro rfl; rw [hu] at he; cases he
    simp [State.mapAt, this]
  · intro q h st
    simp only [Struct.sem, View.sem, ViewSem.toSem, sliceSem, hne q h, ↓reduceIte]
    exact guard_self

/-- The planner of a part of the range calls what the items of the part call. -/
theorem slice_execute {p : Planner} (he : p.endings ≠ []) {d : Dim} {l : ArgLen} {r : Sig}
    (hsig : (p.top.sem .ideal).sig = .fn d l r) (hu : (p.top.sem .ideal).sig.uniq) {v : Val}
    (hv : (p.top.sem .ideal).len d .empty = some v) (ha : p.activated .ideal .empty = some none) (a m : Nat) :
    ((p.order [.slice d (.dyn a) (.dyn m)]).execute .ideal).map (fun cs => cs.map (callSeen .ideal)) =
      (seqAll ((List.range m).map fun i => (p.order [.fix d (.dyn (a + i))]).execute .ideal)).map
        fun cs => cs.map (callSeen .ideal) := by
  have hu' : r.anyAccept d = false := by rw [hsig] at hu; exact hu.1
  have hc : r.tree.contains d = false := by
    cases h : r.tree.contains d with
    | false => rfl
    | true => have := Sig.tree_contains h; rw [hu'] at this; cases this
  have htop := p.order_top (.slice d (.dyn a) (.dyn m))
  have hsig' : ((p.order [.slice d (.dyn a) (.dyn m)]).top.sem .ideal).sig = .fn d (.ofVal (.dyn m)) r := by
    rw [htop]
    simp [Struct.sem, View.sem, ViewSem.toSem, sliceSem, hsig, Sig.replace, Sig.sliceRepl]
  have huu : ((p.order [.slice d (.dyn a) (.dyn m)]).top.sem .ideal).sig.uniq := by
    rw [hsig']; rw [hsig] at hu; exact hu
  have hem : State.mapAt .empty (.idx d) (·.add .ideal (.dyn a)) = .empty := by
    funext t; cases t <;> simp [State.mapAt, State.empty]
  have hlen : ((p.order [.slice d (.dyn a) (.dyn m)]).top.sem .ideal).len d .empty = some (.dyn m) := by
    rw [htop]
    simp only [Struct.sem, View.sem, ViewSem.toSem, sliceSem, hem, Struct.hasLen_of_len hv, guardLen, ↓reduceIte]
  have hact : ∀ st, (p.order [.slice d (.dyn a) (.dyn m)]).activated .ideal st =
      p.activated .ideal (st.mapAt (.idx d) (·.add .ideal (.dyn a))) := by
    intro st
    simp only [Planner.activated, Planner.order]
    rw [stateAt_append]
    rfl
  rw [execute_items (p := p.order [.slice d (.dyn a) (.dyn m)]) he hsig' huu hlen rfl (by rw [hact, hem, ha])]
  apply seqAll_map_seen
  intro i _
  rw [item_execute (p := p.order [.slice d (.dyn a) (.dyn m)]) he, item_execute he, fix_sig_fn hsig, fix_sig_fn hsig',
    ← planWalk_fix hu hc (.dyn (a + i)) fun st => (p.activated .ideal st).map Option.isSome,
    ← planWalk_fix huu hc (.dyn i) fun st => ((p.order [.slice d (.dyn a) (.dyn m)]).activated .ideal st).map Option.isSome]
  simp only [hact, htop]
  rw [planWalk_slice hsig hu' (.dyn a) (.dyn m) fun st => (p.activated .ideal st).map Option.isSome]
  have hset : (State.empty.set (.idx d) (.dyn i)).mapAt (.idx d) (·.add .ideal (.dyn a)) =
      State.empty.set (.idx d) (.dyn (a + i)) := by
    funext t
    cases t with
    | idx e =>
      by_cases h : e = d
      · subst h; simp [State.mapAt, State.set, Val.add, Arith.ideal, Val.ofDyn, Nat.add_comm]
      · simp [State.mapAt, State.set, h, State.empty]
    | len e => simp [State.mapAt, State.set, State.empty]
  rw [hset]
  cases planWalk (p.top.sem .ideal) (fun st => (p.activated .ideal st).map Option.isSome) r.tree
    (State.empty.set (.idx d) (.dyn (a + i))) with
  | none => rfl
  | some ps =>
    simp only [Option.bind_some]
    apply mapM_map_seen
    intro path
    refine call_seen (by rfl) ?_
    simp only [Planner.visit, Planner.state, Planner.order, List.map_cons, List.append_assoc]
    rw [stateAt_append .ideal p.base p.views, stateAt_append .ideal p.base p.views]
    congr 1
    simp only [List.cons_append, List.nil_append, stateAt]
    rw [stateAt_fixes .ideal _ (.view (.fix d (.dyn (a + i))) (p.base.apply p.views)) path]
    cases stateAt Arith.ideal (.view (.fix d (.dyn (a + i))) (p.base.apply p.views))
        (path.map fun di => View.fix di.1 di.2) .empty with
    | none => rfl
    | some u =>
      simp only [bind, Option.bind_some, View.sem, fixSem, sliceSem]
      congr 1
      funext t
      cases t with
      | idx e =>
        by_cases h : e = d
        · subst h; simp [State.mapAt, State.set, Val.add, Arith.ideal, Val.ofDyn, Nat.add_comm]
        · simp [State.mapAt, State.set, State.remove, h]
      | len e => simp [State.mapAt, State.set, State.remove]

end Noarr
