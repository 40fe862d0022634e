import Verif.Range
import Verif.FlatViews

/-
Lemmas on ranges, for C32 - C34.
-/

set_option linter.unusedSimpArgs false

namespace Noarr

theorem seqAll_bind {α β γ : Type} (f : α → Option (List β)) (g : β → Option γ) (l : List α) :
    (seqAll (l.map f)).bind (fun bs => bs.mapM g) = seqAll (l.map fun a => (f a).bind fun bs => bs.mapM g) := by
  induction l with
  | nil => rfl
  | cons a l ih =>
    simp only [List.map_cons, seqAll, bind, ← ih]
    cases f a with
    | none => rfl
    | some b =>
      simp only [Option.bind_some]
      cases h : seqAll (l.map f) with
      | none => cases b.mapM g <;> rfl
      | some bs =>
        simp only [Option.bind_some, List.mapM_append, bind]
        cases b.mapM g with
        | none => rfl
        | some c => cases bs.mapM g <;> rfl

theorem mapM_map_left {α β γ : Type} (f : α → β) (g : β → Option γ) (l : List α) :
    (l.map f).mapM g = l.mapM fun a => g (f a) := by
  induction l with
  | nil => rfl
  | cons a l ih => simp only [List.map_cons, List.mapM_cons, ih]

theorem Sig.tree_contains {S : Sig} {q : Dim} (h : S.tree.contains q = true) : S.anyAccept q = true := by
  induction S with
  | scalar s => cases h
  | void => cases h
  | ill => cases h
  | fn d l r ih =>
    simp only [Sig.tree, DimTree.contains, Bool.or_eq_true, decide_eq_true_eq] at h
    simp only [Sig.anyAccept, Bool.or_eq_true]
    rcases h with h | ⟨i, h⟩
    · exact .inl h
    · exact .inr (ih h)
  | dep d n rs ih =>
    simp only [Sig.tree, DimTree.contains, Bool.or_eq_true, decide_eq_true_eq] at h
    simp only [Sig.anyAccept, Bool.or_eq_true, decide_eq_true_eq]
    rcases h with h | ⟨i, h⟩
    · exact .inl h
    · exact .inr ⟨i, ih i h⟩

/-- A walk over a view that passes the queries about these dimensions down. -/
theorem walk_sub {S' S : Sem} {sub : State → State} {t : DimTree}
    (hs : ∀ q, t.contains q = true → ∀ st v, sub (st.set (.idx q) v) = (sub st).set (.idx q) v)
    (hf : ∀ q, t.contains q = true → ∀ st, S'.sig.find q st = S.sig.find q (sub st))
    (hl : ∀ q, t.contains q = true → ∀ st, S'.len q st = S.len q (sub st)) (st : State) :
    walk S' t st = walk S t (sub st) := by
  induction t generalizing st with
  | leaf => rfl
  | bad => rfl
  | node d n bs ih =>
    have hd : (DimTree.node d n bs).contains d = true := by simp [DimTree.contains]
    have hb : ∀ i q, (bs i).contains q = true → (DimTree.node d n bs).contains q = true := by
      intro i q h; simp only [DimTree.contains, Bool.or_eq_true, decide_eq_true_eq]; exact .inr ⟨i, h⟩
    have ih' := fun i st => ih i (fun q h => hs q (hb i q h)) (fun q h => hf q (hb i q h))
      (fun q h => hl q (hb i q h)) st
    simp only [walk, hf d hd, hl d hd, ih', hs d hd]

theorem Sig.find_congr {S : Sig} {st u : State} (h : ∀ e, S.anyAccept e = true → st (.idx e) = u (.idx e))
    (q : Dim) : S.find q st = S.find q u := by
  induction S with
  | scalar s => rfl
  | void => rfl
  | ill => rfl
  | fn d l r ih =>
    simp only [Sig.find]
    rw [ih fun e he => h e (by simp [Sig.anyAccept, he])]
  | dep d n rs ih =>
    simp only [Sig.find, h d (by simp [Sig.anyAccept])]
    split
    · rfl
    · split
      · next k _ =>
        exact ih k fun e he => h e (by
          simp only [Sig.anyAccept, Bool.or_eq_true, decide_eq_true_eq]; exact .inr ⟨_, he⟩)
      · rfl

/-- The state below fixed indices does not depend on the structure. -/
theorem stateAt_fixes (A : Arith) (s s' : Struct) (p : Path) (st : State) :
    stateAt A s (p.map fun di => .fix di.1 di.2) st = stateAt A s' (p.map fun di => .fix di.1 di.2) st := by
  induction p generalizing s s' with
  | nil => rfl
  | cons di p ih =>
    simp only [List.map_cons, stateAt]
    rw [ih (.view (.fix di.1 di.2) s) (.view (.fix di.1 di.2) s')]
    rfl

section
variable {A : Arith} {s : Struct} {d : Dim} {l : ArgLen} {r : Sig}

theorem guard_self {s : Struct} {q : Dim} {st : State} :
    guardLen ((s.sem A).hasLen q st) ((s.sem A).len q st) = (s.sem A).len q st := by
  cases h : (s.sem A).len q st with
  | none => simp only [guardLen]; split <;> rfl
  | some v => rw [Struct.hasLen_of_len h]; rfl

theorem fix_walk (hsig : (s.sem A).sig = .fn d l r) (hu : r.anyAccept d = false) (i : Val) (st : State)
    (hl : ∀ e, st (.len e) = none) :
    walk ((Struct.view (.fix d i) s).sem A) r.tree st = walk (s.sem A) r.tree (st.set (.idx d) i) := by
  have hne : ∀ q, r.tree.contains q = true → q ≠ d := by
    rintro q h rfl
    rw [Sig.tree_contains h] at hu; cases hu
  rw [walk_sub (S := s.sem A) (sub := fun st => (st.remove (.len d)).set (.idx d) i)]
  · congr 1
    funext t
    cases t with
    | idx e => simp [State.set, State.remove]
    | len e => simp [State.set, State.remove, hl]
  · intro q h st v
    have := hne q h
    funext t
    cases t with
    | idx e => simp only [State.set, State.remove, Tag.idx.injEq, reduceCtorEq, ↓reduceIte]; grind
    | len e => simp [State.set, State.remove]
  · intro q h st
    have := hne q h
    have e : ((Struct.view (.fix d i) s).sem A).sig = r := by
      simp [Struct.sem, View.sem, ViewSem.toSem, fixSem, hsig, Sig.replace, Sig.fixRepl]
    rw [e, hsig]
    simp only [Sig.find, Ne.symm this, ↓reduceIte]
    apply Sig.find_congr
    intro e he
    have : e ≠ d := by rintro rfl; rw [hu] at he; cases he
    simp [State.set, State.remove, this]
  · intro q h st
    simp only [Struct.sem, View.sem, ViewSem.toSem, fixSem, hne q h, ↓reduceIte]
    exact guard_self

theorem slice_walk (hsig : (s.sem A).sig = .fn d l r) (hu : r.anyAccept d = false) (a m : Val) (st : State) :
    walk ((Struct.view (.slice d a m) s).sem A) r.tree st =
      walk (s.sem A) r.tree (st.mapAt (.idx d) (·.add A a)) := by
  have hne : ∀ q, r.tree.contains q = true → q ≠ d := by
    rintro q h rfl
    rw [Sig.tree_contains h] at hu; cases hu
  refine walk_sub (S := s.sem A) (sub := fun st => st.mapAt (.idx d) (·.add A a)) ?_ ?_ ?_ st
  · intro q h st v
    have := hne q h
    funext t
    cases t with
    | idx e => simp only [State.set, State.mapAt, Tag.idx.injEq]; grind
    | len e => simp [State.set, State.mapAt]
  · intro q h st
    have := hne q h
    have e : ((Struct.view (.slice d a m) s).sem A).sig = .fn d (.ofVal m) r := by
      simp [Struct.sem, View.sem, ViewSem.toSem, sliceSem, hsig, Sig.replace, Sig.sliceRepl]
    rw [e, hsig]
    simp only [Sig.find, Ne.symm this, ↓reduceIte]
    apply Sig.find_congr
    intro e he
    have : e ≠ d := by rintro rfl; rw [hu] at he; cases he
    simp [State.mapAt, this]
  · intro q h st
    simp only [Struct.sem, View.sem, ViewSem.toSem, sliceSem, hne q h, ↓reduceIte]
    exact guard_self

end

/-- What `for_each` does for one index of the top dimension. -/
theorem item_forEach {A : Arith} {t : Traverser} {d : Dim} {l : ArgLen} {r : Sig}
    (hsig : (t.top.sem A).sig = .fn d l r) (hu : (t.top.sem A).sig.uniq) (i : Val) :
    (t.order [.fix d i]).forEach A [] =
      (walk (t.top.sem A) r.tree (State.empty.set (.idx d) i)).bind fun ps =>
        ps.mapM fun p => (t.visit ((d, i) :: p)).state A := by
  have hu' : r.anyAccept d = false := by rw [hsig] at hu; exact hu.1
  have htop : (t.order [.fix d i]).top = .view (.fix d i) t.top := by
    simp [Traverser.order, Traverser.top, Struct.apply_append, Struct.apply]
  have hsig' : (((t.order [.fix d i]).top).sem A).sig = r := by
    rw [htop]
    simp [Struct.sem, View.sem, ViewSem.toSem, fixSem, hsig, Sig.replace, Sig.fixRepl]
  simp only [Traverser.forEach, Traverser.forSections, Traverser.run, hsig', bind]
  rw [htop, fix_walk hsig hu' i .empty fun _ => rfl]
  cases walk (t.top.sem A) r.tree (State.empty.set (.idx d) i) with
  | none => rfl
  | some ps =>
    simp only [Option.map_some, Option.bind_some]
    rw [mapM_map_left]
    congr 1
    funext p
    simp [Traverser.visit, Traverser.order]

/-- `for_each` goes through the indices of the top dimension. -/
theorem forEach_items {A : Arith} {t : Traverser} {d : Dim} {l : ArgLen} {r : Sig}
    (hsig : (t.top.sem A).sig = .fn d l r) (hu : (t.top.sem A).sig.uniq) {v : Val} {n : Nat}
    (hv : (t.top.sem A).len d .empty = some v) (hn : v.nat? = some n) :
    t.forEach A [] = seqAll ((List.range n).map fun i => (t.order [.fix d (.dyn i)]).forEach A []) := by
  have hfind : (t.top.sem A).sig.find d .empty = .fn d l r := by rw [hsig]; simp [Sig.find]
  have htree : (t.top.sem A).sig.tree = .node d 1 (fun _ => r.tree) := by rw [hsig]; rfl
  simp only [Traverser.forEach, Traverser.forSections, Traverser.run, htree, walk, hfind, hv, hn,
    ↓reduceDIte, bind, Option.bind_some]
  have key : ∀ o : Option (List Path), (o.map fun ps => ps.map t.visit).bind (fun ts => ts.mapM fun t => t.state A)
      = o.bind fun ps => ps.mapM fun p => (t.visit p).state A := by
    intro o
    cases o with
    | none => rfl
    | some ps => simp only [Option.map_some, Option.bind_some, mapM_map_left]
  rw [key, seqAll_bind]
  congr 1
  apply List.map_congr_left
  intro i _
  have h := item_forEach (A := A) hsig hu (.dyn i)
  simp only [Traverser.forEach, bind] at h
  rw [show Traverser.forSections A (t.order [.fix d (.dyn i)]) [] =
    (t.order [.fix d (.dyn i)]).run A ((t.order [.fix d (.dyn i)]).top.sem A).sig.tree from rfl] at h
  simp only [Traverser.run] at h
  rw [h]
  cases walk (t.top.sem A) r.tree (State.empty.set (.idx d) (.dyn i)) with
  | none => rfl
  | some ps => simp only [Option.map_some, Option.bind_some, mapM_map_left]

/-- A slice of the top dimension goes through the indices of the slice. -/
theorem slice_items {t : Traverser} {d : Dim} {l : ArgLen} {r : Sig}
    (hsig : (t.top.sem .ideal).sig = .fn d l r) (hu : (t.top.sem .ideal).sig.uniq) {v : Val}
    (hv : (t.top.sem .ideal).len d .empty = some v) (a m : Nat) :
    (t.order [.slice d (.dyn a) (.dyn m)]).forEach .ideal [] =
      seqAll ((List.range m).map fun i => (t.order [.fix d (.dyn (a + i))]).forEach .ideal []) := by
  have hu' : r.anyAccept d = false := by rw [hsig] at hu; exact hu.1
  have htop : (t.order [.slice d (.dyn a) (.dyn m)]).top = .view (.slice d (.dyn a) (.dyn m)) t.top := by
    simp [Traverser.order, Traverser.top, Struct.apply_append, Struct.apply]
  have hsig' : ((t.order [.slice d (.dyn a) (.dyn m)]).top.sem .ideal).sig = .fn d (.ofVal (.dyn m)) r := by
    rw [htop]
    simp [Struct.sem, View.sem, ViewSem.toSem, sliceSem, hsig, Sig.replace, Sig.sliceRepl]
  have huu : ((t.order [.slice d (.dyn a) (.dyn m)]).top.sem .ideal).sig.uniq := by
    rw [hsig']; rw [hsig] at hu; exact hu
  have hlen : ((t.order [.slice d (.dyn a) (.dyn m)]).top.sem .ideal).len d .empty = some (.dyn m) := by
    rw [htop]
    have he : State.mapAt .empty (.idx d) (·.add .ideal (.dyn a)) = .empty := by
      funext t; cases t <;> simp [State.mapAt, State.empty]
    simp only [Struct.sem, View.sem, ViewSem.toSem, sliceSem, he, Struct.hasLen_of_len hv, guardLen, ↓reduceIte]
  rw [forEach_items hsig' huu hlen rfl]
  congr 1
  apply List.map_congr_left
  intro i _
  rw [item_forEach hsig' huu, item_forEach hsig hu, htop, slice_walk hsig hu']
  have he : (State.empty.set (.idx d) (.dyn i)).mapAt (.idx d) (·.add .ideal (.dyn a)) =
      State.empty.set (.idx d) (.dyn (a + i)) := by
    funext t
    cases t with
    | idx e =>
      by_cases h : e = d
      · subst h; simp [State.mapAt, State.set, Val.add, Arith.ideal, Val.ofDyn, Nat.add_comm]
      · simp [State.mapAt, State.set, h, State.empty]
    | len e => simp [State.mapAt, State.set, State.empty]
  rw [he]
  congr 1
  funext ps
  congr 1
  funext p
  simp only [Traverser.visit, Traverser.state, Traverser.order, List.map_cons, List.append_assoc]
  rw [stateAt_append .ideal t.base t.views, stateAt_append .ideal t.base t.views]
  congr 1
  simp only [List.cons_append, List.nil_append, stateAt]
  rw [stateAt_fixes .ideal _ (.view (.fix d (.dyn (a + i))) (t.base.apply t.views)) p]
  cases stateAt Arith.ideal (.view (.fix d (.dyn (a + i))) (t.base.apply t.views))
      (p.map fun di => View.fix di.1 di.2) .empty with
  | none => rfl
  | some u =>
    simp only [bind, Option.bind_some, View.sem, fixSem, sliceSem]
    congr 1
    funext t
    cases t with
    | idx e =>
      by_cases h : e = d
      · subst h; simp [State.mapAt, State.set, Val.add, Arith.ideal, Val.ofDyn, Nat.add_comm]
      · simp [State.mapAt, State.set, State.remove, h]
    | len e => simp [State.mapAt, State.set, State.remove]

end Noarr
