import Verif.Props.Rounds
import Verif.Props.MergedLayouts
import Verif.CudaLemmas

/-
C85: the orders in which arrays are traversed (docs/structs/hoist.md, docs/Traverser.md).
-/

namespace Noarr

/-! ### Specification -/

/-- Nested loops: `for(i = 0; i < N(d); i++)` for each of the dimensions, from the outermost. The states of the iterations,
one after another. -/
def nestedLoops (N : Dim → Nat) : List Dim → State → List State
  | [], st => [st]
  | d :: ds, st => (List.range (N d)).flatMap fun i => nestedLoops N ds (st.set (.idx d) (.dyn i))

/-- An array with the given dimensions, from the outermost: `scalar<T>() ^ ... ^ vector<d>(N(d))`. -/
def arrayOver (N : Dim → Nat) (e : Nat) : List Dim → Struct
  | [] => .scalar e e
  | d :: ds => (arrayOver N e ds).vec d (N d)

/-- The order of the dimensions after `hoist` of some, one after another. -/
def hoisted (ds hs : List Dim) : List Dim := hs.foldl (fun ds h => h :: ds.erase h) ds

/-! ### Trees -/

theorem node_chain {v : Dim} {n : Nat} {f : Fin n → DimTree} {c : DimTree} (hn : n = 1) (h : ∀ i, f i = c) :
    DimTree.node v n f = .node v 1 fun _ => c := by
  subst hn
  congr 1
  funext i
  exact h i

theorem chain_branches {ds : List Dim} {v : Dim} (h : v ∈ ds) : (chain ds).branches v = 1 := by
  induction ds with
  | nil => cases h
  | cons d ds ih =>
    simp only [chain, DimTree.branches]
    split
    · rfl
    · next hd =>
      rcases List.mem_cons.1 h with rfl | h
      · exact absurd rfl hd
      · simp [List.finRange_succ, ih h]

theorem chain_fix {ds : List Dim} {v : Dim} {k : Nat} (h : v ∈ ds) (hk : k < 1) :
    (chain ds).fix v k = chain (ds.erase v) := by
  induction ds with
  | nil => cases h
  | cons d ds ih =>
    simp only [chain, DimTree.fix, List.erase_cons, hk, dite_true]
    by_cases hd : d = v
    · simp [hd]
    · rcases List.mem_cons.1 h with rfl | h
      · exact absurd rfl hd
      · simp [hd, chain, ih h]

theorem chain_hoist {ds : List Dim} {v : Dim} (h : v ∈ ds) : (chain ds).hoist v = chain (v :: ds.erase v) := by
  have hb := chain_branches h
  exact node_chain hb fun i => chain_fix h (by have := i.2; omega)

theorem chain_reorder {ds es : List Dim} (hn : es.Nodup) (hs : ∀ d ∈ es, d ∈ ds) :
    ∃ rest, (chain ds).reorder es = chain (es ++ rest) ∧ (es ++ rest).Perm ds := by
  induction es with
  | nil => exact ⟨ds, rfl, .refl _⟩
  | cons v vs ih =>
    rw [List.nodup_cons] at hn
    obtain ⟨rest, h1, h2⟩ := ih hn.2 fun d hd => hs d (List.mem_cons_of_mem _ hd)
    have hv : v ∈ vs ++ rest := h2.mem_iff.2 (hs v (List.mem_cons_self ..))
    refine ⟨rest.erase v, ?_, ?_⟩
    · simp only [DimTree.reorder, h1]
      rw [chain_hoist hv, List.erase_append_right _ hn.1]
      rfl
    · rw [List.cons_append, ← List.erase_append_right _ hn.1]
      exact (List.perm_cons_erase hv).symm.trans h2

theorem chain_filter (ds : List Dim) (keep : Dim → Bool) : (chain ds).filter keep = chain (ds.filter keep) := by
  induction ds with
  | nil => rfl
  | cons d ds ih =>
    simp only [chain, DimTree.filter, List.filter_cons, dite_true]
    split <;> simp [ih, chain]

theorem chain_has {ds : List Dim} {q : Dim} (h : q ∈ ds) : (chain ds).contains q = true := by
  induction ds with
  | nil => cases h
  | cons d ds ih =>
    simp only [chain, DimTree.contains, Bool.or_eq_true, beq_iff_eq, decide_eq_true_eq]
    rcases List.mem_cons.1 h with rfl | h
    · exact .inl rfl
    · exact .inr ⟨0, ih h⟩

theorem chain_for_dims {ds es : List Dim} (hd : ds.Nodup) (hn : es.Nodup) (hs : ∀ d ∈ es, d ∈ ds) :
    ((chain ds).filter fun d => es.contains d).reorder es = chain es := by
  rw [chain_filter]
  obtain ⟨rest, h1, h2⟩ := chain_reorder (ds := ds.filter fun d => es.contains d) hn
    fun d h => List.mem_filter.2 ⟨hs d h, by simpa using h⟩
  have hnd : (es ++ rest).Nodup := h2.nodup_iff.2 (hd.filter _)
  have : rest = [] := by
    refine List.eq_nil_iff_forall_not_mem.2 fun x hx => ?_
    have hx' := (List.mem_filter.1 (h2.mem_iff.1 (List.mem_append_right es hx))).2
    exact (List.nodup_append.1 hnd).2.2 x (by simpa using hx') x hx rfl
  rw [h1, this, List.append_nil]

/-! ### Arrays -/

/-- Loops over the dimensions, from the outermost. -/
def loopSig (e : Nat) : List (Dim × ArgLen) → Sig
  | [] => .scalar e
  | p :: ps => .fn p.1 p.2 (loopSig e ps)

/-- The structure is a box with the dimensions, from the outermost. -/
structure IsBox (S : Sem) (N : Dim → Nat) (ds : List Dim) : Prop where
  nodup : ds.Nodup
  sig : ∃ e ps, S.sig = loopSig e ps ∧ ps.map Prod.fst = ds
  len : ∀ d ∈ ds, ∀ st, (∀ q, st (.len q) = none) → st (.idx d) = none → ∃ l, S.len d st = some l ∧ l.Num (N d)

theorem loopSig_tree (e : Nat) (ps : List (Dim × ArgLen)) : (loopSig e ps).tree = chain (ps.map Prod.fst) := by
  induction ps with
  | nil => rfl
  | cons p ps ih => simp only [loopSig, Sig.tree, ih, List.map_cons, chain]

theorem loopSig_find (e : Nat) (ps : List (Dim × ArgLen)) {d : Dim} (h : d ∈ ps.map Prod.fst) (st : State) :
    ∃ l r, (loopSig e ps).find d st = .fn d l r := by
  induction ps with
  | nil => cases h
  | cons p ps ih =>
    simp only [loopSig, Sig.find]
    split
    · next hp => exact ⟨p.2, _, by rw [hp]⟩
    · next hp =>
      rcases List.mem_cons.1 h with rfl | h
      · exact absurd rfl hp
      · exact ih h

theorem loopSig_absent (e : Nat) (ps : List (Dim × ArgLen)) {d : Dim} (h : d ∉ ps.map Prod.fst) :
    (loopSig e ps).anyAccept d = false := by
  induction ps with
  | nil => rfl
  | cons p ps ih =>
    simp only [List.map_cons, List.mem_cons, not_or] at h
    simp only [loopSig, Sig.anyAccept, ih h.2, Bool.or_false, beq_eq_false_iff_ne]
    exact fun e => h.1 e.symm

theorem loopSig_remove (e : Nat) (ps : List (Dim × ArgLen)) {d : Dim} (h : d ∈ ps.map Prod.fst) :
    ∃ ps', (loopSig e ps).replace Sig.retRepl [d] = loopSig e ps' ∧ ps'.map Prod.fst = (ps.map Prod.fst).erase d := by
  induction ps with
  | nil => cases h
  | cons p ps ih =>
    by_cases hp : p.1 = d
    · exact ⟨ps, by simp [loopSig, Sig.replace, hp, Sig.retRepl], by simp [hp]⟩
    · rcases List.mem_cons.1 h with rfl | h
      · exact absurd rfl hp
      · obtain ⟨ps', h1, h2⟩ := ih h
        refine ⟨p :: ps', ?_, ?_⟩
        · simp [loopSig, Sig.replace, hp, h1]
        · simp [hp, h2]

theorem arrayOver_box (A : Arith) (N : Dim → Nat) (e : Nat) {ds : List Dim} (hn : ds.Nodup) :
    IsBox ((arrayOver N e ds).sem A) N ds := by
  induction ds with
  | nil => exact ⟨hn, ⟨e, [], rfl, rfl⟩, fun _ h => nomatch h⟩
  | cons d ds ih =>
    have hn' := List.nodup_cons.1 hn
    obtain ⟨-, ⟨e', ps, h1, h2⟩, h3⟩ := ih hn'.2
    have ha : ((arrayOver N e ds).sem A).sig.anyAccept d = false := by
      rw [h1]; exact loopSig_absent _ _ (by rw [h2]; exact hn'.1)
    refine ⟨hn, ⟨e', (d, .ofVal (.dyn (N d))) :: ps, ?_, by simp [h2]⟩, fun q hq st hst hi => ?_⟩
    · rw [h1] at ha
      simp [arrayOver, Struct.vec, Struct.sem, View.sem, ViewSem.toSem, setLengthSem, vectorSem, ha, Sig.replace,
        Sig.setLengthRepl, h1, loopSig]
    · by_cases hqd : q = d
      · subst hqd
        refine ⟨.dyn (N q), ?_, rfl⟩
        simp [arrayOver, Struct.vec, Struct.sem, View.sem, ViewSem.toSem, setLengthSem, vectorSem, guardLen, State.set,
          State.has, hi]
      · have hs : ∀ l, (st.set (.len d) l).removeAll [.idx d, .len d] = st.remove (.idx d) := by
          intro l
          funext t
          cases t <;> simp only [State.removeAll, State.set, State.remove, List.mem_cons, List.not_mem_nil, or_false] <;>
            grind
        obtain ⟨l, g1, g2⟩ := h3 q ((List.mem_cons.1 hq).resolve_left hqd) (st.remove (.idx d))
          (fun q => by simp [State.remove, hst]) (by simp [State.remove, hqd, hi])
        refine ⟨l, ?_, g2⟩
        simp [arrayOver, Struct.vec, Struct.sem, View.sem, ViewSem.toSem, setLengthSem, vectorSem, guardLen, hqd, hs, g1,
          Struct.hasLen_of_len g1]

theorem hoist_box {A : Arith} {s : Struct} {N : Dim → Nat} {ds : List Dim} (h : IsBox (s.sem A) N ds) {d : Dim} (hd : d ∈ ds) :
    IsBox ((Struct.view (.hoist d) s).sem A) N (d :: ds.erase d) := by
  obtain ⟨hn, ⟨e, ps, h1, h2⟩, h3⟩ := h
  obtain ⟨l, r, hf⟩ := loopSig_find e ps (by rw [h2]; exact hd) .empty
  obtain ⟨ps', g1, g2⟩ := loopSig_remove e ps (d := d) (by rw [h2]; exact hd)
  refine ⟨(List.perm_cons_erase hd).nodup_iff.1 hn, ⟨e, (d, l) :: ps', ?_, by simp [g2, h2]⟩, fun q hq st hst hi => ?_⟩
  · simp [Struct.sem, View.sem, ViewSem.toSem, hoistSem, h1, hf, g1, loopSig]
  · obtain ⟨l, g1, g2⟩ := h3 q ((List.perm_cons_erase hd).mem_iff.2 hq) st hst hi
    refine ⟨l, ?_, g2⟩
    simp [Struct.sem, View.sem, ViewSem.toSem, hoistSem, guardLen, g1, Struct.hasLen_of_len g1]

theorem hoists_box {A : Arith} {s : Struct} {N : Dim → Nat} {ds : List Dim} (h : IsBox (s.sem A) N ds) {hs : List Dim}
    (hh : ∀ d ∈ hs, d ∈ ds) : IsBox ((s.apply (hs.map View.hoist)).sem A) N (hoisted ds hs) := by
  induction hs generalizing s ds with
  | nil => exact h
  | cons d hs ih =>
    have hd := hh d (List.mem_cons_self ..)
    exact ih (hoist_box h hd) fun q hq => (List.perm_cons_erase hd).mem_iff.1 (hh q (List.mem_cons_of_mem _ hq))

theorem stateAt_hoists_then (A : Arith) (s : Struct) (hs : List Dim) (vs : List View) (st : State) :
    stateAt A s (hs.map View.hoist ++ vs) st = stateAt A (s.apply (hs.map View.hoist)) vs st := by
  induction hs generalizing s with
  | nil => rfl
  | cons d hs ih =>
    simp only [List.map_cons, List.cons_append, stateAt, ih, Struct.apply, View.sem, hoistSem, bind]
    cases stateAt A (Struct.apply (.view (.hoist d) s) (hs.map View.hoist)) vs st <;> rfl

theorem nestedLoops_paths (N : Dim → Nat) (ds : List Dim) (st : State) :
    ((indexBox (ds.map N)).map fun is => Path.state (ds.zip (is.map Val.dyn)) st) = nestedLoops N ds st := by
  induction ds generalizing st with
  | nil => rfl
  | cons d ds ih =>
    simp only [List.map_cons, indexBox, List.map_flatMap, List.map_map, nestedLoops]
    congr 1
    funext i
    exact ih _

theorem zip_fst_sublist {β : Type} (es : List Dim) (vs : List β) : ((es.zip vs).map Prod.fst).Sublist es := by
  induction es generalizing vs with
  | nil => exact List.Sublist.refl _
  | cons e es ih =>
    cases vs with
    | nil => exact List.nil_sublist _
    | cons v vs => exact (ih vs).cons_cons e

theorem run_box {A : Arith} {s : Struct} {N : Dim → Nat} {ds es hs : List Dim} (h : IsBox ((s.apply (hs.map View.hoist)).sem A) N ds)
    (hn : es.Nodup) (he : ∀ d ∈ es, d ∈ ds) :
    (((Traverser.mk s (hs.map View.hoist)).run A (chain es)).bind fun ts => ts.mapM fun t => t.state A) =
      some (nestedLoops N es .empty) := by
  obtain ⟨-, ⟨e, ps, h1, h2⟩, h3⟩ := h
  have hw := walk_chain (S := (s.apply (hs.map View.hoist)).sem A) (N := N) hn (st := .empty) (fun _ => rfl) (fun _ _ => rfl)
    (fun d hd st => by
      obtain ⟨l, r, hf⟩ := loopSig_find e ps (d := d) (by rw [h2]; exact he d hd) st
      rw [h1, hf]; rfl)
    fun d hd => h3 d (he d hd)
  simp only [Traverser.run, Traverser.top, hw, Option.map_some, Option.bind_some, List.map_map]
  rw [List.mapM_map, mapM_map (g := fun is => Path.state (es.zip (is.map Val.dyn)) .empty), nestedLoops_paths]
  intro is his
  have hnd : ((es.zip (is.map Val.dyn)).map Prod.fst).Nodup := by
    exact hn.sublist (zip_fst_sublist es _)
  simp only [Function.comp_apply, Traverser.visit, Traverser.order, Traverser.state, stateAt_hoists_then]
  exact stateAt_fix A _ _ hnd

theorem loops_append_perm {α β : Type} (f g : α → List β) (l : List α) :
    (l.flatMap fun a => f a ++ g a).Perm (l.flatMap f ++ l.flatMap g) := by
  induction l with
  | nil => exact .refl _
  | cons a l ih =>
    simp only [List.flatMap_cons, List.append_assoc]
    refine .append_left _ ((ih.append_left _).trans ?_)
    rw [← List.append_assoc, ← List.append_assoc]
    exact .append_right _ List.perm_append_comm

theorem loops_exchange {α β γ : Type} (f : α → β → List γ) (l : List α) (m : List β) :
    (l.flatMap fun a => m.flatMap (f a)).Perm (m.flatMap fun b => l.flatMap fun a => f a b) := by
  induction l with
  | nil => simp
  | cons a l ih =>
    simp only [List.flatMap_cons]
    exact (ih.append_left _).trans (loops_append_perm (f a) (fun b => l.flatMap fun a => f a b) m).symm

theorem loops_congr {α β : Type} {f g : α → List β} (l : List α) (h : ∀ a, (f a).Perm (g a)) :
    (l.flatMap f).Perm (l.flatMap g) := by
  induction l with
  | nil => exact .refl _
  | cons a l ih => exact (h a).append ih

theorem nestedLoops_perm {N : Dim → Nat} {ds es : List Dim} (h : ds.Perm es) (hn : ds.Nodup) (st : State) :
    (nestedLoops N ds st).Perm (nestedLoops N es st) := by
  induction h generalizing st with
  | nil => exact .refl _
  | cons d _ ih => exact loops_congr _ fun i => ih (List.nodup_cons.1 hn).2 _
  | swap d q ds =>
    have hqd : q ≠ d := fun h => (List.nodup_cons.1 hn).1 (h ▸ List.mem_cons_self ..)
    have hc : ∀ i k, (st.set (.idx q) (.dyn i)).set (.idx d) (.dyn k) = (st.set (.idx d) (.dyn k)).set (.idx q) (.dyn i) := by
      intro i k
      funext t
      simp only [State.set]
      grind
    simp only [nestedLoops, hc]
    exact loops_exchange _ _ _
  | trans h1 _ ih1 ih2 => exact (ih1 hn st).trans (ih2 (h1.nodup_iff.1 hn) st)

theorem hoisted_perm {ds hs : List Dim} (hh : ∀ d ∈ hs, d ∈ ds) : (hoisted ds hs).Perm ds := by
  induction hs generalizing ds with
  | nil => exact .refl _
  | cons d hs ih =>
    have hp := List.perm_cons_erase (hh d (List.mem_cons_self ..))
    exact (ih fun q hq => hp.mem_iff.1 (hh q (List.mem_cons_of_mem _ hq))).trans hp.symm

/-! ### Theorems -/

variable {A : Arith} {N : Dim → Nat} {e : Nat} {ds : List Dim}

/-- C85: `traverser(array).order(hoist<h1>() ^ hoist<h2>() ^ ...).for_each(f)` is nested loops over the dimensions of the
array, in their order, except that each of the hoisted dimensions is put first, one after another. -/
theorem C85_for_each (hn : ds.Nodup) {hs : List Dim} (hh : ∀ d ∈ hs, d ∈ ds) :
    (Traverser.mk (arrayOver N e ds) (hs.map View.hoist)).forEach A [] = some (nestedLoops N (hoisted ds hs) .empty) := by
  have hb := hoists_box (arrayOver_box A N e hn) hh
  obtain ⟨e', ps, h1, h2⟩ := hb.sig
  have ht : (((arrayOver N e ds).apply (hs.map View.hoist)).sem A).sig.tree = chain (hoisted ds hs) := by
    rw [h1, loopSig_tree, h2]
  have := run_box hb hb.nodup fun _ h => h
  simpa only [Traverser.forEach, Traverser.forSections, Traverser.top, ht, bind] using this

/-- C85: the same if the structure of the traverser is hoisted: `traverser(array ^ hoist<h1>() ^ ...).for_each(f)`. -/
theorem C85_for_each_hoisted (hn : ds.Nodup) {hs : List Dim} (hh : ∀ d ∈ hs, d ∈ ds) :
    (Traverser.mk ((arrayOver N e ds).apply (hs.map View.hoist)) []).forEach A [] =
      some (nestedLoops N (hoisted ds hs) .empty) := by
  have hb := hoists_box (arrayOver_box A N e hn) hh
  obtain ⟨e', ps, h1, h2⟩ := hb.sig
  have ht : (((arrayOver N e ds).apply (hs.map View.hoist)).sem A).sig.tree = chain (hoisted ds hs) := by
    rw [h1, loopSig_tree, h2]
  have := run_box (hs := []) hb hb.nodup fun _ h => h
  simpa only [Traverser.forEach, Traverser.forSections, Traverser.top, Struct.apply, List.map_nil, ht, bind] using this

/-- C85: `for_dims<e1, e2, ...>(f)` is nested loops over the listed dimensions in the listed order, whatever the order of
the dimensions in the array and whatever is hoisted. -/
theorem C85_for_dims (hn : ds.Nodup) {hs es : List Dim} (hh : ∀ d ∈ hs, d ∈ ds) (he : es.Nodup) (hs' : ∀ d ∈ es, d ∈ ds) :
    (((Traverser.mk (arrayOver N e ds) (hs.map View.hoist)).forDims A es).bind fun ts => ts.mapM fun t => t.state A) =
      some (nestedLoops N es .empty) := by
  have hb := hoists_box (arrayOver_box A N e hn) hh
  have hm : ∀ d ∈ es, d ∈ hoisted ds hs := fun d h => (hoisted_perm hh).mem_iff.2 (hs' d h)
  obtain ⟨e', ps, h1, h2⟩ := hb.sig
  have ht : (((arrayOver N e ds).apply (hs.map View.hoist)).sem A).sig.tree = chain (hoisted ds hs) := by
    rw [h1, loopSig_tree, h2]
  have hc : (es.all fun d => ((chain (hoisted ds hs)).filter fun d => es.contains d).contains d) = true := by
    rw [List.all_eq_true]
    intro d hd
    rw [chain_filter]
    exact chain_has (List.mem_filter.2 ⟨hm d hd, by simpa using hd⟩)
  have := run_box hb he hm
  simp only [Traverser.forDims, Traverser.top, ht, hc, if_true]
  rw [chain_for_dims hb.nodup he hm]
  exact this

/-- C85: `for_each<e1, e2, ...>(f)` is nested loops over the listed dimensions, in the order of the traverser and not in
the order of the list. -/
theorem C85_for_each_some (hn : ds.Nodup) {hs es : List Dim} (hh : ∀ d ∈ hs, d ∈ ds) (hs' : ∀ d ∈ es, d ∈ ds) (hne : es ≠ []) :
    (Traverser.mk (arrayOver N e ds) (hs.map View.hoist)).forEach A es =
      some (nestedLoops N ((hoisted ds hs).filter fun d => es.contains d) .empty) := by
  have hb := hoists_box (arrayOver_box A N e hn) hh
  have hm : ∀ d ∈ es, d ∈ hoisted ds hs := fun d h => (hoisted_perm hh).mem_iff.2 (hs' d h)
  obtain ⟨e', ps, h1, h2⟩ := hb.sig
  have ht : (((arrayOver N e ds).apply (hs.map View.hoist)).sem A).sig.tree = chain (hoisted ds hs) := by
    rw [h1, loopSig_tree, h2]
  have hc : (es.all fun d => (chain ((hoisted ds hs).filter fun d => es.contains d)).contains d) = true := by
    rw [List.all_eq_true]
    intro d hd
    exact chain_has (List.mem_filter.2 ⟨hm d hd, by simpa using hd⟩)
  have := run_box hb (hb.nodup.filter fun d => es.contains d) fun d h => (List.mem_filter.1 h).1
  cases es with
  | nil => exact absurd rfl hne
  | cons q es =>
    simp only [Traverser.forEach, Traverser.forSections, Traverser.top, ht, chain_filter, hc, if_true]
    exact this

/-- C85: all these orders have the same iterations, each as often: hoisting moves iterations, it does not add or lose any. -/
theorem C85_same_iterations (hn : ds.Nodup) {hs es : List Dim} (hh : ∀ d ∈ hs, d ∈ ds) (hp : es.Perm ds) :
    ∃ sts sts' sts'', (Traverser.mk (arrayOver N e ds) []).forEach A [] = some sts ∧
      (Traverser.mk (arrayOver N e ds) (hs.map View.hoist)).forEach A [] = some sts' ∧
      (((Traverser.mk (arrayOver N e ds) []).forDims A es).bind fun ts => ts.mapM fun t => t.state A) = some sts'' ∧
      sts'.Perm sts ∧ sts''.Perm sts := by
  have h1 := C85_for_each (A := A) (N := N) (e := e) hn (hs := []) fun _ h => nomatch h
  have h3 := C85_for_dims (A := A) (N := N) (e := e) hn (hs := []) (fun _ h => nomatch h) (hp.nodup_iff.2 hn)
    fun d h => hp.mem_iff.1 h
  exact ⟨_, _, _, h1, C85_for_each hn hh, h3,
    nestedLoops_perm (hoisted_perm hh) ((hoisted_perm hh).nodup_iff.2 hn) _, nestedLoops_perm hp (hp.nodup_iff.2 hn) _⟩

/-! ### Examples

The matrix of the documentation: `scalar<float>() ^ vector<'j'>(4) ^ vector<'i'>(3)`, with `'i'` as `0` and `'j'` as `1`. -/

/-- The lengths of the matrix of the documentation. -/
def docLengths (d : Dim) : Nat := if d = 0 then 3 else 4

/-- The state of an iteration. -/
def atIJ (i j : Nat) : State := (State.empty.set (.idx 0) (.dyn i)).set (.idx 1) (.dyn j)

theorem docRows : nestedLoops docLengths [0, 1] .empty = (List.range 3).flatMap fun i => (List.range 4).map (atIJ i) := by
  simp only [nestedLoops, docLengths]
  rfl

theorem docColumns :
    nestedLoops docLengths [1, 0] .empty = (List.range 4).flatMap fun j => (List.range 3).map fun i => atIJ i j := by
  have h : ∀ i j, (State.empty.set (.idx 1) (.dyn j)).set (.idx 0) (.dyn i) = atIJ i j := by
    intro i j
    funext t
    simp only [atIJ, State.set]
    grind
  simp only [nestedLoops, docLengths, h]
  rfl

example : arrayOver docLengths 4 [0, 1] = ((Struct.scalar 4 4).vec 1 4).vec 0 3 := rfl

/-- "Various ways to do a i-major traversal". -/
example (sts : List State) (h : sts = (List.range 3).flatMap fun i => (List.range 4).map (atIJ i)) :
    (Traverser.mk (arrayOver docLengths 4 [0, 1]) []).forEach A [] = some sts ∧
    (((Traverser.mk (arrayOver docLengths 4 [0, 1]) []).forDims A [0, 1]).bind fun ts => ts.mapM fun t => t.state A) = some sts ∧
    (Traverser.mk (arrayOver docLengths 4 [0, 1]) [.hoist 0]).forEach A [] = some sts ∧
    (Traverser.mk (.view (.hoist 0) (arrayOver docLengths 4 [0, 1])) []).forEach A [] = some sts := by
  rw [h, ← docRows]
  exact ⟨C85_for_each (hs := []) (by decide) (by simp), C85_for_dims (hs := []) (by decide) (by simp) (by decide) (by simp),
    C85_for_each (hs := [0]) (by decide) (by simp), C85_for_each_hoisted (hs := [0]) (by decide) (by simp)⟩

/-- "Various ways to do a j-major traversal". -/
example (sts : List State) (h : sts = (List.range 4).flatMap fun j => (List.range 3).map fun i => atIJ i j) :
    (((Traverser.mk (arrayOver docLengths 4 [0, 1]) []).forDims A [1, 0]).bind fun ts => ts.mapM fun t => t.state A) = some sts ∧
    (Traverser.mk (arrayOver docLengths 4 [0, 1]) [.hoist 1]).forEach A [] = some sts ∧
    (Traverser.mk (.view (.hoist 1) (arrayOver docLengths 4 [0, 1])) []).forEach A [] = some sts := by
  rw [h, ← docColumns]
  exact ⟨C85_for_dims (hs := []) (by decide) (by simp) (by decide) (by simp),
    C85_for_each (hs := [1]) (by decide) (by simp), C85_for_each_hoisted (hs := [1]) (by decide) (by simp)⟩

/-- `for_each<'j', 'i'>` does not change the order. -/
example : (Traverser.mk (arrayOver docLengths 4 [0, 1]) []).forEach A [1, 0] =
    some ((List.range 3).flatMap fun i => (List.range 4).map (atIJ i)) := by
  rw [← docRows]
  exact C85_for_each_some (hs := []) (by decide) (by simp) (by simp) (by simp)

/-- Both orders have the same twelve iterations. -/
example : ∃ sts sts' sts'', (Traverser.mk (arrayOver docLengths 4 [0, 1]) []).forEach A [] = some sts ∧
    (Traverser.mk (arrayOver docLengths 4 [0, 1]) [.hoist 1]).forEach A [] = some sts' ∧
    (((Traverser.mk (arrayOver docLengths 4 [0, 1]) []).forDims A [1, 0]).bind fun ts => ts.mapM fun t => t.state A) = some sts'' ∧
    sts'.Perm sts ∧ sts''.Perm sts :=
  C85_same_iterations (hs := [1]) (by decide) (by simp) (List.Perm.swap ..)

end Noarr
