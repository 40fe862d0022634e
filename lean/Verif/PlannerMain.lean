import Verif.PlannerLemmas

/-
The calls of registered functions that a planner makes. Used for C35.
-/

set_option linter.unusedVariables false
set_option linter.unusedSimpArgs false

namespace Noarr

theorem mapM_flatMap {α β γ : Type} (k : α → List β) (F : β → Option γ) (l : List α) :
    (l.flatMap k).mapM F = seqAll (l.map fun a => (k a).mapM F) := by
  induction l with
  | nil => rfl
  | cons a l ih =>
    simp only [List.flatMap_cons, List.mapM_append, ih, List.map_cons, seqAll]
    rfl

theorem seqAll_congr {α β : Type} {f g : α → Option (List β)} {l : List α} {r r' : List β}
    (hf : seqAll (l.map f) = some r) (hg : seqAll (l.map g) = some r')
    (h : ∀ a ∈ l, ∀ x y, f a = some x → g a = some y → x = y) : r = r' := by
  induction l generalizing r r' with
  | nil => cases hf; cases hg; rfl
  | cons a l ih =>
    simp only [List.map_cons, seqAll, bind, Option.bind_eq_some_iff, Option.some.injEq] at hf hg
    obtain ⟨x, h1, y, h2, rfl⟩ := hf
    obtain ⟨x', h3, y', h4, rfl⟩ := hg
    rw [h a (by simp) x x' h1 h3, ih h2 h4 fun b hb => h b (.tail _ hb)]

theorem seqAll_mapM {α β γ : Type} {f : α → Option β} {g : β → Option (List γ)} {l : List α} {bs : List β}
    (h : l.mapM f = some bs) : seqAll (bs.map g) = seqAll (l.map fun a => (f a).bind g) := by
  have h := mapM_some h
  have : bs.map g = (bs.map some).map fun o => o.bind g := by simp [List.map_map, Function.comp_def]
  rw [this, h, List.map_map]
  rfl

theorem fixes_append (p q : Path) : fixes (p ++ q) = fixes p ++ fixes q := by
  simp [fixes]

theorem noAlias_fixes {s : Struct} (h : s.noAlias) (p : Path) : (s.apply (fixes p)).noAlias := by
  induction p generalizing s with
  | nil => exact h
  | cons di p ih => exact ih (s := .view (.fix di.1 di.2) s) ⟨h, trivial⟩

theorem sane_fixes {A : Arith} {s : Struct} (h : s.sane A) (p : Path) : (s.apply (fixes p)).sane A := by
  induction p generalizing s with
  | nil => exact h
  | cons di p ih => exact ih (s := .view (.fix di.1 di.2) s) ⟨h, trivial⟩

/-- What is assumed of a planner. -/
structure Planner.Ready (p : Planner) : Prop where
  wf : p.top.wf .ideal
  noAlias : p.top.noAlias
  sane : p.top.sane .ideal
  direct : ∀ v ∈ p.views, v.direct
  each : ∀ e ∈ p.endings, ∀ f, e.body = .each f → e.sig = (p.base.sem .ideal).sig

theorem Planner.Ready.visit {p : Planner} (h : p.Ready) {path : Path}
    (hw : (p.top.apply (fixes path)).wf .ideal) : (p.visit path).Ready := by
  have ht : (p.visit path).top = p.top.apply (fixes path) := by
    simp only [Planner.visit, Planner.order, Planner.top, Struct.apply_append, fixes]
  refine ⟨ht ▸ hw, ht ▸ noAlias_fixes h.noAlias path, ht ▸ sane_fixes h.sane path, ?_, h.each⟩
  intro v hv
  rcases List.mem_append.1 hv with hv | hv
  · exact h.direct v hv
  · obtain ⟨di, -, rfl⟩ := List.mem_map.1 hv
    trivial

theorem forEach_nil (A : Arith) (t : Traverser) : t.forEach A [] =
    (walk (t.top.sem A) (t.top.sem A).sig.tree .empty).bind fun ps =>
      ps.mapM fun q => stateAt A t.base (t.views ++ fixes q) .empty := by
  simp only [Traverser.forEach, Traverser.forSections, Traverser.run, bind]
  cases walk (t.top.sem A) (t.top.sem A).sig.tree .empty with
  | none => rfl
  | some ps =>
    simp only [Option.map_some, Option.bind_some, List.mapM_map]
    rfl

/-- Executed to the end, a planner calls the functions with the same states as a traverser, in the same
order. -/
theorem runAll_eq {n : Nat} {p : Planner} {sts sts' : List State} (hp : p.Ready)
    (h : p.runAll .ideal n = some sts)
    (ht : (Traverser.mk p.base p.views).forEach .ideal [] = some sts') : sts = sts' := by
  induction n generalizing p sts sts' with
  | zero => cases h
  | succ n ih =>
    simp only [Planner.runAll, Option.bind_eq_some_iff] at h
    obtain ⟨calls, hc, h⟩ := h
    have hu : (p.top.sem .ideal).sig.uniq := Struct.sig_uniq .ideal _ hp.wf hp.noAlias
    rw [forEach_nil, Option.bind_eq_some_iff] at ht
    obtain ⟨fs, hfs, ht⟩ := ht
    have hc' : ∃ ps, planWalk (p.top.sem .ideal) (fun st => (p.activated .ideal st).map Option.isSome)
        (p.top.sem .ideal).sig.tree .empty = some ps ∧ ps.mapM (fun path => (p.visit path).call .ideal) = some calls := by
      simp only [Planner.execute] at hc
      split at hc
      · cases hc
      · simpa only [bind, Option.bind_eq_some_iff] using hc
    obtain ⟨ps, hps, hcalls⟩ := hc'
    obtain ⟨hsp, rfl⟩ := planWalk_split hu hps hfs
    rw [mapM_flatMap] at ht
    rw [seqAll_mapM hcalls] at h
    refine seqAll_congr h ht ?_
    intro path hpath x y hx hy
    obtain ⟨h1, h2, h3⟩ := hsp path hpath
    have hr := hp.visit (h2 hp.wf)
    have hbase : (p.visit path).base = p.base := rfl
    have hviews : (p.visit path).views = p.views ++ fixes path := rfl
    have htop : (p.visit path).top = p.top.apply (fixes path) := by
      simp only [Planner.visit, Planner.order, Planner.top, Struct.apply_append, fixes]
    have hy' : (Traverser.mk (p.visit path).base (p.visit path).views).forEach .ideal [] = some y := by
      rw [forEach_nil]
      have : (Traverser.mk (p.visit path).base (p.visit path).views).top = p.top.apply (fixes path) := htop
      rw [this]
      simp only [List.mapM_map, Function.comp_def, fixes_append, ← List.append_assoc] at hy
      cases hw : walk ((p.top.apply (fixes path)).sem .ideal) ((p.top.apply (fixes path)).sem .ideal).sig.tree .empty with
      | none => rw [hw] at h1; cases h1
      | some gs =>
        rw [show allLoops .ideal (p.top.apply (fixes path)) = gs by simp only [allLoops, hw]; rfl] at hy
        exact hy
    obtain ⟨⟨b, q⟩, hcall, hx⟩ := Option.bind_eq_some_iff.1 hx
    simp only [Planner.call, bind, Option.bind_eq_some_iff, Option.some.injEq, Prod.mk.injEq] at hcall
    obtain ⟨o, ha, e, rfl, q', hq, hb, rfl⟩ := hcall
    simp only [Planner.activated, Option.bind_eq_some_iff] at ha
    obtain ⟨u, hu1, ha⟩ := ha
    obtain ⟨-, hmem, -⟩ := activatedEnding_some ha
    obtain ⟨he, hcomp⟩ := hmem e rfl
    have hq' : q'.base = (p.visit path).base ∧ q'.views = (p.visit path).views ∧
        ∀ e ∈ q'.endings, e ∈ (p.visit path).endings := by
      simp only [Planner.pop, bind, Option.bind_eq_some_iff, Option.some.injEq] at hq
      obtain ⟨u', -, rfl⟩ := hq
      exact ⟨rfl, rfl, fun e h => (List.mem_filter.1 h).1⟩
    subst hb
    cases hbody : e.body with
    | each f =>
      simp only [hbody] at hx
      have hsig := hr.each e he f hbody
      rw [Planner.state, hq'.1, hq'.2.1, hu1] at hx
      cases hx
      have hall : ∀ q, ((p.visit path).base.sem .ideal).sig.needs u q → (u (.idx q)).isSome := by
        intro q hq; rw [← hsig] at hq; exact hcomp q hq
      have hg := Sig.ground_of_needs (needs_top (s := (p.visit path).base) (vs := (p.visit path).views)
        hr.wf hr.noAlias hr.sane hr.direct hu1 hall) (Struct.wf.sig hr.wf)
      rw [forEach_nil] at hy'
      have ht' : (Traverser.mk (p.visit path).base (p.visit path).views).top =
        (p.visit path).base.apply (p.visit path).views := rfl
      have hw : walk (((p.visit path).base.apply (p.visit path).views).sem .ideal)
          (((p.visit path).base.apply (p.visit path).views).sem .ideal).sig.tree .empty = some [[]] := by
        generalize (((p.visit path).base.apply (p.visit path).views).sem .ideal) = S at hg ⊢
        cases hS : S.sig with
        | scalar _ => rfl
        | void => rfl
        | fn _ _ _ => rw [hS] at hg; cases hg
        | dep _ _ _ => rw [hS] at hg; cases hg
        | ill => rw [hS] at hg; cases hg
      rw [ht', hw] at hy'
      simp only [fixes, Option.bind_some, List.mapM_cons, List.map_nil, List.append_nil, List.mapM_nil, hu1] at hy'
      cases hy'
      rfl
    | «section» f =>
      simp only [hbody] at hx
      refine ih (p := q') ?_ hx ?_
      · have e1 : q'.top = (p.visit path).top := by simp only [Planner.top, hq'.1, hq'.2.1]
        refine ⟨e1 ▸ hr.wf, e1 ▸ hr.noAlias, e1 ▸ hr.sane, hq'.2.1 ▸ hr.direct, ?_⟩
        intro e he f hf
        rw [hq'.1]
        exact hr.each e (hq'.2.2 e he) f hf
      · rw [hq'.1, hq'.2.1]; exact hy'


theorem Ending.wf_of_activated {e : Ending} {u : State} (h : (e.activated u).isSome) :
    (e.sig.fixState u).wf = true := by
  simp only [Ending.activated] at h
  by_cases hw : (e.sig.fixState u).wf = true
  · exact hw
  · rw [if_neg hw] at h; cases h

theorem Registered.given_iff {A : Arith} {base : Struct} {r : Registered} {u : State}
    (h : ((r.ending A base).activated u).isSome) : (r.ending A base).complete u ↔ r.given A base u := by
  cases r with
  | each f => exact Iff.rfl
  | sections ds f => exact Sig.needs_sections (Ending.wf_of_activated h)

theorem mem_zip_mapM {α β : Type} {f : α → Option β} {l : List α} {bs : List β} (h : l.mapM f = some bs)
    {b : β} {a : α} (hm : (b, a) ∈ bs.zip l) : f a = some b ∧ a ∈ l := by
  replace h := mapM_some h
  induction bs generalizing l with
  | nil => simp at hm
  | cons c bs ih =>
    cases l with
    | nil => simp at hm
    | cons a' l =>
      simp only [List.map_cons, List.cons.injEq] at h
      simp only [List.zip_cons_cons, List.mem_cons, Prod.mk.injEq] at hm
      rcases hm with ⟨rfl, rfl⟩ | hm
      · exact ⟨h.1.symm, by simp⟩
      · obtain ⟨h1, h2⟩ := ih hm h.2
        exact ⟨h1, .tail _ h2⟩

theorem pairwise_of_filter {α : Type} {f : α → Bool} {l : List α} (h : (l.filter f).length ≤ 1) :
    l.Pairwise fun a b => ¬ (f a = true ∧ f b = true) := by
  induction l with
  | nil => exact .nil
  | cons a l ih =>
    by_cases ha : f a = true
    · rw [List.filter_cons_of_pos ha, List.length_cons] at h
      have hl : l.filter f = [] := List.length_eq_zero_iff.1 (by omega)
      refine List.pairwise_cons.2 ⟨?_, ih (by omega)⟩
      rintro b hb ⟨-, h2⟩
      have : b ∈ l.filter f := List.mem_filter.2 ⟨hb, h2⟩
      rw [hl] at this; cases this
    · rw [List.filter_cons_of_neg ha] at h
      exact List.pairwise_cons.2 ⟨fun b _ h => ha h.1, ih h⟩

/-- Two functions at once do not compile. -/
theorem activatedEnding_one {es : List Ending} {u : State} {o : Option Ending}
    (h : activatedEnding es u = some o) : es.Pairwise fun a b => ¬ (a.complete u ∧ b.complete u) := by
  simp only [activatedEnding, bind, Option.bind_eq_some_iff] at h
  obtain ⟨bs, hbs, h⟩ := h
  have hl : (bs.filter fun eb => eb.2).length ≤ 1 := by
    split at h
    · next hn => rw [hn]; simp
    · next hn => rw [hn]; simp
    · cases h
  have hm := mapM_some hbs
  have hp := pairwise_of_filter hl
  clear h hl hbs
  induction bs generalizing es with
  | nil =>
    cases es with
    | nil => exact .nil
    | cons e es => simp at hm
  | cons x bs ih =>
    cases es with
    | nil => simp at hm
    | cons e es =>
      simp only [List.map_cons, List.cons.injEq] at hm
      obtain ⟨h1, h2⟩ := hm
      obtain ⟨hx, hp⟩ := List.pairwise_cons.1 hp
      refine List.pairwise_cons.2 ⟨?_, ih h2 hp⟩
      rintro e' he' ⟨hc, hc'⟩
      obtain ⟨b, hb, rfl⟩ := Option.map_eq_some_iff.1 h1.symm
      have : (e'.activated u).map (fun b => (e', b)) ∈ bs.map some := h2 ▸ List.mem_map.2 ⟨e', he', rfl⟩
      obtain ⟨y, hy, h3⟩ := List.mem_map.1 this
      obtain ⟨b', hb', rfl⟩ := Option.map_eq_some_iff.1 h3.symm
      exact hx _ hy ⟨(Ending.activated_iff hb).2 hc, (Ending.activated_iff hb').2 hc'⟩

/-- Which calls are made. -/
theorem execute_calls {A : Arith} {p : Planner} {rs : List Registered} {calls : List (Body × Planner)}
    (hu : (p.top.sem A).sig.uniq) (hr : p.endings = rs.map (·.ending A p.base))
    (h : p.execute A = some calls) :
    ∃ ps : List Path, ps.Pairwise PathLt ∧
      (∀ path, path ∈ ps ↔ Outer (p.top.sem A) (p.due A rs) (p.top.sem A).sig .empty path) ∧
      calls.length = ps.length ∧
      ∀ c path, (c, path) ∈ calls.zip ps → c.2.base = p.base ∧ c.2.views = p.views ++ fixes path ∧
        ∃ u r, c.2.state A = some u ∧ r ∈ rs ∧ r.given A p.base u ∧ c.1 = r.body ∧
          rs.Pairwise (fun r r' => ¬ (r.given A p.base u ∧ r'.given A p.base u)) ∧
          ∀ e, e ∈ c.2.endings ↔ ∃ r' ∈ rs, ¬ r'.given A p.base u ∧ e = r'.ending A p.base := by
  have hc' : ∃ ps, planWalk (p.top.sem A) (fun st => (p.activated A st).map Option.isSome)
      (p.top.sem A).sig.tree .empty = some ps ∧ ps.mapM (fun path => (p.visit path).call A) = some calls := by
    simp only [Planner.execute] at h
    split at h
    · cases h
    · simpa only [bind, Option.bind_eq_some_iff] using h
  obtain ⟨ps, hps, hcalls⟩ := hc'
  refine ⟨ps, planWalk_sorted _ _ hps, ?_, ?_, ?_⟩
  · refine planWalk_mem (p.top.sem A) ?_ hu (.refl _) hps
    intro st hs
    simp only [Option.isSome_map] at hs
    obtain ⟨o, ho⟩ := Option.isSome_iff_exists.1 hs
    rw [ho]
    simp only [Planner.activated, Option.bind_eq_some_iff] at ho
    obtain ⟨u, hu, ho⟩ := ho
    obtain ⟨h1, h2, h3⟩ := activatedEnding_some ho
    simp only [Option.map_some, Option.some.injEq, h3, hr]
    constructor
    · rintro ⟨e, he, hce⟩
      obtain ⟨r, hr', rfl⟩ := List.mem_map.1 he
      exact ⟨u, hu, r, hr', (Registered.given_iff (h1 _ (hr ▸ he))).1 hce⟩
    · rintro ⟨u', hu', r, hr', hg⟩
      rw [hu] at hu'; cases hu'
      have hm : r.ending A p.base ∈ rs.map (·.ending A p.base) := List.mem_map.2 ⟨r, hr', rfl⟩
      exact ⟨_, hm, (Registered.given_iff (h1 _ (hr ▸ hm))).2 hg⟩
  · have := congrArg List.length (mapM_some hcalls)
    simpa using this
  · intro c path hm
    obtain ⟨hcall, -⟩ := mem_zip_mapM hcalls hm
    obtain ⟨b, q⟩ := c
    simp only [Planner.call, bind, Option.bind_eq_some_iff, Option.some.injEq, Prod.mk.injEq] at hcall
    obtain ⟨o, ha, e, rfl, q', hq, hb, rfl⟩ := hcall
    simp only [Planner.activated, Option.bind_eq_some_iff] at ha
    obtain ⟨u, hu1, ha⟩ := ha
    obtain ⟨h1, hmem, -⟩ := activatedEnding_some ha
    obtain ⟨he, hcomp⟩ := hmem e rfl
    have he' : e ∈ rs.map (·.ending A p.base) := by rw [← hr]; exact he
    obtain ⟨r, hr', rfl⟩ := List.mem_map.1 he'
    simp only [Planner.pop, bind, Option.bind_eq_some_iff, Option.some.injEq] at hq
    obtain ⟨u', hu', rfl⟩ := hq
    rw [hu1] at hu'; cases hu'
    have hends : (p.visit path).endings = rs.map (·.ending A p.base) := hr
    have hall : ∀ r' ∈ rs, ((r'.ending A p.base).complete u ↔ r'.given A p.base u) := by
      intro r' h'
      exact Registered.given_iff (h1 _ (hends ▸ List.mem_map.2 ⟨r', h', rfl⟩))
    refine ⟨rfl, rfl, u, r, hu1, hr', (hall r hr').1 hcomp, ?_, ?_, ?_⟩
    · rw [← hb]; cases r <;> rfl
    · have := activatedEnding_one ha
      rw [hends, List.pairwise_map] at this
      refine this.imp_of_mem ?_
      intro r1 r2 h1 h2 h3 h4
      exact h3 ⟨(hall r1 h1).2 h4.1, (hall r2 h2).2 h4.2⟩
    · intro e'
      simp only [hends, List.mem_filter, List.mem_map, decide_eq_true_eq]
      constructor
      · rintro ⟨⟨r', h', rfl⟩, hx⟩
        refine ⟨r', h', ?_, rfl⟩
        intro hg
        obtain ⟨b, hb⟩ := Option.isSome_iff_exists.1 (h1 _ (hends ▸ List.mem_map.2 ⟨r', h', rfl⟩))
        rw [hb] at hx
        have := (Ending.activated_iff hb).2 ((hall r' h').2 hg)
        subst this
        cases hx
      · rintro ⟨r', h', hn, rfl⟩
        refine ⟨⟨r', h', rfl⟩, ?_⟩
        obtain ⟨b, hb⟩ := Option.isSome_iff_exists.1 (h1 _ (hends ▸ List.mem_map.2 ⟨r', h', rfl⟩))
        rw [hb]
        cases b with
        | false => rfl
        | true => exact absurd ((hall r' h').1 ((Ending.activated_iff hb).1 rfl)) hn

/-! ### The loops of `for_dims` -/

/-- The signature starts with these dimensions. -/
def Sig.Leads : List Dim → Sig → Prop
  | [], _ => True
  | d :: ds, .fn e _ r => e = d ∧ r.Leads ds
  | _ :: _, _ => False

theorem Sig.Leads.replace {R : Sig → Sig} {d : Dim} {ds : List Dim} {S : Sig} (h : S.Leads ds) (hd : d ∉ ds) :
    (S.replace R [d]).Leads ds := by
  induction ds generalizing S with
  | nil => trivial
  | cons e ds ih =>
    cases S with
    | fn e' l r =>
      obtain ⟨rfl, h⟩ := h
      simp only [List.mem_cons, not_or] at hd
      simp only [Sig.replace, List.mem_singleton, Ne.symm hd.1, if_false]
      exact ⟨rfl, ih h hd.2⟩
    | scalar _ => exact absurd h id
    | void => exact absurd h id
    | dep _ _ _ => exact absurd h id
    | ill => exact absurd h id

theorem hoist_leads {A : Arith} {s : Struct} {ds : List Dim} (hn : ds.Nodup)
    (hi : ((s.apply (ds.reverse.map .hoist)).sem A).sig ≠ .ill) :
    ((s.apply (ds.reverse.map .hoist)).sem A).sig.Leads ds := by
  induction ds with
  | nil => trivial
  | cons d ds ih =>
    obtain ⟨hd, hn⟩ := List.nodup_cons.1 hn
    simp only [List.reverse_cons, List.map_append, List.map_cons, List.map_nil, Struct.apply_append, Struct.apply,
      Struct.sem, ViewSem.toSem, View.sem, hoistSem] at hi ⊢
    generalize ((s.apply (ds.reverse.map .hoist)).sem A).sig = S at hi ih ⊢
    cases S with
    | ill => exact absurd rfl hi
    | scalar _ => exact absurd rfl hi
    | void => exact absurd rfl hi
    | fn e l r =>
      have ih := ih hn (by simp)
      cases hf : (Sig.fn e l r).find d .empty with
      | fn _ l' _ => exact ⟨rfl, ih.replace hd⟩
      | ill => simp only [hf] at hi; exact absurd rfl hi
      | scalar _ => simp only [hf] at hi; exact absurd rfl hi
      | void => simp only [hf] at hi; exact absurd rfl hi
      | dep _ _ _ => simp only [hf] at hi; exact absurd rfl hi
    | dep e n rs =>
      have ih := ih hn (by simp)
      cases hf : (Sig.dep e n rs).find d .empty with
      | fn _ l' _ => exact ⟨rfl, ih.replace hd⟩
      | ill => simp only [hf] at hi; exact absurd rfl hi
      | scalar _ => simp only [hf] at hi; exact absurd rfl hi
      | void => simp only [hf] at hi; exact absurd rfl hi
      | dep _ _ _ => simp only [hf] at hi; exact absurd rfl hi

theorem stateAt_hoists (A : Arith) (s : Struct) (ds : List Dim) (st : State) :
    stateAt A s (ds.map .hoist) st = some st := by
  induction ds generalizing s with
  | nil => rfl
  | cons d ds ih =>
    simp only [List.map_cons, stateAt, ih, bind]
    rfl

theorem stateAt_idx {A : Arith} {s : Struct} {vs : List View} {st u : State} {q : Dim}
    (hq : ∀ v ∈ vs, q ∉ v.dims) (h : stateAt A s vs st = some u) : u (.idx q) = st (.idx q) := by
  induction vs generalizing s u with
  | nil => cases h; rfl
  | cons v vs ih =>
    simp only [stateAt, bind, Option.bind_eq_some_iff] at h
    obtain ⟨w, h1, h2⟩ := h
    rw [sub_idx (hq v (.head _)) h2]
    exact ih (fun v h => hq v (.tail _ h)) h1

/-- The loops over the leading dimensions end when all of them are set. -/
theorem planWalk_leads {S : Sem} {act : State → Option Bool} {ds0 : List Dim}
    (hact : ∀ st b, act st = some b → (b = true ↔ ∀ q ∈ ds0, (st (.idx q)).isSome)) (hu : S.sig.uniq)
    {N : Sig} {ds : List Dim} {st : State} {ps : List Path} (hA : Sig.At st S.sig N) (hN : N.Leads ds)
    (hn : ds.Nodup) (hsub : ∀ q ∈ ds, q ∈ ds0) (hset : ∀ q ∈ ds0, q ∈ ds ∨ (st (.idx q)).isSome)
    (hno : ∀ q ∈ ds, st (.idx q) = none) (h : planWalk S act N.tree st = some ps) :
    ∀ path ∈ ps, path.map Prod.fst = ds := by
  induction ds generalizing N st ps with
  | nil =>
    have hall : ∀ q ∈ ds0, (st (.idx q)).isSome := fun q hq => by
      rcases hset q hq with h | h
      · cases h
      · exact h
    have hd : ps = [[]] := by
      cases ht : N.tree with
      | leaf =>
        rw [ht] at h
        simp only [planWalk] at h
        split at h
        · cases h; rfl
        · cases h
      | bad => rw [ht] at h; cases h
      | node d n bs =>
        rw [ht, planWalk_shape] at h
        split at h
        · cases h
        · cases h; rfl
        · next ha => have := (hact st _ ha).2 hall; cases this
    intro path hp
    rw [hd, List.mem_singleton] at hp
    rw [hp]; rfl
  | cons d ds ih =>
    cases N with
    | fn e l r =>
      obtain ⟨rfl, hN⟩ := hN
      obtain ⟨hd, hn⟩ := List.nodup_cons.1 hn
      have hf := hA.find hu (d := e) (.inl ⟨e, l, r, rfl, by simp⟩)
      have hr : ∀ v, Sig.At (st.set (.idx e) v) S.sig r := by
        intro v
        refine Sig.At.trans (hA.congr hu ?_) (.fn (.refl _))
        intro e' he
        simp only [Sig.anyAccept, Bool.or_eq_false_iff, beq_eq_false_iff_ne] at he
        simp [State.set, Ne.symm he.1]
      simp only [Sig.tree, planWalk_shape, hf, Sig.shape, ↓reduceDIte] at h
      split at h
      · cases h
      · next ha =>
        have := (hact st _ ha).1 rfl e (hsub e (.head _))
        rw [hno e (.head _)] at this; cases this
      · simp only [Option.bind_eq_some_iff] at h
        obtain ⟨v, hv, m, hm, h⟩ := h
        intro path hp
        rw [seqAll_mem h] at hp
        obtain ⟨i, hi, a, ha, hp⟩ := hp
        obtain ⟨qs, hqs, rfl⟩ := Option.map_eq_some_iff.1 ha
        obtain ⟨q, hq, rfl⟩ := List.mem_map.1 hp
        have := ih (hr _) hN hn (fun q hq => hsub q (.tail _ hq)) (by
          intro q hq
          by_cases hqe : q = e
          · right; simp [State.set, hqe]
          · rcases hset q hq with h | h
            · rcases List.mem_cons.1 h with h | h
              · exact absurd h hqe
              · exact .inl h
            · right; simp [State.set, hqe, h]) (by
          intro q hq
          have : q ≠ e := by rintro rfl; exact hd hq
          simp [State.set, this, hno q (.tail _ hq)]) hqs q hq
        simp [this]
    | scalar _ => exact absurd hN id
    | void => exact absurd hN id
    | dep _ _ _ => exact absurd hN id
    | ill => exact absurd hN id

/-- The loops of a planner with one function registered by `for_dims`. -/
theorem forDims_paths {A : Arith} {p : Planner} {ds : List Dim} {f : Nat} (hp : p.endings = [])
    (hu : ((p.forDims A ds f).top.sem A).sig.uniq) (hn : ds.Nodup) (hv : ∀ v ∈ p.views, ∀ q ∈ ds, q ∉ v.dims)
    {ps : List Path}
    (h : planWalk ((p.forDims A ds f).top.sem A) (fun st => ((p.forDims A ds f).activated A st).map Option.isSome)
      ((p.forDims A ds f).top.sem A).sig.tree .empty = some ps) :
    ∀ path ∈ ps, path.map Prod.fst = ds := by
  have htop : (p.forDims A ds f).top = p.top.apply (ds.reverse.map .hoist) := by
    simp only [Planner.forDims, Planner.forSections, Planner.order, Planner.top, Struct.apply_append]
  have hends : (p.forDims A ds f).endings = [(Registered.sections ds f).ending A p.base] := by
    simp only [Planner.forDims, Planner.forSections, Planner.order, hp, List.nil_append, Registered.ending]
  refine planWalk_leads (ds0 := ds) ?_ hu (.refl _) ?_ hn (fun _ h => h) (fun _ h => .inl h) (fun _ _ => rfl) h
  · intro st b hb
    obtain ⟨o, ho, rfl⟩ := Option.map_eq_some_iff.1 hb
    simp only [Planner.activated, Option.bind_eq_some_iff] at ho
    obtain ⟨u, hu, ho⟩ := ho
    obtain ⟨h1, h2, h3⟩ := activatedEnding_some ho
    rw [h3, hends]
    have hmem : (Registered.sections ds f).ending A p.base ∈ (p.forDims A ds f).endings := by rw [hends]; simp
    simp only [List.mem_singleton, exists_eq_left, Registered.given_iff (h1 _ hmem)]
    have huq : ∀ q ∈ ds, u (.idx q) = st (.idx q) := by
      intro q hq
      have hu' : stateAt A p.base (p.views ++ ds.reverse.map .hoist) st = some u := hu
      refine stateAt_idx ?_ hu'
      intro v hv'
      rcases List.mem_append.1 hv' with hv' | hv'
      · exact hv v hv' q hq
      · obtain ⟨e, -, rfl⟩ := List.mem_map.1 hv'
        simp [View.dims]
    constructor
    · intro h q hq; rw [← huq q hq]; exact h q hq
    · intro h q hq; rw [huq q hq]; exact h q hq
  · rw [htop]
    refine hoist_leads hn ?_
    intro hi
    rw [htop, hi] at h
    cases h

/-! ### A single function registered by `for_each` -/

theorem planWalk_walk {S : Sem} {act : State → Option Bool}
    (hact : ∀ st, act st = some true → ∀ q, S.sig.needs st q → (st (.idx q)).isSome) (hu : S.sig.uniq)
    {N : Sig} {st : State} {ps : List Path} (hA : Sig.At st S.sig N)
    (hno : ∀ e, N.anyAccept e = true → st (.idx e) = none)
    (h : planWalk S act N.tree st = some ps) : walk S N.tree st = some ps := by
  induction N generalizing st ps with
  | scalar s =>
    simp only [Sig.tree, planWalk] at h
    split at h
    · cases h; rfl
    · cases h
  | void =>
    simp only [Sig.tree, planWalk] at h
    split at h
    · cases h; rfl
    · cases h
  | ill => simp [Sig.tree, planWalk] at h
  | fn d l r ih =>
    have hN := hA.uniq hu
    have hf := hA.find hu (d := d) (.inl ⟨d, l, r, rfl, by simp⟩)
    have hr : ∀ v, Sig.At (st.set (.idx d) v) S.sig r := by
      intro v
      refine Sig.At.trans (hA.congr hu ?_) (.fn (.refl _))
      intro e he
      simp only [Sig.anyAccept, Bool.or_eq_false_iff, beq_eq_false_iff_ne] at he
      simp [State.set, Ne.symm he.1]
    have hno' : ∀ v e, r.anyAccept e = true → st.set (.idx d) v (.idx e) = none := by
      intro v e he
      have : e ≠ d := by rintro rfl; rw [hN.1] at he; cases he
      simp [State.set, this, hno e (by simp [Sig.anyAccept, he])]
    simp only [Sig.tree, planWalk_shape, hf, Sig.shape, ↓reduceDIte] at h
    split at h
    · cases h
    · next ha =>
      have := hact st ha d (hA.needs (.inl rfl))
      rw [hno d (by simp [Sig.anyAccept])] at this; cases this
    · simp only [Sig.tree, walk_shape, hf, Sig.shape, ↓reduceDIte]
      simp only [Option.bind_eq_some_iff] at h ⊢
      obtain ⟨v, hv, m, hm, h⟩ := h
      refine ⟨v, hv, m, hm, ?_⟩
      rw [← h]
      congr 1
      refine List.map_congr_left ?_
      intro i hi
      obtain ⟨a, ha⟩ := seqAll_map_some h i hi
      obtain ⟨qs, hqs, rfl⟩ := Option.map_eq_some_iff.1 ha
      rw [hqs, ih (hr _) (hno' _) hqs]
  | dep d n rs ih =>
    have hN := hA.uniq hu
    have hf := hA.find hu (d := d) (.inr ⟨d, n, rs, rfl, by simp⟩)
    simp only [Sig.tree, planWalk_shape, hf, Sig.shape] at h
    split at h
    · cases h
    · next ha =>
      have := hact st ha d (hA.needs (.inl rfl))
      rw [hno d (by simp [Sig.anyAccept])] at this; cases this
    · cases h

/-- With one function registered by `for_each`, the loops are those of the traverser. -/
theorem forEach_paths {p q : Planner} {f : Nat} (hw : p.top.wf .ideal) (hn : p.top.noAlias)
    (hs : p.top.sane .ideal) (hd : ∀ v ∈ p.views, v.direct) (hq : p.forEach .ideal f = some q)
    {calls : List (Body × Planner)} (h : q.execute .ideal = some calls) :
    ∃ ps, walk (p.top.sem .ideal) (p.top.sem .ideal).sig.tree .empty = some ps ∧
      calls.map (fun c => (c.1, c.2.state .ideal)) =
        ps.map (fun path => (Body.each f, stateAt .ideal p.base (p.views ++ fixes path) .empty)) ∧
      ∀ path ∈ ps, (stateAt .ideal p.base (p.views ++ fixes path) .empty).isSome := by
  have hq' : q = { p with endings := [⟨(p.base.sem .ideal).sig, .each f⟩] } := by
    simp only [Planner.forEach] at hq
    split at hq
    · cases hq; rfl
    · cases hq
  subst hq'
  have hu : (p.top.sem .ideal).sig.uniq := Struct.sig_uniq .ideal _ hw hn
  simp only [Planner.execute, bind, Option.bind_eq_some_iff] at h
  obtain ⟨ps, hps, hcalls⟩ := h
  refine ⟨ps, ?_, ?_, ?_⟩
  · refine planWalk_walk ?_ hu (.refl _) (fun _ _ => rfl) hps
    intro st ha
    obtain ⟨o, ho, hoo⟩ := Option.map_eq_some_iff.1 ha
    simp only [Planner.activated, Option.bind_eq_some_iff] at ho
    obtain ⟨u, hu', ho⟩ := ho
    obtain ⟨-, -, h3⟩ := activatedEnding_some ho
    obtain ⟨e, he, hc⟩ := h3.1 hoo
    rw [List.mem_singleton] at he
    subst he
    exact needs_top (s := p.base) (vs := p.views) hw hn hs hd hu' hc
  · have key : ∀ path c, (Planner.visit { p with endings := [⟨(p.base.sem .ideal).sig, .each f⟩] } path).call .ideal = some c →
        (c.1, c.2.state .ideal) = (Body.each f, stateAt .ideal p.base (p.views ++ fixes path) .empty) := by
      intro path c hcall
      obtain ⟨b, q⟩ := c
      simp only [Planner.call, bind, Option.bind_eq_some_iff, Option.some.injEq, Prod.mk.injEq] at hcall
      obtain ⟨o, ha, e, rfl, q', hq, hb, rfl⟩ := hcall
      simp only [Planner.activated, Option.bind_eq_some_iff] at ha
      obtain ⟨u, hu1, ha⟩ := ha
      obtain ⟨-, hmem, -⟩ := activatedEnding_some ha
      obtain ⟨he, hcomp⟩ := hmem e rfl
      have he : e = ⟨(p.base.sem .ideal).sig, .each f⟩ := List.mem_singleton.1 he
      subst he
      simp only [Planner.pop, bind, Option.bind_eq_some_iff, Option.some.injEq] at hq
      obtain ⟨u', -, rfl⟩ := hq
      subst hb
      rfl
    have hm := mapM_some hcalls
    clear hps hcalls
    induction calls generalizing ps with
    | nil =>
      cases ps with
      | nil => rfl
      | cons _ _ => simp at hm
    | cons c calls ih =>
      cases ps with
      | nil => simp at hm
      | cons path ps =>
        simp only [List.map_cons, List.cons.injEq] at hm ⊢
        exact ⟨key path c hm.1.symm, ih ps hm.2⟩
  · intro path hpath
    have hm := mapM_some hcalls
    have : (Planner.visit { p with endings := [⟨(p.base.sem .ideal).sig, .each f⟩] } path).call .ideal ∈ calls.map some := by
      rw [hm]; exact List.mem_map.2 ⟨path, hpath, rfl⟩
    obtain ⟨c, -, hc⟩ := List.mem_map.1 this
    have hcall := hc.symm
    obtain ⟨b, q⟩ := c
    simp only [Planner.call, bind, Option.bind_eq_some_iff] at hcall
    obtain ⟨o, ha, -⟩ := hcall
    simp only [Planner.activated, Option.bind_eq_some_iff] at ha
    obtain ⟨u, hu1, -⟩ := ha
    have hu1 : stateAt .ideal p.base (p.views ++ fixes path) .empty = some u := hu1
    rw [hu1]; rfl

end Noarr
