import Verif.SectionFix
import Verif.Props.Traversal
import Verif.MemVisited

/-
Nested traversals. Used for C29.
-/

set_option linter.unusedVariables false
set_option linter.unusedSimpArgs false

namespace Noarr

/-- The views that give the indices of a path. -/
abbrev fixes (p : Path) : List View := p.map fun di => .fix di.1 di.2

/-- The state below `fix` for all the indices of a path. -/
def Path.under (p : Path) (st : State) : State :=
  p.foldr (fun di st => (st.remove (.len di.1)).set (.idx di.1) di.2) st

theorem stateAt_under (A : Arith) (s : Struct) (p : Path) (st : State) :
    stateAt A s (fixes p) st = some (Path.under p st) := by
  induction p generalizing s with
  | nil => rfl
  | cons di p ih =>
    simp only [fixes, List.map_cons, stateAt] at ih ⊢
    rw [ih]
    rfl

theorem Path.under_len (p : Path) {st : State} (h : ∀ q, st (.len q) = none) (q : Dim) :
    Path.under p st (.len q) = none := by
  induction p with
  | nil => exact h q
  | cons di p ih =>
    show ((Path.under p st).remove (.len di.1)).set (.idx di.1) di.2 (.len q) = _
    simp [State.set, State.remove, ih]

theorem Path.under_other {p : Path} {st : State} {q : Dim} (h : q ∉ p.map Prod.fst) :
    Path.under p st (.idx q) = st (.idx q) := by
  induction p with
  | nil => rfl
  | cons di p ih =>
    rw [List.map_cons, List.mem_cons, not_or] at h
    show ((Path.under p st).remove (.len di.1)).set (.idx di.1) di.2 (.idx q) = _
    simp [State.set, State.remove, ih h.2, h.1]

theorem Path.under_mem {p : Path} (hn : (p.map Prod.fst).Nodup) {st : State} {q : Dim} {v : Val}
    (h : (q, v) ∈ p) : Path.under p st (.idx q) = some v := by
  induction p with
  | nil => simp at h
  | cons di p ih =>
    rw [List.map_cons, List.nodup_cons] at hn
    show ((Path.under p st).remove (.len di.1)).set (.idx di.1) di.2 (.idx q) = _
    rcases List.mem_cons.1 h with rfl | h
    · simp [State.set]
    · have : q ≠ di.1 := by
        rintro rfl
        exact hn.1 (List.mem_map.2 ⟨_, h, rfl⟩)
      simp [State.set, State.remove, this, ih hn.2 h]

/-- The tree of loops is one for the signature: when its first dimension can be iterated, it has as
many branches as there are, and what follows is a tree for the rest. -/
def Suits : DimTree → Sig → Prop
  | .leaf, _ => True
  | .bad, _ => True
  | .node d n bs, S =>
    match S.find d .empty with
    | .fn _ _ _ => (∀ i, (bs i).contains d = false) ∧ ∀ i v, Suits (bs i) (S.cut d (.dyn v))
    | .dep _ n' _ => n = n' ∧ (∀ i, (bs i).contains d = false) ∧ ∀ i : Fin n, Suits (bs i) (S.cut d (.lit i))
    | _ => True

/-- The path of nested loops has dimensions of the tree only. -/
theorem walk_dims {S : Sem} {t : DimTree} {st : State} {ps : List Path} (h : walk S t st = some ps)
    {p : Path} (hp : p ∈ ps) {di : Dim × Val} (hdi : di ∈ p) : t.contains di.1 = true := by
  induction t generalizing st ps p with
  | leaf =>
    simp only [walk, Option.some.injEq] at h
    subst h
    simp only [List.mem_singleton] at hp
    subst hp
    simp at hdi
  | bad => simp [walk] at h
  | node d n bs ih =>
    rw [walk_shape] at h
    simp only [DimTree.contains, Bool.or_eq_true, beq_iff_eq, decide_eq_true_eq]
    split at h
    · obtain ⟨i, -, qs, h1, h2⟩ := (seqAll_mem h).1 hp
      obtain ⟨qs', h3, rfl⟩ := Option.map_eq_some_iff.1 h1
      obtain ⟨q, hq, rfl⟩ := List.mem_map.1 h2
      rcases List.mem_cons.1 hdi with rfl | hdi
      · exact .inl rfl
      · exact .inr ⟨i, ih i h3 hq hdi⟩
    · split at h
      · simp only [Option.bind_eq_some_iff] at h
        obtain ⟨l, -, m, -, h⟩ := h
        obtain ⟨i, -, qs, h1, h2⟩ := (seqAll_mem h).1 hp
        obtain ⟨qs', h3, rfl⟩ := Option.map_eq_some_iff.1 h1
        obtain ⟨q, hq, rfl⟩ := List.mem_map.1 h2
        rcases List.mem_cons.1 hdi with rfl | hdi
        · exact .inl rfl
        · exact .inr ⟨_, ih _ h3 hq hdi⟩
      · cases h
    · cases h

/-- What is required of a structure that is traversed in sections. -/
structure Plain (A : Arith) (s : Struct) : Prop where
  tame : s.tame
  firm : s.firm fun _ => false
  wf : (s.sem A).sig.wf = true
  uniq : (s.sem A).sig.uniq

theorem Plain.fix {A : Arith} {s : Struct} (h : Plain A s) {d : Dim} {v : Val} (hi : InFront (s.sem A) d v) :
    Plain A (.view (.fix d v) s) := by
  obtain ⟨h1, h2⟩ := hi.sig h.wf h.uniq
  refine ⟨⟨h.tame, trivial⟩, ?_, h1, h2⟩
  have : (View.fix d v).pat (fun _ => false) = fun _ => false := by
    funext e; simp [View.pat]
  simp only [Struct.firm, this]
  exact h.firm

structure Covers (A : Arith) (s : Struct) (ps : List Path) : Prop where
  plain : ∀ p ∈ ps, Plain A (s.apply (fixes p))
  nodup : ∀ p ∈ ps, (p.map Prod.fst).Nodup
  fwd : ∀ f, Addr (s.sem A) (fun _ => none) f → ∃ p ∈ ps, ∃ g,
    Addr ((s.apply (fixes p)).sem A) (fun _ => none) g ∧ Path.under p g = f
  bwd : ∀ p ∈ ps, ∀ g, Addr ((s.apply (fixes p)).sem A) (fun _ => none) g →
    LengthsKnown (s.sem A) (Path.under p g) → Addr (s.sem A) (fun _ => none) (Path.under p g)
  entry : ∀ p ∈ ps, ∀ g q o, ((s.apply (fixes p)).sem A).sig.entry g q o →
    q ∉ p.map Prod.fst ∧ (s.sem A).sig.entry (Path.under p g) q o
  known : ∀ p ∈ ps, ∀ g, (∀ q, g (.len q) = none) → LengthsKnown (s.sem A) (Path.under p g) →
    LengthsKnown ((s.apply (fixes p)).sem A) g

/-- The first loop and, for each of its indices, the other loops. -/
theorem Covers.cons {A : Arith} {s : Struct} (hs : Plain A s) {d : Dim} {ps : List Path}
    (vs : List Val) (qs : Val → List Path)
    (hmem : ∀ p, p ∈ ps ↔ ∃ v ∈ vs, ∃ q ∈ qs v, p = (d, v) :: q)
    (hin : ∀ v ∈ vs, InFront (s.sem A) d v)
    (hall : ∀ f, Addr (s.sem A) (fun _ => none) f → ∃ v ∈ vs, f (.idx d) = some v)
    (hfresh : ∀ v ∈ vs, ∀ q ∈ qs v, d ∉ q.map Prod.fst)
    (ih : ∀ v ∈ vs, Covers A (.view (.fix d v) s) (qs v)) : Covers A s ps := by
  constructor
  · intro p hp
    obtain ⟨v, hv, q, hq, rfl⟩ := (hmem p).1 hp
    exact (ih v hv).plain q hq
  · intro p hp
    obtain ⟨v, hv, q, hq, rfl⟩ := (hmem p).1 hp
    rw [List.map_cons, List.nodup_cons]
    exact ⟨hfresh v hv q hq, (ih v hv).nodup q hq⟩
  · intro f hf
    obtain ⟨v, hv, hfv⟩ := hall f hf
    obtain ⟨q, hq, g, hg, hgf⟩ := (ih v hv).fwd _ (addr_fix (hin v hv) hs.wf hs.uniq hf hfv)
    refine ⟨_, (hmem _).2 ⟨v, hv, q, hq, rfl⟩, g, hg, ?_⟩
    show ((Path.under q g).remove _).set _ _ = _
    rw [hgf]
    funext t
    cases t with
    | idx e => simp only [State.set, State.remove, Tag.idx.injEq, reduceCtorEq, ↓reduceIte]; grind
    | len e => simp [State.set, State.remove, hf.lens]
  · intro p hp g hg hl
    obtain ⟨v, hv, q, hq, rfl⟩ := (hmem p).1 hp
    have he : Path.under ((d, v) :: q) g = (Path.under q g).set (.idx d) v := by
      show ((Path.under q g).remove _).set _ _ = _
      have := Path.under_len q (fun e => hg.lens e)
      funext t
      cases t with
      | idx e => simp [State.set, State.remove]
      | len e => simp [State.set, State.remove, this]
    rw [he] at hl ⊢
    have h1 := (ih v hv).bwd q hq g hg
      (lengthsKnown_fix (hin v hv) hs.wf hs.uniq (Path.under_len q (fun e => hg.lens e)) hl)
    exact (addr_unfix hs.tame hs.firm (hin v hv) hs.wf hs.uniq h1 hl).1
  · intro p hp g x o hx
    obtain ⟨v, hv, q, hq, rfl⟩ := (hmem p).1 hp
    obtain ⟨h1, h2⟩ := (ih v hv).entry q hq g x o hx
    obtain ⟨hw', hu'⟩ := (hin v hv).sig hs.wf hs.uniq
    have := (fix_entry hw' hs.uniq (f := Path.under ((d, v) :: q) g) (g := Path.under q g) (fun e he => by
      show _ = ((Path.under q g).remove _).set _ _ _
      simp [State.set, State.remove, he]) (by
      show ((Path.under q g).remove _).set _ _ _ = _
      simp [State.set]) x o).1 h2
    exact ⟨by rw [List.map_cons, List.mem_cons, not_or]; exact ⟨this.1, h1⟩, this.2⟩
  · intro p hp g hg hl
    obtain ⟨v, hv, q, hq, rfl⟩ := (hmem p).1 hp
    have he : Path.under ((d, v) :: q) g = (Path.under q g).set (.idx d) v := by
      show ((Path.under q g).remove _).set _ _ = _
      have := Path.under_len q hg
      funext t
      cases t with
      | idx e => simp [State.set, State.remove]
      | len e => simp [State.set, State.remove, this]
    rw [he] at hl
    exact (ih v hv).known q hq g hg
      (lengthsKnown_fix (hin v hv) hs.wf hs.uniq (Path.under_len q hg) hl)

theorem walk_covers {A : Arith} {t : DimTree} {s : Struct} (hs : Plain A s) (ht : Suits t (s.sem A).sig)
    {ps : List Path} (h : walk (s.sem A) t .empty = some ps) : Covers A s ps := by
  induction t generalizing s ps with
  | leaf =>
    simp only [walk, Option.some.injEq] at h
    subst h
    refine ⟨by simp only [List.mem_singleton, forall_eq]; exact hs, by simp, fun f hf => ⟨[], by simp, f, hf, rfl⟩, ?_, ?_, ?_⟩
    · simp only [List.mem_singleton, forall_eq]
      exact fun g hg _ => hg
    · simp only [List.mem_singleton, forall_eq]
      exact fun g q o h => ⟨by simp, h⟩
    · simp only [List.mem_singleton, forall_eq]
      exact fun g _ h => h
  | bad => simp [walk] at h
  | node d n bs ih =>
    rw [walk_shape] at h
    simp only [Suits] at ht
    cases hfind : (s.sem A).sig.find d .empty with
    | scalar _ => simp [hfind, Sig.shape] at h
    | void => simp [hfind, Sig.shape] at h
    | ill => simp [hfind, Sig.shape] at h
    | fn e l0 r0 =>
      simp only [hfind, Sig.shape] at h ht
      split at h
      · next hn =>
        subst hn
        simp only [Option.bind_eq_some_iff] at h
        obtain ⟨l, hl, m, hm, h⟩ := h
        obtain ⟨ht1, ht2⟩ := ht
        have hin : ∀ i, i < m → InFront (s.sem A) d (.dyn i) := by
          intro i hi
          simp only [InFront, hfind]
          exact ⟨i, l, m, rfl, hl, hm, hi⟩
        have hwalk : ∀ i, i < m → ∃ qs, walk ((Struct.view (.fix d (.dyn i)) s).sem A) (bs 0) .empty = some qs := by
          intro i hi
          have := seqAll_map_some h i (List.mem_range.2 hi)
          obtain ⟨a, ha⟩ := this
          obtain ⟨b, hb, -⟩ := Option.map_eq_some_iff.1 ha
          exact ⟨b, by rw [← walk_fix hs.uniq (ht1 0)]; exact hb⟩
        refine Covers.cons hs (d := d) ((List.range m).map .dyn)
          (fun v => (walk ((Struct.view (.fix d v) s).sem A) (bs 0) .empty).getD []) ?_ ?_ ?_ ?_ ?_
        · intro p
          rw [seqAll_mem h]
          constructor
          · rintro ⟨i, hi, qs, h1, h2⟩
            obtain ⟨qs', h3, rfl⟩ := Option.map_eq_some_iff.1 h1
            obtain ⟨q, hq, rfl⟩ := List.mem_map.1 h2
            refine ⟨.dyn i, List.mem_map.2 ⟨i, hi, rfl⟩, q, ?_, rfl⟩
            rw [← walk_fix hs.uniq (ht1 0)]
            rw [show walk (s.sem A) (bs 0) _ = some qs' from h3]
            exact hq
          · rintro ⟨v, hv, q, hq, rfl⟩
            obtain ⟨i, hi, rfl⟩ := List.mem_map.1 hv
            obtain ⟨qs, hqs⟩ := hwalk i (List.mem_range.1 hi)
            rw [hqs] at hq
            rw [← walk_fix hs.uniq (ht1 0)] at hqs
            refine ⟨i, hi, _, Option.map_eq_some_iff.2 ⟨qs, hqs, rfl⟩, List.mem_map.2 ⟨q, hq, rfl⟩⟩
        · intro v hv
          obtain ⟨i, hi, rfl⟩ := List.mem_map.1 hv
          exact hin i (List.mem_range.1 hi)
        · intro f hf
          have hfr : Sig.Front d (s.sem A).sig := Sig.front_of_find (by rw [hfind]; simp [Sig.shape])
          have hent : (s.sem A).sig.entry f d none := by
            rcases hfr.cases with ⟨h1, -, -⟩ | ⟨n, -, h2, -⟩
            · exact h1 f
            · obtain ⟨rs, hr⟩ := h2 .empty
              rw [hfind] at hr; cases hr
          obtain ⟨k, l', m', h1, h2, h3, h4⟩ := hf.ok d none hent
          have hgr : Grow .empty (f.remove (.idx d)) :=
            ⟨fun e => by simp [State.remove, State.empty, hf.lens], fun e x he => by simp [State.empty] at he⟩
          have := (s.grows A hs.tame).len _ _ d l l' hgr (firm_noLen hs.firm (fun e => by
            simp [State.remove, hf.lens])) hl h2
          subst this
          have : m = m' := Option.some.inj (hm.symm.trans h3)
          subst this
          exact ⟨.dyn k, List.mem_map.2 ⟨k, List.mem_range.2 h4, rfl⟩, h1⟩
        · intro v hv q hq
          obtain ⟨i, hi, rfl⟩ := List.mem_map.1 hv
          obtain ⟨qs, hqs⟩ := hwalk i (List.mem_range.1 hi)
          rw [hqs] at hq
          intro hd
          obtain ⟨di, h1, rfl⟩ := List.mem_map.1 hd
          have := walk_dims hqs hq h1
          rw [ht1 0] at this; cases this
        · intro v hv
          obtain ⟨i, hi, rfl⟩ := List.mem_map.1 hv
          obtain ⟨qs, hqs⟩ := hwalk i (List.mem_range.1 hi)
          rw [hqs]
          exact ih 0 (hs.fix (hin i (List.mem_range.1 hi))) (ht2 0 i) hqs
      · cases h
    | dep e n' rs =>
      simp only [hfind, Sig.shape] at h ht
      obtain ⟨rfl, ht1, ht2⟩ := ht
      have hin : ∀ k : Fin n, InFront (s.sem A) d (.lit k) := by
        intro k
        simp only [InFront, hfind]
        exact ⟨k, rfl, k.2⟩
      have hwalk : ∀ k : Fin n, ∃ qs, walk ((Struct.view (.fix d (.lit k)) s).sem A) (bs k) .empty = some qs := by
        intro k
        obtain ⟨a, ha⟩ := seqAll_map_some h k (List.mem_finRange k)
        obtain ⟨b, hb, -⟩ := Option.map_eq_some_iff.1 ha
        exact ⟨b, by rw [← walk_fix hs.uniq (ht1 k)]; exact hb⟩
      refine Covers.cons hs (d := d) ((List.finRange n).map fun k : Fin n => Val.lit k.val)
        (fun v => match v with
          | .lit k => if hk : k < n then
              (walk ((Struct.view (.fix d (.lit k)) s).sem A) (bs ⟨k, hk⟩) .empty).getD [] else []
          | _ => []) ?_ ?_ ?_ ?_ ?_
      · intro p
        rw [seqAll_mem h]
        constructor
        · rintro ⟨k, hk, qs, h1, h2⟩
          obtain ⟨qs', h3, rfl⟩ := Option.map_eq_some_iff.1 h1
          obtain ⟨q, hq, rfl⟩ := List.mem_map.1 h2
          refine ⟨.lit k, List.mem_map.2 ⟨k, hk, rfl⟩, q, ?_, rfl⟩
          simp only [k.2, dif_pos, Fin.eta]
          rw [← walk_fix hs.uniq (ht1 k), h3]
          exact hq
        · rintro ⟨v, hv, q, hq, rfl⟩
          obtain ⟨k, hk, rfl⟩ := List.mem_map.1 hv
          obtain ⟨qs, hqs⟩ := hwalk k
          simp only [k.2, dif_pos, Fin.eta, hqs] at hq
          rw [← walk_fix hs.uniq (ht1 k)] at hqs
          exact ⟨k, hk, _, Option.map_eq_some_iff.2 ⟨qs, hqs, rfl⟩, List.mem_map.2 ⟨q, hq, rfl⟩⟩
      · intro v hv
        obtain ⟨k, hk, rfl⟩ := List.mem_map.1 hv
        exact hin k
      · intro f hf
        have hfr : Sig.Front d (s.sem A).sig := Sig.front_of_find (by rw [hfind]; simp [Sig.shape])
        have hent : (s.sem A).sig.entry f d (some n) := by
          rcases hfr.cases with ⟨-, h2, -⟩ | ⟨m, h1, h2, -⟩
          · obtain ⟨l, r, hr⟩ := h2 .empty
            rw [hfind] at hr; cases hr
          · obtain ⟨rs', hr⟩ := h2 .empty
            rw [hfind] at hr; cases hr
            exact h1 f
        obtain ⟨k, h1, h2⟩ := hf.ok d _ hent
        exact ⟨.lit k, List.mem_map.2 ⟨⟨k, h1⟩, List.mem_finRange _, rfl⟩, h2⟩
      · intro v hv q hq
        obtain ⟨k, hk, rfl⟩ := List.mem_map.1 hv
        obtain ⟨qs, hqs⟩ := hwalk k
        simp only [k.2, dif_pos, Fin.eta, hqs] at hq
        intro hd
        obtain ⟨di, h1, rfl⟩ := List.mem_map.1 hd
        have := walk_dims hqs hq h1
        rw [ht1 k] at this; cases this
      · intro v hv
        obtain ⟨k, hk, rfl⟩ := List.mem_map.1 hv
        obtain ⟨qs, hqs⟩ := hwalk k
        simp only [k.2, dif_pos, Fin.eta, hqs]
        exact ih k (hs.fix (hin k)) (ht2 k) hqs

/-! ### The traversal of the sections -/

theorem perm_of_map_some {α : Type} {l l' : List α} (h : (l.map some).Perm (l'.map some)) : l.Perm l' := by
  have := h.filterMap id
  simpa [List.filterMap_map] using this

theorem mapM_perm {α β : Type} {F : α → Option β} {l l' : List α} {r r' : List β} (hp : l.Perm l')
    (h : l.mapM F = some r) (h' : l'.mapM F = some r') : r.Perm r' := by
  apply perm_of_map_some
  rw [mapM_some h, mapM_some h']
  exact hp.map F

theorem mapM_flatten {α β : Type} {F : α → Option β} {ls : List (List α)} {rs : List (List β)}
    (h : ls.map (fun l => l.mapM F) = rs.map some) : ls.flatten.mapM F = some rs.flatten := by
  induction ls generalizing rs with
  | nil =>
    cases rs with
    | nil => rfl
    | cons r rs => simp at h
  | cons l ls ih =>
    cases rs with
    | nil => simp at h
    | cons r rs =>
      simp only [List.map_cons, List.cons.injEq] at h
      simp only [List.flatten_cons, List.mapM_append, h.1, ih h.2, bind, Option.bind_some, pure]

/-- The elements of all the sections are the elements of the structure. -/
theorem covers_perm {A : Arith} {s : Struct} {ps : List Path} (hs : Plain A s) (hc : Covers A s ps)
    (hp : ps.Pairwise PathLt) {sts : List State} (h : (Traverser.mk s []).forEach A [] = some sts)
    {xss : List (List State)}
    (hx : ps.map (fun p => (Traverser.mk s (fixes p)).forEach A []) = xss.map some)
    (hl : ∀ st, (∀ q, st (.len q) = none) → LengthsKnown (s.sem A) st) : xss.flatten.Perm sts := by
  have hg : ∀ p ∈ ps, ∃ gs, (Traverser.mk (s.apply (fixes p)) []).forEach A [] = some gs := by
    intro p hp
    have : (Traverser.mk s (fixes p)).forEach A [] ∈ xss.map some := hx ▸ List.mem_map.2 ⟨p, hp, rfl⟩
    obtain ⟨xs, -, hxs⟩ := List.mem_map.1 this
    rw [forEach_top] at hxs
    obtain ⟨gs, h1, -⟩ := Option.bind_eq_some_iff.1 hxs.symm
    exact ⟨gs, h1⟩
  let G : Path → List State := fun p => ((Traverser.mk (s.apply (fixes p)) []).forEach A []).getD []
  have hG : ∀ p ∈ ps, (Traverser.mk (s.apply (fixes p)) []).forEach A [] = some (G p) := by
    intro p hp
    obtain ⟨gs, h1⟩ := hg p hp
    simp [G, h1]
  have hX : xss = ps.map fun p => (G p).map (Path.under p) := by
    refine (List.map_inj_right (fun _ _ h => Option.some.inj h)).1 (hx.symm.trans ?_)
    rw [List.map_map]
    apply List.map_congr_left
    intro p hp
    rw [forEach_top]
    show ((Traverser.mk (s.apply (fixes p)) []).forEach A []).bind _ = some _
    rw [hG p hp, Option.bind_some]
    exact mapM_map fun g _ => stateAt_under A s p g
  have hnl : ∀ p ∈ ps, ∀ g ∈ G p, ∀ q, g (.len q) = none := by
    intro p hp g hg q
    obtain ⟨qs, h1, h2⟩ := forEach_states (t := ⟨s.apply (fixes p), []⟩) (hc.plain p hp).uniq (hG p hp)
    have : some g ∈ (G p).map some := List.mem_map.2 ⟨g, hg, rfl⟩
    rw [h2] at this
    obtain ⟨r, -, hr⟩ := List.mem_map.1 this
    cases hr
    rw [Path.state_len]; rfl
  have hA : ∀ p ∈ ps, ∀ g ∈ G p, Addr ((s.apply (fixes p)).sem A) (fun _ => none) g := by
    intro p hp g hg
    have hP := hc.plain p hp
    have hk := hc.known p hp g (hnl p hp g hg) (hl _ (Path.under_len p (hnl p hp g hg)))
    exact (addr_iff hP.uniq).2
      (((C26_visits_exactly_the_valid_states A _ hP.tame hP.firm hP.uniq _ (hG p hp)).2 g hk).1 hg)
  subst hX
  obtain ⟨hn, hm⟩ := C26_visits_exactly_the_valid_states A s hs.tame hs.firm hs.uniq sts h
  refine perm_of_nodup ?_ hn fun f => ?_
  · refine List.pairwise_flatten.2 ?_
    constructor
    · intro l hl'
      obtain ⟨p, hpp, rfl⟩ := List.mem_map.1 hl'
      have hP := hc.plain p hpp
      refine List.pairwise_map.2 ?_
      refine List.Pairwise.imp_of_mem ?_ (C26_visits_exactly_the_valid_states A _ hP.tame hP.firm hP.uniq _ (hG p hpp)).1
      intro g g' hg hg' hne he
      apply hne
      have a := hA p hpp g hg
      have a' := hA p hpp g' hg'
      have hnone : ∀ {g}, Addr ((s.apply (fixes p)).sem A) (fun _ => none) g → ∀ q, q ∈ p.map Prod.fst →
          g (.idx q) = none := by
        intro g a q hq
        cases hgq : g (.idx q) with
        | none => rfl
        | some v =>
          obtain ⟨o, ho⟩ := a.only q (by simp [hgq])
          exact absurd hq (hc.entry p hpp g q o ho).1
      funext t
      cases t with
      | len q => rw [a.lens, a'.lens]
      | idx q =>
        by_cases hq : q ∈ p.map Prod.fst
        · rw [hnone a q hq, hnone a' q hq]
        · rw [← Path.under_other (st := g) hq, ← Path.under_other (st := g') hq, he]
    · refine List.pairwise_map.2 ?_
      refine List.Pairwise.imp_of_mem ?_ hp
      intro p p' hpp hpp' hlt f hf f' hf' he
      obtain ⟨g, -, rfl⟩ := List.mem_map.1 hf
      obtain ⟨g', -, rfl⟩ := List.mem_map.1 hf'
      obtain ⟨d, i, j, a, b, h1, h2, ha, hb, hne⟩ := hlt.differ
      have e1 := Path.under_mem (hc.nodup p hpp) (st := g) h1
      have e2 := Path.under_mem (hc.nodup p' hpp') (st := g') h2
      rw [← he, e1] at e2
      cases Option.some.inj e2
      exact hne (Option.some.inj (ha.symm.trans hb))
  · rw [List.mem_flatten]
    constructor
    · rintro ⟨l, hl', hf⟩
      obtain ⟨p, hpp, rfl⟩ := List.mem_map.1 hl'
      obtain ⟨g, hg, rfl⟩ := List.mem_map.1 hf
      have hk := hl _ (Path.under_len p (hnl p hpp g hg))
      exact (hm _ hk).2 ((addr_iff hs.uniq).1 (hc.bwd p hpp g (hA p hpp g hg) hk))
    · intro hf
      have hflen : ∀ q, f (.len q) = none := by
        obtain ⟨qs, h1, h2⟩ := forEach_states (t := ⟨s, []⟩) hs.uniq h
        have : some f ∈ sts.map some := List.mem_map.2 ⟨f, hf, rfl⟩
        rw [h2] at this
        obtain ⟨r, -, hr⟩ := List.mem_map.1 this
        cases hr
        intro q
        rw [Path.state_len]; rfl
      have hk := hl f hflen
      obtain ⟨p, hpp, g, hg, rfl⟩ := hc.fwd f ((addr_iff hs.uniq).2 ((hm f hk).1 hf))
      have hP := hc.plain p hpp
      have hk' := hc.known p hpp g hg.lens hk
      refine ⟨_, List.mem_map.2 ⟨p, hpp, rfl⟩, List.mem_map.2 ⟨g, ?_, rfl⟩⟩
      exact ((C26_visits_exactly_the_valid_states A _ hP.tame hP.firm hP.uniq _ (hG p hpp)).2 g hk').2
        ((addr_iff hP.uniq).1 hg)

/-- A loop nest made by `run`, with all the elements visited inside. -/
theorem run_perm {A : Arith} {t : Traverser} {tree : DimTree} (hs : Plain A t.top)
    (htree : Suits tree (t.top.sem A).sig) {ts : List Traverser} (h : t.run A tree = some ts)
    {sts : List State} (hfull : t.forEach A [] = some sts) {xss : List (List State)}
    (hx : ts.map (fun u => u.forEach A []) = xss.map some)
    (hl : ∀ st, (∀ q, st (.len q) = none) → LengthsKnown (t.top.sem A) st) : xss.flatten.Perm sts := by
  obtain ⟨ps, hps, rfl⟩ := Option.map_eq_some_iff.1 h
  have hc := walk_covers hs htree hps
  rw [forEach_top] at hfull
  obtain ⟨tops, htops, hmap⟩ := Option.bind_eq_some_iff.1 hfull
  have key : ∀ p, (t.visit p).forEach A [] = ((Traverser.mk t.top (fixes p)).forEach A []).bind
      fun ys => ys.mapM (stateAt A t.base t.views) := by
    intro p
    rw [forEach_top A (t.visit p), forEach_top A ⟨t.top, fixes p⟩]
    have e : (t.visit p).top = (Traverser.mk t.top (fixes p)).top := by
      simp only [Traverser.visit, Traverser.order, Traverser.top, Struct.apply_append]
    rw [e, Option.bind_assoc]
    congr 1
    funext gs
    rw [← mapM_bind]
    congr 1
    funext g
    simp only [Traverser.visit, Traverser.order, stateAt_append]
    rfl
  let Y : Path → List State := fun p => ((Traverser.mk t.top (fixes p)).forEach A []).getD []
  have hY : ∀ p ∈ ps, (Traverser.mk t.top (fixes p)).forEach A [] = some (Y p) := by
    intro p hp
    have : (t.visit p).forEach A [] ∈ xss.map some := hx ▸ List.mem_map.2 ⟨_, List.mem_map.2 ⟨p, hp, rfl⟩, rfl⟩
    obtain ⟨xs, -, hxs⟩ := List.mem_map.1 this
    rw [key] at hxs
    obtain ⟨ys, h1, -⟩ := Option.bind_eq_some_iff.1 hxs.symm
    simp [Y, h1]
  have h1 : (ps.map Y).flatten.Perm tops := covers_perm hs hc (walk_sorted _ hps) htops (by
    rw [List.map_map]
    exact List.map_congr_left hY) hl
  have h2 : (ps.map Y).flatten.mapM (stateAt A t.base t.views) = some xss.flatten := by
    apply mapM_flatten
    rw [← hx, List.map_map, List.map_map]
    apply List.map_congr_left
    intro p hp
    simp only [Function.comp, key, hY p hp, Option.bind_some]
  exact mapM_perm h1 h2 hmap

end Noarr
