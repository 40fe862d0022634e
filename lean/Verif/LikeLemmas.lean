import Verif.Like
import Verif.Flat
import Verif.Grow
import Verif.RangeLemmas
import Verif.Props.Proto
import Verif.Props.Layout

/-
Lemmas about `vectors_like` and its relatives, for C60.
-/

namespace Noarr

/-- `s ^ vector<d1>(l1) ^ vector<d2>(l2) ^ ...` -/
def vecs : List (Dim × Val) → Struct → Struct
  | [], s => s
  | p :: ps, s => vecs ps (.view (.setLength p.1 p.2) (.vector p.1 s))

theorem vecs_append (ps qs : List (Dim × Val)) (s : Struct) : vecs (ps ++ qs) s = vecs qs (vecs ps s) := by
  induction ps generalizing s with
  | nil => rfl
  | cons p ps ih => exact ih _

theorem inst_foldl (A : Arith) (p : Proto) (ps : List Proto) (ss : List Struct) :
    (ps.foldl Proto.andThen p).inst A ss =
      ps.foldl (fun o q => o.bind fun s => q.inst A [s]) (p.inst A ss) := by
  induction ps generalizing p with
  | nil => rfl
  | cons q ps ih => rw [List.foldl_cons, ih, Proto.inst_andThen, List.foldl_cons]

theorem inst_all {A : Arith} {ps : List Proto} {p : Proto} (h : Proto.all ps = some p) (s : Struct) :
    p.inst A [s] = ps.foldl (fun o q => o.bind fun s => q.inst A [s]) (some s) := by
  cases ps with
  | nil => cases h
  | cons q ps =>
    cases h
    rw [inst_foldl, List.foldl_cons]
    rfl

theorem inst_vectorOf (A : Arith) (d : Dim) (l : Val) (s : Struct) :
    (Proto.vectorOf d l).inst A [s] = some (.view (.setLength d l) (.vector d s)) := by
  rw [Proto.vectorOf, Proto.inst_andThen]; rfl

theorem inst_vectorsOf {A : Arith} {ps : List (Dim × Val)} {p : Proto} (h : Proto.vectorsOf ps = some p) (s : Struct) :
    p.inst A [s] = some (vecs ps s) := by
  rw [inst_all h]
  clear h
  induction ps generalizing s with
  | nil => rfl
  | cons q ps ih =>
    rw [List.map_cons, List.foldl_cons, Option.bind_some, inst_vectorOf, ih]
    rfl

/-- `vectors_like` is `vectors` with the lengths of the structure. -/
theorem vectorsLike_eq {A : Arith} {s : Struct} {st : State} {ds : List Dim} {p : Proto} :
    Proto.vectorsLike A s st ds = some p ↔
      ∃ ls, ds.mapM (fun d => (s.sem A).len d st) = some ls ∧ Proto.vectorsOf (ds.zip ls) = some p := by
  have e : Proto.vectorLike A s st = fun d => ((s.sem A).len d st).map (Proto.vectorOf d) := by
    funext d
    rw [Proto.vectorLike, Proto.lengthLike, Option.map_map]
    rfl
  have key : ∀ ds : List Dim, ds.mapM (Proto.vectorLike A s st) =
      (ds.mapM fun d => (s.sem A).len d st).map fun ls => (ds.zip ls).map fun p => .vectorOf p.1 p.2 := by
    intro ds
    rw [e]
    induction ds with
    | nil => rfl
    | cons d ds ih =>
      simp only [List.mapM_cons, ih, bind, pure]
      cases (s.sem A).len d st with
      | none => rfl
      | some l => cases ds.mapM fun d => (s.sem A).len d st <;> rfl
  rw [Proto.vectorsLike, key]
  cases ds.mapM fun d => (s.sem A).len d st with
  | none => simp
  | some ls => simp [Proto.vectorsOf]

theorem vec_sig {A : Arith} {s : Struct} {d : Dim} (l : Val) (h : (s.sem A).sig.anyAccept d = false) :
    ((Struct.view (.setLength d l) (.vector d s)).sem A).sig = .fn d (.ofVal l) (s.sem A).sig := by
  simp [Struct.sem, ViewSem.toSem, View.sem, setLengthSem, vectorSem, h, Sig.replace, Sig.setLengthRepl]

theorem vec_len {A : Arith} {s : Struct} {d : Dim} (l : Val) (q : Dim) (u : State) :
    ((Struct.view (.setLength d l) (.vector d s)).sem A).len q u =
      if q = d then (if u.has (.idx d) then none else some l) else
        guardLen ((s.sem A).hasLen q (u.removeAll [.idx d, .len d])) ((s.sem A).len q (u.removeAll [.idx d, .len d])) := by
  have hr : (u.set (.len d) l).removeAll [.idx d, .len d] = u.removeAll [.idx d, .len d] := by
    funext t
    cases t <;> simp [State.removeAll, State.set] <;> grind
  by_cases hq : q = d
  · subst hq
    cases hi : u (.idx q) <;>
      simp [Struct.sem, ViewSem.toSem, View.sem, setLengthSem, vectorSem, guardLen, State.has, State.set, hi]
  · simp only [Struct.sem, ViewSem.toSem, View.sem, setLengthSem, vectorSem, hq, if_false, hr]
    cases (s.sem A).hasLen q (u.removeAll [.idx d, .len d]) with
    | none => rfl
    | some b => cases b <;> rfl

theorem vecs_sig {A : Arith} (ps : List (Dim × Val)) (s : Struct) (hn : (ps.map Prod.fst).Nodup)
    (hs : ∀ p ∈ ps, (s.sem A).sig.anyAccept p.1 = false) (hf : (s.sem A).sig.flat) (hu : (s.sem A).sig.uniq) :
    ((vecs ps s).sem A).sig.flat ∧ ((vecs ps s).sem A).sig.uniq ∧
      ((vecs ps s).sem A).sig.dimList = (ps.map Prod.fst).reverse ++ (s.sem A).sig.dimList := by
  induction ps generalizing s with
  | nil => exact ⟨hf, hu, rfl⟩
  | cons p ps ih =>
    rw [List.map_cons, List.nodup_cons] at hn
    have hp := hs p (by simp)
    have h := ih (.view (.setLength p.1 p.2) (.vector p.1 s)) hn.2 (fun r hr => by
      rw [vec_sig _ hp]
      simp only [Sig.anyAccept, Bool.or_eq_false_iff, beq_eq_false_iff_ne]
      exact ⟨fun e => hn.1 (e ▸ List.mem_map_of_mem hr), hs r (by simp [hr])⟩)
      (by rw [vec_sig _ hp]; exact hf) (by rw [vec_sig _ hp]; exact ⟨hp, hu⟩)
    rw [vec_sig _ hp] at h
    refine ⟨h.1, h.2.1, ?_⟩
    show ((vecs ps _).sem A).sig.dimList = _
    rw [h.2.2]
    simp [Sig.dimList]

theorem vecs_len_other {A : Arith} (ps : List (Dim × Val)) (s : Struct) {q : Dim} (hq : q ∉ ps.map Prod.fst)
    (u : State) : ∃ u' : State, u' (.idx q) = u (.idx q) ∧ u' (.len q) = u (.len q) ∧
      ((vecs ps s).sem A).len q u = (s.sem A).len q u' := by
  induction ps generalizing s with
  | nil => exact ⟨u, rfl, rfl, rfl⟩
  | cons p ps ih =>
    simp only [List.map_cons, List.mem_cons, not_or] at hq
    obtain ⟨u1, h1, h2, h3⟩ := ih (.view (.setLength p.1 p.2) (.vector p.1 s)) hq.2
    refine ⟨u1.removeAll [.idx p.1, .len p.1], ?_, ?_, ?_⟩
    · rw [← h1]; simp [State.removeAll, hq.1]
    · rw [← h2]; simp [State.removeAll, hq.1]
    · show ((vecs ps _).sem A).len q u = _
      rw [h3, vec_len, if_neg hq.1]
      cases hl : (s.sem A).len q (u1.removeAll [.idx p.1, .len p.1]) with
      | none => cases (s.sem A).hasLen q (u1.removeAll [.idx p.1, .len p.1]) with
        | none => rfl
        | some b => cases b <;> rfl
      | some l => rw [Struct.hasLen_of_len hl]; rfl

/-- The lengths of such a structure. -/
theorem vecs_len {A : Arith} (ps : List (Dim × Val)) (s : Struct) (hn : (ps.map Prod.fst).Nodup) {q : Dim} {l : Val}
    (hq : (q, l) ∈ ps) {u : State} (hu : u (.idx q) = none) : ((vecs ps s).sem A).len q u = some l := by
  induction ps generalizing s with
  | nil => cases hq
  | cons p ps ih =>
    rw [List.map_cons, List.nodup_cons] at hn
    rcases List.mem_cons.1 hq with rfl | hq
    · obtain ⟨u', h1, -, h3⟩ := vecs_len_other (A := A) ps (.view (.setLength q l) (.vector q s)) hn.1 u
      show ((vecs ps _).sem A).len q u = _
      rw [h3, vec_len, if_pos rfl]
      simp [State.has, h1, hu]
    · exact ih _ hn.2 hq

/-- `for_each` depends on the structure through the loops only. -/
theorem forEach_congr {A : Arith} {s s' : Struct} {ps : List Path}
    (h : walk (s.sem A) (s.sem A).sig.tree .empty = some ps) (h' : walk (s'.sem A) (s'.sem A).sig.tree .empty = some ps) :
    (Traverser.mk s []).forEach A [] = (Traverser.mk s' []).forEach A [] := by
  simp only [Traverser.forEach, Traverser.forSections, Traverser.run, Traverser.top, Struct.apply, h, h',
    Option.map_some, bind, Option.bind_some]
  clear h h'
  induction ps with
  | nil => rfl
  | cons p ps ih =>
    simp only [List.map_cons, List.mapM_cons, ih]
    have : ((Traverser.mk s []).visit p).state A = ((Traverser.mk s' []).visit p).state A :=
      stateAt_fixes A s s' p .empty
    rw [this]

theorem Sig.flat_seq {S : Sig} (h : S.flat) : S.seq = some S.dimList.reverse := by
  induction S with
  | scalar s => rfl
  | void => exact absurd h id
  | ill => exact absurd h id
  | dep => exact absurd h id
  | fn e l r ih => simp [seq, ih h, dimList]

theorem Sig.flat_tree {S T : Sig} (hS : S.flat) (hT : T.flat) (h : S.dimList = T.dimList) : S.tree = T.tree := by
  induction S generalizing T with
  | scalar s => cases T <;> first | rfl | exact absurd hT id | cases h
  | void => exact absurd hS id
  | ill => exact absurd hS id
  | dep => exact absurd hS id
  | fn e l r ih =>
    cases T with
    | scalar => cases h
    | void => exact absurd hT id
    | ill => exact absurd hT id
    | dep => exact absurd hT id
    | fn e' l' r' =>
      simp only [dimList, List.cons.injEq] at h
      obtain ⟨rfl, h⟩ := h
      simp only [tree, ih (T := r') hS hT h]

theorem seqAll_mono {α β : Type} {f g : α → Option (List β)} {l : List α} (h : ∀ a ∈ l, ∀ x, f a = some x → g a = some x)
    {r : List β} (hr : seqAll (l.map f) = some r) : seqAll (l.map g) = some r := by
  induction l generalizing r with
  | nil => exact hr
  | cons a l ih =>
    simp only [List.map_cons, seqAll, bind, Option.bind_eq_some_iff, Option.some.injEq] at hr ⊢
    obtain ⟨x, hx, y, hy, e⟩ := hr
    exact ⟨x, h a (by simp) x hx, y, ih (fun b hb => h b (by simp [hb])) hy, e⟩

/-- The loops over `s` are loops over a structure with the same dimensions and the lengths that `s` reports when no
index is set. -/
theorem walk_like {A : Arith} {s r : Struct} (ht : s.tame) (hf : s.firm fun _ => false) (hs : (s.sem A).sig.flat)
    (hr : (r.sem A).sig.flat)
    (hlen : ∀ q, (s.sem A).sig.anyAccept q = true → (r.sem A).sig.anyAccept q = true ∧
      ∀ u : State, u (.idx q) = none → ∃ l, (r.sem A).len q u = some l ∧ (s.sem A).len q .empty = some l)
    {M : Sig} (hM : M.flat) (hu : M.uniq) (hacc : ∀ q, M.anyAccept q = true → (s.sem A).sig.anyAccept q = true)
    {st : State} (hl : ∀ e, st (.len e) = none) (hno : ∀ e, M.anyAccept e = true → st (.idx e) = none) {ps : List Path}
    (h : walk (s.sem A) M.tree st = some ps) : walk (r.sem A) M.tree st = some ps := by
  induction M generalizing st ps with
  | scalar s => exact h
  | void => exact absurd hM id
  | ill => exact absurd hM id
  | dep => exact absurd hM id
  | fn d l r' ih =>
    have hd : (Sig.fn d l r').anyAccept d = true := by simp [Sig.anyAccept]
    obtain ⟨hrd, hlen'⟩ := hlen d (hacc d hd)
    obtain ⟨_, _, hfd⟩ := Sig.flat_find hs (hacc d hd) st
    obtain ⟨_, _, hfr⟩ := Sig.flat_find hr hrd st
    simp only [Sig.tree, walk, hfd, dif_pos, bind, Option.bind_eq_some_iff] at h
    obtain ⟨v, hv, m, hm, h⟩ := h
    obtain ⟨x, hx, hx'⟩ := hlen' st (hno d hd)
    have hgrow : Grow .empty st := ⟨hl, fun e v hv => by cases hv⟩
    have hfirm : Firm s st := by
      unfold Firm
      have : (fun d => st.has (.len d)) = fun _ => false := by funext d; simp [State.has, hl]
      rw [this]; exact hf
    obtain rfl := (s.grows A ht).len _ _ d x v hgrow hfirm hx' hv
    simp only [Sig.tree, walk, hfr, dif_pos, bind, hx, hm, Option.bind_some]
    refine seqAll_mono (fun i _ qs hq => ?_) h
    simp only [Option.map_eq_some_iff] at hq ⊢
    obtain ⟨ps, hps, e⟩ := hq
    refine ⟨ps, ih hM hu.2 (fun q hq => hacc q (by simp [Sig.anyAccept, hq])) (fun e => by simpa [State.set] using hl e)
      (fun e he => ?_) hps, e⟩
    have : e ≠ d := by rintro rfl; rw [hu.1] at he; cases he
    simpa [State.set, this] using hno e (by simp [Sig.anyAccept, he])

/-- The state with the given lengths added; they go before those in the state. -/
def State.withLens (u : State) (ps : List (Dim × Val)) : State
  | .idx d => u (.idx d)
  | .len d => match ps.lookup d with
    | some l => some l
    | none => u (.len d)

/-- Nested vectors with lengths set one by one are nested vectors asked in a state with these lengths. -/
theorem vecs_same {A : Arith} (qs : List (Dim × Val)) (s : Struct) (hn : (qs.map Prod.fst).Nodup) (u : State) :
    SameAt ((vecs qs.reverse s).sem A) u ((nest (qs.map Prod.fst) s).sem A) (u.withLens qs) := by
  induction qs generalizing u with
  | nil =>
    have : u.withLens [] = u := by funext t; cases t <;> rfl
    rw [this]
    exact ⟨rfl, rfl, fun _ => rfl, rfl⟩
  | cons q qs ih =>
    obtain ⟨d, l⟩ := q
    rw [List.map_cons, List.nodup_cons] at hn
    have e : vecs ((d, l) :: qs).reverse s = .view (.setLength d l) (.vector d (vecs qs.reverse s)) := by
      rw [List.reverse_cons, vecs_append]; rfl
    have hl : (u.withLens ((d, l) :: qs)) (.len d) = some l := by simp [State.withLens]
    have hi : (u.withLens ((d, l) :: qs)) (.idx d) = u (.idx d) := rfl
    have h1 : (u.set (.len d) l).removeAll [.idx d, .len d] = u.removeAll [.idx d, .len d] := by
      funext t
      cases t <;> simp [State.removeAll, State.set] <;> grind
    have h2 : (u.withLens ((d, l) :: qs)).removeAll [.idx d, .len d] = (u.removeAll [.idx d, .len d]).withLens qs := by
      funext t
      cases t with
      | idx q => simp [State.removeAll, State.withLens]
      | len q =>
        by_cases hq : q = d
        · subst hq
          have : qs.lookup q = none := by
            rw [List.lookup_eq_none_iff]
            intro p hp
            simp only [beq_eq_false_iff_ne, ne_eq, bne_iff_ne]
            intro hpe
            exact hn.1 (List.mem_map.2 ⟨p, hp, hpe.symm⟩)
          simp [State.removeAll, State.withLens, this]
        · simp [State.removeAll, State.withLens, hq, List.lookup_cons, beq_eq_false_iff_ne.2 hq]
    have h := ih hn.2 (u.removeAll [.idx d, .len d])
    have hs1 : (u.set (.len d) l) (.len d) = some l := by simp [State.set]
    have hs2 : (u.set (.len d) l) (.idx d) = u (.idx d) := by simp [State.set]
    rw [e]
    constructor
    · simp only [Struct.sem, ViewSem.toSem, View.sem, setLengthSem, vectorSem, nest, List.map_cons, h1, h2, hl, hs1, h.size,
        Option.bind_some, bind, if_true]
    · simp only [Struct.sem, ViewSem.toSem, View.sem, setLengthSem, vectorSem, nest, List.map_cons, h1, h2, h.align,
        Option.bind_some, bind, if_true]
    · intro x
      simp only [Struct.sem, ViewSem.toSem, View.sem, setLengthSem, vectorSem, nest, List.map_cons, h1, h2, hl, hs1, hs2, hi,
        h.size, h.off, Option.bind_some, bind, if_true]
    · simp only [Struct.sem, ViewSem.toSem, View.sem, setLengthSem, vectorSem, nest, List.map_cons, h1, h2, h.elem,
        Option.bind_some, bind, if_true]

theorem nodup_reverse' {l : List Dim} (h : l.Nodup) : l.reverse.Nodup :=
  List.pairwise_reverse.2 (List.Pairwise.imp (fun h => Ne.symm h) h)

theorem reverse_zip' {α β : Type} {l : List α} {m : List β} (h : l.length = m.length) :
    (l.zip m).reverse = l.reverse.zip m.reverse := by
  refine List.ext_getElem (by simp [h]) fun i h1 h2 => ?_
  simp [List.getElem_reverse, h]

theorem lookup_zip_mem {ds : List Dim} {ls : List Val} (h : ls.length = ds.length) {d : Dim} (hd : d ∈ ds) :
    ∃ i, ∃ (hi : i < ds.length) (hi' : i < ls.length), ds[i] = d ∧ (ds.zip ls).lookup d = some ls[i] := by
  induction ds generalizing ls with
  | nil => cases hd
  | cons e ds ih =>
    cases ls with
    | nil => simp at h
    | cons l ls =>
      by_cases he : d = e
      · subst he
        exact ⟨0, by simp, by simp, rfl, by simp⟩
      · obtain ⟨i, hi, hi', h1, h2⟩ := ih (by simpa using h) ((List.mem_cons.1 hd).resolve_left he)
        refine ⟨i + 1, by simp; omega, by simp; omega, by simpa using h1, ?_⟩
        rw [List.zip_cons_cons, List.lookup_cons, beq_eq_false_iff_ne.2 he]
        simpa using h2

theorem lookup_zip_none {ds : List Dim} {ls : List Val} {d : Dim} (hd : d ∉ ds) : (ds.zip ls).lookup d = none := by
  rw [List.lookup_eq_none_iff]
  intro p hp
  have := (List.of_mem_zip (a := p.1) (b := p.2) hp).1
  simp only [beq_eq_false_iff_ne, ne_eq, bne_iff_ne]
  rintro rfl
  exact hd this

theorem fixZeros_zero {T : DimTree} {st z : State} (h : fixZeros T st = some z)
    (hz : ∀ t v, st t = some v → v.Num 0) : ∀ t v, z t = some v → v.Num 0 := by
  induction T generalizing st with
  | leaf => cases h; exact hz
  | bad => cases h
  | node d n bs ih =>
    simp only [fixZeros] at h
    split at h
    · refine ih _ h fun t v hv => ?_
      by_cases ht : t = .idx d
      · subst ht; simp [State.set] at hv; subst hv; rfl
      · exact hz t v (by simpa [State.set, ht] using hv)
    · cases h

theorem fixZeros_flat {S : Sig} (hf : S.flat) (st : State) : ∃ z, fixZeros S.tree st = some z ∧
    (∀ q, z (.idx q) = if S.anyAccept q then some (.lit 0) else st (.idx q)) ∧ ∀ q, z (.len q) = st (.len q) := by
  induction S generalizing st with
  | scalar s => exact ⟨st, rfl, fun _ => rfl, fun _ => rfl⟩
  | void => exact absurd hf id
  | ill => exact absurd hf id
  | dep => exact absurd hf id
  | fn d l r ih =>
    obtain ⟨z, h1, h2, h3⟩ := ih hf (st.set (.idx d) (.lit 0))
    refine ⟨z, h1, fun q => ?_, fun q => ?_⟩
    · rw [h2 q]
      by_cases hq : d = q
      · subst hq
        simp [Sig.anyAccept, State.set]
      · have : ¬ q = d := fun h => hq h.symm
        simp [Sig.anyAccept, State.set, hq, this]
    · rw [h3 q]; simp [State.set]

end Noarr
