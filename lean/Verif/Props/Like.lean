import Verif.LikeLemmas
import Verif.MemVisited
import Verif.Props.Setters
import Verif.Props.IndexSpace

/-
C60: structures made like another one. C61: `fix_zeros`. Also C12 for `set_length(state)` and C20 for `bcast` with
several dimensions.
-/

namespace Noarr

/-! ### C60 -/

/-- C60: `scalar<T>() ^ vectors_like<ds...>(s, st)` compiles exactly if there are dimensions and `s` has a length in each
of them; the result has exactly these dimensions, the first being the innermost, and the lengths that `s` has in the
state `st` - in every state that does not fix the dimension. -/
theorem C60_dimensions_and_lengths_alike (A : Arith) (s : Struct) (st : State) (ds : List Dim) (hn : ds.Nodup)
    (z a : Nat) :
    ((Proto.vectorsLike A s st ds).isSome ↔ ds ≠ [] ∧ ∀ d ∈ ds, ((s.sem A).len d st).isSome) ∧
    ∀ p, Proto.vectorsLike A s st ds = some p → ∃ r, p.inst A [.scalar z a] = some r ∧
      (r.sem A).sig.flat ∧ (r.sem A).sig.dimList = ds.reverse ∧
      ∀ d ∈ ds, ∀ u : State, u (.idx d) = none → (r.sem A).len d u = (s.sem A).len d st := by
  constructor
  · rw [Option.isSome_iff_exists]
    simp only [vectorsLike_eq]
    constructor
    · rintro ⟨p, ls, h1, h2⟩
      obtain ⟨h3, h4⟩ := (mapM_eq_some_iff _ _ _).1 h1
      refine ⟨?_, fun d hd => ?_⟩
      · rintro rfl; cases h2
      · obtain ⟨i, hi, rfl⟩ := List.getElem_of_mem hd
        rw [h4 i hi (by omega)]; rfl
    · rintro ⟨h1, h2⟩
      have : ∃ ls, ds.mapM (fun d => (s.sem A).len d st) = some ls := by
        clear hn h1
        induction ds with
        | nil => exact ⟨[], rfl⟩
        | cons d ds ih =>
          obtain ⟨l, hl⟩ := Option.isSome_iff_exists.1 (h2 d (by simp))
          obtain ⟨ls, hls⟩ := ih fun e he => h2 e (by simp [he])
          exact ⟨l :: ls, by simp [hl, hls]⟩
      obtain ⟨ls, hls⟩ := this
      have h3 := ((mapM_eq_some_iff _ _ _).1 hls).1
      cases ds with
      | nil => exact absurd rfl h1
      | cons d ds =>
        cases ls with
        | nil => simp at h3
        | cons l ls => exact ⟨_, l :: ls, hls, rfl⟩
  · intro p hp
    obtain ⟨ls, h1, h2⟩ := vectorsLike_eq.1 hp
    obtain ⟨h3, h4⟩ := (mapM_eq_some_iff _ _ _).1 h1
    have hz : (ds.zip ls).map Prod.fst = ds := List.map_fst_zip (by omega)
    refine ⟨_, inst_vectorsOf h2 _, ?_⟩
    obtain ⟨g1, g2, g3⟩ := vecs_sig (A := A) (ds.zip ls) (.scalar z a) (by rw [hz]; exact hn) (fun _ _ => rfl) trivial trivial
    refine ⟨g1, by rw [g3, hz]; simp [Struct.sem, scalarSem, Sig.dimList], fun d hd u hu => ?_⟩
    obtain ⟨i, hi, rfl⟩ := List.getElem_of_mem hd
    rw [h4 i hi (by omega)]
    refine vecs_len _ _ (by rw [hz]; exact hn) ?_ hu
    exact List.mem_iff_getElem.2 ⟨i, by simp; omega, by simp⟩

/-- C60: `for_each` over `scalar<T>() ^ vectors_like(s)` goes through the same states as `for_each` over `s`, in the same
order. (`s` has no tuple dimensions; if `vectors_like(s)` compiles, then at most ones with a single field.) -/
theorem C60_traversed_alike (A : Arith) {s : Struct} (ht : s.tame) (hf : s.firm fun _ => false)
    (hs : (s.sem A).sig.flat) (hu : (s.sem A).sig.uniq) {p : Proto} (hp : Proto.vectorsLikeAll A s .empty = some p)
    (z a : Nat) {sts : List State} (h : (Traverser.mk s []).forEach A [] = some sts) :
    ∃ r, p.inst A [.scalar z a] = some r ∧ (Traverser.mk r []).forEach A [] = some sts := by
  rw [Proto.vectorsLikeAll, Sig.flat_seq hs, Option.bind_some] at hp
  have hnd : (s.sem A).sig.dimList.Nodup := by
    have : ∀ S : Sig, S.flat → S.uniq → S.dimList.Nodup := by
      intro S
      induction S with
      | scalar s => intro _ _; exact List.nodup_nil
      | void => intro h; exact absurd h id
      | ill => intro h; exact absurd h id
      | dep => intro h; exact absurd h id
      | fn e l r ih =>
        intro h1 h2
        refine List.nodup_cons.2 ⟨fun h => ?_, ih h1 h2.2⟩
        rw [Sig.flat_dimList (S := r) h1, h2.1] at h
        cases h
    exact this _ hs hu
  obtain ⟨r, h1, h2, h3, h4⟩ := (C60_dimensions_and_lengths_alike A s .empty _ (nodup_reverse' hnd) z a).2 p hp
  have hlens := ((C60_dimensions_and_lengths_alike A s .empty _ (nodup_reverse' hnd) z a).1.1 (by rw [hp]; rfl)).2
  rw [List.reverse_reverse] at h3
  refine ⟨r, h1, ?_⟩
  obtain ⟨ps, g1, -⟩ := forEach_states (t := ⟨s, []⟩) hu h
  have g1 : walk (s.sem A) (s.sem A).sig.tree .empty = some ps := g1
  have g2 : walk (r.sem A) (r.sem A).sig.tree .empty = some ps := by
    rw [Sig.flat_tree h2 hs h3]
    refine walk_like ht hf hs h2 (fun q hq => ?_) hs hu (fun q h => h) (fun _ => rfl) (fun _ _ => rfl) g1
    have hq' : q ∈ (s.sem A).sig.dimList := (Sig.flat_dimList hs q).2 hq
    refine ⟨(Sig.flat_dimList h2 q).1 (by rw [h3]; exact hq'), fun u hu => ?_⟩
    obtain ⟨l, hl⟩ := Option.isSome_iff_exists.1 (hlens q (List.mem_reverse.2 hq'))
    exact ⟨l, by rw [h4 q (List.mem_reverse.2 hq') u hu, hl], hl⟩
  rw [← forEach_congr g1 g2, h]

/-- There is a tuple dimension with `n` fields in the signature. -/
inductive Sig.HasTuple (n : Nat) : Sig → Prop
  | here (d : Dim) (rs : Fin n → Sig) : HasTuple n (.dep d n rs)
  | fn (d : Dim) (l : ArgLen) {r : Sig} : HasTuple n r → HasTuple n (.fn d l r)
  | dep (d : Dim) {k : Nat} {rs : Fin k → Sig} (i : Fin k) : HasTuple n (rs i) → HasTuple n (.dep d k rs)

/-- C60: `vectors_like(s)` does not compile for a structure that has a tuple dimension with other than one field. -/
theorem C60_tuples_do_not_compile (A : Arith) (s : Struct) (st : State) {n : Nat} (hn : n ≠ 1)
    (h : (s.sem A).sig.HasTuple n) : Proto.vectorsLikeAll A s st = none := by
  have key : ∀ S : Sig, S.HasTuple n → S.seq = none := by
    intro S hS
    induction hS with
    | here d rs => simp [Sig.seq, hn]
    | fn d l _ ih => simp [Sig.seq, ih]
    | @dep d k rs i _ ih =>
      simp only [Sig.seq]
      split
      · next hk =>
        subst hk
        have : i = ⟨0, by omega⟩ := by ext; omega
        rw [this] at ih
        rw [ih]; rfl
      · rfl
  rw [Proto.vectorsLikeAll, key _ h]; rfl

/-- C60: `scalar<T>() ^ vectors_like<ds...>(s, st)` is the dense array over its dimensions: its size is the product of the
lengths times the size of `T`, and the offset is the row-major place of the element times the size of `T`, the last of
`ds` being the most significant. -/
theorem C60_dense (s : Struct) (st : State) (ds : List Dim) (hn : ds.Nodup) (z a : Nat) {p : Proto}
    (hp : Proto.vectorsLike .ideal s st ds.reverse = some p) (ns : List Nat) (hns : ns.length = ds.length)
    (hl : ∀ i (h : i < ds.length), (s.sem .ideal).HasLength ds[i] st ns[i]) :
    ∃ r, p.inst .ideal [.scalar z a] = some r ∧
      (∀ u : State, ∃ v, (r.sem .ideal).size u = some v ∧ v.Num (boxSize ns * z)) ∧
      ∀ (u : State) (is : List Nat), GivesIdxs u ds is → InBox ns is →
        ∃ v, (r.sem .ideal).off u (.lit 0) = some v ∧ v.Num (rowMajor ns is * z) := by
  obtain ⟨ls, h1, h2⟩ := vectorsLike_eq.1 hp
  obtain ⟨h3, h4⟩ := (mapM_eq_some_iff _ _ _).1 h1
  rw [List.length_reverse] at h3
  refine ⟨_, inst_vectorsOf h2 _, ?_⟩
  have hz : (ds.zip ls.reverse).map Prod.fst = ds := List.map_fst_zip (by simp; omega)
  have e : ds.reverse.zip ls = (ds.zip ls.reverse).reverse := by
    rw [reverse_zip' (by simp; omega), List.reverse_reverse]
  rw [e]
  have same := fun u => vecs_same (A := .ideal) (ds.zip ls.reverse) (.scalar z a) (by rw [hz]; exact hn) u
  rw [hz] at same
  have hlook : ∀ i (h : i < ds.length), (ds.zip ls.reverse).lookup ds[i] = some (ls[ds.length - 1 - i]'(by omega)) := by
    intro i hi
    have hm : (ds[i], ls[ds.length - 1 - i]'(by omega)) ∈ ds.zip ls.reverse := by
      refine List.mem_iff_getElem.2 ⟨i, by simp; omega, ?_⟩
      simp [h3]
    have : ∀ qs : List (Dim × Val), (qs.map Prod.fst).Nodup → ∀ d l, (d, l) ∈ qs → qs.lookup d = some l := by
      intro qs
      induction qs with
      | nil => intro _ d l h; cases h
      | cons q qs ih =>
        intro hq d l h
        rw [List.map_cons, List.nodup_cons] at hq
        rcases List.mem_cons.1 h with rfl | h
        · simp
        · have : d ≠ q.1 := fun e => hq.1 (List.mem_map.2 ⟨_, h, e⟩)
          rw [List.lookup_cons, beq_eq_false_iff_ne.2 this]
          exact ih hq.2 d l h
    exact this _ (by rw [hz]; exact hn) _ _ hm
  have gives : ∀ (u : State), GivesLens (u.withLens (ds.zip ls.reverse)) ds ns := by
    intro u
    have gen : ∀ (w : State) (ds : List Dim) (ns : List Nat), ns.length = ds.length →
        (∀ i (h : i < ds.length) (h' : i < ns.length), ∃ l, w (.len ds[i]) = some l ∧ l.Num ns[i]) → GivesLens w ds ns := by
      intro w ds
      induction ds with
      | nil => intro ns hns _; cases ns with
        | nil => trivial
        | cons => simp at hns
      | cons d ds ih =>
        intro ns hns h
        cases ns with
        | nil => simp at hns
        | cons n ns =>
          refine ⟨h 0 (by simp) (by simp), ih ns (by simpa using hns) fun i hi hi' => ?_⟩
          exact h (i + 1) (by simp; omega) (by simp; omega)
    refine gen _ ds ns hns fun i hi hi' => ?_
    refine ⟨ls[ds.length - 1 - i]'(by omega), by simp [State.withLens, hlook i hi], ?_⟩
    obtain ⟨v, hv, hvn⟩ := hl i hi
    have := h4 (ds.length - 1 - i) (by simp; omega) (by omega)
    rw [List.getElem_reverse] at this
    have ei : ds.length - 1 - (ds.length - 1 - i) = i := by omega
    simp only [ei] at this
    rw [hv] at this
    rw [← Option.some.inj this]
    exact hvn
  constructor
  · intro u
    obtain ⟨v, hv, hvn⟩ := C07_size ds hn ns z a _ (gives u)
    exact ⟨v, by rw [(same u).size]; exact hv, hvn⟩
  · intro u is hi hb
    have hi' : GivesIdxs (u.withLens (ds.zip ls.reverse)) ds is := by
      have : ∀ (ds : List Dim) (is : List Nat) (w : State), (∀ d, w (.idx d) = u (.idx d)) → GivesIdxs u ds is →
          GivesIdxs w ds is := by
        intro ds
        induction ds with
        | nil => intro is w _ h; cases is <;> exact h
        | cons d ds ih =>
          intro is w hw h
          cases is with
          | nil => exact h
          | cons i is =>
            obtain ⟨⟨l, hl, hln⟩, h⟩ := h
            exact ⟨⟨l, by rw [hw]; exact hl, hln⟩, ih is w hw h⟩
      exact this ds is _ (fun _ => rfl) hi
    obtain ⟨v, hv, hvn⟩ := C07_offset ds hn ns is z a _ (gives u) hi' hb
    exact ⟨v, by rw [(same u).off]; exact hv, hvn⟩

/-- C60: `vectors_like` reconstructs: `scalar<T>() ^ vectors_like(scalar<U>() ^ vectors<ds...>(ls...))` is
`scalar<T>() ^ vectors<ds...>(ls...)`, with all the dimensions or with `ds...` given. -/
theorem C60_reconstructs (A : Arith) (ps : List (Dim × Val)) (hn : (ps.map Prod.fst).Nodup) (z' a' : Nat)
    {p : Proto} (hp : Proto.vectorsOf ps = some p) :
    ∃ s, p.inst A [.scalar z' a'] = some s ∧
      Proto.vectorsLike A s .empty (ps.map Prod.fst) = some p ∧ Proto.vectorsLikeAll A s .empty = some p := by
  refine ⟨_, inst_vectorsOf hp _, ?_⟩
  have h1 : Proto.vectorsLike A (vecs ps (.scalar z' a')) .empty (ps.map Prod.fst) = some p := by
    refine vectorsLike_eq.2 ⟨ps.map Prod.snd, ?_, ?_⟩
    · rw [mapM_eq_some_iff]
      refine ⟨by simp, fun i hi hi' => ?_⟩
      rw [List.length_map] at hi
      refine vecs_len ps _ hn ?_ rfl
      refine List.mem_iff_getElem.2 ⟨i, hi, ?_⟩
      simp
    · have : (ps.map Prod.fst).zip (ps.map Prod.snd) = ps := by
        clear hn hp
        induction ps with
        | nil => rfl
        | cons p ps ih => simp [ih]
      rw [this]; exact hp
  obtain ⟨g1, g2, g3⟩ := vecs_sig (A := A) ps (.scalar z' a') hn (fun _ _ => rfl) trivial trivial
  refine ⟨h1, ?_⟩
  rw [Proto.vectorsLikeAll, Sig.flat_seq g1, g3]
  simpa [Struct.sem, scalarSem, Sig.dimList] using h1

/-- C60: `t ^ lengths_like<ds...>(s, st)` answers every query as `t` does when the lengths that `s` has in `ds` (in the
state `st`) are added to the state of the query. -/
theorem C60_lengths_like (A : Arith) (s t : Struct) (st : State) (ds : List Dim) {p : Proto}
    (hp : Proto.lengthsLike A s st ds = some p) :
    ∃ r, p.inst A [t] = some r ∧ ∀ u w : State, (∀ d, w (.idx d) = u (.idx d)) →
      (∀ d ∈ ds, (s.sem A).len d st = w (.len d)) → (∀ d, d ∉ ds → w (.len d) = u (.len d)) →
      SameAt (r.sem A) u (t.sem A) w ∧ ∀ q, (r.sem A).len q u = (t.sem A).len q w := by
  have key : ∀ ds : List Dim, ds.mapM (Proto.lengthLike A s st) =
      (ds.mapM fun d => (s.sem A).len d st).map fun ls => (ds.zip ls).map fun p => .view (.setLength p.1 p.2) := by
    intro ds
    induction ds with
    | nil => rfl
    | cons d ds ih =>
      simp only [List.mapM_cons, ih, bind, pure, Proto.lengthLike]
      cases (s.sem A).len d st with
      | none => rfl
      | some l => cases ds.mapM fun d => (s.sem A).len d st <;> rfl
  rw [Proto.lengthsLike, key] at hp
  cases hls : ds.mapM fun d => (s.sem A).len d st with
  | none => rw [hls] at hp; cases hp
  | some ls =>
    rw [hls] at hp
    obtain ⟨h1, h2⟩ := (mapM_eq_some_iff _ _ _).1 hls
    have e : p.inst A [t] = some (t.apply ((ds.zip ls).map fun p => .setLength p.1 p.2)) := by
      rw [inst_all hp]
      clear hp hls h1 h2
      show List.foldl _ _ (List.map (fun p => Proto.view (.setLength p.1 p.2)) (ds.zip ls)) = _
      generalize ds.zip ls = qs
      induction qs generalizing t with
      | nil => rfl
      | cons q qs ih =>
        simp only [List.map_cons, List.foldl_cons, Option.bind_some]
        exact ih _
    refine ⟨_, e, fun u w hw1 hw2 hw3 => ?_⟩
    have hc := C12_set_length_is_length A t (ds.zip ls) u
    have hwe : (fun
        | .idx d => u (.idx d)
        | .len d => match (ds.zip ls).lookup d with
          | some l => some l
          | none => u (.len d) : State) = w := by
      funext x
      cases x with
      | idx d => exact (hw1 d).symm
      | len d =>
        by_cases hd : d ∈ ds
        · obtain ⟨i, hi, hi', hdi, hl⟩ := lookup_zip_mem h1 hd
          simp only [hl]
          rw [← hw2 d hd, ← hdi]
          exact (h2 i hi hi').symm
        · simp only [lookup_zip_none hd]
          exact (hw3 d hd).symm
    subst hwe
    exact ⟨hc.1, hc.2.2⟩

/-! ### C12: `set_length(state)` -/

/-- C12: `s ^ set_length(state)` answers every query as `s` does when the lengths in `state` are added to the state of the
query. The state is given by its items. -/
theorem C12_set_length_of_state (A : Arith) (s : Struct) (items : List (Tag × Val)) :
    ∃ r, (Proto.lengthsOf items).inst A [s] = some r ∧ ∀ u w : State, (∀ d, w (.idx d) = u (.idx d)) →
      (∀ d l, (.len d, l) ∈ items → w (.len d) = some l) →
      (∀ d, .len d ∉ items.map Prod.fst → w (.len d) = u (.len d)) →
      SameAt (r.sem A) u (s.sem A) w ∧ (∀ q, (r.sem A).hasLen q u = (s.sem A).hasLen q w) ∧
      ∀ q, (r.sem A).len q u = (s.sem A).len q w := by
  let sel : Tag × Val → Option (Dim × Val) := fun it => match it.1 with
    | .len d => some (d, it.2)
    | .idx _ => none
  have e : (Proto.lengthsOf items).inst A [s] =
      some (s.apply ((items.filterMap sel).map fun p => .setLength p.1 p.2)) := by
    have gen : ∀ (items : List (Tag × Val)) (p : Proto) (t : Struct), p.inst A [s] = some t →
        (items.foldl (fun p it => p.andThen (match it.1 with
          | .len d => .view (.setLength d it.2)
          | .idx _ => .neutral)) p).inst A [s] =
        some (t.apply ((items.filterMap sel).map fun p => .setLength p.1 p.2)) := by
      intro items
      induction items with
      | nil => intro p t h; exact h
      | cons it items ih =>
        intro p t h
        obtain ⟨tag, v⟩ := it
        cases tag with
        | idx d =>
          simp only [List.foldl_cons, List.filterMap_cons, sel]
          exact ih _ _ (by rw [Proto.inst_andThen, h]; rfl)
        | len d =>
          simp only [List.foldl_cons, List.filterMap_cons, sel, List.map_cons]
          exact ih _ (.view (.setLength d v) t) (by rw [Proto.inst_andThen, h]; rfl)
    exact gen items .neutral s rfl
  refine ⟨_, e, fun u w hw1 hw2 hw3 => ?_⟩
  have hc := C12_set_length_is_length A s (items.filterMap sel) u
  have hwe : (fun
      | .idx d => u (.idx d)
      | .len d => match (items.filterMap sel).lookup d with
        | some l => some l
        | none => u (.len d) : State) = w := by
    funext x
    cases x with
    | idx d => exact (hw1 d).symm
    | len d =>
      simp only
      cases hl : (items.filterMap sel).lookup d with
      | some l =>
        have hm : (d, l) ∈ items.filterMap sel := by
          obtain ⟨l1, l2, he, -⟩ := List.lookup_eq_some_iff.1 hl
          rw [he]; simp
        obtain ⟨it, hit, hs⟩ := List.mem_filterMap.1 hm
        obtain ⟨tag, v⟩ := it
        cases tag with
        | idx _ => cases hs
        | len d' =>
          simp only [sel, Option.some.injEq, Prod.mk.injEq] at hs
          rw [← hs.1, ← hs.2]
          exact (hw2 _ _ hit).symm
      | none =>
        refine (hw3 d fun hd => ?_).symm
        obtain ⟨it, hit, hd⟩ := List.mem_map.1 hd
        obtain ⟨tag, v⟩ := it
        cases hd
        have := List.lookup_eq_none_iff.1 hl (d, v) (List.mem_filterMap.2 ⟨_, hit, rfl⟩)
        simp at this
  subst hwe
  exact hc

/-! ### C20: `bcast` with several dimensions -/

/-- C20: `s ^ bcast<ds...>(ls...)`: every query ignores the indices and lengths in `ds`, which have the lengths `ls`. -/
theorem C20_bcast_of_several (A : Arith) (s : Struct) (ps : List (Dim × Val)) (hn : (ps.map Prod.fst).Nodup) {p : Proto}
    (hp : Proto.bcastOf ps = some p) :
    ∃ r, p.inst A [s] = some r ∧
      (∀ u w : State, (∀ d, d ∉ ps.map Prod.fst → w (.idx d) = u (.idx d) ∧ w (.len d) = u (.len d)) →
        (∀ d ∈ ps.map Prod.fst, w (.idx d) = none ∧ w (.len d) = none) →
        SameAt (r.sem A) u (s.sem A) w ∧ ∀ q, q ∉ ps.map Prod.fst → (r.sem A).len q u = (s.sem A).len q w) ∧
      ∀ d l, (d, l) ∈ ps → ∀ u : State, u (.idx d) = none → (r.sem A).len d u = some l := by
  have e : p.inst A [s] = some (ps.foldl (fun s p => .view (.setLength p.1 p.2) (.view (.bcast p.1) s)) s) := by
    rw [inst_all hp]
    clear hp hn
    induction ps generalizing s with
    | nil => rfl
    | cons q ps ih =>
      simp only [List.map_cons, List.foldl_cons, Option.bind_some, Proto.inst_andThen]
      exact ih _
  refine ⟨_, e, ?_⟩
  clear e hp
  induction ps generalizing s with
  | nil =>
    refine ⟨fun u w h1 _ => ?_, fun d l h => by cases h⟩
    have : w = u := by funext t; cases t with
      | idx d => exact (h1 d (by simp)).1
      | len d => exact (h1 d (by simp)).2
    subst this
    exact ⟨⟨rfl, rfl, fun _ => rfl, rfl⟩, fun _ _ => rfl⟩
  | cons q ps ih =>
    obtain ⟨d, l⟩ := q
    rw [List.map_cons, List.nodup_cons] at hn
    obtain ⟨ih1, ih2⟩ := ih (.view (.setLength d l) (.view (.bcast d) s)) hn.2
    let t : Struct := .view (.setLength d l) (.view (.bcast d) s)
    have hw : ∀ w : State, (w.set (.len d) l).removeAll [.idx d, .len d] = w.removeAll [.idx d, .len d] := by
      intro w
      funext t
      cases t <;> simp [State.removeAll, State.set] <;> grind
    have tsame : ∀ w : State, SameAt (t.sem A) w (s.sem A) (w.removeAll [.idx d, .len d]) := by
      intro w
      constructor <;>
        simp [t, Struct.sem, ViewSem.toSem, View.sem, setLengthSem, bcastSem, hw]
    have tlen : ∀ (w : State) q, (t.sem A).len q w = if q = d then (if w.has (.idx d) then none else some l) else
        (s.sem A).len q (w.removeAll [.idx d, .len d]) := by
      intro w q
      by_cases hq : q = d
      · subst hq
        cases hi : w (.idx q) <;>
          simp [t, Struct.sem, ViewSem.toSem, View.sem, setLengthSem, bcastSem, guardLen, State.has, State.set, hi]
      · have : (t.sem A).len q w = guardLen ((s.sem A).hasLen q (w.removeAll [.idx d, .len d]))
            ((s.sem A).len q (w.removeAll [.idx d, .len d])) := by
          simp only [t, Struct.sem, ViewSem.toSem, View.sem, setLengthSem, bcastSem, hq, if_false, hw]
          cases (s.sem A).hasLen q (w.removeAll [.idx d, .len d]) with
          | none => rfl
          | some b => cases b <;> rfl
        rw [this, if_neg hq]
        cases hl : (s.sem A).len q (w.removeAll [.idx d, .len d]) with
        | none => cases (s.sem A).hasLen q (w.removeAll [.idx d, .len d]) with
          | none => rfl
          | some b => cases b <;> rfl
        | some l => rw [Struct.hasLen_of_len hl]; rfl
    let cut : State → State := fun u => u.removeAll ((ps.map fun p => .idx p.1) ++ ps.map fun p => .len p.1)
    have hcut1 : ∀ u : State, ∀ e, e ∉ ps.map Prod.fst → (cut u) (.idx e) = u (.idx e) ∧ (cut u) (.len e) = u (.len e) := by
      intro u e he
      simp only [cut, State.removeAll]
      constructor <;> (rw [if_neg]; simp; intro x hx; exact he (List.mem_map.2 ⟨_, hx, rfl⟩))
    have hcut2 : ∀ u : State, ∀ e ∈ ps.map Prod.fst, (cut u) (.idx e) = none ∧ (cut u) (.len e) = none := by
      intro u e he
      obtain ⟨p, hp, rfl⟩ := List.mem_map.1 he
      simp only [cut, State.removeAll]
      constructor <;> (rw [if_pos]; simp; exact ⟨p.2, hp⟩)
    refine ⟨fun u w h1 h2 => ?_, fun e x hx u hu => ?_⟩
    · have hwc : w = (cut u).removeAll [.idx d, .len d] := by
        funext tag
        cases tag with
        | idx e =>
          by_cases hed : e = d
          · subst hed; rw [(h2 e (by simp)).1]; simp [State.removeAll]
          · by_cases hep : e ∈ ps.map Prod.fst
            · rw [(h2 e (by rw [List.map_cons]; exact List.mem_cons_of_mem _ hep)).1]
              simp [State.removeAll, hed, (hcut2 u e hep).1]
            · rw [(h1 e (by rw [List.map_cons, List.mem_cons]; exact fun h => h.elim hed hep)).1]
              simp [State.removeAll, hed, (hcut1 u e hep).1]
        | len e =>
          by_cases hed : e = d
          · subst hed; rw [(h2 e (by simp)).2]; simp [State.removeAll]
          · by_cases hep : e ∈ ps.map Prod.fst
            · rw [(h2 e (by rw [List.map_cons]; exact List.mem_cons_of_mem _ hep)).2]
              simp [State.removeAll, hed, (hcut2 u e hep).2]
            · rw [(h1 e (by rw [List.map_cons, List.mem_cons]; exact fun h => h.elim hed hep)).2]
              simp [State.removeAll, hed, (hcut1 u e hep).2]
      obtain ⟨g1, g2⟩ := ih1 u (cut u) (hcut1 u) (hcut2 u)
      have g3 := tsame (cut u)
      rw [← hwc] at g3
      refine ⟨⟨g1.size.trans g3.size, g1.align.trans g3.align, fun x => (g1.off x).trans (g3.off x), g1.elem.trans g3.elem⟩,
        fun q hq => ?_⟩
      rw [List.map_cons, List.mem_cons, not_or] at hq
      rw [List.foldl_cons, g2 q hq.2, hwc]
      exact (tlen (cut u) q).trans (if_neg hq.1)
    · rcases List.mem_cons.1 hx with h | h
      · obtain ⟨rfl, rfl⟩ := Prod.mk.inj h
        rw [List.foldl_cons, (ih1 u (cut u) (hcut1 u) (hcut2 u)).2 e hn.1]
        refine (tlen (cut u) e).trans ?_
        rw [if_pos rfl]
        simp [State.has, (hcut1 u e hn.1).1, hu]
      · exact ih2 e x h u hu

/-! ### C61 -/

/-- The states have the same tags, with the same numbers (one may be a constant and the other not). -/
def State.Alike (u z : State) : Prop := ∀ t, (u t).map Val.nat? = (z t).map Val.nat?

theorem State.Alike.set {u z : State} (h : u.Alike z) (t : Tag) {v w : Val} (hv : v.nat? = w.nat?) :
    (u.set t v).Alike (z.set t w) := by
  intro t'
  by_cases ht : t' = t
  · simp [State.set, ht, hv]
  · simpa [State.set, ht] using h t'

/-- C61: if `for_each` visits the element at `fix_zeros` of the dimensions of the structure, it visits that element
first. -/
theorem C61_fix_zeros_is_first (A : Arith) (s : Struct) (hu : (s.sem A).sig.uniq) {sts : List State}
    (h : (Traverser.mk s []).forEach A [] = some sts) {z u : State} (hz : fixZeros (s.sem A).sig.tree .empty = some z)
    (hm : u ∈ sts) (ha : u.Alike z) : sts.head? = some u := by
  obtain ⟨ps, h1, h2⟩ := forEach_states (t := ⟨s, []⟩) hu h
  have hmem := walk_mem _ hu (.refl _) h1
  have hsort := walk_sorted _ h1
  have hz' := fixZeros_zero hz (fun t v hv => by cases hv)
  cases ps with
  | nil =>
    have := congrArg List.length h2
    simp at this
    subst this; cases hm
  | cons p0 ps =>
    cases sts with
    | nil => cases hm
    | cons u0 sts =>
      simp only [List.map_cons, List.cons.injEq] at h2
      rcases List.mem_cons.1 hm with rfl | hm
      · rfl
      · exfalso
        have hsome : some u ∈ sts.map some := List.mem_map_of_mem hm
        rw [h2.2] at hsome
        obtain ⟨p, hp, hpu⟩ := List.mem_map.1 hsome
        have hnest := (hmem p).1 (by simp [hp])
        have hpe : u = p.state .empty := by
          have : stateAt A (Traverser.mk s []).base (Traverser.mk s []).views (p.state .empty) = some (p.state .empty) := rfl
          rw [this] at hpu
          exact (Option.some.inj hpu).symm
        have hlt : PathLt p0 p := (List.pairwise_cons.1 hsort).1 p hp
        have hnd := Nested.nodup hu hnest
        have hall : ∀ di ∈ p, di.2.Num 0 := by
          intro di hdi
          have hv : u (.idx di.1) = some di.2 := by
            rw [hpe]
            exact Path.state_of_mem hnd hdi _
          have := ha (.idx di.1)
          rw [hv, Option.map_some] at this
          cases hzd : z (.idx di.1) with
          | none => rw [hzd] at this; cases this
          | some v =>
            rw [hzd, Option.map_some] at this
            have hv0 : v.nat? = some 0 := hz' _ _ hzd
            rw [hv0] at this
            exact Option.some.inj this
        clear hnest hpe hnd hp hpu hsort hmem h1 h2
        induction hlt with
        | head hi hj hlt =>
          have h0 := hall _ (List.mem_cons_self)
          have := h0.eq hj
          omega
        | tail _ ih => exact ih fun di hdi => hall di (List.mem_cons_of_mem _ hdi)

theorem Nested.fixZeros {S : Sem} {N : Sig} {st : State} {p : Path} (h : Nested S N st p)
    (h0 : ∀ di ∈ p, di.2.Num 0) {st' : State} (ha : st.Alike st') :
    ∃ z, Noarr.fixZeros N.tree st' = some z ∧ (p.state st).Alike z := by
  induction h generalizing st' with
  | scalar => exact ⟨st', rfl, ha⟩
  | void => exact ⟨st', rfl, ha⟩
  | @fn d a r st l m p i hl hm hi hp ih =>
    have hz : i = 0 := Option.some.inj (h0 _ List.mem_cons_self)
    subst hz
    obtain ⟨z, h1, h2⟩ := ih (fun di hdi => h0 di (List.mem_cons_of_mem _ hdi)) (ha.set (.idx d) (w := .lit 0) rfl)
    exact ⟨z, by simpa [Sig.tree, Noarr.fixZeros] using h1, h2⟩
  | @dep d n rs st p k hp ih =>
    have hz : k.val = 0 := Option.some.inj (h0 _ List.mem_cons_self)
    obtain ⟨z, h1, h2⟩ := ih (fun di hdi => h0 di (List.mem_cons_of_mem _ hdi)) (ha.set (.idx d) (w := .lit 0)
      (by rw [hz]))
    refine ⟨z, ?_, h2⟩
    have hn : 0 < n := by have := k.isLt; omega
    have hk : k = ⟨0, hn⟩ := Fin.ext hz
    subst hk
    simpa [Sig.tree, Noarr.fixZeros, hn] using h1

/-- C61: conversely, if `for_each` visits an element all of whose indices are zero - of a structure with tuples, too -, it
is the first one, and its state is that of `fix_zeros`. -/
theorem C61_all_zeros_is_fix_zeros (A : Arith) (s : Struct) (hu : (s.sem A).sig.uniq) {sts : List State}
    (h : (Traverser.mk s []).forEach A [] = some sts) {u : State} (hm : u ∈ sts)
    (h0 : ∀ t v, u t = some v → v.Num 0) :
    ∃ z, fixZeros (s.sem A).sig.tree .empty = some z ∧ u.Alike z ∧ sts.head? = some u := by
  obtain ⟨ps, h1, h2⟩ := forEach_states (t := ⟨s, []⟩) hu h
  have hmem := walk_mem _ hu (.refl _) h1
  have hsome : some u ∈ sts.map some := List.mem_map_of_mem hm
  rw [h2] at hsome
  obtain ⟨p, hp, hpu⟩ := List.mem_map.1 hsome
  have hnest := (hmem p).1 hp
  have hpe : u = p.state .empty := (Option.some.inj hpu).symm
  have hnd := Nested.nodup hu hnest
  obtain ⟨z, hz, ha⟩ := hnest.fixZeros (st' := .empty) (fun di hdi =>
    h0 (.idx di.1) di.2 (by rw [hpe]; exact Path.state_of_mem hnd hdi _)) (fun _ => rfl)
  exact ⟨z, hz, hpe ▸ ha, C61_fix_zeros_is_first A s hu h hz hm (hpe ▸ ha)⟩

/-- C61: for a structure without tuples whose lengths are positive numbers, the element at `fix_zeros` is the first that
`for_each` visits. -/
theorem C61_first_of_box (A : Arith) (s : Struct) {N : Dim → Nat} (hf : (s.sem A).sig.flat) (hu : (s.sem A).sig.uniq)
    (hN : HasLengths (s.sem A) N) (hp : ∀ d, (s.sem A).sig.anyAccept d = true → 0 < N d) :
    ∃ z u sts, fixZeros (s.sem A).sig.tree .empty = some z ∧ (Traverser.mk s []).forEach A [] = some (u :: sts) ∧
      u.Alike z := by
  obtain ⟨z, h1, h2, h3⟩ := fixZeros_flat hf .empty
  obtain ⟨sts, h4, -, -, h5⟩ := forEach_flat hf hu hN
  let u : State := fun
    | .idx q => if (s.sem A).sig.anyAccept q then some (.dyn 0) else none
    | .len _ => none
  have hu' : u ∈ sts := (h5 u).2
    ⟨fun q hq => ⟨0, hp q hq, by simp [u, hq]⟩, fun q hq => by simp [u, hq], fun _ => rfl⟩
  have ha : u.Alike z := by
    intro t
    cases t with
    | idx q =>
      rw [h2 q]
      by_cases hq : (s.sem A).sig.anyAccept q = true
      · simp [u, hq, Val.nat?]
      · simp [u, hq, State.empty]
    | len q => rw [h3 q]; rfl
  have hh := C61_fix_zeros_is_first A s hu h4 h1 hu' ha
  cases sts with
  | nil => cases hh
  | cons v sts => exact ⟨z, u, sts, h1, by rw [h4, ← Option.some.inj hh], ha⟩

/-! ### Examples -/

/-- 3 rows of 4 elements, in blocks of 2. -/
def c60Example : Struct := Struct.apply (.vector 1 (.vector 0 (.scalar 4 4)))
  [.setLength 0 (.dyn 4), .setLength 1 (.lit 3), .intoBlocks 0 2 3, .setLength 3 (.lit 2)]

example : c60Example.tame ∧ (c60Example.firm fun _ => false) ∧ (c60Example.sem .ideal).sig.flat ∧
    (c60Example.sem .ideal).sig.uniq :=
  ⟨by simp [c60Example, Struct.apply, Struct.tame, View.tame, Struct.plain, Struct.hard, Struct.soft, Struct.stale,
    View.hard, View.soft, View.stale], trivial, trivial, ⟨rfl, rfl, rfl, trivial⟩⟩

/-- `scalar<T>() ^ vectors_like(...)` of the blocked matrix: dense, the element `[2, 1, 1]` is the last of 12. -/
example : (Proto.vectorsLikeAll .ideal c60Example .empty).bind (·.inst .ideal [.scalar 8 8]) =
    some (.view (.setLength 1 (.lit 3)) (.vector 1 (.view (.setLength 2 (.dyn 2)) (.vector 2
      (.view (.setLength 3 (.lit 2)) (.vector 3 (.scalar 8 8))))))) ∧
    ((Proto.vectorsLikeAll .ideal c60Example .empty).bind (·.inst .ideal [.scalar 8 8])).bind (fun r =>
      (r.sem .ideal).off (((State.empty.set (.idx 1) (.dyn 2)).set (.idx 2) (.dyn 1)).set (.idx 3) (.dyn 1)) (.lit 0)) =
      some (.dyn 88) := ⟨rfl, by decide⟩

/-- Without a length in one of the dimensions, and without dimensions, it does not compile. -/
example : Proto.vectorsLike .ideal (.vector 0 (.scalar 4 4)) .empty [0] = none ∧
    Proto.vectorsLikeAll .ideal (.scalar 4 4) .empty = none := ⟨rfl, rfl⟩

example : ((Struct.tuple 0 2 fun _ => .scalar 4 4).sem .ideal).sig.HasTuple 2 := .here _ _

/-- `lengths_like` gives the lengths to a structure that has none. -/
example : (Proto.lengthsLike .ideal c60Example .empty [1, 2]).bind
      (·.inst .ideal [.vector 2 (.vector 1 (.scalar 1 1))]) =
    some (.view (.setLength 2 (.dyn 2)) (.view (.setLength 1 (.lit 3)) (.vector 2 (.vector 1 (.scalar 1 1))))) := rfl

/-- `set_length(state)` and `bcast` with two dimensions. -/
example : (Proto.lengthsOf [(.len 0, .dyn 7), (.idx 1, .lit 2), (.len 1, .lit 3)]).inst .ideal
      [.vector 1 (.vector 0 (.scalar 4 4))] =
    some (.view (.setLength 1 (.lit 3)) (.view (.setLength 0 (.dyn 7)) (.vector 1 (.vector 0 (.scalar 4 4))))) ∧
    (Proto.bcastOf [(0, .dyn 7), (1, .lit 3)]).bind (·.inst .ideal [.scalar 4 4]) =
    some (.view (.setLength 1 (.lit 3)) (.view (.bcast 1) (.view (.setLength 0 (.dyn 7)) (.view (.bcast 0)
      (.scalar 4 4))))) := ⟨rfl, rfl⟩

/-- The element at `fix_zeros` of the reversed rows of a matrix is the first of its 20 elements. -/
example :
    let s := Struct.apply (.vector 1 (.vector 0 (.scalar 4 4)))
      [.setLength 0 (.dyn 4), .setLength 1 (.lit 5), .reverse 1]
    ∃ z u sts, fixZeros (s.sem .ideal).sig.tree .empty = some z ∧
      (Traverser.mk s []).forEach .ideal [] = some (u :: sts) ∧ u.Alike z := by
  refine C61_first_of_box .ideal _ (N := fun q => if q = 0 then 4 else 5) trivial ⟨rfl, rfl, trivial⟩ ?_ ?_
  · intro q hq st hl hi
    have h : q = 1 ∨ q = 0 := by
      simp [Struct.apply, Struct.sem, View.sem, ViewSem.toSem, reverseSem, setLengthSem, vectorSem, scalarSem, Sig.replace,
        Sig.anyAccept, Sig.setLengthRepl, Sig.reverseRepl, ArgLen.ofVal] at hq
      grind
    rcases h with rfl | rfl
    · refine ⟨.lit 5, ?_, rfl⟩
      simp [Struct.apply, Struct.sem, View.sem, ViewSem.toSem, reverseSem, setLengthSem, vectorSem, scalarSem, guardLen,
        State.set, State.has, State.removeAll, hi]
    · refine ⟨.dyn 4, ?_, rfl⟩
      cases h1 : st (.idx 1) <;>
        simp [Struct.apply, Struct.sem, View.sem, ViewSem.toSem, reverseSem, setLengthSem, vectorSem, scalarSem, guardLen,
          State.set, State.has, State.remove, State.removeAll, hi, h1]
  · intro d _
    split <;> omega

/-- With a tuple: the first field, in the first row. -/
example :
    let s := Struct.apply (.tuple 0 2 fun _ => .vector 1 (.scalar 4 4)) [.setLength 1 (.dyn 3)]
    (s.sem .ideal).sig.uniq ∧ ((fixZeros (s.sem .ideal).sig.tree .empty).map fun z => (z (.idx 0), z (.idx 1))) =
      some (some (.lit 0), some (.lit 0)) ∧
    ((Traverser.mk s []).forEach .ideal []).map (List.map fun st => (st (.idx 0), st (.idx 1))) =
      some ((List.range 2).flatMap fun i => (List.range 3).map fun j => (some (.lit i), some (.dyn j))) := by
  refine ⟨fun i => ⟨rfl, rfl, trivial⟩, by decide, by decide⟩

end Noarr
