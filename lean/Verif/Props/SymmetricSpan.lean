import Verif.FlatViews

/-
C49: `symmetric_span` and `neighbor`.
-/

namespace Noarr

theorem symmetric_span_flat (ds : List Dim) {s : Struct} {N : Dim → Nat} {k : Val} {x : Nat} {ends : Dim → Val}
    (hf : (s.sem .ideal).sig.flat) (hu : (s.sem .ideal).sig.uniq) (hN : HasLengths (s.sem .ideal) N)
    (hk : k.Num x) (hnd : ds.Nodup) (hd : ∀ d ∈ ds, (s.sem .ideal).sig.anyAccept d = true)
    (hx : ∀ d ∈ ds, 2 * x ≤ N d) (he : ∀ d ∈ ds, (ends d).Num (N d - x)) :
    let vs := ds.map fun d => View.span d k (ends d)
    let S := (s.apply vs).sem .ideal
    S.sig.flat ∧ S.sig.uniq ∧ (∀ q, S.sig.anyAccept q = (s.sem .ideal).sig.anyAccept q) ∧
    HasLengths S (fun q => if q ∈ ds then N q - x - x else N q) ∧
    ∀ st, (∀ d ∈ ds, ∃ i, st (.idx d) = some (.dyn i)) → stateAt .ideal s vs st = some (st.raise ds x) := by
  induction ds generalizing s N with
  | nil =>
    refine ⟨hf, hu, fun _ => rfl, by simp only [List.not_mem_nil, ↓reduceIte]; exact hN, fun st _ => ?_⟩
    simp only [List.map_nil, stateAt]
    congr 1
    funext t
    cases t <;> simp [State.raise]
  | cons d ds ih =>
    rw [List.nodup_cons] at hnd
    obtain ⟨h1, h2, h3, h4⟩ := flat_span hf hu hN (hd d (by simp)) hk (he d (by simp))
      (by have := hx d (by simp); omega)
    have hne : ∀ e ∈ ds, e ≠ d := by rintro e h rfl; exact hnd.1 h
    obtain ⟨g1, g2, g3, g4, g5⟩ := ih h1 h2 h4 hnd.2
      (fun e h => by rw [h3]; exact hd e (by simp [h]))
      (fun e h => by simp only [hne e h, ↓reduceIte]; exact hx e (by simp [h]))
      (fun e h => by simp only [hne e h, ↓reduceIte]; exact he e (by simp [h]))
    refine ⟨g1, g2, fun q => (g3 q).trans (h3 q), ?_, fun st hst => ?_⟩
    · have : (fun q => if q ∈ d :: ds then N q - x - x else N q) =
          fun q => if q ∈ ds then (if q = d then N d - x - x else N q) - x - x
            else if q = d then N d - x - x else N q := by
        funext q
        by_cases hq : q = d
        · subst hq; simp [hnd.1]
        · simp [hq]
      rw [this]
      exact g4
    · simp only [List.map_cons, stateAt, g5 st (fun e h => hst e (by simp [h])), bind, Option.bind_some,
        View.sem, spanSem]
      congr 1
      obtain ⟨i, hi⟩ := hst d (by simp)
      funext t
      cases t with
      | len e => simp [State.mapAt, State.raise]
      | idx e =>
        by_cases hed : e = d
        · subst hed
          simp only [State.mapAt, State.raise, hnd.1, List.mem_cons, true_or, ↓reduceIte, hi, Option.map_some]
          rcases hk.cases with rfl | rfl <;> rfl
        · simp [State.mapAt, State.raise, hed]

/-- C49: `symmetric_span<ds...>(s, k)` as an order visits exactly the elements whose index in each of the
dimensions `ds` is at least `k` and less than the length minus `k`, each once. The structure has
the lengths `N` and no tuples; `k` is at most half of each length; `st` is the state given for the
lengths, if any. -/
theorem C49_symmetric_span_trims_both_ends {s : Struct} {N : Dim → Nat} (hf : (s.sem .ideal).sig.flat)
    (hu : (s.sem .ideal).sig.uniq) (hN : HasLengths (s.sem .ideal) N) (st : State)
    (hlen : ∀ e, st (.len e) = none) (ds : List Dim) (hidx : ∀ d ∈ ds, st (.idx d) = none)
    (hnd : ds.Nodup) (hd : ∀ d ∈ ds, (s.sem .ideal).sig.anyAccept d = true) (k : Val) (x : Nat)
    (hk : k.Num x) (hx : ∀ d ∈ ds, 2 * x ≤ N d) :
    ∃ vs sts, symmetricSpan .ideal s st ds k = some vs ∧
      (Traverser.mk s vs).forEach .ideal [] = some sts ∧ sts.Nodup ∧
      ∀ u, u ∈ sts ↔ Addresses (s.sem .ideal) u ∧
        ∀ d ∈ ds, ∃ i, u (.idx d) = some (.dyn i) ∧ x ≤ i ∧ i + x < N d := by
  have hlens : ∃ ls : Dim → Val, ∀ d ∈ ds, (s.sem .ideal).len d st = some (ls d) ∧ (ls d).Num (N d) := by
    refine ⟨fun d => ((s.sem .ideal).len d st).getD (.lit 0), fun d h => ?_⟩
    obtain ⟨l, h1, h2⟩ := hN d (hd d h) st hlen (hidx d h)
    simp only [h1, Option.getD_some]
    exact ⟨trivial, h2⟩
  obtain ⟨ls, hls⟩ := hlens
  have hvs : symmetricSpan .ideal s st ds k =
      some (ds.map fun d => View.span d k ((ls d).sub .ideal k).toDyn) :=
    mapM_map fun d h => by rw [(hls d h).1]; rfl
  have hends : ∀ d ∈ ds, (((ls d).sub .ideal k).toDyn).Num (N d - x) := by
    intro d h
    have : ((ls d).sub .ideal k).nat? = some (N d - x) :=
      Val.nat?_sub.2 ⟨_, _, (hls d h).2, hk, by have := hx d h; omega, rfl⟩
    rcases Val.nat?_eq_some.1 this with e | e <;> rw [e] <;> rfl
  obtain ⟨h1, h2, h3, h4, h5⟩ := symmetric_span_flat ds hf hu hN hk hnd hd hx hends
  obtain ⟨sts, g1, g2, -, g3⟩ := forEach_flat h1 h2 h4
  have hst : ∀ u ∈ sts, ∀ d ∈ ds, ∃ i, u (.idx d) = some (.dyn i) := by
    intro u hu' d h
    obtain ⟨i, -, hi⟩ := ((g3 u).1 hu').ok d (by simp only [h3]; exact hd d h)
    exact ⟨i, hi⟩
  refine ⟨_, sts.map fun u => u.raise ds x, hvs, ?_, ?_, ?_⟩
  · rw [forEach_top]
    simp only [Traverser.top]
    rw [g1, Option.bind_some]
    exact mapM_map fun u h => h5 u (hst u h)
  · refine List.pairwise_map.2 (List.Pairwise.imp_of_mem ?_ g2)
    intro a b ha hb hne he
    apply hne
    funext t
    have := congrFun he t
    cases t with
    | len e => simpa [State.raise] using this
    | idx e =>
      by_cases hm : e ∈ ds
      · obtain ⟨i, hi⟩ := hst a ha e hm
        obtain ⟨j, hj⟩ := hst b hb e hm
        simp only [State.raise, hm, ↓reduceIte, hi, hj, Option.map_some, Option.some.injEq] at this
        have h := congrArg Val.nat? this
        have e1 : ∀ i, ((Val.dyn i).add .ideal (.dyn x)).nat? = some (i + x) := fun _ => rfl
        rw [e1, e1, Option.some.injEq] at h
        rw [hi, hj]; congr 2; omega
      · simpa [State.raise, hm] using this
  · intro u
    rw [addresses_flat hf hN, List.mem_map]
    constructor
    · rintro ⟨w, hw, rfl⟩
      have hb := (g3 w).1 hw
      have hin : ∀ d ∈ ds, ∃ i, (w.raise ds x) (.idx d) = some (.dyn i) ∧ x ≤ i ∧ i + x < N d := by
        intro d h
        obtain ⟨i, hlt, hi⟩ := hb.ok d (by simp only [h3]; exact hd d h)
        simp only [h, ↓reduceIte] at hlt
        refine ⟨i + x, by simp only [State.raise, h, ↓reduceIte, hi, Option.map_some]; rfl, by omega, by omega⟩
      refine ⟨⟨fun q hq => ?_, fun q hq => ?_, fun q => hb.noLen q⟩, hin⟩
      · by_cases hm : q ∈ ds
        · obtain ⟨i, e1, -, e2⟩ := hin q hm
          exact ⟨i, by omega, e1⟩
        · obtain ⟨i, hlt, hi⟩ := hb.ok q (by simp only [h3]; exact hq)
          simp only [hm, ↓reduceIte] at hlt
          exact ⟨i, hlt, by simp [State.raise, hm, hi]⟩
      · have hm : q ∉ ds := fun hm => hq (hd q hm)
        have := hb.only q (by simp only [h3]; exact hq)
        simp [State.raise, hm, this]
    · rintro ⟨hb, hin⟩
      refine ⟨fun t => match t with
        | .idx q => if q ∈ ds then (u (.idx q)).map (fun v => v.sub .ideal (.dyn x)) else u (.idx q)
        | .len q => none, (g3 _).2 ⟨fun q hq => ?_, fun q hq => ?_, fun q => rfl⟩, ?_⟩
      · by_cases hm : q ∈ ds
        · obtain ⟨i, e1, e2, e3⟩ := hin q hm
          refine ⟨i - x, by simp only [hm, ↓reduceIte]; omega, ?_⟩
          simp only [hm, ↓reduceIte, e1, Option.map_some, Val.sub, Arith.ideal, e2, Val.ofDyn]
        · simp only [hm, ↓reduceIte]
          exact hb.ok q (by rw [← h3]; exact hq)
      · have hq' : ¬ (s.sem .ideal).sig.anyAccept q = true := by rw [← h3]; exact hq
        have hm : q ∉ ds := fun hm => hq' (hd q hm)
        simp only [hm, ↓reduceIte]
        exact hb.only q hq'
      · funext t
        cases t with
        | len q => simp [State.raise, hb.noLen]
        | idx q =>
          by_cases hm : q ∈ ds
          · obtain ⟨i, e1, e2, e3⟩ := hin q hm
            simp only [State.raise, hm, ↓reduceIte, e1, Option.map_some, Val.sub, Arith.ideal, e2,
              Val.ofDyn, Val.add, Nat.sub_add_cancel]
          · simp [State.raise, hm]

theorem neighbor_some {st : State} {js : List (Dim × Int)} (hnd : (js.map Prod.fst).Nodup)
    (h : ∀ dj ∈ js, ∃ i, st (.idx dj.1) = some (.dyn i)) :
    ∃ u, neighbor st js = some u ∧ (∀ e, u (.len e) = st (.len e)) ∧
      (∀ e, e ∉ js.map Prod.fst → u (.idx e) = st (.idx e)) ∧
      ∀ dj ∈ js, ∀ i, st (.idx dj.1) = some (.dyn i) → u (.idx dj.1) = some (Val.shiftBy i dj.2) := by
  induction js with
  | nil => exact ⟨st, rfl, fun _ => rfl, fun _ _ => rfl, by simp⟩
  | cons dj js ih =>
    rw [List.map_cons, List.nodup_cons] at hnd
    obtain ⟨u, h1, h2, h3, h4⟩ := ih hnd.2 fun a ha => h a (by simp [ha])
    obtain ⟨i, hi⟩ := h dj (by simp)
    refine ⟨u.set (.idx dj.1) (.shiftBy i dj.2), by simp [neighbor, hi, h1], fun e => by simp [State.set, h2],
      fun e he => ?_, fun a ha j hj => ?_⟩
    · rw [List.map_cons, List.mem_cons, not_or] at he
      simp [State.set, he.1, h3 e he.2]
    · rcases List.mem_cons.1 ha with rfl | ha
      · rw [hi] at hj; cases hj
        simp [State.set]
      · have : a.1 ≠ dj.1 := by
          rintro e; exact hnd.1 (e ▸ List.mem_map_of_mem ha)
        simp [State.set, this, h4 a ha j hj]

/-- C49: in a state with at least `x` neighbours on both sides in the dimensions `ds`, every
`neighbor` with differences of at most `x` in any of these dimensions compiles and addresses an
element. Conversely, an element all of whose neighbours at the distance `x` exist is one of those
visited with `symmetric_span`. -/
theorem C49_neighbors_inside {s : Struct} {N : Dim → Nat} (hf : (s.sem .ideal).sig.flat)
    (hN : HasLengths (s.sem .ideal) N) (ds : List Dim)
    (hd : ∀ d ∈ ds, (s.sem .ideal).sig.anyAccept d = true) (x : Nat)
    (u : State) (hu : Addresses (s.sem .ideal) u) :
    (∀ d ∈ ds, ∃ i, u (.idx d) = some (.dyn i) ∧ x ≤ i ∧ i + x < N d) ↔
    ∀ js : List (Dim × Int), (js.map Prod.fst).Nodup → (∀ dj ∈ js, dj.1 ∈ ds ∧ dj.2.natAbs ≤ x) →
      ∃ w, neighbor u js = some w ∧ Addresses (s.sem .ideal) w := by
  simp only [addresses_flat hf hN] at hu ⊢
  constructor
  · intro hin js hnd hjs
    obtain ⟨w, h1, h2, h3, h4⟩ := neighbor_some (st := u) hnd fun dj h => by
      obtain ⟨i, hi, -⟩ := hin dj.1 (hjs dj h).1; exact ⟨i, hi⟩
    refine ⟨w, h1, fun q hq => ?_, fun q hq => ?_, fun q => by rw [h2]; exact hu.noLen q⟩
    · by_cases hm : q ∈ js.map Prod.fst
      · obtain ⟨dj, hdj, rfl⟩ := List.mem_map.1 hm
        obtain ⟨i, hi, e1, e2⟩ := hin dj.1 (hjs dj hdj).1
        have := (hjs dj hdj).2
        have hpos : 0 ≤ (i : Int) + dj.2 := by omega
        refine ⟨((i : Int) + dj.2).toNat, by omega, ?_⟩
        rw [h4 dj hdj i hi, Val.shiftBy, if_pos hpos]
      · rw [h3 q hm]; exact hu.ok q hq
    · have hm : q ∉ js.map Prod.fst := by
        intro hm
        obtain ⟨dj, hdj, rfl⟩ := List.mem_map.1 hm
        exact hq (hd _ (hjs dj hdj).1)
      rw [h3 q hm]; exact hu.only q hq
  · intro h d hm
    obtain ⟨i, hlt, hi⟩ := hu.ok d (hd d hm)
    refine ⟨i, hi, ?_, ?_⟩
    · obtain ⟨w, h1, h2⟩ := h [(d, -(x : Int))] (by simp) (by simp [hm])
      simp only [neighbor, hi, Option.map_some, Option.some.injEq] at h1
      subst h1
      obtain ⟨k, -, hk⟩ := h2.ok d (hd d hm)
      simp only [State.set, ↓reduceIte, Option.some.injEq, Val.shiftBy] at hk
      split at hk
      · omega
      · cases hk
    · obtain ⟨w, h1, h2⟩ := h [(d, (x : Int))] (by simp) (by simp [hm])
      simp only [neighbor, hi, Option.map_some, Option.some.injEq] at h1
      subst h1
      obtain ⟨k, hk', hk⟩ := h2.ok d (hd d hm)
      simp only [State.set, ↓reduceIte, Option.some.injEq, Val.shiftBy] at hk
      split at hk
      · cases hk; omega
      · cases hk

/-- C49: the margin must not exceed half of the length: in `size_t` arithmetic the length of the span
wraps around to a huge number. -/
theorem C49_margin_above_half_wraps :
    let s := Struct.apply (.vector 0 (.scalar 4 4)) [.setLength 0 (.dyn 3)]
    ∃ vs, symmetricSpan (.machine (2 ^ 64)) s .empty [0] (.dyn 2) = some vs ∧
      ((s.apply vs).sem (.machine (2 ^ 64))).len 0 .empty = some (.dyn (2 ^ 64 - 1)) :=
  ⟨_, rfl, by decide⟩

/-- A matrix of 5 x 4 with the margin 1. -/
example :
    let s := Struct.apply (.vector 1 (.vector 0 (.scalar 4 4))) [.setLength 0 (.dyn 4), .setLength 1 (.lit 5)]
    (s.sem .ideal).sig.flat ∧ (s.sem .ideal).sig.uniq ∧
    HasLengths (s.sem .ideal) (fun q => if q = 0 then 4 else 5) ∧
    ((symmetricSpan .ideal s .empty [0, 1] (.lit 1)).bind fun vs =>
        (Traverser.mk s vs).forEach .ideal []).map (List.map fun st => (st (.idx 1), st (.idx 0))) =
      some ((List.range 3).flatMap fun i => (List.range 2).map fun j =>
        (some (.dyn (1 + i)), some (.dyn (1 + j)))) := by
  refine ⟨trivial, ⟨rfl, rfl, trivial⟩, ?_, by decide⟩
  intro q hq st hl hi
  have h : q = 1 ∨ q = 0 := by
    simp [Struct.apply, Struct.sem, View.sem, ViewSem.toSem, setLengthSem, vectorSem, scalarSem, Sig.replace,
      Sig.anyAccept, Sig.setLengthRepl] at hq
    grind
  rcases h with rfl | rfl
  · refine ⟨.lit 5, ?_, rfl⟩
    simp [Struct.apply, Struct.sem, View.sem, ViewSem.toSem, setLengthSem, vectorSem, scalarSem, guardLen,
      State.set, State.has, State.removeAll, hi]
  · refine ⟨.dyn 4, ?_, rfl⟩
    simp [Struct.apply, Struct.sem, View.sem, ViewSem.toSem, setLengthSem, vectorSem, scalarSem, guardLen,
      State.set, State.has, State.removeAll, hi]

end Noarr
