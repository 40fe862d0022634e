import Verif.Lemmas
import Verif.Spec

/-
C10 - C12: views keep size and address space; fix and set_length mean passing the index and the
length.
-/

namespace Noarr

/-! ### C10 -/

/-- C10: whatever views are applied to a structure, its size, alignment and offsets are those of
the original structure in some state (the one computed by the views), so no view adds memory or
addresses anything that the original structure does not address. -/
theorem C10_views_keep_address_space (A : Arith) (vs : List View) (s : Struct) (st : State) :
    (∀ n, ((s.apply vs).sem A).size st = some n →
      ∃ st', stateAt A s vs st = some st' ∧ (s.sem A).size st' = some n) ∧
    (∀ n, ((s.apply vs).sem A).align st = some n →
      ∃ st', stateAt A s vs st = some st' ∧ (s.sem A).align st' = some n) ∧
    (∀ x o, ((s.apply vs).sem A).off st x = some o →
      ∃ st', stateAt A s vs st = some st' ∧ (s.sem A).off st' x = some o) := by
  induction vs generalizing s with
  | nil => exact ⟨fun n h => ⟨st, rfl, h⟩, fun n h => ⟨st, rfl, h⟩, fun x o h => ⟨st, rfl, h⟩⟩
  | cons v vs ih =>
    obtain ⟨h1, h2, h3⟩ := ih (.view v s)
    refine ⟨fun n h => ?_, fun n h => ?_, fun x o h => ?_⟩
    · obtain ⟨st', hst, hs⟩ := h1 n h
      simp only [Struct.sem, ViewSem.toSem] at hs
      split at hs
      · obtain ⟨u, hu, hn⟩ := Option.bind_eq_some_iff.1 hs
        exact ⟨u, by simp [stateAt, hst, hu], hn⟩
      · cases hs
    · obtain ⟨st', hst, hs⟩ := h2 n h
      simp only [Struct.sem, ViewSem.toSem] at hs
      split at hs
      · obtain ⟨u, hu, hn⟩ := Option.bind_eq_some_iff.1 hs
        exact ⟨u, by simp [stateAt, hst, hu], hn⟩
      · cases hs
    · obtain ⟨st', hst, hs⟩ := h3 x o h
      simp only [Struct.sem, ViewSem.toSem] at hs
      split at hs
      · obtain ⟨u, hu, hn⟩ := Option.bind_eq_some_iff.1 hs
        exact ⟨u, by simp [stateAt, hst, hu], hn⟩
      · cases hs

/-- The views that give or take away lengths: all others leave the lengths in the state alone. -/
def View.keepsLengths : View → Prop
  | .slice .. | .span .. | .step .. | .reverse _ | .reorder _ | .hoist _ => True
  | _ => False

/-- C10: the views that only translate indices do not change the size, as long as the size of the
structure does not depend on indices. -/
theorem C10_index_views_keep_size (A : Arith) (v : View) (hv : v.keepsLengths) (s : Struct)
    (hs : ∀ st st' : State, (∀ d, st (.len d) = st' (.len d)) →
      (s.sem A).size st = (s.sem A).size st')
    (st : State) (n : Val) (h : ((Struct.view v s).sem A).size st = some n) :
    (s.sem A).size st = some n := by
  have key : ∀ u, (v.sem A (s.sem A)).sub st = some u → ∀ d, u (.len d) = st (.len d) := by
    intro u hu d
    cases v <;> simp only [View.keepsLengths] at hv <;>
      simp only [View.sem, sliceSem, spanSem, stepSem, reverseSem, reorderSem, hoistSem,
        Option.some.injEq] at hu
    case reverse e =>
      split at hu
      · cases hu; rfl
      · split at hu
        · cases hu
        · cases hu; simp [State.remove]
        · simp only [bind, Option.bind] at hu
          split at hu
          · cases hu
          · cases hu; simp [State.set, State.remove]
    all_goals
      subst hu
      first
        | rfl
        | simp [State.mapAt]
  simp only [Struct.sem, ViewSem.toSem] at h
  split at h
  · obtain ⟨u, hu, hn⟩ := Option.bind_eq_some_iff.1 h
    rw [hs st u (fun d => (key u hu d).symm), hn]
  · cases h

/-! ### C11 -/

/-- C11: fixing an index is the same as passing it in the state. -/
theorem C11_fix_is_index (A : Arith) (s : Struct) (d : Dim) (i : Val) (st : State)
    (hst : st (.len d) = none) :
    SameAt ((Struct.view (.fix d i) s).sem A) st (s.sem A) (st.set (.idx d) i) ∧
    (∀ q, q ≠ d → ((Struct.view (.fix d i) s).sem A).len q st =
      (s.sem A).len q (st.set (.idx d) i)) ∧
    ((Struct.view (.fix d i) s).sem A).hasLen d st = some false := by
  have hsub : (st.remove (.len d)).set (.idx d) i = st.set (.idx d) i := by
    rw [State.remove_absent _ _ hst]
  refine ⟨⟨?_, ?_, fun x => ?_, ?_⟩, fun q hq => ?_, ?_⟩ <;>
    simp [Struct.sem, ViewSem.toSem, View.sem, fixSem, hsub]
  simp only [hq, ↓reduceIte]
  exact Struct.len_guard A s q _

example : ((Struct.view (.fix 0 (.dyn 2)) (.view (.setLength 0 (.dyn 5)) (.vector 0
    (.scalar 4 4)))).sem .ideal).off State.empty (.lit 0) = some (.dyn 8) := by decide

/-- C11: fixes in different dimensions commute. -/
theorem C11_fix_comm (A : Arith) (s : Struct) (d e : Dim) (i j : Val) (hde : d ≠ e) :
    Same ((s.apply [.fix d i, .fix e j]).sem A) ((s.apply [.fix e j, .fix d i]).sem A) := by
  have hsub : ∀ st : State, ((((st.remove (.len e)).set (.idx e) j).remove (.len d)).set (.idx d) i)
      = ((((st.remove (.len d)).set (.idx d) i).remove (.len e)).set (.idx e) j) := by
    intro st
    funext t
    cases t <;> simp only [State.set, State.remove, Tag.idx.injEq, Tag.len.injEq, reduceCtorEq,
      ↓reduceIte] <;> (repeat' split) <;> simp_all
  constructor
  all_goals intros
  all_goals simp only [Struct.apply, Struct.sem, ViewSem.toSem, View.sem, fixSem, Option.bind_some,
    hsub, ↓reduceIte]
  · rename_i q st
    by_cases h1 : q = d <;> by_cases h2 : q = e <;> simp [h1, h2]
  · rename_i q st
    by_cases h1 : q = d <;> by_cases h2 : q = e <;> simp_all [guardLen]

/-- C11: a fixed dimension cannot be fixed again, the innermost fix decides. -/
theorem C11_inner_fix_wins (A : Arith) (s : Struct) (d : Dim) (i j : Val) :
    Same ((s.apply [.fix d i, .fix d j]).sem A) ((s.apply [.fix d i]).sem A) := by
  have hsub : ∀ st : State, ((((st.remove (.len d)).set (.idx d) j).remove (.len d)).set (.idx d) i)
      = ((st.remove (.len d)).set (.idx d) i) := by
    intro st
    funext t
    cases t <;> simp only [State.set, State.remove, Tag.idx.injEq, Tag.len.injEq, reduceCtorEq,
      ↓reduceIte] <;> (repeat' split) <;> simp_all
  constructor
  all_goals intros
  all_goals simp only [Struct.apply, Struct.sem, ViewSem.toSem, View.sem, fixSem, Option.bind_some,
    hsub, ↓reduceIte]
  · rename_i q st
    by_cases h1 : q = d <;> simp [h1]
  · rename_i q st
    by_cases h1 : q = d
    · simp [h1, guardLen]
    · simp only [h1, ↓reduceIte, guardLen_idem]

/-- The state extended by several indices. -/
def State.setAll (st : State) : List (Dim × Val) → State
  | [] => st
  | (d, i) :: ps => (st.set (.idx d) i).setAll ps

/-- C11: `fix(state)`, which fixes all the indices of a state one by one (extra/shortcuts.hpp:329),
is the same as passing that state. -/
theorem C11_fix_state (A : Arith) (s : Struct) (ps : List (Dim × Val)) (st : State)
    (hnd : (ps.map Prod.fst).Nodup)
    (hst : ∀ d ∈ ps.map Prod.fst, st (.len d) = none) :
    SameAt ((s.apply (ps.map fun p => .fix p.1 p.2)).sem A) st (s.sem A) (st.setAll ps) ∧
    (∀ q, q ∉ ps.map Prod.fst →
      ((s.apply (ps.map fun p => .fix p.1 p.2)).sem A).len q st =
        (s.sem A).len q (st.setAll ps)) := by
  induction ps generalizing s with
  | nil => exact ⟨⟨rfl, rfl, fun _ => rfl, rfl⟩, fun _ _ => rfl⟩
  | cons p ps ih =>
    obtain ⟨d, i⟩ := p
    simp only [List.map_cons, List.nodup_cons, List.mem_cons] at hnd hst
    obtain ⟨h1, h2⟩ := ih (.view (.fix d i) s) hnd.2 (fun d hd => hst d (Or.inr hd))
    have hlen : ∀ (ps : List (Dim × Val)) (st : State) e, st.setAll ps (.len e) = st (.len e) := by
      intro ps
      induction ps with
      | nil => intros; rfl
      | cons p ps ih => intro st e; simp [State.setAll, ih, State.set]
    have hcomm : ∀ (ps : List (Dim × Val)) (st : State), d ∉ ps.map Prod.fst →
        (st.setAll ps).set (.idx d) i = (st.set (.idx d) i).setAll ps := by
      intro ps
      induction ps with
      | nil => intros; rfl
      | cons p ps ih =>
        intro st hd
        simp only [List.map_cons, List.mem_cons, not_or] at hd
        simp only [State.setAll]
        rw [ih _ hd.2, State.set_comm _ _ _ (by simp; exact fun h => hd.1 h.symm)]
    obtain ⟨g1, g2, -⟩ := C11_fix_is_index A s d i (st.setAll ps)
      (by rw [hlen]; exact hst d (Or.inl rfl))
    rw [hcomm ps st hnd.1] at g1 g2
    refine ⟨⟨h1.size.trans g1.size, h1.align.trans g1.align, fun x => (h1.off x).trans (g1.off x),
      h1.elem.trans g1.elem⟩, fun q hq => ?_⟩
    simp only [List.map_cons, List.mem_cons, not_or] at hq
    exact (h2 q hq.2).trans (g2 q hq.1)

/-! ### C12 -/

/-- C12: setting lengths in several dimensions is the same as passing them in the state; the
innermost setting of a dimension wins. -/
theorem C12_set_length_is_length (A : Arith) (s : Struct) (ps : List (Dim × Val)) (st : State) :
    let F := (s.apply (ps.map fun p => .setLength p.1 p.2)).sem A
    let st' : State := fun
      | .idx d => st (.idx d)
      | .len d => match ps.lookup d with
        | some l => some l
        | none => st (.len d)
    SameAt F st (s.sem A) st' ∧ (∀ q, F.hasLen q st = (s.sem A).hasLen q st') ∧
    (∀ q, F.len q st = (s.sem A).len q st') := by
  intro F st'
  induction ps generalizing s with
  | nil =>
    have : st' = st := by funext t; cases t <;> rfl
    simp only [this]
    exact ⟨⟨rfl, rfl, fun _ => rfl, rfl⟩, fun _ => rfl, fun _ => rfl⟩
  | cons p ps ih =>
    obtain ⟨d, l⟩ := p
    obtain ⟨h1, h2, h3⟩ := ih (.view (.setLength d l) s)
    have hst' : State.set (fun
      | .idx d => st (.idx d)
      | .len d => match ps.lookup d with
        | some l => some l
        | none => st (.len d)) (.len d) l = st' := by
      funext t
      cases t with
      | idx e => simp [State.set, st']
      | len e =>
        by_cases he : e = d
        · subst he; simp [State.set, st', List.lookup]
        · have : (e == d) = false := by simp [he]
          simp [State.set, st', List.lookup, he, this]
    refine ⟨⟨?_, ?_, fun x => ?_, ?_⟩, fun q => ?_, fun q => ?_⟩
    · rw [← hst']; exact h1.size
    · rw [← hst']; exact h1.align
    · rw [← hst']; exact h1.off x
    · rw [← hst']; exact h1.elem
    · rw [← hst']; exact h2 q
    · rw [← hst']; exact (h3 q).trans (Struct.len_guard A s q _)

/-- C12: a vector whose length is set has that length, and that many times the size of its
element. -/
theorem C12_vector (s : Struct) (d : Dim) (n : Nat) (l : Val) (hl : l.nat? = some n)
    (st : State) (hst : st (.idx d) = none) (m : Nat) (v : Val)
    (hm : (s.sem .ideal).size (st.removeAll [.idx d, .len d]) = some v) (hv : v.nat? = some m) :
    let F := (Struct.view (.setLength d l) (.vector d s)).sem .ideal
    F.HasLength d st n ∧ ∃ w, F.size st = some w ∧ w.nat? = some (n * m) := by
  have hrem : (st.set (.len d) l).removeAll [.idx d, .len d] = st.removeAll [.idx d, .len d] := by
    funext t
    cases t <;> simp [State.removeAll, State.set] <;> (repeat' split) <;> simp_all
  refine ⟨⟨l, ?_, hl⟩, ?_⟩
  · simp [Struct.sem, ViewSem.toSem, View.sem, setLengthSem, vectorSem, guardLen, State.has,
      State.set, hst]
  · refine ⟨l.mul .ideal v, ?_, Val.nat?_mul.2 ⟨n, m, hl, hv, rfl⟩⟩
    simp [Struct.sem, ViewSem.toSem, View.sem, setLengthSem, vectorSem, hrem, hm]

example : ((Struct.apply (.vector 0 (.vector 1 (.scalar 4 4)))
    [.setLength 0 (.dyn 5), .setLength 1 (.dyn 3), .setLength 0 (.dyn 7)]).sem .ideal).size
    State.empty = some (.dyn 60) := by decide

end Noarr
