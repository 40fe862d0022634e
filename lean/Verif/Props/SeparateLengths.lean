import Verif.Props.Windows
import Verif.Props.Setters

/-
C82: lengths that are not in the structure but in the state (docs/other/SeparateLengths.md).
-/

namespace Noarr

/-- The state with lengths: `state.with<length_in<Dim>...>(lengths...)`. If a dimension is given twice, the first one counts. -/
def State.passLens (ps : List (Dim × Val)) (st : State) : State
  | .idx d => st (.idx d)
  | .len d => match ps.lookup d with
    | some l => some l
    | none => st (.len d)

/-- `set_length<Dims...>(lengths...)` -/
def setLengths (ps : List (Dim × Val)) : List View := ps.map fun p => .setLength p.1 p.2

/-- C82: the lengths in the state do the same as `set_length`: the sizes, the offsets, the elements and the lengths are the
same, in every structure and every arithmetic. -/
theorem C82_lengths_in_state (A : Arith) (s : Struct) (ps : List (Dim × Val)) (st : State) :
    (s.apply (setLengths ps)).place A st = s.place A (st.passLens ps) ∧
    ((s.apply (setLengths ps)).sem A).size st = (s.sem A).size (st.passLens ps) ∧
    ∀ q, ((s.apply (setLengths ps)).sem A).len q st = (s.sem A).len q (st.passLens ps) := by
  obtain ⟨h1, -, h3⟩ := C12_set_length_is_length A s ps st
  have h1 : SameAt ((s.apply (setLengths ps)).sem A) st (s.sem A) (st.passLens ps) := by
    refine Eq.mp (congrArg (SameAt _ st (s.sem A)) ?_) h1
    funext t; cases t <;> rfl
  have h3 : ∀ q, ((s.apply (setLengths ps)).sem A).len q st = (s.sem A).len q (st.passLens ps) := by
    intro q
    refine (h3 q).trans (congrArg _ ?_)
    funext t; cases t <;> rfl
  exact ⟨by simp only [Struct.place, h1.elem, h1.off], h1.size, h3⟩

theorem stateAt_setLengths (A : Arith) (s : Struct) (ps : List (Dim × Val)) (st : State) :
    stateAt A s (setLengths ps) st = some (st.passLens ps) := by
  induction ps generalizing s with
  | nil =>
    have : st.passLens [] = st := by funext t; cases t <;> rfl
    rw [this]; rfl
  | cons p ps ih =>
    obtain ⟨d, l⟩ := p
    simp only [setLengths, List.map_cons, stateAt]
    rw [show stateAt A _ (ps.map fun p => View.setLength p.1 p.2) st = _ from ih _]
    simp only [bind, Option.bind_some, View.sem, setLengthSem, Option.some.injEq]
    funext t
    cases t with
    | idx e => simp [State.set, State.passLens]
    | len e =>
      by_cases he : e = d
      · subst he; simp [State.set, State.passLens, List.lookup]
      · have : (e == d) = false := by simp [he]
        simp [State.set, State.passLens, List.lookup, he, this]

/-- C82: a traverser whose order sets the lengths, `traverser(s).order(set_length<...>(...))`, makes the iterations that the
traverser of `s ^ set_length<...>(...)` makes, and its states contain the lengths. -/
theorem C82_traverser (A : Arith) (s : Struct) (ps : List (Dim × Val)) (ds : List Dim) :
    (Traverser.mk s (setLengths ps)).forEach A ds =
        ((Traverser.mk (s.apply (setLengths ps)) []).forEach A ds).map (List.map (State.passLens ps)) ∧
      ∀ sts, (Traverser.mk s (setLengths ps)).forEach A ds = some sts →
        ∀ u ∈ sts, ∀ d l, ps.lookup d = some l → u (.len d) = some l := by
  have h : (Traverser.mk s (setLengths ps)).forEach A ds =
      ((Traverser.mk (s.apply (setLengths ps)) []).forEach A ds).map (List.map (State.passLens ps)) := by
    rw [forEach_top]
    simp only [Traverser.top]
    cases (Traverser.mk (s.apply (setLengths ps)) []).forEach A ds with
    | none => rfl
    | some sts => exact mapM_map fun u _ => stateAt_setLengths A s ps u
  refine ⟨h, fun sts hs u hu d l hl => ?_⟩
  rw [h, Option.map_eq_some_iff] at hs
  obtain ⟨sts', -, rfl⟩ := hs
  obtain ⟨u', -, rfl⟩ := List.mem_map.1 hu
  simp only [State.passLens, hl]

/-- C82: a program that passes the lengths in its states, and uses bags without lengths, does the same as the program without
the lengths on the bags with `set_length`. -/
theorem C82_programs {A : Arith} {α : Type} (p : Prog α) (B : Bags) (ps : List (Dim × Val)) :
    p.run A (fun x => (B x).apply (setLengths ps)) =
      ((p.through fun _ => State.passLens ps).run A B).map fun r =>
        (r.1, fun x => ⟨(B x).structure_.apply (setLengths ps), (r.2 x).data⟩) := by
  have asks : p.Asks (fun _ _ => True) (fun _ _ _ => True) := by
    induction p with
    | done a => trivial
    | get x st k ih => exact ⟨trivial, ih⟩
    | set x st v k ih => exact ⟨trivial, ih⟩
    | length x d st k ih => exact ⟨trivial, ih⟩
  exact C81_programs (A := A) (fun x => (B x).structure_) (fun x => (B x).structure_.apply (setLengths ps))
    (fun _ => State.passLens ps) _ _ (fun x u _ => (C82_lengths_in_state A _ ps u).1)
    (fun x d u _ => (C82_lengths_in_state A _ ps u).2.2 d) p asks fun x => (B x).data

/-- C82: a loop over such a traverser, whose body hands its state on to the bags. -/
theorem C82_loops {A : Arith} (s : Struct) (ps : List (Dim × Val)) (body : State → Prog Unit)
    (hb : ∀ u, body (u.passLens ps) = (body u).through fun _ => State.passLens ps) :
    (Traverser.mk s (setLengths ps)).forEachProg A body =
      ((Traverser.mk (s.apply (setLengths ps)) []).forEachProg A body).map (Prog.through fun _ => State.passLens ps) := by
  simp only [Traverser.forEachProg, (C82_traverser A s ps []).1]
  cases (Traverser.mk (s.apply (setLengths ps)) []).forEach A [] with
  | none => rfl
  | some sts =>
    simp only [Option.map_some, Option.some.injEq, Prog.through_each]
    induction sts with
    | nil => rfl
    | cons u sts ih => simp only [List.map_cons, Prog.each, hb, ih]

/-- C82: copying between two bags whose structures have no lengths, `traverser(s).order(set_length<...>(...))
.for_each([&](auto state) { to[state] = from[state]; })`. Every element of `to` gets the value of that of `from`. -/
theorem C82_copy (s : Struct) (ps : List (Dim × Val)) (I : Space) (B : Bags) (sts : List State)
    (hs : (Traverser.mk (s.apply (setLengths ps)) []).forEach .ideal [] = some sts) (hnd : sts.Nodup)
    (hat : ∀ st ∈ sts, I.At st st) (hall : ∀ u, I.has u → u ∈ sts)
    (hl : ∀ x, I.LaidOut ((B x).structure_.apply (setLengths ps)))
    (hb : ∀ x, BagFor ((B x).structure_.apply (setLengths ps)) ((B x).apply (setLengths ps))) :
    ∃ p B', (Traverser.mk s (setLengths ps)).forEachProg .ideal (assign 1 fun st => .get 0 st fun v => .done (st, v)) = some p ∧
      p.run .ideal B = .ok ((), B') ∧ (∀ x, (B' x).structure_ = (B x).structure_) ∧
      ∀ u, I.has u → (B' 1).get .ideal (u.passLens ps) = (B 0).get .ideal (u.passLens ps) ∧
        ∀ x, x ≠ 1 → (B' x).get .ideal (u.passLens ps) = (B x).get .ideal (u.passLens ps) := by
  let C : Bags := fun x => (B x).apply (setLengths ps)
  have hC : BagsHold (fun _ => I) C fun x u => match (C x).get .ideal u with
      | .ok v => v
      | .error _ => [] := by
    refine ⟨hl, hb, fun x u hu => ?_⟩
    obtain ⟨⟨v, hv, -⟩, -⟩ := (hl x).access (b := C x) (hb x) hu
    simp only [hv]
  obtain ⟨p, C', h1, h2, h3, h4, h5⟩ := C73_copy I _ sts hs hnd hat hall _ C hC
  have hr := C82_programs (A := .ideal) p B ps
  rw [show (fun x => (B x).apply (setLengths ps)) = C from rfl, h2] at hr
  cases hq : (p.through fun _ => State.passLens ps).run .ideal B with
  | error e => rw [hq] at hr; cases hr
  | ok r =>
    obtain ⟨⟨⟩, B'⟩ := r
    rw [hq] at hr
    simp only [Except.map, Except.ok.injEq, Prod.mk.injEq, true_and] at hr
    have hst : ∀ x, (B' x).structure_ = (B x).structure_ := fun x => Prog.run_structure hq x
    have hget : ∀ x u, (C' x).get .ideal u = (B' x).get .ideal (u.passLens ps) := fun x u => by
      rw [hr]
      have := Bag.get_of_place (C82_lengths_in_state .ideal (B x).structure_ ps u).1 (B' x).data
      rw [this, ← hst x]
    have hget' : ∀ x u, (C x).get .ideal u = (B x).get .ideal (u.passLens ps) := fun x u =>
      Bag.get_of_place (C82_lengths_in_state .ideal (B x).structure_ ps u).1 (B x).data
    refine ⟨_, B', ?_, hq, hst, fun u hu => ⟨?_, fun x hx => ?_⟩⟩
    · rw [C82_loops s ps _ fun _ => rfl, h1]; rfl
    · rw [← hget, ← hget', h4 u hu]
    · rw [← hget, ← hget', h5 x u hx hu]

/-- C82: the matrix of docs/other/SeparateLengths.md, with any lengths and any indices: its size and the offsets of its elements
are those of a matrix with these lengths. Without the lengths in the state there are none. -/
theorem C82_matrix {i j : Dim} (hij : i ≠ j) (e n m x y : Nat) :
    let s : Struct := .vector j (.vector i (.scalar e e))
    let st := (atNM i j x y).passLens [(i, .dyn n), (j, .dyn m)]
    (∃ v, (s.sem .ideal).size (State.empty.passLens [(i, .dyn n), (j, .dyn m)]) = some v ∧ v.Num (m * (n * e))) ∧
      s.place .ideal st = .ok ((y * n + x) * e, e) ∧
      ∀ st' : State, st' (.len i) = none → st' (.len j) = none → (s.sem .ideal).len i st' = none ∧ (s.sem .ideal).len j st' = none := by
  have hji := hij.symm
  have hb : (j == i) = false := by simp [hji]
  intro s st
  refine ⟨⟨(Val.dyn m).mul .ideal ((Val.dyn n).mul .ideal (.lit e)), ?_, ?_⟩, ?_, fun st' h1 h2 => ⟨?_, ?_⟩⟩
  · simp [s, Struct.sem, vectorSem, scalarSem, State.passLens, State.removeAll, List.lookup, hij, hb]
  · exact Val.nat?_mul.2 ⟨m, n * e, rfl, Val.nat?_mul.2 ⟨n, e, rfl, rfl, rfl⟩, rfl⟩
  · refine place_eq (o := ((Val.dyn x).mul .ideal (.lit e)).add .ideal
      (((Val.dyn y).mul .ideal ((Val.dyn n).mul .ideal (.lit e))).add .ideal (.lit 0))) rfl ?_ ?_
    · simp [s, st, Struct.sem, vectorSem, scalarSem, atNM, State.withAll, State.set, State.passLens, State.removeAll, List.lookup,
        hij, hb]
    · refine Val.nat?_add.2 ⟨x * e, y * (n * e), Val.nat?_mul.2 ⟨x, e, rfl, rfl, rfl⟩, Val.nat?_add.2 ⟨y * (n * e), 0,
        Val.nat?_mul.2 ⟨y, n * e, rfl, Val.nat?_mul.2 ⟨n, e, rfl, rfl, rfl⟩, rfl⟩, rfl, rfl⟩, ?_⟩
      rw [Nat.add_mul, Nat.mul_assoc, Nat.add_comm]
  · simp [s, Struct.sem, vectorSem, guardLen, State.has, State.removeAll, h1, hij]
  · simp [s, Struct.sem, vectorSem, guardLen, State.has, State.removeAll, h2, hij]

/-! ### Examples -/

/-- The numbers of docs/other/SeparateLengths.md; 'i' and 'j' are 0 and 1. -/
example : (∃ v, ((Struct.vector 1 (.vector 0 (.scalar 4 4))).sem .ideal).size
      (State.empty.passLens [(0, .dyn 3), (1, .dyn 3)]) = some v ∧ v.Num 36) ∧
    (Struct.vector 1 (.vector 0 (.scalar 4 4))).place .ideal ((atNM 0 1 2 1).passLens [(0, .dyn 3), (1, .dyn 3)]) = .ok (20, 4) :=
  ⟨(C82_matrix (by decide) 4 3 3 2 1).1, (C82_matrix (by decide) 4 3 3 2 1).2.1⟩

/-- Two vectors of 42 elements whose structures have no length. -/
example (xs ys : Mem) (hxs : xs.length = 42 * 4) (hys : ys.length = 42 * 4) :
    ∃ p B', (Traverser.mk (.vector 0 (.scalar 4 4)) (setLengths [(0, .dyn 42)])).forEachProg .ideal
        (assign 1 fun st => .get 0 st fun v => .done (st, v)) = some p ∧
      p.run .ideal (fun x => if x = 0 then ⟨.vector 0 (.scalar 4 4), xs⟩ else ⟨.vector 0 (.scalar 4 4), ys⟩) = .ok ((), B') ∧
      ∀ k, k < 42 → (B' 1).get .ideal ((atV 0 k).passLens [(0, .dyn 42)]) =
        (Bag.mk (.vector 0 (.scalar 4 4)) xs).get .ideal ((atV 0 k).passLens [(0, .dyn 42)]) := by
  obtain ⟨p, B', h1, h2, -, h3⟩ := C82_copy (.vector 0 (.scalar 4 4)) [(0, .dyn 42)] (.box [0] (fun _ => 42) 4)
    (fun x => if x = 0 then ⟨.vector 0 (.scalar 4 4), xs⟩ else ⟨.vector 0 (.scalar 4 4), ys⟩) _ (vectorOf_forEach 0 42 4)
    (vector_nodup 0 42) (fun u hu => Space.box_self ((mem_vector (N := fun _ => 42)).1 hu))
    (fun u hu => (mem_vector (N := fun _ => 42)).2 hu)
    (fun x => by by_cases hx : x = 0 <;> simp only [hx, if_true, if_false] <;> exact vectorOf_laidOut 0 (fun _ => 42) 4)
    (fun x => by
      by_cases hx : x = 0
      · simp only [hx, if_true]; exact vectorOf_bagFor 0 42 4 xs hxs
      · simp only [hx, if_false]; exact vectorOf_bagFor 0 42 4 ys hys)
  exact ⟨p, B', h1, h2, fun k hk => (h3 _ (atV_box hk)).1⟩

end Noarr
