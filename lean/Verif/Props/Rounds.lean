import Verif.Props.SeparateLengths
import Verif.Props.ScalarType

/-
C84: traversals that visit each element repeatedly (docs/structs/bcast.md).
-/

namespace Noarr

/-- `s ^ bcast<r>(l)` (extra/shortcuts.hpp, `bcast<Dims...>(lengths...)`) -/
def inRounds (s : Struct) (r : Dim) (l : Val) : Struct := s.apply [.bcast r, .setLength r l]

section
variable {A : Arith} {s : Struct} {r : Dim} {l : Val}

/-- Below the new dimension the state is the old one. -/
theorem inRounds_state (st : State) (hi : st (.idx r) = none) (hl : st (.len r) = none) (k : Val) :
    ((st.set (.idx r) k).set (.len r) l).removeAll [.idx r, .len r] = st := by
  funext t
  by_cases h1 : t = .idx r
  · subst h1; simp [State.removeAll, hi]
  · by_cases h2 : t = .len r
    · subst h2; simp [State.removeAll, hl]
    · simp [State.removeAll, State.set, h1, h2]

theorem inRounds_walk {k : Val} (hr : (s.sem A).sig.anyAccept r = false) (T : DimTree) (hT : T.contains r = false) (st : State)
    (hi : st (.idx r) = none) (hl : st (.len r) = none) :
    walk ((inRounds s r l).sem A) T (st.set (.idx r) k) = walk (s.sem A) T st := by
  induction T generalizing st with
  | leaf => rfl
  | bad => rfl
  | node d n bs ih =>
    simp only [DimTree.contains, Bool.or_eq_false_iff, beq_eq_false_iff_ne, ne_eq, decide_eq_false_iff_not, not_exists,
      Bool.not_eq_true] at hT
    obtain ⟨hd, hb⟩ := hT
    have hd' : r ≠ d := fun h => hd h.symm
    have hf : ((inRounds s r l).sem A).sig.find d (st.set (.idx r) k) = (s.sem A).sig.find d st := by
      have : ((inRounds s r l).sem A).sig = .fn r (.ofVal l) (s.sem A).sig := by
        simp [inRounds, Struct.apply, Struct.sem, View.sem, ViewSem.toSem, setLengthSem, bcastSem, Sig.replace,
          Sig.setLengthRepl]
      rw [this]
      simp only [Sig.find, hd', if_false]
      refine Sig.find_congr (fun e he => ?_) d
      have : e ≠ r := by rintro rfl; rw [hr] at he; cases he
      simp [State.set, this]
    have hlen : ((inRounds s r l).sem A).len d (st.set (.idx r) k) = (s.sem A).len d st := by
      have hs := inRounds_state (l := l) st hi hl k
      simp only [inRounds, Struct.apply, Struct.sem, View.sem, ViewSem.toSem, setLengthSem, bcastSem, hd, if_false, hs]
      cases h : (s.sem A).len d st with
      | none =>
        simp only [guardLen]
        repeat' split
        all_goals rfl
      | some x => simp [guardLen, Struct.hasLen_of_len h]
    have ih' : ∀ i v, walk ((inRounds s r l).sem A) (bs i) ((st.set (.idx r) k).set (.idx d) v) =
        walk (s.sem A) (bs i) (st.set (.idx d) v) := fun i v => by
      have : (st.set (.idx r) k).set (.idx d) v = (st.set (.idx d) v).set (.idx r) k := by
        funext t
        by_cases h1 : t = .idx d
        · subst h1; simp [State.set, hd]
        · simp [State.set, h1]
      rw [this]
      exact ih i (hb i) _ (by simpa [State.set, hd'] using hi) (by simpa [State.set] using hl)
    simp only [walk, hf, hlen, ih']

/-- the indices of a path -/
def pathAt : Path → State
  | [] => .empty
  | di :: p => (pathAt p).set (.idx di.1) di.2

theorem pathAt_len (p : Path) (d : Dim) : pathAt p (.len d) = none := by
  induction p with
  | nil => rfl
  | cons di p ih => simpa [pathAt, State.set] using ih

theorem stateAt_path (s : Struct) (p : Path) : stateAt A s (p.map fun di => .fix di.1 di.2) .empty = some (pathAt p) := by
  induction p generalizing s with
  | nil => rfl
  | cons di p ih =>
    simp only [List.map_cons, stateAt, ih, bind, Option.bind_some, View.sem, fixSem, Option.some.injEq]
    funext t
    cases t with
    | idx e => simp [pathAt, State.set, State.remove]
    | len e => simp [pathAt, State.set, State.remove, pathAt_len]

/-- C84: `traverser(s ^ bcast<r>(n))` makes the iterations of `traverser(s)` in each of `n` rounds, one after another. The
states contain the number of the round. -/
theorem C84_states {n : Nat} (hl : l.Num n) (hr : (s.sem A).sig.anyAccept r = false) {sts : List State}
    (hs : (Traverser.mk s []).forEach A [] = some sts) :
    (Traverser.mk (inRounds s r l) []).forEach A [] =
      some ((List.range n).flatMap fun k => sts.map fun u => u.set (.idx r) (.dyn k)) := by
  simp only [Traverser.forEach, Traverser.forSections, Traverser.run, Traverser.top, Struct.apply, bind,
    Option.bind_eq_some_iff, Option.map_eq_some_iff] at hs
  obtain ⟨_, ⟨ps, hw, rfl⟩, hm⟩ := hs
  have ht : ((inRounds s r l).sem A).sig.tree = .node r 1 fun _ => (s.sem A).sig.tree := by
    simp [inRounds, Struct.apply, Struct.sem, View.sem, ViewSem.toSem, setLengthSem, bcastSem, Sig.replace,
      Sig.setLengthRepl, Sig.tree]
  have hf : ((inRounds s r l).sem A).sig.find r .empty = .fn r (.ofVal l) (s.sem A).sig := by
    simp [inRounds, Struct.apply, Struct.sem, View.sem, ViewSem.toSem, setLengthSem, bcastSem, Sig.replace,
      Sig.setLengthRepl, Sig.find]
  have hlen : ((inRounds s r l).sem A).len r .empty = some l := by
    simp [inRounds, Struct.apply, Struct.sem, View.sem, ViewSem.toSem, setLengthSem, bcastSem, guardLen, State.set,
      State.has, State.empty]
  have hn : l.nat? = some n := hl
  have h1 : walk ((inRounds s r l).sem A) ((inRounds s r l).sem A).sig.tree .empty =
      some ((List.range n).flatMap fun k => ps.map fun p => (r, .dyn k) :: p) := by
    rw [ht, walk, hf]
    simp only [hlen, hn, bind, Option.bind_some, dite_true]
    refine seqAll_some fun k _ => ?_
    rw [inRounds_walk hr _ (by rw [Sig.tree_contains_eq]; exact hr) _ rfl rfl, hw]
    rfl
  simp only [Traverser.forEach, Traverser.forSections, Traverser.run, Traverser.top]
  rw [show (Struct.apply (inRounds s r l) []) = inRounds s r l from rfl, h1]
  simp only [Option.map_some, bind, Option.bind_some, List.map_flatMap, List.map_map]
  have hst : ∀ p ∈ ps, (Traverser.visit ⟨s, []⟩ p).state A = some (pathAt p) := fun p _ => stateAt_path s p
  rw [List.mapM_map, mapM_map (f := (fun t => Traverser.state A t) ∘ Traverser.visit ⟨s, []⟩) (g := pathAt) hst,
    Option.some.injEq] at hm
  subst hm
  have h2 : ∀ k : Nat, ((ps.map ((Traverser.mk (inRounds s r l) []).visit ∘ fun p => (r, Val.dyn k) :: p)).mapM
      fun t => t.state A) = some (ps.map fun p => (pathAt p).set (.idx r) (.dyn k)) := fun k => by
    rw [List.mapM_map]
    refine mapM_map fun p _ => ?_
    refine (stateAt_path _ _).trans ?_
    rfl
  generalize List.range n = ks
  induction ks with
  | nil => rfl
  | cons k ks ih =>
    simp only [List.flatMap_cons, List.mapM_append, h2, ih, List.map_map]
    rfl

/-- C84: in each round the elements are those of `s`, which ignores the number of the round. The size does not change. -/
theorem C84_elements (u : State) (hi : u (.idx r) = none) (hl : u (.len r) = none) (k : Val) :
    (inRounds s r l).place A (u.set (.idx r) k) = s.place A u ∧
    ((inRounds s r l).sem A).size (u.set (.idx r) k) = (s.sem A).size u ∧
    (s.tidy → ¬ s.names r → s.place A (u.set (.idx r) k) = s.place A u) := by
  have hs := inRounds_state (l := l) u hi hl k
  refine ⟨?_, ?_, fun ht hn => ?_⟩
  · simp [Struct.place, inRounds, Struct.apply, Struct.sem, View.sem, ViewSem.toSem, setLengthSem, bcastSem, hs]
  · simp [inRounds, Struct.apply, Struct.sem, View.sem, ViewSem.toSem, setLengthSem, bcastSem, hs]
  · have h : AgreeOn s.names (u.set (.idx r) k) u := by
      intro q hq
      have : q ≠ r := by rintro rfl; exact hn hq
      simp [State.set, this]
    obtain ⟨-, -, h3, h4, -⟩ := C71_only_own_dimensions A ht h
    simp only [Struct.place, h3, h4]

end

theorem Prog.bind_assoc {α β γ : Type} (p : Prog α) (f : α → Prog β) (g : β → Prog γ) :
    (p.bind f).bind g = p.bind fun a => (f a).bind g := by
  induction p with
  | done a => rfl
  | get x st k ih => simp only [Prog.bind, ih]
  | set x st v k ih => simp only [Prog.bind, ih]
  | length x d st k ih => simp only [Prog.bind, ih]

theorem Prog.each_append (body : State → Prog Unit) (a b : List State) :
    Prog.each body (a ++ b) = (Prog.each body a).bind fun _ => Prog.each body b := by
  induction a with
  | nil => rfl
  | cons st a ih => simp only [List.cons_append, Prog.each, ih, Prog.bind_assoc]

theorem Prog.each_map (body : State → Prog Unit) (f : State → State) (a : List State) :
    Prog.each body (a.map f) = Prog.each (fun u => body (f u)) a := by
  induction a with
  | nil => rfl
  | cons st a ih => simp only [List.map_cons, Prog.each, ih]

/-- One program after another, for the numbers from `a`, `n` times: `for(k = a; k < a + n; k++) p(k)`. -/
def Prog.times (p : Nat → Prog Unit) : Nat → Nat → Prog Unit
  | _, 0 => .done ()
  | a, n + 1 => (p a).bind fun _ => Prog.times p (a + 1) n

/-- C84: the loop over `s ^ bcast<r>(n)` is an ordinary loop with `n` rounds, in each of which there is a loop over `s`,
whose body gets the number of the round as the index in the dimension `r`. -/
theorem C84_loops {A : Arith} {s : Struct} {r : Dim} {l : Val} {n : Nat} (hl : l.Num n)
    (hr : (s.sem A).sig.anyAccept r = false) (body : State → Prog Unit) {sts : List State}
    (hs : (Traverser.mk s []).forEach A [] = some sts) :
    (Traverser.mk (inRounds s r l) []).forEachProg A body =
      some (Prog.times (fun k => Prog.each (fun u => body (u.set (.idx r) (.dyn k))) sts) 0 n) := by
  simp only [Traverser.forEachProg, C84_states hl hr hs, Option.map_some, Option.some.injEq, List.range_eq_range']
  generalize 0 = a
  induction n generalizing a l with
  | zero => rfl
  | succ n ih =>
    rw [List.range'_succ, List.flatMap_cons, Prog.each_append, Prog.each_map, Prog.times]
    congr 1
    funext _
    exact ih (l := .dyn n) rfl (a + 1)

theorem repeat_first {α : Type} (f : α → α) (n : Nat) (w : α) : Nat.repeat f n (f w) = Nat.repeat f (n + 1) w := by
  induction n with
  | zero => rfl
  | succ n ih => simp only [Nat.repeat] at ih ⊢; rw [ih]

open Classical in
theorem foldAt_round {r : Dim} (f : List UInt8 → List UInt8) {key : State → State} (k : Nat) (u : State) (sts : List State)
    (hnd : sts.Nodup) (hkey : ∀ u ∈ sts, key (u.set (.idx r) (.dyn k)) = u) (w : List UInt8) :
    foldAt (fun w (_ : Unit) => f w) key (fun _ => ()) u w (sts.map fun u => u.set (.idx r) (.dyn k)) =
      if u ∈ sts then f w else w := by
  induction sts generalizing w with
  | nil => simp [foldAt]
  | cons a sts ih =>
    rw [List.nodup_cons] at hnd
    have ih := ih hnd.2 fun u hu => hkey u (List.mem_cons_of_mem _ hu)
    simp only [foldAt, List.map_cons, List.foldl_cons, hkey a (List.mem_cons_self ..)] at ih ⊢
    rw [ih]
    by_cases h : a = u
    · subst h; simp [hnd.1]
    · have h' : u ≠ a := fun e => h e.symm
      simp [h, h']

open Classical in
theorem foldAt_rounds {r : Dim} (f : List UInt8 → List UInt8) {sts : List State} (hnd : sts.Nodup) {key : State → State}
    (hkey : ∀ u ∈ sts, ∀ k : Nat, key (u.set (.idx r) (.dyn k)) = u) (u : State) (ks : List Nat) (w : List UInt8) :
    foldAt (fun w (_ : Unit) => f w) key (fun _ => ()) u w (ks.flatMap fun k => sts.map fun u => u.set (.idx r) (.dyn k)) =
      if u ∈ sts then Nat.repeat f ks.length w else w := by
  induction ks generalizing w with
  | nil => simp [foldAt, Nat.repeat]
  | cons k ks ih =>
    have h1 := foldAt_round f k u sts hnd (fun u hu => hkey u hu k) w
    have h2 := ih (if u ∈ sts then f w else w)
    unfold foldAt at h1 h2 ⊢
    rw [List.flatMap_cons, List.foldl_append, h1, h2]
    split
    · exact repeat_first f _ w
    · rfl

/-- C84: `traverser(s ^ bcast<r>(n)).for_each([&](auto state) { bag[state] = f(bag[state]); })` applies `f` to every element
that `traverser(s)` visits `n` times, and leaves the other elements of the bag as they are. The bag need not have the
structure `s`, and does not have the dimension `r`. -/
theorem C84_repeat {I : Space} {s : Struct} {r : Dim} {l : Val} {n : Nat} (hl : l.Num n)
    (hr : (s.sem .ideal).sig.anyAccept r = false) (hro : I.own r = false) {sts : List State}
    (hs : (Traverser.mk s []).forEach .ideal [] = some sts) (hnd : sts.Nodup) (hat : ∀ u ∈ sts, I.At u u) (b : Bag)
    (hb : I.LaidOut b.structure_) (hbf : BagFor b.structure_ b) (f : List UInt8 → List UInt8)
    (hf : ∀ u, I.has u → ∀ w, w.length = I.size u → (f w).length = I.size u) :
    ∃ p B', (Traverser.mk (inRounds s r l) []).forEachProg .ideal
        (fun st => .get 0 st fun w => .set 0 st (f w) (.done ())) = some p ∧
      p.run .ideal (fun _ => b) = .ok ((), B') ∧ (B' 0).structure_ = b.structure_ ∧
      (∀ u ∈ sts, ∃ w, b.get .ideal u = .ok w ∧ (B' 0).get .ideal u = .ok (Nat.repeat f n w)) ∧
      ∀ u, I.has u → u ∉ sts → (B' 0).get .ideal u = b.get .ideal u := by
  classical
  let V : Arrays := fun _ u => (b.get .ideal u).toOption.getD []
  have hbv : ∀ u, I.has u → b.get .ideal u = .ok (V 0 u) := fun u hu => by
    obtain ⟨⟨v, h, -⟩, -⟩ := hb.access hbf hu
    simp only [V, h]; rfl
  have hB : BagsHold (fun _ => I) (fun _ => b) V := ⟨fun _ => hb, fun _ => hbf, fun _ u hu => hbv u hu⟩
  let key : State → State := fun st => st.only I.own
  have hkey : ∀ u ∈ sts, ∀ k : Nat, key (u.set (.idx r) (.dyn k)) = u := fun u hu k => by
    refine Eq.trans ?_ (hat u hu).1.symm
    funext t
    cases t with
    | len q => simp [key, State.only]
    | idx q =>
      by_cases hq : q = r
      · subst hq; simp [key, State.only, hro]
      · simp [key, State.only, State.set, hq]
  have hmem : ∀ st, st ∈ ((List.range n).flatMap fun k => sts.map fun u => u.set (.idx r) (.dyn k)) →
      ∃ u ∈ sts, ∃ k : Nat, st = u.set (.idx r) (.dyn k) := fun st h => by
    obtain ⟨k, -, h⟩ := List.mem_flatMap.1 h
    obtain ⟨u, hu, rfl⟩ := List.mem_map.1 h
    exact ⟨u, hu, k, rfl⟩
  obtain ⟨p, B', h1, h2, h3, h4⟩ := C73_accumulate (I := fun _ => I) (out := 0) (e := fun st => .done (st, ()))
    (op := fun w (_ : Unit) => f w) (key := key) (val := fun _ => ()) (Traverser.mk (inRounds s r l) []) _
    (C84_states hl hr hs) V
    (fun st hst V' _ => by
      obtain ⟨u, hu, k, rfl⟩ := hmem st hst
      refine ⟨_, ?_, .done⟩
      rw [hkey u hu k]
      refine ⟨(hkey u hu k).symm, (hat u hu).2.1, fun q => ?_⟩
      simpa [State.set] using (hat u hu).2.2 q)
    (fun st hst w hw => by
      obtain ⟨u, hu, k, rfl⟩ := hmem st hst
      rw [hkey u hu k] at hw ⊢
      exact hf u (hat u hu).2.1 w hw) (fun _ => b) hB
  have hval : ∀ u, I.has u → (B' 0).get .ideal u = .ok (if u ∈ sts then Nat.repeat f n (V 0 u) else V 0 u) := fun u hu => by
    rw [h4.value 0 u hu]
    simp only [Arrays.accumulated, if_true, foldAt_rounds f hnd hkey, List.length_range]
  refine ⟨p, B', h1, h2, h3 0, fun u hu => ⟨_, hbv u (hat u hu).2.1, ?_⟩, fun u hu hn => ?_⟩
  · rw [hval u (hat u hu).2.1, if_pos hu]
  · rw [hval u hu, if_neg hn, hbv u hu]

/-! ## Examples

The example of the documentation: `scalar<float>() ^ vector<'i'>(42)`, in five rounds `'r'`. -/

example : (Traverser.mk (inRounds (vectorOf 0 42 4) 1 (.dyn 5)) []).forEach .ideal [] =
    some ((List.range 5).flatMap fun k => ((List.range 42).map (atV 0)).map fun u => u.set (.idx 1) (.dyn k)) :=
  C84_states (l := .dyn 5) (n := 5) rfl rfl (vectorOf_forEach 0 42 4)

/-- "structure will ignore 'r'": the offset is that of the element, in every round. -/
example (i k : Nat) : (vectorOf 0 42 4).place .ideal ((atV 0 i).set (.idx 1) (.dyn k)) = .ok (i * 4, 4) := by
  have h := (C84_elements (A := .ideal) (s := vectorOf 0 42 4) (r := 1) (l := .dyn 5) (atV 0 i) rfl rfl (.dyn k)).2.2
    (by simp [vectorOf, Struct.apply, Struct.tidy]) (by simp [vectorOf, Struct.apply, Struct.names, View.names])
  rw [h, vectorOf_place]

/-- With a body that does something: every element is doubled five times (modulo 256). -/
example (m : Mem) (hm : m.length = 42) : ∃ p B', (Traverser.mk (inRounds (vectorOf 0 42 1) 1 (.dyn 5)) []).forEachProg .ideal
      (fun st => .get 0 st fun w => .set 0 st (w.map (2 * ·)) (.done ())) = some p ∧
    p.run .ideal (fun _ => ⟨vectorOf 0 42 1, m⟩) = .ok ((), B') ∧
    ∀ i, i < 42 → (B' 0).get .ideal (atV 0 i) = .ok (((m.drop i).take 1).map (32 * ·)) := by
  obtain ⟨p, B', h1, h2, -, h4, -⟩ := C84_repeat (I := .box [0] (fun _ => 42) 1) (s := vectorOf 0 42 1) (r := 1) (l := .dyn 5)
    (n := 5) rfl rfl rfl (vectorOf_forEach 0 42 1) (vector_nodup 0 42)
    (fun u hu => Space.box_self (mem_vector (N := fun _ => 42) |>.1 hu)) ⟨vectorOf 0 42 1, m⟩ (vectorOf_laidOut 0 (fun _ => 42) 1)
    (vectorOf_bagFor 0 42 1 m (by omega)) (fun w => w.map (2 * ·)) (fun _ _ w hw => by rw [List.length_map]; exact hw)
  refine ⟨p, B', h1, h2, fun i hi => ?_⟩
  obtain ⟨w, g1, g2⟩ := h4 (atV 0 i) (List.mem_map.2 ⟨i, List.mem_range.2 hi, rfl⟩)
  rw [vectorOf_get 0 42 1 i m (by omega) hi, Nat.mul_one] at g1
  cases g1
  rw [g2]
  simp only [Nat.repeat, List.map_map]
  refine congrArg Except.ok (congrArg (fun g => List.map g _) ?_)
  funext x
  simp only [Function.comp_apply, ← UInt8.mul_assoc]
  rw [show (2 * 2 * 2 * 2 * 2 : UInt8) = 32 from by decide]

end Noarr
