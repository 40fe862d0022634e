import Verif.Props.RenameBags

/-
C81: programs that use bags through views (docs/structs/slice.md, shift.md, step.md, fix.md; interop/bag.hpp:243-257).
-/

namespace Noarr

/-! ### Specification -/

/-- The state with another index in the dimension `d`. -/
def State.move (d : Dim) (f : Nat → Nat) (st : State) : State :=
  match st (.idx d) with
  | some (.dyn k) => st.set (.idx d) (.dyn (f k))
  | _ => st

/-- A view that selects some of the indices of the dimension `d`, which has the length `L`: it has `n` indices, and its index
`k` is the index `f k` of the structure. -/
inductive Shows (d : Dim) (L : Nat) : View → Nat → (Nat → Nat) → Prop
  | slice {a b : Val} {x n : Nat} : a.Num x → b.Num n → x + n ≤ L → Shows d L (.slice d a b) n fun k => k + x
  | span {a b : Val} {x y : Nat} : a.Num x → b.Num y → x ≤ y → y ≤ L → Shows d L (.span d a b) (y - x) fun k => k + x
  | shift {a : Val} {x : Nat} : a.Num x → x ≤ L → Shows d L (.shift d a) (L - x) fun k => k + x
  | step {a b : Val} {x y : Nat} : a.Num x → b.Num y → x < y →
      Shows d L (.step d a b) ((L + y - x - 1) / y) fun k => k * y + x
  | reverse : Shows d L (.reverse d) L fun k => L - 1 - k

/-- The program with other states: where it asks the bag `x` for the element at `st`, the new program asks for the one at
`f x st`. -/
def Prog.through {α : Type} (f : Nat → State → State) : Prog α → Prog α
  | .done a => .done a
  | .get x st k => .get x (f x st) fun v => (k v).through f
  | .set x st v k => .set x (f x st) v (k.through f)
  | .length x d st k => .length x d (f x st) fun n => (k n).through f

/-- The program asks only for the given elements and lengths. -/
def Prog.Asks {α : Type} (P : Nat → State → Prop) (Q : Nat → Dim → State → Prop) : Prog α → Prop
  | .done _ => True
  | .get x st k => P x st ∧ ∀ v, (k v).Asks P Q
  | .set x st _ k => P x st ∧ k.Asks P Q
  | .length x d st k => Q x d st ∧ ∀ n, (k n).Asks P Q

/-! ### Programs -/

theorem Bag.get_of_place {A : Arith} {s s' : Struct} {u u' : State} (h : s'.place A u = s.place A u') (m : Mem) :
    (Bag.mk s' m).get A u = (Bag.mk s m).get A u' := by
  simp only [Bag.get, Struct.getAt, h]

theorem Bag.set_of_place {A : Arith} {s s' : Struct} {u u' : State} (h : s'.place A u = s.place A u') (m : Mem)
    (v : List UInt8) : (Bag.mk s' m).set A u v = ((Bag.mk s m).set A u' v).map fun b => ⟨s', b.data⟩ := by
  simp only [Bag.set, Struct.setAt, h]
  cases s.place A u' with
  | error e => rfl
  | ok r =>
    obtain ⟨k, e⟩ := r
    simp only [Bind.bind, Except.bind]
    repeat' split
    all_goals first | rfl | simp_all [Except.map]

/-- C81: a program that uses views of bags does the same as the program that uses the bags with the translated states, if the
elements of the views are those of the bags at the translated states, and so are the lengths that the program asks for. -/
theorem C81_programs {A : Arith} {α : Type} (S S' : Nat → Struct) (f : Nat → State → State) (P : Nat → State → Prop)
    (Q : Nat → Dim → State → Prop) (hp : ∀ x u, P x u → (S' x).place A u = (S x).place A (f x u))
    (hq : ∀ x d u, Q x d u → ((S' x).sem A).len d u = ((S x).sem A).len d (f x u)) (p : Prog α) (hP : p.Asks P Q)
    (data : Nat → Mem) :
    p.run A (fun x => ⟨S' x, data x⟩) =
      ((p.through f).run A fun x => ⟨S x, data x⟩).map fun r => (r.1, fun x => ⟨S' x, (r.2 x).data⟩) := by
  induction p generalizing data with
  | done a => rfl
  | get x st k ih =>
    simp only [Prog.run, Prog.through, Bag.get_of_place (hp x st hP.1)]
    cases (Bag.mk (S x) (data x)).get A (f x st) with
    | error e => rfl
    | ok v => exact ih v (hP.2 v) data
  | set x st v k ih =>
    simp only [Prog.run, Prog.through, Bag.set_of_place (hp x st hP.1)]
    cases h : (Bag.mk (S x) (data x)).set A (f x st) v with
    | error e => rfl
    | ok b =>
      have hb : b.structure_ = S x := by
        simp only [Bag.set] at h
        cases hs : (S x).setAt A (data x) (f x st) v with
        | error e => rw [hs] at h; cases h
        | ok m => rw [hs] at h; cases h; rfl
      have e1 : (Bags.put (fun x => ⟨S' x, data x⟩) x ⟨S' x, b.data⟩) =
          fun y => ⟨S' y, if y = x then b.data else data y⟩ := by
        funext y
        by_cases hy : y = x
        · subst hy; simp [Bags.put]
        · simp [Bags.put, hy]
      have e2 : (Bags.put (fun x => ⟨S x, data x⟩) x b) = fun y => ⟨S y, if y = x then b.data else data y⟩ := by
        funext y
        by_cases hy : y = x
        · subst hy; simp [Bags.put, ← hb]
        · simp [Bags.put, hy]
      have := ih hP.2 fun y => if y = x then b.data else data y
      simp only [Except.map, Bind.bind, Except.bind] at this ⊢
      rw [e1, e2]
      exact this
  | length x d st k ih =>
    simp only [Prog.run, Prog.through, Bag.lengthAt, hq x d st hP.1]
    split
    · split
      · exact ih _ (hP.2 _) data
      · rfl
    · rfl

theorem Prog.through_bind {α β : Type} (f : Nat → State → State) (p : Prog α) (k : α → Prog β) :
    (p.bind k).through f = (p.through f).bind fun a => (k a).through f := by
  induction p with
  | done a => rfl
  | get x st c ih => simp only [Prog.bind, Prog.through, ih]
  | set x st v c ih => simp only [Prog.bind, Prog.through, ih]
  | length x d st c ih => simp only [Prog.bind, Prog.through, ih]

theorem Prog.through_each (f : Nat → State → State) (body : State → Prog Unit) (sts : List State) :
    (Prog.each body sts).through f = Prog.each (fun st => (body st).through f) sts := by
  induction sts with
  | nil => rfl
  | cons st sts ih => simp only [Prog.each, Prog.through_bind, ih]

theorem Prog.asks_bind {α β : Type} {P : Nat → State → Prop} {Q : Nat → Dim → State → Prop} {p : Prog α}
    {k : α → Prog β} (h : p.Asks P Q) (hk : ∀ a, (k a).Asks P Q) : (p.bind k).Asks P Q := by
  induction p with
  | done a => exact hk a
  | get x st c ih => exact ⟨h.1, fun v => ih v (h.2 v)⟩
  | set x st v c ih => exact ⟨h.1, ih h.2⟩
  | length x d st c ih => exact ⟨h.1, fun v => ih v (h.2 v)⟩

theorem Prog.asks_each {P : Nat → State → Prop} {Q : Nat → Dim → State → Prop} {body : State → Prog Unit} {sts : List State}
    (h : ∀ st ∈ sts, (body st).Asks P Q) : (Prog.each body sts).Asks P Q := by
  induction sts with
  | nil => trivial
  | cons st sts ih =>
    exact Prog.asks_bind (h st (List.mem_cons_self ..)) fun _ => ih fun s hs => h s (List.mem_cons_of_mem _ hs)

/-- C81: copying from one view to another, `for_each([&](auto state) { to_view[state] = from_view[state]; })`. The element of
`from_view` at a state is the element of `from` at `g`, that of `to_view` is the element of `to` at `h`. The elements of `to`
that the view shows get the values from `from`; all others keep theirs. -/
theorem C81_copy_through {I0 I1 : Space} (frm to : Bag) (sf st : Struct) (g h : State → State)
    (hf : I0.LaidOut frm.structure_) (hbf : BagFor frm.structure_ frm) (ht : I1.LaidOut to.structure_)
    (hbt : BagFor to.structure_ to) (t : Traverser) (sts : List State) (hs : t.forEach .ideal [] = some sts) (hnd : sts.Nodup)
    (pf : ∀ u ∈ sts, sf.place .ideal u = frm.structure_.place .ideal (g u))
    (pt : ∀ u ∈ sts, st.place .ideal u = to.structure_.place .ideal (h u)) (ag : ∀ u ∈ sts, I0.At (g u) (g u))
    (ah : ∀ u ∈ sts, I1.At (h u) (h u)) (hsize : ∀ u ∈ sts, I0.size (g u) = I1.size (h u))
    (hinj : ∀ u ∈ sts, ∀ u' ∈ sts, h u = h u' → u = u') :
    ∃ p B', t.forEachProg .ideal (assign 1 fun st => .get 0 st fun v => .done (st, v)) = some p ∧
      p.run .ideal (fun x => if x = 0 then ⟨sf, frm.data⟩ else ⟨st, to.data⟩) = .ok ((), B') ∧
      (B' 0).structure_ = sf ∧ (B' 1).structure_ = st ∧
      (∀ u ∈ sts, (Bag.mk to.structure_ (B' 1).data).get .ideal (h u) = frm.get .ideal (g u)) ∧
      (∀ u, I1.has u → (∀ w ∈ sts, h w ≠ u) → (Bag.mk to.structure_ (B' 1).data).get .ideal u = to.get .ideal u) ∧
      ∀ u, I0.has u → (Bag.mk frm.structure_ (B' 0).data).get .ideal u = frm.get .ideal u := by
  let I : Nat → Space := fun x => if x = 0 then I0 else I1
  let S : Nat → Struct := fun x => if x = 0 then frm.structure_ else to.structure_
  let S' : Nat → Struct := fun x => if x = 0 then sf else st
  let data : Nat → Mem := fun x => if x = 0 then frm.data else to.data
  let F : Nat → State → State := fun x => if x = 0 then g else h
  let B : Bags := fun x => ⟨S x, data x⟩
  have hL : ∀ x, (I x).LaidOut (B x).structure_ := by
    intro x
    by_cases hx : x = 0
    · simp only [I, B, S, hx, if_true]; exact hf
    · simp only [I, B, S, hx, if_false]; exact ht
  have hG : ∀ x, BagFor (B x).structure_ (B x) := by
    intro x
    by_cases hx : x = 0
    · simp only [B, S, data, hx, if_true]; exact hbf
    · simp only [B, S, data, hx, if_false]; exact hbt
  let V : Arrays := fun x u => match (B x).get .ideal u with
    | .ok v => v
    | .error _ => []
  have hB : BagsHold I B V := by
    refine ⟨hL, hG, fun x u hu => ?_⟩
    obtain ⟨⟨v, hv, -⟩, -⟩ := (hL x).access (hG x) hu
    simp only [V, hv]
  obtain ⟨p, B', V', h1, h2, h3, h4, h5, h6⟩ := C73_assign (I := I) (out := 1)
    (e := fun st => .get 0 (g st) fun v => .done (h st, v)) (key := h) (val := fun st => V 0 (g st)) t sts hs V
    (fun st hst V' hV' => ⟨h st, ah st hst, .get (g st) (ag st hst) (by rw [hV' 0 (by decide)]; exact .done)⟩)
    (fun st hst => (hB.length_eq (x := 0) (ag st hst).2.1).trans (hsize st hst))
    (hnd.imp_of_mem fun {a b} ha hb hab e => hab (hinj a ha b hb e)) B hB
  have hp : Prog.each (assign 1 fun st => .get 0 (g st) fun v => .done (h st, v)) sts = p := by
    simpa [Traverser.forEachProg, hs] using h1
  have hrun := C81_programs (A := .ideal) S S' F (fun _ u => u ∈ sts) (fun _ _ _ => False) (fun x u hu => by
      by_cases hx : x = 0
      · simp only [S, S', F, hx, if_true]; exact pf u hu
      · simp only [S, S', F, hx, if_false]; exact pt u hu)
    (fun _ _ _ h => h.elim) (Prog.each (assign 1 fun st => .get 0 st fun v => .done (st, v)) sts)
    (Prog.asks_each fun u hu => ⟨hu, fun _ => ⟨hu, trivial⟩⟩) data
  rw [Prog.through_each] at hrun
  have e1 : (fun st : State => (assign 1 (fun st => .get 0 st fun v => .done (st, v)) st).through F) =
      assign 1 fun st => .get 0 (g st) fun v => .done (h st, v) := rfl
  rw [e1, hp, h2] at hrun
  have hb : ∀ x, Bag.mk (S x) (B' x).data = B' x := fun x => by
    have := h3 x
    show Bag.mk (B x).structure_ (B' x).data = B' x
    rw [← this]
  refine ⟨_, fun x => ⟨S' x, (B' x).data⟩, by rw [Traverser.forEachProg, hs]; rfl, ?_, rfl, rfl, fun u hu => ?_, fun u hu hw => ?_,
    fun u hu => ?_⟩
  · refine Eq.trans ?_ hrun
    congr 1
    funext x
    by_cases hx : x = 0 <;> simp [S', data, hx]
  · show (Bag.mk (S 1) (B' 1).data).get .ideal (h u) = (B 0).get .ideal (g u)
    rw [hb 1, h4.value 1 _ (ah u hu).2.1, hB.value 0 _ (ag u hu).2.1, h5 u hu]
  · show (Bag.mk (S 1) (B' 1).data).get .ideal u = (B 1).get .ideal u
    rw [hb 1, h4.value 1 _ hu, hB.value 1 _ hu, h6 1 u (.inr hw)]
  · show (Bag.mk (S 0) (B' 0).data).get .ideal u = (B 0).get .ideal u
    rw [hb 0, h4.value 0 _ hu, hB.value 0 _ hu, h6 0 u (.inl (by decide))]

/-! ### Parts of a bag -/

/-- C81: the indices of the view are different indices of the structure. -/
theorem C81_indices {d : Dim} {L : Nat} {v : View} {n : Nat} {f : Nat → Nat} (h : Shows d L v n f) :
    (∀ k, k < n → f k < L) ∧ ∀ k k', k < n → k' < n → f k = f k' → k = k' := by
  cases h with
  | slice _ _ h => exact ⟨fun k hk => by dsimp only; omega, fun k k' _ _ e => by dsimp only at e; omega⟩
  | span _ _ h h' => exact ⟨fun k hk => by dsimp only; omega, fun k k' _ _ e => by dsimp only at e; omega⟩
  | shift _ h => exact ⟨fun k hk => by dsimp only; omega, fun k k' _ _ e => by dsimp only at e; omega⟩
  | @step a b x y _ _ h =>
    refine ⟨fun k hk => ?_, fun k k' _ _ e => ?_⟩
    · have : (k + 1) * y ≤ L + y - x - 1 := (Nat.le_div_iff_mul_le (by omega)).1 hk
      rw [Nat.add_mul] at this
      dsimp only
      omega
    · exact Nat.eq_of_mul_eq_mul_right (by omega) (Nat.add_right_cancel e)
  | reverse => exact ⟨fun k hk => by dsimp only; omega, fun k k' _ _ e => by dsimp only at e; omega⟩

theorem State.move_eq {d : Dim} {f : Nat → Nat} {st : State} {k : Nat} (h : st (.idx d) = some (.dyn k)) :
    st.move d f = st.set (.idx d) (.dyn (f k)) := by
  simp only [State.move, h]

theorem State.mapAt_set' {st : State} {t : Tag} {g : Val → Val} {v : Val} (h : st t = some v) :
    st.mapAt t g = st.set t (g v) := by
  funext t'
  by_cases ht : t' = t <;> simp [State.mapAt, State.set, ht, h]

theorem Val.dyn_add_num {a : Val} {x : Nat} (h : a.Num x) (k : Nat) : (Val.dyn k).add .ideal a = .dyn (k + x) := by
  rcases Val.nat?_eq_some.1 h with rfl | rfl <;> simp [Val.add, Arith.ideal, Val.ofDyn]

theorem Val.dyn_mul_num {a : Val} {x : Nat} (h : a.Num x) (hx : x ≠ 0) (k : Nat) :
    (Val.dyn k).mul .ideal a = .dyn (k * x) := by
  rcases Val.nat?_eq_some.1 h with rfl | rfl <;> simp [Val.mul, Arith.ideal, Val.ofDyn, hx]

theorem Val.sub_dyn_num {a : Val} {x : Nat} (h : a.Num x) {k : Nat} (hk : k ≤ x) : a.sub .ideal (.dyn k) = .dyn (x - k) := by
  rcases Val.nat?_eq_some.1 h with rfl | rfl <;> simp [Val.sub, Arith.ideal, Val.ofDyn, hk]

/-- C81: the element of the view is the element of the structure at the other index. The structure has a length in the
dimension, whatever the other indices are. -/
theorem C81_element {s : Struct} {d : Dim} {L : Nat} {v : View} {n : Nat} {f : Nat → Nat} (h : Shows d L v n f) {st : State}
    {k : Nat} (hk : k < n) (hi : st (.idx d) = some (.dyn k)) (hl : st (.len d) = none)
    (hL : (s.sem .ideal).HasLength d (st.remove (.idx d)) L) :
    (Struct.view v s).place .ideal st = s.place .ideal (st.move d f) := by
  have key : ∀ V : ViewSem, v.sem .ideal (s.sem .ideal) = V → V.offOk st = true → V.sub st = some (st.move d f) →
      (Struct.view v s).place .ideal st = s.place .ideal (st.move d f) := by
    intro V hV h1 h2
    simp only [Struct.place, Struct.sem, hV, ViewSem.toSem, h1, h2, if_true, Option.bind_some]
  cases h with
  | slice ha _ _ =>
    refine key _ rfl rfl ?_
    simp only [View.sem, sliceSem, State.mapAt_set' hi, State.move_eq hi, Val.dyn_add_num ha]
  | span ha _ _ _ =>
    refine key _ rfl rfl ?_
    simp only [View.sem, spanSem, State.mapAt_set' hi, State.move_eq hi, Val.dyn_add_num ha]
  | shift ha _ =>
    refine key _ rfl rfl ?_
    simp only [View.sem, shiftSem, State.mapAt_set' hi, State.move_eq hi, Val.dyn_add_num ha]
    rw [State.mapAt_absent]
    simp [State.set, hl]
  | step ha hb hxy =>
    refine key _ rfl rfl ?_
    simp only [View.sem, stepSem, State.mapAt_set' hi, State.move_eq hi, Val.dyn_mul_num hb (Nat.ne_zero_of_lt hxy), Val.dyn_add_num ha]
  | reverse =>
    refine key _ rfl rfl ?_
    obtain ⟨l, h1, h2⟩ := hL
    have h4 : (l.sub .ideal (.lit 1)).Num (L - 1) := Val.nat?_sub.2 ⟨L, 1, h2, rfl, by omega, rfl⟩
    simp only [View.sem, reverseSem, hi, Struct.hasLen_of_len h1, h1, bind, Option.bind_some, State.move_eq hi,
      Val.sub_dyn_num h4 (show k ≤ L - 1 by omega)]
    congr 1
    funext t
    by_cases ht : t = .idx d <;> simp [State.set, State.remove, ht]

theorem Sig.flat_replace' {R : Sig → Sig} {d : Dim} {S : Sig} (h : S.flat) (hR : ∀ l r, ∃ n, R (.fn d l r) = .fn d n r) :
    (S.replace R [d]).flat ∧ (S.uniq → (S.replace R [d]).uniq) ∧ ∀ q, (S.replace R [d]).anyAccept q = S.anyAccept q := by
  induction S with
  | scalar s => exact ⟨trivial, fun _ => trivial, fun _ => rfl⟩
  | void => exact absurd h id
  | ill => exact absurd h id
  | dep => exact absurd h id
  | fn e l r ih =>
    obtain ⟨h1, h2, h3⟩ := ih h
    by_cases he : e = d
    · subst he
      obtain ⟨n, hn⟩ := hR l r
      simp only [Sig.replace, List.mem_singleton, if_true, hn]
      exact ⟨h, fun hu => hu, fun q => rfl⟩
    · simp only [Sig.replace, List.mem_singleton, he, if_false]
      exact ⟨h1, fun hu => ⟨by rw [h3]; exact hu.1, h2 hu.2⟩, fun q => by simp only [Sig.anyAccept, h3]⟩

/-- C81: a view of a structure without tuples has the length `n` in the dimension, and all the other lengths stay. -/
theorem C81_lengths {s : Struct} {N : Dim → Nat} {d : Dim} {v : View} {n : Nat} {f : Nat → Nat} (h : Shows d (N d) v n f)
    (hf : (s.sem .ideal).sig.flat) (hu : (s.sem .ideal).sig.uniq) (hN : HasLengths (s.sem .ideal) N)
    (hd : (s.sem .ideal).sig.anyAccept d = true) :
    ((Struct.view v s).sem .ideal).sig.flat ∧ ((Struct.view v s).sem .ideal).sig.uniq ∧
    (∀ q, ((Struct.view v s).sem .ideal).sig.anyAccept q = (s.sem .ideal).sig.anyAccept q) ∧
    HasLengths ((Struct.view v s).sem .ideal) fun q => if q = d then n else N q := by
  have key : ∀ R : Sig → Sig, ((Struct.view v s).sem .ideal).sig = (s.sem .ideal).sig.replace R [d] →
      (∀ l r, ∃ n, R (.fn d l r) = .fn d n r) →
      (∀ q, (s.sem .ideal).sig.anyAccept q = true → ∀ st : State, (∀ e, st (.len e) = none) → st (.idx q) = none →
        ∃ l, ((Struct.view v s).sem .ideal).len q st = some l ∧ l.Num (if q = d then n else N q)) →
      ((Struct.view v s).sem .ideal).sig.flat ∧ ((Struct.view v s).sem .ideal).sig.uniq ∧
      (∀ q, ((Struct.view v s).sem .ideal).sig.anyAccept q = (s.sem .ideal).sig.anyAccept q) ∧
      HasLengths ((Struct.view v s).sem .ideal) fun q => if q = d then n else N q := by
    intro R h1 h2 h3
    obtain ⟨g1, g2, g3⟩ := Sig.flat_replace' hf h2
    rw [h1]
    refine ⟨g1, g2 hu, g3, fun q hq => h3 q ?_⟩
    rwa [h1, g3] at hq
  have hm : ∀ (q : Dim) (st : State) (F : Val → Val), (∀ e, st (.len e) = none) → st (.idx q) = none →
      (∀ e, (st.mapAt (.idx d) F) (.len e) = none) ∧ (st.mapAt (.idx d) F) (.idx q) = none := by
    intro q st F hl hi
    refine ⟨fun e => by simpa [State.mapAt] using hl e, ?_⟩
    by_cases he : q = d
    · subst he; simp [State.mapAt, hi]
    · simp [State.mapAt, he, hi]
  cases h with
  | @slice a b x n ha hb _ =>
    refine key (Sig.sliceRepl a b) rfl (fun _ _ => ⟨_, rfl⟩) fun q hq st hl hi => ?_
    obtain ⟨e1, e2⟩ := hm q st (·.add .ideal a) hl hi
    obtain ⟨l, h1, h2⟩ := hN q hq _ e1 e2
    simp only [Struct.sem, View.sem, ViewSem.toSem, sliceSem, guardLen, Struct.hasLen_of_len h1, h1, if_true]
    by_cases he : q = d
    · simp only [he, if_true]; exact ⟨b, rfl, hb⟩
    · simp only [he, if_false]; exact ⟨l, rfl, h2⟩
  | @span a b x y ha hb hxy _ =>
    refine key (Sig.spanRepl a b) rfl (fun _ _ => ⟨_, rfl⟩) fun q hq st hl hi => ?_
    obtain ⟨e1, e2⟩ := hm q st (·.add .ideal a) hl hi
    obtain ⟨l, h1, h2⟩ := hN q hq _ e1 e2
    simp only [Struct.sem, View.sem, ViewSem.toSem, spanSem, guardLen, Struct.hasLen_of_len h1, h1, if_true]
    by_cases he : q = d
    · simp only [he, if_true]; exact ⟨_, rfl, Val.nat?_sub.2 ⟨y, x, hb, ha, hxy, rfl⟩⟩
    · simp only [he, if_false]; exact ⟨l, rfl, h2⟩
  | @shift a x ha hx =>
    refine key (Sig.shiftRepl a) rfl (fun _ _ => ⟨_, rfl⟩) fun q hq st hl hi => ?_
    obtain ⟨e1, e2⟩ := hm q st (·.add .ideal a) hl hi
    obtain ⟨l, h1, h2⟩ := hN q hq _ e1 e2
    have hs : (st.mapAt (.idx d) (·.add .ideal a)).mapAt (.len d) (·.add .ideal a) = st.mapAt (.idx d) (·.add .ideal a) :=
      State.mapAt_absent _ _ _ (e1 d)
    simp only [Struct.sem, View.sem, ViewSem.toSem, shiftSem, hs, guardLen, State.has, hl d, Option.isSome_none,
      Bool.false_eq_true, if_false]
    by_cases he : q = d
    · subst he
      simp only [if_true, Struct.hasLen_of_len h1, h1, bind, Option.bind_some]
      exact ⟨_, rfl, Val.nat?_sub.2 ⟨_, x, h2, ha, hx, rfl⟩⟩
    · simp only [he, if_false, Struct.hasLen_of_len h1, h1]; exact ⟨l, rfl, h2⟩
  | @step a b x y ha hb hxy =>
    refine key (Sig.stepRepl a b) rfl (fun _ _ => ⟨_, rfl⟩) fun q hq st hl hi => ?_
    obtain ⟨e1, e2⟩ := hm q st (fun i => (i.mul .ideal b).add .ideal a) hl hi
    obtain ⟨l, h1, h2⟩ := hN q hq _ e1 e2
    simp only [Struct.sem, View.sem, ViewSem.toSem, stepSem, guardLen, Struct.hasLen_of_len h1, h1, if_true]
    by_cases he : q = d
    · subst he
      obtain ⟨l', h1', h2'⟩ := hN q hq st hl hi
      simp only [if_true, h1', bind, Option.bind_some]
      refine ⟨_, rfl, Val.nat?_div.2 ⟨_, y, Val.nat?_sub.2 ⟨_, 1, Val.nat?_sub.2 ⟨_, x, Val.nat?_add.2 ⟨_, y, h2', hb, rfl⟩, ha,
        ?_, rfl⟩, rfl, ?_, rfl⟩, hb, ?_, rfl⟩⟩ <;> omega
    · simp only [he, if_false]; exact ⟨l, rfl, h2⟩
  | reverse =>
    refine key Sig.reverseRepl rfl (fun l _ => ⟨l, rfl⟩) fun q hq st hl hi => ?_
    obtain ⟨l, h1, h2⟩ := hN q hq st hl hi
    refine ⟨l, ?_, by by_cases he : q = d <;> simpa [he] using h2⟩
    simp only [Struct.sem, View.sem, ViewSem.toSem, reverseSem]
    cases hd' : st (.idx d) with
    | none => simp only [Option.bind_some, guardLen, Struct.hasLen_of_len h1, h1]
    | some i =>
      have e1 : ∀ e, (st.remove (.idx d)) (.len e) = none := fun e => by simpa [State.remove] using hl e
      obtain ⟨l', h1', h2'⟩ := hN d hd (st.remove (.idx d)) e1 (by simp [State.remove])
      have hqd : q ≠ d := fun e => by subst e; rw [hi] at hd'; cases hd'
      obtain ⟨l'', h1'', -⟩ := hN q hq ((st.remove (.idx d)).set (.idx d) ((l'.sub .ideal (.lit 1)).sub .ideal i))
        (fun e => by simpa [State.set, State.remove] using hl e) (by simp [State.set, State.remove, hqd, hi])
      simp only [Struct.hasLen_of_len h1', h1', bind, Option.bind_some, guardLen, Struct.hasLen_of_len h1'', h1]

theorem OnBox.move {ds : List Dim} {N : Dim → Nat} {d : Dim} (hd : d ∈ ds) {n : Nat} {f : Nat → Nat}
    (hf : ∀ k, k < n → f k < N d) {u : State} (hu : OnBox (· ∈ ds) (fun q => if q = d then n else N q) u) :
    OnBox (· ∈ ds) N (u.move d f) := by
  obtain ⟨k, hk, hi⟩ := hu.ok d hd
  simp only [if_true] at hk
  rw [State.move_eq hi]
  refine ⟨fun q hq => ?_, fun q hq => ?_, fun q => by simp [State.set, hu.noLen]⟩
  · by_cases he : q = d
    · subst he; exact ⟨f k, hf k hk, by simp [State.set]⟩
    · obtain ⟨k', h1, h2⟩ := hu.ok q hq
      exact ⟨k', by simpa [he] using h1, by simp [State.set, he, h2]⟩
  · have he : q ≠ d := fun e => hq (e ▸ hd)
    simp [State.set, he, hu.only q hq]

theorem OnBox.move_inj {ds : List Dim} {N : Dim → Nat} {d : Dim} (hd : d ∈ ds) {f : Nat → Nat}
    (hf : ∀ k k', k < N d → k' < N d → f k = f k' → k = k') {u u' : State} (hu : OnBox (· ∈ ds) N u)
    (hu' : OnBox (· ∈ ds) N u') (h : u.move d f = u'.move d f) : u = u' := by
  obtain ⟨k, hk, hi⟩ := hu.ok d hd
  obtain ⟨k', hk', hi'⟩ := hu'.ok d hd
  rw [State.move_eq hi, State.move_eq hi'] at h
  funext t
  have ht := congrFun h t
  by_cases he : t = .idx d
  · subst he
    simp only [State.set, if_true, Option.some.injEq, Val.dyn.injEq] at ht
    rw [hi, hi', hf k k' hk hk' ht]
  · simpa [State.set, he] using ht

/-- C81: copying a part of one bag to a part of another one, `traverser(to_part).for_each([&](auto state) { to_part[state] =
from_part[state]; })`, where the parts are views of the bags made by `slice`, `span`, `shift`, `step` or `reverse` in the
dimension `d`, and have the same number of indices there. The index `k` of the parts is the index `f k` of `from` and the
index `g k` of `to`. All other elements of `to`, and those of `from`, keep their values. -/
theorem C81_copy_part {ds : List Dim} {N M : Dim → Nat} {e : Nat} {d : Dim} (hd : d ∈ ds) (hNM : ∀ q, q ≠ d → N q = M q)
    (frm to : Bag) (hf : (Space.box ds N e).LaidOut frm.structure_) (hbf : BagFor frm.structure_ frm)
    (ht : (Space.box ds M e).LaidOut to.structure_) (hbt : BagFor to.structure_ to)
    (hlf : HasLengths (frm.structure_.sem .ideal) N) (hlt : HasLengths (to.structure_.sem .ideal) M)
    (hff : (to.structure_.sem .ideal).sig.flat) (hut : (to.structure_.sem .ideal).sig.uniq)
    (hdf : (frm.structure_.sem .ideal).sig.anyAccept d = true)
    (hdt : ∀ q, (to.structure_.sem .ideal).sig.anyAccept q = true ↔ q ∈ ds) {vf vt : View} {n : Nat} {f g : Nat → Nat}
    (wf : Shows d (N d) vf n f) (wt : Shows d (M d) vt n g) :
    ∃ p B', (Traverser.mk (to.apply [vt]).structure_ []).forEachProg .ideal
        (assign 1 fun st => .get 0 st fun v => .done (st, v)) = some p ∧
      p.run .ideal (fun x => if x = 0 then frm.apply [vf] else to.apply [vt]) = .ok ((), B') ∧
      (B' 0).structure_ = (frm.apply [vf]).structure_ ∧ (B' 1).structure_ = (to.apply [vt]).structure_ ∧
      (∀ u, OnBox (· ∈ ds) (fun q => if q = d then n else M q) u →
        (Bag.mk to.structure_ (B' 1).data).get .ideal (u.move d g) = frm.get .ideal (u.move d f)) ∧
      (∀ u, OnBox (· ∈ ds) M u → (∀ k, k < n → u (.idx d) ≠ some (.dyn (g k))) →
        (Bag.mk to.structure_ (B' 1).data).get .ideal u = to.get .ideal u) ∧
      ∀ u, OnBox (· ∈ ds) N u → (Bag.mk frm.structure_ (B' 0).data).get .ideal u = frm.get .ideal u := by
  obtain ⟨e1, e2, e3, e4⟩ := C81_lengths wt hff hut hlt ((hdt d).2 hd)
  obtain ⟨sts, hs, hnd, -, hmem⟩ := forEach_flat e1 e2 e4
  have hmem' : ∀ u, u ∈ sts ↔ OnBox (· ∈ ds) (fun q => if q = d then n else M q) u := fun u =>
    (hmem u).trans (OnBox.congr (fun q => by rw [e3]; exact hdt q) fun _ _ => rfl)
  have hmemN : ∀ u ∈ sts, OnBox (· ∈ ds) (fun q => if q = d then n else N q) u := fun u hu =>
    (OnBox.congr (fun q => Iff.rfl) fun q _ => by
      by_cases h : q = d
      · simp [h]
      · simp [h, hNM q h]).1 ((hmem' u).1 hu)
  obtain ⟨if1, -⟩ := C81_indices wf
  obtain ⟨it1, it2⟩ := C81_indices wt
  have bf : ∀ u ∈ sts, OnBox (· ∈ ds) N (u.move d f) := fun u hu => (hmemN u hu).move hd if1
  have bt : ∀ u ∈ sts, OnBox (· ∈ ds) M (u.move d g) := fun u hu => ((hmem' u).1 hu).move hd it1
  have idx : ∀ u ∈ sts, ∃ k, k < n ∧ u (.idx d) = some (.dyn k) := fun u hu => by
    obtain ⟨k, h1, h2⟩ := ((hmem' u).1 hu).ok d hd
    exact ⟨k, by simpa using h1, h2⟩
  have rem : ∀ u ∈ sts, (∀ e, (u.remove (.idx d)) (.len e) = none) ∧ (u.remove (.idx d)) (.idx d) = none := fun u hu =>
    ⟨fun e => by simpa [State.remove] using ((hmem' u).1 hu).noLen e, by simp [State.remove]⟩
  obtain ⟨p, B', h1, h2, h3, h4, h5, h6, h7⟩ := C81_copy_through frm to (frm.apply [vf]).structure_ (to.apply [vt]).structure_
    (fun u => u.move d f) (fun u => u.move d g) hf hbf ht hbt (Traverser.mk (to.apply [vt]).structure_ []) sts hs hnd
    (fun u hu => by
      obtain ⟨k, hk, hi⟩ := idx u hu
      exact C81_element wf hk hi (((hmem' u).1 hu).noLen d) (hlf d hdf _ (rem u hu).1 (rem u hu).2))
    (fun u hu => by
      obtain ⟨k, hk, hi⟩ := idx u hu
      exact C81_element wt hk hi (((hmem' u).1 hu).noLen d) (hlt d ((hdt d).2 hd) _ (rem u hu).1 (rem u hu).2))
    (fun u hu => Space.box_self (bf u hu)) (fun u hu => Space.box_self (bt u hu)) (fun _ _ => rfl)
    (fun u hu u' hu' h => ((hmem' u).1 hu).move_inj hd (by simpa using it2) ((hmem' u').1 hu') h)
  refine ⟨p, B', h1, ?_, h3, h4, fun u hu => h5 u ((hmem' u).2 hu), fun u hu hw => h6 u hu fun w hw' h => ?_, h7⟩
  · refine Eq.trans ?_ h2
    congr 1
  · obtain ⟨k, hk, hi⟩ := idx w hw'
    refine hw k hk ?_
    rw [← h, State.move_eq hi]
    simp [State.set]

/-- C81: assigning a vector to a row of a matrix, `traverser(v).for_each([&](auto state) { row[state] = v[state]; })`, where
`row` is `matrix ^ fix<'i'>(r)` (docs/structs/fix.md). The elements of the row get the values of the vector, all the other
rows keep theirs. -/
theorem C81_assign_row {i j : Dim} (hij : i ≠ j) {n m e : Nat} (frm to : Bag)
    (hf : (Space.box [j] (fun _ => m) e).LaidOut frm.structure_) (hbf : BagFor frm.structure_ frm)
    (ht : (Space.box [i, j] (fun q => if q = i then n else m) e).LaidOut to.structure_) (hbt : BagFor to.structure_ to)
    (r : Nat) (hr : r < n) (t : Traverser) (sts : List State) (hs : t.forEach .ideal [] = some sts) (hnd : sts.Nodup)
    (hsts : ∀ u, u ∈ sts ↔ OnBox (· ∈ [j]) (fun _ => m) u) :
    ∃ p B', t.forEachProg .ideal (assign 1 fun st => .get 0 st fun v => .done (st, v)) = some p ∧
      p.run .ideal (fun x => if x = 0 then frm else to.apply [.fix i (.dyn r)]) = .ok ((), B') ∧
      (B' 0).structure_ = frm.structure_ ∧ (B' 1).structure_ = (to.apply [.fix i (.dyn r)]).structure_ ∧
      (∀ k, k < m → (Bag.mk to.structure_ (B' 1).data).get .ideal (atNM i j r k) = frm.get .ideal (atV j k)) ∧
      (∀ x k, x < n → k < m → x ≠ r →
        (Bag.mk to.structure_ (B' 1).data).get .ideal (atNM i j x k) = to.get .ideal (atNM i j x k)) ∧
      ∀ k, k < m → (Bag.mk frm.structure_ (B' 0).data).get .ideal (atV j k) = frm.get .ideal (atV j k) := by
  have hst : ∀ u ∈ sts, ∃ k, k < m ∧ u = atV j k := fun u hu => by
    obtain ⟨k, h1, h2⟩ := ((hsts u).1 hu).ok j (by simp)
    refine ⟨k, h1, ?_⟩
    funext t
    cases t with
    | len q => rw [((hsts u).1 hu).noLen]; simp [atV, State.set, State.empty]
    | idx q =>
      by_cases hq : q = j
      · subst hq; simp [h2, atV, State.set]
      · rw [((hsts u).1 hu).only q (by simpa using hq)]; simp [atV, State.set, State.empty, hq]
  have hset : ∀ x k, (atV j k).set (.idx i) (.dyn x) = atNM i j x k := fun x k => by
    funext t
    cases t <;> simp [atV, atNM, State.withAll, State.set, State.empty] <;> grind
  have hbox : ∀ x k, x < n → k < m → OnBox (· ∈ [i, j]) (fun q => if q = i then n else m) (atNM i j x k) := fun x k hx hk =>
    atNM_onBox hij (by simpa using hx) (by simpa [Ne.symm hij] using hk)
  obtain ⟨p, B', h1, h2, h3, h4, h5, h6, h7⟩ := C81_copy_through frm to frm.structure_ (to.apply [.fix i (.dyn r)]).structure_
    id (fun u => u.set (.idx i) (.dyn r)) hf hbf ht hbt t sts hs hnd (fun _ _ => rfl)
    (fun u hu => by
      have : (u.remove (.len i)).set (.idx i) (.dyn r) = u.set (.idx i) (.dyn r) := by
        rw [State.remove_absent _ _ (((hsts u).1 hu).noLen i)]
      simp [Bag.apply, Struct.apply, Struct.place, Struct.sem, ViewSem.toSem, View.sem, fixSem, this])
    (fun u hu => Space.box_self ((hsts u).1 hu))
    (fun u hu => by
      obtain ⟨k, hk, rfl⟩ := hst u hu
      rw [hset]; exact Space.box_self (hbox r k hr hk))
    (fun _ _ => rfl)
    (fun u hu u' hu' h => by
      obtain ⟨k, hk, rfl⟩ := hst u hu
      obtain ⟨k', hk', rfl⟩ := hst u' hu'
      have := congrFun h (.idx j)
      simp [State.set, atV, Ne.symm hij] at this
      rw [this])
  refine ⟨p, B', h1, ?_, h3, h4, fun k hk => ?_, fun x k hx hk hne => h6 _ (hbox x k hx hk) fun w hw h => ?_,
    fun k hk => h7 _ (atV_box hk)⟩
  · refine Eq.trans ?_ h2
    congr 1
  · have := h5 (atV j k) ((hsts _).2 (atV_box hk))
    simpa only [hset, id] using this
  · obtain ⟨k', hk', rfl⟩ := hst w hw
    rw [hset] at h
    have := congrFun h (.idx i)
    simp [atNM, State.withAll, State.set, hij] at this
    exact hne this.symm

/-! ### Examples -/

theorem vectorOf_bagFor (d n e : Nat) (m : Mem) (hm : m.length = n * e) : BagFor (vectorOf d n e) ⟨vectorOf d n e, m⟩ := by
  refine ⟨rfl, fun w M hw hM => ?_⟩
  obtain ⟨w', h1, h2⟩ := vectorOf_size d n e
  cases h1.symm.trans hw
  have : n * e = M := by simpa [Val.Num] using (h2.symm.trans hM)
  rw [← this, hm]
  exact Nat.le_refl _

theorem move_atV (d : Dim) (f : Nat → Nat) (k : Nat) : (atV d k).move d f = atV d (f k) := by
  rw [State.move_eq (k := k) (by simp [atV, State.set])]
  funext t
  by_cases h : t = .idx d <;> simp [atV, State.set, h]

/-- The elements 1, 3, 5, 7 and 9 of a vector with 10 elements, copied to the elements 2 to 6 of a vector with 7. -/
example (xs ys : Mem) (hxs : xs.length = 10 * 4) (hys : ys.length = 7 * 4) :
    ∃ p B', (Traverser.mk (.view (.slice 0 (.lit 2) (.lit 5)) (vectorOf 0 7 4)) []).forEachProg .ideal
        (assign 1 fun st => .get 0 st fun v => .done (st, v)) = some p ∧
      p.run .ideal (fun x => if x = 0 then (Bag.mk (vectorOf 0 10 4) xs).apply [.step 0 (.lit 1) (.lit 2)] else
        (Bag.mk (vectorOf 0 7 4) ys).apply [.slice 0 (.lit 2) (.lit 5)]) = .ok ((), B') ∧
      (∀ k, k < 5 → (Bag.mk (vectorOf 0 7 4) (B' 1).data).get .ideal (atV 0 (k + 2)) =
        (Bag.mk (vectorOf 0 10 4) xs).get .ideal (atV 0 (k * 2 + 1))) ∧
      ∀ k, k < 2 → (Bag.mk (vectorOf 0 7 4) (B' 1).data).get .ideal (atV 0 k) = (Bag.mk (vectorOf 0 7 4) ys).get .ideal (atV 0 k) := by
  obtain ⟨p, B', h1, h2, -, -, h3, h4, -⟩ := C81_copy_part (ds := [0]) (N := fun q => if q = 0 then 10 else 0)
    (M := fun q => if q = 0 then 7 else 0) (d := 0) (by simp) (by intro q hq; simp [hq]) ⟨vectorOf 0 10 4, xs⟩ ⟨vectorOf 0 7 4, ys⟩
    (vectorOf_laidOut 0 (fun q => if q = 0 then 10 else 0) 4) (vectorOf_bagFor 0 10 4 xs hxs)
    (vectorOf_laidOut 0 (fun q => if q = 0 then 7 else 0) 4) (vectorOf_bagFor 0 7 4 ys hys)
    (fun q hq st h h' => by
      have : q = 0 := by simp [vectorOf_sig, Sig.anyAccept] at hq; grind
      simpa [this] using vectorOf_lengths 0 10 4 q hq st h h')
    (fun q hq st h h' => by
      have : q = 0 := by simp [vectorOf_sig, Sig.anyAccept] at hq; grind
      simpa [this] using vectorOf_lengths 0 7 4 q hq st h h')
    (by rw [vectorOf_sig]; trivial) (by rw [vectorOf_sig]; exact ⟨rfl, trivial⟩) (by simp [vectorOf_sig, Sig.anyAccept])
    (fun q => by simp [vectorOf_sig, Sig.anyAccept]; grind) (.step (a := .lit 1) (b := .lit 2) rfl rfl (by decide))
    (.slice (a := .lit 2) (b := .lit 5) rfl rfl (by decide))
  refine ⟨p, B', h1, h2, fun k hk => ?_, fun k hk => h4 _ (atV_box (by simp; omega)) fun k' _ e => ?_⟩
  · have := h3 (atV 0 k) (atV_box (by simpa using hk))
    rwa [move_atV, move_atV] at this
  · simp [atV, State.set] at e
    omega

/-- A vector is assigned to the row 1 of a matrix with 2 x 3 elements that is stored by columns. -/
example (v m : Mem) (hv : v.length = 3 * 4) (hm : m.length = 24) :
    ∃ p B', (Traverser.mk (vectorOf 1 3 4) []).forEachProg .ideal (assign 1 fun st => .get 0 st fun v => .done (st, v)) = some p ∧
      p.run .ideal (fun x => if x = 0 then ⟨vectorOf 1 3 4, v⟩ else (Bag.mk (matrixColumns 0 1 2 3) m).apply [.fix 0 (.dyn 1)]) =
        .ok ((), B') ∧
      (∀ k, k < 3 → (Bag.mk (matrixColumns 0 1 2 3) (B' 1).data).get .ideal (atNM 0 1 1 k) =
        (Bag.mk (vectorOf 1 3 4) v).get .ideal (atV 1 k)) ∧
      ∀ k, k < 3 → (Bag.mk (matrixColumns 0 1 2 3) (B' 1).data).get .ideal (atNM 0 1 0 k) =
        (Bag.mk (matrixColumns 0 1 2 3) m).get .ideal (atNM 0 1 0 k) := by
  have lay : (Space.box [0, 1] (fun q => if q = 0 then 2 else 3) 4).LaidOut (matrixColumns 0 1 2 3) := by
    refine Space.box_of_matrix (by decide) (C72_matrix_layouts (by decide) (C70_columns 0 1 (by decide) 2 3) ?_ fun q hq => ?_)
    · simp [matrixColumns, Struct.apply, Struct.tidy]
    · simp only [matrixColumns, Struct.apply, Struct.names, View.names, or_false] at hq; exact hq
  obtain ⟨p, B', h1, h2, -, -, h3, h4, -⟩ := C81_assign_row (i := 0) (j := 1) (by decide) (n := 2) (m := 3) (e := 4)
    ⟨vectorOf 1 3 4, v⟩ ⟨matrixColumns 0 1 2 3, m⟩ (vectorOf_laidOut 1 (fun _ => 3) 4) (vectorOf_bagFor 1 3 4 v hv) lay
    ⟨rfl, fun w k hw hk => by
      cases (show ((matrixColumns 0 1 2 3).sem .ideal).size .empty = some (.dyn 24) from rfl).symm.trans hw
      cases hk
      rw [hm]
      exact Nat.le_refl _⟩ 1 (by decide) _ _ (vectorOf_forEach 1 3 4) (vector_nodup 1 3) (fun u => mem_vector (N := fun _ => 3))
  exact ⟨p, B', h1, h2, h3, fun k hk => h4 0 k (by decide) hk (by decide)⟩

end Noarr
