import Verif.BagsSpec
import Verif.TraverseSpec

/-
Every block of the bags has exactly one owner, for C62.
-/

namespace Noarr

/-- The blocks of the bags are those that bags own; none has two owners. -/
structure World.Inv (w : World) : Prop where
  alive : ∀ x p, w.Owns x p → ∃ m, w.heap.cell p = some (.bags, m)
  owned : ∀ p m, w.heap.cell p = some (.bags, m) → ∃ x, w.Owns x p
  one : ∀ x y p, w.Owns x p → w.Owns y p → x = y
  fresh : ∀ p, w.heap.next ≤ p → w.heap.cell p = none

theorem World.owns_setVar {w : World} {x : Nat} {o : Option BagObj} {y p : Nat} :
    (w.setVar x o).Owns y p ↔ if y = x then (∃ b, o = some b ∧ b.data.owned = some p) else w.Owns y p := by
  unfold Owns setVar
  split <;> simp_all

theorem World.init_inv : World.init.Inv :=
  ⟨fun _ _ ⟨_, h, _⟩ => (by cases h), fun _ _ h => (by cases h), fun _ _ _ ⟨_, h, _⟩ => (by cases h), fun _ _ => rfl⟩

theorem World.declare_eq {w w' : World} {y : Nat} {o : BagObj} (h : w.declare y o = .ok w') :
    w.vars y = none ∧ w' = w.setVar y (some o) := by
  unfold declare at h
  split at h
  · next e => cases h; exact ⟨e, rfl⟩
  · cases h

theorem World.Inv.declare {w w' : World} (hw : w.Inv) {y : Nat} {o : BagObj} (ho : o.data.owned = none)
    (h : w.declare y o = .ok w') : w'.Inv := by
  obtain ⟨hy, rfl⟩ := declare_eq h
  have hno : ∀ p, ¬ w.Owns y p := fun p ⟨_, e, _⟩ => by rw [hy] at e; cases e
  have key : ∀ x p, (w.setVar y (some o)).Owns x p ↔ w.Owns x p := by
    intro x p
    rw [owns_setVar]
    split
    · next e => subst e; simp [ho, hno]
    · rfl
  exact ⟨fun x p h => hw.alive x p ((key x p).1 h), fun p m h => (hw.owned p m h).imp fun x h => (key x p).2 h,
    fun x y p h1 h2 => hw.one x y p ((key _ _).1 h1) ((key _ _).1 h2), hw.fresh⟩

/-- A new block for the new bag `y`. -/
theorem World.Inv.make {w w' : World} (hw : w.Inv) {y : Nat} {o : BagObj} {m : Mem}
    (ho : o.data.owned = some w.heap.next) (h : (w.alloc .bags m).declare y o = .ok w') : w'.Inv := by
  obtain ⟨hy, rfl⟩ := declare_eq h
  have hy : w.vars y = none := hy
  have hno : ∀ p, ¬ w.Owns y p := fun p ⟨_, e, _⟩ => by rw [hy] at e; cases e
  have key : ∀ x p, ((w.alloc .bags m).setVar y (some o)).Owns x p ↔ (x = y ∧ p = w.heap.next) ∨ w.Owns x p := by
    intro x p
    rw [owns_setVar]
    split
    · next e => subst e; simp [ho, hno, eq_comm]
    · next e => simp [e]; exact Iff.rfl
  have hcell : ∀ p, ((w.alloc .bags m).setVar y (some o)).heap.cell p =
      if p = w.heap.next then some (.bags, m) else w.heap.cell p := fun _ => rfl
  have hnx : ∀ x, ¬ w.Owns x w.heap.next := fun x h => by
    obtain ⟨m, hm⟩ := hw.alive x _ h
    rw [hw.fresh _ (Nat.le_refl _)] at hm; cases hm
  refine ⟨fun x p h => ?_, fun p m' h => ?_, fun x z p h1 h2 => ?_, fun p h => ?_⟩
  · rw [hcell]
    rcases (key x p).1 h with ⟨-, rfl⟩ | h
    · exact ⟨m, by simp⟩
    · split
      · exact ⟨m, rfl⟩
      · exact hw.alive x p h
  · rw [hcell] at h
    split at h
    · next e => exact ⟨y, (key _ _).2 (.inl ⟨rfl, e⟩)⟩
    · exact (hw.owned p m' h).imp fun x h => (key _ _).2 (.inr h)
  · rcases (key _ _).1 h1 with ⟨e1, rfl⟩ | h1 <;> rcases (key _ _).1 h2 with ⟨e2, e⟩ | h2
    · rw [e1, e2]
    · exact absurd h2 (hnx _)
    · rw [e] at h1; exact absurd h1 (hnx _)
    · exact hw.one _ _ _ h1 h2
  · rw [hcell]
    have h : w.heap.next + 1 ≤ p := h
    rw [if_neg (by omega)]
    exact hw.fresh p (by omega)

theorem World.free_eq {w w' : World} {who : Who} {p : Nat} (h : w.free who p = .ok w') :
    (∃ m, w.heap.cell p = some (who, m)) ∧
    w' = w.setCell p none := by
  unfold free at h
  split at h
  · next who' m e =>
    split at h
    · next e' => cases h; subst e'; exact ⟨⟨m, e⟩, rfl⟩
    · cases h
  · cases h

/-- Releasing the data of the bag `y`, which then becomes `o`, with what it owns taken from `x`, or nothing. -/
theorem World.Inv.release {w w' : World} (hw : w.Inv) {y : Nat} {o : BagObj} (hy : w.vars y = some o)
    (h : w.release o.data = .ok w') : (w'.setVar y none).Inv ∧ w'.vars = w.vars ∧ w'.heap.next = w.heap.next ∧
      ∀ p, w'.heap.cell p = if o.data.owned = some p then none else w.heap.cell p := by
  have hown : ∀ p, w.Owns y p ↔ o.data.owned = some p := fun p => by simp [Owns, hy]
  have hcell : w'.vars = w.vars ∧ w'.heap.next = w.heap.next ∧
      ∀ p, w'.heap.cell p = if o.data.owned = some p then none else w.heap.cell p := by
    unfold World.release at h
    split at h
    · next q e =>
      obtain ⟨-, rfl⟩ := free_eq h
      refine ⟨rfl, rfl, fun p => ?_⟩
      rw [e]
      by_cases hq : q = p
      · subst hq; simp [setCell]
      · have : ¬ p = q := fun h => hq h.symm
        simp [setCell, hq, this]
    · next e => cases h; exact ⟨rfl, rfl, fun p => by simp [e]⟩
  refine ⟨?_, hcell⟩
  have key : ∀ x p, (w'.setVar y none).Owns x p ↔ x ≠ y ∧ w.Owns x p := by
    intro x p
    rw [owns_setVar]
    split
    · next e => simp [e]
    · next e => simp [e, Owns, hcell.1]
  have hc : ∀ p, (w'.setVar y none).heap.cell p = if o.data.owned = some p then none else w.heap.cell p := hcell.2.2
  refine ⟨fun x p h => ?_, fun p m h => ?_, fun x z p h1 h2 => ?_, fun p h => ?_⟩
  · obtain ⟨h1, h2⟩ := (key _ _).1 h
    rw [hc, if_neg (fun e => h1 (hw.one _ _ _ h2 ((hown p).2 e)))]
    exact hw.alive x p h2
  · rw [hc] at h
    split at h
    · cases h
    · next e =>
      obtain ⟨x, hx⟩ := hw.owned p m h
      refine ⟨x, (key _ _).2 ⟨?_, hx⟩⟩
      rintro rfl
      exact e ((hown p).1 hx)
  · exact hw.one _ _ _ ((key _ _).1 h1).2 ((key _ _).1 h2).2
  · rw [hc]
    split
    · rfl
    · exact hw.fresh p (by rw [← hcell.2.1]; exact h)

/-- What `x` owns goes to `y`, which is not in use. -/
theorem World.Inv.transfer {w : World} (hw : w.Inv) {x y : Nat} {o o' : BagObj} (hx : w.vars x = some o)
    (hy : ∀ p, ¬ w.Owns y p) (hxy : x ≠ y) (ho : o'.data.owned = none) :
    ((w.setVar x (some o')).setVar y (some o)).Inv := by
  have hown : ∀ p, w.Owns x p ↔ o.data.owned = some p := fun p => by simp [Owns, hx]
  have key : ∀ z p, ((w.setVar x (some o')).setVar y (some o)).Owns z p ↔
      if z = y then w.Owns x p else z ≠ x ∧ w.Owns z p := by
    intro z p
    rw [owns_setVar]
    split
    · simp [hown]
    · rw [owns_setVar]
      split
      · next e => simp [ho, e]
      · next e => simp [e]
  have back : ∀ z p, ((w.setVar x (some o')).setVar y (some o)).Owns z p → ∃ z', w.Owns z' p ∧ (z' = x ↔ z = y) ∧
      (z ≠ y → z' = z) := by
    intro z p h
    rw [key] at h
    split at h
    · next e => exact ⟨x, h, by simp [e], fun h => absurd e h⟩
    · next e => exact ⟨z, h.2, by simp [e, h.1], fun _ => rfl⟩
  refine ⟨fun z p h => ?_, fun p m h => ?_, fun z1 z2 p h1 h2 => ?_, hw.fresh⟩
  · obtain ⟨z', h', -⟩ := back z p h
    exact hw.alive _ _ h'
  · obtain ⟨z, hz⟩ := hw.owned p m h
    by_cases hzx : z = x
    · subst hzx
      exact ⟨y, by rw [key]; simp [hz]⟩
    · refine ⟨z, ?_⟩
      rw [key, if_neg (by rintro rfl; exact hy p hz)]
      exact ⟨hzx, hz⟩
  · obtain ⟨z1', a1, b1, c1⟩ := back _ _ h1
    obtain ⟨z2', a2, b2, c2⟩ := back _ _ h2
    have e := hw.one _ _ _ a1 a2
    subst e
    by_cases h : z1 = y
    · rw [h, b2.1 (b1.2 h)]
    · by_cases h' : z2 = y
      · exact absurd (b1.1 (b2.2 h')) h
      · rw [← c1 h, ← c2 h']

/-- Blocks that keep their kind. -/
theorem World.Inv.congr {w w' : World} (hw : w.Inv) (hv : w'.vars = w.vars)
    (h1 : ∀ p m, w.heap.cell p = some (.bags, m) → ∃ m', w'.heap.cell p = some (.bags, m'))
    (h2 : ∀ p m, w'.heap.cell p = some (.bags, m) → ∃ m', w.heap.cell p = some (.bags, m'))
    (h3 : ∀ p, w'.heap.next ≤ p → w'.heap.cell p = none) : w'.Inv := by
  have key : ∀ x p, w'.Owns x p ↔ w.Owns x p := fun x p => by simp [Owns, hv]
  refine ⟨fun x p h => ?_, fun p m h => ?_, fun x y p a b => hw.one _ _ _ ((key _ _).1 a) ((key _ _).1 b), h3⟩
  · obtain ⟨m, hm⟩ := hw.alive x p ((key _ _).1 h)
    exact h1 p m hm
  · obtain ⟨m', hm⟩ := h2 p m h
    exact (hw.owned p m' hm).imp fun x h => (key _ _).2 h

/-- The block `p` of the caller goes to the new bag `y`. -/
theorem World.Inv.adopt {w w' : World} (hw : w.Inv) {y p : Nat} {o : BagObj} {m : Mem}
    (hp : w.heap.cell p = some (.caller, m)) (ho : o.data.owned = some p)
    (h : (w.setCell p (some (.bags, m))).declare y o = .ok w') : w'.Inv := by
  obtain ⟨hy, rfl⟩ := declare_eq h
  have hy : w.vars y = none := hy
  have hno : ∀ p, ¬ w.Owns y p := fun p ⟨_, e, _⟩ => by rw [hy] at e; cases e
  have hnp : ∀ x, ¬ w.Owns x p := fun x h => by
    obtain ⟨m', hm⟩ := hw.alive x _ h
    rw [hp] at hm; cases hm
  have key : ∀ x q, ((w.setCell p (some (.bags, m))).setVar y (some o)).Owns x q ↔ (x = y ∧ q = p) ∨ w.Owns x q := by
    intro x q
    rw [owns_setVar]
    split
    · next e => subst e; simp [ho, hno, eq_comm]
    · next e => simp [e]; exact Iff.rfl
  have hcell : ∀ q, ((w.setCell p (some (.bags, m))).setVar y (some o)).heap.cell q = if q = p then some (.bags, m) else w.heap.cell q := fun _ => rfl
  refine ⟨fun x q h => ?_, fun q m' h => ?_, fun x z q h1 h2 => ?_, fun q h => ?_⟩
  · rw [hcell]
    rcases (key x q).1 h with ⟨-, rfl⟩ | h
    · exact ⟨m, by simp⟩
    · split
      · exact ⟨m, rfl⟩
      · exact hw.alive x q h
  · rw [hcell] at h
    split at h
    · next e => exact ⟨y, (key _ _).2 (.inl ⟨rfl, e⟩)⟩
    · exact (hw.owned q m' h).imp fun x h => (key _ _).2 (.inr h)
  · rcases (key _ _).1 h1 with ⟨e1, rfl⟩ | h1 <;> rcases (key _ _).1 h2 with ⟨e2, e⟩ | h2
    · rw [e1, e2]
    · exact absurd h2 (hnp _)
    · rw [e] at h1; exact absurd h1 (hnp _)
    · exact hw.one _ _ _ h1 h2
  · rw [hcell, if_neg]
    · exact hw.fresh q h
    · rintro rfl
      rw [hw.fresh q h] at hp; cases hp

theorem Handle.ref_owned (h : Handle) : h.ref.owned = none := by cases h <;> rfl
theorem Handle.moved_owned (h : Handle) : h.moved.owned = none := by cases h <;> rfl
theorem Handle.copyable_owned {h : Handle} (hc : h.copyable = true) : h.owned = none := by cases h <;> first | rfl | cases hc

theorem World.Inv.write {A : Arith} {w w' : World} (hw : w.Inv) {x : Nat} {st : State} {b : List UInt8}
    (h : w.write A x st b = .ok w') : w'.Inv := by
  unfold World.write at h
  split at h
  · cases h
  split at h
  · cases h
  split at h
  · cases h
  split at h
  · cases h
  split at h
  · cases h
  next who m hp =>
  split at h
  · cases h
  next p _ _ _ _ _ _ m' _ =>
  cases h
  refine hw.congr rfl (fun q m0 h => ?_) (fun q m0 h => ?_) (fun q h => ?_)
  · show ∃ m', (if q = _ then some (who, _) else w.heap.cell q) = _
    split
    · next e => subst e; rw [hp] at h; cases h; exact ⟨_, rfl⟩
    · exact ⟨m0, h⟩
  · replace h : (if q = _ then some (who, _) else w.heap.cell q) = some (Who.bags, m0) := h
    split at h
    · next e => subst e; cases h; exact ⟨_, hp⟩
    · exact ⟨m0, h⟩
  · show (if q = _ then some (who, _) else w.heap.cell q) = _
    rw [if_neg]
    · exact hw.fresh q h
    · rintro rfl
      rw [hw.fresh _ h] at hp; cases hp

theorem bind_ok {α β : Type} {x : Except Fail α} {f : α → Except Fail β} {b : β} (h : (x >>= f) = .ok b) :
    ∃ a, x = .ok a ∧ f a = .ok b := by
  cases x with
  | error e => cases h
  | ok a => exact ⟨a, rfl, h⟩

theorem World.Inv.step {A : Arith} {w w' : World} (hw : w.Inv) {op : BagOp} (h : w.step A op = .ok w') : w'.Inv := by
  cases op with
  | make v s y =>
    obtain ⟨n, -, h⟩ := bind_ok h
    exact hw.make (by cases v <;> rfl) h
  | adopt v s p y =>
    simp only [World.step] at h
    split at h
    · next m hp => exact hw.adopt hp (by cases v <;> rfl) h
    · cases h
  | observe c s p y => exact hw.declare (by cases c <;> rfl) h
  | makeNull s y =>
    obtain ⟨n, -, h⟩ := bind_ok h
    exact hw.declare rfl h
  | move x y =>
    simp only [World.step] at h
    split at h
    · cases h
    · next o hx =>
      obtain ⟨hy, rfl⟩ := declare_eq h
      have hxy : x ≠ y := by rintro rfl; simp [setVar] at hy
      have hy : w.vars y = none := by
        simpa [setVar, Ne.symm hxy] using hy
      exact hw.transfer hx (fun p ⟨_, e, _⟩ => by rw [hy] at e; cases e) hxy (Handle.moved_owned _)
  | copy x y =>
    simp only [World.step] at h
    split at h
    · cases h
    · split at h
      · next hc => exact hw.declare (Handle.copyable_owned hc) h
      · cases h
  | moveAssign x y =>
    simp only [World.step] at h
    split at h
    · next o o' hx hy =>
      split at h
      · cases h
      split at h
      · split at h
        · cases h
        · cases h; exact hw
      · next hxy =>
        obtain ⟨w1, h1, h⟩ := bind_ok h
        cases h
        obtain ⟨i1, i2, i3, i4⟩ := hw.release hy h1
        have := i1.transfer (x := x) (y := y) (o := o) (o' := ⟨o.structure_, o.data.moved⟩)
          (by simp [setVar, hxy, i2, hx]) (fun p ⟨_, e, _⟩ => by simp [setVar] at e) hxy (Handle.moved_owned _)
        have e : ((w1.setVar y none).setVar x (some ⟨o.structure_, o.data.moved⟩)).setVar y (some o) =
            (w1.setVar x (some ⟨o.structure_, o.data.moved⟩)).setVar y (some o) := by
          unfold setVar
          simp only [World.mk.injEq, true_and]
          funext z
          by_cases h1 : z = y <;> by_cases h2 : z = x <;> simp [h1, h2]
        rw [e] at this
        exact this
    · cases h
  | copyAssign x y =>
    simp only [World.step] at h
    split at h
    · next o o' hx hy =>
      split at h
      · next hc =>
        cases h
        rw [Bool.and_eq_true] at hc
        have ho : o.data.owned = none := Handle.copyable_owned hc.2
        have ho' : o'.data.owned = none := by
          have := hc.1
          have := hc.2
          cases h1 : o.data <;> cases h2 : o'.data <;> simp_all [Handle.alike, Handle.owned, Handle.copyable]
        have key : ∀ z p, (w.setVar y (some o)).Owns z p ↔ w.Owns z p := by
          intro z p
          rw [owns_setVar]
          split
          · next e => subst e; simp [ho, Owns, hy, ho']
          · rfl
        exact ⟨fun x p h => hw.alive x p ((key x p).1 h), fun p m h => (hw.owned p m h).imp fun x h => (key x p).2 h,
          fun x y p h1 h2 => hw.one x y p ((key _ _).1 h1) ((key _ _).1 h2), hw.fresh⟩
      · cases h
    · cases h
  | ref x y =>
    simp only [World.step] at h
    split at h
    · cases h
    · split at h
      · obtain ⟨n, -, h⟩ := bind_ok h
        exact hw.declare rfl h
      · exact hw.declare (Handle.ref_owned _) h
  | view x p y =>
    simp only [World.step] at h
    split at h
    · cases h
    · split at h
      · next hc =>
        rw [Bool.and_eq_true] at hc
        split at h
        · refine hw.declare ?_ h
          exact Handle.copyable_owned hc.2
        · cases h
      · cases h
  | viewMove x p y =>
    simp only [World.step] at h
    split at h
    · cases h
    split at h
    · split at h
      · split at h
        · cases h
        · exact hw.make rfl h
        · split at h
          · exact hw.make rfl h
          · cases h
        · next h1 h2 h3 =>
          refine hw.declare ?_ h
          next o _ _ _ _ _ _ =>
          cases hh : o.data with
          | own p => exact absurd hh (h1 p)
          | vec p => cases p with
            | none => exact absurd hh h2
            | some q => exact absurd hh (h3 q)
          | ptr p => rfl
          | cptr p => rfl
          | null => rfl
      · cases h
    · cases h
  | destroy x =>
    simp only [World.step] at h
    split at h
    · cases h
    · next o hx =>
      obtain ⟨w1, h1, h⟩ := bind_ok h
      cases h
      exact (hw.release hx h1).1
  | read x st =>
    obtain ⟨n, -, h⟩ := bind_ok h
    cases h
    exact hw
  | write x st b => exact hw.write h
  | malloc m =>
    cases h
    refine hw.congr rfl (fun p m0 h => ?_) (fun p m0 h => ?_) (fun p h => ?_)
    · refine ⟨m0, ?_⟩
      show (if p = w.heap.next then _ else w.heap.cell p) = _
      rw [if_neg]
      · exact h
      · rintro rfl
        rw [hw.fresh _ (Nat.le_refl _)] at h; cases h
    · replace h : (if p = w.heap.next then some (Who.caller, m) else w.heap.cell p) = some (Who.bags, m0) := h
      split at h
      · cases h
      · exact ⟨m0, h⟩
    · replace h : w.heap.next + 1 ≤ p := h
      show (if p = w.heap.next then _ else w.heap.cell p) = _
      rw [if_neg (by omega)]
      exact hw.fresh p (by omega)
  | mfree p =>
    obtain ⟨⟨m, hp⟩, rfl⟩ := free_eq h
    clear h
    refine hw.congr rfl (fun q m0 h => ?_) (fun q m0 h => ?_) (fun q h => ?_)
    · refine ⟨m0, ?_⟩
      show (if q = p then none else w.heap.cell q) = _
      rw [if_neg]
      · exact h
      · rintro rfl
        rw [hp] at h; cases h
    · replace h : (if q = p then none else w.heap.cell q) = some (Who.bags, m0) := h
      split at h
      · cases h
      · exact ⟨m0, h⟩
    · show (if q = p then none else w.heap.cell q) = _
      split
      · rfl
      · exact hw.fresh q h

theorem World.Inv.run {A : Arith} {w w' : World} (hw : w.Inv) {ops : List BagOp} (h : w.run A ops = .ok w') : w'.Inv := by
  induction ops generalizing w with
  | nil => cases h; exact hw
  | cons op ops ih =>
    obtain ⟨w1, h1, h⟩ := bind_ok h
    exact ih (hw.step h1) h

/-! ### Reading and writing -/

theorem Struct.place_views {A : Arith} {st : State} (vs : List View) (s : Struct) {u : State}
    (hu : stateAt A s vs st = some u) (ho : OrderOk A s vs st) : (s.apply vs).place A st = s.place A u := by
  induction vs generalizing s u with
  | nil => cases hu; rfl
  | cons v vs ih =>
    simp only [stateAt, bind, Option.bind_eq_some_iff] at hu
    obtain ⟨w, hw, hu⟩ := hu
    rw [Struct.apply, ih _ hw ho.1]
    have h2 := ho.2 w hw
    simp only [Struct.place, Struct.sem, ViewSem.toSem, h2, hu, if_true, Option.bind_some]

/-- What `x[st]` reads depends on the object and the memory it points to. -/
theorem World.read_congr {A : Arith} {w w' : World} {x x' : Nat} {o o' : BagObj} (hx : w.vars x = some o)
    (hx' : w'.vars x' = some o') {st st' : State} (hp : o.structure_.place A st = o'.structure_.place A st')
    (ha : o.data.addr = o'.data.addr) (hc : ∀ p, o.data.addr = some (some p) → w.heap.cell p = w'.heap.cell p) :
    w.read A x st = w'.read A x' st' := by
  unfold World.read
  rw [hx, hx']
  simp only [← ha, ← hp]
  cases h1 : o.data.addr with
  | none => rfl
  | some a =>
    cases h2 : o.structure_.place A st with
    | error e => rfl
    | ok k =>
      cases a with
      | none => rfl
      | some p =>
        simp only [Option.bind_some, ← hc p h1]
        cases w.heap.cell p with
        | none => rfl
        | some c =>
          simp only [Struct.getAt, ← hp]

theorem World.write_congr {A : Arith} {w : World} {x x' : Nat} {o o' : BagObj} (hx : w.vars x = some o)
    (hx' : w.vars x' = some o') {st st' : State} (hp : o.structure_.place A st = o'.structure_.place A st')
    (ha : o.data.addrMut = o'.data.addrMut) (b : List UInt8) : w.write A x st b = w.write A x' st' b := by
  unfold World.write
  rw [hx, hx']
  simp only [← ha, ← hp, Struct.setAt]

theorem Handle.addr_of_mut {h : Handle} {a : Option Nat} (hm : h.addrMut = some a) : h.addr = some a := by
  cases h <;> first | exact hm | cases hm

theorem World.read_written {A : Arith} {w w' : World} {x : Nat} {st : State} {b : List UInt8}
    (h : w.write A x st b = .ok w') : w'.vars = w.vars ∧ w'.read A x st = .ok b := by
  unfold World.write at h
  cases hx : w.vars x with
  | none => rw [hx] at h; cases h
  | some o =>
    rw [hx] at h
    simp only at h
    cases ha : o.data.addrMut with
    | none => rw [ha] at h; cases h
    | some a =>
      rw [ha] at h
      simp only at h
      cases hp : o.structure_.place A st with
      | error e => rw [hp] at h; cases h
      | ok k =>
        rw [hp] at h
        simp only at h
        cases a with
        | none => cases h
        | some p =>
          simp only at h
          cases hc : w.heap.cell p with
          | none => rw [hc] at h; cases h
          | some c =>
            obtain ⟨who, m⟩ := c
            rw [hc] at h
            simp only at h
            cases hs : o.structure_.setAt A m st b with
            | error e => rw [hs] at h; cases h
            | ok m' =>
              rw [hs] at h
              cases h
              refine ⟨rfl, ?_⟩
              obtain ⟨k, e⟩ := k
              have hcell : (w.setCell p (some (who, m'))).heap.cell p = some (who, m') := by simp [setCell]
              have hvar : (w.setCell p (some (who, m'))).vars x = some o := hx
              simp only [World.read, hvar, Handle.addr_of_mut ha, hp, Option.bind_some, hcell]
              simp only [Struct.setAt, hp, bind, Except.bind] at hs
              simp only [Struct.getAt, hp, bind, Except.bind]
              split at hs
              · cases hs
              · next hb =>
                have hb : b.length = e := Decidable.not_not.1 hb
                split at hs
                · next hle =>
                  cases hs
                  rw [if_pos (by simp only [List.length_append, List.length_take, List.length_drop]; omega)]
                  congr 1
                  have h1 : (m.take k).length = k := by rw [List.length_take]; omega
                  rw [List.append_assoc, List.drop_append_of_le_length (by omega), List.drop_of_length_le (by omega),
                    List.nil_append, List.take_append_of_le_length (by omega), List.take_of_length_le (by omega)]
                · cases hs

end Noarr
