import Verif.BagsLemmas
import Verif.Props.Proto

/-
C62: the memory of bags is freed exactly once. C63: what references, moved bags and views of bags refer to.
-/

namespace Noarr

/-! ### C62 -/

/-- C62: in every program with bags, at every point, a block of the bags has exactly one owner, and what a bag owns is
such a block (not freed, and not the caller's). -/
theorem C62_one_owner (A : Arith) (ops : List BagOp) {w : World} (h : World.init.run A ops = .ok w) (p : Nat) :
    (∀ x, w.Owns x p → ∃ m, w.heap.cell p = some (.bags, m)) ∧
    ∀ m, w.heap.cell p = some (.bags, m) → ∃ x, w.Owns x p ∧ ∀ y, w.Owns y p → y = x := by
  have hw := World.init_inv.run h
  refine ⟨fun x => hw.alive x p, fun m hm => ?_⟩
  obtain ⟨x, hx⟩ := hw.owned p m hm
  exact ⟨x, hx, fun y hy => hw.one _ _ _ hy hx⟩

/-- C62: `make_bag(s)` and `make_vector_bag(s)` allocate a new block of as many bytes as the size of `s`, all of them
zero, and own it. -/
theorem C62_make (A : Arith) (ops : List BagOp) {w w' : World} (h0 : World.init.run A ops = .ok w) {v : Bool} {s : Struct}
    {y : Nat} (h : w.step A (.make v s y) = .ok w') :
    ∃ size n p, (s.sem A).size .empty = some size ∧ size.Num n ∧ w.heap.cell p = none ∧ w'.Owns y p ∧
      w'.heap.cell p = some (.bags, List.replicate n 0) ∧ (∀ q, q ≠ p → w'.heap.cell q = w.heap.cell q) ∧
      ∀ z, z ≠ y → w'.vars z = w.vars z := by
  obtain ⟨n, hn, h⟩ := bind_ok h
  unfold bytesOf at hn
  split at hn
  · cases hn
  next size hs =>
  split at hn
  · next k hk =>
    cases hn
    obtain ⟨-, rfl⟩ := World.declare_eq h
    refine ⟨size, n, w.heap.next, hs, hk, (World.init_inv.run h0).fresh _ (Nat.le_refl _), ?_, ?_, fun q hq => ?_,
      fun z hz => ?_⟩
    · rw [World.owns_setVar, if_pos rfl]
      exact ⟨_, rfl, by cases v <;> rfl⟩
    · simp [World.setVar, World.alloc]
    · simp [World.setVar, World.alloc, hq]
    · simp [World.setVar, World.alloc, hz]
  · cases hn

/-- C62: nothing leaks: when all the bags are gone, so are their blocks. -/
theorem C62_no_leak (A : Arith) (ops : List BagOp) {w : World} (h : World.init.run A ops = .ok w)
    (hv : ∀ x, w.vars x = none) (p : Nat) (m : Mem) : w.heap.cell p ≠ some (.bags, m) := by
  intro hm
  obtain ⟨x, o, hx, -⟩ := (World.init_inv.run h).owned p m hm
  rw [hv x] at hx; cases hx

/-- C62: a bag can always be destroyed: nothing is freed a second time. Its block is freed, if it owns one, and nothing
else happens. -/
theorem C62_destroy (A : Arith) (ops : List BagOp) {w : World} (h : World.init.run A ops = .ok w) {x : Nat} {o : BagObj}
    (hx : w.vars x = some o) :
    ∃ w', w.step A (.destroy x) = .ok w' ∧ w'.vars x = none ∧ (∀ y, y ≠ x → w'.vars y = w.vars y) ∧
      (∀ p, w.Owns x p → w'.heap.cell p = none) ∧ ∀ p, ¬ w.Owns x p → w'.heap.cell p = w.heap.cell p := by
  have hw := World.init_inv.run h
  have hown : ∀ p, w.Owns x p ↔ o.data.owned = some p := fun p => by simp [World.Owns, hx]
  have : ∃ w1, w.release o.data = .ok w1 := by
    unfold World.release
    cases ho : o.data.owned with
    | none => exact ⟨w, rfl⟩
    | some p =>
      obtain ⟨m, hm⟩ := hw.alive x p ((hown p).2 ho)
      exact ⟨w.setCell p none, by simp [World.free, hm]⟩
  obtain ⟨w1, h1⟩ := this
  obtain ⟨-, i2, -, i4⟩ := hw.release hx h1
  refine ⟨w1.setVar x none, by simp only [World.step, hx, h1]; rfl, by simp [World.setVar],
    fun y hy => by simp [World.setVar, hy, i2], fun p hp => ?_, fun p hp => ?_⟩
  · show w1.heap.cell p = none
    rw [i4, if_pos ((hown p).1 hp)]
  · show w1.heap.cell p = _
    rw [i4, if_neg (fun e => hp ((hown p).2 e))]

/-- C62: a bag can be moved to another one of the same kind: what the other one owned is freed, and it becomes the owner
of the block. -/
theorem C62_move_assign (A : Arith) (ops : List BagOp) {w : World} (h : World.init.run A ops = .ok w) {x y : Nat}
    (hxy : x ≠ y) {o o' : BagObj} (hx : w.vars x = some o) (hy : w.vars y = some o') (ha : o.data.alike o'.data = true) :
    ∃ w', w.step A (.moveAssign x y) = .ok w' ∧ w'.vars y = some o ∧ (∀ z, z ≠ x → z ≠ y → w'.vars z = w.vars z) ∧
      (∀ p, ¬ w'.Owns x p) ∧ (∀ p, w.Owns y p → w'.heap.cell p = none) ∧
      ∀ p, ¬ w.Owns y p → w'.heap.cell p = w.heap.cell p := by
  have hw := World.init_inv.run h
  have hown : ∀ p, w.Owns y p ↔ o'.data.owned = some p := fun p => by simp [World.Owns, hy]
  have : ∃ w1, w.release o'.data = .ok w1 := by
    unfold World.release
    cases ho : o'.data.owned with
    | none => exact ⟨w, rfl⟩
    | some p =>
      obtain ⟨m, hm⟩ := hw.alive y p ((hown p).2 ho)
      exact ⟨w.setCell p none, by simp [World.free, hm]⟩
  obtain ⟨w1, h1⟩ := this
  obtain ⟨-, i2, -, i4⟩ := hw.release hy h1
  refine ⟨_, by simp only [World.step, hx, hy, ha, hxy, h1]; rfl, by simp [World.setVar],
    fun z hz1 hz2 => by simp [World.setVar, hz1, hz2, i2], fun p => ?_, fun p hp => ?_, fun p hp => ?_⟩
  · rw [World.owns_setVar, if_neg hxy, World.owns_setVar, if_pos rfl]
    rintro ⟨b, hb, hb'⟩
    cases hb
    rw [Handle.moved_owned] at hb'; cases hb'
  · show w1.heap.cell p = none
    rw [i4, if_pos ((hown p).1 hp)]
  · show w1.heap.cell p = _
    rw [i4, if_neg (fun e => hp ((hown p).2 e))]

/-- C62: a block of the bags is freed only when its owner is destroyed or assigned to; a block of the caller only by the
caller (or it is given to a bag). -/
theorem C62_freed_only_by_the_owner (A : Arith) (ops : List BagOp) {w w' : World} (h0 : World.init.run A ops = .ok w)
    {op : BagOp} (h : w.step A op = .ok w') {p : Nat} {who : Who} {m : Mem} (hp : w.heap.cell p = some (who, m)) :
    (∃ m', w'.heap.cell p = some (who, m') ∧ m'.length = m.length) ∨
    (who = .bags ∧ ∃ x, w.Owns x p ∧ (op = .destroy x ∨ ∃ y, op = .moveAssign y x)) ∨
    (who = .caller ∧ (op = .mfree p ∨ ∃ v s y, op = .adopt v s p y)) := by
  have hf : p < w.heap.next := Nat.lt_of_not_le fun hle => by
    rw [(World.init_inv.run h0).fresh p hle] at hp; cases hp
  have decl : ∀ {w1 : World} {y : Nat} {o : BagObj}, w1.heap.cell p = some (who, m) → w1.declare y o = .ok w' →
      ∃ m', w'.heap.cell p = some (who, m') ∧ m'.length = m.length := by
    intro w1 y o hc hd
    obtain ⟨-, rfl⟩ := World.declare_eq hd
    exact ⟨m, hc, rfl⟩
  have al : ∀ who' m', (w.alloc who' m').heap.cell p = some (who, m) := by
    intro who' m'
    show (if p = w.heap.next then _ else w.heap.cell p) = _
    rw [if_neg (by omega)]; exact hp
  have rel : ∀ {w1 : World} {hd : Handle}, w.release hd = .ok w1 →
      w1.heap.cell p = some (who, m) ∨ (who = .bags ∧ hd.owned = some p) := by
    intro w1 hd hr
    unfold World.release at hr
    split at hr
    · next q e =>
      obtain ⟨⟨m', hm'⟩, rfl⟩ := World.free_eq hr
      by_cases hq : p = q
      · subst hq
        rw [hp] at hm'; cases hm'
        exact .inr ⟨rfl, e⟩
      · left
        show (if p = q then _ else w.heap.cell p) = _
        rw [if_neg hq]; exact hp
    · cases hr; exact .inl hp
  cases op with
  | make v s y =>
    obtain ⟨n, -, h⟩ := bind_ok h
    exact .inl (decl (al _ _) h)
  | adopt v s q y =>
    simp only [World.step] at h
    split at h
    · next m' hq =>
      by_cases hpq : p = q
      · subst hpq
        rw [hp] at hq; cases hq
        exact .inr (.inr ⟨rfl, .inr ⟨v, s, y, rfl⟩⟩)
      · left
        refine decl ?_ h
        show (if p = q then _ else w.heap.cell p) = _
        rw [if_neg hpq]; exact hp
    · cases h
  | observe c s q y => exact .inl (decl hp h)
  | makeNull s y =>
    obtain ⟨n, -, h⟩ := bind_ok h
    exact .inl (decl hp h)
  | move x y =>
    simp only [World.step] at h
    split at h
    · cases h
    · exact .inl (decl (w1 := w.setVar _ _) hp h)
  | copy x y =>
    simp only [World.step] at h
    split at h
    · cases h
    · split at h
      · exact .inl (decl hp h)
      · cases h
  | moveAssign x y =>
    simp only [World.step] at h
    split at h
    · next o o' hx hy =>
      split at h
      · cases h
      split at h
      · split at h
        · cases h
        · cases h; exact .inl ⟨m, hp, rfl⟩
      · obtain ⟨w1, h1, h⟩ := bind_ok h
        cases h
        rcases rel h1 with h | ⟨h, h'⟩
        · exact .inl ⟨m, h, rfl⟩
        · exact .inr (.inl ⟨h, y, ⟨o', hy, h'⟩, .inr ⟨x, rfl⟩⟩)
    · cases h
  | copyAssign x y =>
    simp only [World.step] at h
    split at h
    · split at h
      · cases h; exact .inl ⟨m, hp, rfl⟩
      · cases h
    · cases h
  | ref x y =>
    simp only [World.step] at h
    split at h
    · cases h
    · split at h
      · obtain ⟨n, -, h⟩ := bind_ok h
        exact .inl (decl hp h)
      · exact .inl (decl hp h)
  | view x q y =>
    simp only [World.step] at h
    split at h
    · cases h
    · split at h
      · split at h
        · exact .inl (decl hp h)
        · cases h
      · cases h
  | viewMove x q y =>
    simp only [World.step] at h
    split at h
    · cases h
    split at h
    · split at h
      · split at h
        · cases h
        · exact .inl (decl (al _ _) h)
        · split at h
          · exact .inl (decl (al _ _) h)
          · cases h
        · exact .inl (decl hp h)
      · cases h
    · cases h
  | destroy x =>
    simp only [World.step] at h
    split at h
    · cases h
    · next o hx =>
      obtain ⟨w1, h1, h⟩ := bind_ok h
      cases h
      rcases rel h1 with h | ⟨h, h'⟩
      · exact .inl ⟨m, h, rfl⟩
      · exact .inr (.inl ⟨h, x, ⟨o, hx, h'⟩, .inl rfl⟩)
  | read x st =>
    obtain ⟨n, -, h⟩ := bind_ok h
    cases h
    exact .inl ⟨m, hp, rfl⟩
  | write x st b =>
    simp only [World.step, World.write] at h
    split at h
    · cases h
    split at h
    · cases h
    split at h
    · cases h
    split at h
    · cases h
    split at h
    · cases h
    next q _ _ who' m0 hq =>
    split at h
    · cases h
    next m' hm' =>
    cases h
    left
    show ∃ m1, (if p = q then some (who', m') else w.heap.cell p) = _ ∧ _
    by_cases hpq : p = q
    · subst hpq
      rw [hp] at hq; cases hq
      refine ⟨m', by simp, ?_⟩
      unfold Struct.setAt at hm'
      obtain ⟨⟨k, e⟩, -, hm'⟩ := bind_ok hm'
      simp only at hm'
      split at hm'
      · cases hm'
      · next hb =>
        split at hm'
        · cases hm'
          simp only [List.length_append, List.length_take, List.length_drop]
          omega
        · cases hm'
    · exact ⟨m, by rw [if_neg hpq]; exact hp, rfl⟩
  | malloc m' => cases h; exact .inl ⟨m, al _ _, rfl⟩
  | mfree q =>
    obtain ⟨⟨m', hq⟩, rfl⟩ := World.free_eq h
    by_cases hpq : p = q
    · subst hpq
      rw [hp] at hq; cases hq
      exact .inr (.inr ⟨rfl, .inl rfl⟩)
    · left
      refine ⟨m, ?_, rfl⟩
      show (if p = q then _ else w.heap.cell p) = _
      rw [if_neg hpq]; exact hp

/-! ### C63 -/

/-- C63: two bags with the same structure that point to the same block read the same, and read what was written through
the other. -/
theorem C63_same_memory (A : Arith) {w : World} {x y : Nat} {o o' : BagObj} (hx : w.vars x = some o)
    (hy : w.vars y = some o') (hs : o.structure_ = o'.structure_) (ha : o.data.addr = o'.data.addr) (st : State) :
    w.read A x st = w.read A y st ∧ ∀ b w', w.write A x st b = .ok w' → w'.read A y st = .ok b := by
  refine ⟨World.read_congr hx hy (by rw [hs]) ha (fun _ _ => rfl), fun b w' h => ?_⟩
  obtain ⟨h1, h2⟩ := World.read_written h
  rw [← h2]
  exact (World.read_congr (by rw [h1]; exact hx) (by rw [h1]; exact hy) (by rw [hs]) ha (fun _ _ => rfl)).symm

/-- C63: `make_bag(s, pointer)` reads (and, unless the pointer is to `const`, writes) the block that the pointer points
to. -/
theorem C63_pointer (A : Arith) {w w' : World} {c : Bool} {s : Struct} {p y : Nat}
    (h : w.step A (.observe c s p y) = .ok w') {who : Who} {m : Mem} (hp : w.heap.cell p = some (who, m)) (st : State) :
    w'.heap = w.heap ∧ (∀ q, ¬ w'.Owns y q) ∧ w'.read A y st = s.getAt A m st ∧ ∀ b, w'.write A y st b =
      if c then .error .ill else (s.setAt A m st b).map fun m' => w'.setCell p (some (who, m')) := by
  obtain ⟨-, rfl⟩ := World.declare_eq h
  have vy : (w.setVar y (some ⟨s, if c then .cptr (some p) else .ptr (some p)⟩)).vars y =
      some ⟨s, if c then .cptr (some p) else .ptr (some p)⟩ := by simp [World.setVar]
  have hc : ∀ o, (w.setVar y o).heap.cell p = some (who, m) := fun _ => hp
  refine ⟨rfl, fun q => ?_, ?_, fun b => ?_⟩
  · rw [World.owns_setVar, if_pos rfl]
    rintro ⟨o, ho, ho'⟩
    cases ho
    cases c <;> cases ho'
  · unfold World.read
    rw [vy]
    cases c <;> simp only [Bool.false_eq_true, if_true, if_false, Handle.addr, Option.bind_some, hc]
    all_goals
      cases hpl : s.place A st with
      | error e => simp only [Struct.getAt, hpl]; rfl
      | ok k => rfl
  · unfold World.write
    rw [vy]
    cases c with
    | true => rfl
    | false =>
      simp only [Bool.false_eq_true, if_false, Handle.addrMut, hc]
      cases hpl : s.place A st with
      | error e => simp only [Struct.setAt, hpl]; rfl
      | ok k =>
        simp only
        cases s.setAt A m st b <;> rfl

/-- C63: `auto y = std::move(x)`: the new bag reads and writes what the old one did; an owning bag cannot be used any more,
a bag that does not own its data can. No other bag is affected. -/
theorem C63_move (A : Arith) {w w' : World} {x y : Nat} {o : BagObj} (hx : w.vars x = some o)
    (h : w.step A (.move x y) = .ok w') (st : State) :
    w'.read A y st = w.read A x st ∧ w'.heap = w.heap ∧ (∀ z, z ≠ x → z ≠ y → w'.vars z = w.vars z) ∧
    (o.data.copyable = true → w'.vars x = w.vars x) ∧
    (o.data.copyable = false → ∀ r, w.read A x st = .ok r → w'.read A x st = .error .ub) := by
  simp only [World.step, hx] at h
  obtain ⟨hy, rfl⟩ := World.declare_eq h
  have hxy : x ≠ y := by rintro rfl; simp [World.setVar] at hy
  have vy : ((w.setVar x (some ⟨o.structure_, o.data.moved⟩)).setVar y (some o)).vars y = some o := by
    simp [World.setVar]
  refine ⟨(World.read_congr hx vy rfl rfl (fun _ _ => rfl)).symm, rfl,
    fun z h1 h2 => by simp [World.setVar, h1, h2], fun hc => ?_, fun hc r hr => ?_⟩
  · simp only [World.setVar, hxy, if_false, if_true, hx]
    cases o with
    | mk s d => cases d <;> first | rfl | cases hc
  · have hv : ((w.setVar x (some ⟨o.structure_, o.data.moved⟩)).setVar y (some o)).vars x =
        some ⟨o.structure_, o.data.moved⟩ := by simp [World.setVar, hxy]
    have hm : o.data.moved.addr = some none := by
      cases hd : o.data <;> rw [hd] at hc <;> first | rfl | cases hc
    unfold World.read at hr ⊢
    rw [hv]
    rw [hx] at hr
    simp only [hm] at hr ⊢
    cases ha : o.data.addr with
    | none => rw [ha] at hr; cases hr
    | some a =>
      rw [ha] at hr
      simp only at hr
      cases hp : o.structure_.place A st with
      | error e => rw [hp] at hr; cases hr
      | ok k => rfl

/-- C63: `auto y = x.get_ref()`: both bags are valid and refer to the same memory: they read the same, and writing through
one is writing through the other. Nothing is allocated or freed, `y` owns nothing, and `x` is as before. -/
theorem C63_get_ref (A : Arith) {w w' : World} {x y : Nat} {o : BagObj} (hx : w.vars x = some o)
    (h : w.step A (.ref x y) = .ok w') (st : State) :
    w'.vars x = some o ∧ w'.heap = w.heap ∧ (∀ p, ¬ w'.Owns y p) ∧ w'.read A y st = w.read A x st ∧
    ∀ b, w'.write A y st b = w'.write A x st b := by
  have key : ∃ d, d.addr = o.data.addr ∧ d.addrMut = o.data.addrMut ∧ d.owned = none ∧
      w.declare y ⟨o.structure_, d⟩ = .ok w' := by
    simp only [World.step, hx] at h
    split at h
    · next e =>
      obtain ⟨n, -, h⟩ := bind_ok h
      exact ⟨.null, by rw [e], by rw [e], rfl, h⟩
    · refine ⟨_, ?_, ?_, Handle.ref_owned _, h⟩
      · cases o.data <;> rfl
      · cases o.data <;> rfl
  obtain ⟨d, h1, h2, h3, h4⟩ := key
  obtain ⟨hy, rfl⟩ := World.declare_eq h4
  have hxy : x ≠ y := by rintro rfl; rw [hx] at hy; cases hy
  have vx : (w.setVar y (some ⟨o.structure_, d⟩)).vars x = some o := by simp [World.setVar, hxy, hx]
  have vy : (w.setVar y (some ⟨o.structure_, d⟩)).vars y = some ⟨o.structure_, d⟩ := by simp [World.setVar]
  refine ⟨vx, rfl, fun p => ?_, World.read_congr vy hx rfl h1 (fun _ _ => rfl), fun b => World.write_congr vy vx rfl h2 b⟩
  rw [World.owns_setVar, if_pos rfl]
  rintro ⟨b, hb, hb'⟩
  cases hb
  rw [h3] at hb'; cases hb'

/-- C63: a reference stays valid when the owner is moved, any number of times. -/
theorem C63_reference_survives_moves (A : Arith) {w w' : World} {y : Nat} {o : BagObj} (hy : w.vars y = some o)
    (hc : o.data.copyable = true) (ms : List (Nat × Nat)) (h : w.run A (ms.map fun m => .move m.1 m.2) = .ok w')
    (st : State) : w'.read A y st = w.read A y st := by
  have key : w'.heap = w.heap ∧ w'.vars y = some o := by
    induction ms generalizing w with
    | nil => cases h; exact ⟨rfl, hy⟩
    | cons m ms ih =>
      obtain ⟨x, z⟩ := m
      obtain ⟨w1, h1, h⟩ := bind_ok h
      cases hx : w.vars x with
      | none => simp only [World.step, hx] at h1; cases h1
      | some ox =>
        obtain ⟨-, g2, g3, g4, -⟩ := C63_move A hx h1 .empty
        have hz : z ≠ y := by
          rintro rfl
          simp only [World.step, hx] at h1
          obtain ⟨e, -⟩ := World.declare_eq h1
          by_cases hxz : z = x
          · subst hxz; simp [World.setVar] at e
          · simp [World.setVar, hxz, hy] at e
        have : w1.vars y = some o := by
          by_cases hxy : y = x
          · subst hxy
            rw [hx] at hy; cases hy
            rw [g4 hc, hx]
          · rw [g3 y hxy (Ne.symm hz), hy]
        obtain ⟨i1, i2⟩ := ih this h
        exact ⟨i1.trans g2, i2⟩
  exact World.read_congr key.2 hy rfl rfl (fun p _ => by rw [key.1])

/-- C63: when the owner is destroyed, using a reference to its memory is undefined. -/
theorem C63_reference_dangles (A : Arith) (ops : List BagOp) {w w' : World} (h0 : World.init.run A ops = .ok w)
    {x y p : Nat} (hxy : x ≠ y) (hx : w.Owns x p) {o : BagObj} (hy : w.vars y = some o)
    (hp : o.data.addr = some (some p)) (h : w.step A (.destroy x) = .ok w') (st : State) {r : List UInt8}
    (hr : w.read A y st = .ok r) : w'.read A y st = .error .ub := by
  have hxo := hx
  obtain ⟨ox, hx', -⟩ := hx
  obtain ⟨w1, g1, -, g3, g4, -⟩ := C62_destroy A ops h0 hx'
  rw [h] at g1
  cases g1
  have hv := g3 y (Ne.symm hxy)
  have hcell := g4 p hxo
  unfold World.read at hr ⊢
  rw [hv, hy]
  rw [hy] at hr
  simp only [hp, Option.bind_some, hcell] at hr ⊢
  cases hpl : o.structure_.place A st with
  | error e => rw [hpl] at hr; cases hr
  | ok k => rfl

/-- C63, for reference bags (the claim is that it also works for rvalues of owning bags, which is false, see
`C63_rvalue_view_of_an_owner_violates`): `x ^ p`: the data are shared; an element of the view is the element of `x` at the state that
the views translate the state to. -/
theorem C63_view_partial (A : Arith) {w w' : World} {x y : Nat} {p : Proto} (hu : p.userHonest) {o : BagObj}
    (hx : w.vars x = some o) (h : w.step A (.view x p y) = .ok w') :
    ∃ vs : List View, w'.vars y = some ⟨o.structure_.apply vs, o.data⟩ ∧ w'.vars x = some o ∧ w'.heap = w.heap ∧
      ∀ st u, stateAt A o.structure_ vs st = some u → OrderOk A o.structure_ vs st →
        w'.read A y st = w.read A x u ∧ ∀ b, w'.write A y st b = w'.write A x u b := by
  simp only [World.step, hx] at h
  split at h
  · next hc =>
    rw [Bool.and_eq_true] at hc
    split at h
    · next s' hs =>
      obtain ⟨s, hm, vs, rfl⟩ := C30_layout_preserving_adds_views A hc.1 hu hs
      cases List.mem_singleton.1 hm
      obtain ⟨hy, rfl⟩ := World.declare_eq h
      have hxy : x ≠ y := by rintro rfl; rw [hx] at hy; cases hy
      have vx : (w.setVar y (some ⟨o.structure_.apply vs, o.data⟩)).vars x = some o := by
        simp [World.setVar, hxy, hx]
      have vy : (w.setVar y (some ⟨o.structure_.apply vs, o.data⟩)).vars y = some ⟨o.structure_.apply vs, o.data⟩ := by
        simp [World.setVar]
      refine ⟨vs, vy, vx, rfl, fun st u h1 h2 => ?_⟩
      have hp := Struct.place_views vs o.structure_ h1 h2
      exact ⟨World.read_congr vy hx hp rfl (fun _ _ => rfl), fun b => World.write_congr vy vx hp rfl b⟩
    · cases h
  · cases h

/-- C63: `std::move(x) ^ p`, where it compiles: an element of the view that could be read in `x` has the value that it has
in `x` - a bag of a vector gets a copy of all the elements -, and `x` stays valid. -/
theorem C63_rvalue_view (A : Arith) {w w' : World} {x y : Nat} {p : Proto} (hu : p.userHonest) {o : BagObj}
    (hx : w.vars x = some o) (h : w.step A (.viewMove x p y) = .ok w') :
    ∃ vs : List View, (∃ d, w'.vars y = some ⟨o.structure_.apply vs, d⟩) ∧ w'.vars x = some o ∧
      ∀ st u r, stateAt A o.structure_ vs st = some u → OrderOk A o.structure_ vs st → w.read A x u = .ok r →
        w'.read A y st = .ok r ∧ w'.read A x u = .ok r := by
  simp only [World.step, hx] at h
  split at h
  · next hc =>
    split at h
    · next s' hs =>
      obtain ⟨s, hm, vs, rfl⟩ := C30_layout_preserving_adds_views A hc hu hs
      cases List.mem_singleton.1 hm
      have same : ∀ {v : World} {d}, d = o.data → (∀ p, v.heap.cell p = w.heap.cell p) → v.vars = w.vars →
          v.declare y ⟨o.structure_.apply vs, d⟩ = .ok w' →
          ∃ vs : List View, (∃ d, w'.vars y = some ⟨o.structure_.apply vs, d⟩) ∧ w'.vars x = some o ∧
          ∀ st u r, stateAt A o.structure_ vs st = some u → OrderOk A o.structure_ vs st → w.read A x u = .ok r →
            w'.read A y st = .ok r ∧ w'.read A x u = .ok r := by
        intro v d hd hcell hvars h
        subst hd
        obtain ⟨hy, rfl⟩ := World.declare_eq h
        have hxy : x ≠ y := by rintro rfl; rw [hvars, hx] at hy; cases hy
        have vx : (v.setVar y (some ⟨o.structure_.apply vs, o.data⟩)).vars x = some o := by
          simp [World.setVar, hxy, hvars, hx]
        have vy : (v.setVar y (some ⟨o.structure_.apply vs, o.data⟩)).vars y = some ⟨o.structure_.apply vs, o.data⟩ := by
          simp [World.setVar]
        refine ⟨vs, ⟨_, vy⟩, vx, fun st u r h1 h2 hr => ?_⟩
        have hp := Struct.place_views vs o.structure_ h1 h2
        rw [World.read_congr vy hx hp rfl (fun p _ => hcell p), World.read_congr vx hx rfl rfl (fun p _ => hcell p)]
        exact ⟨hr, hr⟩
      have copied : ∀ {m : Mem} {q : Option Nat}, o.data = .vec q → (∀ k, q = some k → ∃ who, w.heap.cell k = some (who, m)) →
          (w.alloc .bags m).declare y ⟨o.structure_.apply vs, .vec (some w.heap.next)⟩ = .ok w' →
          ∃ vs : List View, (∃ d, w'.vars y = some ⟨o.structure_.apply vs, d⟩) ∧ w'.vars x = some o ∧
          ∀ st u r, stateAt A o.structure_ vs st = some u → OrderOk A o.structure_ vs st → w.read A x u = .ok r →
            w'.read A y st = .ok r ∧ w'.read A x u = .ok r := by
        intro m q hd hq h
        obtain ⟨hy, rfl⟩ := World.declare_eq h
        have hxy : x ≠ y := by
          rintro rfl
          rw [show (w.alloc .bags m).vars x = w.vars x from rfl, hx] at hy; cases hy
        have vx : ((w.alloc .bags m).setVar y (some ⟨o.structure_.apply vs, .vec (some w.heap.next)⟩)).vars x = some o := by
          simp [World.setVar, World.alloc, hxy, hx]
        have vy : ((w.alloc .bags m).setVar y (some ⟨o.structure_.apply vs, .vec (some w.heap.next)⟩)).vars y =
            some ⟨o.structure_.apply vs, .vec (some w.heap.next)⟩ := by
          simp [World.setVar]
        refine ⟨vs, ⟨_, vy⟩, vx, fun st u r h1 h2 hr => ?_⟩
        have hp := Struct.place_views vs o.structure_ h1 h2
        unfold World.read at hr ⊢
        rw [vx, vy]
        rw [hx] at hr
        simp only [hd, Handle.addr, hp] at hr ⊢
        cases hpl : o.structure_.place A u with
        | error e => rw [hpl] at hr; cases hr
        | ok k =>
          rw [hpl] at hr
          simp only at hr ⊢
          cases q with
          | none => cases hr
          | some q =>
            obtain ⟨who, hq⟩ := hq q rfl
            simp only [Option.bind_some, hq] at hr
            have hy' : ((w.alloc .bags m).setVar y (some ⟨o.structure_.apply vs, .vec (some w.heap.next)⟩)).heap.cell
                w.heap.next = some (.bags, m) := by simp [World.setVar, World.alloc]
            have hx' : ∃ who', ((w.alloc .bags m).setVar y
                (some ⟨o.structure_.apply vs, .vec (some w.heap.next)⟩)).heap.cell q = some (who', m) := by
              by_cases hqn : q = w.heap.next
              · exact ⟨_, by rw [hqn]; exact hy'⟩
              · exact ⟨who, by simp [World.setVar, World.alloc, hqn, hq]⟩
            obtain ⟨who', hx'⟩ := hx'
            simp only [Option.bind_some, hy', hx']
            refine ⟨?_, hr⟩
            simp only [Struct.getAt, hp] at hr ⊢
            exact hr
      split at h
      · cases h
      · next hd => exact copied hd (fun k hk => by cases hk) h
      · next q hd =>
        split at h
        · next who m hq => exact copied hd (fun k hk => by cases hk; exact ⟨_, hq⟩) h
        · cases h
      · next d _ _ _ _ => exact same rfl (fun _ => rfl) rfl h
    · cases h
  · cases h

/-- C63: owning bags cannot be copied, and views can only be made of rvalues or references. -/
theorem C63_owners_are_not_copied (A : Arith) {w : World} {x : Nat} {o : BagObj} (hx : w.vars x = some o)
    (hc : o.data.copyable = false) (p : Proto) (y : Nat) :
    w.step A (.copy x y) = .error .ill ∧ w.step A (.view x p y) = .error .ill ∧
    w.step A (.copyAssign x y) = .error .ill := by
  refine ⟨by simp [World.step, hx, hc], by simp [World.step, hx, hc], ?_⟩
  simp only [World.step, hx]
  cases w.vars y with
  | none => rfl
  | some o' => simp [hc]

/-- The documentation (docs/BasicUsage.md) allows `std::move(x) ^ p` and `make_bag(s) ^ p` for owning bags, but it does
not compile. -/
theorem C63_rvalue_view_of_an_owner_violates (A : Arith) {w : World} {x : Nat} {s : Struct} {q : Option Nat}
    (hx : w.vars x = some ⟨s, .own q⟩) (p : Proto) (y : Nat) : w.step A (.viewMove x p y) = .error .ill := by
  simp only [World.step, hx]
  split
  · cases p.inst A [s] <;> rfl
  · rfl

/-- Bags of vectors are read-only. -/
theorem C63_vector_bags_are_read_only (A : Arith) {w : World} {x : Nat} {s : Struct} {q : Option Nat}
    (hx : w.vars x = some ⟨s, .vec q⟩) (st : State) (b : List UInt8) : w.write A x st b = .error .ill := by
  simp [World.write, hx, Handle.addrMut]

/-- 4 bytes in a row. -/
def c63Example : Struct := Struct.apply (.vector 0 (.scalar 1 1)) [.setLength 0 (.dyn 4)]

/-- `std::move(x) ^ p` of a bag of a vector copies the data: a reference to `x` does not refer to the new bag, and dangles
when `x` ends. -/
theorem C63_rvalue_view_of_a_vector_copies_violates :
    (World.init.run .ideal [.make true c63Example 0, .ref 0 1, .viewMove 0 (.view (.reverse 0)) 2,
      .read 1 (State.empty.set (.idx 0) (.dyn 3)), .destroy 0]).isOk = true ∧
    (match World.init.run .ideal [.make true c63Example 0, .ref 0 1, .viewMove 0 (.view (.reverse 0)) 2,
      .destroy 0, .read 1 (State.empty.set (.idx 0) (.dyn 3))] with
      | .error e => some e
      | .ok _ => none) = some Fail.ub := by
  constructor <;> rfl

/-! ### Examples -/

/-- A bag, a reference to it, the bag moved twice, and written to; the reference reads it; then it is destroyed. -/
example :
    let at3 := State.empty.set (.idx 0) (.dyn 3)
    let prog : List BagOp := [.make false c63Example 0, .ref 0 1, .move 0 2, .move 2 3, .write 3 at3 [7]]
    (World.init.run .ideal prog).toOption.map (fun w => ((w.read .ideal 1 at3).toOption, (w.read .ideal 0 at3).toOption)) =
      some (some [7], none) ∧
    (World.init.run .ideal (prog ++ [.destroy 3, .destroy 0, .destroy 1, .destroy 2])).isOk = true ∧
    (World.init.run .ideal (prog ++ [.destroy 3, .read 1 at3])).isOk = false := by
  refine ⟨rfl, rfl, rfl⟩

/-- Assigning to a bag frees what it had; the caller's memory stays. -/
example :
    let prog : List BagOp := [.malloc [1, 2, 3, 4], .observe false c63Example 0 9, .make false c63Example 0,
      .make false c63Example 1, .moveAssign 1 0, .destroy 0, .destroy 1, .destroy 9]
    (World.init.run .ideal prog).toOption.map (fun w => (List.range 4).map fun p => (w.heap.cell p).map Prod.snd) =
      some [some [1, 2, 3, 4], none, none, none] := rfl

/-- A reversed view of an rvalue bag of a vector: the elements are there, in reverse. -/
example :
    let prog : List BagOp := [.make true c63Example 0, .viewMove 0 (.view (.reverse 0)) 1]
    (World.init.run .ideal prog).toOption.map
      (fun w => ((w.read .ideal 1 (State.empty.set (.idx 0) (.dyn 0))).isOk, (w.read .ideal 0 (State.empty.set (.idx 0) (.dyn 3))).isOk)) =
        some (true, true) := rfl

/-- A reversed view of a reference. -/
example :
    let prog : List BagOp := [.make false c63Example 0, .ref 0 1, .view 1 (.view (.reverse 0)) 2,
      .write 2 (State.empty.set (.idx 0) (.dyn 0)) [5]]
    (World.init.run .ideal prog).toOption.map
      (fun w => (w.read .ideal 0 (State.empty.set (.idx 0) (.dyn 3))).toOption) = some (some [5]) := rfl

end Noarr
