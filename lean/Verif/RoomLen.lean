import Verif.RoomSpec
import Verif.ValidMerge
import Verif.SizeDet
import Verif.MachineZ

/-
Lengths are computed exactly when `size_t` is wide enough. Used for C56.
-/

set_option linter.unusedVariables false
set_option linter.unusedSimpArgs false

namespace Noarr

/-! ### Single operations -/

theorem Val.add_checked {W : Nat} {x y : Val} (h : ∀ a b, x.Num a → y.Num b → a + b < W) :
    x.add (.checked W) y = x.add .ideal y := by
  cases x <;> cases y <;> simp only [Val.add, Arith.checked, Arith.ideal] <;>
    rw [if_pos (h _ _ rfl rfl)]

theorem Val.mul_checked {W : Nat} {x y : Val} (h : ∀ a b, x.Num a → y.Num b → a * b < W) :
    x.mul (.checked W) y = x.mul .ideal y := by
  cases x <;> cases y <;> simp only [Val.mul, Arith.checked, Arith.ideal] <;>
    rw [if_pos (h _ _ rfl rfl)]

theorem Val.sub_checked {W : Nat} {x y : Val} : x.sub (.checked W) y = x.sub .ideal y := by
  cases x <;> cases y <;> rfl

theorem Val.div_checked {W : Nat} {x y : Val} : x.div (.checked W) y = x.div .ideal y := by
  cases x <;> cases y <;> rfl

theorem Val.mod_checked {W : Nat} {x y : Val} : x.mod (.checked W) y = x.mod .ideal y := by
  cases x <;> cases y <;> rfl

/-! ### Smaller states -/

theorem Under.refl {s : Struct} {st : State} : Under s st st := ⟨fun _ => .inr rfl, fun _ _ => rfl⟩

theorem Under.trans {s : Struct} {a b c : State} (h : Under s a b) (h' : Under s b c) : Under s a c := by
  refine ⟨fun e => ?_, fun e he => (h.2 e he).trans (h'.2 e he)⟩
  rcases h.1 e with h1 | h1
  · exact .inl h1
  · rw [h1]; exact h'.1 e

theorem SmallState.under {M : Nat} {s : Struct} {w st : State} (h : SmallState M s st) (hw : Under s w st) :
    SmallState M s w := by
  refine ⟨fun e v hv => ?_, fun e v he hv => h.2 e v he (by rw [← hw.2 e he]; exact hv)⟩
  rcases hw.1 e with h1 | h1
  · rw [h1] at hv; cases hv
  · exact h.1 e v (by rw [← h1]; exact hv)

theorem Struct.Roomy.state {M : Nat} {s : Struct} {st : State} (h : s.Roomy M st) : SmallState M s st := by
  cases s with
  | scalar => exact h
  | tuple => exact h.1
  | vector => exact h.1
  | union => exact h.1
  | view => exact h.1

theorem Struct.Roomy.under {M : Nat} {s : Struct} {w st : State} (h : s.Roomy M st) (hw : Under s w st) :
    s.Roomy M w := by
  induction s generalizing w st with
  | scalar => exact SmallState.under h hw
  | tuple t n fs ih =>
    refine ⟨h.1.under hw, fun i => ih i (h.2 i) ⟨fun e => ?_, fun e he => ?_⟩⟩
    · simpa [State.remove] using hw.1 e
    · have := hw.2 e (.inr ⟨i, he⟩)
      simp only [State.remove, this]
  | vector d s ih =>
    refine ⟨h.1.under hw, ih h.2 ⟨fun e => ?_, fun e he => ?_⟩⟩
    · have := hw.1 e
      simp only [State.removeAll]; grind
    · have := hw.2 e
      simp only [Struct.hard] at this
      simp only [State.removeAll]; grind
  | union n ss ih =>
    exact ⟨h.1.under hw, fun i => ih i (h.2 i) ⟨hw.1, fun e he => hw.2 e ⟨i, he⟩⟩⟩
  | view v s ih =>
    exact ⟨h.1.under hw, h.2.1, fun x hx => h.2.2 x (hx.trans hw)⟩

theorem plain_tuple {t n} {fs : Fin n → Struct} {q : Dim} (h : (Struct.tuple t n fs).plain q) :
    q ≠ t ∧ ∀ i, (fs i).plain q :=
  ⟨fun e => h.1 (.inl e), fun i => ⟨fun x => h.1 (.inr ⟨i, x⟩), fun x => h.2.1 ⟨i, x⟩, fun x => h.2.2 ⟨i, x⟩⟩⟩

theorem plain_union {n} {fs : Fin n → Struct} {q : Dim} (h : (Struct.union n fs).plain q) :
    ∀ i, (fs i).plain q :=
  fun i => ⟨fun x => h.1 ⟨i, x⟩, fun x => h.2.1 ⟨i, x⟩, fun x => h.2.2 ⟨i, x⟩⟩

theorem plain_vector {d : Dim} {s : Struct} {q : Dim} (h : (Struct.vector d s).plain q) (hq : q ≠ d) :
    s.plain q := ⟨fun x => h.1 ⟨hq, x⟩, fun x => h.2.1 ⟨hq, x⟩, fun x => h.2.2 ⟨hq, x⟩⟩

/-- The lengths that a roomy structure reports. -/
theorem Struct.Roomy.len {M : Nat} {s : Struct} {st : State} (h : s.Roomy M st) {q : Dim}
    (hq : s.plain q) {l : Val} (hl : (s.sem .ideal).len q st = some l) : Small M l := by
  induction s generalizing st with
  | scalar => simp [Struct.sem, scalarSem] at hl
  | tuple t n fs ih =>
    obtain ⟨hqt, hqf⟩ := plain_tuple hq
    simp only [Struct.sem, tupleSem, guardLen_eq_some, if_neg hqt, bind, Option.bind_eq_some_iff] at hl
    obtain ⟨-, S, ⟨k, -, hk⟩, hl⟩ := hl
    by_cases hkn : k < n
    · simp only [hkn, ↓reduceDIte, Option.some.injEq] at hk
      subst hk
      exact ih _ (h.2 _) (hqf _) hl
    · simp [hkn] at hk
  | vector d s ih =>
    simp only [Struct.sem, vectorSem, guardLen_eq_some] at hl
    by_cases hqd : q = d
    · simp only [hqd, ↓reduceIte] at hl
      exact h.1.1 _ _ hl.2
    · simp only [hqd, ↓reduceIte] at hl
      exact ih h.2 (plain_vector hq hqd) hl.2
  | union n ss ih =>
    simp only [Struct.sem, unionSem, guardLen_eq_some] at hl
    obtain ⟨-, hl⟩ := hl
    split at hl
    · exact ih _ (h.2 _) (plain_union hq _) hl
    · cases hl
  | view v s ih => exact (h.2.2 st .refl).1 q l hq hl

/-! ### States in which the ordinary indices are zero -/

open Classical in
/-- the state with the ordinary indices replaced by zero -/
noncomputable def zeroed (s : Struct) (st : State) : State
  | .idx e => if s.hard e then st (.idx e) else (st (.idx e)).map fun _ => .lit 0
  | .len e => st (.len e)

/-- The ordinary indices are zero. -/
def Zero (s : Struct) (st : State) : Prop := ∀ e i, ¬ s.hard e → st (.idx e) = some i → i = .lit 0

theorem zero_zeroed {s : Struct} {st : State} : Zero s (zeroed s st) := by
  intro e i he hi
  simp only [zeroed, if_neg he, Option.map_eq_some_iff] at hi
  obtain ⟨_, -, h⟩ := hi
  exact h.symm

theorem under_zeroed {s : Struct} {st : State} : Under s (zeroed s st) st :=
  ⟨fun e => .inr rfl, fun e he => by simp only [zeroed, if_pos he]⟩

theorem zeroed_none {s : Struct} {st : State} {e : Dim} : zeroed s st (.idx e) = none ↔ st (.idx e) = none := by
  simp only [zeroed]
  split <;> simp

theorem rel_zeroed {s : Struct} {q : Dim} {st : State} (h : ¬ s.soft q) :
    Rel s q st (zeroed s st) ∧ Rel s q (zeroed s st) st :=
  ⟨⟨fun _ => rfl, fun _ => zeroed_none.2, zeroed_none.1, fun e he => by simp only [zeroed, if_pos he],
      fun hs => absurd hs h, fun _ _ => zeroed_none.1⟩,
    ⟨fun _ => rfl, fun _ => zeroed_none.1, zeroed_none.2, fun e he => by simp only [zeroed, if_pos he],
      fun hs => absurd hs h, fun _ _ => zeroed_none.2⟩⟩

/-! ### The translated state -/

/-- The sum is below `W`. -/
def AddOk (W : Nat) (x y : Val) : Prop := ∀ a b, x.Num a → y.Num b → a + b < W

/-- The product is below `W`. -/
def MulOk (W : Nat) (x y : Val) : Prop := ∀ a b, x.Num a → y.Num b → a * b < W

/-- `x * y + z` is below `W`, and so is the product. -/
def MulAddOk (W : Nat) (x y z : Val) : Prop := MulOk W x y ∧ AddOk W (x.mul .ideal y) z

/-- Nothing overflows when the view translates the state. `S` is the structure it is applied to. -/
def View.clear (W : Nat) (S : Sem) (st : State) : View → Prop
  | .shift d a => (∀ i, st (.idx d) = some i → AddOk W i a) ∧ ∀ l, st (.len d) = some l → AddOk W l a
  | .slice d a _ => ∀ i, st (.idx d) = some i → AddOk W i a
  | .span d a _ => ∀ i, st (.idx d) = some i → AddOk W i a
  | .step d a k => ∀ i, st (.idx d) = some i → MulAddOk W i k a
  | .intoBlocks d maj min =>
    (∀ ml nl, st (.len maj) = some ml → st (.len min) = some nl → MulOk W ml nl) ∧
    ∀ i j, st (.idx maj) = some i → st (.idx min) = some j →
      (∀ nl, st (.len min) = some nl → MulAddOk W i nl j) ∧
      ∀ ml l, st (.len min) = none → st (.len maj) = some ml → S.len d (blocksClean d maj min st) = some l →
        MulAddOk W i (l.div .ideal ml) j
  | .intoBlocksDyn d maj min pres =>
    (∀ ml nl, st (.len maj) = some ml → st (.len min) = some nl → MulOk W ml nl) ∧
    ∀ i j, st (.idx maj) = some i → st (.idx min) = some j →
      (∀ nl, st (.len min) = some nl → MulAddOk W i nl j) ∧
      ∀ ml l, st (.len min) = none → st (.len maj) = some ml → S.len d (dynClean d maj min pres st) = some l →
        AddOk W l ml ∧ MulAddOk W i (ceilDiv .ideal l ml) j
  | .intoBlocksStat d border maj min nl =>
    ∀ i j, st (.idx maj) = some i → st (.idx min) = some j →
      (isBody border st = some true → MulAddOk W i nl j) ∧
      ∀ l, isBody border st = some false → S.len d (statClean d border maj min st) = some l →
        MulAddOk W (l.div .ideal nl) nl j
  | _ => True

theorem mulAdd_checked {W : Nat} {x y z : Val} (h : MulAddOk W x y z) :
    (x.mul (.checked W) y).add (.checked W) z = (x.mul .ideal y).add .ideal z := by
  rw [Val.mul_checked h.1, Val.add_checked h.2]

theorem ceilDiv_checked {W : Nat} {x y : Val} (h : AddOk W x y) :
    ceilDiv (.checked W) x y = ceilDiv .ideal x y := by
  simp only [ceilDiv, Val.add_checked h, Val.sub_checked, Val.div_checked]

/-- What the induction hypothesis says about a structure. -/
def LenExact (M W : Nat) (s : Struct) : Prop := ∀ q st, s.plain q → s.Roomy M st →
  Le ((s.sem .ideal).hasLen q st) ((s.sem (.checked W)).hasLen q st) ∧
  Le ((s.sem .ideal).len q st) ((s.sem (.checked W)).len q st)

theorem mapAt_congr {st : State} {t : Tag} {f g : Val → Val} (h : ∀ v, st t = some v → f v = g v) :
    st.mapAt t f = st.mapAt t g := by
  funext x
  simp only [State.mapAt]
  split
  · next hx =>
    cases hv : st t with
    | none => rfl
    | some v => simp [h v hv]
  · rfl

/-- proves `Under` for states built by the map operations -/
macro "under_tac" : tactic => `(tactic| (
  refine ⟨fun e => ?_, fun e he => ?_⟩ <;>
  simp only [joinClean, blocksClean, dynClean, statClean, State.removeAll, State.set, State.mapAt,
    State.remove, List.mem_cons, List.not_mem_nil, or_false, Tag.idx.injEq, Tag.len.injEq,
    reduceCtorEq, false_or, or_self, if_false] <;> grind))

theorem under_ib {A : Arith} {d maj min : Dim} {s : Struct} {S : Sem} {st u : State} (hd : ¬ s.hard d)
    (hu : intoBlocksSub A d maj min S st = some u) : Under s (blocksClean d maj min st) u := by
  refine ⟨fun e => ?_, fun e he => (ibSub_idx hu (by rintro rfl; exact hd he)).symm⟩
  by_cases hed : e = d
  · left; simp [blocksClean, State.removeAll, hed]
  · right
    simp only [intoBlocksSub] at hu
    cases hnl : st (.len min) with
    | some nl =>
      simp only [hnl] at hu
      cases hml : st (.len maj) <;> cases hI : st (.idx maj) <;> cases hJ : st (.idx min) <;>
        simp only [hml, hI, hJ, Option.some.injEq] at hu <;> subst hu <;> simp [State.set, hed]
    | none =>
      simp only [hnl] at hu
      cases hb : S.hasLen d (blocksClean d maj min st) with
      | none => simp [hb] at hu
      | some b =>
        cases b with
        | false => simp only [hb, Option.some.injEq] at hu; subst hu; rfl
        | true =>
          simp only [hb] at hu
          split at hu
          · simp only [bind, Option.bind_eq_some_iff, Option.some.injEq] at hu
            obtain ⟨l, -, rfl⟩ := hu
            simp [State.set]
          · cases hu; rfl

theorem under_ibd {A : Arith} {d maj min pres : Dim} {s : Struct} {S : Sem} {st u : State} (hd : ¬ s.hard d)
    (hu : intoBlocksDynSub A d maj min pres S st = some u) : Under s (dynClean d maj min pres st) u := by
  refine ⟨fun e => ?_, fun e he => (ibdSub_idx hu (by rintro rfl; exact hd he)).symm⟩
  by_cases hed : e = d
  · left; simp [dynClean, State.removeAll, hed]
  · right
    simp only [intoBlocksDynSub, blocksDynClean_eq] at hu
    split at hu
    · simp at hu
    simp only [bind, Option.bind_some] at hu
    cases hnl : st (.len min) <;> cases hml : st (.len maj) <;> cases hI : st (.idx maj) <;>
      cases hJ : st (.idx min) <;>
      simp only [hnl, hml, hI, hJ, Option.some.injEq, Option.bind_eq_some_iff] at hu <;>
      first
      | (subst hu; simp [State.set, hed]; done)
      | (obtain ⟨l, hl, rfl⟩ := hu; simp [State.set])

theorem under_ibs {A : Arith} {d border maj min : Dim} {nl : Val} {s : Struct} {S : Sem} {st u : State}
    (hd : ¬ s.hard d) (hu : intoBlocksStatSub A d border maj min nl S st = some u) :
    Under s (statClean d border maj min st) u := by
  refine ⟨fun e => ?_, fun e he => (ibsSub_idx hu (by rintro rfl; exact hd he)).symm⟩
  right
  simp only [intoBlocksStatSub, blocksStatClean_eq] at hu
  split at hu
  · simp at hu
  simp only [bind, Option.bind_some] at hu
  split at hu
  · cases hI : st (.idx maj) <;> cases hJ : st (.idx min) <;>
      simp only [hI, hJ, Option.some.injEq, Option.bind_eq_some_iff] at hu
    · subst hu; rfl
    · subst hu; rfl
    · subst hu; rfl
    · obtain ⟨b, -, hu⟩ := hu
      split at hu
      · cases hu; simp [State.set]
      · simp only [Option.bind_eq_some_iff] at hu
        obtain ⟨l, -, hu⟩ := hu
        cases hu; simp [State.set]
  · cases hu; rfl

theorem under_mb {A : Arith} {d maj min : Dim} {s : Struct} {S : Sem} {st u : State} (hM : ¬ s.hard maj)
    (hm : ¬ s.hard min) (hu : mergeBlocksSub A maj min d S st = some u) :
    Under s (blocksClean d maj min st) u := by
  refine ⟨fun e => ?_, fun e he => (mbSub_idx hu (by rintro rfl; exact hM he) (by rintro rfl; exact hm he)).symm⟩
  by_cases he : e = maj ∨ e = min
  · left
    rcases he with rfl | rfl <;> simp [blocksClean, State.removeAll]
  · right
    rw [not_or] at he
    obtain ⟨b1, b2, nl, ml, -, -, -, -, h⟩ := mergeBlocksSub_len hu
    rw [h e]
    cases st (.len d) <;> simp [he.1, he.2]

theorem sub_exact {M W : Nat} {v : View} {s : Struct} (ht : v.tame s) (hrev : ∀ d, v = .reverse d → ¬ s.hard d)
    (ex : LenExact M W s) (hz : ∀ sl gl ds d, v ≠ .mergeZ sl gl ds d) {st u : State}
    (hc : v.clear W (s.sem .ideal) st) (hR : s.Roomy M u)
    (hu : (v.sem .ideal (s.sem .ideal)).sub st = some u) :
    (v.sem (.checked W) (s.sem (.checked W))).sub st = some u := by
  cases v with
  | bcast d => exact hu
  | fix d i => exact hu
  | setLength d l => exact hu
  | reorder ds => exact hu
  | hoist d => exact hu
  | rename ps => exact hu
  | shift d a =>
    rw [← hu]
    simp only [View.sem, shiftSem, Option.some.injEq]
    rw [mapAt_congr (fun v hv => Val.add_checked (hc.1 v hv))]
    exact mapAt_congr fun v hv => Val.add_checked (hc.2 v (by simpa [State.mapAt] using hv))
  | slice d a n =>
    rw [← hu]
    simp only [View.sem, sliceSem, Option.some.injEq]
    exact mapAt_congr fun v hv => Val.add_checked (hc v hv)
  | span d a n =>
    rw [← hu]
    simp only [View.sem, spanSem, Option.some.injEq]
    exact mapAt_congr fun v hv => Val.add_checked (hc v hv)
  | step d a k =>
    rw [← hu]
    simp only [View.sem, stepSem, Option.some.injEq]
    exact mapAt_congr fun v hv => mulAdd_checked (hc v hv)
  | reverse d =>
    have hd : s.plain d := ⟨hrev d rfl, ht.1, ht.2⟩
    simp only [View.sem, reverseSem] at hu ⊢
    cases hi : st (.idx d) with
    | none => simpa only [hi] using hu
    | some i =>
      simp only [hi] at hu ⊢
      have hw : Under s (st.remove (.idx d)) u := by
        have := hd.1
        cases hb : (s.sem .ideal).hasLen d (st.remove (.idx d)) with
        | none => simp [hb] at hu
        | some b =>
          cases b with
          | false => simp only [hb, Option.some.injEq] at hu; subst hu; exact .refl
          | true =>
            simp only [hb, bind, Option.bind_eq_some_iff, Option.some.injEq] at hu
            obtain ⟨l, -, rfl⟩ := hu
            under_tac
      have he := ex d _ hd (hR.under hw)
      cases hb : (s.sem .ideal).hasLen d (st.remove (.idx d)) with
      | none => simp [hb] at hu
      | some b =>
        rw [he.1 _ hb]
        cases b with
        | false => simpa only [hb] using hu
        | true =>
          simp only [hb, bind, Option.bind_eq_some_iff] at hu ⊢
          obtain ⟨l, hl, hu⟩ := hu
          exact ⟨l, he.2 _ hl, by simpa only [Val.sub_checked] using hu⟩
  | join a b d =>
    obtain ⟨x, h1, h2, h3⟩ := join_sub_eq_some hu
    have hw : Under s (joinClean a b d st) u := by
      have := ht.1.1
      have := ht.2.1
      rcases h3 with ⟨l, -, -, rfl⟩ | ⟨-, rfl⟩
      · cases st (.idx d) <;> under_tac
      · cases st (.idx d) <;> under_tac
    exact join_sub_of ((ex _ _ ht.1 (hR.under hw)).1 _ h1) ((ex _ _ ht.2 (hR.under hw)).1 _ h2) h3
  | intoBlocks d maj min =>
    obtain ⟨hd, hM, hm⟩ := ht
    simp only [View.sem, intoBlocksSem, intoBlocksSub] at hu ⊢
    cases hnl : st (.len min) with
    | some nl =>
      simp only [hnl] at hu ⊢
      rw [← hu]
      cases hml : st (.len maj) with
      | none =>
        cases hi : st (.idx maj) with
        | none => rfl
        | some i =>
          cases hj : st (.idx min) with
          | none => rfl
          | some j => simp only [mulAdd_checked ((hc.2 i j hi hj).1 nl hnl)]
      | some ml =>
        simp only [Val.mul_checked (hc.1 ml nl hml hnl)]
        cases hi : st (.idx maj) with
        | none => rfl
        | some i =>
          cases hj : st (.idx min) with
          | none => rfl
          | some j => simp only [mulAdd_checked ((hc.2 i j hi hj).1 nl hnl)]
    | none =>
      simp only [hnl] at hu ⊢
      have hw : Under s (blocksClean d maj min st) u := by
        have := hd.1
        cases hb : (s.sem .ideal).hasLen d (blocksClean d maj min st) with
        | none => simp [hb] at hu
        | some b =>
          cases b with
          | false => simp only [hb, Option.some.injEq] at hu; subst hu; exact .refl
          | true =>
            simp only [hb] at hu
            split at hu
            · simp only [bind, Option.bind_eq_some_iff, Option.some.injEq] at hu
              obtain ⟨l, -, rfl⟩ := hu
              under_tac
            · cases hu; exact .refl
      have he := ex d _ hd (hR.under hw)
      cases hb : (s.sem .ideal).hasLen d (blocksClean d maj min st) with
      | none => simp [hb] at hu
      | some b =>
        rw [he.1 _ hb]
        cases b with
        | false => simpa only [hb] using hu
        | true =>
          simp only [hb] at hu ⊢
          cases hml : st (.len maj) with
          | none => simpa only [hml] using hu
          | some ml =>
            cases hi : st (.idx maj) with
            | none => simpa only [hml, hi] using hu
            | some i =>
              cases hj : st (.idx min) with
              | none => simpa only [hml, hi, hj] using hu
              | some j =>
                simp only [hml, hi, hj, bind, Option.bind_eq_some_iff] at hu ⊢
                obtain ⟨l, hl, hu⟩ := hu
                refine ⟨l, he.2 _ hl, ?_⟩
                rw [Val.div_checked, mulAdd_checked ((hc.2 i j hi hj).2 ml l hnl hml hl)]
                exact hu
  | intoBlocksDyn d maj min pres =>
    obtain ⟨hd, hM, hm, hp⟩ := ht
    simp only [View.sem, intoBlocksDynSem, intoBlocksDynSub, blocksDynClean_eq] at hu ⊢
    by_cases hpl : st.has (.len pres) = true
    · simp [hpl] at hu
    · simp only [hpl, if_neg, bind, Option.bind_some, Bool.false_eq_true, not_false_eq_true] at hu ⊢
      cases hnl : st (.len min) with
      | some nl =>
        simp only [hnl] at hu ⊢
        rw [← hu]
        cases hml : st (.len maj) with
        | none =>
          cases hi : st (.idx maj) with
          | none => rfl
          | some i =>
            cases hj : st (.idx min) with
            | none => rfl
            | some j => simp only [mulAdd_checked ((hc.2 i j hi hj).1 nl hnl)]
        | some ml =>
          simp only [Val.mul_checked (hc.1 ml nl hml hnl)]
          cases hi : st (.idx maj) with
          | none => rfl
          | some i =>
            cases hj : st (.idx min) with
            | none => rfl
            | some j => simp only [mulAdd_checked ((hc.2 i j hi hj).1 nl hnl)]
      | none =>
        simp only [hnl] at hu ⊢
        cases hml : st (.len maj) with
        | none => simpa only [hml] using hu
        | some ml =>
          cases hi : st (.idx maj) with
          | none => simpa only [hml, hi] using hu
          | some i =>
            cases hj : st (.idx min) with
            | none => simpa only [hml, hi, hj] using hu
            | some j =>
              simp only [hml, hi, hj, Option.bind_eq_some_iff] at hu ⊢
              obtain ⟨l, hl, hu⟩ := hu
              have hw : Under s (dynClean d maj min pres st) u := by
                have := hd.1
                cases hu
                under_tac
              refine ⟨l, (ex d _ hd (hR.under hw)).2 _ hl, ?_⟩
              obtain ⟨h1, h2⟩ := (hc.2 i j hi hj).2 ml l hnl hml hl
              rw [ceilDiv_checked h1, mulAdd_checked h2]
              exact hu
  | intoBlocksStat d border maj min nl =>
    obtain ⟨hd, hM, hm, hbM, hbm⟩ := ht
    simp only [View.sem, intoBlocksStatSem, intoBlocksStatSub, blocksStatClean_eq] at hu ⊢
    split at hu
    · simp at hu
    · next hpl =>
      simp only [hpl, if_neg, bind, Option.bind_some, Bool.false_eq_true, not_false_eq_true, ↓reduceIte] at hu ⊢
      split at hu
      · next hb =>
        simp only [hb, ↓reduceIte]
        cases hi : st (.idx maj) with
        | none => simpa only [hi] using hu
        | some i =>
          cases hj : st (.idx min) with
          | none => simpa only [hi, hj] using hu
          | some j =>
            simp only [hi, hj, Option.bind_eq_some_iff] at hu ⊢
            obtain ⟨body, hbody, hu⟩ := hu
            refine ⟨body, hbody, ?_⟩
            cases body with
            | true =>
              simp only [↓reduceIte] at hu ⊢
              rw [mulAdd_checked ((hc i j hi hj).1 hbody)]
              exact hu
            | false =>
              simp only [Bool.false_eq_true, ↓reduceIte, Option.bind_eq_some_iff] at hu ⊢
              obtain ⟨l, hl, hu⟩ := hu
              have hw : Under s (statClean d border maj min st) u := by
                have := hd.1
                cases hu
                under_tac
              refine ⟨l, (ex d _ hd (hR.under hw)).2 _ hl, ?_⟩
              rw [Val.div_checked, mulAdd_checked ((hc i j hi hj).2 l hbody hl)]
              exact hu
      · next hb => simpa only [hb, Bool.false_eq_true, ↓reduceIte] using hu
  | mergeBlocks maj min d =>
    obtain ⟨hM, hm⟩ := ht
    have hw : Under s (blocksClean d maj min st) u := under_mb hM.1 hm.1 hu
    have eM := ex maj _ hM (hR.under hw)
    have em := ex min _ hm (hR.under hw)
    simp only [View.sem, mergeBlocksSem, mergeBlocksSub, bind, Option.bind_eq_some_iff] at hu ⊢
    obtain ⟨hmin, h1, hmaj, h2, hu⟩ := hu
    refine ⟨hmin, em.1 _ h1, hmaj, eM.1 _ h2, ?_⟩
    cases hmin with
    | true =>
      simp only [↓reduceIte, Option.bind_eq_some_iff] at hu ⊢
      obtain ⟨nl, h3, hu⟩ := hu
      refine ⟨nl, em.2 _ h3, ?_⟩
      simp only [Val.div_checked, Val.mod_checked]
      exact hu
    | false =>
      simp only [Bool.false_eq_true, ↓reduceIte] at hu ⊢
      cases hmaj with
      | true =>
        simp only [↓reduceIte, Option.bind_eq_some_iff] at hu ⊢
        obtain ⟨ml, h3, hu⟩ := hu
        refine ⟨ml, eM.2 _ h3, ?_⟩
        simp only [Val.div_checked, Val.mod_checked]
        exact hu
      | false => exact hu
  | mergeZ sl gl ds d => exact absurd rfl (hz _ _ _ _)

theorem Small.lt {M n : Nat} {v : Val} (h : Small M v) (hn : v.Num n) : n < M := by
  obtain ⟨m, h1, h2⟩ := h
  rw [Val.Num.eq hn h1]; exact h2

theorem addOk_of {M W : Nat} {x y : Val} (hW : 2 * M ≤ W) (hx : ∀ a, x.Num a → a < M) (hy : ∀ a, y.Num a → a < M) :
    AddOk W x y := by
  intro a b ha hb
  have := hx a ha
  have := hy b hb
  omega

theorem mulAddOk_zero {W : Nat} {x y z : Val} (hW : 0 < W) (hx : x = .lit 0) (hz : ∀ c, z.Num c → c < W) :
    MulAddOk W x y z := by
  subst hx
  refine ⟨fun a b ha hb => ?_, fun a b ha hb => ?_⟩
  · cases ha; omega
  · obtain ⟨x, y, hx, hy, rfl⟩ := Val.nat?_mul.1 ha
    cases hx
    have := hz b hb
    omega

theorem mulAddOk_of {W n : Nat} {x y z : Val} (h : ((x.mul .ideal y).add .ideal z).Num n) (hn : n < W) :
    MulAddOk W x y z := by
  obtain ⟨p, c, hp, hc, rfl⟩ := Val.nat?_add.1 h
  obtain ⟨a, b, ha, hb, rfl⟩ := Val.nat?_mul.1 hp
  refine ⟨fun a' b' ha' hb' => ?_, fun a' b' ha' hb' => ?_⟩
  · rw [Val.Num.eq ha' ha, Val.Num.eq hb' hb]; omega
  · rw [Val.Num.eq ha' hp, Val.Num.eq hb' hc]; omega

theorem mulOk_of {W n : Nat} {x y : Val} (h : (x.mul .ideal y).Num n) (hn : n < W) : MulOk W x y := by
  obtain ⟨a, b, ha, hb, rfl⟩ := Val.nat?_mul.1 h
  intro a' b' ha' hb'
  rw [Val.Num.eq ha' ha, Val.Num.eq hb' hb]; omega

/-- `n / k * k + 0` does not overflow. -/
theorem mulAddOk_div {M W : Nat} {l k z : Val} (hW : M ≤ W) (hl : Small M l) (hz : z = .lit 0) :
    MulAddOk W (l.div .ideal k) k z := by
  subst hz
  have key : ∀ a b, (l.div .ideal k).Num a → k.Num b → a * b < W := by
    intro a b ha hb
    obtain ⟨x, y, hx, hy, -, rfl⟩ := Val.nat?_div.1 ha
    rw [Val.Num.eq hb hy]
    have h1 := hl.lt hx
    have := Nat.div_mul_le_self x y
    omega
  refine ⟨key, fun a b ha hb => ?_⟩
  obtain ⟨x, y, hx, hy, rfl⟩ := Val.nat?_mul.1 ha
  cases hb
  exact key _ _ hx hy

/-- The product of the given block lengths. -/
theorem ib_product {M : Nat} {A : Arith} {d maj min : Dim} {s : Struct} {S : Sem} {st u : State}
    (hu : intoBlocksSub A d maj min S st = some u) (hR : s.Roomy M u) {ml nl : Val}
    (hml : st (.len maj) = some ml) (hnl : st (.len min) = some nl) : Small M (ml.mul A nl) := by
  refine hR.state.1 d _ ?_
  simp only [intoBlocksSub, hml, hnl] at hu
  cases hI : st (.idx maj) <;> cases hJ : st (.idx min) <;>
    simp only [hI, hJ, Option.some.injEq] at hu <;> subst hu <;> simp [State.set]

theorem ibd_product {M : Nat} {A : Arith} {d maj min pres : Dim} {s : Struct} {S : Sem} {st u : State}
    (hu : intoBlocksDynSub A d maj min pres S st = some u) (hR : s.Roomy M u) {ml nl : Val}
    (hml : st (.len maj) = some ml) (hnl : st (.len min) = some nl) : Small M (ml.mul A nl) := by
  refine hR.state.1 d _ ?_
  simp only [intoBlocksDynSub, blocksDynClean_eq, hml, hnl] at hu
  split at hu
  · simp at hu
  simp only [bind, Option.bind_some] at hu
  cases hI : st (.idx maj) <;> cases hJ : st (.idx min) <;>
    simp only [hI, hJ, Option.some.injEq] at hu <;> subst hu <;> simp [State.set]

theorem clear_zero {M W : Nat} (hW : 2 * M ≤ W) {v : View} {s : Struct} (hM : 0 < M) (ht : v.tame s)
    (hv : v.fits M) {st u : State} (hst : SmallState M (.view v s) st) (h0 : Zero (.view v s) st)
    (hR : s.Roomy M u) (hu : (v.sem .ideal (s.sem .ideal)).sub st = some u) :
    v.clear W (s.sem .ideal) st := by
  have zs : ∀ {i : Val}, i = .lit 0 → ∀ a, i.Num a → a < M := by
    rintro i rfl a ha; cases ha; exact hM
  have zw : ∀ {i : Val}, i = .lit 0 → ∀ a, i.Num a → a < W := by
    rintro i rfl a ha; cases ha; omega
  cases v with
  | shift d a =>
    refine ⟨fun i hi => addOk_of hW (fun x hx => ?_) hv, fun l hl => addOk_of hW (fun x hx => (hst.1 _ _ hl).lt hx) hv⟩
    by_cases hd : s.hard d
    · exact (hst.2 d i hd hi).lt hx
    · exact zs (h0 d i hd hi) x hx
  | slice d a n =>
    refine fun i hi => addOk_of hW (fun x hx => ?_) hv.1
    by_cases hd : s.hard d
    · exact (hst.2 d i hd hi).lt hx
    · exact zs (h0 d i hd hi) x hx
  | span d a n =>
    refine fun i hi => addOk_of hW (fun x hx => ?_) hv.1
    by_cases hd : s.hard d
    · exact (hst.2 d i hd hi).lt hx
    · exact zs (h0 d i hd hi) x hx
  | step d a k =>
    intro i hi
    by_cases hd : s.hard d
    · obtain ⟨n, hn, hlt⟩ : Small M ((i.mul .ideal k).add .ideal a) := by
        refine hR.state.2 d _ hd ?_
        simp only [View.sem, stepSem, Option.some.injEq] at hu
        subst hu
        simp [State.mapAt, hi]
      exact mulAddOk_of hn (by omega)
    · exact mulAddOk_zero (by omega) (h0 d i hd hi) fun c hc => by have := hv.1 c hc; omega
  | intoBlocks d maj min =>
    obtain ⟨hd, h1, h2⟩ := ht
    refine ⟨fun ml nl hml hnl => ?_, fun i j hi hj => ⟨fun nl hnl => ?_, fun ml l _ hml hl => ?_⟩⟩
    · obtain ⟨n, hn, hlt⟩ := ib_product hu hR hml hnl
      exact mulOk_of hn (by omega)
    · exact mulAddOk_zero (by omega) (h0 _ _ h1 hi) (zw (h0 _ _ h2 hj))
    · exact mulAddOk_zero (by omega) (h0 _ _ h1 hi) (zw (h0 _ _ h2 hj))
  | intoBlocksDyn d maj min pres =>
    obtain ⟨hd, h1, h2, h3⟩ := ht
    refine ⟨fun ml nl hml hnl => ?_, fun i j hi hj => ⟨fun nl hnl => ?_, fun ml l _ hml hl => ⟨?_, ?_⟩⟩⟩
    · obtain ⟨n, hn, hlt⟩ := ibd_product hu hR hml hnl
      exact mulOk_of hn (by omega)
    · exact mulAddOk_zero (by omega) (h0 _ _ h1 hi) (zw (h0 _ _ h2 hj))
    · exact addOk_of hW (fun x hx => ((hR.under (under_ibd hd.1 hu)).len hd hl).lt hx)
        fun x hx => (hst.1 _ _ hml).lt hx
    · exact mulAddOk_zero (by omega) (h0 _ _ h1 hi) (zw (h0 _ _ h2 hj))
  | intoBlocksStat d border maj min nl =>
    obtain ⟨hd, h1, h2, h3, h4⟩ := ht
    have h1' : ¬ (Struct.view (.intoBlocksStat d border maj min nl) s).hard maj := by
      rintro (h | h)
      · exact h3 h.symm
      · exact h1 h
    have h2' : ¬ (Struct.view (.intoBlocksStat d border maj min nl) s).hard min := by
      rintro (h | h)
      · exact h4 h.symm
      · exact h2 h
    refine fun i j hi hj => ⟨fun _ => ?_, fun l _ hl => ?_⟩
    · exact mulAddOk_zero (by omega) (h0 _ _ h1' hi) (zw (h0 _ _ h2' hj))
    · exact mulAddOk_div (by omega) ((hR.under (under_ibs hd.1 hu)).len hd hl) (h0 _ _ h2' hj)
  | _ => trivial

end Noarr
