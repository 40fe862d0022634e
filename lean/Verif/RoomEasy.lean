import Verif.RoomMain

/-
A sufficient condition for `Struct.Roomy` that does not depend on the evaluation of lengths. Used for C56.
-/

set_option linter.unusedVariables false
set_option linter.unusedSimpArgs false

namespace Noarr

/-- The value is a positive number below `M`. -/
def Positive (M : Nat) (v : Val) : Prop := ∃ n, v.Num n ∧ 0 < n ∧ n < M

/-- The dimensions whose length the view may hand down, when it may get lengths of those in `L`. -/
def View.below (L : Dim → Prop) : View → Dim → Prop
  | .bcast d, e => e ≠ d ∧ L e
  | .fix d _, e => e ≠ d ∧ L e
  | .setLength d _, e => e = d ∨ L e
  | .rename ps, e => (e ∈ ps.map Prod.fst ∧ L (Sig.renameDim ps e)) ∨
      (e ∉ ps.map Prod.fst ∧ e ∉ ps.map Prod.snd ∧ L e)
  | .join a b d, e => ((e = a ∨ e = b) ∧ L d) ∨ (e ≠ a ∧ e ≠ b ∧ e ≠ d ∧ L e)
  | .intoBlocks d maj min, e => e ≠ d ∧ e ≠ maj ∧ e ≠ min ∧ L e
  | .intoBlocksDyn d maj min _, e => e ≠ d ∧ e ≠ maj ∧ e ≠ min ∧ L e
  | .intoBlocksStat d _ _ _ _, e => e ≠ d ∧ L e
  | _, e => L e

/-- The view reports no length above those it computes them from and the numbers it was given, if it may get
lengths of dimensions in `L`. `slice`, `span` and `step` are applied to ordinary dimensions, the start of a `step` is below
the stride, and the lengths of the two block dimensions are not both given. -/
def View.easy (M : Nat) (s : Struct) (L : Dim → Prop) : View → Prop
  | .bcast _ => True
  | .fix _ i => Small M i
  | .setLength _ l => Positive M l
  | .slice d _ n => ¬ s.hard d ∧ Small M n
  | .span d a b => ¬ s.hard d ∧ ∃ x y, a.Num x ∧ b.Num y ∧ x ≤ y ∧ y < M
  | .step d a k => ¬ s.hard d ∧ ∃ x y, a.Num x ∧ k.Num y ∧ x < y
  | .reverse d => ¬ s.hard d
  | .reorder _ => True
  | .hoist _ => True
  | .rename _ => True
  | .join _ _ _ => True
  | .intoBlocks _ maj min => ¬ (L maj ∧ L min)
  | .intoBlocksDyn _ maj min _ => ¬ (L maj ∧ L min)
  | .intoBlocksStat _ _ _ _ nl => Positive M nl
  | _ => False

/-- All the views of the structure are such, if lengths of the dimensions in `L` may be given. -/
def Struct.easy (M : Nat) : Struct → (Dim → Prop) → Prop
  | .scalar _ _, _ => True
  | .tuple _ _ fs, L => ∀ i, (fs i).easy M L
  | .vector d s, L => s.easy M fun e => e ≠ d ∧ L e
  | .union _ ss, L => ∀ i, (ss i).easy M L
  | .view v s, L => v.easy M s L ∧ s.easy M (v.below L)

/-- The lengths in the state are positive numbers below `M`, of dimensions in `L`, and the tuple indices are
numbers below `M`. -/
def EasyState (M : Nat) (L : Dim → Prop) (s : Struct) (st : State) : Prop :=
  (∀ e v, st (.len e) = some v → L e ∧ Positive M v) ∧ ∀ e v, s.hard e → st (.idx e) = some v → Small M v

theorem Positive.small {M : Nat} {v : Val} (h : Positive M v) : Small M v := by
  obtain ⟨n, h1, -, h2⟩ := h
  exact ⟨n, h1, h2⟩

theorem EasyState.small {M : Nat} {L : Dim → Prop} {s : Struct} {st : State} (h : EasyState M L s st) :
    SmallState M s st := ⟨fun e v hv => (h.1 e v hv).2.small, h.2⟩

theorem EasyState.under {M : Nat} {L : Dim → Prop} {s : Struct} {w st : State} (h : EasyState M L s st)
    (hw : Under s w st) : EasyState M L s w := by
  refine ⟨fun e v hv => ?_, fun e v he hv => h.2 e v he (by rw [← hw.2 e he]; exact hv)⟩
  rcases hw.1 e with h1 | h1
  · rw [h1] at hv; cases hv
  · exact h.1 e v (by rw [← h1]; exact hv)

theorem room_ib_len {A : Arith} {d maj min : Dim} {S : Sem} {st u : State}
    (hu : intoBlocksSub A d maj min S st = some u) (h : st (.len maj) = none ∨ st (.len min) = none) (e : Dim) :
    u (.len e) = blocksClean d maj min st (.len e) := by
  simp only [intoBlocksSub] at hu
  cases hnl : st (.len min) with
  | some nl =>
    have hml : st (.len maj) = none := by
      rcases h with h | h
      · exact h
      · rw [hnl] at h; cases h
    simp only [hnl, hml] at hu
    cases hI : st (.idx maj) <;> cases hJ : st (.idx min) <;>
      simp only [hI, hJ, Option.some.injEq] at hu <;> subst hu <;> simp [State.set]
  | none =>
    simp only [hnl] at hu
    cases hb : S.hasLen d (blocksClean d maj min st) with
    | none => simp [hb] at hu
    | some b =>
      cases b with
      | false => simp only [hb, Option.some.injEq] at hu; subst hu; rfl
      | true =>
        simp only [hb] at hu
        split at hu
        · simp only [bind, Option.bind_eq_some_iff, Option.some.injEq] at hu
          obtain ⟨l, -, rfl⟩ := hu
          simp [State.set]
        · cases hu; rfl

theorem room_ibd_len {A : Arith} {d maj min pres : Dim} {S : Sem} {st u : State}
    (hu : intoBlocksDynSub A d maj min pres S st = some u) (h : st (.len maj) = none ∨ st (.len min) = none)
    (e : Dim) : u (.len e) = dynClean d maj min pres st (.len e) := by
  simp only [intoBlocksDynSub, blocksDynClean_eq] at hu
  split at hu
  · simp at hu
  simp only [bind, Option.bind_some] at hu
  cases hnl : st (.len min) <;> cases hml : st (.len maj) <;> cases hI : st (.idx maj) <;>
    cases hJ : st (.idx min) <;>
    simp only [hnl, hml, hI, hJ, Option.some.injEq, Option.bind_eq_some_iff, reduceCtorEq, or_self] at hu h <;>
    first
    | (subst hu; simp [State.set]; done)
    | (obtain ⟨l, hl, rfl⟩ := hu; simp [State.set])

theorem room_ibs_len {A : Arith} {d border maj min : Dim} {nl : Val} {S : Sem} {st u : State}
    (hu : intoBlocksStatSub A d border maj min nl S st = some u) (e : Dim) :
    u (.len e) = statClean d border maj min st (.len e) := by
  simp only [intoBlocksStatSub, blocksStatClean_eq] at hu
  split at hu
  · simp at hu
  simp only [bind, Option.bind_some] at hu
  split at hu
  · cases hI : st (.idx maj) <;> cases hJ : st (.idx min) <;>
      simp only [hI, hJ, Option.some.injEq, Option.bind_eq_some_iff] at hu
    · subst hu; rfl
    · subst hu; rfl
    · subst hu; rfl
    · obtain ⟨b, -, hu⟩ := hu
      split at hu
      · cases hu; simp [State.set]
      · simp only [Option.bind_eq_some_iff] at hu
        obtain ⟨l, -, hu⟩ := hu
        cases hu; simp [State.set]
  · cases hu; rfl

/-- The lengths handed down. -/
theorem easy_sub {M : Nat} {v : View} {s : Struct} (ht : v.tame s) {L : Dim → Prop} (he : v.easy M s L)
    {st u : State} (h : EasyState M L (.view v s) st) (hu : (v.sem .ideal (s.sem .ideal)).sub st = some u) :
    EasyState M (v.below L) s u := by
  have no : ∀ {x y : Dim}, ¬ (L x ∧ L y) → st (.len x) = none ∨ st (.len y) = none := by
    intro x y hn
    cases hx : st (.len x) with
    | none => exact .inl rfl
    | some a =>
      cases hy : st (.len y) with
      | none => exact .inr rfl
      | some b => exact absurd ⟨(h.1 _ _ hx).1, (h.1 _ _ hy).1⟩ hn
  cases v with
  | bcast d =>
    cases hu
    refine ⟨fun e v hv => ?_, fun e v hh hv => ?_⟩
    · by_cases hed : e = d
      · simp [State.removeAll, hed] at hv
      · exact ⟨⟨hed, (h.1 e v (by simpa [State.removeAll, hed] using hv)).1⟩,
          (h.1 e v (by simpa [State.removeAll, hed] using hv)).2⟩
    · by_cases hed : e = d
      · simp [State.removeAll, hed] at hv
      · exact h.2 e v ⟨hed, hh⟩ (by simpa [State.removeAll, hed] using hv)
  | fix d i =>
    cases hu
    refine ⟨fun e v hv => ?_, fun e v hh hv => ?_⟩
    · by_cases hed : e = d
      · simp [State.set, State.remove, hed] at hv
      · exact ⟨⟨hed, (h.1 e v (by simpa [State.set, State.remove, hed] using hv)).1⟩,
          (h.1 e v (by simpa [State.set, State.remove, hed] using hv)).2⟩
    · by_cases hed : e = d
      · subst hed
        simp only [State.set, ↓reduceIte, Option.some.injEq] at hv
        exact hv ▸ he
      · exact h.2 e v ⟨hed, hh⟩ (by simpa [State.set, State.remove, hed] using hv)
  | setLength d l =>
    cases hu
    refine ⟨fun e v hv => ?_, fun e v hh hv => h.2 e v hh (by simpa [State.set] using hv)⟩
    by_cases hed : e = d
    · subst hed
      simp only [State.set, ↓reduceIte, Option.some.injEq] at hv
      exact ⟨.inl rfl, hv ▸ he⟩
    · exact ⟨.inr (h.1 e v (by simpa [State.set, hed] using hv)).1, (h.1 e v (by simpa [State.set, hed] using hv)).2⟩
  | shift d a => exact he.elim
  | slice d a n =>
    cases hu
    refine ⟨fun e v hv => h.1 e v (by simpa [State.mapAt] using hv), fun e v hh hv => ?_⟩
    have hed : e ≠ d := by rintro rfl; exact he.1 hh
    exact h.2 e v hh (by simpa [State.mapAt, hed] using hv)
  | span d a n =>
    cases hu
    refine ⟨fun e v hv => h.1 e v (by simpa [State.mapAt] using hv), fun e v hh hv => ?_⟩
    have hed : e ≠ d := by rintro rfl; exact he.1 hh
    exact h.2 e v hh (by simpa [State.mapAt, hed] using hv)
  | step d a k =>
    cases hu
    refine ⟨fun e v hv => h.1 e v (by simpa [State.mapAt] using hv), fun e v hh hv => ?_⟩
    have hed : e ≠ d := by rintro rfl; exact he.1 hh
    exact h.2 e v hh (by simpa [State.mapAt, hed] using hv)
  | reverse d =>
    have key : (∀ e, u (.len e) = st (.len e)) ∧ ∀ e, e ≠ d → u (.idx e) = st (.idx e) := by
      simp only [View.sem, reverseSem] at hu
      cases hi : st (.idx d) with
      | none => simp only [hi, Option.some.injEq] at hu; subst hu; exact ⟨fun _ => rfl, fun _ _ => rfl⟩
      | some i =>
        simp only [hi] at hu
        cases hb : (s.sem .ideal).hasLen d (st.remove (.idx d)) with
        | none => simp [hb] at hu
        | some b =>
          cases b with
          | false =>
            simp only [hb, Option.some.injEq] at hu
            subst hu
            exact ⟨fun e => by simp [State.remove], fun e hed => by simp [State.remove, hed]⟩
          | true =>
            simp only [hb, bind, Option.bind_eq_some_iff, Option.some.injEq] at hu
            obtain ⟨l, -, rfl⟩ := hu
            exact ⟨fun e => by simp [State.set, State.remove], fun e hed => by simp [State.set, State.remove, hed]⟩
    refine ⟨fun e v hv => h.1 e v (by rw [← key.1]; exact hv), fun e v hh hv => ?_⟩
    have hed : e ≠ d := by rintro rfl; exact he hh
    exact h.2 e v hh (by rw [← key.2 e hed]; exact hv)
  | reorder ds => cases hu; exact h
  | hoist d => cases hu; exact h
  | rename ps =>
    cases hu
    refine ⟨fun e v hv => ?_, fun e v hh hv => ?_⟩
    · simp only [renameState] at hv
      split at hv
      · exact ⟨.inl ⟨‹_›, (h.1 _ v hv).1⟩, (h.1 _ v hv).2⟩
      · split at hv
        · cases hv
        · exact ⟨.inr ⟨‹_›, ‹_›, (h.1 _ v hv).1⟩, (h.1 _ v hv).2⟩
    · simp only [renameState] at hv
      split at hv
      · exact h.2 _ v ⟨e, hh, .inl ‹_›, rfl⟩ hv
      · split at hv
        · cases hv
        · exact h.2 e v ⟨e, hh, .inr ‹_›, renameDim_of_not_mem ‹_›⟩ hv
  | join a b d =>
    obtain ⟨x, -, -, hc⟩ := join_sub_eq_some hu
    refine ⟨fun e v hv => ?_, fun e v hh hv => ?_⟩
    · rcases hc with ⟨l, hl, -, rfl⟩ | ⟨hl, rfl⟩
      · by_cases hab : e = a ∨ e = b
        · have : v = l := by
            rcases hab with rfl | rfl
            · simp only [State.set] at hv
              split at hv <;> simp_all
            · simp only [State.set, ↓reduceIte, Option.some.injEq] at hv
              exact hv.symm
          subst this
          exact ⟨.inl ⟨hab, (h.1 _ _ hl).1⟩, (h.1 _ _ hl).2⟩
        · rw [not_or] at hab
          have : v = v ∧ e ≠ d ∧ st (.len e) = some v := by
            cases hi : st (.idx d) <;>
              simp [hi, State.set, joinClean, State.removeAll, hab.1, hab.2] at hv ⊢ <;> exact hv
          exact ⟨.inr ⟨hab.1, hab.2, this.2.1, (h.1 _ _ this.2.2).1⟩, (h.1 _ _ this.2.2).2⟩
      · have : e ≠ a ∧ e ≠ b ∧ e ≠ d ∧ st (.len e) = some v := by
          cases hi : st (.idx d) <;>
            simp [hi, State.set, joinClean, State.removeAll] at hv ⊢ <;> grind
        exact ⟨.inr ⟨this.1, this.2.1, this.2.2.1, (h.1 _ _ this.2.2.2).1⟩, (h.1 _ _ this.2.2.2).2⟩
    · have hea : e ≠ a := by rintro rfl; exact ht.1.1 hh
      have heb : e ≠ b := by rintro rfl; exact ht.2.1 hh
      refine h.2 e v hh ?_
      rcases hc with ⟨l, hl, -, rfl⟩ | ⟨hl, rfl⟩ <;> cases hi : st (.idx d) <;>
        simp [hi, State.set, joinClean, State.removeAll, hea, heb] at hv <;> exact hv.2
  | intoBlocks d maj min =>
    refine ⟨fun e v hv => ?_, fun e v hh hv => ?_⟩
    · rw [room_ib_len hu (no he)] at hv
      have : e ≠ d ∧ e ≠ maj ∧ e ≠ min ∧ st (.len e) = some v := by
        simp [blocksClean, State.removeAll] at hv ⊢; grind
      exact ⟨⟨this.1, this.2.1, this.2.2.1, (h.1 _ _ this.2.2.2).1⟩, (h.1 _ _ this.2.2.2).2⟩
    · rw [ibSub_idx hu (by rintro rfl; exact ht.1.1 hh)] at hv
      refine h.2 e v hh ?_
      simp [blocksClean, State.removeAll] at hv
      exact hv.2
  | intoBlocksDyn d maj min pres =>
    refine ⟨fun e v hv => ?_, fun e v hh hv => ?_⟩
    · rw [room_ibd_len hu (no he)] at hv
      have : e ≠ d ∧ e ≠ maj ∧ e ≠ min ∧ st (.len e) = some v := by
        simp [dynClean, State.removeAll] at hv ⊢; grind
      exact ⟨⟨this.1, this.2.1, this.2.2.1, (h.1 _ _ this.2.2.2).1⟩, (h.1 _ _ this.2.2.2).2⟩
    · rw [ibdSub_idx hu (by rintro rfl; exact ht.1.1 hh)] at hv
      refine h.2 e v hh ?_
      simp [dynClean, State.removeAll] at hv
      exact hv.2
  | intoBlocksStat d border maj min nl =>
    refine ⟨fun e v hv => ?_, fun e v hh hv => ?_⟩
    · rw [room_ibs_len hu] at hv
      have : e ≠ d ∧ st (.len e) = some v := by
        simp [statClean, State.removeAll] at hv ⊢; grind
      exact ⟨⟨this.1, (h.1 _ _ this.2).1⟩, (h.1 _ _ this.2).2⟩
    · rw [ibsSub_idx hu (by rintro rfl; exact ht.1.1 hh)] at hv
      refine h.2 e v (.inr hh) ?_
      simp [statClean, State.removeAll] at hv
      exact hv.2
  | mergeBlocks maj min d => exact he.elim
  | mergeZ sl gl ds d => exact he.elim

theorem room_div {M : Nat} {l k : Val} (hl : Small M l) (hk : Positive M k) : Small M (l.div .ideal k) := by
  obtain ⟨x, hx, hxM⟩ := hl
  obtain ⟨y, hy, h0, -⟩ := hk
  exact ⟨x / y, Val.num_div hx hy h0, Nat.lt_of_le_of_lt (Nat.div_le_self x y) hxM⟩

theorem room_mod {M : Nat} {l k : Val} (hl : Small M l) (hk : Positive M k) : Small M (l.mod .ideal k) := by
  obtain ⟨x, hx, hxM⟩ := hl
  obtain ⟨y, hy, h0, -⟩ := hk
  exact ⟨x % y, Val.num_mod hx hy h0, Nat.lt_of_le_of_lt (Nat.mod_le x y) hxM⟩

/-- Rounded-up division by a positive number does not go up. -/
theorem room_ceil {l k a : Nat} (h : a < k) : (l + k - a - 1) / k ≤ l := by
  have h0 : 0 < k := by omega
  rw [Nat.le_iff_lt_add_one, Nat.div_lt_iff_lt_mul h0, Nat.add_mul, Nat.one_mul]
  have := Nat.le_mul_of_pos_right l h0
  omega

theorem small_ceil {M : Nat} {l k : Val} (hl : Small M l) (hk : Positive M k) : Small M (ceilDiv .ideal l k) := by
  obtain ⟨x, hx, hxM⟩ := hl
  obtain ⟨y, hy, h0, -⟩ := hk
  refine ⟨(x + y - 1) / y, ?_, ?_⟩
  · exact Val.num_div (Val.nat?_sub.2 ⟨_, _, Val.num_add hx hy, rfl, by omega, rfl⟩) hy h0
  · have := room_ceil (l := x) h0
    rw [Nat.sub_zero] at this
    omega

/-- The reported lengths. -/
theorem easy_len {M : Nat} {v : View} {s : Struct} (ht : v.tame s) {L : Dim → Prop} (he : v.easy M s L)
    {st : State} (h : EasyState M L (.view v s) st)
    (hR : ∀ u, (v.sem .ideal (s.sem .ideal)).sub st = some u → s.Roomy M u) {q : Dim} {l : Val}
    (hq : (Struct.view v s).plain q) (hl : ((Struct.view v s).sem .ideal).len q st = some l) : Small M l := by
  cases v with
  | bcast d =>
    simp only [Struct.sem, View.sem, ViewSem.toSem, bcastSem, guardLen_eq_some] at hl
    obtain ⟨-, hl⟩ := hl
    split at hl
    · exact (h.1 _ _ hl).2.small
    · exact (hR _ rfl).len (by plain_tac hq) hl
  | fix d i =>
    simp only [Struct.sem, View.sem, ViewSem.toSem, fixSem, guardLen_eq_some] at hl
    obtain ⟨hh, hl⟩ := hl
    split at hh
    · simp at hh
    · exact (hR _ rfl).len (by plain_tac hq) hl
  | setLength d n =>
    simp only [Struct.sem, View.sem, ViewSem.toSem, setLengthSem, guardLen_eq_some] at hl
    exact (hR _ rfl).len hq hl.2
  | shift d a => exact he.elim
  | slice d a n =>
    simp only [Struct.sem, View.sem, ViewSem.toSem, sliceSem, guardLen_eq_some] at hl
    obtain ⟨-, hl⟩ := hl
    split at hl
    · cases hl; exact he.2
    · exact (hR _ rfl).len hq hl
  | span d a b =>
    simp only [Struct.sem, View.sem, ViewSem.toSem, spanSem, guardLen_eq_some] at hl
    obtain ⟨-, hl⟩ := hl
    split at hl
    · cases hl
      obtain ⟨-, x, y, hx, hy, hxy, hyM⟩ := he
      exact ⟨y - x, Val.nat?_sub.2 ⟨_, _, hy, hx, hxy, rfl⟩, by omega⟩
    · exact (hR _ rfl).len hq hl
  | step d a k =>
    simp only [Struct.sem, View.sem, ViewSem.toSem, stepSem, guardLen_eq_some] at hl
    obtain ⟨-, hl⟩ := hl
    split at hl
    · subst_vars
      simp only [bind, Option.bind_eq_some_iff, Option.some.injEq] at hl
      obtain ⟨n, hn, rfl⟩ := hl
      have hR' : s.Roomy M st := (hR _ rfl).under (by
        have := he.1
        under_tac)
      obtain ⟨N, hN, hNM⟩ := hR'.len hq hn
      obtain ⟨-, x, y, hx, hy, hxy⟩ := he
      refine ⟨(N + y - x - 1) / y, ?_, ?_⟩
      · exact Val.num_div (Val.nat?_sub.2 ⟨_, _, Val.nat?_sub.2 ⟨_, _, Val.num_add hN hy, hx, by omega, rfl⟩, rfl,
          by omega, rfl⟩) hy (by omega)
      · have := room_ceil (l := N) hxy
        omega
    · exact (hR _ rfl).len hq hl
  | reverse d =>
    simp only [Struct.sem, ViewSem.toSem] at hl
    have hl : guardLen ((((View.reverse d).sem .ideal (s.sem .ideal)).sub st).bind ((s.sem .ideal).hasLen q))
      ((s.sem .ideal).len q st) = some l := hl
    rw [guardLen_eq_some, Option.bind_eq_some_iff] at hl
    obtain ⟨⟨u, hu, -⟩, hl⟩ := hl
    refine ((hR u hu).under ?_).len hq hl
    simp only [View.sem, reverseSem] at hu
    have he : ¬ s.hard d := he
    cases hi : st (.idx d) with
    | none => simp only [hi, Option.some.injEq] at hu; subst hu; exact .refl
    | some i =>
      simp only [hi] at hu
      cases hb : (s.sem .ideal).hasLen d (st.remove (.idx d)) with
      | none => simp [hb] at hu
      | some b =>
        cases b with
        | false =>
          simp only [hb, Option.some.injEq] at hu
          subst hu
          under_tac
        | true =>
          simp only [hb, bind, Option.bind_eq_some_iff, Option.some.injEq] at hu
          obtain ⟨l, -, rfl⟩ := hu
          under_tac
  | reorder ds =>
    simp only [Struct.sem, View.sem, ViewSem.toSem, reorderSem, guardLen_eq_some] at hl
    exact (hR _ rfl).len hq hl.2
  | hoist d =>
    simp only [Struct.sem, View.sem, ViewSem.toSem, hoistSem, guardLen_eq_some] at hl
    exact (hR _ rfl).len hq hl.2
  | rename ps =>
    simp only [Struct.sem, View.sem, ViewSem.toSem, renameSem, guardLen_eq_some] at hl
    obtain ⟨h1, h2⟩ := ht
    have hk := renameDim_swap_keep h2 q
    have hb := renameDim_swap' h1 h2 q
    have hst : ¬ (q ∈ ps.map Prod.fst ∧ q ∉ ps.map Prod.snd) := fun h => hq.2.2 (.inl h)
    have hp : s.plain (Sig.renameDim (ps.map Prod.swap) q) :=
      ⟨fun h => hq.1 ⟨_, h, hk, hb hst⟩, fun h => hq.2.1 (.inl ⟨_, h, hk, hb hst⟩),
        fun h => hq.2.2 (.inr ⟨_, h, hk, hb hst⟩)⟩
    exact (hR _ rfl).len hp hl.2
  | join a b d =>
    have hl : guardLen ((((View.join a b d).sem .ideal (s.sem .ideal)).sub st).bind ((s.sem .ideal).hasLen q))
      ((((View.join a b d).sem .ideal (s.sem .ideal)).sub st).bind ((s.sem .ideal).len q)) = some l := hl
    rw [guardLen_eq_some, Option.bind_eq_some_iff, Option.bind_eq_some_iff] at hl
    obtain ⟨-, u, hu, hl⟩ := hl
    exact (hR u hu).len (by plain_tac hq) hl
  | intoBlocks d maj min =>
    replace hl : guardLen _ _ = some l := hl
    rw [guardLen_eq_some] at hl
    obtain ⟨hh, hl⟩ := hl
    split at hl
    · subst_vars
      cases hnl : st (.len min) with
      | some n => simp only [hnl, Option.some.injEq] at hl; subst hl; exact (h.1 _ _ hnl).2.small
      | none =>
        simp only [hnl, bind, Option.bind_eq_some_iff, Option.some.injEq] at hl
        obtain ⟨ml, hml, n, hn, rfl⟩ := hl
        cases hi : st (.idx min) with
        | some i => simp [State.has, hi] at hh
        | none =>
          simp [hi, State.has, hnl, hml, Option.bind_eq_some_iff] at hh
          obtain ⟨u, hu, -⟩ := hh
          exact room_div (((hR u hu).under (under_ib ht.1.1 hu)).len ht.1 hn) (h.1 _ _ hml).2
    · split at hl
      · subst_vars
        cases hml : st (.len maj) with
        | some n => simp only [hml, Option.some.injEq] at hl; subst hl; exact (h.1 _ _ hml).2.small
        | none =>
          simp only [hml, bind, Option.bind_eq_some_iff, Option.some.injEq] at hl
          obtain ⟨nl, hnl, u, hu, n, hn, rfl⟩ := hl
          exact room_div ((hR u hu).len ht.1 hn) (h.1 _ _ hnl).2
      · rw [Option.bind_eq_some_iff] at hl
        obtain ⟨u, hu, hl⟩ := hl
        have hqd : q ≠ d := by
          rintro rfl
          simp_all
        exact (hR u hu).len (by plain_tac hq) hl
  | intoBlocksDyn d maj min pres =>
    replace hl : guardLen _ _ = some l := hl
    rw [guardLen_eq_some] at hl
    obtain ⟨hh, hl⟩ := hl
    split at hl
    · subst_vars
      exact absurd (.inl rfl) hq.2.1
    · next hqp =>
      simp only [hqp, ↓reduceIte] at hh
      split at hl
      · subst_vars
        cases hnl : st (.len min) with
        | some n => simp only [hnl, Option.some.injEq] at hl; subst hl; exact (h.1 _ _ hnl).2.small
        | none =>
          simp only [hnl, bind, Option.bind_eq_some_iff, Option.some.injEq] at hl
          obtain ⟨ml, hml, cs, hcs, n, hn, rfl⟩ := hl
          cases hi : st (.idx min) with
          | some i => simp [State.has, hi] at hh
          | none =>
            simp [hi, State.has, hnl, hml, Option.bind_eq_some_iff] at hh
            obtain ⟨u, hu, -⟩ := hh
            rw [blocksDynClean_eq] at hcs
            split at hcs
            · cases hcs
            cases hcs
            exact small_ceil (((hR u hu).under (under_ibd ht.1.1 hu)).len ht.1 hn) (h.1 _ _ hml).2
      · split at hl
        · subst_vars
          cases hml : st (.len maj) with
          | some n => simp only [hml, Option.some.injEq] at hl; subst hl; exact (h.1 _ _ hml).2.small
          | none =>
            simp only [hml, bind, Option.bind_eq_some_iff, Option.some.injEq] at hl
            obtain ⟨nl, hnl, u, hu, n, hn, rfl⟩ := hl
            exact small_ceil ((hR u hu).len ht.1 hn) (h.1 _ _ hnl).2
        · rw [Option.bind_eq_some_iff] at hl
          obtain ⟨u, hu, hl⟩ := hl
          have hqd : q ≠ d := by
            rintro rfl
            simp_all
          exact (hR u hu).len (by plain_tac hq) hl
  | intoBlocksStat d border maj min nl =>
    replace hl : guardLen _ _ = some l := hl
    rw [guardLen_eq_some] at hl
    obtain ⟨hh, hl⟩ := hl
    have he : Positive M nl := he
    split at hl
    · subst_vars
      exact absurd (.inl rfl) hq.1
    · next hqb =>
      split at hl
      · subst_vars
        cases hb : isBody border st with
        | none => simp [hb] at hl
        | some b =>
          cases b with
          | true => simp only [hb, Option.some.injEq] at hl; subst hl; exact he.small
          | false =>
            simp only [hb, bind, Option.bind_eq_some_iff, Option.some.injEq] at hl
            obtain ⟨u, hu, n, hn, rfl⟩ := hl
            exact room_mod ((hR u hu).len ht.1 hn) he
      · split at hl
        · subst_vars
          cases hb : isBody border st with
          | none => simp [hb] at hl
          | some b =>
            cases b with
            | true =>
              simp only [hb, bind, Option.bind_eq_some_iff, Option.some.injEq] at hl
              obtain ⟨u, hu, n, hn, rfl⟩ := hl
              exact room_div ((hR u hu).len ht.1 hn) he
            | false =>
              simp only [hb, Option.some.injEq] at hl
              subst hl
              obtain ⟨n, -, h0, h1⟩ := he
              exact ⟨1, rfl, by omega⟩
        · rw [Option.bind_eq_some_iff] at hl
          obtain ⟨u, hu, hl⟩ := hl
          have hqd : q ≠ d := by
            rintro rfl
            simp_all
          exact (hR u hu).len (by plain_tac hq) hl
  | mergeBlocks maj min d => exact he.elim
  | mergeZ sl gl ds d => exact he.elim

theorem Struct.easy_roomy {M : Nat} (s : Struct) (ht : s.tame) {L : Dim → Prop} (he : s.easy M L) {st : State}
    (h : EasyState M L s st) : s.Roomy M st := by
  induction s generalizing L st with
  | scalar => exact h.small
  | tuple t n fs ih =>
    refine ⟨h.small, fun i => ih i (ht i) (he i) ⟨fun e v hv => h.1 e v (by simpa [State.remove] using hv),
      fun e v hh hv => h.2 e v (.inr ⟨i, hh⟩) ?_⟩⟩
    simp only [State.remove] at hv
    split at hv
    · cases hv
    · exact hv
  | vector d s ih =>
    refine ⟨h.small, ih ht he ⟨fun e v hv => ?_, fun e v hh hv => ?_⟩⟩
    · by_cases hed : e = d
      · simp [State.removeAll, hed] at hv
      · have := h.1 e v (by simpa [State.removeAll, hed] using hv)
        exact ⟨⟨hed, this.1⟩, this.2⟩
    · by_cases hed : e = d
      · simp [State.removeAll, hed] at hv
      · exact h.2 e v ⟨hed, hh⟩ (by simpa [State.removeAll, hed] using hv)
  | union n ss ih =>
    exact ⟨h.small, fun i => ih i (ht i) (he i) ⟨h.1, fun e v hh hv => h.2 e v ⟨i, hh⟩ hv⟩⟩
  | view v s ih =>
    have key : ∀ w, Under (.view v s) w st → ∀ u, (v.sem .ideal (s.sem .ideal)).sub w = some u → s.Roomy M u :=
      fun w hw u hu => ih ht.1 he.2 (easy_sub ht.2 he.1 (h.under hw) hu)
    refine ⟨h.small, ?_, fun w hw => ⟨fun q l hq hl => easy_len ht.2 he.1 (h.under hw) (key w hw) hq hl, ?_, key w hw⟩⟩
    · rintro sl gl ds d rfl
      exact he.1.elim
    · rintro maj min d rfl
      exact he.1.elim

end Noarr
