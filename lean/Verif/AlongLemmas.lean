import Verif.Along
import Verif.Layout

/-
Offsets are affine in the index of a dimension that has a stride. Used for C38, C39, C40.
-/

set_option linter.unusedVariables false
set_option linter.unusedSimpArgs false

namespace Noarr

/-! ### What stride queries depend on -/

/-- The dimension of the structure below that a dimension of the view corresponds to; `none` if the
view ignores the index, or merges dimensions. -/
def View.inner (d : Dim) : View → Option Dim
  | .bcast e => if d = e then none else some d
  | .rename ps => some (Sig.renameDim (ps.map Prod.swap) d)
  | .intoBlocks e maj min => if d = maj ∨ d = min then some e else some d
  | .intoBlocksStat e border maj min _ =>
    if d = maj ∨ d = min then some e else if d = border then none else some d
  | .intoBlocksDyn e maj min pres =>
    if d = maj ∨ d = min then some e else if d = pres then none else some d
  | .join _ _ e => if d = e then none else some d
  | .mergeBlocks _ _ e => if d = e then none else some d
  | .mergeZ _ _ _ e => if d = e then none else some d
  | _ => some d

/-- Along a dimension that is merged or `DimIsBorder`, or along the blocks of the border (of which
there is only one), the index below is not an affine function of the index above. -/
def View.straight (d : Dim) (st : State) : View → Prop
  | .intoBlocksStat _ border maj _ _ => d ≠ border ∧ (d = maj → st (.idx border) = some (.lit 0))
  | .mergeBlocks _ _ e => d ≠ e
  | .mergeZ _ _ _ e => d ≠ e
  | _ => True

/-- Between `g` and `h`: the index in `b` is that of `g`, the rest is from `h`. -/
def State.cross (b : Dim) (g h : State) : State := fun tag => if tag = .idx b then g tag else h tag

/-- Off the diagonal: if there is a number for two states that have, each, the same index in `a` and `b`
(and are otherwise equal to `u`), then there is one with the index in `a` of one and the index in `b`
of the other. -/
def Crosses (F : State → Option Val) (a b : Dim) (u : State) : Prop :=
  ∀ (g h : State) (o o' : Val) (m n : Nat), g.removeAll [.idx a, .idx b] = u → h.removeAll [.idx a, .idx b] = u →
    g (.idx a) = g (.idx b) → h (.idx a) = h (.idx b) → F g = some o → F h = some o' → o.Num m → o'.Num n →
    ∃ o'' k, F (State.cross b g h) = some o'' ∧ o''.Num k

/-- `View.straight` for all the views between the dimension and the vector it comes from. A joined
dimension comes from two, and the elements off the diagonal have offsets as well. -/
def Struct.straight (A : Arith) : Struct → Dim → State → Prop
  | .scalar _ _, _, _ => True
  | .tuple _ _ _, _, _ => True
  | .union _ _, _, _ => True
  | .vector e s, d, st => d = e ∨ s.straight A d (st.removeAll [.idx e, .len e])
  | .view v s, d, st => (v.straight d st ∧
    ∀ d' u, v.inner d = some d' → (v.sem A (s.sem A)).sub st = some u → s.straight A d' u) ∧
    ∀ a b e u, v = .join a b e → d = e → (v.sem A (s.sem A)).sub st = some u →
      (∀ w, w.remove (.idx b) = u → s.straight A a w) ∧ (∀ w, w.remove (.idx a) = u → s.straight A b w) ∧
      ∀ start, Crosses (fun st => (s.sem A).off st start) a b u

/-- No `step` in another dimension, on the way to the vector. -/
def Struct.unscaled : Struct → Dim → Prop
  | .scalar _ _, _ => True
  | .tuple _ _ _, _ => True
  | .union _ _, _ => True
  | .vector e s, d => d = e ∨ s.unscaled d
  | .view v s, d => ((∀ e a k, v = .step e a k → d = e) ∧ ∀ d', v.inner d = some d' → s.unscaled d') ∧
    ∀ a b e, v = .join a b e → d = e → s.unscaled a ∧ s.unscaled b

/-- The dimension is not fixed: no `fix` has set the index. -/
def Struct.reaches : Struct → Dim → Prop
  | .scalar _ _, _ => True
  | .tuple _ _ _, _ => True
  | .union _ _, _ => True
  | .vector e s, d => d = e ∨ s.reaches d
  | .view v s, d => ((∀ e i, v = .fix e i → d ≠ e) ∧ ∀ d', v.inner d = some d' → s.reaches d') ∧
    ∀ a b e, v = .join a b e → d = e → a ≠ b ∧ s.reaches a ∧ s.reaches b

/-- The view hands the index in `d` down as an index in `v.inner d`. -/
def View.follows (d : Dim) : View → Prop
  | .fix e _ => d ≠ e
  | .join a b e => d ≠ a ∧ d ≠ b ∧ d ≠ e
  | .rename ps => d ∈ ps.map Prod.fst → d ∈ ps.map Prod.snd
  | .intoBlocks e maj min => d = e → d = maj ∨ d = min
  | .intoBlocksStat e border maj min _ => d ≠ border ∧ (d = e → d = maj ∨ d = min)
  | .intoBlocksDyn e maj min _ => d = e → d = maj ∨ d = min
  | .mergeBlocks maj min e => d ≠ maj ∧ d ≠ min ∧ d ≠ e
  | .mergeZ _ _ ds e => d ≠ e ∧ d ∉ ds
  | _ => True

theorem inner_of_not_dims {v : View} {d : Dim} (h : d ∉ v.dims) : v.inner d = some d := by
  cases v <;> simp only [View.inner, View.dims, List.mem_cons, List.not_mem_nil, or_false, not_or,
    List.mem_append] at h ⊢ <;> first | rfl | grind | skip
  next ps =>
    rw [renameDim_of_not_mem]
    simpa using h.2

/-- Leaving out the index in a dimension. -/
theorem sub_erase {A : Arith} {v : View} {s : Struct} (ht : (Struct.view v s).tame)
    (hs : (Struct.view v s).sane A) {d d' : Dim} (hd : d ∉ v.dims → ¬ s.hard d)
    (hi : v.inner d = some d')
    (hf : v.follows d) {g u : State} (hu : (v.sem A (s.sem A)).sub g = some u) :
    (v.sem A (s.sem A)).sub (g.remove (.idx d)) = some (u.remove (.idx d')) := by
  have ih : LD A s := Struct.length_dep A s ht.1
  by_cases hq : d ∉ v.dims
  · have : d' = d := by rw [inner_of_not_dims hq] at hi; exact (Option.some.inj hi).symm
    subst this
    refine sub_remove ih ht.2 (hd hq) hq ?_ hu
    rintro e rfl
    exact hs.2.1
  have hq := Classical.not_not.1 hq
  cases v with
  | bcast e => simp [View.dims] at hq; simp [View.inner, hq] at hi
  | fix e i => simp [View.dims] at hq; exact absurd hq hf
  | setLength e l => simp [View.dims] at hq
  | reorder ds => simp [View.dims] at hq
  | hoist e => simp [View.dims] at hq
  | shift e a =>
    simp [View.dims] at hq; subst hq; cases hi; cases hu
    simp only [View.sem, shiftSem, Option.some.injEq]; state_eq
  | slice e a n =>
    simp [View.dims] at hq; subst hq; cases hi; cases hu
    simp only [View.sem, sliceSem, Option.some.injEq]; state_eq
  | span e a n =>
    simp [View.dims] at hq; subst hq; cases hi; cases hu
    simp only [View.sem, spanSem, Option.some.injEq]; state_eq
  | step e a n =>
    simp [View.dims] at hq; subst hq; cases hi; cases hu
    simp only [View.sem, stepSem, Option.some.injEq]; state_eq
  | reverse e =>
    simp [View.dims] at hq; subst hq; cases hi
    simp only [View.sem, reverseSem] at hu ⊢
    have e1 : (g.remove (.idx d)) (.idx d) = none := by simp [State.remove]
    rw [e1]
    cases hg : g (.idx d) with
    | none => simp only [hg, Option.some.injEq] at hu ⊢; subst hu; rfl
    | some i =>
      simp only [hg] at hu ⊢
      split at hu
      · simp at hu
      · cases hu; simp only [Option.some.injEq]; state_eq
      · simp only [bind, Option.bind_eq_some_iff, Option.some.injEq] at hu
        obtain ⟨l, -, rfl⟩ := hu
        simp only [Option.some.injEq]; state_eq
  | rename ps =>
    simp only [View.inner, Option.some.injEq] at hi
    have hx : d ∈ ps.map Prod.snd := by
      simp only [View.dims, List.mem_append] at hq
      rcases hq with h | h
      · exact hf h
      · exact h
    obtain ⟨⟨n, e⟩, hm, rfl⟩ := List.mem_map.1 hx
    have hsw : (e, n) ∈ ps.map Prod.swap := List.mem_map.2 ⟨_, hm, rfl⟩
    have hnd : ((ps.map Prod.swap).map Prod.fst).Nodup := by
      simpa [List.map_map, Function.comp_def] using ht.2.2
    rw [renameDim_of_mem hnd hsw] at hi
    subst hi
    cases hu
    simp only [View.sem, renameSem, Option.some.injEq]
    funext tag
    cases tag with
    | len x => simp only [State.remove, renameState_len, reduceCtorEq, if_false]
    | idx x =>
      simp only [State.remove, Tag.idx.injEq, renameState_idx]
      by_cases hxn : x = n
      · subst hxn
        rw [renameDim_of_mem ht.2.1 hm]; simp
      · rw [if_neg hxn]
        by_cases h1 : x ∈ ps.map Prod.fst
        · obtain ⟨⟨y, c⟩, hy, rfl⟩ := List.mem_map.1 h1
          rw [renameDim_of_mem ht.2.1 hy]
          have : c ≠ e := by
            intro h
            have := renameDim_of_mem hnd (List.mem_map.2 ⟨_, hy, rfl⟩ : (c, y) ∈ ps.map Prod.swap)
            rw [h, renameDim_of_mem hnd hsw] at this
            exact hxn this.symm
          simp [this]
        · rw [renameDim_of_not_mem h1]
          by_cases h2 : x = e
          · subst h2; simp [h1, hx]
          · simp [h2]
  | join a b e => simp [View.dims] at hq; simp [View.follows] at hf; grind
  | intoBlocks e maj min =>
    have hdm : d = maj ∨ d = min := by
      simp [View.dims] at hq; simp [View.follows] at hf; grind
    simp only [View.inner, hdm, ↓reduceIte, Option.some.injEq] at hi
    subst hi
    have e0 : blocksClean e maj min (g.remove (.idx d)) = blocksClean e maj min g := by
      rcases hdm with rfl | rfl <;> state_eq
    have e3 : (g.remove (.idx d)) (.len maj) = g (.len maj) := by state_val
    have e4 : (g.remove (.idx d)) (.len min) = g (.len min) := by state_val
    have e5 : (g.remove (.idx d)) (.idx maj) = none ∨ (g.remove (.idx d)) (.idx min) = none := by
      rcases hdm with rfl | rfl <;> simp [State.remove]
    have cl : ∀ (st : State), st (.idx e) = none → st = st.remove (.idx e) :=
      fun st h => (State.remove_absent st _ h).symm
    simp only [View.sem, intoBlocksSem, intoBlocksSub] at hu ⊢
    rw [e0, e3, e4]
    cases hl : g (.len min) with
    | some nl =>
      simp only [hl] at hu ⊢
      split
      · next hI hJ => simp [hI, hJ] at e5
      cases hm : g (.len maj) <;> cases hI : g (.idx maj) <;> cases hJ : g (.idx min) <;>
        simp only [hm, hI, hJ, Option.some.injEq] at hu ⊢ <;> subst hu <;> state_eq
    | none =>
      simp only [hl] at hu ⊢
      split at hu
      · simp at hu
      · next h => cases hu; simp only [h, Option.some.injEq]; state_eq
      · next h =>
        try simp only [h]
        split
        · next hI hJ => simp [hI, hJ] at e5
        cases hm : g (.len maj) <;> cases hI : g (.idx maj) <;> cases hJ : g (.idx min) <;>
          simp only [hm, hI, hJ, Option.some.injEq, bind, Option.bind_eq_some_iff] at hu ⊢ <;>
          first
          | (subst hu; state_eq; done)
          | (obtain ⟨l, -, rfl⟩ := hu; state_eq)
  | intoBlocksDyn e maj min pres =>
    have hdm : d = maj ∨ d = min := by
      refine Classical.byContradiction fun hc => ?_
      simp [View.dims] at hq
      simp only [View.follows] at hf
      simp only [View.inner, hc, if_false] at hi
      split at hi <;> simp at hi
      grind
    simp only [View.inner, hdm, ↓reduceIte, Option.some.injEq] at hi
    subst hi
    have e0 : dynClean e maj min pres (g.remove (.idx d)) = dynClean e maj min pres g := by
      unfold dynClean
      rcases hdm with rfl | rfl <;> state_eq
    have e3 : (g.remove (.idx d)) (.len maj) = g (.len maj) := by state_val
    have e4 : (g.remove (.idx d)) (.len min) = g (.len min) := by state_val
    have e8 : (g.remove (.idx d)).has (.len pres) = g.has (.len pres) := by state_val
    have e5 : (g.remove (.idx d)) (.idx maj) = none ∨ (g.remove (.idx d)) (.idx min) = none := by
      rcases hdm with rfl | rfl <;> simp [State.remove]
    simp only [View.sem, intoBlocksDynSem, intoBlocksDynSub, blocksDynClean_eq] at hu ⊢
    rw [e0, e3, e4, e8]
    split at hu
    · simp at hu
    next hp =>
    simp only [hp, Bool.false_eq_true, ↓reduceIte, bind, Option.bind_some] at hu ⊢
    cases hl : g (.len min) with
    | some nl =>
      simp only [hl] at hu ⊢
      split
      · next hI hJ => simp [hI, hJ] at e5
      cases hm : g (.len maj) <;> cases hI : g (.idx maj) <;> cases hJ : g (.idx min) <;>
        simp only [hm, hI, hJ, Option.some.injEq] at hu ⊢ <;> subst hu <;> unfold dynClean <;> state_eq
    | none =>
      simp only [hl] at hu ⊢
      split
      · next hI hJ => simp [hI, hJ] at e5
      cases hm : g (.len maj) <;> cases hI : g (.idx maj) <;> cases hJ : g (.idx min) <;>
        simp only [hm, hI, hJ, Option.some.injEq, bind, Option.bind_eq_some_iff] at hu ⊢ <;>
        first
        | (subst hu; unfold dynClean; state_eq; done)
        | (obtain ⟨l, -, rfl⟩ := hu; unfold dynClean; state_eq)
  | intoBlocksStat e border maj min nl =>
    have hdm : d = maj ∨ d = min := by
      simp [View.dims] at hq; simp [View.follows] at hf; grind
    simp only [View.inner, hdm, ↓reduceIte, Option.some.injEq] at hi
    subst hi
    have hb : d ≠ border := hf.1
    have e0 : statClean e border maj min (g.remove (.idx d)) = statClean e border maj min g := by
      unfold statClean
      rcases hdm with rfl | rfl <;> state_eq
    have e3 : (g.remove (.idx d)).has (.len maj) = g.has (.len maj) := by state_val
    have e4 : (g.remove (.idx d)).has (.len min) = g.has (.len min) := by state_val
    have e8 : (g.remove (.idx d)).has (.len border) = g.has (.len border) := by state_val
    have e9 : (g.remove (.idx d)).has (.idx border) = g.has (.idx border) := by
      simp [State.has, State.remove, Ne.symm hb]
    have e5 : (g.remove (.idx d)) (.idx maj) = none ∨ (g.remove (.idx d)) (.idx min) = none := by
      rcases hdm with rfl | rfl <;> simp [State.remove]
    simp only [View.sem, intoBlocksStatSem, intoBlocksStatSub, blocksStatClean_eq] at hu ⊢
    rw [e0, e3, e4, e8, e9]
    split at hu
    · simp at hu
    next hp =>
    simp only [hp, Bool.false_eq_true, ↓reduceIte, bind, Option.bind_some] at hu ⊢
    have cl : statClean e border maj min g = (statClean e border maj min g).remove (.idx e) := by
      unfold statClean; state_eq
    split at hu
    · next hb =>
      simp only [hb, ↓reduceIte]
      split
      · next hI hJ => simp [hI, hJ] at e5
      cases hI : g (.idx maj) <;> cases hJ : g (.idx min) <;>
        simp only [hI, hJ, Option.some.injEq, Option.bind_eq_some_iff] at hu ⊢
      · subst hu; exact cl
      · subst hu; exact cl
      · subst hu; exact cl
      · obtain ⟨b, -, hu⟩ := hu
        cases b
        · simp only [Bool.false_eq_true, if_false, Option.bind_eq_some_iff, Option.some.injEq] at hu
          obtain ⟨l, -, rfl⟩ := hu
          unfold statClean; state_eq
        · simp only [↓reduceIte, Option.some.injEq] at hu
          subst hu; unfold statClean; state_eq
    · next hb =>
      simp only [hb, Bool.false_eq_true, if_false]
      cases hu; rw [← cl]
  | mergeBlocks maj min e => simp [View.dims] at hq; simp [View.follows] at hf; grind
  | mergeZ sl gl ds e => simp [View.dims] at hq; simp [View.follows] at hf; grind

/-! ### Offsets are linear in the start -/

theorem off_shift (s : Struct) (st : State) : ∃ k : Nat, ∀ start o a m,
    (s.sem .ideal).off st start = some o → start.Num a → o.Num m → m = a + k := by
  induction s generalizing st with
  | scalar z b =>
    refine ⟨0, ?_⟩
    intro start o a m h ha hm
    cases h
    exact Val.Num.eq hm ha
  | tuple t n fs ih =>
    simp only [Struct.sem, tupleSem, bind]
    cases hj : constIdx (st (.idx t)) with
    | none => exact ⟨0, fun start o a m h => by simp at h⟩
    | some j =>
      by_cases hjn : j < n
      · obtain ⟨k, hk⟩ := ih ⟨j, hjn⟩ (st.remove (.idx t))
        cases hb : sizeAcc .ideal (st.remove (.idx t))
            ((List.ofFn fun i => (fs i).sem .ideal).take j) (.lit 0) with
        | none => exact ⟨0, fun start o a m h => by simp [hjn, hb] at h⟩
        | some before =>
          by_cases hbn : ∃ B, before.Num B
          · obtain ⟨B, hB⟩ := hbn
            refine ⟨B + k, ?_⟩
            intro start o a m h ha hm
            simp [hjn, hb] at h
            have := hk _ _ _ _ h (Val.nat?_add.2 ⟨B, a, hB, ha, rfl⟩) hm
            omega
          · refine ⟨0, ?_⟩
            intro start o a m h ha hm
            simp [hjn, hb] at h
            obtain ⟨c, hc⟩ := off_start (s := fs ⟨j, hjn⟩) h hm
            obtain ⟨x, y, hx, hy, -⟩ := Val.nat?_add.1 hc
            exact absurd ⟨x, hx⟩ hbn
      · exact ⟨0, fun start o a m h => by simp [hjn] at h⟩
  | vector d s ih =>
    simp only [Struct.sem, vectorSem, bind]
    obtain ⟨k, hk⟩ := ih (st.removeAll [.idx d, .len d])
    cases hi : st (.idx d) with
    | none => exact ⟨0, fun start o a m h => by simp at h⟩
    | some i =>
      cases hl : st (.len d) with
      | none => exact ⟨0, fun start o a m h => by simp at h⟩
      | some l =>
        simp only [Option.bind_some]
        split
        · exact ⟨k, fun start o a m h ha hm => hk _ _ _ _ h ha hm⟩
        · refine ⟨0, ?_⟩
          intro start o a m h ha hm
          simp only [Option.bind_eq_some_iff, Option.some.injEq] at h
          obtain ⟨_, -, rfl⟩ := h
          simp [Val.Num] at hm
        · cases hz : (s.sem .ideal).size (st.removeAll [.idx d, .len d]) with
          | none => exact ⟨0, fun start o a m h => by simp at h⟩
          | some sz =>
            simp only [Option.bind_some]
            by_cases hbn : ∃ B, (i.mul .ideal sz).Num B
            · obtain ⟨B, hB⟩ := hbn
              refine ⟨B + k, ?_⟩
              intro start o a m h ha hm
              have := hk _ _ _ _ h (Val.nat?_add.2 ⟨B, a, hB, ha, rfl⟩) hm
              omega
            · refine ⟨0, ?_⟩
              intro start o a m h ha hm
              obtain ⟨c, hc⟩ := off_start (s := s) h hm
              obtain ⟨x, y, hx, hy, -⟩ := Val.nat?_add.1 hc
              exact absurd ⟨x, hx⟩ hbn
  | union n ss ih => exact ⟨0, fun start o a m h => by simp [Struct.sem, unionSem] at h⟩
  | view v s ih =>
    simp only [Struct.sem, ViewSem.toSem]
    split
    · cases hu : (v.sem .ideal (s.sem .ideal)).sub st with
      | none => exact ⟨0, fun start o a m h => by simp at h⟩
      | some u => exact ih u
    · exact ⟨0, fun start o a m h => by simp at h⟩

/-! ### Affine offsets -/

/-- With the indices in `f` and an index in `d`, the number `F` is affine in that index, with slope
`Z`; or the index is not used, and `Z` is zero. -/
def AffineFn (F : State → Option Val) (d : Dim) (f : State) (Z : Int) : Prop :=
  ∀ (g h : State) (o o' : Val) (m n : Nat), g.remove (.idx d) = f → h.remove (.idx d) = f →
    F g = some o → F h = some o' → o.Num m → o'.Num n →
    (∃ i j a b, g (.idx d) = some i ∧ h (.idx d) = some j ∧ i.Num a ∧ j.Num b ∧
      (n : Int) - m = ((b : Int) - a) * Z) ∨ (Z = 0 ∧ n = m)

/-- `AffineFn` for the offset. -/
def AffineAt (s : Struct) (d : Dim) (f : State) (Z : Int) : Prop :=
  ∀ (g h : State) (start o o' : Val) (m n : Nat), g.remove (.idx d) = f → h.remove (.idx d) = f →
    (s.sem .ideal).off g start = some o → (s.sem .ideal).off h start = some o' →
    o.Num m → o'.Num n →
    (∃ i j a b, g (.idx d) = some i ∧ h (.idx d) = some j ∧ i.Num a ∧ j.Num b ∧
      (n : Int) - m = ((b : Int) - a) * Z) ∨ (Z = 0 ∧ n = m)

theorem AffineAt.fn {s : Struct} {d : Dim} {f : State} {Z : Int} (h : AffineAt s d f Z) (start : Val) :
    AffineFn (fun st => (s.sem .ideal).off st start) d f Z :=
  fun g h' o o' m n h1 h2 h3 h4 h5 h6 => h g h' start o o' m n h1 h2 h3 h4 h5 h6

theorem AffineAt.of_fn {s : Struct} {d : Dim} {f : State} {Z : Int}
    (h : ∀ start, AffineFn (fun st => (s.sem .ideal).off st start) d f Z) : AffineAt s d f Z :=
  fun g h' start o o' m n h1 h2 h3 h4 h5 h6 => h start g h' o o' m n h1 h2 h3 h4 h5 h6

/-- The number `F'` is `F` in the state that the view hands down. -/
def Reads (v : View) (s : Struct) (F F' : State → Option Val) : Prop :=
  ∀ g o, F' g = some o → ∃ u, (v.sem .ideal (s.sem .ideal)).sub g = some u ∧ F u = some o

theorem reads_off {v : View} {s : Struct} (start : Val) :
    Reads v s (fun st => (s.sem .ideal).off st start) (fun st => ((Struct.view v s).sem .ideal).off st start) := by
  intro g o ho
  simp only [Struct.sem, ViewSem.toSem] at ho
  split at ho
  · exact Option.bind_eq_some_iff.1 ho
  · simp at ho

section
variable {F F' : State → Option Val}

theorem afn_view {v : View} {s : Struct} {d d' : Dim} {f : State} {Z Z' : Int} (hR : Reads v s F F')
    (hsub : ∀ g u, g.remove (.idx d) = f → (v.sem .ideal (s.sem .ideal)).sub g = some u →
      (v.sem .ideal (s.sem .ideal)).sub f = some (u.remove (.idx d')))
    (H : ∀ uf, (v.sem .ideal (s.sem .ideal)).sub f = some uf → AffineFn F d' uf Z)
    (hidx : ∀ g h u w, g.remove (.idx d) = f → h.remove (.idx d) = f →
      (v.sem .ideal (s.sem .ideal)).sub g = some u → (v.sem .ideal (s.sem .ideal)).sub h = some w →
      ∀ i j a b, u (.idx d') = some i → w (.idx d') = some j → i.Num a → j.Num b →
      ∃ i' j' a' b', g (.idx d) = some i' ∧ h (.idx d) = some j' ∧ i'.Num a' ∧ j'.Num b' ∧
        ((b : Int) - a) * Z = ((b' : Int) - a') * Z')
    (h0 : Z = 0 → Z' = 0) : AffineFn F' d f Z' := by
  intro g h o o' m n hg hh ho ho' hm hn
  obtain ⟨u, hu, ho⟩ := hR g o ho
  obtain ⟨w, hw, ho'⟩ := hR h o' ho'
  have e1 := hsub g u hg hu
  have e2 := hsub h w hh hw
  rw [e1] at e2
  have e2 := Option.some.inj e2
  rcases H _ e1 u w o o' m n rfl e2.symm ho ho' hm hn with
    ⟨i, j, a, b, hi, hj, ha, hb, he⟩ | ⟨hz, he⟩
  · obtain ⟨i', j', a', b', h1, h2, h3, h4, h5⟩ := hidx g h u w hg hh hu hw i j a b hi hj ha hb
    exact .inl ⟨i', j', a', b', h1, h2, h3, h4, by rw [he, h5]⟩
  · exact .inr ⟨h0 hz, he⟩

/-- A view that does not touch the dimension. -/
theorem afn_pass {v : View} {s : Struct} (hR : Reads v s F F') (ht : (Struct.view v s).tame)
    (hs : (Struct.view v s).sane .ideal) {d : Dim} (hd : ¬ s.hard d) (hq : d ∉ v.dims) {f : State}
    {Z : Int} (H : ∀ uf, (v.sem .ideal (s.sem .ideal)).sub f = some uf → AffineFn F d uf Z) :
    AffineFn F' d f Z := by
  refine afn_view (d' := d) (Z := Z) hR ?_ H ?_ id
  · rintro g u rfl hu
    refine sub_remove (Struct.length_dep .ideal s ht.1) ht.2 hd hq ?_ hu
    rintro e rfl
    exact hs.2.1
  · intro g h u w hg hh hu hw i j a b hi hj ha hb
    rw [sub_idx hq hu] at hi
    rw [sub_idx hq hw] at hj
    exact ⟨i, j, a, b, hi, hj, ha, hb, rfl⟩

end

theorem affine_pass {v : View} {s : Struct} (ht : (Struct.view v s).tame)
    (hs : (Struct.view v s).sane .ideal) {d : Dim} (hd : ¬ s.hard d) (hq : d ∉ v.dims) {f : State}
    {Z : Int} (H : ∀ uf, (v.sem .ideal (s.sem .ideal)).sub f = some uf → AffineAt s d uf Z) :
    AffineAt (.view v s) d f Z :=
  .of_fn fun start => afn_pass (reads_off start) ht hs hd hq fun uf h => (H uf h).fn start

theorem affine_vector {d : Dim} {s : Struct} {f : State} {Z : Int}
    (hZ : ∀ l, f (.len d) = some l →
      (l = .lit 1 → Z = 0) ∧ (l ≠ .lit 1 → ∀ sz N,
        (s.sem .ideal).size (f.removeAll [.idx d, .len d]) = some sz → sz.Num N → Z = N)) :
    AffineAt (.vector d s) d f Z := by
  rintro g h start o o' m n rfl hh ho ho' hm hn
  have hsub : ∀ g h : State, h.remove (.idx d) = g.remove (.idx d) →
      h.removeAll [.idx d, .len d] = g.removeAll [.idx d, .len d] := by
    intro g h e
    funext tag
    have := congrFun e tag
    simp only [State.remove, State.removeAll, List.mem_cons, List.not_mem_nil, or_false] at this ⊢
    grind
  have e1 : h.removeAll [.idx d, .len d] = g.removeAll [.idx d, .len d] := hsub _ _ hh
  have e2 : (g.remove (.idx d)).removeAll [.idx d, .len d] = g.removeAll [.idx d, .len d] := by state_eq
  have e3 : h (.len d) = g (.len d) := by
    have := congrFun hh (.len d); simpa [State.remove] using this
  have e4 : (g.remove (.idx d)) (.len d) = g (.len d) := by simp [State.remove]
  rw [e2, e4] at hZ
  simp only [Struct.sem, vectorSem, bind, Option.bind_eq_some_iff, e1, e3] at ho ho'
  obtain ⟨i, hi, l, hl, ho⟩ := ho
  obtain ⟨j, hj, l', hl', ho'⟩ := ho'
  rw [hl] at hl'
  obtain rfl := Option.some.inj hl'
  obtain ⟨k, hk⟩ := off_shift s (g.removeAll [.idx d, .len d])
  split at ho
  · refine .inr ⟨(hZ _ hl).1 rfl, ?_⟩
    rw [ho] at ho'
    cases ho'
    exact Val.Num.eq hn hm
  · simp only [Option.bind_eq_some_iff, Option.some.injEq] at ho
    obtain ⟨_, -, rfl⟩ := ho
    simp [Val.Num] at hm
  · next hl1 hl2 =>
    have ho2 : ((s.sem .ideal).size (g.removeAll [.idx d, .len d])).bind (fun sz =>
        (s.sem .ideal).off (g.removeAll [.idx d, .len d]) ((j.mul .ideal sz).add .ideal start)) = some o' := by
      split at ho'
      · exact absurd rfl hl1
      · exact absurd rfl (hl2 _)
      · exact ho'
    simp only [Option.bind_eq_some_iff] at ho ho2
    obtain ⟨sz, hsz, ho⟩ := ho
    obtain ⟨sz', hsz', ho2⟩ := ho2
    rw [hsz] at hsz'
    obtain rfl := Option.some.inj hsz'
    obtain ⟨c, hc⟩ := off_start (s := s) ho hm
    obtain ⟨c', hc'⟩ := off_start (s := s) ho2 hn
    have f1 := hk _ _ _ _ ho hc hm
    have f2 := hk _ _ _ _ ho2 hc' hn
    obtain ⟨x, y, hx, hy, rfl⟩ := Val.nat?_add.1 hc
    obtain ⟨x', y', hx', hy', rfl⟩ := Val.nat?_add.1 hc'
    have := Val.Num.eq hy hy'
    subst this
    obtain ⟨I, N, hI, hN, rfl⟩ := Val.nat?_mul.1 hx
    obtain ⟨J, N', hJ, hN', rfl⟩ := Val.nat?_mul.1 hx'
    have := Val.Num.eq hN hN'
    subst this
    have hz := (hZ l hl).2 hl1 sz N hsz hN
    refine .inl ⟨i, j, I, J, hi, hj, hI, hJ, ?_⟩
    rw [hz, f1, f2]
    grind

/-- An outer vector. -/
theorem affine_vector_ne {d e : Dim} (hne : d ≠ e) {s : Struct} {f : State} {Z : Int}
    (hr : Firm s (f.removeAll [.idx e, .len e]))
    (H : AffineAt s d (f.removeAll [.idx e, .len e]) Z) : AffineAt (.vector e s) d f Z := by
  rintro g h start o o' m n rfl hh ho ho' hm hn
  have hcom : ∀ g : State, (g.removeAll [.idx e, .len e]).remove (.idx d) =
      (g.remove (.idx d)).removeAll [.idx e, .len e] := by
    intro g; state_eq
  have e1 : h (.idx e) = g (.idx e) := by
    have := congrFun hh (.idx e); simpa [State.remove, Ne.symm hne] using this
  have e2 : h (.len e) = g (.len e) := by
    have := congrFun hh (.len e); simpa [State.remove] using this
  have hl : ∀ g : State, SameLens ((g.remove (.idx d)).removeAll [.idx e, .len e])
      (g.removeAll [.idx e, .len e]) := by
    intro g x; simp [State.remove, State.removeAll]
  simp only [Struct.sem, vectorSem, bind, Option.bind_eq_some_iff, e1, e2] at ho ho'
  obtain ⟨i, hi, l, hl1, ho⟩ := ho
  obtain ⟨i', hi', l', hl1', ho'⟩ := ho'
  rw [hi] at hi'; cases hi'
  rw [hl1] at hl1'; cases hl1'
  have go : ∀ start, (s.sem .ideal).off (g.removeAll [.idx e, .len e]) start = some o →
      (s.sem .ideal).off (h.removeAll [.idx e, .len e]) start = some o' →
      (∃ i j a b, g (.idx d) = some i ∧ h (.idx d) = some j ∧ i.Num a ∧ j.Num b ∧
      (n : Int) - m = ((b : Int) - a) * Z) ∨ (Z = 0 ∧ n = m) := by
    intro start h1 h2
    have := H _ _ start o o' m n (hcom g) ((hcom h).trans (by rw [hh])) h1 h2 hm hn
    have x1 : ∀ g : State, (g.removeAll [.idx e, .len e]) (.idx d) = g (.idx d) := by
      intro g; simp [State.removeAll, hne]
    rwa [x1, x1] at this
  split at ho
  · exact go _ ho ho'
  · simp only [Option.bind_eq_some_iff, Option.some.injEq] at ho
    obtain ⟨_, -, rfl⟩ := ho
    simp [Val.Num] at hm
  · next hl1 hl2 =>
    have ho2 : ((s.sem .ideal).size (h.removeAll [.idx e, .len e])).bind (fun sz =>
        (s.sem .ideal).off (h.removeAll [.idx e, .len e]) ((i.mul .ideal sz).add .ideal start)) = some o' := by
      split at ho'
      · exact absurd rfl hl1
      · exact absurd rfl (hl2 _)
      · exact ho'
    simp only [Option.bind_eq_some_iff] at ho ho2
    obtain ⟨sz, hsz, ho⟩ := ho
    obtain ⟨sz', hsz', ho2⟩ := ho2
    have hr' : s.rigid .ideal (g.removeAll [.idx e, .len e]) :=
      (Firm.congr (hl g) hr).rigid
    have : SameLens (g.removeAll [.idx e, .len e]) (h.removeAll [.idx e, .len e]) := by
      intro x
      have := congrFun hh (.len x)
      simp only [State.remove, reduceCtorEq, if_false] at this
      simp only [State.removeAll]
      rw [this]
    have := Struct.size_det .ideal s hr' this hsz hsz'
    subst this
    exact go _ ho ho2

end Noarr
