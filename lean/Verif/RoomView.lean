import Verif.RoomLen

/-
Lengths of views are computed exactly when `size_t` is wide enough. Used for C56.
-/

set_option linter.unusedVariables false
set_option linter.unusedSimpArgs false

namespace Noarr

theorem Le.subx {α : Type} {x y : Option State} {f g : State → Option α}
    (h : ∀ u, x = some u → y = some u ∧ Le (f u) (g u)) : Le (x.bind f) (y.bind g) := by
  intro a ha
  rw [Option.bind_eq_some_iff] at ha
  obtain ⟨u, hu, ha⟩ := ha
  obtain ⟨h1, h2⟩ := h u hu
  rw [h1]
  exact h2 a ha

/-- proves that a dimension is an ordinary one of the contained structure -/
macro "plain_tac" h:ident : tactic => `(tactic| (
  have hp := $h
  simp only [Struct.plain, Struct.hard, Struct.soft, Struct.stale, View.hard, View.soft, View.stale] at hp ⊢
  grind))

section
variable {M W : Nat} (hM : 0 < M) (hW : 2 * M ≤ W) {s : Struct} (ex : LenExact M W s) {q : Dim} {st : State}

/-- what is to be proved for a view -/
def ViewExact (W : Nat) (v : View) (s : Struct) (q : Dim) (st : State) : Prop :=
  Le (((Struct.view v s).sem .ideal).hasLen q st) (((Struct.view v s).sem (.checked W)).hasLen q st) ∧
  Le (((Struct.view v s).sem .ideal).len q st) (((Struct.view v s).sem (.checked W)).len q st)

/-- the translated states are the same -/
def SubSame (M W : Nat) (v : View) (s : Struct) (st : State) : Prop :=
  ∀ u, (v.sem .ideal (s.sem .ideal)).sub st = some u →
    (v.sem (.checked W) (s.sem (.checked W))).sub st = some u ∧ s.Roomy M u

include ex

theorem vx_bcast {d : Dim} (hq : (Struct.view (.bcast d) s).plain q) (hs : SubSame M W (.bcast d) s st) :
    ViewExact W (.bcast d) s q st := by
  by_cases hqd : q = d
  · subst hqd
    constructor <;> simp [Struct.sem, View.sem, ViewSem.toSem, bcastSem, Le.refl]
  · have hp : s.plain q := by plain_tac hq
    have he := ex q _ hp (hs _ rfl).2
    have h1 : Le (((Struct.view (.bcast d) s).sem .ideal).hasLen q st)
        (((Struct.view (.bcast d) s).sem (.checked W)).hasLen q st) := by
      simp only [Struct.sem, View.sem, ViewSem.toSem, bcastSem, hqd, ↓reduceIte]
      exact he.1
    refine ⟨h1, Le.guard h1 fun _ => ?_⟩
    simp only [hqd, ↓reduceIte]
    exact he.2

theorem vx_fix {d : Dim} {i : Val} (hq : (Struct.view (.fix d i) s).plain q)
    (hs : SubSame M W (.fix d i) s st) : ViewExact W (.fix d i) s q st := by
  by_cases hqd : q = d
  · subst hqd
    constructor <;> simp [Struct.sem, View.sem, ViewSem.toSem, fixSem, guardLen, Le.refl]
  · have hp : s.plain q := by plain_tac hq
    have he := ex q _ hp (hs _ rfl).2
    have h1 : Le (((Struct.view (.fix d i) s).sem .ideal).hasLen q st)
        (((Struct.view (.fix d i) s).sem (.checked W)).hasLen q st) := by
      simp only [Struct.sem, View.sem, ViewSem.toSem, fixSem, hqd, ↓reduceIte]
      exact he.1
    exact ⟨h1, Le.guard h1 fun _ => he.2⟩

theorem vx_setLength {d : Dim} {l : Val} (hq : (Struct.view (.setLength d l) s).plain q)
    (hs : SubSame M W (.setLength d l) s st) : ViewExact W (.setLength d l) s q st := by
  have he := ex q _ hq (hs _ rfl).2
  exact ⟨he.1, Le.guard he.1 fun _ => he.2⟩

theorem vx_reorder {ds : List Dim} (hq : (Struct.view (.reorder ds) s).plain q)
    (hs : SubSame M W (.reorder ds) s st) (hsig : (s.sem .ideal).sig = (s.sem (.checked W)).sig) :
    ViewExact W (.reorder ds) s q st := by
  have he := ex q _ hq (hs _ rfl).2
  have h1 : Le (((Struct.view (.reorder ds) s).sem .ideal).hasLen q st)
      (((Struct.view (.reorder ds) s).sem (.checked W)).hasLen q st) := by
    simp only [Struct.sem, View.sem, ViewSem.toSem, reorderSem, hsig]
    split
    · exact he.1
    · exact Le.refl _
  exact ⟨h1, Le.guard h1 fun _ => he.2⟩

theorem vx_hoist {d : Dim} (hq : (Struct.view (.hoist d) s).plain q)
    (hs : SubSame M W (.hoist d) s st) : ViewExact W (.hoist d) s q st := by
  have he := ex q _ hq (hs _ rfl).2
  exact ⟨he.1, Le.guard he.1 fun _ => he.2⟩

theorem vx_rename {ps : List (Dim × Dim)} (h1 : (ps.map Prod.fst).Nodup) (h2 : (ps.map Prod.snd).Nodup)
    (hq : (Struct.view (.rename ps) s).plain q)
    (hs : SubSame M W (.rename ps) s st) : ViewExact W (.rename ps) s q st := by
  have hk := renameDim_swap_keep h2 q
  have hb := renameDim_swap' h1 h2 q
  have hst : ¬ (q ∈ ps.map Prod.fst ∧ q ∉ ps.map Prod.snd) := fun h => hq.2.2 (.inl h)
  have hp : s.plain (Sig.renameDim (ps.map Prod.swap) q) :=
    ⟨fun h => hq.1 ⟨_, h, hk, hb hst⟩, fun h => hq.2.1 (.inl ⟨_, h, hk, hb hst⟩),
      fun h => hq.2.2 (.inr ⟨_, h, hk, hb hst⟩)⟩
  have he := ex _ _ hp (hs _ rfl).2
  exact ⟨he.1, Le.guard he.1 fun _ => he.2⟩

theorem vx_shift {d : Dim} {a : Val} (hq : (Struct.view (.shift d a) s).plain q)
    (hs : SubSame M W (.shift d a) s st) : ViewExact W (.shift d a) s q st := by
  obtain ⟨e, hR⟩ := hs _ rfl
  have e : (st.mapAt (.idx d) (·.add (.checked W) a)).mapAt (.len d) (·.add (.checked W) a) =
    (st.mapAt (.idx d) (·.add .ideal a)).mapAt (.len d) (·.add .ideal a) := Option.some.inj e
  have he := ex q _ hq hR
  have h1 : Le (((Struct.view (.shift d a) s).sem .ideal).hasLen q st)
      (((Struct.view (.shift d a) s).sem (.checked W)).hasLen q st) := by
    simp only [Struct.sem, View.sem, ViewSem.toSem, shiftSem, e]
    split
    · subst_vars
      split
      · exact Le.refl _
      · exact he.1
    · exact he.1
  refine ⟨h1, Le.guard h1 fun _ => ?_⟩
  simp only [e]
  split
  · subst_vars
    cases st (.len d) with
    | some l => exact Le.refl _
    | none => exact Le.bind he.2 fun _ _ => by simp only [Val.sub_checked]; exact Le.refl _
  · exact he.2

theorem vx_slice {d : Dim} {a n : Val} (hq : (Struct.view (.slice d a n) s).plain q)
    (hs : SubSame M W (.slice d a n) s st) : ViewExact W (.slice d a n) s q st := by
  obtain ⟨e, hR⟩ := hs _ rfl
  have e : st.mapAt (.idx d) (·.add (.checked W) a) = st.mapAt (.idx d) (·.add .ideal a) := Option.some.inj e
  have he := ex q _ hq hR
  have h1 : Le (((Struct.view (.slice d a n) s).sem .ideal).hasLen q st)
      (((Struct.view (.slice d a n) s).sem (.checked W)).hasLen q st) := by
    simp only [Struct.sem, View.sem, ViewSem.toSem, sliceSem, e]
    exact he.1
  refine ⟨h1, Le.guard h1 fun _ => ?_⟩
  simp only [e]
  split
  · exact Le.refl _
  · exact he.2

theorem vx_span {d : Dim} {a n : Val} (hq : (Struct.view (.span d a n) s).plain q)
    (hs : SubSame M W (.span d a n) s st) : ViewExact W (.span d a n) s q st := by
  obtain ⟨e, hR⟩ := hs _ rfl
  have e : st.mapAt (.idx d) (·.add (.checked W) a) = st.mapAt (.idx d) (·.add .ideal a) := Option.some.inj e
  have he := ex q _ hq hR
  have h1 : Le (((Struct.view (.span d a n) s).sem .ideal).hasLen q st)
      (((Struct.view (.span d a n) s).sem (.checked W)).hasLen q st) := by
    simp only [Struct.sem, View.sem, ViewSem.toSem, spanSem, e]
    exact he.1
  refine ⟨h1, Le.guard h1 fun _ => ?_⟩
  simp only [e]
  split
  · rw [Val.sub_checked]; exact Le.refl _
  · exact he.2

theorem vx_step (hW : 2 * M ≤ W) {d : Dim} {a k : Val} (hk : k.fits M) (hq : (Struct.view (.step d a k) s).plain q)
    (hs : SubSame M W (.step d a k) s st) : ViewExact W (.step d a k) s q st := by
  obtain ⟨e, hR⟩ := hs _ rfl
  have e : st.mapAt (.idx d) (fun i => (i.mul (.checked W) k).add (.checked W) a) =
    st.mapAt (.idx d) (fun i => (i.mul .ideal k).add .ideal a) := Option.some.inj e
  have he := ex q _ hq hR
  have h1 : Le (((Struct.view (.step d a k) s).sem .ideal).hasLen q st)
      (((Struct.view (.step d a k) s).sem (.checked W)).hasLen q st) := by
    simp only [Struct.sem, View.sem, ViewSem.toSem, stepSem, e]
    exact he.1
  refine ⟨h1, Le.guard h1 fun _ => ?_⟩
  simp only [e]
  split
  · subst_vars
    have hR' : s.Roomy M st := hR.under (by
      have := hq.1
      simp only [Struct.hard, View.hard] at this
      under_tac)
    refine Le.bind (ex d _ hq hR').2 fun l hl => ?_
    rw [Val.add_checked (addOk_of hW (fun x hx => (hR'.len hq hl).lt hx) hk), Val.sub_checked, Val.sub_checked,
      Val.div_checked]
    exact Le.refl _
  · exact he.2

theorem vx_reverse {d : Dim} (hd : ¬ s.hard d) (hq : (Struct.view (.reverse d) s).plain q)
    (hs : SubSame M W (.reverse d) s st) : ViewExact W (.reverse d) s q st := by
  have h1 : Le (((Struct.view (.reverse d) s).sem .ideal).hasLen q st)
      (((Struct.view (.reverse d) s).sem (.checked W)).hasLen q st) := by
    show Le (((View.reverse d).sem .ideal (s.sem .ideal)).sub st |>.bind ((s.sem .ideal).hasLen q))
      (((View.reverse d).sem (.checked W) (s.sem (.checked W))).sub st |>.bind ((s.sem (.checked W)).hasLen q))
    exact Le.subx fun u hu => ⟨(hs u hu).1, (ex q _ hq (hs u hu).2).1⟩
  refine ⟨h1, Le.guard h1 fun h => ?_⟩
  have h : (((View.reverse d).sem .ideal (s.sem .ideal)).sub st |>.bind ((s.sem .ideal).hasLen q)) = some true := h
  rw [Option.bind_eq_some_iff] at h
  obtain ⟨u, hu, -⟩ := h
  refine (ex q _ hq ((hs u hu).2.under ?_)).2
  simp only [View.sem, reverseSem] at hu
  cases hi : st (.idx d) with
  | none => simp only [hi, Option.some.injEq] at hu; subst hu; exact .refl
  | some i =>
    simp only [hi] at hu
    cases hb : (s.sem .ideal).hasLen d (st.remove (.idx d)) with
    | none => simp [hb] at hu
    | some b =>
      cases b with
      | false => simp only [hb, Option.some.injEq] at hu; subst hu; under_tac
      | true =>
        simp only [hb, bind, Option.bind_eq_some_iff, Option.some.injEq] at hu
        obtain ⟨l, -, rfl⟩ := hu
        under_tac

theorem vx_join {a b d : Dim} (hq : (Struct.view (.join a b d) s).plain q)
    (hs : SubSame M W (.join a b d) s st) : ViewExact W (.join a b d) s q st := by
  have hp : s.plain q := by plain_tac hq
  have h1 : Le (((Struct.view (.join a b d) s).sem .ideal).hasLen q st)
      (((Struct.view (.join a b d) s).sem (.checked W)).hasLen q st) := by
    show Le (((View.join a b d).sem .ideal (s.sem .ideal)).sub st |>.bind ((s.sem .ideal).hasLen q))
      (((View.join a b d).sem (.checked W) (s.sem (.checked W))).sub st |>.bind ((s.sem (.checked W)).hasLen q))
    exact Le.subx fun u hu => ⟨(hs u hu).1, (ex q _ hp (hs u hu).2).1⟩
  exact ⟨h1, Le.guard h1 fun h => Le.subx fun u hu => ⟨(hs u hu).1, (ex q _ hp (hs u hu).2).2⟩⟩

theorem vx_ib {d maj min : Dim} (hd : s.plain d) (hq : (Struct.view (.intoBlocks d maj min) s).plain q)
    (hs : SubSame M W (.intoBlocks d maj min) s st) : ViewExact W (.intoBlocks d maj min) s q st := by
  have hs' : ∀ u, intoBlocksSub .ideal d maj min (s.sem .ideal) st = some u →
      intoBlocksSub (.checked W) d maj min (s.sem (.checked W)) st = some u ∧ s.Roomy M u := hs
  have hcl : ∀ nl, st (.len min) = some nl → s.Roomy M (blocksClean d maj min st) := by
    intro nl hnl
    cases hu : intoBlocksSub .ideal d maj min (s.sem .ideal) st with
    | some u => exact (hs' u hu).2.under (under_ib hd.1 hu)
    | none =>
      simp only [intoBlocksSub, hnl] at hu
      split at hu <;> cases hu
  have hblock : ∀ x y : Dim, (x = min ∧ y = maj) ∨ (x = maj ∧ y = min) →
      Le (if st.has (.idx x) = true then some false
        else if st.has (.len x) = true then
          (if st.has (.len y) = true then
            match (s.sem .ideal).hasLen d (blocksClean d maj min st) with
            | some false => some true
            | _ => none
           else some true)
        else if st.has (.len y) = true then
          (intoBlocksSub .ideal d maj min (s.sem .ideal) st).bind ((s.sem .ideal).hasLen d)
        else some false)
      (if st.has (.idx x) = true then some false
        else if st.has (.len x) = true then
          (if st.has (.len y) = true then
            match (s.sem (.checked W)).hasLen d (blocksClean d maj min st) with
            | some false => some true
            | _ => none
           else some true)
        else if st.has (.len y) = true then
          (intoBlocksSub (.checked W) d maj min (s.sem (.checked W)) st).bind ((s.sem (.checked W)).hasLen d)
        else some false) := by
    intro x y hxy
    split
    · exact Le.refl _
    · split
      · next hx =>
        split
        · next hy =>
          have : ∃ nl, st (.len min) = some nl := by
            rcases hxy with ⟨rfl, rfl⟩ | ⟨rfl, rfl⟩
            · exact Option.isSome_iff_exists.1 hx
            · exact Option.isSome_iff_exists.1 hy
          obtain ⟨nl, hnl⟩ := this
          have he := (ex d _ hd (hcl nl hnl)).1
          intro b hb
          cases hh : (s.sem .ideal).hasLen d (blocksClean d maj min st) with
          | none => simp [hh] at hb
          | some c => rw [he _ hh]; rw [hh] at hb; exact hb
        · exact Le.refl _
      · split
        · exact Le.subx fun u hu => ⟨(hs' u hu).1, (ex d _ hd (hs' u hu).2).1⟩
        · exact Le.refl _
  have hp : q ≠ d → q ≠ maj → q ≠ min → s.plain q := by
    intro h1 h2 h3
    plain_tac hq
  have h1 : Le (((Struct.view (.intoBlocks d maj min) s).sem .ideal).hasLen q st)
      (((Struct.view (.intoBlocks d maj min) s).sem (.checked W)).hasLen q st) := by
    simp only [Struct.sem, View.sem, ViewSem.toSem, intoBlocksSem]
    split
    · exact hblock min maj (.inl ⟨rfl, rfl⟩)
    · split
      · exact hblock maj min (.inr ⟨rfl, rfl⟩)
      · split
        · exact Le.refl _
        · exact Le.subx fun u hu => ⟨(hs' u hu).1, (ex q _ (hp ‹_› ‹_› ‹_›) (hs' u hu).2).1⟩
  refine ⟨h1, Le.guard h1 fun h => ?_⟩
  by_cases hqm : q = min
  · subst hqm
    simp only [↓reduceIte]
    cases hnl : st (.len q) with
    | some l => exact Le.refl _
    | none =>
      refine Le.bind (Le.refl _) fun ml hml => ?_
      simp only [Struct.sem, View.sem, ViewSem.toSem, intoBlocksSem, ↓reduceIte, State.has, hnl, hml,
        Option.isSome_none, Option.isSome_some, Bool.false_eq_true] at h
      split at h
      · cases h
      · rw [Option.bind_eq_some_iff] at h
        obtain ⟨u, hu, -⟩ := h
        refine Le.bind (ex d _ hd ((hs' u hu).2.under (under_ib hd.1 hu))).2 fun l hl => ?_
        rw [Val.div_checked]
        exact Le.refl _
  · simp only [hqm, ↓reduceIte]
    by_cases hqM : q = maj
    · subst hqM
      simp only [↓reduceIte]
      cases hml : st (.len q) with
      | some l => exact Le.refl _
      | none =>
        refine Le.bind (Le.refl _) fun nl hnl => Le.subx fun u hu => ⟨(hs' u hu).1, ?_⟩
        refine Le.bind (ex d _ hd (hs' u hu).2).2 fun l hl => ?_
        rw [Val.div_checked]
        exact Le.refl _
    · simp only [hqM, ↓reduceIte]
      have hqd : q ≠ d := by
        rintro rfl
        simp only [Struct.sem, View.sem, ViewSem.toSem, intoBlocksSem, hqm, hqM, ↓reduceIte] at h
        cases h
      exact Le.subx fun u hu => ⟨(hs' u hu).1, (ex q _ (hp hqd hqM hqm) (hs' u hu).2).2⟩

theorem vx_ibd (hM : 0 < M) (hW : 2 * M ≤ W) {d maj min pres : Dim} (hd : s.plain d)
    (hq : (Struct.view (.intoBlocksDyn d maj min pres) s).plain q)
    (hst : SmallState M (.view (.intoBlocksDyn d maj min pres) s) st)
    (hs : SubSame M W (.intoBlocksDyn d maj min pres) s st) :
    ViewExact W (.intoBlocksDyn d maj min pres) s q st := by
  have hs' : ∀ u, intoBlocksDynSub .ideal d maj min pres (s.sem .ideal) st = some u →
      intoBlocksDynSub (.checked W) d maj min pres (s.sem (.checked W)) st = some u ∧ s.Roomy M u := hs
  have hcl : ∀ nl, st (.len min) = some nl → st.has (.len pres) = false →
      s.Roomy M (dynClean d maj min pres st) := by
    intro nl hnl hpl
    cases hu : intoBlocksDynSub .ideal d maj min pres (s.sem .ideal) st with
    | some u => exact (hs' u hu).2.under (under_ibd hd.1 hu)
    | none =>
      simp only [intoBlocksDynSub, blocksDynClean_eq, hpl, Bool.false_eq_true, ↓reduceIte, bind, Option.bind_some,
        hnl] at hu
      split at hu <;> cases hu
  have hblock : ∀ x y : Dim, (x = min ∧ y = maj) ∨ (x = maj ∧ y = min) →
      Le (if st.has (.idx x) = true then some false
        else if st.has (.len x) = true then
          (if st.has (.len y) = true then
            match (blocksDynClean d maj min pres st).bind ((s.sem .ideal).hasLen d) with
            | some false => some true
            | _ => none
           else some true)
        else if st.has (.len y) = true then
          (intoBlocksDynSub .ideal d maj min pres (s.sem .ideal) st).bind ((s.sem .ideal).hasLen d)
        else some false)
      (if st.has (.idx x) = true then some false
        else if st.has (.len x) = true then
          (if st.has (.len y) = true then
            match (blocksDynClean d maj min pres st).bind ((s.sem (.checked W)).hasLen d) with
            | some false => some true
            | _ => none
           else some true)
        else if st.has (.len y) = true then
          (intoBlocksDynSub (.checked W) d maj min pres (s.sem (.checked W)) st).bind ((s.sem (.checked W)).hasLen d)
        else some false) := by
    intro x y hxy
    split
    · exact Le.refl _
    · split
      · next hx =>
        split
        · next hy =>
          have : ∃ nl, st (.len min) = some nl := by
            rcases hxy with ⟨rfl, rfl⟩ | ⟨rfl, rfl⟩
            · exact Option.isSome_iff_exists.1 hx
            · exact Option.isSome_iff_exists.1 hy
          obtain ⟨nl, hnl⟩ := this
          rw [blocksDynClean_eq]
          intro b hb
          split at hb
          · next hc =>
            split at hc
            · cases hc
            · next hpl =>
              simp only [Option.bind_some] at hc
              have he := (ex d _ hd (hcl nl hnl (by simpa using hpl))).1
              simp only [hpl, Bool.false_eq_true, ↓reduceIte, Option.bind_some, he _ hc]
              exact hb
          · cases hb
        · exact Le.refl _
      · split
        · exact Le.subx fun u hu => ⟨(hs' u hu).1, (ex d _ hd (hs' u hu).2).1⟩
        · exact Le.refl _
  have hqp : q ≠ pres := fun h => hq.2.1 (.inl h)
  have hp : q ≠ d → q ≠ maj → q ≠ min → s.plain q := by
    intro h1 h2 h3
    plain_tac hq
  have h1 : Le (((Struct.view (.intoBlocksDyn d maj min pres) s).sem .ideal).hasLen q st)
      (((Struct.view (.intoBlocksDyn d maj min pres) s).sem (.checked W)).hasLen q st) := by
    simp only [Struct.sem, View.sem, ViewSem.toSem, intoBlocksDynSem, hqp, ↓reduceIte]
    split
    · exact hblock min maj (.inl ⟨rfl, rfl⟩)
    · split
      · exact hblock maj min (.inr ⟨rfl, rfl⟩)
      · split
        · exact Le.refl _
        · exact Le.subx fun u hu => ⟨(hs' u hu).1, (ex q _ (hp ‹_› ‹_› ‹_›) (hs' u hu).2).1⟩
  refine ⟨h1, Le.guard h1 fun h => ?_⟩
  simp only [hqp, ↓reduceIte]
  by_cases hqm : q = min
  · subst hqm
    simp only [↓reduceIte]
    cases hnl : st (.len q) with
    | some l => exact Le.refl _
    | none =>
      refine Le.bind (Le.refl _) fun ml hml => ?_
      simp only [Struct.sem, View.sem, ViewSem.toSem, intoBlocksDynSem, hqp, ↓reduceIte, State.has, hnl, hml,
        Option.isSome_none, Option.isSome_some, Bool.false_eq_true] at h
      split at h
      · cases h
      · rw [Option.bind_eq_some_iff] at h
        obtain ⟨u, hu, -⟩ := h
        rw [blocksDynClean_eq]
        split
        · exact fun _ h => nomatch h
        · have hR := (hs' u hu).2.under (under_ibd hd.1 hu)
          refine Le.bind (Le.refl _) fun cs hcs => ?_
          cases hcs
          refine Le.bind (ex d _ hd hR).2 fun l hl => ?_
          rw [ceilDiv_checked (addOk_of hW (fun x hx => (hR.len hd hl).lt hx) fun x hx => (hst.1 _ _ hml).lt hx)]
          exact Le.refl _
  · simp only [hqm, ↓reduceIte]
    by_cases hqM : q = maj
    · subst hqM
      simp only [↓reduceIte]
      cases hml : st (.len q) with
      | some l => exact Le.refl _
      | none =>
        refine Le.bind (Le.refl _) fun nl hnl => Le.subx fun u hu => ⟨(hs' u hu).1, ?_⟩
        refine Le.bind (ex d _ hd (hs' u hu).2).2 fun l hl => ?_
        rw [ceilDiv_checked (addOk_of hW (fun x hx => ((hs' u hu).2.len hd hl).lt hx) fun x hx => (hst.1 _ _ hnl).lt hx)]
        exact Le.refl _
    · simp only [hqM, ↓reduceIte]
      have hqd : q ≠ d := by
        rintro rfl
        simp only [Struct.sem, View.sem, ViewSem.toSem, intoBlocksDynSem, hqp, hqm, hqM, ↓reduceIte] at h
        cases h
      exact Le.subx fun u hu => ⟨(hs' u hu).1, (ex q _ (hp hqd hqM hqm) (hs' u hu).2).2⟩

theorem vx_ibs {d border maj min : Dim} {nl : Val} (hd : s.plain d)
    (hq : (Struct.view (.intoBlocksStat d border maj min nl) s).plain q)
    (hs : SubSame M W (.intoBlocksStat d border maj min nl) s st) :
    ViewExact W (.intoBlocksStat d border maj min nl) s q st := by
  have hs' : ∀ u, intoBlocksStatSub .ideal d border maj min nl (s.sem .ideal) st = some u →
      intoBlocksStatSub (.checked W) d border maj min nl (s.sem (.checked W)) st = some u ∧ s.Roomy M u := hs
  have hqb : q ≠ border := fun h => hq.1 (.inl h)
  have hp : q ≠ d → q ≠ maj → q ≠ min → s.plain q := by
    intro h1 h2 h3
    plain_tac hq
  have hin : Le ((intoBlocksStatSub .ideal d border maj min nl (s.sem .ideal) st).bind ((s.sem .ideal).hasLen d))
      ((intoBlocksStatSub (.checked W) d border maj min nl (s.sem (.checked W)) st).bind
        ((s.sem (.checked W)).hasLen d)) :=
    Le.subx fun u hu => ⟨(hs' u hu).1, (ex d _ hd (hs' u hu).2).1⟩
  have h1 : Le (((Struct.view (.intoBlocksStat d border maj min nl) s).sem .ideal).hasLen q st)
      (((Struct.view (.intoBlocksStat d border maj min nl) s).sem (.checked W)).hasLen q st) := by
    simp only [Struct.sem, View.sem, ViewSem.toSem, intoBlocksStatSem, hqb, ↓reduceIte]
    split
    · exact Le.refl _
    · split
      · cases isBody border st with
        | none => exact Le.refl _
        | some b =>
          cases b with
          | true => exact hin
          | false => exact Le.refl _
      · split
        · cases isBody border st with
          | none => exact Le.refl _
          | some b =>
            cases b with
            | true => exact Le.refl _
            | false => exact hin
        · split
          · exact Le.refl _
          · exact Le.subx fun u hu => ⟨(hs' u hu).1, (ex q _ (hp ‹_› ‹_› ‹_›) (hs' u hu).2).1⟩
  refine ⟨h1, Le.guard h1 fun h => ?_⟩
  simp only [hqb, ↓reduceIte]
  by_cases hqm : q = min
  · simp only [hqm, ↓reduceIte]
    cases isBody border st with
    | none => exact Le.refl _
    | some b =>
      cases b with
      | true => exact Le.refl _
      | false =>
        refine Le.subx fun u hu => ⟨(hs' u hu).1, Le.bind (ex d _ hd (hs' u hu).2).2 fun l hl => ?_⟩
        rw [Val.mod_checked]
        exact Le.refl _
  · simp only [hqm, ↓reduceIte]
    by_cases hqM : q = maj
    · simp only [hqM, ↓reduceIte]
      cases isBody border st with
      | none => exact Le.refl _
      | some b =>
        cases b with
        | false => exact Le.refl _
        | true =>
          refine Le.subx fun u hu => ⟨(hs' u hu).1, Le.bind (ex d _ hd (hs' u hu).2).2 fun l hl => ?_⟩
          rw [Val.div_checked]
          exact Le.refl _
    · simp only [hqM, ↓reduceIte]
      have hqd : q ≠ d := by
        rintro rfl
        simp only [Struct.sem, View.sem, ViewSem.toSem, intoBlocksStatSem, hqb, hqm, hqM, ↓reduceIte] at h
        split at h <;> cases h
      exact Le.subx fun u hu => ⟨(hs' u hu).1, (ex q _ (hp hqd hqM hqm) (hs' u hu).2).2⟩

theorem vx_mb (hMW : M ≤ W) {maj min d : Dim} (hM : s.plain maj) (hm : s.plain min)
    (hq : (Struct.view (.mergeBlocks maj min d) s).plain q)
    (hR : s.Roomy M (blocksClean d maj min st))
    (hlen : ∀ l, ((Struct.view (.mergeBlocks maj min d) s).sem .ideal).len q st = some l → Small M l)
    (hs : SubSame M W (.mergeBlocks maj min d) s st) :
    ViewExact W (.mergeBlocks maj min d) s q st := by
  have hs' : ∀ u, mergeBlocksSub .ideal maj min d (s.sem .ideal) st = some u →
      mergeBlocksSub (.checked W) maj min d (s.sem (.checked W)) st = some u ∧ s.Roomy M u := hs
  have hp : q ≠ d → q ≠ maj → q ≠ min → s.plain q := by
    intro h1 h2 h3
    plain_tac hq
  have h1 : Le (((Struct.view (.mergeBlocks maj min d) s).sem .ideal).hasLen q st)
      (((Struct.view (.mergeBlocks maj min d) s).sem (.checked W)).hasLen q st) := by
    simp only [Struct.sem, View.sem, ViewSem.toSem, mergeBlocksSem]
    split
    · exact Le.refl _
    · split
      · split
        · exact Le.bind (ex maj _ hM hR).1 fun _ _ => Le.bind (ex min _ hm hR).1 fun _ _ => Le.refl _
        · exact Le.subx fun u hu => ⟨(hs' u hu).1, Le.bind (ex maj _ hM (hs' u hu).2).1 fun _ _ =>
            Le.bind (ex min _ hm (hs' u hu).2).1 fun _ _ => Le.refl _⟩
      · split
        · exact Le.refl _
        · next hn =>
          rw [not_or] at hn
          exact Le.subx fun u hu => ⟨(hs' u hu).1, (ex q _ (hp ‹_› hn.2 hn.1) (hs' u hu).2).1⟩
  refine ⟨h1, fun v hv => ?_⟩
  have hsm := hlen v hv
  simp only [Struct.sem, View.sem, ViewSem.toSem, mergeBlocksSem, guardLen_eq_some] at hv h1 ⊢
  refine ⟨h1 _ hv.1, ?_⟩
  obtain ⟨hh, hv⟩ := hv
  by_cases hqd : q = d
  · simp only [hqd, ↓reduceIte] at hv ⊢
    cases hl : st (.len d) with
    | some l => simpa only [hl] using hv
    | none =>
      simp only [hl, bind, Option.bind_eq_some_iff] at hv ⊢
      obtain ⟨u, hu, ml, hml, nl, hnl, hv⟩ := hv
      refine ⟨u, (hs' u hu).1, ml, (ex maj _ hM (hs' u hu).2).2 _ hml, nl, (ex min _ hm (hs' u hu).2).2 _ hnl, ?_⟩
      cases hv
      obtain ⟨n, hn, hlt⟩ := hsm
      rw [Val.mul_checked (mulOk_of hn (by omega))]
  · simp only [hqd, ↓reduceIte] at hv ⊢
    have hne : ¬ (q = min ∨ q = maj) := by
      intro hne
      simp only [hqd, hne, ↓reduceIte] at hh
      split at hh <;> cases hh
    rw [not_or] at hne
    exact Le.subx (fun u hu => ⟨(hs' u hu).1, (ex q _ (hp hqd hne.2 hne.1) (hs' u hu).2).2⟩) v hv

end

end Noarr
