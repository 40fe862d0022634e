import Verif.SelectMap
import Verif.SelectMore
import Verif.SelectMerge

/-
What an order addresses: the views of an order, one after another. Used for C28, C29 and C50.
-/

set_option linter.unusedVariables false
set_option linter.unusedSimpArgs false

namespace Noarr

theorem Selects.congr {A : Arith} {s : Struct} {v : View} {L L' : Lens} {P Q : State → Prop}
    (h : Selects A s v L L' P) (hPQ : ∀ u, P u ↔ Q u) : Selects A s v L L' Q := by
  have : P = Q := funext fun u => propext (hPQ u)
  rwa [this] at h

theorem Window.of {s : Struct} {L : Lens} {d : Dim} {y : Nat} (h : LengthAtLeast (s.sem .ideal) L d y) :
    Window s L d y :=
  fun u hL hi he => h u hL hi (Sig.needs_iff_entry.2 ⟨_, he⟩)

theorem select_view {s : Struct} {v : View} {L : Lens} (ht : (Struct.view v s).tame)
    (hw : ((Struct.view v s).sem .ideal).sig.wf = true) (hu : (s.sem .ideal).sig.uniq)
    (huv : ((Struct.view v s).sem .ideal).sig.uniq) (hm : s.unmixed .ideal)
    (ha : v.admits .ideal s L) : Selects .ideal s v L (v.lens .ideal L) fun u => v.keeps u := by
  cases v with
  | bcast d => exact absurd ha id
  | join a b d => exact absurd ha id
  | mergeZ sl gl ds d => exact absurd ha id
  | reorder ds => exact select_reorder ht hu hm ha
  | hoist d => exact select_hoist ht hu hm hw
  | rename ps => exact select_rename hw
  | setLength d l => exact select_setLength ht hu hm hw ha
  | reverse d => exact select_reverse ht hu huv hm hw ha.1 ha.2.1 ha.2.2
  | slice d a n =>
    obtain ⟨hd, x, m, hx, hn, hin⟩ := ha
    refine (select_slice ht hu huv hm hw hd hx hn (.of hin)).congr fun u => ?_
    exact ⟨fun h i x' m' hi hx' hm' => by rw [← hx.eq hx', ← hn.eq hm']; exact h i hi,
      fun h i hi => h i x m hi hx hn⟩
  | span d a n =>
    obtain ⟨hd, x, m, hx, hn, hxy, hin⟩ := ha
    refine (select_span ht hu huv hm hw hd hx hn hxy (.of hin)).congr fun u => ?_
    exact ⟨fun h i x' m' hi hx' hm' => by rw [← hx.eq hx', ← hn.eq hm']; exact h i hi,
      fun h i hi => h i x m hi hx hn⟩
  | shift d a =>
    obtain ⟨hd, hL, x, hx⟩ := ha
    have : (View.shift d a).lens .ideal L = L := by
      funext q
      simp only [View.lens]
      split
      · next h => subst h; simp [hL]
      · rfl
    rw [this]
    refine (select_shift ht hu huv hm hw hd hx hL).congr fun u => ?_
    exact ⟨fun h i x' hi hx' => by rw [← hx.eq hx']; exact h i hi, fun h i hi => h i x hi hx⟩
  | step d a k =>
    obtain ⟨hd, x, y, hx, hy, h0⟩ := ha
    refine (select_step ht hu huv hm hw hd hx hy h0).congr fun u => ?_
    exact ⟨fun h i x' y' hi hx' hy' => by rw [← hx.eq hx', ← hy.eq hy']; exact h i hi,
      fun h i hi => h i x y hi hx hy⟩
  | fix d i =>
    refine select_fix ht hm hu hw ha.1 fun u o hL he hi => ?_
    exact (indexOk_iff hu he).1 (ha.2 u hL (Sig.needs_iff_entry.2 ⟨o, he⟩) hi)
  | intoBlocks d maj min =>
    obtain ⟨hd, ⟨hM, nl, n, hm', hn, h0, hdiv⟩ | ⟨hm', hk, ml, m, hM, hn, h0, hdiv⟩⟩ := ha
    · have : (View.intoBlocks d maj min).lens .ideal L = L.remove [d, maj, min] := by
        simp only [View.lens, hM]
      rw [this]
      exact select_ib_min ht hu hm hw hd hm' hM hn h0 hdiv
    · have : (View.intoBlocks d maj min).lens .ideal L = L.remove [d, maj, min] := by
        simp only [View.lens, hM, hm']
      rw [this]
      exact select_ib_maj ht hu hm hw hd hm' hM hn h0 hk hdiv
  | intoBlocksDyn d maj min pres =>
    obtain ⟨hd, hp, ⟨hM, nl, n, hm', hn, h0⟩ | ⟨hm', ml, m, hM, hn, h0⟩⟩ := ha
    · have : (View.intoBlocksDyn d maj min pres).lens .ideal L = L.remove [d, maj, min] := by
        simp only [View.lens, hM]
      rw [this]
      exact select_ibd_min ht hu hm hw hd hp hm' hM hn h0
    · have : (View.intoBlocksDyn d maj min pres).lens .ideal L = L.remove [d, maj, min] := by
        simp only [View.lens, hM, hm']
      rw [this]
      exact select_ibd_maj ht hu hm hw hd hp hm' hM hn h0
  | intoBlocksStat d border maj min nl =>
    obtain ⟨hd, hb, hM, hm', n, hn, h0⟩ := ha
    exact select_ibs ht hu hm hw hd hb hM hm' hn h0
  | mergeBlocks maj min d =>
    obtain ⟨hM, hm', hL, htog, hkM, hkm⟩ := ha
    exact select_mb ht hu hm hw hM hm' htog hL hkM hkm

theorem Struct.tame_base {s : Struct} {vs : List View} (h : (s.apply vs).tame) : s.tame := by
  induction vs generalizing s with
  | nil => exact h
  | cons v vs ih => exact (ih (s := .view v s) h).1

theorem Struct.wf_base {A : Arith} {s : Struct} {vs : List View} (h : (s.apply vs).wf A) : s.wf A := by
  induction vs generalizing s with
  | nil => exact h
  | cons v vs ih => exact (ih (s := .view v s) h).2

theorem Struct.noDup_base {A : Arith} {s : Struct} {vs : List View} (h : (s.apply vs).noDup A) :
    s.noDup A := by
  induction vs generalizing s with
  | nil => exact h
  | cons v vs ih => exact (ih (s := .view v s) h).2

/-- What an order addresses. -/
structure OrderSelects (A : Arith) (L : Lens) (s : Struct) (vs : List View) : Prop where
  fwd : ∀ st, AddressesWith ((s.apply vs).sem A) L st →
    ∃ u, stateAt A s vs st = some u ∧ AddressesWith (s.sem A) (lensUnder A L vs) u ∧ OrderKeeps A L s vs u
  bwd : ∀ u, AddressesWith (s.sem A) (lensUnder A L vs) u → OrderKeeps A L s vs u →
    ∃ st, AddressesWith ((s.apply vs).sem A) L st ∧ stateAt A s vs st = some u
  inj : ∀ st st' u, AddressesWith ((s.apply vs).sem A) L st → AddressesWith ((s.apply vs).sem A) L st' →
    stateAt A s vs st = some u → stateAt A s vs st' = some u → st = st'

theorem order_selects {L : Lens} {s : Struct} {vs : List View} (ht : (s.apply vs).tame)
    (hw : (s.apply vs).wf .ideal) (hd : (s.apply vs).noDup .ideal) (ha : OrderAdmits .ideal L s vs) :
    OrderSelects .ideal L s vs := by
  induction vs generalizing s with
  | nil =>
    exact ⟨fun st h => ⟨st, rfl, h, trivial⟩, fun u h _ => ⟨u, h, rfl⟩,
      fun st st' u _ _ h h' => (Option.some.inj h).trans (Option.some.inj h').symm⟩
  | cons v vs ih =>
    obtain ⟨h1, hm, h2⟩ := ha
    have ht' := Struct.tame_base (s := .view v s) (vs := vs) ht
    have hw' := Struct.wf_base (s := .view v s) (vs := vs) hw
    have hd' := Struct.noDup_base (s := .view v s) (vs := vs) hd
    have hu := hd'.2.uniq
    have huv := hd'.uniq
    have I := ih (s := .view v s) ht hw hd h2
    have V := select_view ht' hw'.1 hu huv hm h1
    refine ⟨fun st h => ?_, fun u h hk => ?_, fun st st' u h h' hs hs' => ?_⟩
    · obtain ⟨w, e1, e2, e3⟩ := I.fwd st h
      obtain ⟨u, f1, f2, f3⟩ := V.fwd w ((addr_iff' huv).2 e2)
      refine ⟨u, ?_, (addr_iff' hu).1 f2, f3, w, e2, f1, e3⟩
      simp only [stateAt, e1, bind, Option.bind_some, f1]
    · obtain ⟨hk, w, e1, e2, e3⟩ := hk
      obtain ⟨st, f1, f2⟩ := I.bwd w e1 e3
      exact ⟨st, f1, by simp only [stateAt, f2, bind, Option.bind_some, e2]⟩
    · obtain ⟨w, e1, e2, e3⟩ := I.fwd st h
      obtain ⟨w', e1', e2', e3'⟩ := I.fwd st' h'
      simp only [stateAt, e1, e1', bind, Option.bind_some] at hs hs'
      obtain rfl := V.inj w w' u ((addr_iff' huv).2 e2) ((addr_iff' huv).2 e2') hs hs'
      exact I.inj st st' w h h' e1 e1'

/-- Orders of views that keep all elements. -/
theorem orderKeeps_all {L : Lens} {s : Struct} {vs : List View} (ht : (s.apply vs).tame)
    (hw : (s.apply vs).wf .ideal) (hd : (s.apply vs).noDup .ideal) (ha : OrderAdmits .ideal L s vs)
    (hk : ∀ v ∈ vs, ∀ u, View.keeps u v) (u : State)
    (h : AddressesWith (s.sem .ideal) (lensUnder .ideal L vs) u) : OrderKeeps .ideal L s vs u := by
  induction vs generalizing s u with
  | nil => trivial
  | cons v vs ih =>
    obtain ⟨h1, hm, h2⟩ := ha
    have ht' := Struct.tame_base (s := .view v s) (vs := vs) ht
    have hw' := Struct.wf_base (s := .view v s) (vs := vs) hw
    have hd' := Struct.noDup_base (s := .view v s) (vs := vs) hd
    have V := select_view ht' hw'.1 hd'.2.uniq hd'.uniq hm h1
    obtain ⟨st, e1, e2⟩ := V.bwd u ((addr_iff' hd'.2.uniq).2 h) (hk v (by simp) u)
    have e1 := (addr_iff' hd'.uniq).1 e1
    exact ⟨hk v (by simp) u, st, e1, e2, ih ht hw hd h2 (fun v hv => hk v (by simp [hv])) st e1⟩

theorem addressesWith_none {S : Sem} {st : State} : AddressesWith S (fun _ => none) st ↔ Addresses S st :=
  ⟨fun h => ⟨h.ok, h.only, h.lens⟩, fun h => ⟨h.ok, h.only, h.noLen⟩⟩

/-- What `for_each` of a traverser with an order visits. -/
theorem forEach_order {s : Struct} {vs : List View} (ht : (s.apply vs).tame)
    (hf : (s.apply vs).firm fun _ => false)
    (hw : (s.apply vs).wf .ideal) (hd : (s.apply vs).noDup .ideal)
    (ha : OrderAdmits .ideal (fun _ => none) s vs)
    (hl : ∀ p, Nested ((s.apply vs).sem .ideal) ((s.apply vs).sem .ideal).sig .empty p →
      LengthsKnown ((s.apply vs).sem .ideal) (p.state .empty))
    {sts : List State} (h : (Traverser.mk s vs).forEach .ideal [] = some sts) :
    sts.Nodup ∧ ∀ u, u ∈ sts ↔ AddressesWith (s.sem .ideal) (lensUnder .ideal (fun _ => none) vs) u ∧
      OrderKeeps .ideal (fun _ => none) s vs u := by
  have S := order_selects ht hw hd ha
  have hu := hd.uniq
  obtain ⟨ps, h1, h2⟩ := forEach_states (t := ⟨s, vs⟩) hu h
  have hmem := walk_mem _ hu (.refl _) h1
  have had : ∀ p ∈ ps, AddressesWith ((s.apply vs).sem .ideal) (fun _ => none) (p.state .empty) := fun p hp =>
    addressesWith_none.2 (Nested.addresses ht hf hu ((hmem p).1 hp) (hl p ((hmem p).1 hp)))
  constructor
  · have : (sts.map some).Nodup := by
      rw [h2]
      refine List.pairwise_map.2 ?_
      refine List.Pairwise.imp_of_mem ?_ (PathLt.nodup (walk_sorted _ h1))
      intro p p' hp hp' hne he
      obtain ⟨u, e1, -⟩ := S.fwd _ (had p hp)
      have := S.inj _ _ u (had p hp) (had p' hp') e1 (he ▸ e1)
      exact hne (Nested.inj hu ((hmem p).1 hp) ((hmem p').1 hp') this)
    exact List.Pairwise.imp (fun h h' => h (by rw [h'])) (List.pairwise_map.1 this)
  · intro u
    have : u ∈ sts ↔ some u ∈ sts.map some := by simp
    rw [this, h2, List.mem_map]
    constructor
    · rintro ⟨p, hp, he⟩
      obtain ⟨w, e1, e2, e3⟩ := S.fwd _ (had p hp)
      obtain rfl := Option.some.inj (e1.symm.trans he)
      exact ⟨e2, e3⟩
    · rintro ⟨h3, h4⟩
      obtain ⟨st, e1, e2⟩ := S.bwd u h3 h4
      have e1' := addressesWith_none.1 e1
      obtain ⟨p, hp, rfl⟩ := walk_complete .ideal (s.apply vs) ht hf hu (.refl _) (fun _ _ => rfl)
        (fun e he => by
          cases hst : st (.idx e) with
          | none => rfl
          | some v =>
            have := Sig.needs_anyAccept (e1'.only e (by simp [hst]))
            rw [he] at this; cases this) (fun _ => rfl) e1' h1
      exact ⟨p, hp, e2⟩

theorem Sig.hasFn_replace {R : Sig → Sig} {ds : List Dim} {New : Dim → Prop} {q : Dim}
    (h1 : ∀ N, (R N).hasFn q → N.hasFn q ∨ New q) {S : Sig} (h : (S.replace R ds).hasFn q) :
    S.hasFn q ∨ New q := by
  induction S with
  | scalar s => exact absurd h id
  | void => exact absurd h id
  | ill => exact absurd h id
  | fn d l r ih =>
    simp only [replace] at h
    split at h
    · exact h1 _ h
    · rcases h with h | h
      · exact .inl (.inl h)
      · exact (ih h).imp_left .inr
  | dep d n rs ih =>
    simp only [replace] at h
    split at h
    · exact h1 _ h
    · obtain ⟨i, h⟩ := h
      exact (ih i h).imp_left fun h => ⟨i, h⟩

theorem unmixed_setLength {A : Arith} {s : Struct} {d : Dim} {l : Val} (h : s.unmixed A) :
    (Struct.view (.setLength d l) s).unmixed A := by
  intro q hq
  refine h q ((Sig.hasFn_replace (R := Sig.setLengthRepl l) (New := fun _ => False) ?_ hq).resolve_right id)
  intro N hN
  cases N <;> first | (exact .inl hN) | (exact absurd hN id)

theorem unmixed_intoBlocks {A : Arith} {s : Struct} {d maj min : Dim}
    (ht : (Struct.view (.intoBlocks d maj min) s).tame) (h : s.unmixed A) :
    (Struct.view (.intoBlocks d maj min) s).unmixed A := by
  intro q hq
  simp only [Struct.sem, ViewSem.toSem, View.sem, intoBlocksSem] at hq
  split at hq
  · exact absurd hq id
  · have key : ∀ N, (Sig.intoBlocksRepl maj min N).hasFn q → N.hasFn q ∨ (q = maj ∨ q = min) := by
      intro N hN
      cases N <;> grind [Sig.hasFn, Sig.intoBlocksRepl]
    rcases Sig.hasFn_replace (New := fun q => q = maj ∨ q = min) key hq with h' | rfl | rfl
    · exact h q h'
    · exact ht.2.2.1
    · exact ht.2.2.2

theorem unmixed_intoBlocksDyn {A : Arith} {s : Struct} {d maj min pres : Dim}
    (ht : (Struct.view (.intoBlocksDyn d maj min pres) s).tame) (h : s.unmixed A) :
    (Struct.view (.intoBlocksDyn d maj min pres) s).unmixed A := by
  intro q hq
  simp only [Struct.sem, ViewSem.toSem, View.sem, intoBlocksDynSem] at hq
  split at hq
  · exact absurd hq id
  · have key : ∀ N, (Sig.intoBlocksDynRepl maj min pres N).hasFn q →
        N.hasFn q ∨ (q = maj ∨ q = min ∨ q = pres) := by
      intro N hN
      cases N <;> grind [Sig.hasFn, Sig.intoBlocksDynRepl]
    rcases Sig.hasFn_replace (New := fun q => q = maj ∨ q = min ∨ q = pres) key hq with h' | rfl | rfl | rfl
    · exact h q h'
    · exact ht.2.2.1
    · exact ht.2.2.2.1
    · exact ht.2.2.2.2

theorem perm_of_nodup {α : Type} {l l' : List α} (h : l.Nodup) (h' : l'.Nodup) (hm : ∀ a, a ∈ l ↔ a ∈ l') :
    l.Perm l' := by
  induction l generalizing l' with
  | nil =>
    cases l' with
    | nil => exact .nil
    | cons a l' => exact absurd ((hm a).2 (by simp)) (by simp)
  | cons a l ih =>
    obtain ⟨x, y, rfl⟩ := List.append_of_mem ((hm a).1 (by simp))
    rw [List.nodup_cons] at h
    have h2 : (a :: (x ++ y)).Nodup := (List.perm_middle.nodup_iff).1 h'
    rw [List.nodup_cons] at h2
    refine (List.Perm.cons a (ih h.2 h2.2 fun b => ?_)).trans List.perm_middle.symm
    have hb := hm b
    simp only [List.mem_cons, List.mem_append] at hb h2 ⊢
    constructor
    · intro hbl
      have hne : b ≠ a := by rintro rfl; exact h.1 hbl
      rcases hb.1 (.inr hbl) with h | h | h
      · exact .inl h
      · exact absurd h hne
      · exact .inr h
    · intro hbl
      have hne : b ≠ a := by rintro rfl; exact h2.1 hbl
      rcases hb.2 (hbl.imp_right .inr) with h | h
      · exact absurd h hne
      · exact h

/-- Orders that keep all the elements permute. -/
theorem forEach_perm {s : Struct} {vs : List View} (ht : (s.apply vs).tame)
    (hf : (s.apply vs).firm fun _ => false) (hfs : s.firm fun _ => false)
    (hw : (s.apply vs).wf .ideal) (hd : (s.apply vs).noDup .ideal)
    (ha : OrderAdmits .ideal (fun _ => none) s vs) (hk : ∀ v ∈ vs, ∀ u, View.keeps u v)
    (hL : ∀ q, lensUnder .ideal (fun _ => none) vs q = none)
    (hl : ∀ p, Nested ((s.apply vs).sem .ideal) ((s.apply vs).sem .ideal).sig .empty p →
      LengthsKnown ((s.apply vs).sem .ideal) (p.state .empty))
    {sts sts' : List State} (h : (Traverser.mk s []).forEach .ideal [] = some sts)
    (hls : ∀ u ∈ sts, LengthsKnown (s.sem .ideal) u)
    (h' : (Traverser.mk s vs).forEach .ideal [] = some sts') : sts'.Perm sts := by
  have hL' : lensUnder .ideal (fun _ => none) vs = fun _ => none := funext hL
  obtain ⟨h1, h2⟩ := forEach_order ht hf hw hd ha hl h'
  have hds := Struct.noDup_base hd
  have hts := Struct.tame_base ht
  have hu := hds.uniq
  obtain ⟨ps, g1, g2⟩ := forEach_states (t := ⟨s, []⟩) hu h
  have g3 : sts = ps.map fun p => p.state .empty := by
    have : sts.map some = (ps.map fun p => p.state .empty).map some := by
      rw [g2, List.map_map]; rfl
    exact (List.map_inj_right (fun _ _ h => Option.some.inj h)).1 this
  have hmem := walk_mem (s.sem .ideal) hu (.refl _) g1
  refine perm_of_nodup h1 ?_ fun u => ?_
  · rw [g3]
    refine List.pairwise_map.2 ?_
    refine List.Pairwise.imp_of_mem ?_ (PathLt.nodup (walk_sorted _ g1))
    intro p p' hp hp' hne he
    exact hne (Nested.inj hu ((hmem p).1 hp) ((hmem p').1 hp') he)
  · rw [h2, hL', addressesWith_none]
    constructor
    · rintro ⟨had, -⟩
      obtain ⟨p, hp, rfl⟩ := walk_complete .ideal s hts hfs hu (.refl _) (fun _ _ => rfl)
        (fun e he => by
          cases hst : u (.idx e) with
          | none => rfl
          | some v =>
            have := Sig.needs_anyAccept (had.only e (by simp [hst]))
            rw [he] at this; cases this) (fun _ => rfl) had g1
      rw [g3]
      exact List.mem_map.2 ⟨p, hp, rfl⟩
    · intro hu'
      have hlu := hls u hu'
      rw [g3, List.mem_map] at hu'
      obtain ⟨p, hp, rfl⟩ := hu'
      have had := Nested.addresses hts hfs hu ((hmem p).1 hp) hlu
      exact ⟨had, orderKeeps_all ht hw hd ha hk _ (by rw [hL']; exact addressesWith_none.2 had)⟩

end Noarr
