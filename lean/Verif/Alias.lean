import Verif.AliasDecode

/-
Two valid states that address overlapping memory have the same indices: the induction behind C06.
-/

set_option linter.unusedVariables false
set_option linter.unusedSimpArgs false

namespace Noarr

local notation "A" => Arith.ideal

theorem SameNum.of_eq {a b : Option Val} {i j : Val} {n : Nat} (ha : a = some i) (hb : b = some j)
    (hi : i.Num n) (hj : j.Num n) : SameNum a b := ⟨i, j, n, ha, hb, hi, hj⟩

theorem mapAt_idx {st : State} {d : Dim} {f : Val → Val} :
    (st.mapAt (.idx d) f) (.idx d) = (st (.idx d)).map f := by
  simp [State.mapAt]

theorem SameNum.of_map {a b : Option Val} {f : Val → Val}
    (hf : ∀ i j n, (f i).Num n → (f j).Num n → ∃ m, i.Num m ∧ j.Num m)
    (h : SameNum (a.map f) (b.map f)) : SameNum a b := by
  obtain ⟨i, j, n, h1, h2, h3, h4⟩ := h
  cases a with
  | none => simp at h1
  | some x =>
    cases b with
    | none => simp at h2
    | some y =>
      simp only [Option.map_some, Option.some.injEq] at h1 h2
      subst h1; subst h2
      obtain ⟨m, h5, h6⟩ := hf x y n h3 h4
      exact ⟨x, y, m, rfl, rfl, h5, h6⟩

theorem add_inj {a i j : Val} {n : Nat} (h : (i.add A a).Num n) (h' : (j.add A a).Num n) :
    ∃ m, i.Num m ∧ j.Num m := by
  obtain ⟨x, y, hx, hy, rfl⟩ := Val.nat?_add.1 h
  obtain ⟨x', y', hx', hy', he⟩ := Val.nat?_add.1 h'
  have := Val.Num.eq hy hy'
  exact ⟨x, hx, by have : x = x' := by omega
                   rw [this]; exact hx'⟩

/-- The indices of a view from the indices handed down. -/
theorem decode {v : View} {s : Struct} {st st' u u' : State} {N : Dim → Prop} {q : Dim}
    (hw : (Struct.view v s).wf A) (hs : (Struct.view v s).sane A)
    (ht : (Struct.view v s).tame) (hex : v.exact s) (hl : SameLens st st')
    (hV : ValidR A (.view v s) st) (hV' : ValidR A (.view v s) st')
    (hp : v.pre A (s.sem A) st u) (hp' : v.pre A (s.sem A) st' u')
    (hoff : (v.sem A (s.sem A)).offOk st = true) (hoff' : (v.sem A (s.sem A)).offOk st' = true)
    (hu : (v.sem A (s.sem A)).sub st = some u) (hu' : (v.sem A (s.sem A)).sub st' = some u')
    (Hd : ∀ e, s.hard e → u (.idx e) = u' (.idx e))
    (hN : ∀ e, N e → SameNum (u (.idx e)) (u' (.idx e))) (hq : v.from N q) :
    SameNum (st (.idx q)) (st' (.idx q)) := by
  have ih := Struct.length_dep A s ht.1
  cases v with
  | bcast d => exact absurd hq id
  | fix d i => exact absurd hq id
  | setLength d l => exact absurd hq id
  | reorder ds => exact absurd hq id
  | hoist d => exact absurd hq id
  | join a b d => exact absurd hq id
  | shift d a =>
    obtain ⟨rfl, hq⟩ := hq
    have := hN _ hq
    cases hu; cases hu'
    refine SameNum.of_map (f := fun i => i.add A a) (fun i j n => add_inj) ?_
    simpa [State.mapAt] using this
  | slice d a m =>
    obtain ⟨rfl, hq⟩ := hq
    have := hN _ hq
    cases hu; cases hu'
    refine SameNum.of_map (f := fun i => i.add A a) (fun i j n => add_inj) ?_
    simpa [State.mapAt] using this
  | span d a m =>
    obtain ⟨rfl, hq⟩ := hq
    have := hN _ hq
    cases hu; cases hu'
    refine SameNum.of_map (f := fun i => i.add A a) (fun i j n => add_inj) ?_
    simpa [State.mapAt] using this
  | step d a k =>
    obtain ⟨rfl, hq⟩ := hq
    have := hN _ hq
    cases hu; cases hu'
    refine SameNum.of_map (f := fun i => (i.mul A k).add A a) ?_ (by simpa [State.mapAt] using this)
    intro i j n hi hj
    obtain ⟨m, h1, h2⟩ := add_inj hi hj
    obtain ⟨x, y, hx, hy, rfl⟩ := Val.nat?_mul.1 h1
    obtain ⟨x', y', hx', hy', he⟩ := Val.nat?_mul.1 h2
    have h3 := Val.Num.eq hy hy'
    subst h3
    have hy0 : 0 < y := Nat.pos_of_ne_zero (by rintro rfl; exact hex.2 hy)
    have := Nat.eq_of_mul_eq_mul_right hy0 he
    subst this
    exact ⟨x, hx, hx'⟩
  | reverse d =>
    obtain ⟨rfl, hq⟩ := hq
    have hsn := hN _ hq
    have parts : ∀ {st u : State}, (View.reverse q).pre A (s.sem A) st u →
        (reverseSem A q (s.sem A)).sub st = some u → ∀ x, u (.idx q) = some x →
        ∃ i l, st (.idx q) = some i ∧ (s.sem A).len q (st.remove (.idx q)) = some l ∧
          x = (l.sub A (.lit 1)).sub A i := by
      intro st u hp hu x hx
      simp only [reverseSem] at hu
      cases hi : st (.idx q) with
      | none => simp only [hi, Option.some.injEq] at hu; subst hu; rw [hi] at hx; simp at hx
      | some i =>
        simp only [hi] at hu
        have hpn : st (.idx q) ≠ none := by simp [hi]
        split at hu
        · simp at hu
        · next hf => exact absurd hf (hp hpn)
        · simp only [bind, Option.bind_eq_some_iff, Option.some.injEq] at hu
          obtain ⟨l, hl, rfl⟩ := hu
          exact ⟨i, l, rfl, hl, by simpa [State.set, eq_comm] using hx⟩
    obtain ⟨x, x', n, hx, hx', h1, h2⟩ := hsn
    obtain ⟨i, l, hi, hlen, rfl⟩ := parts hp hu x hx
    obtain ⟨i', l', hi', hlen', rfl⟩ := parts hp' hu' x' hx'
    have hpl : s.plain q := ⟨hs.2.1, ht.2.1, ht.2.2⟩
    have hleq := (lens_agree ih hpl (a := st.remove (.idx q)) (b := st'.remove (.idx q))
      (fun d => by simpa [State.remove] using hl d) (fun e he => by
        have hne : e ≠ q := by rintro rfl; exact hpl.1 he
        have h1 := sub_idx (v := .reverse q) (q := e) (by simp [View.dims, hne]) hu
        have h2 := sub_idx (v := .reverse q) (q := e) (by simp [View.dims, hne]) hu'
        simp only [State.remove, Tag.idx.injEq, hne, if_false]
        rw [← h1, ← h2, Hd e he]) (by simp [State.remove]) (by simp [State.remove])).1 l l' hlen hlen'
    subst hleq
    obtain ⟨a, b, ha, hb, hle, rfl⟩ := Val.nat?_sub.1 h1
    obtain ⟨a', b', ha', hb', hle', he⟩ := Val.nat?_sub.1 h2
    have := Val.Num.eq ha ha'
    subst this
    have : b = b' := by omega
    subst this
    exact ⟨i, i', b, hi, hi', hb, hb'⟩
  | rename ps =>
    obtain ⟨n, hn, hor, rfl⟩ := hq
    have := hN n hn
    cases hu; cases hu'
    rwa [renameState_idx, renameState_idx, if_pos hor, if_pos hor] at this
  | intoBlocks d maj min =>
    obtain ⟨hq, hd⟩ := hq
    obtain ⟨x, x', n, hx, hx', h1, h2⟩ := hN d hd
    obtain ⟨I, J, nl, hI, hJ, rfl, hlen, hsrc⟩ := ib_parts hs.2 hp hu hx
    obtain ⟨I', J', nl', hI', hJ', rfl, hlen', hsrc'⟩ := ib_parts hs.2 hp' hu' hx'
    have hnl : nl = nl' := by
      have hlm := hl min
      rcases hsrc with h | ⟨h, ml, l, hml, hll, rfl⟩ <;> rcases hsrc' with h' | ⟨h', ml', l', hml', hll', rfl⟩
      · rw [h, h'] at hlm; exact Option.some.inj hlm
      · rw [h, h'] at hlm; simp at hlm
      · rw [h, h'] at hlm; simp at hlm
      · have hlM := hl maj
        rw [hml, hml'] at hlM
        obtain rfl := Option.some.inj hlM
        have := (lens_agree ih ht.2.1 (a := blocksClean d maj min st) (b := blocksClean d maj min st')
          hl.clean (fun e he => by
            have hne : e ≠ d := by rintro rfl; exact ht.2.1.1 he
            rw [← ibSub_idx hu hne, ← ibSub_idx hu' hne, Hd e he]) (by state_val) (by state_val)).1 l l' hll hll'
        rw [this]
    subst hnl
    have hj := hV min J nl ht.2.2.2 hJ hlen
    have hj' := hV' min J' nl ht.2.2.2 hJ' hlen'
    obtain ⟨⟨i, hi, hi'⟩, j, hj, hj'⟩ := block_decode h1 h2 hj hj'
    rcases hq with rfl | rfl
    · exact ⟨I, I', i, hI, hI', hi, hi'⟩
    · exact ⟨J, J', j, hJ, hJ', hj, hj'⟩
  | intoBlocksDyn d maj min pres =>
    obtain ⟨hq, hd⟩ := hq
    obtain ⟨x, x', n, hx, hx', h1, h2⟩ := hN d hd
    obtain ⟨I, J, nl, hI, hJ, rfl, hlen, hsrc⟩ := ibd_parts hs.2.1 hs.2.2.1 hp hu hx
    obtain ⟨I', J', nl', hI', hJ', rfl, hlen', hsrc'⟩ := ibd_parts hs.2.1 hs.2.2.1 hp' hu' hx'
    have hnl : nl = nl' := by
      have hlm := hl min
      rcases hsrc with h | ⟨h, ml, l, hml, hll, rfl⟩ <;> rcases hsrc' with h' | ⟨h', ml', l', hml', hll', rfl⟩
      · rw [h, h'] at hlm; exact Option.some.inj hlm
      · rw [h, h'] at hlm; simp at hlm
      · rw [h, h'] at hlm; simp at hlm
      · have hlM := hl maj
        rw [hml, hml'] at hlM
        obtain rfl := Option.some.inj hlM
        have := (lens_agree ih ht.2.1 (a := dynClean d maj min pres st) (b := dynClean d maj min pres st')
          (fun e => by simp [dynClean, State.removeAll, hl e]) (fun e he => by
            have hne : e ≠ d := by rintro rfl; exact ht.2.1.1 he
            rw [← ibdSub_idx hu hne, ← ibdSub_idx hu' hne, Hd e he]) (by unfold dynClean; state_val)
            (by unfold dynClean; state_val)).1 l l' hll hll'
        rw [this]
    subst hnl
    have hj := hV min J nl ht.2.2.2.1 hJ hlen
    have hj' := hV' min J' nl ht.2.2.2.1 hJ' hlen'
    obtain ⟨⟨i, hi, hi'⟩, j, hj, hj'⟩ := block_decode h1 h2 hj hj'
    have zero : ∀ {st u : State}, ValidR A (.view (.intoBlocksDyn d maj min pres) s) st →
        (View.intoBlocksDyn d maj min pres).pre A (s.sem A) st u →
        (intoBlocksDynSem A d maj min pres (s.sem A)).offOk st = true →
        ∃ K, st (.idx pres) = some K ∧ K.Num 0 := by
      intro st u hV hp hoff
      simp only [intoBlocksDynSem, State.has, Bool.and_eq_true, Option.isSome_iff_exists] at hoff
      obtain ⟨-, ⟨K, hK⟩⟩ := hoff
      obtain ⟨n, hn⟩ := hp.1 (by simp [hK])
      obtain ⟨k, m, hk, hm, hlt⟩ := hV pres K n ht.2.2.2.2 hK hn
      have hm1 : m ≤ 1 := by
        have h2 := (guardLen_eq_some.1 hn).2
        have hlt : ∀ a b : Val, (a.ltVal b).Num m → m ≤ 1 := by
          intro a b h
          cases a <;> cases b <;> simp only [Val.ltVal, Val.Num, Val.nat?] at h <;>
            first
            | (simp at h; done)
            | (split at h <;> simp at h <;> omega)
            | skip
          all_goals (simp only [Option.some.injEq] at h; split at h <;> omega)
        simp only [if_true, bind, Option.bind_eq_some_iff] at h2
        obtain ⟨i, hi, j, hj, h2⟩ := h2
        split at h2
        · simp only [Option.some.injEq] at h2; subst h2; exact hlt _ _ hm
        · simp only [Option.bind_eq_some_iff, Option.some.injEq] at h2
          obtain ⟨_, -, _, -, rfl⟩ := h2; exact hlt _ _ hm
        · simp only [Option.bind_eq_some_iff, Option.some.injEq] at h2
          obtain ⟨_, -, _, -, _, -, rfl⟩ := h2; exact hlt _ _ hm
      have : k = 0 := by omega
      subst this
      exact ⟨K, hK, hk⟩
    rcases hq with rfl | rfl | rfl
    · exact ⟨I, I', i, hI, hI', hi, hi'⟩
    · exact ⟨J, J', j, hJ, hJ', hj, hj'⟩
    · obtain ⟨K, hK, hk⟩ := zero hV hp hoff
      obtain ⟨K', hK', hk'⟩ := zero hV' hp' hoff'
      exact ⟨K, K', 0, hK, hK', hk, hk'⟩
  | intoBlocksStat d border maj min nl =>
    obtain ⟨hq, hd⟩ := hq
    obtain ⟨pd, pM, pm, hbM, hbm⟩ := ht.2
    have pM' : ¬ (Struct.view (.intoBlocksStat d border maj min nl) s).hard maj := by
      simp only [Struct.hard, View.hard]; grind
    have pm' : ¬ (Struct.view (.intoBlocksStat d border maj min nl) s).hard min := by
      simp only [Struct.hard, View.hard]; grind
    obtain ⟨x, x', n, hx, hx', h1, h2⟩ := hN d hd
    obtain ⟨I, J, m, hI, hJ, hm, hc⟩ := ibs_parts hs.2 hbM hbm hp hu hx
    obtain ⟨I', J', m', hI', hJ', hm', hc'⟩ := ibs_parts hs.2 hbM hbm hp' hu' hx'
    have hmm := (lens_agree ih pd (a := statClean d border maj min st) (b := statClean d border maj min st')
          (fun e => by simp [statClean, State.removeAll, hl e]) (fun e he => by
            have hne : e ≠ d := by rintro rfl; exact pd.1 he
            rw [← ibsSub_idx hu hne, ← ibsSub_idx hu' hne, Hd e he]) (by unfold statClean; state_val)
            (by unfold statClean; state_val)).1 m m' hm hm'
    subst hmm
    -- an element of the body is not one of the border
    have sep : ∀ {st : State} {I J J' : Val}, ValidR A (.view (.intoBlocksStat d border maj min nl) s) st →
        st (.idx maj) = some I → st (.idx min) = some J →
        ((Struct.view (.intoBlocksStat d border maj min nl) s).sem A).len min (st.remove (.idx min)) =
          some nl →
        ((Struct.view (.intoBlocksStat d border maj min nl) s).sem A).len maj (st.remove (.idx maj)) =
          some (m.div A nl) → ((I.mul A nl).add A J).Num n →
        (((m.div A nl).mul A nl).add A J').Num n → False := by
      intro st I J J' hV hI hJ hlm hlM h1 h2
      obtain ⟨x, y, hx, hy, hlt⟩ := hV maj I _ pM' hI hlM
      obtain ⟨x', y', hx', hy', hlt'⟩ := hV min J _ pm' hJ hlm
      have e1 := Val.Num.eq h1 (Val.num_add (Val.num_mul hx hy') hx')
      obtain ⟨a, b, ha, hb, e2⟩ := Val.nat?_add.1 h2
      have e3 := Val.Num.eq ha (Val.num_mul hy hy')
      have := block_lt hlt hlt'
      omega
    have zero : ∀ {st : State} {I : Val}, ValidR A (.view (.intoBlocksStat d border maj min nl) s) st →
        st (.idx maj) = some I →
        ((Struct.view (.intoBlocksStat d border maj min nl) s).sem A).len maj (st.remove (.idx maj)) =
          some (.lit 1) → I.Num 0 := by
      intro st I hV hI hlM
      obtain ⟨x, y, hx, hy, hlt⟩ := hV maj I _ pM' hI hlM
      have : y = 1 := by simpa [Val.Num, Val.nat?, eq_comm] using hy
      have : x = 0 := by omega
      subst this; exact hx
    rcases hc with ⟨hb, rfl, hlm, hlM⟩ | ⟨hb, rfl, hlM⟩ <;>
      rcases hc' with ⟨hb', rfl, hlm', hlM'⟩ | ⟨hb', rfl, hlM'⟩
    · obtain ⟨⟨i, hi, hi'⟩, j, hj, hj'⟩ := block_decode h1 h2 (hV min J nl pm' hJ hlm) (hV' min J' nl pm' hJ' hlm')
      rcases hq with rfl | rfl | rfl
      · exact ⟨_, _, 0, hb, hb', rfl, rfl⟩
      · exact ⟨I, I', i, hI, hI', hi, hi'⟩
      · exact ⟨J, J', j, hJ, hJ', hj, hj'⟩
    · exact (sep hV hI hJ hlm hlM h1 h2).elim
    · exact (sep hV' hI' hJ' hlm' hlM' h2 h1).elim
    · rcases hq with rfl | rfl | rfl
      · exact ⟨_, _, 1, hb, hb', rfl, rfl⟩
      · exact ⟨I, I', 0, hI, hI', zero hV hI hlM, zero hV' hI' hlM'⟩
      · obtain ⟨a, b, ha, hb1, rfl⟩ := Val.nat?_add.1 h1
        obtain ⟨a', b', ha', hb2, he⟩ := Val.nat?_add.1 h2
        have := Val.Num.eq ha ha'
        have hbb : b = b' := by omega
        subst hbb
        exact ⟨J, J', b, hJ, hJ', hb1, hb2⟩
  | mergeBlocks maj min d =>
    obtain ⟨rfl, hM, hm⟩ := hq
    obtain ⟨x, x', n, hx, hx', h1, h2⟩ := hN maj hM
    obtain ⟨y, y', k, hy, hy', h3, h4⟩ := hN min hm
    obtain ⟨I, nl, hI, eM, em, hsrc⟩ := mb_parts hs.2.1 hu hx
    obtain ⟨I', nl', hI', eM', em', hsrc'⟩ := mb_parts hs.2.1 hu' hx'
    rw [hx] at eM; rw [hx'] at eM'; rw [hy] at em; rw [hy'] at em'
    obtain rfl := Option.some.inj eM
    obtain rfl := Option.some.inj eM'
    obtain rfl := Option.some.inj em
    obtain rfl := Option.some.inj em'
    have hcl : ∀ e, s.hard e → blocksClean q maj min st (.idx e) = blocksClean q maj min st' (.idx e) := by
      intro e he
      have hne1 : e ≠ maj := by rintro rfl; exact ht.2.1.1 he
      have hne2 : e ≠ min := by rintro rfl; exact ht.2.2.1 he
      rw [← mbSub_idx hu hne1 hne2, ← mbSub_idx hu' hne1 hne2, Hd e he]
    have ha1 := lens_agree ih ht.2.2 (hl.clean (d := q) (maj := maj) (min := min)) hcl
      (by unfold blocksClean; state_val) (by unfold blocksClean; state_val)
    have ha2 := lens_agree ih ht.2.1 (hl.clean (d := q) (maj := maj) (min := min)) hcl
      (by unfold blocksClean; state_val) (by unfold blocksClean; state_val)
    have hnl : nl = nl' := by
      rcases hsrc with ⟨h, h'⟩ | ⟨h, ml, l, hml, hll, rfl⟩ <;>
        rcases hsrc' with ⟨g, g'⟩ | ⟨g, ml', l', hml', hll', rfl⟩
      · exact ha1.1 _ _ h' g'
      · have := ha1.2 _ _ h g; simp at this
      · have := ha1.2 _ _ h g; simp at this
      · have e1 := ha2.1 _ _ hml hml'
        have e2 := hl q
        rw [hll, hll'] at e2
        rw [e1, Option.some.inj e2]
    subst hnl
    obtain ⟨a, b, ha, hb, hor, e1⟩ := Val.nat?_div.1 h1
    obtain ⟨a', b', ha', hb', hor', e2⟩ := Val.nat?_div.1 h2
    obtain ⟨c, f, hc, hf, hcor, e3⟩ := Val.nat?_mod.1 h3
    obtain ⟨c', f', hc', hf', hcor', e4⟩ := Val.nat?_mod.1 h4
    have i1 := Val.Num.eq hb hb'
    have i2 := Val.Num.eq hb hf
    have i3 := Val.Num.eq hb hf'
    have i4 := Val.Num.eq ha hc
    have i5 := Val.Num.eq ha' hc'
    subst i1; subst i2; subst i3; subst i4; subst i5
    have : a = a' := by
      rw [← Nat.div_add_mod a b, ← Nat.div_add_mod a' b, ← e1, ← e2, ← e3, ← e4]
    subst this
    exact ⟨I, I', a, hI, hI', ha, ha'⟩
  | mergeZ sl gl ds d =>
    obtain ⟨rfl, hN'⟩ := hq
    have hds : ds ≠ [] := by
      have := hw.1
      simp only [Struct.sem, ViewSem.toSem, View.sem, mergeZSem] at this
      split at this
      · simp [Sig.wf] at this
      · next h => simp only [not_or] at h; exact h.2.1
    obtain ⟨e0, he0⟩ := List.exists_mem_of_ne_nil ds hds
    have some_z : ∀ {st u : State}, mergeZSub A sl gl ds q (s.sem A) st = some u →
        (∃ x, u (.idx e0) = some x) → ∃ z, st (.idx q) = some z := by
      intro st u hu ⟨x, hx⟩
      cases hz : st (.idx q) with
      | some z => exact ⟨z, rfl⟩
      | none =>
        simp only [mergeZSub, hz, Option.some.injEq] at hu
        subst hu; simp [State.removeAll, he0] at hx
    obtain ⟨x, x', n, hx, hx', -, -⟩ := hN e0 (hN' e0 he0)
    obtain ⟨z, hz⟩ := some_z hu ⟨x, hx⟩
    obtain ⟨z', hz'⟩ := some_z hu' ⟨x', hx'⟩
    obtain ⟨h2, hnd, hsg, h32, hlens⟩ := hp z hz
    obtain ⟨-, -, -, -, hlens'⟩ := hp' z' hz'
    have hcl : ∀ e, s.hard e → zClean ds q st (.idx e) = zClean ds q st' (.idx e) := by
      intro e he
      have h1 : e ∉ ds := fun h => (ht.2 e h).1 he
      have h2 : e ≠ q := by rintro rfl; exact hs.2 he
      have g1 := sub_idx (v := .mergeZ sl gl ds q) (q := e) (by simp [View.dims, h1, h2]) hu
      have g2 := sub_idx (v := .mergeZ sl gl ds q) (q := e) (by simp [View.dims, h1, h2]) hu'
      have := Hd e he
      rw [g1, g2] at this
      simp [zClean, State.removeAll, h1, h2, this]
    have hll : SameLens (zClean ds q st) (zClean ds q st') := by
      intro e; simp [zClean, State.removeAll, hl e]
    have hL : ∀ j, ∃ L, ∀ hj : j < ds.length, ∃ v, (s.sem A).len ds[j] (zClean ds q st) = some v ∧
        (s.sem A).len ds[j] (zClean ds q st') = some v ∧ v.Num L ∧ 2 ^ sl ∣ L ∧ L ≤ 2 ^ gl := by
      intro j
      by_cases hj : j < ds.length
      · obtain ⟨l, n, h1, h2, h3, h4⟩ := hlens ds[j] (List.getElem_mem hj)
        obtain ⟨l', n', h1', h2', h3', h4'⟩ := hlens' ds[j] (List.getElem_mem hj)
        have := (lens_agree ih (ht.2 _ (List.getElem_mem hj)) hll hcl
          (by simp [zClean, State.removeAll, List.getElem_mem hj])
          (by simp [zClean, State.removeAll, List.getElem_mem hj])).1 l l' h1 h1'
        subst this
        exact ⟨n, fun _ => ⟨l, h1, h1', h2, h3, h4⟩⟩
      · exact ⟨0, fun h => absurd h hj⟩
    obtain ⟨L, hL⟩ := Classical.axiomOfChoice hL
    have bound : ∀ {st : State} {z : Val}, ValidR A (.view (.mergeZ sl gl ds q) s) st →
        st (.idx q) = some z → (∀ j (hj : j < ds.length), ∃ v,
          (s.sem A).len ds[j] (zClean ds q st) = some v ∧ v.Num (L j)) →
        ∃ k, z.Num k ∧ k < ZC.prod L ds.length := by
      intro st z hV hz hLs
      have hclean : zClean ds q (st.remove (.idx q)) = zClean ds q st := by
        unfold zClean
        funext t
        cases t <;> simp only [State.removeAll, State.remove, List.mem_cons] <;> grind
      obtain ⟨v, hv, hvn⟩ := mergeZ_len (S := s.sem A) (sl := sl) (gl := gl) (ds := ds) (d := q)
        (st := st.remove (.idx q)) (L := L) hds (by simp [State.remove])
        (fun _ _ _ h => Struct.hasLen_of_len h) (fun j hj => by
          obtain ⟨v, h1, h2⟩ := hLs j hj
          exact ⟨v, by rw [hclean]; exact h1, h2⟩)
      obtain ⟨k, y, hk, hy, hlt⟩ := hV q z v hs.2 hz hv
      have := Val.Num.eq hy hvn
      subst this
      exact ⟨k, hk, hlt⟩
    have hL1 : ∀ j (hj : j < ds.length), ∃ v, (s.sem A).len ds[j] (zClean ds q st) = some v ∧ v.Num (L j) := by
      intro j hj; obtain ⟨v, h1, h2, h3, -⟩ := hL j hj; exact ⟨v, h1, h3⟩
    have hL2 : ∀ j (hj : j < ds.length), ∃ v, (s.sem A).len ds[j] (zClean ds q st') = some v ∧ v.Num (L j) := by
      intro j hj; obtain ⟨v, h1, h2, h3, -⟩ := hL j hj; exact ⟨v, h2, h3⟩
    obtain ⟨k, hk, hlt⟩ := bound hV hz hL1
    obtain ⟨k', hk', hlt'⟩ := bound hV' hz' hL2
    have hdiv : ∀ j < ds.length, 2 ^ sl ∣ L j := fun j hj => by
      obtain ⟨v, -, -, -, h, -⟩ := hL j hj; exact h
    have hmax : ∀ j < ds.length, L j ≤ 2 ^ gl := fun j hj => by
      obtain ⟨v, -, -, -, -, h⟩ := hL j hj; exact h
    obtain ⟨r, hr⟩ := ZC.index_ok (n := ds.length) (sl := sl) (gl := gl) (len := L) h2 (by omega) hsg
      hdiv hmax hlt
    obtain ⟨r', hr'⟩ := ZC.index_ok (n := ds.length) (sl := sl) (gl := gl) (len := L) h2 (by omega) hsg
      hdiv hmax hlt'
    obtain ⟨w, hw1, -, -, hwj⟩ := mergeZSub_eq (S := s.sem A) (d := q) (T := r) hnd hz hk hL1
      (fun j hj => (hr j hj).1)
    obtain ⟨w', hw1', -, -, hwj'⟩ := mergeZSub_eq (S := s.sem A) (d := q) (T := r') hnd hz' hk' hL2
      (fun j hj => (hr' j hj).1)
    have e1 : w = u := Option.some.inj (hw1.symm.trans hu)
    have e2 : w' = u' := Option.some.inj (hw1'.symm.trans hu')
    subst e1; subst e2
    have : k = k' := by
      refine ZC.index_inj (n := ds.length) (sl := sl) (gl := gl) (len := L) h2 (by omega) hsg hdiv hmax hlt hlt' ?_
      intro j hj
      obtain ⟨a, b, m, ha, hb, h5, h6⟩ := hN ds[j] (hN' _ (List.getElem_mem hj))
      rw [hwj j hj] at ha; rw [hwj' j hj] at hb
      obtain rfl := Option.some.inj ha
      obtain rfl := Option.some.inj hb
      have e1 : r j = m := by simpa [Val.Num, Val.nat?] using h5
      have e2 : r' j = m := by simpa [Val.Num, Val.nat?] using h6
      rw [(hr j hj).1, (hr' j hj).1, e1, e2]
    subst this
    exact ⟨z, z', k, hz, hz', hk, hk'⟩

end Noarr
