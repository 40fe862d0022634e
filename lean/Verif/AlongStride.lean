import Verif.AlongJoin

/-
A stride is the slope of the offset; a dimension that is uniform has a slope. Used for C38, C39.
-/

set_option linter.unusedVariables false
set_option linter.unusedSimpArgs false

namespace Noarr

theorem Stride.int?_mul {z : Stride} {k : Val} {Z : Int} (h : (z.mul .ideal k).int? = some Z) :
    ∃ Z0 K, z.int? = some Z0 ∧ k.Num K ∧ Z = Z0 * (K : Int) := by
  have key : ∀ z : Stride, (Stride.uns (z.toUns.mul .ideal k)).int? = some Z →
      ∃ Z0 K, z.int? = some Z0 ∧ k.Num K ∧ Z = Z0 * (K : Int) := by
    intro z h
    simp only [Stride.int?, Option.map_eq_some_iff] at h
    obtain ⟨n, hn, rfl⟩ := h
    obtain ⟨x, y, hx, hy, rfl⟩ := Val.nat?_mul.1 hn
    refine ⟨x, y, ?_, hy, by simp⟩
    cases z with
    | uns v => simp [Stride.int?, Stride.toUns] at hx ⊢; exact ⟨x, hx, rfl⟩
    | sgn i =>
      cases i with
      | ofNat n => simp [Stride.int?, Stride.toUns] at hx ⊢; omega
      | negSucc n => simp [Stride.toUns] at hx
  cases z with
  | uns v => exact key _ h
  | sgn i =>
    by_cases hk : k = .lit 0
    · subst hk
      simp [Stride.mul, Stride.int?] at h
      exact ⟨i, 0, rfl, rfl, by simp [← h]⟩
    · refine key _ ?_
      unfold Stride.mul at h
      split at h
      · next h1 => exact absurd rfl hk
      · exact h

theorem Stride.int?_neg {z : Stride} {Z : Int} (h : z.neg.int? = some Z) : z.int? = some (-Z) := by
  cases z with
  | uns v =>
    simp only [Stride.neg] at h
    split at h
    · next n hn => simp [Stride.int?, hn] at h ⊢; omega
    · next hn => simp [Stride.int?, hn] at h
  | sgn i => simp [Stride.neg, Stride.int?] at h ⊢; omega

/-! ### Dimensions along the way -/

theorem not_hard_inner {v : View} {s : Struct} (ht : (Struct.view v s).tame) {d d' : Dim}
    (hd : ¬ (Struct.view v s).hard d) (hi : v.inner d = some d')
    (hfix : ∀ e i, v = .fix e i → d ≠ e)
    (hren : ∀ ps, v = .rename ps → d ∈ ps.map Prod.fst → d ∈ ps.map Prod.snd) : ¬ s.hard d' := by
  simp only [Struct.hard] at hd
  cases v with
  | bcast e => simp [View.inner] at hi; simp [View.hard, hi.1] at hd; rw [← hi.2]; exact hd
  | fix e i => cases hi; exact fun h => hd ⟨hfix e i rfl, h⟩
  | intoBlocks e maj min =>
    simp only [View.inner] at hi
    split at hi <;> cases hi
    · exact ht.2.1.1
    · exact hd
  | intoBlocksDyn e maj min pres =>
    simp only [View.inner] at hi
    split at hi
    · cases hi; exact ht.2.1.1
    · split at hi <;> cases hi
      exact hd
  | intoBlocksStat e border maj min nl =>
    simp only [View.inner] at hi
    split at hi
    · cases hi; exact ht.2.1.1
    · split at hi <;> cases hi
      exact fun h => hd (.inr h)
  | rename ps =>
    cases hi
    intro h
    refine hd ⟨_, h, ?_⟩
    by_cases hm : d ∈ ps.map Prod.snd
    · obtain ⟨⟨n, e⟩, hne, rfl⟩ := List.mem_map.1 hm
      have hsw : (e, n) ∈ ps.map Prod.swap := List.mem_map.2 ⟨_, hne, rfl⟩
      have hnd : ((ps.map Prod.swap).map Prod.fst).Nodup := by
        simpa [List.map_map, Function.comp_def] using ht.2.2
      rw [renameDim_of_mem hnd hsw]
      exact ⟨.inl (List.mem_map.2 ⟨_, hne, rfl⟩), renameDim_of_mem ht.2.1 hne⟩
    · have h1 : d ∉ ps.map Prod.fst := fun h => hm (hren ps rfl h)
      have : Sig.renameDim (ps.map Prod.swap) d = d := by
        refine renameDim_of_not_mem ?_
        simpa [List.map_map, Function.comp_def] using hm
      rw [this]
      exact ⟨.inr hm, renameDim_of_not_mem h1⟩
  | join a b e => simp [View.inner] at hi; rw [← hi.2]; exact hd
  | mergeBlocks maj min e => simp [View.inner] at hi; rw [← hi.2]; exact hd
  | mergeZ sl gl ds e => simp [View.inner] at hi; rw [← hi.2]; exact hd
  | _ => cases hi; exact hd

/-- A dimension with a stride is neither a tuple dimension nor `DimIsBorder`. -/
theorem stride_not_hard {A : Arith} {s : Struct} (ht : s.tame) (hs : s.sane A) {d : Dim} {p : State}
    {z : Stride} (h : s.stride A d p = some z) : ¬ s.hard d := by
  induction s generalizing d p z with
  | scalar => exact id
  | tuple => simp [Struct.stride] at h
  | union => simp [Struct.stride] at h
  | vector e s ih =>
    simp only [Struct.stride] at h
    split at h
    · next he => exact fun hh => hh.1 he
    · exact fun hh => ih ht hs h hh.2
  | view v s ih =>
    have hsub : ∀ d' z', ((v.sem A (s.sem A)).sub p).bind (s.stride A d') = some z' → ¬ s.hard d' := by
      intro d' z' h'
      obtain ⟨u, -, h'⟩ := Option.bind_eq_some_iff.1 h'
      exact ih ht.1 hs.1 h'
    simp only [Struct.hard]
    cases v with
    | bcast e =>
      simp only [Struct.stride] at h
      split at h
      · next he => exact fun hh => hh.1 he
      · exact fun hh => hsub _ _ h hh.2
    | fix e i => exact fun hh => hsub _ _ h hh.2
    | setLength e l => exact hsub _ _ h
    | shift e a => exact hsub _ _ h
    | slice e a l => exact hsub _ _ h
    | span e a l => exact hsub _ _ h
    | step e a k =>
      simp only [Struct.stride, Option.map_eq_some_iff] at h
      obtain ⟨z', h', -⟩ := h
      exact hsub _ _ h'
    | reverse e =>
      simp only [Struct.stride] at h
      split at h
      · simp only [Option.map_eq_some_iff] at h
        obtain ⟨z', h', -⟩ := h
        exact hsub _ _ h'
      · exact hsub _ _ h
    | reorder ds => simp [Struct.stride] at h
    | hoist e => exact hsub _ _ h
    | rename ps =>
      simp only [Struct.stride] at h
      split at h
      · simp at h
      · next hq =>
        have := hsub _ _ h
        rintro ⟨n, hn, hm, rfl⟩
        refine this ?_
        have hnd : ((ps.map Prod.swap).map Prod.fst).Nodup := by
          simpa [List.map_map, Function.comp_def] using ht.2.2
        by_cases hf : n ∈ ps.map Prod.fst
        · obtain ⟨⟨n, e⟩, hne, rfl⟩ := List.mem_map.1 hf
          rw [renameDim_of_mem ht.2.1 hne,
            renameDim_of_mem hnd (List.mem_map.2 ⟨_, hne, rfl⟩ : (e, n) ∈ ps.map Prod.swap)]
          exact hn
        · rw [renameDim_of_not_mem hf]
          have hm := hm.resolve_left hf
          rw [renameDim_of_not_mem (by simpa [List.map_map, Function.comp_def] using hm)]
          exact hn
    | join a b e =>
      simp only [Struct.stride] at h
      split at h
      · next he => rw [he]; exact hs.2
      · split at h
        · simp at h
        · exact hsub _ _ h
    | intoBlocks e maj min =>
      simp only [Struct.stride] at h
      split at h
      · next he => rw [he]; exact ht.2.2.2
      · split at h
        · next he => rw [he]; exact ht.2.2.1
        · split at h
          · simp at h
          · exact hsub _ _ h
    | intoBlocksDyn e maj min pres =>
      simp only [Struct.stride] at h
      split at h
      · next he => rw [he]; exact ht.2.2.2.1
      · split at h
        · next he => rw [he]; exact ht.2.2.1
        · split at h
          · next he => rw [he]; exact ht.2.2.2.2
          · split at h
            · simp at h
            · exact hsub _ _ h
    | intoBlocksStat e border maj min nl =>
      simp only [Struct.stride] at h
      split at h
      · next he =>
        rintro (hh | hh)
        · exact ht.2.2.2.2.2 (hh ▸ he)
        · exact ht.2.2.2.1 (he ▸ hh)
      · split at h
        · next he =>
          rintro (hh | hh)
          · exact ht.2.2.2.2.1 (hh ▸ he)
          · exact ht.2.2.1 (he ▸ hh)
        · split at h
          · simp at h
          · next he =>
            simp only [not_or] at he
            rintro (hh | hh)
            · exact he.1 hh
            · exact hsub _ _ h hh
    | mergeBlocks maj min e => simp [Struct.stride] at h
    | mergeZ sl gl ds e => simp [Struct.stride] at h

/-! ### The length of a block -/

theorem ibLen_of_len {e maj min : Dim} {S : Sem} {p : State} {nl : Val}
    (h : ((View.intoBlocks e maj min).sem .ideal S).len min p = some nl) :
    ibLen e maj min S p = some nl := by
  simp only [View.sem, intoBlocksSem, guardLen] at h
  split at h
  rotate_left
  · simp at h
  simp only [if_true] at h
  simp only [ibLen]
  split at h
  · next l hl => rw [hl]; exact h
  · next hl =>
    rw [hl]
    simp only [bind, Option.bind_eq_some_iff, Option.some.injEq] at h
    obtain ⟨ml, h1, l, h2, h3⟩ := h
    simp [h1, h2, h3]

theorem ibLen_grow {e maj min : Dim} {s : Struct} (ht : s.tame) {p f : State} (hg : Grow p f)
    (hf : Firm (.view (.intoBlocks e maj min) s) f) {nl nl' : Val}
    (h : ibLen e maj min (s.sem .ideal) p = some nl)
    (h' : ibLen e maj min (s.sem .ideal) f = some nl') : nl = nl' := by
  simp only [ibLen, hg.lens] at h h'
  cases hm : p (.len min) with
  | some l => simp only [hm, Option.some.injEq] at h h'; rw [← h, ← h']
  | none =>
    simp only [hm] at h h'
    cases hM : p (.len maj) with
    | none => simp [hM] at h
    | some ml =>
      cases h1 : (s.sem .ideal).len e (blocksClean e maj min p) with
      | none => simp [hM, h1] at h
      | some l =>
        cases h2 : (s.sem .ideal).len e (blocksClean e maj min f) with
        | none => simp [hM, h2] at h'
        | some l' =>
          have := (Struct.grows .ideal s ht).len _ _ e l l' (grow_clean hg)
            (firm_ib hf (.inr (by rw [hg.lens, hm]))) h1 h2
          subst this
          simp only [hM, h1, h2, Option.some.injEq] at h h'
          rw [← h, ← h']

theorem ibdLen_of_len {e maj min pres : Dim} (hp : min ≠ pres) {S : Sem} {p : State} {nl : Val}
    (h : ((View.intoBlocksDyn e maj min pres).sem .ideal S).len min p = some nl) :
    ibdLen e maj min pres S p = some nl := by
  simp only [View.sem, intoBlocksDynSem, guardLen] at h
  split at h
  rotate_left
  · simp at h
  simp only [if_true, hp, if_false] at h
  simp only [ibdLen]
  split at h
  · next l hl => rw [hl]; exact h
  · next hl =>
    rw [hl]
    simp only [bind, Option.bind_eq_some_iff, Option.some.injEq, blocksDynClean_eq] at h
    obtain ⟨ml, h1, cs, h4, l, h2, h3⟩ := h
    split at h4
    · simp at h4
    · cases h4
      simp [h1, h2, h3]

theorem ibdLen_grow {e maj min pres : Dim} {s : Struct} (ht : s.tame) {p f : State} (hg : Grow p f)
    (hf : Firm (.view (.intoBlocksDyn e maj min pres) s) f) {nl nl' : Val}
    (h : ibdLen e maj min pres (s.sem .ideal) p = some nl)
    (h' : ibdLen e maj min pres (s.sem .ideal) f = some nl') : nl = nl' := by
  simp only [ibdLen, hg.lens] at h h'
  cases hm : p (.len min) with
  | some l => simp only [hm, Option.some.injEq] at h h'; rw [← h, ← h']
  | none =>
    simp only [hm] at h h'
    cases hM : p (.len maj) with
    | none => simp [hM] at h
    | some ml =>
      cases h1 : (s.sem .ideal).len e (dynClean e maj min pres p) with
      | none => simp [hM, h1] at h
      | some l =>
        cases h2 : (s.sem .ideal).len e (dynClean e maj min pres f) with
        | none => simp [hM, h2] at h'
        | some l' =>
          have := (Struct.grows .ideal s ht).len _ _ e l l' (grow_dynClean hg)
            (firm_ibd hf (.inr (by rw [hg.lens, hm]))) h1 h2
          subst this
          simp only [hM, h1, h2, Option.some.injEq] at h h'
          rw [← h, ← h']

/-- The length within a body block. -/
theorem ibs_len {e border maj min : Dim} {nl0 : Val} (hb : min ≠ border) {S : Sem} {p f : State} {nl : Val}
    (hg : Grow p f) (hbody : f (.idx border) = some (.lit 0))
    (h : ((View.intoBlocksStat e border maj min nl0).sem .ideal S).len min p = some nl) : nl = nl0 := by
  simp only [View.sem, intoBlocksStatSem, guardLen] at h
  split at h
  rotate_left
  · simp at h
  simp only [if_true, hb, if_false] at h
  have hp : isBody border p = none ∨ isBody border p = some true := by
    cases hpb : p (.idx border) with
    | none => left; simp [isBody, hpb]
    | some v =>
      have := hg.idxs _ _ hpb
      rw [hbody] at this
      cases this
      right; simp [isBody, hpb]
  rcases hp with hp | hp
  · simp [hp] at h
  · simp [hp] at h; exact h.symm

/-! ### Strides -/

theorem stride_affine {s : Struct} (ht : s.tame) (hs : s.sane .ideal) {d : Dim} {p f : State}
    {z : Stride} {Z : Int} (hr : s.reaches d) (hd : ¬ s.hard d) (hst : s.straight .ideal d f)
    (hsc : s.unscaled d) (hg : Grow p f) (hf : Firm s f) (hz : s.stride .ideal d p = some z)
    (hZ : z.int? = some Z) : AffineAt s d f Z := by
  induction s generalizing d p f z Z with
  | scalar => simp [Struct.stride] at hz
  | tuple => simp [Struct.stride] at hz
  | union => simp [Struct.stride] at hz
  | vector e s ih =>
    simp only [Struct.stride] at hz
    have hf' : Firm s (f.removeAll [.idx e, .len e]) := by
      refine Firm.of_pat ?_ hf; lens_tac
    split at hz
    · next he =>
      subst he
      refine affine_vector ?_
      intro l hl
      rw [hg.lens] at hl
      simp only [hl] at hz
      split at hz
      rotate_left
      · simp at hz
      next l' hl' hi =>
      cases hl'
      simp only [bind, Option.bind_eq_some_iff, Option.some.injEq] at hz
      obtain ⟨o1, h1, o0, h0, rfl⟩ := hz
      simp only [Stride.int?, Option.map_eq_some_iff] at hZ
      obtain ⟨k, hk, rfl⟩ := hZ
      obtain ⟨x, y, hx, hy, hle, rfl⟩ := Val.nat?_sub.1 hk
      refine ⟨?_, ?_⟩
      · rintro rfl
        simp only [vectorStep, Option.some.injEq] at h1 h0
        subst h1; subst h0
        cases hx; cases hy; rfl
      · intro hl1 sz N hsz hN
        have hsz' : ∃ sz', (s.sem .ideal).size (p.removeAll [.idx d, .len d]) = some sz' ∧
            o1 = ((Val.lit 1).mul .ideal sz').add .ideal (.lit 0) ∧
            o0 = ((Val.lit 0).mul .ideal sz').add .ideal (.lit 0) := by
          simp only [vectorStep] at h1 h0
          split at h1
          · exact absurd rfl hl1
          · cases h1; simp at hx
          · next hb1 hb2 =>
            split at h0
            · exact absurd rfl hl1
            · exact absurd rfl (hb2 _)
            · simp only [Option.map_eq_some_iff] at h1 h0
              obtain ⟨sz', e1, e2⟩ := h1
              obtain ⟨sz'', e3, e4⟩ := h0
              rw [e1] at e3; cases e3
              exact ⟨sz', e1, e2.symm, e4.symm⟩
        obtain ⟨sz', e1, rfl, rfl⟩ := hsz'
        have : SameLens (f.removeAll [.idx d, .len d]) (p.removeAll [.idx d, .len d]) := by
          intro q; exact (grow_vector hg).lens q
        have := Struct.size_det .ideal s hf'.rigid this hsz e1
        subst this
        obtain ⟨a, b, ha, hb, rfl⟩ := Val.nat?_add.1 hx
        obtain ⟨a', b', ha', hb', rfl⟩ := Val.nat?_add.1 hy
        obtain ⟨i, n, hi, hn, rfl⟩ := Val.nat?_mul.1 ha
        obtain ⟨i', n', hi', hn', rfl⟩ := Val.nat?_mul.1 ha'
        cases hi; cases hi'; cases hb; cases hb'
        have := Val.Num.eq hN hn
        subst this
        simp
    · next he =>
      refine affine_vector_ne he hf' ?_
      refine ih ht hs (hr.resolve_left he) (fun h => hd ⟨he, h⟩) (hst.resolve_left he)
        (hsc.resolve_left he) (grow_vector hg) hf' hz hZ
  | view v s ih =>
    have HH : ∀ d' z' Z', v.inner d = some d' →
        (∀ ps, v = .rename ps → d ∈ ps.map Prod.fst → d ∈ ps.map Prod.snd) →
        ((v.sem .ideal (s.sem .ideal)).sub p).bind (s.stride .ideal d') = some z' → z'.int? = some Z' →
        ∀ uf, (v.sem .ideal (s.sem .ideal)).sub f = some uf → AffineAt s d' uf Z' := by
      intro d' z' Z' hi hren hz' hZ' uf huf
      obtain ⟨u, hu, hz'⟩ := Option.bind_eq_some_iff.1 hz'
      exact ih ht.1 hs.1 (hr.1.2 d' hi) (not_hard_inner ht hd hi hr.1.1 hren) (hst.1.2 d' uf hi huf)
        (hsc.1.2 d' hi) (sub_grow (Struct.grows .ideal s ht.1) ht hg hf hu huf) (firm_sub hf huf) hz' hZ'
    have nh := fun d' hi => not_hard_inner (d' := d') ht hd hi hr.1.1
    cases v with
    | bcast e =>
      simp only [Struct.stride] at hz
      split at hz
      · next he =>
        subst he
        split at hz
        · cases hz
          simp [Stride.int?] at hZ
          subst hZ
          exact affine_bcast
        · simp at hz
      · next he =>
        have hi : (View.bcast e).inner d = some d := by simp [View.inner, he]
        exact affine_pass ht hs (nh d hi nofun) (by simpa [View.dims] using he)
          (HH d z Z hi nofun hz hZ)
    | fix e i =>
      have he := hr.1.1 e i rfl
      exact affine_pass ht hs (nh d rfl nofun) (by simpa [View.dims] using he) (HH d z Z rfl nofun hz hZ)
    | setLength e l =>
      exact affine_pass ht hs (nh d rfl nofun) (by simp [View.dims]) (HH d z Z rfl nofun hz hZ)
    | hoist e =>
      exact affine_pass ht hs (nh d rfl nofun) (by simp [View.dims]) (HH d z Z rfl nofun hz hZ)
    | reorder ds => simp [Struct.stride] at hz
    | shift e a =>
      by_cases he : d = e
      · subst he
        exact affine_shift ht hs (nh d rfl nofun) (HH d z Z rfl nofun hz hZ)
      · exact affine_pass ht hs (nh d rfl nofun) (by simpa [View.dims] using he)
          (HH d z Z rfl nofun hz hZ)
    | slice e a l =>
      by_cases he : d = e
      · subst he
        exact affine_slice ht hs (nh d rfl nofun) (HH d z Z rfl nofun hz hZ)
      · exact affine_pass ht hs (nh d rfl nofun) (by simpa [View.dims] using he)
          (HH d z Z rfl nofun hz hZ)
    | span e a l =>
      by_cases he : d = e
      · subst he
        exact affine_span ht hs (nh d rfl nofun) (HH d z Z rfl nofun hz hZ)
      · exact affine_pass ht hs (nh d rfl nofun) (by simpa [View.dims] using he)
          (HH d z Z rfl nofun hz hZ)
    | step e a k =>
      have he := hsc.1.1 e a k rfl
      subst he
      simp only [Struct.stride, Option.map_eq_some_iff] at hz
      obtain ⟨z', hz', rfl⟩ := hz
      obtain ⟨Z0, K, h1, h2, rfl⟩ := Stride.int?_mul hZ
      refine affine_step (Z := Z0) ht hs (nh d rfl nofun) ?_ ?_ (HH d z' Z0 rfl nofun hz' h1)
      · intro K' hK'; rw [Val.Num.eq hK' h2]
      · rintro rfl; simp
    | reverse e =>
      simp only [Struct.stride] at hz
      split at hz
      · next he =>
        subst he
        simp only [Option.map_eq_some_iff] at hz
        obtain ⟨z', hz', rfl⟩ := hz
        have := affine_reverse ht hs (nh d rfl nofun)
          (HH d z' (-Z) rfl nofun hz' (Stride.int?_neg hZ))
        rwa [Int.neg_neg] at this
      · next he =>
        exact affine_pass ht hs (nh d rfl nofun) (by simpa [View.dims] using he)
          (HH d z Z rfl nofun hz hZ)
    | rename ps =>
      simp only [Struct.stride] at hz
      split at hz
      · simp at hz
      · next hq =>
        have hq' : d ∈ ps.map Prod.fst → d ∈ ps.map Prod.snd := by
          intro h1
          exact Classical.byContradiction fun h2 => hq ⟨h1, h2⟩
        refine affine_rename ht hs ?_ hq' (HH _ z Z rfl ?_ hz hZ)
        · intro hnd
          have := nh d (inner_of_not_dims hnd) (by rintro _ ⟨⟩; exact hq')
          exact this
        · rintro _ ⟨⟩; exact hq'
    | join a b e =>
      by_cases he : d = e
      · subst he
        simp only [Struct.stride, if_true, bind, Option.bind_eq_some_iff, Option.some.injEq] at hz
        obtain ⟨u, hu, za, hza, zb, hzb, rfl⟩ := hz
        obtain ⟨Za, Zb, h1, h2, rfl⟩ := Stride.int?_add hZ
        obtain ⟨hab, ra, rb⟩ := hr.2 a b d rfl rfl
        obtain ⟨ca, cb⟩ := hsc.2 a b d rfl rfl
        refine affine_join hab fun uf huf => ?_
        obtain ⟨sa, sb, sc⟩ := hst.2 a b d uf rfl rfl huf
        have hgu := sub_grow (Struct.grows .ideal s ht.1) ht hg hf hu huf
        have hfu := firm_sub hf huf
        refine ⟨fun w hw => ?_, fun w hw => ?_, sc⟩
        · exact ih ht.1 hs.1 ra ht.2.1.1 (sa w hw) ca (Grow.of_remove (hw ▸ hgu)) (Firm.of_remove (hw ▸ hfu)) hza h1
        · exact ih ht.1 hs.1 rb ht.2.2.1 (sb w hw) cb (Grow.of_remove (hw ▸ hgu)) (Firm.of_remove (hw ▸ hfu)) hzb h2
      simp only [Struct.stride, he, if_false] at hz
      split at hz
      · simp at hz
      · next hab =>
        have hi : (View.join a b e).inner d = some d := by simp [View.inner, he]
        refine affine_pass ht hs (nh d hi nofun) ?_ (HH d z Z hi nofun hz hZ)
        simp only [View.dims, List.mem_cons, List.not_mem_nil, or_false]
        grind
    | intoBlocks e maj min =>
      simp only [Struct.stride] at hz
      have hne : maj ≠ min := hs.2
      split at hz
      · next he =>
        subst he
        have hi : (View.intoBlocks e maj d).inner d = some e := by simp [View.inner]
        have hfo : (View.intoBlocks e maj d).follows d := fun _ => .inr rfl
        have hl : Lin (.intoBlocks e maj d) (s.sem .ideal) e maj d d f
            ((ibLen e maj d (s.sem .ideal) f).getD (.lit 0)) :=
          lin_ib (.inr rfl) (fun nl' h => by rw [h]; rfl)
        exact affine_minor ht hs ht.2.2.2 hi hfo (hl.min hne) (HH e z Z hi nofun hz hZ)
      · split at hz
        · next he =>
          subst he
          split at hz
          · next nl hnl =>
            simp only [Option.map_eq_some_iff] at hz
            obtain ⟨z', hz', rfl⟩ := hz
            obtain ⟨Z0, K, h1, h2, rfl⟩ := Stride.int?_mul hZ
            have hi : (View.intoBlocks e d min).inner d = some e := by simp [View.inner]
            have hfo : (View.intoBlocks e d min).follows d := fun _ => .inl rfl
            have hl : Lin (.intoBlocks e d min) (s.sem .ideal) e d min d f nl :=
              lin_ib (.inl rfl) (fun nl' h => ibLen_grow ht.1 hg hf (ibLen_of_len hnl) h)
            refine affine_major (Z := Z0) ht hs hne ht.2.2.1 hi hfo hl ?_ ?_ (HH e z' Z0 hi nofun hz' h1)
            · intro K' hK'; rw [Val.Num.eq hK' h2]
            · rintro rfl; simp
          · simp at hz
        · split at hz
          · simp at hz
          · next h1 h2 h3 =>
            have hi : (View.intoBlocks e maj min).inner d = some d := by simp [View.inner, h1, h2]
            refine affine_pass ht hs (nh d hi nofun) ?_ (HH d z Z hi nofun hz hZ)
            simp [View.dims, h1, h2, h3]
    | intoBlocksDyn e maj min pres =>
      simp only [Struct.stride] at hz
      obtain ⟨hne, hmp, hpM⟩ := hs.2
      split at hz
      · next he =>
        subst he
        have hi : (View.intoBlocksDyn e maj d pres).inner d = some e := by simp [View.inner]
        have hfo : (View.intoBlocksDyn e maj d pres).follows d := fun _ => .inr rfl
        have hl : Lin (.intoBlocksDyn e maj d pres) (s.sem .ideal) e maj d d f
            ((ibdLen e maj d pres (s.sem .ideal) f).getD (.lit 0)) :=
          lin_ibd (.inr rfl) (fun nl' h => by rw [h]; rfl)
        exact affine_minor ht hs ht.2.2.2.1 hi hfo (hl.min hne) (HH e z Z hi nofun hz hZ)
      · split at hz
        · next he =>
          subst he
          split at hz
          · next nl hnl =>
            simp only [Option.map_eq_some_iff] at hz
            obtain ⟨z', hz', rfl⟩ := hz
            obtain ⟨Z0, K, h1, h2, rfl⟩ := Stride.int?_mul hZ
            have hi : (View.intoBlocksDyn e d min pres).inner d = some e := by simp [View.inner]
            have hfo : (View.intoBlocksDyn e d min pres).follows d := fun _ => .inl rfl
            have hl : Lin (.intoBlocksDyn e d min pres) (s.sem .ideal) e d min d f nl :=
              lin_ibd (.inl rfl) (fun nl' h => ibdLen_grow ht.1 hg hf (ibdLen_of_len hmp hnl) h)
            refine affine_major (Z := Z0) ht hs hne ht.2.2.1 hi hfo hl ?_ ?_ (HH e z' Z0 hi nofun hz' h1)
            · intro K' hK'; rw [Val.Num.eq hK' h2]
            · rintro rfl; simp
          · simp at hz
        · split at hz
          · next h1 h2 h3 =>
            cases hz
            simp [Stride.int?] at hZ
            subst hZ; subst h3
            exact affine_pres h2 h1
          · split at hz
            · simp at hz
            · next h1 h2 h3 h4 =>
              have hi : (View.intoBlocksDyn e maj min pres).inner d = some d := by
                simp [View.inner, h1, h2, h3]
              refine affine_pass ht hs (nh d hi nofun) ?_ (HH d z Z hi nofun hz hZ)
              simp [View.dims, h1, h2, h3, h4]
    | intoBlocksStat e border maj min nl0 =>
      simp only [Struct.stride] at hz
      have hne : maj ≠ min := hs.2
      obtain ⟨-, h3, h4, h5, h6⟩ := ht.2
      obtain ⟨⟨⟨h7, h8⟩, -⟩, -⟩ := hst
      split at hz
      · next he =>
        subst he
        have hi : (View.intoBlocksStat e border maj d nl0).inner d = some e := by simp [View.inner]
        have hfo : (View.intoBlocksStat e border maj d nl0).follows d := ⟨h7, fun _ => .inr rfl⟩
        obtain ⟨b, hl⟩ := linMin_ibs (e := e) (border := border) (maj := maj) (nl := nl0)
          (S := s.sem .ideal) (f := f) h7 hne
        exact affine_minor ht hs h4 hi hfo hl (HH e z Z hi nofun hz hZ)
      · split at hz
        · next he =>
          subst he
          split at hz
          · next nl hnl =>
            simp only [Option.map_eq_some_iff] at hz
            obtain ⟨z', hz', rfl⟩ := hz
            obtain ⟨Z0, K, h1, h2, rfl⟩ := Stride.int?_mul hZ
            have hi : (View.intoBlocksStat e border d min nl0).inner d = some e := by simp [View.inner]
            have hfo : (View.intoBlocksStat e border d min nl0).follows d := ⟨h7, fun _ => .inl rfl⟩
            have hb := h8 rfl
            have := ibs_len (Ne.symm h6) hg hb hnl
            subst this
            have hl : Lin (.intoBlocksStat e border d min nl) (s.sem .ideal) e d min d f nl :=
              lin_ibs h7 (by simp [isBody, hb])
            refine affine_major (Z := Z0) ht hs hne h3 hi hfo hl ?_ ?_ (HH e z' Z0 hi nofun hz' h1)
            · intro K' hK'; rw [Val.Num.eq hK' h2]
            · rintro rfl; simp
          · simp at hz
        · split at hz
          · simp at hz
          · next h1 h2 h9 =>
            simp only [not_or] at h9
            have hi : (View.intoBlocksStat e border maj min nl0).inner d = some d := by
              simp [View.inner, h1, h2, h7]
            refine affine_pass ht hs (nh d hi nofun) ?_ (HH d z Z hi nofun hz hZ)
            simp [View.dims, h1, h2, h9]
    | mergeBlocks maj min e => simp [Struct.stride] at hz
    | mergeZ sl gl ds e => simp [Struct.stride] at hz

/-! ### Uniform dimensions -/

/-- The slope exists even where `stride_along` does not tell it, and is the same in all the states
that agree on the lengths. -/
theorem uniform_affine {s : Struct} (ht : s.tame) (hs : s.sane .ideal) {d : Dim} {p : State} {P : State → Prop}
    (hr : s.reaches d) (hd : ¬ s.hard d) (hP : ∀ f f', P f → P f' → Alike s f f')
    (hst : ∀ f, P f → s.straight .ideal d f) (hf : ∀ f, P f → Firm s f)
    (hz : s.isUniform .ideal d p = true) : ∃ Z, ∀ f, P f → AffineAt s d f Z := by
  induction s generalizing d p P with
  | scalar => simp [Struct.isUniform] at hz
  | tuple => simp [Struct.isUniform] at hz
  | union => simp [Struct.isUniform] at hz
  | vector e s ih =>
    simp only [Struct.isUniform] at hz
    have hf' : ∀ f, P f → Firm s (f.removeAll [.idx e, .len e]) := by
      intro f h
      refine Firm.of_pat ?_ (hf f h); lens_tac
    split at hz
    · next he =>
      subst he
      by_cases hl : ∃ f, P f ∧ f (.len d) = some (.lit 1)
      · obtain ⟨f0, hf0, hl0⟩ := hl
        refine ⟨0, fun f hPf => affine_vector ?_⟩
        intro l hl'
        rw [← (hP _ _ hf0 hPf).1, hl0] at hl'
        cases hl'
        simp
      · obtain ⟨N, hN⟩ := common P (fun f => ((s.sem .ideal).size (f.removeAll [.idx d, .len d])).bind Val.nat?)
          (by
            intro f f' h h' x y hx hy
            obtain ⟨sz, h1, h2⟩ := Option.bind_eq_some_iff.1 hx
            obtain ⟨sz', h3, h4⟩ := Option.bind_eq_some_iff.1 hy
            have := Struct.size_det .ideal s (hf' f h).rigid (hP f f' h h').vector.1 h1 h3
            subst this
            rw [h2] at h4
            exact Option.some.inj h4) 0
        refine ⟨N, fun f hPf => affine_vector ?_⟩
        intro l hl'
        refine ⟨fun h => absurd ⟨f, hPf, h ▸ hl'⟩ hl, fun _ sz N' h1 h2 => ?_⟩
        rw [hN f hPf N' (by simp only [h1, Option.bind_some]; exact h2)]
    · next he =>
      obtain ⟨Z, h⟩ := ih (P := fun u => ∃ f, P f ∧ f.removeAll [.idx e, .len e] = u) ht hs (hr.resolve_left he)
        (fun h => hd ⟨he, h⟩)
        (by rintro _ _ ⟨f, h, rfl⟩ ⟨f', h', rfl⟩; exact (hP f f' h h').vector)
        (by rintro _ ⟨f, h, rfl⟩; exact (hst f h).resolve_left he)
        (by rintro _ ⟨f, h, rfl⟩; exact hf' f h) hz
      exact ⟨Z, fun f hPf => affine_vector_ne he (hf' f hPf) (h _ ⟨f, hPf, rfl⟩)⟩
  | view v s ih =>
    have HH : ∀ d', v.inner d = some d' →
        (∀ ps, v = .rename ps → d ∈ ps.map Prod.fst → d ∈ ps.map Prod.snd) →
        (match (v.sem .ideal (s.sem .ideal)).sub p with
          | some u => s.isUniform .ideal d' u
          | none => false) = true →
        ∃ Z, ∀ f, P f → ∀ uf, (v.sem .ideal (s.sem .ideal)).sub f = some uf → AffineAt s d' uf Z := by
      intro d' hi hren hz'
      cases hu : (v.sem .ideal (s.sem .ideal)).sub p with
      | none => simp [hu] at hz'
      | some u =>
        simp only [hu] at hz'
        obtain ⟨Z, h⟩ := ih (P := fun u => ∃ f, P f ∧ (v.sem .ideal (s.sem .ideal)).sub f = some u) ht.1 hs.1
          (hr.1.2 d' hi) (not_hard_inner ht hd hi hr.1.1 hren)
          (by rintro u u' ⟨f, h, hu⟩ ⟨f', h', hu'⟩; exact (hP f f' h h').sub ht hs (hf f h).rigid hu hu')
          (by rintro u ⟨f, h, hu⟩; exact (hst f h).1.2 d' u hi hu)
          (by rintro u ⟨f, h, hu⟩; exact firm_sub (hf f h) hu) hz'
        exact ⟨Z, fun f hPf uf huf => h uf ⟨f, hPf, huf⟩⟩
    have nh := fun d' hi => not_hard_inner (d' := d') ht hd hi hr.1.1
    cases v with
    | bcast e =>
      simp only [Struct.isUniform] at hz
      split at hz
      · next he => subst he; exact ⟨0, fun _ _ => affine_bcast⟩
      · next he =>
        have hi : (View.bcast e).inner d = some d := by simp [View.inner, he]
        obtain ⟨Z, H⟩ := HH d hi nofun hz
        exact ⟨Z, fun f hPf => affine_pass ht hs (nh d hi nofun) (by simpa [View.dims] using he) (H f hPf)⟩
    | fix e i =>
      have he := hr.1.1 e i rfl
      obtain ⟨Z, H⟩ := HH d rfl nofun hz
      exact ⟨Z, fun f hPf => affine_pass ht hs (nh d rfl nofun) (by simpa [View.dims] using he) (H f hPf)⟩
    | setLength e l =>
      obtain ⟨Z, H⟩ := HH d rfl nofun hz
      exact ⟨Z, fun f hPf => affine_pass ht hs (nh d rfl nofun) (by simp [View.dims]) (H f hPf)⟩
    | hoist e =>
      obtain ⟨Z, H⟩ := HH d rfl nofun hz
      exact ⟨Z, fun f hPf => affine_pass ht hs (nh d rfl nofun) (by simp [View.dims]) (H f hPf)⟩
    | reorder ds => simp [Struct.isUniform] at hz
    | shift e a =>
      obtain ⟨Z, H⟩ := HH d rfl nofun hz
      by_cases he : d = e
      · subst he; exact ⟨Z, fun f hPf => affine_shift ht hs (nh d rfl nofun) (H f hPf)⟩
      · exact ⟨Z, fun f hPf => affine_pass ht hs (nh d rfl nofun) (by simpa [View.dims] using he) (H f hPf)⟩
    | slice e a l =>
      obtain ⟨Z, H⟩ := HH d rfl nofun hz
      by_cases he : d = e
      · subst he; exact ⟨Z, fun f hPf => affine_slice ht hs (nh d rfl nofun) (H f hPf)⟩
      · exact ⟨Z, fun f hPf => affine_pass ht hs (nh d rfl nofun) (by simpa [View.dims] using he) (H f hPf)⟩
    | span e a l =>
      obtain ⟨Z, H⟩ := HH d rfl nofun hz
      by_cases he : d = e
      · subst he; exact ⟨Z, fun f hPf => affine_span ht hs (nh d rfl nofun) (H f hPf)⟩
      · exact ⟨Z, fun f hPf => affine_pass ht hs (nh d rfl nofun) (by simpa [View.dims] using he) (H f hPf)⟩
    | step e a k =>
      obtain ⟨Z, H⟩ := HH d rfl nofun hz
      by_cases he : d = e
      · subst he
        refine ⟨Z * ((k.nat?.getD 0 : Nat) : Int), fun f hPf => affine_step ht hs (nh d rfl nofun) ?_ ?_ (H f hPf)⟩
        · intro K hK; rw [Val.Num] at hK; rw [hK]; rfl
        · rintro rfl; simp
      · exact ⟨Z, fun f hPf => affine_pass ht hs (nh d rfl nofun) (by simpa [View.dims] using he) (H f hPf)⟩
    | reverse e =>
      obtain ⟨Z, H⟩ := HH d rfl nofun hz
      by_cases he : d = e
      · subst he; exact ⟨_, fun f hPf => affine_reverse ht hs (nh d rfl nofun) (H f hPf)⟩
      · exact ⟨Z, fun f hPf => affine_pass ht hs (nh d rfl nofun) (by simpa [View.dims] using he) (H f hPf)⟩
    | rename ps =>
      simp only [Struct.isUniform] at hz
      split at hz
      · simp at hz
      · next hq =>
        have hq' : d ∈ ps.map Prod.fst → d ∈ ps.map Prod.snd := by
          intro h1
          exact Classical.byContradiction fun h2 => hq ⟨h1, h2⟩
        obtain ⟨Z, H⟩ := HH _ rfl (by rintro _ ⟨⟩; exact hq') hz
        refine ⟨Z, fun f hPf => affine_rename ht hs ?_ hq' (H f hPf)⟩
        intro hnd
        exact nh d (inner_of_not_dims hnd) (by rintro _ ⟨⟩; exact hq')
    | join a b e =>
      by_cases he : d = e
      · subst he
        simp only [Struct.isUniform, if_true, Bool.and_eq_true] at hz
        obtain ⟨hab, ra, rb⟩ := hr.2 a b d rfl rfl
        obtain ⟨hza, hzb⟩ := hz
        cases hu : ((View.join a b d).sem .ideal (s.sem .ideal)).sub p with
        | none => simp [hu] at hza
        | some u =>
        simp only [hu] at hza hzb
        have alike : ∀ c, ¬ s.hard c → ∀ w w',
            (∃ f uf, P f ∧ ((View.join a b d).sem .ideal (s.sem .ideal)).sub f = some uf ∧ w.remove (.idx c) = uf) →
            (∃ f uf, P f ∧ ((View.join a b d).sem .ideal (s.sem .ideal)).sub f = some uf ∧ w'.remove (.idx c) = uf) →
            Alike s w w' := by
          rintro c hc w w' ⟨f, uf, h, huf, h1⟩ ⟨f', uf', h', huf', h2⟩
          have := (hP f f' h h').sub ht hs (hf f h).rigid huf huf'
          rw [← h1, ← h2] at this
          exact this.of_remove hc
        obtain ⟨Z, h1⟩ := ih (P := fun w => ∃ f uf, P f ∧ ((View.join a b d).sem .ideal (s.sem .ideal)).sub f =
            some uf ∧ w.remove (.idx b) = uf) ht.1 hs.1 ra ht.2.1.1 (alike b ht.2.2.1)
          (by rintro w ⟨f, uf, h, huf, hw⟩; exact ((hst f h).2 a b d uf rfl rfl huf).1 w hw)
          (by rintro w ⟨f, uf, h, huf, rfl⟩; exact Firm.of_remove (firm_sub (hf f h) huf)) hza
        obtain ⟨Z', h2⟩ := ih (P := fun w => ∃ f uf, P f ∧ ((View.join a b d).sem .ideal (s.sem .ideal)).sub f =
            some uf ∧ w.remove (.idx a) = uf) ht.1 hs.1 rb ht.2.2.1 (alike a ht.2.1.1)
          (by rintro w ⟨f, uf, h, huf, hw⟩; exact ((hst f h).2 a b d uf rfl rfl huf).2.1 w hw)
          (by rintro w ⟨f, uf, h, huf, rfl⟩; exact Firm.of_remove (firm_sub (hf f h) huf)) hzb
        refine ⟨Z + Z', fun f hPf => affine_join hab fun uf huf => ?_⟩
        exact ⟨fun w hw => h1 w ⟨f, uf, hPf, huf, hw⟩, fun w hw => h2 w ⟨f, uf, hPf, huf, hw⟩,
          ((hst f hPf).2 a b d uf rfl rfl huf).2.2⟩
      simp only [Struct.isUniform, he, if_false] at hz
      split at hz
      · simp at hz
      · next hab =>
        have hi : (View.join a b e).inner d = some d := by simp [View.inner, he]
        obtain ⟨Z, H⟩ := HH d hi nofun hz
        refine ⟨Z, fun f hPf => affine_pass ht hs (nh d hi nofun) ?_ (H f hPf)⟩
        simp only [View.dims, List.mem_cons, List.not_mem_nil, or_false]
        grind
    | intoBlocks e maj min =>
      simp only [Struct.isUniform] at hz
      have hne : maj ≠ min := hs.2
      obtain ⟨nl, hnl⟩ := common P (ibLen e maj min (s.sem .ideal))
        (fun f f' h h' x y hx hy => ibLen_alike ht (hP f f' h h') hx hy) (.lit 0)
      have hl : ∀ f, P f → ∀ d, d = maj ∨ d = min → Lin (.intoBlocks e maj min) (s.sem .ideal) e maj min d f nl :=
        fun f hPf d hd => lin_ib hd (hnl f hPf)
      split at hz
      · next he =>
        subst he
        have hi : (View.intoBlocks e maj d).inner d = some e := by simp [View.inner]
        have hfo : (View.intoBlocks e maj d).follows d := fun _ => .inr rfl
        obtain ⟨Z, H⟩ := HH e hi nofun hz
        exact ⟨Z, fun f hPf => affine_minor ht hs ht.2.2.2 hi hfo ((hl f hPf d (.inr rfl)).min hne) (H f hPf)⟩
      · split at hz
        · next he =>
          subst he
          simp only [Bool.and_eq_true] at hz
          have hi : (View.intoBlocks e d min).inner d = some e := by simp [View.inner]
          have hfo : (View.intoBlocks e d min).follows d := fun _ => .inl rfl
          obtain ⟨Z, H⟩ := HH e hi nofun hz.2
          refine ⟨Z * ((nl.nat?.getD 0 : Nat) : Int), fun f hPf =>
            affine_major ht hs hne ht.2.2.1 hi hfo (hl f hPf d (.inl rfl)) ?_ ?_ (H f hPf)⟩
          · intro K hK; rw [Val.Num] at hK; rw [hK]; rfl
          · rintro rfl; simp
        · split at hz
          · simp at hz
          · next h1 h2 h3 =>
            have hi : (View.intoBlocks e maj min).inner d = some d := by simp [View.inner, h1, h2]
            obtain ⟨Z, H⟩ := HH d hi nofun hz
            refine ⟨Z, fun f hPf => affine_pass ht hs (nh d hi nofun) ?_ (H f hPf)⟩
            simp [View.dims, h1, h2, h3]
    | intoBlocksDyn e maj min pres =>
      simp only [Struct.isUniform] at hz
      obtain ⟨hne, hmp, hpM⟩ := hs.2
      obtain ⟨nl, hnl⟩ := common P (ibdLen e maj min pres (s.sem .ideal))
        (fun f f' h h' x y hx hy => ibdLen_alike ht (hP f f' h h') hx hy) (.lit 0)
      have hl : ∀ f, P f → ∀ d, d = maj ∨ d = min →
          Lin (.intoBlocksDyn e maj min pres) (s.sem .ideal) e maj min d f nl :=
        fun f hPf d hd => lin_ibd hd (hnl f hPf)
      split at hz
      · next he =>
        by_cases h1 : d = min
        · subst h1
          have hi : (View.intoBlocksDyn e maj d pres).inner d = some e := by simp [View.inner]
          have hfo : (View.intoBlocksDyn e maj d pres).follows d := fun _ => .inr rfl
          obtain ⟨Z, H⟩ := HH e hi nofun hz
          exact ⟨Z, fun f hPf => affine_minor ht hs ht.2.2.2.1 hi hfo ((hl f hPf d (.inr rfl)).min hne) (H f hPf)⟩
        · by_cases h2 : d = maj
          · subst h2
            have hi : (View.intoBlocksDyn e d min pres).inner d = some e := by simp [View.inner]
            have hfo : (View.intoBlocksDyn e d min pres).follows d := fun _ => .inl rfl
            obtain ⟨Z, H⟩ := HH e hi nofun hz
            refine ⟨Z * ((nl.nat?.getD 0 : Nat) : Int), fun f hPf =>
              affine_major ht hs hne ht.2.2.1 hi hfo (hl f hPf d (.inl rfl)) ?_ ?_ (H f hPf)⟩
            · intro K hK; rw [Val.Num] at hK; rw [hK]; rfl
            · rintro rfl; simp
          · have h3 : d = pres := by simpa [h1, h2] using he
            subst h3
            exact ⟨0, fun _ _ => affine_pres h2 h1⟩
      · next h1 =>
        split at hz
        · simp at hz
        · next h4 =>
          simp only [not_or] at h1
          have hi : (View.intoBlocksDyn e maj min pres).inner d = some d := by
            simp [View.inner, h1]
          obtain ⟨Z, H⟩ := HH d hi nofun hz
          refine ⟨Z, fun f hPf => affine_pass ht hs (nh d hi nofun) ?_ (H f hPf)⟩
          simp [View.dims, h1, h4]
    | intoBlocksStat e border maj min nl0 =>
      simp only [Struct.isUniform] at hz
      have hne : maj ≠ min := hs.2
      obtain ⟨-, h3, h4, h5, h6⟩ := ht.2
      by_cases hP0 : ¬ ∃ f, P f
      · exact ⟨0, fun f hPf => absurd ⟨f, hPf⟩ hP0⟩
      obtain ⟨f0, hPf0⟩ := Classical.not_not.1 hP0
      have h7 := (hst f0 hPf0).1.1.1
      have h8 := fun f hPf => (hst f hPf).1.1.2
      split at hz
      · next he =>
        by_cases h1 : d = min
        · subst h1
          have hi : (View.intoBlocksStat e border maj d nl0).inner d = some e := by simp [View.inner]
          have hfo : (View.intoBlocksStat e border maj d nl0).follows d := ⟨h7, fun _ => .inr rfl⟩
          obtain ⟨Z, H⟩ := HH e hi nofun hz
          refine ⟨Z, fun f hPf => ?_⟩
          obtain ⟨b, hl⟩ := linMin_ibs (e := e) (border := border) (maj := maj) (nl := nl0)
            (S := s.sem .ideal) (f := f) h7 hne
          exact affine_minor ht hs h4 hi hfo hl (H f hPf)
        · have h2 : d = maj := by simpa [h1, h7] using he
          subst h2
          have hi : (View.intoBlocksStat e border d min nl0).inner d = some e := by simp [View.inner]
          have hfo : (View.intoBlocksStat e border d min nl0).follows d := ⟨h7, fun _ => .inl rfl⟩
          have hl : ∀ f, P f → Lin (.intoBlocksStat e border d min nl0) (s.sem .ideal) e d min d f nl0 :=
            fun f hPf => lin_ibs h7 (by simp [isBody, h8 f hPf rfl])
          obtain ⟨Z, H⟩ := HH e hi nofun hz
          refine ⟨Z * ((nl0.nat?.getD 0 : Nat) : Int), fun f hPf => affine_major ht hs hne h3 hi hfo (hl f hPf) ?_ ?_ (H f hPf)⟩
          · intro K hK; rw [Val.Num] at hK; rw [hK]; rfl
          · rintro rfl; simp
      · next h1 =>
        split at hz
        · simp at hz
        · next h4 =>
          simp only [not_or] at h1
          have hi : (View.intoBlocksStat e border maj min nl0).inner d = some d := by
            simp [View.inner, h1]
          obtain ⟨Z, H⟩ := HH d hi nofun hz
          refine ⟨Z, fun f hPf => affine_pass ht hs (nh d hi nofun) ?_ (H f hPf)⟩
          simp [View.dims, h1, h4]
    | mergeBlocks maj min e =>
      by_cases hP0 : ¬ ∃ f, P f
      · exact ⟨0, fun f hPf => absurd ⟨f, hPf⟩ hP0⟩
      obtain ⟨f0, hPf0⟩ := Classical.not_not.1 hP0
      have he : d ≠ e := (hst f0 hPf0).1.1
      simp only [Struct.isUniform, he, if_false] at hz
      split at hz
      · simp at hz
      · next h1 =>
        simp only [not_or] at h1
        have hi : (View.mergeBlocks maj min e).inner d = some d := by simp [View.inner, he]
        obtain ⟨Z, H⟩ := HH d hi nofun hz
        exact ⟨Z, fun f hPf => affine_pass ht hs (nh d hi nofun) (by simp [View.dims, h1, he]) (H f hPf)⟩
    | mergeZ sl gl ds e =>
      by_cases hP0 : ¬ ∃ f, P f
      · exact ⟨0, fun f hPf => absurd ⟨f, hPf⟩ hP0⟩
      obtain ⟨f0, hPf0⟩ := Classical.not_not.1 hP0
      have he : d ≠ e := (hst f0 hPf0).1.1
      simp only [Struct.isUniform, he, if_false] at hz
      split at hz
      · simp at hz
      · next h1 =>
        have hi : (View.mergeZ sl gl ds e).inner d = some d := by simp [View.inner, he]
        obtain ⟨Z, H⟩ := HH d hi nofun hz
        exact ⟨Z, fun f hPf => affine_pass ht hs (nh d hi nofun) (by simp [View.dims, h1, he]) (H f hPf)⟩

/-! ### Dimensions of the signature are not fixed -/

namespace Sig

theorem accept_replace_sub {R : Sig → Sig} {ds : List Dim} {q : Dim}
    (h1 : ∀ N, (R N).anyAccept q = true → N.anyAccept q = true) {S : Sig}
    (h : (S.replace R ds).anyAccept q = true) : S.anyAccept q = true := by
  induction S with
  | scalar s => exact h
  | void => exact h
  | ill => exact h
  | fn d l r ih =>
    simp only [replace] at h
    split at h
    · exact h1 _ h
    · rcases accept_fn.1 h with h | h
      · exact accept_fn.2 (.inl h)
      · exact accept_fn.2 (.inr (ih h))
  | dep d n rs ih =>
    simp only [replace] at h
    split at h
    · exact h1 _ h
    · rcases accept_dep.1 h with h | ⟨i, h⟩
      · exact accept_dep.2 (.inl h)
      · exact accept_dep.2 (.inr ⟨i, ih i h⟩)

theorem replace_absent {R : Sig → Sig} {ds : List Dim} {S : Sig}
    (h : ∀ d ∈ ds, S.anyAccept d = false) : S.replace R ds = S := by
  induction S with
  | scalar s => rfl
  | void => rfl
  | ill => rfl
  | fn d l r ih =>
    simp only [replace]
    split
    · next hd => have := h d hd; simp [anyAccept] at this
    · rw [ih]
      intro q hq
      have := h q hq
      simp [anyAccept] at this ⊢
      exact this.2
  | dep d n rs ih =>
    simp only [replace]
    split
    · next hd => have := h d hd; simp [anyAccept] at this
    · congr 1
      funext i
      refine ih i ?_
      intro q hq
      have := h q hq
      simp [anyAccept] at this
      exact this.2 i

theorem accept_select {d : Dim} {n m : Nat} {rs : Fin n → Sig} {f : Nat → Nat} {q : Dim}
    (h : (select d rs m f).anyAccept q = true) : (Sig.dep d n rs).anyAccept q = true := by
  unfold select at h
  split at h
  · rcases accept_dep.1 h with h | ⟨i, h⟩
    · exact accept_dep.2 (.inl h)
    · exact accept_dep.2 (.inr ⟨_, h⟩)
  · simp [anyAccept] at h

theorem find_accept {S : Sig} {q : Dim} {st : State} {e l r} (h : S.find q st = .fn e l r) :
    S.anyAccept q = true := by
  induction S with
  | scalar s => simp [find] at h
  | void => simp [find] at h
  | ill => simp [find] at h
  | fn d l r ih =>
    simp only [find] at h
    split at h
    · next hd => exact accept_fn.2 (.inl hd)
    · exact accept_fn.2 (.inr (ih h))
  | dep d n rs ih =>
    simp only [find] at h
    split at h
    · next hd => exact accept_dep.2 (.inl hd)
    · split at h
      · exact accept_dep.2 (.inr ⟨_, ih _ h⟩)
      · simp at h

theorem accept_reassemble {top : Sig} {ds : List Dim} {st : State} {q : Dim}
    (h : (top.reassemble ds st).anyAccept q = true) : top.anyAccept q = true := by
  induction ds generalizing st with
  | nil => rw [reassemble, accept_reassembleScalar] at h; cases h
  | cons d ds ih =>
    simp only [reassemble] at h
    split at h
    · simp [anyAccept] at h
    · split at h
      · next e => 
        rcases accept_fn.1 h with h | h
        · exact h ▸ find_accept e
        · exact ih h
      · next e =>
        rcases accept_dep.1 h with h | ⟨i, h⟩
        · exact h ▸ hasDep_accept (find_hasDep e)
        · exact ih h
      · simp [anyAccept] at h

theorem accept_mergeZ {ds : List Dim} {d q : Dim} (hq : q ≠ d) {S : Sig} {rem : Nat} {acc : ArgLen}
    (h : (S.mergeZRepl ds d rem acc).anyAccept q = true) : S.anyAccept q = true := by
  induction S generalizing rem acc with
  | scalar s => exact h
  | void => exact h
  | ill => exact h
  | fn e l r ih =>
    simp only [mergeZRepl] at h
    split at h
    · split at h
      · rcases accept_fn.1 h with h | h
        · exact absurd h.symm hq
        · exact accept_fn.2 (.inr h)
      · exact accept_fn.2 (.inr (ih h))
    · rcases accept_fn.1 h with h | h
      · exact accept_fn.2 (.inl h)
      · exact accept_fn.2 (.inr (ih h))
  | dep e n rs ih =>
    simp only [mergeZRepl] at h
    split at h
    · simp [anyAccept] at h
    · rcases accept_dep.1 h with h | ⟨i, h⟩
      · exact accept_dep.2 (.inl h)
      · exact accept_dep.2 (.inr ⟨i, ih i h⟩)

/-- The result of an index view. -/
theorem accept_indexRepl {R : Sig → Sig} {q : Dim}
    (hfn : ∀ e l r, (R (.fn e l r)).anyAccept q = true → (Sig.fn e l r).anyAccept q = true)
    (hdep : ∀ e n rs, (R (.dep e n rs)).anyAccept q = true → (Sig.dep e n rs).anyAccept q = true)
    (ho : ∀ N, (∀ e l r, N ≠ .fn e l r) → (∀ e n rs, N ≠ .dep e n rs) → (R N).anyAccept q = false) :
    ∀ N, (R N).anyAccept q = true → N.anyAccept q = true := by
  intro N h
  cases N with
  | fn e l r => exact hfn e l r h
  | dep e n rs => exact hdep e n rs h
  | scalar s => rw [ho _ (by simp) (by simp)] at h; cases h
  | void => rw [ho _ (by simp) (by simp)] at h; cases h
  | ill => rw [ho _ (by simp) (by simp)] at h; cases h

theorem accept_blocks {R : Sig → Sig} {e d : Dim} {S : Sig} {new : List Dim}
    (hR : ∀ N q, (R N).anyAccept q = true → N.anyAccept q = true ∨ q ∈ new)
    (hn : d = e ∨ S.anyAccept d = false) (hd : d ∈ new)
    (h : (S.replace R [e]).anyAccept d = true) : S.anyAccept e = true := by
  cases he : S.anyAccept e with
  | true => rfl
  | false =>
    rw [replace_absent (by simpa using he)] at h
    rcases hn with rfl | hn
    · rw [h] at he; cases he
    · rw [h] at hn; cases hn

end Sig

open Sig in
theorem Struct.inner_accept {A : Arith} {v : View} {s : Struct} (hw : (Struct.view v s).wf A)
    (hn : (Struct.view v s).noDup A) {d d' : Dim} (hi : v.inner d = some d')
    (h : ((Struct.view v s).sem A).sig.anyAccept d = true) :
    (∀ e i, v = .fix e i → d ≠ e) ∧ (s.sem A).sig.anyAccept d' = true := by
  have hu := hn.2.uniq
  have hwf := hw.1
  simp only [Struct.sem, ViewSem.toSem] at h hwf
  generalize s.sem A = S at h hwf hu ⊢
  cases v with
  | bcast e =>
    refine ⟨nofun, ?_⟩
    simp [View.inner] at hi
    obtain ⟨h1, rfl⟩ := hi
    simp only [View.sem, bcastSem] at h
    exact (accept_fn.1 h).resolve_left (Ne.symm h1)
  | fix e i =>
    cases hi
    simp only [View.sem, fixSem] at h hwf
    have hne : d ≠ e := by
      rintro rfl
      rw [accept_replace_self ?_ hu hwf] at h
      · cases h
      · intro N hN hs hw'
        rcases hs with ⟨e, l, r, rfl, he⟩ | ⟨e, n, rs, rfl, he⟩
        · simp only [List.mem_singleton] at he; subst he
          exact hN.1
        · simp only [List.mem_singleton] at he; subst he
          cases i with
          | lit k =>
            simp only [fixRepl, branch] at hw' ⊢
            split at hw'
            · next hk => rw [dif_pos hk]; exact (hN _).1
            · simp [Sig.wf] at hw'
          | dyn k => simp [fixRepl, branch, Sig.wf] at hw'
          | bad k => simp [fixRepl, branch, Sig.wf] at hw'
    refine ⟨by rintro _ _ ⟨⟩; exact hne, accept_replace_sub ?_ h⟩
    refine accept_indexRepl (fun e l r h => accept_fn.2 (.inr h)) ?_ ?_
    · intro e n rs h
      cases i with
      | lit k =>
        simp only [fixRepl, branch] at h
        split at h
        · exact accept_dep.2 (.inr ⟨_, h⟩)
        · simp [anyAccept] at h
      | dyn k => simp [fixRepl, branch, anyAccept] at h
      | bad k => simp [fixRepl, branch, anyAccept] at h
    · intro N h1 h2
      cases N <;> first | rfl | (exact absurd rfl (h1 _ _ _)) | (exact absurd rfl (h2 _ _ _))
  | setLength e l =>
    cases hi
    refine ⟨nofun, accept_replace_sub (accept_indexRepl ?_ ?_ ?_) h⟩
    · intro e l' r h; exact accept_fn.2 (accept_fn.1 h)
    · intro e n rs h; simp [setLengthRepl, anyAccept] at h
    · intro N h1 h2
      cases N <;> first | rfl | (exact absurd rfl (h1 _ _ _)) | (exact absurd rfl (h2 _ _ _))
  | shift e a =>
    cases hi
    refine ⟨nofun, accept_replace_sub (accept_indexRepl ?_ ?_ ?_) h⟩
    · intro e l' r h; exact accept_fn.2 (accept_fn.1 h)
    · intro e n rs h
      simp only [shiftRepl] at h
      split at h
      · split at h
        · exact accept_select h
        · simp [anyAccept] at h
      · simp [anyAccept] at h
    · intro N h1 h2
      cases N <;> first | rfl | (exact absurd rfl (h1 _ _ _)) | (exact absurd rfl (h2 _ _ _))
  | slice e a l =>
    cases hi
    refine ⟨nofun, accept_replace_sub (accept_indexRepl ?_ ?_ ?_) h⟩
    · intro e l' r h; exact accept_fn.2 (accept_fn.1 h)
    · intro e n rs h
      simp only [sliceRepl] at h
      split at h
      · exact accept_select h
      · simp [anyAccept] at h
    · intro N h1 h2
      cases N <;> first | rfl | (exact absurd rfl (h1 _ _ _)) | (exact absurd rfl (h2 _ _ _))
  | span e a l =>
    cases hi
    refine ⟨nofun, accept_replace_sub (accept_indexRepl ?_ ?_ ?_) h⟩
    · intro e l' r h; exact accept_fn.2 (accept_fn.1 h)
    · intro e n rs h
      simp only [spanRepl] at h
      split at h
      · split at h
        · exact accept_select h
        · simp [anyAccept] at h
      · simp [anyAccept] at h
    · intro N h1 h2
      cases N <;> first | rfl | (exact absurd rfl (h1 _ _ _)) | (exact absurd rfl (h2 _ _ _))
  | step e a k =>
    cases hi
    refine ⟨nofun, accept_replace_sub (accept_indexRepl ?_ ?_ ?_) h⟩
    · intro e l' r h; exact accept_fn.2 (accept_fn.1 h)
    · intro e n rs h
      simp only [stepRepl] at h
      split at h
      · split at h
        · exact accept_select h
        · simp [anyAccept] at h
      · simp [anyAccept] at h
    · intro N h1 h2
      cases N <;> first | rfl | (exact absurd rfl (h1 _ _ _)) | (exact absurd rfl (h2 _ _ _))
  | reverse e =>
    cases hi
    refine ⟨nofun, accept_replace_sub ?_ h⟩
    intro N h
    cases N with
    | dep d n rs => exact accept_select h
    | _ => exact h
  | reorder ds => cases hi; exact ⟨nofun, accept_reassemble h⟩
  | hoist e =>
    cases hi
    refine ⟨nofun, ?_⟩
    simp only [View.sem, hoistSem] at h
    split at h
    · next hf =>
      rcases accept_fn.1 h with h | h
      · exact h ▸ find_accept hf
      · refine accept_replace_sub ?_ h
        intro N h
        cases N with
        | fn e l r => exact accept_fn.2 (.inr h)
        | _ => simp [retRepl, anyAccept] at h
    · simp [anyAccept] at h
  | rename ps =>
    cases hi
    refine ⟨nofun, ?_⟩
    simp only [View.sem, renameSem] at h
    split at h
    · next hok =>
      obtain ⟨e, h1, rfl⟩ := accept_mapDims.1 h
      simp only [renameOk, Bool.and_eq_true, decide_eq_true_eq, List.all_eq_true, Bool.or_eq_true,
        Bool.not_eq_true'] at hok
      obtain ⟨⟨h2, h3⟩, h4⟩ := hok
      have hnd : ((ps.map Prod.swap).map Prod.fst).Nodup := by
        simpa [List.map_map, Function.comp_def] using h3
      by_cases hf : e ∈ ps.map Prod.fst
      · obtain ⟨⟨n, e⟩, hne, rfl⟩ := List.mem_map.1 hf
        rw [renameDim_of_mem h2 hne,
          renameDim_of_mem hnd (List.mem_map.2 ⟨_, hne, rfl⟩ : (e, n) ∈ ps.map Prod.swap)]
        exact h1
      · rw [renameDim_of_not_mem hf]
        have hs : e ∉ ps.map Prod.snd := by
          intro hs
          rcases h4 e hs with h4 | h4
          · rw [h1] at h4; cases h4
          · exact hf h4
        rw [renameDim_of_not_mem (by simpa [List.map_map, Function.comp_def] using hs)]
        exact h1
    · simp [anyAccept] at h
  | join a b e =>
    simp [View.inner] at hi
    obtain ⟨hne, rfl⟩ := hi
    refine ⟨nofun, ?_⟩
    simp only [View.sem, joinSem] at h
    split at h
    · simp [anyAccept] at h
    · split at h
      · split at h
        · rcases accept_fn.1 h with h | h
          · exact absurd h.symm hne
          · refine accept_replace_sub ?_ h
            intro N h
            cases N with
            | fn e l r => exact accept_fn.2 (.inr h)
            | _ => simp [retRepl, anyAccept] at h
        · simp [anyAccept] at h
      · simp [anyAccept] at h
  | intoBlocks e maj min =>
    refine ⟨nofun, ?_⟩
    simp only [View.sem, intoBlocksSem] at h
    split at h
    · simp [anyAccept] at h
    next hc =>
    simp only [not_or, not_and, Bool.not_eq_true] at hc
    have hR : ∀ N q, (intoBlocksRepl maj min N).anyAccept q = true → N.anyAccept q = true ∨ q ∈ [maj, min] := by
      intro N q h
      cases N with
      | fn e l r =>
        simp only [intoBlocksRepl] at h
        rcases accept_fn.1 h with h | h
        · exact .inr (by simp [h])
        · rcases accept_fn.1 h with h | h
          · exact .inr (by simp [h])
          · exact .inl (accept_fn.2 (.inr h))
      | _ => simp [intoBlocksRepl, anyAccept] at h
    simp only [View.inner] at hi
    split at hi
    · next hm =>
      cases hi
      refine accept_blocks hR ?_ (by simpa using hm) h
      by_cases hde : d = d'
      · exact .inl hde
      · rcases hm with rfl | rfl
        · exact .inr (hc.2.1 hde)
        · exact .inr (hc.2.2 hde)
    · next hm =>
      cases hi
      simp only [not_or] at hm
      exact accept_replace_sub (fun N h => (hR N d h).resolve_right (by simp [hm])) h
  | intoBlocksDyn e maj min pres =>
    refine ⟨nofun, ?_⟩
    simp only [View.sem, intoBlocksDynSem] at h
    split at h
    · simp [anyAccept] at h
    next hc =>
    simp only [not_or, not_and, Bool.not_eq_true] at hc
    have hR : ∀ N q, (intoBlocksDynRepl maj min pres N).anyAccept q = true →
        N.anyAccept q = true ∨ q ∈ [maj, min, pres] := by
      intro N q h
      cases N with
      | fn e l r =>
        simp only [intoBlocksDynRepl] at h
        rcases accept_fn.1 h with h | h
        · exact .inr (by simp [h])
        · rcases accept_fn.1 h with h | h
          · exact .inr (by simp [h])
          · rcases accept_fn.1 h with h | h
            · exact .inr (by simp [h])
            · exact .inl (accept_fn.2 (.inr h))
      | _ => simp [intoBlocksDynRepl, anyAccept] at h
    simp only [View.inner] at hi
    split at hi
    · next hm =>
      cases hi
      refine accept_blocks hR ?_ (by grind) h
      by_cases hde : d = d'
      · exact .inl hde
      · rcases hm with rfl | rfl
        · exact .inr (hc.2.2.2.1 hde)
        · exact .inr (hc.2.2.2.2.1 hde)
    · next hm =>
      split at hi
      · simp at hi
      · next hp =>
        cases hi
        simp only [not_or] at hm
        exact accept_replace_sub (fun N h => (hR N d h).resolve_right (by simp [hm, hp])) h
  | intoBlocksStat e border maj min nl =>
    refine ⟨nofun, ?_⟩
    simp only [View.sem, intoBlocksStatSem] at h hwf
    split at h
    · simp [anyAccept] at h
    next hc =>
    rw [if_neg hc] at hwf
    simp only [not_or, not_and, Bool.not_eq_true] at hc
    have hR : ∀ N q, (intoBlocksStatRepl border maj min nl N).anyAccept q = true →
        N.anyAccept q = true ∨ q ∈ [border, maj, min] := by
      intro N q h
      cases N with
      | fn e l r =>
        have key : ∀ l1 l2 l3 : ArgLen, (Sig.dep border 2 (fun i =>
            if i = 0 then Sig.fn maj l1 (.fn min l3 r) else .fn maj (.static 1) (.fn min l2 r))).anyAccept q =
            true → (Sig.fn e l r).anyAccept q = true ∨ q ∈ [border, maj, min] := by
          intro l1 l2 l3 h
          rcases accept_dep.1 h with h | ⟨i, h⟩
          · exact .inr (by simp [h])
          · split at h
            all_goals
              rcases accept_fn.1 h with h | h
              · exact .inr (by simp [h])
              · rcases accept_fn.1 h with h | h
                · exact .inr (by simp [h])
                · exact .inl (accept_fn.2 (.inr h))
        simp only [intoBlocksStatRepl] at h
        cases l <;> cases hv : ArgLen.ofVal nl <;>
          simp only [hv, Bool.false_eq_true, if_false] at h <;>
          first
          | exact key _ _ _ h
          | (split at h
             · simp [anyAccept] at h
             · exact key _ _ _ h)
      | _ => simp [intoBlocksStatRepl, anyAccept] at h
    simp only [View.inner] at hi
    split at hi
    · next hm =>
      cases hi
      refine accept_blocks hR ?_ (by grind) h
      by_cases hde : d = d'
      · exact .inl hde
      · rcases hm with rfl | rfl
        · exact .inr (hc.2.2.2.2.1 hde)
        · exact .inr (hc.2.2.2.2.2 hde)
    · next hm =>
      split at hi
      · simp at hi
      · next hp =>
        cases hi
        simp only [not_or] at hm
        exact accept_replace_sub (fun N h => (hR N d h).resolve_right (by simp [hm, hp])) h
  | mergeBlocks maj min e =>
    simp [View.inner] at hi
    obtain ⟨hne, rfl⟩ := hi
    refine ⟨nofun, ?_⟩
    simp only [View.sem, mergeBlocksSem] at h
    split at h
    · simp [anyAccept] at h
    · refine accept_replace_sub ?_ h
      intro N h
      cases N with
      | fn x l r =>
        refine accept_fn.2 (.inr (accept_replace_sub ?_ h))
        intro N h
        cases N with
        | fn y l r =>
          simp only [mergeBlocksInner] at h
          split at h
          · rcases accept_fn.1 h with h | h
            · exact absurd h.symm hne
            · exact accept_fn.2 (.inr h)
          · simp [anyAccept] at h
        | _ => simp [mergeBlocksInner, anyAccept] at h
      | _ => simp [mergeBlocksRepl, anyAccept] at h
  | mergeZ sl gl ds e =>
    simp [View.inner] at hi
    obtain ⟨hne, rfl⟩ := hi
    refine ⟨nofun, ?_⟩
    simp only [View.sem, mergeZSem] at h
    split at h
    · simp [anyAccept] at h
    · exact accept_mergeZ hne h

/-- A dimension of the signature has not been fixed. -/
theorem Struct.reaches_of_accept {A : Arith} {s : Struct} (hw : s.wf A) (hn : s.noDup A) {d : Dim}
    (h : (s.sem A).sig.anyAccept d = true) : s.reaches d := by
  induction s generalizing d with
  | scalar => trivial
  | tuple => trivial
  | union => trivial
  | vector e s ih =>
    by_cases he : d = e
    · exact .inl he
    · right
      simp only [Struct.sem, vectorSem] at h
      split at h
      · simp [Sig.anyAccept] at h
      · exact ih hw.2 hn.2 ((Sig.accept_fn.1 h).resolve_left (Ne.symm he))
  | view v s ih =>
    refine ⟨⟨?_, fun d' hi => ih hw.2 hn.2 (Struct.inner_accept hw hn hi h).2⟩, ?_⟩
    · rintro e i rfl
      exact (Struct.inner_accept hw hn (d' := d) rfl h).1 e i rfl
    · rintro a b e rfl rfl
      have hwf := hw.1
      simp only [Struct.sem, ViewSem.toSem, View.sem, joinSem] at hwf
      split at hwf
      · simp [Sig.wf] at hwf
      next hc =>
      simp only [not_or] at hc
      split at hwf
      · next ha hb =>
        exact ⟨hc.1, ih hw.2 hn.2 (Sig.find_accept ha), ih hw.2 hn.2 (Sig.find_accept hb)⟩
      · simp [Sig.wf] at hwf

end Noarr
