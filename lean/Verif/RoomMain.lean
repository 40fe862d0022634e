import Verif.RoomView
import Verif.Inside

/-
Lengths and offsets are computed exactly when `size_t` is wide enough. Used for C56.
-/

set_option linter.unusedVariables false
set_option linter.unusedSimpArgs false

namespace Noarr

theorem Val.fits.mono {M W : Nat} (h : M ≤ W) {v : Val} (hv : v.fits M) : v.fits W := by
  intro n hn
  have := hv n hn
  omega

theorem View.fits.mono {M W : Nat} (h : M ≤ W) {v : View} (hv : v.fits M) : v.fits W := by
  cases v with
  | fix => exact Val.fits.mono h hv
  | setLength => exact Val.fits.mono h hv
  | shift => exact Val.fits.mono h hv
  | slice => exact ⟨Val.fits.mono h hv.1, Val.fits.mono h hv.2⟩
  | span => exact ⟨Val.fits.mono h hv.1, Val.fits.mono h hv.2⟩
  | step => exact ⟨Val.fits.mono h hv.1, Val.fits.mono h hv.2⟩
  | intoBlocksStat => exact Val.fits.mono h hv
  | _ => trivial

theorem Struct.fits.mono {M W : Nat} (h : M ≤ W) {s : Struct} (hs : s.fits M) : s.fits W := by
  induction s with
  | scalar => exact ⟨by have := hs.1; omega, by have := hs.2; omega⟩
  | tuple t n fs ih => exact ⟨by have := hs.1; omega, fun i => ih i (hs.2 i)⟩
  | vector d s ih => exact ih hs
  | union n ss ih => exact fun i => ih i (hs i)
  | view v s ih => exact ⟨View.fits.mono h hs.1, ih hs.2⟩

theorem Struct.len_exact {M W : Nat} (hM : 0 < M) (hW : 2 * M ≤ W) (h2 : 2 < W) (s : Struct) (ht : s.tame)
    (hs : s.sane .ideal) (hf : s.fits M) : LenExact M W s := by
  induction s with
  | scalar sz al =>
    intro q st hq hR
    exact ⟨Le.refl _, Le.refl _⟩
  | tuple t n fs ih =>
    intro q st hq hR
    obtain ⟨hqt, hqf⟩ := plain_tuple hq
    have h1 : Le (((Struct.tuple t n fs).sem .ideal).hasLen q st)
        (((Struct.tuple t n fs).sem (.checked W)).hasLen q st) := by
      simp only [Struct.sem, tupleSem, hqt, ↓reduceIte]
      split
      · intro b hb
        simp only [bind, Option.bind_eq_some_iff] at hb ⊢
        obtain ⟨S, ⟨k, hk, hS⟩, hb⟩ := hb
        by_cases hkn : k < n
        · simp only [hkn, ↓reduceDIte, Option.some.injEq] at hS
          subst hS
          exact ⟨_, ⟨k, hk, by simp only [hkn, ↓reduceDIte]⟩,
            (ih _ (ht _) (hs.1 _) (hf.2 _) q _ (hqf _) (hR.2 _)).1 _ hb⟩
        · simp [hkn] at hS
      · exact Le.refl _
    refine ⟨h1, Le.guard h1 fun _ => ?_⟩
    simp only [hqt, ↓reduceIte]
    intro v hv
    simp only [bind, Option.bind_eq_some_iff] at hv ⊢
    obtain ⟨S, ⟨k, hk, hS⟩, hv⟩ := hv
    by_cases hkn : k < n
    · simp only [hkn, ↓reduceDIte, Option.some.injEq] at hS
      subst hS
      exact ⟨_, ⟨k, hk, by simp only [hkn, ↓reduceDIte]⟩,
        (ih _ (ht _) (hs.1 _) (hf.2 _) q _ (hqf _) (hR.2 _)).2 _ hv⟩
    · simp [hkn] at hS
  | vector d s ih =>
    intro q st hq hR
    have h1 : Le (((Struct.vector d s).sem .ideal).hasLen q st)
        (((Struct.vector d s).sem (.checked W)).hasLen q st) := by
      simp only [Struct.sem, vectorSem]
      split
      · exact Le.refl _
      · exact (ih ht hs hf q _ (plain_vector hq ‹_›) hR.2).1
    refine ⟨h1, Le.guard h1 fun _ => ?_⟩
    dsimp only
    split
    · exact Le.refl _
    · exact (ih ht hs hf q _ (plain_vector hq ‹_›) hR.2).2
  | union n ss ih =>
    intro q st hq hR
    have hfm : firstMatch (fun i => (ss i).sem (.checked W)) q = firstMatch (fun i => (ss i).sem .ideal) q := by
      simp only [firstMatch]
      congr 1
      funext i
      rw [(Struct.rel (Arith.agrees_ideal W) h2 (ss i) (Struct.fits.mono (by omega) (hf i))).sig]
    have h1 : Le (((Struct.union n ss).sem .ideal).hasLen q st)
        (((Struct.union n ss).sem (.checked W)).hasLen q st) := by
      simp only [Struct.sem, unionSem, hfm]
      cases firstMatch (fun i => (ss i).sem .ideal) q with
      | none => exact Le.refl _
      | some i => exact (ih i (ht i) (hs i) (hf i) q _ (plain_union hq i) (hR.2 i)).1
    refine ⟨h1, Le.guard h1 fun _ => ?_⟩
    simp only [hfm]
    cases firstMatch (fun i => (ss i).sem .ideal) q with
    | none => exact Le.refl _
    | some i => exact (ih i (ht i) (hs i) (hf i) q _ (plain_union hq i) (hR.2 i)).2
  | view v s ih =>
    have ex := ih ht.1 hs.1 hf.2
    have hrev : ∀ d, v = .reverse d → ¬ s.hard d := by
      rintro d rfl
      exact hs.2.1
    have hsig := (Struct.rel (Arith.agrees_ideal W) h2 s (Struct.fits.mono (M := M) (by omega) hf.2)).sig
    intro q st hq hR
    -- the states in which the ordinary indices are zero
    suffices hmain : ViewExact W v s q (zeroed (.view v s) st) by
      obtain ⟨r1, r2⟩ := rel_zeroed (st := st) hq.2.1
      have l1 := Struct.length_dep .ideal (.view v s) ht _ _ _ r1
      have l2 := Struct.length_dep (.checked W) (.view v s) ht _ _ _ r2
      exact ⟨fun b hb => l2.1 _ (hmain.1 _ (l1.1 _ hb)), fun b hb => l2.2 _ (hmain.2 _ (l1.2 _ hb))⟩
    have hR := hR.under (under_zeroed (s := .view v s) (st := st))
    have h0 : Zero (.view v s) (zeroed (.view v s) st) := zero_zeroed
    generalize zeroed (.view v s) st = st at hR h0
    have hss : SubSame M W v s st := by
      intro u hu
      have hRu := (hR.2.2 st .refl).2.2 u hu
      exact ⟨sub_exact ht.2 hrev ex hR.2.1 (clear_zero hW hM ht.2 hf.1 hR.1 h0 hRu hu) hRu hu, hRu⟩
    cases v with
    | bcast d => exact vx_bcast ex hq hss
    | fix d i => exact vx_fix ex hq hss
    | setLength d l => exact vx_setLength ex hq hss
    | shift d a => exact vx_shift ex hq hss
    | slice d a n => exact vx_slice ex hq hss
    | span d a n => exact vx_span ex hq hss
    | step d a k => exact vx_step ex hW hf.1.2 hq hss
    | reverse d => exact vx_reverse ex (hrev d rfl) hq hss
    | reorder ds => exact vx_reorder ex hq hss hsig.symm
    | hoist d => exact vx_hoist ex hq hss
    | rename ps => exact vx_rename ex ht.2.1 ht.2.2 hq hss
    | join a b d => exact vx_join ex hq hss
    | intoBlocks d maj min => exact vx_ib ex ht.2.1 hq hss
    | intoBlocksDyn d maj min pres => exact vx_ibd ex hM hW ht.2.1 hq hR.1 hss
    | intoBlocksStat d border maj min nl => exact vx_ibs ex ht.2.1 hq hss
    | mergeBlocks maj min d =>
      exact vx_mb ex (by omega) ht.2.1 ht.2.2 hq ((hR.2.2 st .refl).2.1 _ _ _ rfl)
        (fun l hl => (hR.2.2 st .refl).1 q l hq hl) hss
    | mergeZ sl gl ds d => exact absurd rfl (hR.2.1 _ _ _ _)

/-! ### Offsets -/

theorem addOk_num {W n : Nat} {x y : Val} (h : (x.add .ideal y).Num n) (hn : n < W) : AddOk W x y := by
  obtain ⟨a, b, ha, hb, rfl⟩ := Val.nat?_add.1 h
  intro a' b' ha' hb'
  rw [Val.Num.eq ha' ha, Val.Num.eq hb' hb]; omega

/-- The translation does not overflow, because the indices it results in are small. -/
theorem clear_of {M W : Nat} (hW : 2 * M ≤ W) {v : View} {s : Struct} (ht : v.tame s) {st u : State}
    (hst : SmallState M (.view v s) st) (hR : s.Roomy M u) (hi : ∀ e i, u (.idx e) = some i → Small M i)
    (hu : (v.sem .ideal (s.sem .ideal)).sub st = some u) : v.clear W (s.sem .ideal) st := by
  have add : ∀ {x y : Val} {e : Dim}, u (.idx e) = some (x.add .ideal y) → AddOk W x y := by
    intro x y e h
    obtain ⟨n, hn, hlt⟩ := hi _ _ h
    exact addOk_num hn (by omega)
  have fma : ∀ {x y z : Val} {e : Dim}, u (.idx e) = some ((x.mul .ideal y).add .ideal z) → MulAddOk W x y z := by
    intro x y z e h
    obtain ⟨n, hn, hlt⟩ := hi _ _ h
    exact mulAddOk_of hn (by omega)
  cases v with
  | shift d a =>
    simp only [View.sem, shiftSem, Option.some.injEq] at hu
    subst hu
    refine ⟨fun i h => add (e := d) (by simp [State.mapAt, h]), fun l h => ?_⟩
    obtain ⟨n, hn, hlt⟩ := hR.state.1 d (l.add .ideal a) (by simp [State.mapAt, h])
    exact addOk_num hn (by omega)
  | slice d a n =>
    simp only [View.sem, sliceSem, Option.some.injEq] at hu
    subst hu
    exact fun i h => add (e := d) (by simp [State.mapAt, h])
  | span d a n =>
    simp only [View.sem, spanSem, Option.some.injEq] at hu
    subst hu
    exact fun i h => add (e := d) (by simp [State.mapAt, h])
  | step d a k =>
    simp only [View.sem, stepSem, Option.some.injEq] at hu
    subst hu
    exact fun i h => fma (e := d) (by simp [State.mapAt, h])
  | intoBlocks d maj min =>
    refine ⟨fun ml nl hml hnl => ?_, fun i j h1 h2 => ⟨fun nl hnl => ?_, fun ml l hnl hml hl => ?_⟩⟩
    · obtain ⟨n, hn, hlt⟩ := ib_product hu hR hml hnl
      exact mulOk_of hn (by omega)
    · apply fma (e := d)
      simp only [View.sem, intoBlocksSem, intoBlocksSub, hnl, h1, h2, Option.some.injEq] at hu
      subst hu
      simp [State.set]
    · apply fma (e := d)
      have hh := Struct.hasLen_of_len hl
      simp only [View.sem, intoBlocksSem, intoBlocksSub, hnl, h1, h2, hml, hh, hl, bind, Option.bind_some,
        Option.some.injEq] at hu
      subst hu
      simp [State.set]
  | intoBlocksDyn d maj min pres =>
    have hu' : intoBlocksDynSub .ideal d maj min pres (s.sem .ideal) st = some u := hu
    simp only [View.sem, intoBlocksDynSem, intoBlocksDynSub, blocksDynClean_eq] at hu
    split at hu
    · simp at hu
    simp only [bind, Option.bind_some] at hu
    refine ⟨fun ml nl hml hnl => ?_, fun i j h1 h2 => ⟨fun nl hnl => ?_, fun ml l hnl hml hl => ⟨?_, ?_⟩⟩⟩
    · obtain ⟨n, hn, hlt⟩ := ibd_product hu' hR hml hnl
      exact mulOk_of hn (by omega)
    · apply fma (e := d)
      simp only [hnl, h1, h2, Option.some.injEq] at hu
      subst hu
      simp [State.set]
    · exact addOk_of hW (fun x hx => ((hR.under (under_ibd ht.1.1 hu')).len ht.1 hl).lt hx)
        fun x hx => (hst.1 _ _ hml).lt hx
    · apply fma (e := d)
      simp only [hnl, h1, h2, hml, hl, Option.bind_some, Option.some.injEq] at hu
      subst hu
      simp [State.set]
  | intoBlocksStat d border maj min nl =>
    simp only [View.sem, intoBlocksStatSem, intoBlocksStatSub, blocksStatClean_eq] at hu
    split at hu
    · simp at hu
    simp only [bind, Option.bind_some] at hu
    refine fun i j h1 h2 => ⟨fun hb => ?_, fun l hb hl => ?_⟩
    · apply fma (e := d)
      have hh : st.has (.idx border) = true := by
        simp only [isBody] at hb
        simp only [State.has]
        cases h : st (.idx border) with
        | none => simp [h] at hb
        | some => rfl
      simp only [hh, h1, h2, hb, ↓reduceIte, Option.bind_some, Option.some.injEq] at hu
      subst hu
      simp [State.set]
    · apply fma (e := d)
      have hh : st.has (.idx border) = true := by
        simp only [isBody] at hb
        simp only [State.has]
        cases h : st (.idx border) with
        | none => simp [h] at hb
        | some => rfl
      simp only [hh, h1, h2, hb, hl, ↓reduceIte, Bool.false_eq_true, Option.bind_some, Option.some.injEq] at hu
      subst hu
      simp [State.set]
  | _ => trivial

theorem offOk_checked {W : Nat} {v : View} {S T : Sem} (h : S.sig = T.sig) (st : State) :
    (v.sem (.checked W) S).offOk st = (v.sem .ideal T).offOk st := by
  cases v <;> first | rfl | (simp only [View.sem, reorderSem, h])

theorem sizeOk_checked {W : Nat} {v : View} {S T : Sem} (h : S.sig = T.sig) :
    (v.sem (.checked W) S).sizeOk = (v.sem .ideal T).sizeOk := by
  cases v <;> first | rfl | (simp only [View.sem, reorderSem, h])

theorem add_of_checked {W n : Nat} {x y : Val} (h : (x.add (.checked W) y).Num n) :
    x.add (.checked W) y = x.add .ideal y := by
  apply Val.add_checked
  intro a b ha hb
  apply Classical.byContradiction
  intro hlt
  rcases Val.Num.cases ha with rfl | rfl <;> rcases Val.Num.cases hb with rfl | rfl <;>
    simp only [Val.add, Arith.checked, if_neg hlt, Val.ofLit, Val.ofDyn] at h <;> cases h

theorem mul_of_checked {W n : Nat} (hW : 0 < W) {x y : Val} (h : (x.mul (.checked W) y).Num n) :
    x.mul (.checked W) y = x.mul .ideal y := by
  apply Val.mul_checked
  intro a b ha hb
  apply Classical.byContradiction
  intro hlt
  have h1 : a ≠ 0 := by rintro rfl; simp [hW] at hlt
  have h2 : b ≠ 0 := by rintro rfl; simp [hW] at hlt
  rcases Val.Num.cases ha with rfl | rfl <;> rcases Val.Num.cases hb with rfl | rfl <;>
    simp only [Val.mul, Arith.checked, if_neg hlt, if_neg h1, if_neg h2, Val.ofLit, Val.ofDyn] at h <;> cases h

theorem round_up_checked {W : Nat} (hW : 0 < W) {start : Val} {al n : Nat}
    (h : ((((start.add (.checked W) (.lit al)).sub (.checked W) (.lit 1)).div (.checked W) (.lit al)).mul
      (.checked W) (.lit al)).Num n) : ∃ a, start.Num a ∧ a ≤ n := by
  rw [mul_of_checked hW h, Val.div_checked, Val.sub_checked] at h
  have hs : ∃ z, (start.add (.checked W) (.lit al)).Num z := by
    obtain ⟨_, _, h1, -, -⟩ := Val.nat?_mul.1 h
    obtain ⟨_, _, h2, -, -⟩ := Val.nat?_div.1 h1
    obtain ⟨_, _, h3, -, -⟩ := Val.nat?_sub.1 h2
    exact ⟨_, h3⟩
  obtain ⟨z, hz⟩ := hs
  rw [add_of_checked hz] at h
  obtain ⟨a, ha, h0, hxe, h1, h2⟩ := round_up h
  exact ⟨a, ha, h1⟩

theorem sizeAcc_checked_mono {W : Nat} (hW : 0 < W) {st : State} {Ss : List Sem} {start v : Val} {n : Nat}
    (h : sizeAcc (.checked W) st Ss start = some v) (hv : v.Num n) : ∃ a, start.Num a ∧ a ≤ n := by
  induction Ss generalizing start with
  | nil => cases h; exact ⟨n, hv, Nat.le_refl n⟩
  | cons S Ss ih =>
    simp only [sizeAcc, bind, Option.bind_eq_some_iff] at h
    obtain ⟨al, hal, sz, hsz, h⟩ := h
    obtain ⟨m, hm, hle⟩ := ih h
    rw [add_of_checked hm] at hm
    obtain ⟨x, y, hx, hy, rfl⟩ := Val.nat?_add.1 hm
    obtain ⟨a, ha, h1⟩ := round_up_checked hW hx
    exact ⟨a, ha, by omega⟩

/-- `tuple_field`, when no operation overflows. -/
theorem tuple_field_checked {W n : Nat} (hW : 0 < W) {fs : Fin n → Sem} {st : State} {v : Val} {N k : Nat} (hk : k < n)
    (hs : sizeAcc (.checked W) st (List.ofFn fs) (.lit 0) = some v) (hv : v.Num N) :
    ∃ before sz b z, sizeAcc (.checked W) st ((List.ofFn fs).take k) (.lit 0) = some before ∧
      (fs ⟨k, hk⟩).size st = some sz ∧ before.Num b ∧ sz.Num z ∧ b + z ≤ N := by
  have hl : k < (List.ofFn fs).length := by simpa using hk
  have hsplit : List.ofFn fs = (List.ofFn fs).take k ++ fs ⟨k, hk⟩ :: (List.ofFn fs).drop (k + 1) := by
    have h2 : (List.ofFn fs)[k] = fs ⟨k, hk⟩ := by simp
    rw [← h2, List.getElem_cons_drop, List.take_append_drop]
  rw [hsplit, sizeAcc_append, Option.bind_eq_some_iff] at hs
  obtain ⟨before, hb, hs⟩ := hs
  simp only [sizeAcc, bind, Option.bind_eq_some_iff] at hs
  obtain ⟨al, hal, sz, hsz, h⟩ := hs
  obtain ⟨m, hm, hle⟩ := sizeAcc_checked_mono hW h hv
  rw [add_of_checked hm] at hm
  obtain ⟨x, y, hx, hy, rfl⟩ := Val.nat?_add.1 hm
  obtain ⟨b, hb', h1⟩ := round_up_checked hW hx
  exact ⟨before, sz, b, y, hb, hsz, hb', hy, by omega⟩

theorem size_of_checked {W : Nat} (h2 : 2 < W) {s : Struct} (hf : s.fits W) {st : State}
    (hst : ∀ t v, st t = some v → v.fits W) {v : Val} {n : Nat} (hv : (s.sem (.checked W)).size st = some v)
    (hn : v.Num n) : (s.sem .ideal).size st = some v ∧ n < W := by
  obtain ⟨u, hu, h⟩ := (Struct.rel (Arith.agrees_ideal W) h2 s hf).size (.of_fits hst) v hv
  rcases h with h | ⟨rfl, h⟩
  · rw [hn] at h; cases h
  · exact ⟨hu, h n hn⟩

theorem Small.fits {M W : Nat} (h : M ≤ W) {v : Val} (hv : Small M v) : v.fits W := by
  intro n hn
  obtain ⟨m, hm, hlt⟩ := hv
  rw [Val.Num.eq hn hm]; omega

/-- The offset of an element inside a structure whose size can be computed is computed without overflow. -/
theorem Struct.off_exact {M W : Nat} (hM : 0 < M) (hW : 2 * M ≤ W) (h2 : 2 < W) (s : Struct) {st : State}
    {start v o : Val} {a N : Nat} (ht : s.tame) (hs : s.sane .ideal) (hf : s.fits M) (hR : s.Roomy M st)
    (hst : ∀ t v, st t = some v → Small M v) (hV : ValidR .ideal s st) (hp : s.Pre .ideal st)
    (hI : s.IndexRoom M st) (hsz : (s.sem (.checked W)).size st = some v) (hN : v.Num N) (ha : start.Num a)
    (hlt : a + N < W) (ho : (s.sem .ideal).off st start = some o) :
    (s.sem (.checked W)).off st start = some o := by
  induction s generalizing st start v o a N with
  | scalar sz al => exact ho
  | tuple t n fs ih =>
    have hst' : ∀ t' v, (st.remove (.idx t)) t' = some v → Small M v := by
      intro t' v h
      simp only [State.remove] at h
      split at h
      · cases h
      · exact hst _ _ h
    simp only [Struct.sem, tupleSem, bind, Option.bind_eq_some_iff] at ho hsz ⊢
    obtain ⟨k, hk, S, hS, before, hb, ho⟩ := ho
    rw [hk] at hS
    simp only [Option.some.injEq, exists_eq_left'] at hS
    by_cases hkn : k < n
    · simp only [hkn, ↓reduceDIte, Option.some.injEq] at hS
      subst hS
      obtain ⟨before', sz, b, z, hb', hz, hbn, hzn, hle⟩ := tuple_field_checked (by omega) hkn hsz hN
      have hbb : before' = before := by
        have key := size_of_checked h2 (s := .tuple t k fun i => fs (i.castLE (Nat.le_of_lt hkn)))
          ⟨by have := hf.1; omega, fun i => Struct.fits.mono (by omega) (hf.2 _)⟩ (st := st)
          (fun t v h => (hst t v h).fits (by omega)) (v := before') (n := b)
        simp only [Struct.sem, tupleSem] at key
        have e : ∀ A, (List.ofFn fun i : Fin k => (fs (i.castLE (Nat.le_of_lt hkn))).sem A) =
            (List.ofFn fun i => (fs i).sem A).take k := by
          intro A
          apply List.ext_getElem
          · simp; omega
          · intro i h1 h2
            simp
        rw [e, e] at key
        exact Option.some.inj ((key hb' hbn).1.symm.trans hb)
      subst hbb
      refine ⟨k, hk, _, ⟨k, hk, by simp only [hkn, ↓reduceDIte]; rfl⟩, before', hb', ?_⟩
      rw [Val.add_checked fun x y hx hy => by rw [Val.Num.eq hx hbn, Val.Num.eq hy ha]; omega]
      exact ih ⟨k, hkn⟩ (ht _) (hs.1 _) (hf.2 _) (hR.2 _) hst' (validR_field hkn hs hk hV) (hp _) (hI _) hz hzn
        (Val.num_add hbn ha) (by omega) ho
    · simp [hkn] at hS
  | vector d s ih =>
    have hst' : ∀ t' v, (st.removeAll [.idx d, .len d]) t' = some v → Small M v := by
      intro t' v h
      simp only [State.removeAll] at h
      split at h
      · cases h
      · exact hst _ _ h
    simp only [Struct.sem, vectorSem, bind, Option.bind_eq_some_iff, Option.some.injEq] at ho hsz ⊢
    obtain ⟨l, hl, sz, hsz, rfl⟩ := hsz
    obtain ⟨i, hi, l', hl', ho⟩ := ho
    rw [hl] at hl'
    obtain rfl := Option.some.inj hl'
    rw [mul_of_checked (by omega) hN] at hN
    obtain ⟨L, Z, hL, hZ, rfl⟩ := Val.nat?_mul.1 hN
    have hsi := (size_of_checked h2 (s := s) (Struct.fits.mono (M := M) (by omega) hf) (fun t v h => (hst' t v h).fits (by omega))
      hsz hZ).1
    have hidx : LtVal i l := by
      refine hV d i l (fun h => h.1 rfl) hi ?_
      have e1 : (st.remove (.idx d)) (.len d) = st (.len d) := by state_val
      have e2 : (st.remove (.idx d)) (.idx d) = none := by state_val
      simp [Struct.sem, vectorSem, State.has, e1, e2, hl, guardTrue]
    obtain ⟨x, y, hx, hy, hxy⟩ := hidx
    have := Val.Num.eq hL hy
    subst this
    have hle := Nat.mul_le_mul_right Z hxy
    rw [Nat.succ_mul] at hle
    have hadd : (i.mul (.checked W) sz).add (.checked W) start = (i.mul .ideal sz).add .ideal start := by
      rw [Val.mul_checked fun p q hp hq => by rw [Val.Num.eq hp hx, Val.Num.eq hq hZ]; omega,
        Val.add_checked fun p q hp hq => by rw [Val.Num.eq hp (Val.num_mul hx hZ), Val.Num.eq hq ha]; omega]
    have step : ∀ st', st'.Num (x * Z + a) → (s.sem .ideal).off (st.removeAll [.idx d, .len d]) st' = some o →
        (s.sem (.checked W)).off (st.removeAll [.idx d, .len d]) st' = some o := by
      intro st' h1 h3
      exact ih ht hs hf hR.2 hst' (validR_vector hV) hp hI hsz hZ h1 (by omega) h3
    refine ⟨i, hi, l, hl, ?_⟩
    cases l with
    | bad f => simp [Val.nat?] at hL
    | dyn m =>
      simp only [hsi, hsz, Option.some.injEq, exists_eq_left', Option.bind_some] at ho ⊢
      rw [hadd]
      exact step _ (Val.num_add (Val.num_mul hx hZ) ha) ho
    | lit m =>
      by_cases h1 : m = 1
      · subst h1
        simp only [Val.nat?, Option.some.injEq] at hL
        subst hL
        have : x = 0 := by omega
        subst this
        exact step _ (by simpa using ha) ho
      · have h3 : (s.sem .ideal).off (st.removeAll [.idx d, .len d]) ((i.mul .ideal sz).add .ideal start) = some o := by
          simpa [h1, hsi] using ho
        have h4 := step _ (Val.num_add (Val.num_mul hx hZ) ha) h3
        simpa [h1, hsz, hadd] using h4
  | union n ss ih => simp [Struct.sem, unionSem] at hsz
  | view v s ih =>
    have hsig := (Struct.rel (Arith.agrees_ideal W) h2 s (Struct.fits.mono (M := M) (by omega) hf.2)).sig
    simp only [Struct.sem, ViewSem.toSem] at ho hsz ⊢
    rw [offOk_checked hsig]
    split at ho
    · next hoff =>
      split at hsz
      · simp only [Option.bind_eq_some_iff] at ho hsz ⊢
        obtain ⟨u, hu, ho⟩ := ho
        obtain ⟨hp1, hp2⟩ := hp u hu
        obtain ⟨hi1, hi2⟩ := hI u hu
        have hVu := validR_sub ht hs hV hp1 hoff hu
        have hRu := (hR.2.2 st .refl).2.2 u hu
        have hui : ∀ e i, u (.idx e) = some i → Small M i := by
          intro e i hi
          rcases hi1 e i hi with ⟨hpl, m, hm⟩ | h
          · obtain ⟨x, y, hx, hy, hxy⟩ := hVu e i m hpl.1 hi hm
            obtain ⟨z, hz, hzM⟩ := (hRu.under (w := u.remove (.idx e)) ⟨fun e' => .inr (by simp [State.remove]),
              fun e' he' => by
                have : e' ≠ e := fun h => hpl.1 (h ▸ he')
                simp [State.remove, this]⟩).len hpl hm
            have := Val.Num.eq hy hz
            exact ⟨x, hx, by omega⟩
          · exact h
        have hu' := sub_exact ht.2 (by rintro d rfl; exact hs.2.1) (Struct.len_exact hM hW h2 s ht.1 hs.1 hf.2)
          hR.2.1 (clear_of hW ht.2 hR.1 hRu hui hu) hRu hu
        obtain ⟨u'', hu'', hsz⟩ := hsz
        rw [hu'] at hu''
        obtain rfl := Option.some.inj hu''
        simp only [hoff, ↓reduceIte, hu', Option.bind_some]
        refine ih ht.1 hs.1 hf.2 hRu ?_ hVu hp2 hi2 hsz hN ha hlt ho
        rintro (e | e) w hw
        · exact hui e w hw
        · exact hRu.state.1 e w hw
      · simp at hsz
    · simp at ho

/-! ### Sizes -/

theorem Struct.SizeRoom.index {M : Nat} {s : Struct} {st : State} (h : s.SizeRoom M st) : s.IndexRoom M st := by
  induction s generalizing st with
  | scalar => trivial
  | tuple t n fs ih => exact fun i => ih i (h i).1
  | vector d s ih => exact ih h
  | union n ss ih => exact fun i => ih i (h i)
  | view v s ih => exact fun u hu => ⟨fun e i hi => .inr ((h u hu).1 e i hi), ih (h u hu).2⟩

theorem alignAll_lt {M : Nat} {st : State} {Ss : List Sem} {a : Nat} (h : alignAll st Ss = some a)
    (hM : 0 < M) (hs : ∀ S ∈ Ss, ∀ b, S.align st = some b → b < M) : a < M := by
  induction Ss generalizing a with
  | nil => simp [alignAll] at h
  | cons S Ss ih =>
    cases Ss with
    | nil => exact hs S (by simp) a (by simpa [alignAll] using h)
    | cons T Ss =>
      simp only [alignAll, bind, Option.bind_eq_some_iff] at h
      obtain ⟨x, hx, y, hy, h⟩ := h
      split at h
      · cases h
        exact hs S (by simp) _ hx
      · cases h

theorem Struct.align_lt {M : Nat} {A : Arith} (hM : 0 < M) {s : Struct} (hf : s.fits M) {st : State} {a : Nat}
    (h : (s.sem A).align st = some a) : a < M := by
  induction s generalizing st a with
  | scalar sz al =>
    simp only [Struct.sem, scalarSem, Option.some.injEq] at h
    have := hf.2
    omega
  | tuple t n fs ih =>
    simp only [Struct.sem, tupleSem] at h
    refine alignAll_lt h hM ?_
    intro S hS b hb
    rw [List.mem_ofFn] at hS
    obtain ⟨i, rfl⟩ := hS
    exact ih i (hf.2 i) hb
  | vector d s ih => exact ih hf h
  | union n ss ih => simp [Struct.sem, unionSem] at h
  | view v s ih =>
    simp only [Struct.sem, ViewSem.toSem] at h
    split at h
    · simp only [Option.bind_eq_some_iff] at h
      obtain ⟨u, hu, h⟩ := h
      exact ih hf.2 h
    · cases h

/-- Sizes of tuples: by induction on the number of fields. -/
theorem sizeAcc_room {M W : Nat} {st : State} {n : Nat} {fs gs : Fin n → Sem} {v : Val} {N : Nat}
    (hal : ∀ i a, (fs i).align st = some a → (gs i).align st = some a ∧ a < M)
    (hsz : ∀ i z k, (fs i).size st = some z → z.Num k → k ≤ N → (gs i).size st = some z)
    (hW : N + M ≤ W) (hN : v.Num N) (start : Val) :
    sizeAcc .ideal st (List.ofFn fs) start = some v → sizeAcc (.checked W) st (List.ofFn gs) start = some v := by
  induction n generalizing start with
  | zero => simp [sizeAcc]
  | succ n ih =>
    simp only [List.ofFn_succ, sizeAcc, bind, Option.bind_eq_some_iff]
    rintro ⟨al, ha, z, hz, h⟩
    obtain ⟨m, hm, hle⟩ := sizeAcc_mono h hN
    have hm' := hm
    obtain ⟨x, y, hx, hy, rfl⟩ := Val.nat?_add.1 hm'
    have hx' := hx
    obtain ⟨a, hsa, h0, hxe, h1, h3⟩ := round_up hx'
    obtain ⟨ha', halM⟩ := hal 0 al ha
    refine ⟨al, ha', z, hsz 0 z y hz hy (by omega), ?_⟩
    have e1 : start.add (.checked W) (.lit al) = start.add .ideal (.lit al) :=
      Val.add_checked fun p q hp hq => by
        rw [Val.Num.eq hp hsa, Val.Num.eq hq (show (Val.lit al).Num al from rfl)]; omega
    rw [e1, Val.sub_checked, Val.div_checked, Val.mul_checked (mulOk_of hx (by omega)),
      Val.add_checked (addOk_num hm (by omega))]
    exact ih (fun i => hal i.succ) (fun i => hsz i.succ) _ h

theorem Struct.size_align_exact {M W : Nat} (hM : 0 < M) (hW : 2 * M ≤ W) (h2 : 2 < W) (s : Struct) {st : State}
    (ht : s.tame) (hs : s.sane .ideal) (hf : s.fits M) (hR : s.Roomy M st) (hI : s.SizeRoom M st) :
    (∀ v N, (s.sem .ideal).size st = some v → v.Num N → 0 < N → N + M ≤ W → (s.sem (.checked W)).size st = some v) ∧
    ∀ a, (s.sem .ideal).align st = some a → (s.sem (.checked W)).align st = some a := by
  induction s generalizing st with
  | scalar sz al => exact ⟨fun v N h _ _ _ => h, fun a h => h⟩
  | tuple t n fs ih =>
    refine ⟨fun v N h hN h0 hNW => ?_, fun a h => ?_⟩
    · simp only [Struct.sem, tupleSem] at h ⊢
      refine sizeAcc_room (M := M) (fun i a ha => ?_) (fun i z k hz hk hkN => ?_) hNW hN _ h
      · exact ⟨(ih i (ht i) (hs.1 i) (hf.2 i) (hR.2 i) (hI i).1).2 a ha, Struct.align_lt hM (hf.2 i) ha⟩
      · exact (ih i (ht i) (hs.1 i) (hf.2 i) (hR.2 i) (hI i).1).1 z k hz hk ((hI i).2 z k hz hk) (by omega)
    · simp only [Struct.sem, tupleSem] at h ⊢
      have key : ∀ (l : List (Fin n)) a, alignAll (st.remove (.idx t)) (l.map fun i => (fs i).sem .ideal) = some a →
          alignAll (st.remove (.idx t)) (l.map fun i => (fs i).sem (.checked W)) = some a := by
        intro l
        induction l with
        | nil => intro a h; simp [alignAll] at h
        | cons i l ihl =>
          have hi := (ih i (ht i) (hs.1 i) (hf.2 i) (hR.2 i) (hI i).1).2
          intro a h
          cases l with
          | nil => exact hi a (by simpa [alignAll] using h)
          | cons j l =>
            simp only [List.map_cons, alignAll, bind, Option.bind_eq_some_iff] at h ⊢ ihl
            obtain ⟨x, hx, y, hy, h⟩ := h
            exact ⟨x, hi x hx, y, ihl y hy, h⟩
      have e : ∀ g : Fin n → Sem, List.ofFn g = (List.ofFn id).map g := by
        intro g
        rw [List.map_ofFn]
        rfl
      rw [e] at h ⊢
      exact key _ a h
  | vector d s ih =>
    have hi := ih ht hs hf hR.2 hI
    refine ⟨fun v N h hN h0 hNW => ?_, hi.2⟩
    simp only [Struct.sem, vectorSem, bind, Option.bind_eq_some_iff, Option.some.injEq] at h ⊢
    obtain ⟨l, hl, z, hz, rfl⟩ := h
    have hN' := hN
    obtain ⟨L, Z, hL, hZ, rfl⟩ := Val.nat?_mul.1 hN'
    have hL0 : 0 < L := Nat.pos_of_mul_pos_right h0
    have hZ0 : 0 < Z := Nat.pos_of_mul_pos_left h0
    have := Nat.le_mul_of_pos_left Z hL0
    exact ⟨l, hl, z, hi.1 z Z hz hZ hZ0 (by omega), Val.mul_checked (mulOk_of hN (by omega))⟩
  | union n ss ih =>
    exact ⟨fun v N h => by simp [Struct.sem, unionSem] at h, fun a h => by simp [Struct.sem, unionSem] at h⟩
  | view v s ih =>
    have hsig := (Struct.rel (Arith.agrees_ideal W) h2 s (Struct.fits.mono (M := M) (by omega) hf.2)).sig
    have hsub : ∀ u, (v.sem .ideal (s.sem .ideal)).sub st = some u →
        (v.sem (.checked W) (s.sem (.checked W))).sub st = some u ∧ s.Roomy M u ∧ s.SizeRoom M u := by
      intro u hu
      have hRu := (hR.2.2 st .refl).2.2 u hu
      exact ⟨sub_exact ht.2 (by rintro d rfl; exact hs.2.1) (Struct.len_exact hM hW h2 s ht.1 hs.1 hf.2)
          hR.2.1 (clear_of hW ht.2 hR.1 hRu (hI u hu).1 hu) hRu hu, hRu, (hI u hu).2⟩
    refine ⟨fun w N h hN h0 hNW => ?_, fun a h => ?_⟩
    · simp only [Struct.sem, ViewSem.toSem, sizeOk_checked hsig] at h ⊢
      split at h
      · next hso =>
        simp only [Option.bind_eq_some_iff] at h
        obtain ⟨u, hu, h⟩ := h
        obtain ⟨h1, h3, h4⟩ := hsub u hu
        simp only [hso, ↓reduceIte, h1, Option.bind_some]
        exact (ih ht.1 hs.1 hf.2 h3 h4).1 w N h hN h0 hNW
      · cases h
    · simp only [Struct.sem, ViewSem.toSem, sizeOk_checked hsig] at h ⊢
      split at h
      · next hso =>
        simp only [Option.bind_eq_some_iff] at h
        obtain ⟨u, hu, h⟩ := h
        obtain ⟨h1, h3, h4⟩ := hsub u hu
        simp only [hso, ↓reduceIte, h1, Option.bind_some]
        exact (ih ht.1 hs.1 hf.2 h3 h4).2 a h
      · cases h

end Noarr
