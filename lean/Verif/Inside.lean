import Verif.ValidMerge

/-
Offsets stay inside the structure: the induction behind C05.
-/

set_option linter.unusedVariables false
set_option linter.unusedSimpArgs false

namespace Noarr

theorem sizeAcc_append {A : Arith} {st : State} {xs ys : List Sem} {start : Val} :
    sizeAcc A st (xs ++ ys) start = (sizeAcc A st xs start).bind (sizeAcc A st ys) := by
  induction xs generalizing start with
  | nil => rfl
  | cons x xs ih =>
    simp only [List.cons_append, sizeAcc, bind]
    cases x.align st with
    | none => rfl
    | some al =>
      cases x.size st with
      | none => rfl
      | some sz => simp only [Option.bind_some]; exact ih

/-- One step: rounding up does not go down. -/
theorem round_up {start : Val} {al n : Nat}
    (h : ((((start.add .ideal (.lit al)).sub .ideal (.lit 1)).div .ideal (.lit al)).mul .ideal
      (.lit al)).Num n) : ∃ a, start.Num a ∧ 0 < al ∧ n = (a + al - 1) / al * al ∧ a ≤ n ∧ n < a + al := by
  obtain ⟨x, y, hx, hy, rfl⟩ := Val.nat?_mul.1 h
  obtain ⟨z, w, hz, hw, hor, rfl⟩ := Val.nat?_div.1 hx
  obtain ⟨p, r, hp, hr, hle, rfl⟩ := Val.nat?_sub.1 hz
  obtain ⟨a, b, ha, hb, rfl⟩ := Val.nat?_add.1 hp
  simp only [Val.nat?, Option.some.injEq] at hy hw hr hb
  subst hy; subst hw; subst hr; subst hb
  have h0 : 0 < al := by
    rcases hor with h | ⟨-, h⟩
    · omega
    · cases h
  refine ⟨a, ha, h0, rfl, ?_, ?_⟩
  · have := Nat.div_add_mod (a + al - 1) al
    have h2 := Nat.mod_lt (a + al - 1) h0
    rw [Nat.mul_comm] at this
    omega
  · have := Nat.div_mul_le_self (a + al - 1) al
    omega

theorem sizeAcc_mono {st : State} {Ss : List Sem} {start v : Val} {n : Nat}
    (h : sizeAcc .ideal st Ss start = some v) (hv : v.Num n) : ∃ a, start.Num a ∧ a ≤ n := by
  induction Ss generalizing start with
  | nil => cases h; exact ⟨n, hv, Nat.le_refl n⟩
  | cons S Ss ih =>
    simp only [sizeAcc, bind, Option.bind_eq_some_iff] at h
    obtain ⟨al, hal, sz, hsz, h⟩ := h
    obtain ⟨m, hm, hle⟩ := ih h
    obtain ⟨x, y, hx, hy, rfl⟩ := Val.nat?_add.1 hm
    obtain ⟨a, ha, h0, hxe, h1, h2⟩ := round_up hx
    exact ⟨a, ha, by omega⟩

/-- The `k`-th field of a tuple begins after the ones before it and ends before the end. -/
theorem tuple_field {n : Nat} {fs : Fin n → Sem} {st : State} {v before : Val} {N k : Nat} (hk : k < n)
    (hs : sizeAcc .ideal st (List.ofFn fs) (.lit 0) = some v) (hv : v.Num N)
    (hb : sizeAcc .ideal st ((List.ofFn fs).take k) (.lit 0) = some before) :
    ∃ sz b z, (fs ⟨k, hk⟩).size st = some sz ∧ before.Num b ∧ sz.Num z ∧ b + z ≤ N := by
  have hl : k < (List.ofFn fs).length := by simpa using hk
  have hsplit : List.ofFn fs = (List.ofFn fs).take k ++ fs ⟨k, hk⟩ :: (List.ofFn fs).drop (k + 1) := by
    have h2 : (List.ofFn fs)[k] = fs ⟨k, hk⟩ := by simp
    rw [← h2, List.getElem_cons_drop, List.take_append_drop]
  rw [hsplit, sizeAcc_append, hb] at hs
  simp only [Option.bind_some, sizeAcc, bind, Option.bind_eq_some_iff] at hs
  obtain ⟨al, hal, sz, hsz, h⟩ := hs
  obtain ⟨m, hm, hle⟩ := sizeAcc_mono h hv
  obtain ⟨x, y, hx, hy, rfl⟩ := Val.nat?_add.1 hm
  obtain ⟨a, ha, h0, hxe, h1, h2⟩ := round_up hx
  exact ⟨sz, a, y, hsz, ha, hy, by omega⟩

theorem validR_field {A : Arith} {t : Dim} {n : Nat} {fs : Fin n → Struct} {st : State} {k : Nat}
    (hk : k < n) (hs : (Struct.tuple t n fs).sane A) (hc : constIdx (st (.idx t)) = some k)
    (hV : ValidR A (.tuple t n fs) st) : ValidR A (fs ⟨k, hk⟩) (st.remove (.idx t)) := by
  intro q i m hq hi hm
  have hqt : q ≠ t := by rintro rfl; simp [State.remove] at hi
  have hi' : st (.idx q) = some i := by simpa [State.remove, hqt] using hi
  have hht := Struct.hasLen_of_len hm
  refine hV q i m ?_ hi' ?_
  · rintro (h | ⟨j, hj⟩)
    · exact hqt h
    · rw [hs.2 j ⟨k, hk⟩ q hj hq] at hm; simp at hm
  · have e1 : (st.remove (.idx q)) (.idx t) = st (.idx t) := by simp [State.remove, Ne.symm hqt]
    have hsome : ∃ x, st (.idx t) = some x := by
      cases h : st (.idx t) with
      | none => simp [h, constIdx] at hc
      | some x => exact ⟨x, rfl⟩
    obtain ⟨x, hx⟩ := hsome
    rw [State.remove_comm] at hm hht
    simp only [Struct.sem, tupleSem, hqt, ↓reduceIte, State.has, e1, hx, Option.isSome_some] 
    rw [hx] at hc
    simp only [hc, bind, Option.bind_some, hk, ↓reduceDIte, hht, hm]
    rfl

theorem validR_vector {A : Arith} {d : Dim} {s : Struct} {st : State}
    (hV : ValidR A (.vector d s) st) : ValidR A s (st.removeAll [.idx d, .len d]) := by
  intro q i m hq hi hm
  have hqd : q ≠ d := by rintro rfl; simp [State.removeAll] at hi
  have hht := Struct.hasLen_of_len hm
  refine hV q i m (fun h => hq h.2) (by simpa [State.removeAll, hqd] using hi) ?_
  have e : (st.remove (.idx q)).removeAll [.idx d, .len d] =
      (st.removeAll [.idx d, .len d]).remove (.idx q) := by state_eq
  simp only [Struct.sem, vectorSem, hqd, ↓reduceIte, e, hht, hm, guardTrue]

/-- A view hands down valid indices. -/
theorem validR_sub {v : View} {s : Struct} {st u : State} (ht : (Struct.view v s).tame)
    (hs : (Struct.view v s).sane .ideal) (hV : ValidR .ideal (.view v s) st)
    (hp : v.pre .ideal (s.sem .ideal) st u) (hoff : (v.sem .ideal (s.sem .ideal)).offOk st = true)
    (hu : (v.sem .ideal (s.sem .ideal)).sub st = some u) : ValidR .ideal s u := by
  have ih := Struct.length_dep .ideal s ht.1
  cases v with
  | bcast d => exact valid_bcast ih hV hu
  | fix d i => exact valid_fix ih hV hp hu
  | setLength d l => exact valid_setLength ih hV hu
  | shift d a => exact valid_shift ih hV hp hu
  | slice d a n => exact valid_slice ih hV hp hu
  | span d a e => exact valid_span ih hV hp hu
  | step d a k => exact valid_step ih hV hu
  | reverse d => exact valid_reverse ih ht.2 hs.2 hV hp hu
  | reorder ds => cases hu; exact valid_same ih (.inl ⟨ds, rfl, hoff⟩) hV
  | hoist d => cases hu; exact valid_same ih (.inr ⟨d, rfl⟩) hV
  | rename ps => cases hu; exact valid_rename ih ht.2 hV
  | join a b d => exact valid_join ih ht.2 hV hp hu
  | intoBlocks d maj min => exact valid_ib ih ht.2 hs.2 hV hp hu
  | intoBlocksDyn d maj min pres => exact valid_ibd ih ht.2 hs.2.1 hs.2.2.1 hs.2.2.2 hV hp hoff hu
  | intoBlocksStat d border maj min nl => exact valid_ibs ih ht.2 hs.2 hV hu
  | mergeBlocks maj min d => exact valid_mb ih ht.2 hs.2.1 hs.2.2 hV hp hu
  | mergeZ sl gl ds d => exact valid_mz ih ht.2 hs.2 hV hp hu

/-- The element of a valid state lies inside the structure. -/
theorem Struct.inside (s : Struct) {st : State} {start v o : Val} {a N : Nat} (ht : s.tame)
    (hs : s.sane .ideal) (hV : ValidR .ideal s st) (hp : s.Pre .ideal st)
    (hsz : (s.sem .ideal).size st = some v) (hN : v.Num N) (ha : start.Num a)
    (ho : (s.sem .ideal).off st start = some o) :
    ∃ k e, o.Num k ∧ (s.sem .ideal).elem st = some e ∧ a ≤ k ∧ k + e ≤ a + N := by
  induction s generalizing st start v o a N with
  | scalar sz al =>
    simp only [Struct.sem, scalarSem, Option.some.injEq] at hsz ho
    subst hsz; subst ho
    have : N = sz := by simpa [Val.Num, Val.nat?, eq_comm] using hN
    subst this
    exact ⟨a, N, ha, rfl, Nat.le_refl _, Nat.le_refl _⟩
  | tuple t n fs ih =>
    simp only [Struct.sem, tupleSem, bind, Option.bind_eq_some_iff] at ho hsz
    obtain ⟨k, hk, S, hS, before, hb, ho⟩ := ho
    rw [hk] at hS
    simp only [Option.some.injEq, exists_eq_left'] at hS
    by_cases hkn : k < n
    · simp only [hkn, ↓reduceDIte, Option.some.injEq] at hS
      subst hS
      obtain ⟨sz, b, z, hz, hbn, hzn, hle⟩ := tuple_field hkn hsz hN hb
      obtain ⟨x, e, hx, he, h1, h2⟩ := ih ⟨k, hkn⟩ (ht _) (hs.1 _) (validR_field hkn hs hk hV)
        (hp _) hz hzn (Val.num_add hbn ha) ho
      refine ⟨x, e, hx, ?_, by omega, by omega⟩
      simp only [Struct.sem, tupleSem, hk, bind, Option.bind_some, hkn, ↓reduceDIte, he]
    · simp [hkn] at hS
  | vector d s ih =>
    simp only [Struct.sem, vectorSem, bind, Option.bind_eq_some_iff, Option.some.injEq] at ho hsz
    obtain ⟨l, hl, sz, hsz, rfl⟩ := hsz
    obtain ⟨i, hi, l', hl', ho⟩ := ho
    rw [hl] at hl'
    obtain rfl := Option.some.inj hl'
    obtain ⟨L, Z, hL, hZ, rfl⟩ := Val.nat?_mul.1 hN
    have hidx : LtVal i l := by
      refine hV d i l (fun h => h.1 rfl) hi ?_
      have e1 : (st.remove (.idx d)) (.len d) = st (.len d) := by state_val
      have e2 : (st.remove (.idx d)) (.idx d) = none := by state_val
      simp [Struct.sem, vectorSem, State.has, e1, e2, hl, guardTrue]
    obtain ⟨x, y, hx, hy, hlt⟩ := hidx
    have := Val.Num.eq hL hy
    subst this
    have step : ∀ st' v, st'.Num (x * Z + a) → (s.sem .ideal).off (st.removeAll [.idx d, .len d]) st' = some v →
        ∃ k e, v.Num k ∧ (s.sem .ideal).elem (st.removeAll [.idx d, .len d]) = some e ∧ a ≤ k ∧
          k + e ≤ a + L * Z := by
      intro st' v h1 h2
      obtain ⟨k, e, hk, he, hak, hke⟩ := ih ht hs (validR_vector hV) hp hsz hZ h1 h2
      have := Nat.mul_le_mul_right Z hlt
      rw [Nat.succ_mul] at this
      exact ⟨k, e, hk, he, by omega, by omega⟩
    cases l with
    | bad f => simp [Val.nat?] at hL
    | dyn m =>
      simp only [hsz, Option.some.injEq, exists_eq_left'] at ho
      exact step _ _ (Val.num_add (Val.num_mul hx hZ) ha) ho
    | lit m =>
      by_cases h1 : m = 1
      · subst h1
        simp only [Val.nat?, Option.some.injEq] at hL
        subst hL
        have : x = 0 := by omega
        subst this
        exact step _ _ (by simpa using ha) ho
      · have : ∃ sz, (s.sem .ideal).size (st.removeAll [.idx d, .len d]) = some sz ∧
            (s.sem .ideal).off (st.removeAll [.idx d, .len d]) ((i.mul .ideal sz).add .ideal start) = some o := by
          simpa [h1, Option.bind_eq_some_iff] using ho
        obtain ⟨sz', hsz', ho⟩ := this
        rw [hsz] at hsz'
        obtain rfl := Option.some.inj hsz'
        exact step _ _ (Val.num_add (Val.num_mul hx hZ) ha) ho
  | union n ss ih => simp [Struct.sem, unionSem] at hsz
  | view v s ih =>
    simp only [Struct.sem, ViewSem.toSem] at ho hsz
    split at ho
    · next hoff =>
      split at hsz
      · simp only [Option.bind_eq_some_iff] at ho hsz
        obtain ⟨u, hu, ho⟩ := ho
        obtain ⟨u', hu', hsz⟩ := hsz
        rw [hu] at hu'
        obtain rfl := Option.some.inj hu'
        obtain ⟨hp1, hp2⟩ := hp u hu
        obtain ⟨k, e, hk, he, h1, h2⟩ := ih ht.1 hs.1 (validR_sub ht hs hV hp1 hoff hu) hp2 hsz hN ha ho
        exact ⟨k, e, hk, by simp only [Struct.sem, ViewSem.toSem, hu, Option.bind_some, he], h1, h2⟩
      · simp at hsz
    · simp at ho

end Noarr
