import Verif.SelectBlocks

/-
Which elements `into_blocks` and `into_blocks_dynamic` address.
-/

set_option linter.unusedVariables false
set_option linter.unusedSimpArgs false

namespace Noarr

theorem Val.num_div_iff {l k : Val} {n m : Nat} (hk : k.Num n) (h0 : 0 < n) :
    (l.div .ideal k).Num m ↔ ∃ N, l.Num N ∧ m = N / n := by
  unfold Val.Num at *
  rw [Val.nat?_div]
  constructor
  · rintro ⟨x, y, h1, h2, h3, h4⟩
    rw [hk] at h2; cases h2
    exact ⟨x, h1, h4⟩
  · rintro ⟨N, h1, h2⟩
    exact ⟨N, n, h1, hk, .inl (by omega), h2⟩

theorem guard_bind {A : Arith} {s : Struct} {d : Dim} {st : State} (f : Val → Option Val) :
    guardLen ((s.sem A).hasLen d st) (((s.sem A).len d st).bind f) = ((s.sem A).len d st).bind f := by
  cases h : (s.sem A).len d st with
  | none => simp only [Option.bind_none]; rcases (s.sem A).hasLen d st with _ | _ | _ <;> rfl
  | some l => rw [Struct.hasLen_of_len h]; rfl

theorem ib_entry {A : Arith} {S : Sem} {d maj min : Dim} (hu : S.sig.uniq)
    (hd : ¬ S.sig.hasDep d)
    (hw : (intoBlocksSem A d maj min S).sig.wf = true) :
    maj ≠ min ∧ (∀ q ∈ [maj, min], q ≠ d → S.sig.anyAccept q = false) ∧
    ∀ st q o, (intoBlocksSem A d maj min S).sig.entry st q o ↔
      (q ≠ d ∧ S.sig.entry st q o) ∨ (q ∈ [maj, min] ∧ o = none ∧ S.sig.entry st d none) := by
  simp only [intoBlocksSem] at hw ⊢
  split at hw
  · simp [Sig.wf] at hw
  next hc =>
  simp only [not_or, not_and, Bool.not_eq_true] at hc
  obtain ⟨h1, h2, h3⟩ := hc
  have hc' : ¬ (maj = min ∨ (maj ≠ d ∧ S.sig.anyAccept maj = true) ∨
      (min ≠ d ∧ S.sig.anyAccept min = true)) := by grind
  refine ⟨h1, by simp; grind, fun st q o => ?_⟩
  simp only [hc', if_false]
  rw [Sig.entry_replace (New := fun q o => (q = maj ∨ q = min) ∧ o = none) (u := st) (fun _ _ _ => rfl) hu hw]
  · have : (∃ o', S.sig.entry st d o') ↔ S.sig.entry st d none :=
      ⟨fun ⟨o', h⟩ => by cases o' with
        | none => exact h
        | some n => exact absurd h (nodep_entry hd st n), fun h => ⟨_, h⟩⟩
    simp only [this, List.mem_cons, List.not_mem_nil, or_false, and_assoc]
  · intro N hN hNu hs hw' q o
    obtain ⟨e, l, r, rfl, he⟩ := Sig.starts_fn hs (Sig.intoBlocksRepl maj min) (fun _ _ _ => rfl) hw'
    simp at he; subst he
    simp only [Sig.intoBlocksRepl, Sig.entry]
    have hq : ∀ o, ¬ r.entry st e o := fun o h => by
      have := Sig.entry_accept h; rw [hNu.1] at this; simp at this
    grind

theorem ibd_entry {A : Arith} {S : Sem} {d maj min pres : Dim} (hu : S.sig.uniq)
    (hd : ¬ S.sig.hasDep d)
    (hw : (intoBlocksDynSem A d maj min pres S).sig.wf = true) :
    (maj ≠ min ∧ min ≠ pres ∧ pres ≠ maj) ∧
    (∀ q ∈ [maj, min, pres], q ≠ d → S.sig.anyAccept q = false) ∧
    ∀ st q o, (intoBlocksDynSem A d maj min pres S).sig.entry st q o ↔
      (q ≠ d ∧ S.sig.entry st q o) ∨ (q ∈ [maj, min, pres] ∧ o = none ∧ S.sig.entry st d none) := by
  simp only [intoBlocksDynSem] at hw ⊢
  split at hw
  · simp [Sig.wf] at hw
  next hc =>
  have hc' := hc
  simp only [not_or, not_and, Bool.not_eq_true] at hc
  obtain ⟨h1, h1', h1'', h2, h3, h4⟩ := hc
  refine ⟨⟨h1, h1', h1''⟩, by simp; grind, fun st q o => ?_⟩
  simp only [hc', if_false]
  rw [Sig.entry_replace (New := fun q o => (q = maj ∨ q = min ∨ q = pres) ∧ o = none) (u := st) (fun _ _ _ => rfl) hu hw]
  · have : (∃ o', S.sig.entry st d o') ↔ S.sig.entry st d none :=
      ⟨fun ⟨o', h⟩ => by cases o' with
        | none => exact h
        | some n => exact absurd h (nodep_entry hd st n), fun h => ⟨_, h⟩⟩
    simp only [this, List.mem_cons, List.not_mem_nil, or_false, and_assoc]
  · intro N hN hNu hs hw' q o
    obtain ⟨e, l, r, rfl, he⟩ := Sig.starts_fn hs (Sig.intoBlocksDynRepl maj min pres) (fun _ _ _ => rfl) hw'
    simp at he; subst he
    simp only [Sig.intoBlocksDynRepl, Sig.entry]
    have hq : ∀ o, ¬ r.entry st e o := fun o h => by
      have := Sig.entry_accept h; rw [hNu.1] at this; simp at this
    grind

theorem blocksClean_bare {d maj min : Dim} {st : State} {L : Lens} (hL : ∀ q, st (.len q) = L q) :
    blocksClean d maj min st = st.bare [d, maj, min] (L.remove [d, maj, min]) := by
  refine State.ext (fun q => ?_) (fun q => ?_)
  · by_cases h : q ∈ [d, maj, min]
    · have := h
      simp only [List.mem_cons, List.not_mem_nil, or_false] at this
      simp only [blocksClean, State.removeAll, State.bare, h, if_true]
      simp; grind
    · have := h
      simp only [List.mem_cons, List.not_mem_nil, or_false, not_or] at this
      simp [blocksClean, State.removeAll, State.bare, this]
  · by_cases h : q ∈ [d, maj, min]
    · have := h
      simp only [List.mem_cons, List.not_mem_nil, or_false] at this
      simp only [blocksClean, State.removeAll, State.bare, Lens.remove, h, if_true]
      simp; grind
    · have := h
      simp only [List.mem_cons, List.not_mem_nil, or_false, not_or] at this
      simp [blocksClean, State.removeAll, State.bare, Lens.remove, this, hL]

theorem Val.num_ceilDiv_iff {l k : Val} {n m : Nat} (hk : k.Num n) (h0 : 0 < n) :
    (ceilDiv .ideal l k).Num m ↔ ∃ N, l.Num N ∧ m = (N + n - 1) / n := by
  unfold ceilDiv
  rw [Val.num_div_iff hk h0]
  constructor
  · rintro ⟨x, h1, h2⟩
    obtain ⟨a, b, h3, h4, h5, rfl⟩ := Val.nat?_sub.1 h1
    obtain ⟨c, e, h6, h7, rfl⟩ := Val.nat?_add.1 h3
    have h7 : k.Num e := h7
    cases h4
    rw [Val.Num.eq h7 hk] at h2
    exact ⟨c, h6, h2⟩
  · rintro ⟨N, h1, h2⟩
    exact ⟨N + n - 1, Val.nat?_sub.2 ⟨N + n, 1, Val.nat?_add.2 ⟨N, n, h1, hk, rfl⟩, rfl, by omega, rfl⟩, h2⟩

theorem Val.below_lt {l : Val} {x N k : Nat} (h : l.Num N) :
    (∃ m, ((Val.dyn x).ltVal l).Num m ∧ k < m) ↔ k = 0 ∧ x < N := by
  rcases h.cases with rfl | rfl <;> simp only [Val.ltVal, Val.Num, Val.nat?, Option.some.injEq] <;>
    by_cases h : x < N <;> simp [h]

theorem Val.below_lt_num {l : Val} {x k m : Nat} (h : ((Val.dyn x).ltVal l).Num m) : ∃ N, l.Num N := by
  cases l <;> simp [Val.ltVal, Val.Num] at h ⊢

theorem ceil_lt {N n i : Nat} (hn : 0 < n) : i < (N + n - 1) / n ↔ i * n < N := by
  rw [Nat.lt_div_iff_mul_lt hn]
  omega

theorem dynClean_bare {d maj min pres : Dim} {st : State} {L : Lens} (hL : ∀ q, st (.len q) = L q)
    (hp : L pres = none) :
    dynClean d maj min pres st = st.bare [d, maj, min, pres] (L.remove [d, maj, min]) := by
  refine State.ext (fun q => ?_) (fun q => ?_)
  · by_cases h : q ∈ [d, maj, min, pres]
    · have := h
      simp only [List.mem_cons, List.not_mem_nil, or_false] at this
      simp only [dynClean, State.removeAll, State.bare, h, if_true]
      simp; grind
    · have := h
      simp only [List.mem_cons, List.not_mem_nil, or_false, not_or] at this
      simp [dynClean, State.removeAll, State.bare, this]
  · by_cases h : q ∈ [d, maj, min]
    · have := h
      simp only [List.mem_cons, List.not_mem_nil, or_false] at this
      simp only [dynClean, State.removeAll, State.bare, Lens.remove, h, if_true]
      simp; grind
    · have := h
      simp only [List.mem_cons, List.not_mem_nil, or_false, not_or] at this
      simp [dynClean, State.removeAll, State.bare, Lens.remove, this, hL]

theorem dynClean_remove {d maj min pres : Dim} {st : State} {x : Dim} (hx : x = maj ∨ x = min ∨ x = pres) :
    dynClean d maj min pres (st.remove (.idx x)) = dynClean d maj min pres st := by
  unfold dynClean
  rcases hx with rfl | rfl | rfl <;> state_eq

section
variable {s : Struct} {d maj min : Dim} {L : Lens}

theorem clean_remove {st : State} {x : Dim} (hx : x = maj ∨ x = min) :
    blocksClean d maj min (st.remove (.idx x)) = blocksClean d maj min st := by
  rcases hx with rfl | rfl <;> state_eq

/-- `into_blocks`, the length of a block is given. -/
theorem select_ib_min {nl : Val} {n : Nat}
    (ht : (Struct.view (.intoBlocks d maj min) s).tame) (hu : (s.sem .ideal).sig.uniq)
    (hm : s.unmixed .ideal) (hw : ((Struct.view (.intoBlocks d maj min) s).sem .ideal).sig.wf = true)
    (hd : ¬ (s.sem .ideal).sig.hasDep d)
    (hLm : L min = some nl) (hLM : L maj = none) (hn : nl.Num n) (hn0 : 0 < n)
    (hdiv : EveryLength (s.sem .ideal) (L.remove [d, maj, min]) d (n ∣ ·)) :
    Selects .ideal s (.intoBlocks d maj min) L (L.remove [d, maj, min]) fun _ => True := by
  obtain ⟨hne, hacc, hent⟩ := ib_entry (A := .ideal) hu hd hw
  have hmaj : ∀ (st : State) i, (∀ q, st (.len q) = L q) →
      (Below ((Struct.view (.intoBlocks d maj min) s).sem .ideal) maj (st.remove (.idx maj)) i ↔
        ∃ l N, (s.sem .ideal).len d (blocksClean d maj min st) = some l ∧ l.Num N ∧ i < N / n) := by
    intro st i hL
    have e1 : (st.remove (.idx maj)) (.idx maj) = none := by state_val
    have e2 : ∀ y, (st.remove (.idx maj)) (.len y) = L y := by intro y; rw [← hL]; state_val
    have hs : intoBlocksSub .ideal d maj min (s.sem .ideal) (st.remove (.idx maj)) =
        some (blocksClean d maj min st) := by
      simp only [intoBlocksSub, e2, hLm, hLM, e1, clean_remove (.inl rfl)]
    have : ((Struct.view (.intoBlocks d maj min) s).sem .ideal).len maj (st.remove (.idx maj)) =
        ((s.sem .ideal).len d (blocksClean d maj min st)).bind fun l => some (l.div .ideal nl) := by
      simp only [Struct.sem, ViewSem.toSem, View.sem, intoBlocksSem, hne, if_false, if_true, State.has, e1, e2,
        hLm, hLM, hs, bind, Option.bind_some, Option.isSome_none, Option.isSome_some, Bool.false_eq_true]
      exact guard_bind _
    unfold Below
    rw [this]
    constructor
    · rintro ⟨l, m, h1, h2, h3⟩
      obtain ⟨l0, h4, h5⟩ := Option.bind_eq_some_iff.1 h1
      cases h5
      obtain ⟨N, hN, rfl⟩ := (Val.num_div_iff hn hn0).1 h2
      exact ⟨l0, N, h4, hN, h3⟩
    · rintro ⟨l, N, h1, h2, h3⟩
      exact ⟨_, _, by rw [h1]; rfl, (Val.num_div_iff hn hn0).2 ⟨N, h2, rfl⟩, h3⟩
  have hmin : ∀ (st : State) j, (∀ q, st (.len q) = L q) →
      (Below ((Struct.view (.intoBlocks d maj min) s).sem .ideal) min (st.remove (.idx min)) j ↔ j < n) := by
    intro st j hL
    have e1 : (st.remove (.idx min)) (.idx min) = none := by state_val
    have e2 : ∀ y, (st.remove (.idx min)) (.len y) = L y := by intro y; rw [← hL]; state_val
    have : ((Struct.view (.intoBlocks d maj min) s).sem .ideal).len min (st.remove (.idx min)) = some nl := by
      simp [Struct.sem, ViewSem.toSem, View.sem, intoBlocksSem, State.has, e1, e2, hLm, hLM, guardLen]
    unfold Below
    rw [this]
    constructor
    · rintro ⟨l, m, h1, h2, h3⟩
      cases h1
      rw [Val.Num.eq h2 hn] at h3; exact h3
    · intro h; exact ⟨_, _, rfl, hn, h⟩
  have hsub : ∀ st : State, (∀ q, st (.len q) = L q) → intoBlocksSub .ideal d maj min (s.sem .ideal) st =
      match st (.idx maj), st (.idx min) with
      | some i, some j => some ((blocksClean d maj min st).set (.idx d) ((i.mul .ideal nl).add .ideal j))
      | _, _ => some (blocksClean d maj min st) := by
    intro st hL
    simp only [intoBlocksSub, hL, hLm, hLM]
    cases st (.idx maj) <;> cases st (.idx min) <;> rfl
  refine select_split (maj := maj) (min := min) (d := d) (ex := []) (n := fun _ => n) ht hm trivial
    (fun q => by simp [View.dims]) hd hne (by simp) (by simp) hacc hent ?_ ?_ ?_ ?_ ?_
  · intro st hL hi _
    rw [show (View.intoBlocks d maj min).sem .ideal (s.sem .ideal) = intoBlocksSem .ideal d maj min (s.sem .ideal) from rfl]
    simp only [intoBlocksSem, hsub st hL, hi maj (by simp [View.dims]), blocksClean_bare hL, View.dims]
  · intro st i j hL _ hi hj _ _ _
    show intoBlocksSub .ideal d maj min (s.sem .ideal) st = _
    rw [hsub st hL, hi, hj]
    simp only [Val.dyn_mul hn hn0, Val.dyn_add (show (Val.dyn j).Num j from rfl), blocksClean_bare hL, View.dims]
  · intro st i j hL _ hi hj hB1 hB2 _
    have hj := (hmin st j hL).1 hB2
    obtain ⟨l, N, h1, h2, h3⟩ := (hmaj st i hL).1 hB1
    rw [blocksClean_bare hL] at h1
    refine ⟨hj, ⟨l, N, h1, h2, ?_⟩, by simp⟩
    have := Nat.div_mul_le_self N n
    have : (i + 1) * n ≤ N / n * n := Nat.mul_le_mul_right _ h3
    rw [Nat.succ_mul] at this
    omega
  · intro st i j hL _ hi hj _ hB hj'
    obtain ⟨l, N, h1, h2, h3⟩ := hB
    obtain ⟨k, hk⟩ := hdiv _ l N (fun q => rfl) h1 h2
    refine ⟨(hmaj st i hL).2 ⟨l, N, by rw [blocksClean_bare hL]; exact h1, h2, ?_⟩, (hmin st j hL).2 hj', by simp⟩
    rw [hk, Nat.mul_div_cancel_left _ hn0]
    have : i * n < k * n := by rw [Nat.mul_comm k]; omega
    exact Nat.lt_of_mul_lt_mul_right this
  · intro u x _ _ _ _; exact hn0

/-- `into_blocks`, the number of blocks is given. -/
theorem select_ib_maj {ml : Val} {m : Nat}
    (ht : (Struct.view (.intoBlocks d maj min) s).tame) (hu : (s.sem .ideal).sig.uniq)
    (hm : s.unmixed .ideal) (hw : ((Struct.view (.intoBlocks d maj min) s).sem .ideal).sig.wf = true)
    (hd : ¬ (s.sem .ideal).sig.hasDep d)
    (hLm : L min = none) (hLM : L maj = some ml) (hn : ml.Num m) (hn0 : 0 < m)
    (hk : KnownLength (s.sem .ideal) (L.remove [d, maj, min]) d)
    (hdiv : EveryLength (s.sem .ideal) (L.remove [d, maj, min]) d (m ∣ ·)) :
    Selects .ideal s (.intoBlocks d maj min) L (L.remove [d, maj, min]) fun _ => True := by
  obtain ⟨hne, hacc, hent⟩ := ib_entry (A := .ideal) hu hd hw
  have hcl : ∀ (st : State) q, (∀ q, st (.len q) = L q) →
      (blocksClean d maj min st) (.len q) = L.remove [d, maj, min] q := by
    intro st q hL; rw [blocksClean_bare hL]; rfl
  have hsub : ∀ st : State, (∀ q, st (.len q) = L q) →
      (st (.idx maj) = none ∨ st (.idx min) = none) →
      intoBlocksSub .ideal d maj min (s.sem .ideal) st = some (blocksClean d maj min st) := by
    intro st hL hi
    have h : (s.sem .ideal).hasLen d (blocksClean d maj min st) ≠ none := by
      rcases hk (blocksClean d maj min st) (fun q => hcl st q hL) (by unfold blocksClean; state_val) with ⟨l, h⟩ | ⟨h, -⟩
      · rw [Struct.hasLen_of_len h]; simp
      · rw [h]; simp
    rcases hh : (s.sem .ideal).hasLen d (blocksClean d maj min st) with _ | _ | _
    · exact absurd hh h
    · simp only [intoBlocksSub, hL, hLm, hh]
    · rcases hi with hi | hi
      · simp only [intoBlocksSub, hL, hLm, hh, hi]
        cases st (.idx min) <;> cases L maj <;> rfl
      · simp only [intoBlocksSub, hL, hLm, hh, hi]
        cases st (.idx maj) <;> cases L maj <;> rfl
  have hmaj : ∀ (st : State) i, (∀ q, st (.len q) = L q) →
      (Below ((Struct.view (.intoBlocks d maj min) s).sem .ideal) maj (st.remove (.idx maj)) i ↔ i < m) := by
    intro st j hL
    have e1 : (st.remove (.idx maj)) (.idx maj) = none := by state_val
    have e2 : ∀ y, (st.remove (.idx maj)) (.len y) = L y := by intro y; rw [← hL]; state_val
    have : ((Struct.view (.intoBlocks d maj min) s).sem .ideal).len maj (st.remove (.idx maj)) = some ml := by
      simp [Struct.sem, ViewSem.toSem, View.sem, intoBlocksSem, State.has, e1, e2, hLm, hLM, guardLen, hne]
    unfold Below
    rw [this]
    constructor
    · rintro ⟨l, m, h1, h2, h3⟩
      cases h1
      rw [Val.Num.eq h2 hn] at h3; exact h3
    · intro h; exact ⟨_, _, rfl, hn, h⟩
  have hmin : ∀ (st : State) i, (∀ q, st (.len q) = L q) →
      (Below ((Struct.view (.intoBlocks d maj min) s).sem .ideal) min (st.remove (.idx min)) i ↔
        ∃ l N, (s.sem .ideal).len d (blocksClean d maj min st) = some l ∧ l.Num N ∧ i < N / m) := by
    intro st i hL
    have e1 : (st.remove (.idx min)) (.idx min) = none := by state_val
    have e2 : ∀ y, (st.remove (.idx min)) (.len y) = L y := by intro y; rw [← hL]; state_val
    have hs := hsub (st.remove (.idx min)) (fun q => e2 q) (.inr e1)
    rw [clean_remove (.inr rfl)] at hs
    have : ((Struct.view (.intoBlocks d maj min) s).sem .ideal).len min (st.remove (.idx min)) =
        ((s.sem .ideal).len d (blocksClean d maj min st)).bind fun l => some (l.div .ideal ml) := by
      simp only [Struct.sem, ViewSem.toSem, View.sem, intoBlocksSem, if_true, State.has, e1, e2,
        hLm, hLM, hs, bind, Option.bind_some, Option.isSome_none, Option.isSome_some, Bool.false_eq_true,
        clean_remove (Or.inr rfl), if_false]
      exact guard_bind _
    unfold Below
    rw [this]
    constructor
    · rintro ⟨l, m, h1, h2, h3⟩
      obtain ⟨l0, h4, h5⟩ := Option.bind_eq_some_iff.1 h1
      cases h5
      obtain ⟨N, hN, rfl⟩ := (Val.num_div_iff hn hn0).1 h2
      exact ⟨l0, N, h4, hN, h3⟩
    · rintro ⟨l, N, h1, h2, h3⟩
      exact ⟨_, _, by rw [h1]; rfl, (Val.num_div_iff hn hn0).2 ⟨N, h2, rfl⟩, h3⟩
  let n : State → Nat := fun u => match (s.sem .ideal).len d u with
    | some l => l.nat?.getD 0 / m
    | none => 0
  have hnn : ∀ u l N, (s.sem .ideal).len d u = some l → l.Num N → n u = N / m := by
    intro u l N h1 h2
    have : l.nat? = some N := h2
    simp only [n, h1, this, Option.getD_some]
  refine select_split (maj := maj) (min := min) (d := d) (ex := []) (n := n) ht hm trivial
    (fun q => by simp [View.dims]) hd hne (by simp) (by simp) hacc hent ?_ ?_ ?_ ?_ ?_
  · intro st hL hi _
    show intoBlocksSub .ideal d maj min (s.sem .ideal) st = _
    rw [hsub st hL (.inl (hi maj (by simp [View.dims]))), blocksClean_bare hL]; rfl
  · intro st i j hL _ hi hj _ hB hjn
    show intoBlocksSub .ideal d maj min (s.sem .ideal) st = _
    obtain ⟨l, N, h1, h2, h3⟩ := hB
    rw [hnn _ l N h1 h2] at hjn ⊢
    simp only [View.dims] at h1 ⊢
    rw [← blocksClean_bare hL] at h1 ⊢
    simp only [intoBlocksSub, hL, hLm, hLM, hi, hj, Struct.hasLen_of_len h1, h1, bind, Option.bind_some]
    rw [Val.dyn_mul ((Val.num_div_iff hn hn0).2 ⟨N, h2, rfl⟩) (by omega), Val.dyn_add (show (Val.dyn j).Num j from rfl)]
  · intro st i j hL _ hi hj hB1 hB2 _
    have hi' := (hmaj st i hL).1 hB1
    obtain ⟨l, N, h1, h2, h3⟩ := (hmin st j hL).1 hB2
    rw [blocksClean_bare hL] at h1
    rw [show (View.intoBlocks d maj min).dims = [d, maj, min] from rfl, hnn _ l N h1 h2]
    refine ⟨h3, ⟨l, N, h1, h2, ?_⟩, by simp⟩
    have := Nat.mul_div_le N m
    have : (i + 1) * (N / m) ≤ m * (N / m) := Nat.mul_le_mul_right _ hi'
    rw [Nat.succ_mul] at this
    omega
  · intro st i j hL _ hi hj _ hB hj'
    obtain ⟨l, N, h1, h2, h3⟩ := hB
    rw [hnn _ l N h1 h2] at hj' h3
    obtain ⟨k, hk⟩ := hdiv _ l N (fun q => rfl) h1 h2
    refine ⟨(hmaj st i hL).2 ?_, (hmin st j hL).2 ⟨l, N, by rw [blocksClean_bare hL]; exact h1, h2, hj'⟩, by simp⟩
    have : i * (N / m) < m * (N / m) := by rw [Nat.mul_div_cancel' ⟨k, hk⟩]; omega
    exact Nat.lt_of_mul_lt_mul_right this
  · intro u x hL hi _ hB
    obtain ⟨l, N, h1, h2, h3⟩ := hB
    rw [hnn _ l N h1 h2]
    obtain ⟨k, hk⟩ := hdiv _ l N hL h1 h2
    rw [hk, Nat.mul_div_cancel_left _ hn0]
    rcases Nat.eq_zero_or_pos k with rfl | h
    · simp at hk; omega
    · exact h

/-- `into_blocks_dynamic`, the length of a block is given. -/
theorem select_ibd_min {pres : Dim} {nl : Val} {n : Nat}
    (ht : (Struct.view (.intoBlocksDyn d maj min pres) s).tame) (hu : (s.sem .ideal).sig.uniq)
    (hm : s.unmixed .ideal) (hw : ((Struct.view (.intoBlocksDyn d maj min pres) s).sem .ideal).sig.wf = true)
    (hd : ¬ (s.sem .ideal).sig.hasDep d) (hLp : L pres = none)
    (hLm : L min = some nl) (hLM : L maj = none) (hn : nl.Num n) (hn0 : 0 < n) :
    Selects .ideal s (.intoBlocksDyn d maj min pres) L (L.remove [d, maj, min]) fun _ => True := by
  obtain ⟨⟨hne, hnp, hpm⟩, hacc, hent⟩ := ibd_entry (A := .ideal) hu hd hw
  have hcl : ∀ (st : State), (∀ q, st (.len q) = L q) →
      blocksDynClean d maj min pres st = some (dynClean d maj min pres st) := by
    intro st hL; simp [blocksDynClean_eq, State.has, hL, hLp]
  have hsub : ∀ st : State, (∀ q, st (.len q) = L q) →
      (st (.idx maj) = none ∨ st (.idx min) = none) →
      intoBlocksDynSub .ideal d maj min pres (s.sem .ideal) st = some (dynClean d maj min pres st) := by
    intro st hL hi
    simp only [intoBlocksDynSub, hcl st hL, hL, hLm, hLM, bind, Option.bind_some]
    rcases hi with hi | hi
    · simp only [hi]
    · simp only [hi]
      cases st (.idx maj) <;> rfl
  have hgiven : ∀ (st : State) i, (∀ q, st (.len q) = L q) →
      (Below ((Struct.view (.intoBlocksDyn d maj min pres) s).sem .ideal) min (st.remove (.idx min)) i ↔ i < n) := by
    intro st j hL
    have e1 : (st.remove (.idx min)) (.idx min) = none := by state_val
    have e2 : ∀ y, (st.remove (.idx min)) (.len y) = L y := by intro y; rw [← hL]; state_val
    have : ((Struct.view (.intoBlocksDyn d maj min pres) s).sem .ideal).len min (st.remove (.idx min)) = some nl := by
      simp [Struct.sem, ViewSem.toSem, View.sem, intoBlocksDynSem, State.has, e1, e2, hLm, hLM, guardLen, hne, hnp,
        Ne.symm hpm]
    unfold Below
    rw [this]
    constructor
    · rintro ⟨l, m, h1, h2, h3⟩
      cases h1
      rw [Val.Num.eq h2 hn] at h3; exact h3
    · intro h; exact ⟨_, _, rfl, hn, h⟩
  have hother : ∀ (st : State) i, (∀ q, st (.len q) = L q) →
      (Below ((Struct.view (.intoBlocksDyn d maj min pres) s).sem .ideal) maj (st.remove (.idx maj)) i ↔
        ∃ l N, (s.sem .ideal).len d (dynClean d maj min pres st) = some l ∧ l.Num N ∧ i < (N + n - 1) / n) := by
    intro st i hL
    have e1 : (st.remove (.idx maj)) (.idx maj) = none := by state_val
    have e2 : ∀ y, (st.remove (.idx maj)) (.len y) = L y := by intro y; rw [← hL]; state_val
    have hs := hsub (st.remove (.idx maj)) (fun q => e2 q) (.inl e1)
    rw [dynClean_remove (by simp)] at hs
    have : ((Struct.view (.intoBlocksDyn d maj min pres) s).sem .ideal).len maj (st.remove (.idx maj)) =
        ((s.sem .ideal).len d (dynClean d maj min pres st)).bind fun l => some (ceilDiv .ideal l nl) := by
      simp only [Struct.sem, ViewSem.toSem, View.sem, intoBlocksDynSem, if_true, State.has, e1, e2,
        hLm, hLM, hs, hcl _ e2, bind, Option.bind_some, Option.isSome_none, Option.isSome_some, Bool.false_eq_true,
        dynClean_remove (show maj = maj ∨ maj = min ∨ maj = pres by simp), if_false, hne, hnp, Ne.symm hpm]
      exact guard_bind _
    unfold Below
    rw [this]
    constructor
    · rintro ⟨l, m, h1, h2, h3⟩
      obtain ⟨l0, h4, h5⟩ := Option.bind_eq_some_iff.1 h1
      cases h5
      obtain ⟨N, hN, rfl⟩ := (Val.num_ceilDiv_iff hn hn0).1 h2
      exact ⟨l0, N, h4, hN, h3⟩
    · rintro ⟨l, N, h1, h2, h3⟩
      exact ⟨_, _, by rw [h1]; rfl, (Val.num_ceilDiv_iff hn hn0).2 ⟨N, h2, rfl⟩, h3⟩
  have hpres : ∀ (st : State) i j k, (∀ q, st (.len q) = L q) → st (.idx maj) = some (.dyn i) →
      st (.idx min) = some (.dyn j) → ∀ l N b, (s.sem .ideal).len d (dynClean d maj min pres st) = some l → l.Num N →
      n = b → 0 < b →
      (Below ((Struct.view (.intoBlocksDyn d maj min pres) s).sem .ideal) pres (st.remove (.idx pres)) k ↔
        k = 0 ∧ i * b + j < N) := by
    rintro st i j k hL hi hj l N b h1 h2 rfl hb
    have e0 : ∀ y, y ≠ pres → (st.remove (.idx pres)) (.idx y) = st (.idx y) := by intro y hy; state_val
    have e2 : ∀ y, (st.remove (.idx pres)) (.len y) = L y := by intro y; rw [← hL]; state_val
    have hx : ∀ b' : Val, b'.Num n →
        ((Val.dyn i).mul .ideal b').add .ideal (.dyn j) = .dyn (i * n + j) := by
      intro b' hb'
      rw [Val.dyn_mul hb' hb, Val.dyn_add (show (Val.dyn j).Num j from rfl)]
    have : ((Struct.view (.intoBlocksDyn d maj min pres) s).sem .ideal).len pres (st.remove (.idx pres)) =
        some ((Val.dyn (i * n + j)).ltVal l) := by
      simp only [Struct.sem, ViewSem.toSem, View.sem, intoBlocksDynSem, if_true, State.has, e2, e0 maj (Ne.symm hpm),
        e0 min hnp, hi, hj, hLm, hLM, hcl _ e2, dynClean_remove (show pres = maj ∨ pres = min ∨ pres = pres by simp),
        bind, Option.bind_some, Option.isSome_none, Option.isSome_some, Bool.false_eq_true, Bool.and_self, Bool.and_false,
        Bool.false_and, Bool.or_false, Bool.or_true, Bool.true_or, Bool.false_or, if_false, h1, Struct.hasLen_of_len h1,
        guardLen]
      rw [hx _ hn]
    unfold Below
    rw [this, ← Val.below_lt h2]
    constructor
    · rintro ⟨l, m, h1, h3⟩
      cases h1; exact ⟨m, h3⟩
    · rintro ⟨m, h3⟩; exact ⟨_, m, rfl, h3⟩
  let f : State → Nat := fun u => match (s.sem .ideal).len d u with
    | some l => n
    | none => 0
  have hff : ∀ u l N, (s.sem .ideal).len d u = some l → l.Num N → f u = n := by
    intro u l N h1 h2
    have : l.nat? = some N := h2
    simp only [f, h1, this, Option.getD_some]
  refine select_split (maj := maj) (min := min) (d := d) (ex := [pres]) (n := f) ht hm trivial
    (fun q => by simp [View.dims]) hd hne (by simp [Ne.symm hpm]) (by simp [hnp]) hacc hent ?_ ?_ ?_ ?_ ?_
  · intro st hL hi _
    show intoBlocksDynSub .ideal d maj min pres (s.sem .ideal) st = _
    rw [hsub st hL (.inl (hi maj (by simp [View.dims]))), dynClean_bare hL hLp]; rfl
  · intro st i j hL _ hi hj _ hB hjn
    show intoBlocksDynSub .ideal d maj min pres (s.sem .ideal) st = _
    obtain ⟨l, N, h1, h2, h3⟩ := hB
    rw [hff _ l N h1 h2] at hjn ⊢
    simp only [View.dims] at h1 ⊢
    rw [← dynClean_bare hL hLp] at h1 ⊢
    simp only [intoBlocksDynSub, hcl st hL, hL, hLm, hLM, hi, hj, h1, bind, Option.bind_some]
    rw [Val.dyn_mul hn (by omega), Val.dyn_add (show (Val.dyn j).Num j from rfl)]
  · intro st i j hL _ hi hj hB1 hB2 hex
    obtain ⟨k, hk, hBk⟩ := hex pres (by simp)
    have hi' := (hgiven st _ hL).1 hB2
    obtain ⟨l, N, h1, h2, h3⟩ := (hother st _ hL).1 hB1
    obtain ⟨h4, h5⟩ := (hpres st i j k hL hi hj l N _ h1 h2 rfl (by omega)).1 hBk
    subst h4
    rw [dynClean_bare hL hLp] at h1
    rw [show (View.intoBlocksDyn d maj min pres).dims = [d, maj, min, pres] from rfl, hff _ l N h1 h2]
    exact ⟨hi', ⟨l, N, h1, h2, h5⟩, by simpa using hk⟩
  · intro st i j hL _ hi hj hex hB hj'
    obtain ⟨l, N, h1, h2, h3⟩ := hB
    rw [hff _ l N h1 h2] at hj' h3
    have h1' : (s.sem .ideal).len d (dynClean d maj min pres st) = some l := by
      rw [dynClean_bare hL hLp]; exact h1
    have hp := (hpres st i j 0 hL hi hj l N _ h1' h2 rfl (by omega)).2 ⟨rfl, h3⟩
    refine ⟨?_, (hgiven st _ hL).2 hj', by simpa using hp⟩
    exact (hother st _ hL).2 ⟨l, N, h1', h2, (ceil_lt hn0).2 (by omega)⟩
  · intro u x hL hi _ hB
    obtain ⟨l, N, h1, h2, h3⟩ := hB
    rw [hff _ l N h1 h2]
    exact hn0

/-- `into_blocks_dynamic`, the number of blocks is given. -/
theorem select_ibd_maj {pres : Dim} {nl : Val} {n : Nat}
    (ht : (Struct.view (.intoBlocksDyn d maj min pres) s).tame) (hu : (s.sem .ideal).sig.uniq)
    (hm : s.unmixed .ideal) (hw : ((Struct.view (.intoBlocksDyn d maj min pres) s).sem .ideal).sig.wf = true)
    (hd : ¬ (s.sem .ideal).sig.hasDep d) (hLp : L pres = none)
    (hLm : L min = none) (hLM : L maj = some nl) (hn : nl.Num n) (hn0 : 0 < n) :
    Selects .ideal s (.intoBlocksDyn d maj min pres) L (L.remove [d, maj, min]) fun _ => True := by
  obtain ⟨⟨hne, hnp, hpm⟩, hacc, hent⟩ := ibd_entry (A := .ideal) hu hd hw
  have hcl : ∀ (st : State), (∀ q, st (.len q) = L q) →
      blocksDynClean d maj min pres st = some (dynClean d maj min pres st) := by
    intro st hL; simp [blocksDynClean_eq, State.has, hL, hLp]
  have hsub : ∀ st : State, (∀ q, st (.len q) = L q) →
      (st (.idx maj) = none ∨ st (.idx min) = none) →
      intoBlocksDynSub .ideal d maj min pres (s.sem .ideal) st = some (dynClean d maj min pres st) := by
    intro st hL hi
    simp only [intoBlocksDynSub, hcl st hL, hL, hLm, hLM, bind, Option.bind_some]
    rcases hi with hi | hi
    · simp only [hi]
    · simp only [hi]
      cases st (.idx maj) <;> rfl
  have hgiven : ∀ (st : State) i, (∀ q, st (.len q) = L q) →
      (Below ((Struct.view (.intoBlocksDyn d maj min pres) s).sem .ideal) maj (st.remove (.idx maj)) i ↔ i < n) := by
    intro st j hL
    have e1 : (st.remove (.idx maj)) (.idx maj) = none := by state_val
    have e2 : ∀ y, (st.remove (.idx maj)) (.len y) = L y := by intro y; rw [← hL]; state_val
    have : ((Struct.view (.intoBlocksDyn d maj min pres) s).sem .ideal).len maj (st.remove (.idx maj)) = some nl := by
      simp [Struct.sem, ViewSem.toSem, View.sem, intoBlocksDynSem, State.has, e1, e2, hLm, hLM, guardLen, hne, hnp,
        Ne.symm hpm]
    unfold Below
    rw [this]
    constructor
    · rintro ⟨l, m, h1, h2, h3⟩
      cases h1
      rw [Val.Num.eq h2 hn] at h3; exact h3
    · intro h; exact ⟨_, _, rfl, hn, h⟩
  have hother : ∀ (st : State) i, (∀ q, st (.len q) = L q) →
      (Below ((Struct.view (.intoBlocksDyn d maj min pres) s).sem .ideal) min (st.remove (.idx min)) i ↔
        ∃ l N, (s.sem .ideal).len d (dynClean d maj min pres st) = some l ∧ l.Num N ∧ i < (N + n - 1) / n) := by
    intro st i hL
    have e1 : (st.remove (.idx min)) (.idx min) = none := by state_val
    have e2 : ∀ y, (st.remove (.idx min)) (.len y) = L y := by intro y; rw [← hL]; state_val
    have hs := hsub (st.remove (.idx min)) (fun q => e2 q) (.inr e1)
    rw [dynClean_remove (by simp)] at hs
    have : ((Struct.view (.intoBlocksDyn d maj min pres) s).sem .ideal).len min (st.remove (.idx min)) =
        ((s.sem .ideal).len d (dynClean d maj min pres st)).bind fun l => some (ceilDiv .ideal l nl) := by
      simp only [Struct.sem, ViewSem.toSem, View.sem, intoBlocksDynSem, if_true, State.has, e1, e2,
        hLm, hLM, hs, hcl _ e2, bind, Option.bind_some, Option.isSome_none, Option.isSome_some, Bool.false_eq_true,
        dynClean_remove (show min = maj ∨ min = min ∨ min = pres by simp), if_false, hne, hnp, Ne.symm hpm]
      exact guard_bind _
    unfold Below
    rw [this]
    constructor
    · rintro ⟨l, m, h1, h2, h3⟩
      obtain ⟨l0, h4, h5⟩ := Option.bind_eq_some_iff.1 h1
      cases h5
      obtain ⟨N, hN, rfl⟩ := (Val.num_ceilDiv_iff hn hn0).1 h2
      exact ⟨l0, N, h4, hN, h3⟩
    · rintro ⟨l, N, h1, h2, h3⟩
      exact ⟨_, _, by rw [h1]; rfl, (Val.num_ceilDiv_iff hn hn0).2 ⟨N, h2, rfl⟩, h3⟩
  have hpres : ∀ (st : State) i j k, (∀ q, st (.len q) = L q) → st (.idx maj) = some (.dyn i) →
      st (.idx min) = some (.dyn j) → ∀ l N b, (s.sem .ideal).len d (dynClean d maj min pres st) = some l → l.Num N →
      b = (N + n - 1) / n → 0 < b →
      (Below ((Struct.view (.intoBlocksDyn d maj min pres) s).sem .ideal) pres (st.remove (.idx pres)) k ↔
        k = 0 ∧ i * b + j < N) := by
    rintro st i j k hL hi hj l N b h1 h2 rfl hb
    have e0 : ∀ y, y ≠ pres → (st.remove (.idx pres)) (.idx y) = st (.idx y) := by intro y hy; state_val
    have e2 : ∀ y, (st.remove (.idx pres)) (.len y) = L y := by intro y; rw [← hL]; state_val
    have hx : ∀ b' : Val, b'.Num ((N + n - 1) / n) →
        ((Val.dyn i).mul .ideal b').add .ideal (.dyn j) = .dyn (i * ((N + n - 1) / n) + j) := by
      intro b' hb'
      rw [Val.dyn_mul hb' hb, Val.dyn_add (show (Val.dyn j).Num j from rfl)]
    have : ((Struct.view (.intoBlocksDyn d maj min pres) s).sem .ideal).len pres (st.remove (.idx pres)) =
        some ((Val.dyn (i * ((N + n - 1) / n) + j)).ltVal l) := by
      simp only [Struct.sem, ViewSem.toSem, View.sem, intoBlocksDynSem, if_true, State.has, e2, e0 maj (Ne.symm hpm),
        e0 min hnp, hi, hj, hLm, hLM, hcl _ e2, dynClean_remove (show pres = maj ∨ pres = min ∨ pres = pres by simp),
        bind, Option.bind_some, Option.isSome_none, Option.isSome_some, Bool.false_eq_true, Bool.and_self, Bool.and_false,
        Bool.false_and, Bool.or_false, Bool.or_true, Bool.true_or, Bool.false_or, if_false, h1, Struct.hasLen_of_len h1,
        guardLen]
      rw [hx _ ((Val.num_ceilDiv_iff hn hn0).2 ⟨N, h2, rfl⟩)]
    unfold Below
    rw [this, ← Val.below_lt h2]
    constructor
    · rintro ⟨l, m, h1, h3⟩
      cases h1; exact ⟨m, h3⟩
    · rintro ⟨m, h3⟩; exact ⟨_, m, rfl, h3⟩
  let f : State → Nat := fun u => match (s.sem .ideal).len d u with
    | some l => (l.nat?.getD 0 + n - 1) / n
    | none => 0
  have hff : ∀ u l N, (s.sem .ideal).len d u = some l → l.Num N → f u = (N + n - 1) / n := by
    intro u l N h1 h2
    have : l.nat? = some N := h2
    simp only [f, h1, this, Option.getD_some]
  refine select_split (maj := maj) (min := min) (d := d) (ex := [pres]) (n := f) ht hm trivial
    (fun q => by simp [View.dims]) hd hne (by simp [Ne.symm hpm]) (by simp [hnp]) hacc hent ?_ ?_ ?_ ?_ ?_
  · intro st hL hi _
    show intoBlocksDynSub .ideal d maj min pres (s.sem .ideal) st = _
    rw [hsub st hL (.inl (hi maj (by simp [View.dims]))), dynClean_bare hL hLp]; rfl
  · intro st i j hL _ hi hj _ hB hjn
    show intoBlocksDynSub .ideal d maj min pres (s.sem .ideal) st = _
    obtain ⟨l, N, h1, h2, h3⟩ := hB
    rw [hff _ l N h1 h2] at hjn ⊢
    simp only [View.dims] at h1 ⊢
    rw [← dynClean_bare hL hLp] at h1 ⊢
    simp only [intoBlocksDynSub, hcl st hL, hL, hLm, hLM, hi, hj, h1, bind, Option.bind_some]
    rw [Val.dyn_mul ((Val.num_ceilDiv_iff hn hn0).2 ⟨N, h2, rfl⟩) (by omega), Val.dyn_add (show (Val.dyn j).Num j from rfl)]
  · intro st i j hL _ hi hj hB1 hB2 hex
    obtain ⟨k, hk, hBk⟩ := hex pres (by simp)
    have hi' := (hgiven st _ hL).1 hB1
    obtain ⟨l, N, h1, h2, h3⟩ := (hother st _ hL).1 hB2
    obtain ⟨h4, h5⟩ := (hpres st i j k hL hi hj l N _ h1 h2 rfl (by omega)).1 hBk
    subst h4
    rw [dynClean_bare hL hLp] at h1
    rw [show (View.intoBlocksDyn d maj min pres).dims = [d, maj, min, pres] from rfl, hff _ l N h1 h2]
    exact ⟨h3, ⟨l, N, h1, h2, h5⟩, by simpa using hk⟩
  · intro st i j hL _ hi hj hex hB hj'
    obtain ⟨l, N, h1, h2, h3⟩ := hB
    rw [hff _ l N h1 h2] at hj' h3
    have h1' : (s.sem .ideal).len d (dynClean d maj min pres st) = some l := by
      rw [dynClean_bare hL hLp]; exact h1
    have hp := (hpres st i j 0 hL hi hj l N _ h1' h2 rfl (by omega)).2 ⟨rfl, h3⟩
    refine ⟨(hgiven st _ hL).2 ?_, (hother st _ hL).2 ⟨l, N, h1', h2, hj'⟩, by simpa using hp⟩
    have h6 : i * ((N + n - 1) / n) < N := by omega
    have h7 : N ≤ n * ((N + n - 1) / n) := by
      have := Nat.div_add_mod (N + n - 1) n
      have := Nat.mod_lt (N + n - 1) hn0
      omega
    exact Nat.lt_of_mul_lt_mul_right (Nat.lt_of_lt_of_le h6 h7)
  · intro u x hL hi _ hB
    obtain ⟨l, N, h1, h2, h3⟩ := hB
    rw [hff _ l N h1 h2]
    exact (ceil_lt hn0).2 (by omega)

end

end Noarr
