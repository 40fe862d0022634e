import Verif.Alias
import Verif.Inside

/-
Two valid states that address overlapping memory have the same indices: the induction behind C06.
-/

set_option linter.unusedVariables false
set_option linter.unusedSimpArgs false

namespace Noarr

local notation "A" => Arith.ideal

theorem renameDim_mem_snd {ps : List (Dim × Dim)} {n : Dim} (h : n ∈ ps.map Prod.fst) :
    Sig.renameDim ps n ∈ ps.map Prod.snd := by
  induction ps with
  | nil => simp at h
  | cons p ps ih =>
    obtain ⟨a, b⟩ := p
    by_cases ha : n = a
    · simp [Sig.renameDim, ha]
    · have : n ∈ ps.map Prod.fst := by
        simp only [List.map_cons, List.mem_cons, ha, false_or] at h; exact h
      have := ih this
      simp only [Sig.renameDim, ha, if_false, List.map_cons, List.mem_cons]
      first | exact .inr this | (simp [Ne.symm ha]; grind)

theorem from_not_dims {v : View} {N : Dim → Prop} {q : Dim} (hq : q ∉ v.dims) (h : v.from N q) : N q := by
  cases v with
  | rename ps =>
    obtain ⟨n, hn, hor, rfl⟩ := h
    simp only [View.dims, List.mem_append, not_or] at hq
    by_cases hm : n ∈ ps.map Prod.fst
    · exact absurd (renameDim_mem_snd hm) hq.2
    · rw [renameDim_of_not_mem hm]; exact hn
  | _ => simp only [View.from, View.dims] at h hq <;> grind

theorem hard_view {v : View} {s : Struct} {q : Dim} (hq : q ∉ v.dims) (h : s.hard q) :
    (Struct.view v s).hard q := by
  cases v with
  | rename ps =>
    simp only [View.dims, List.mem_append, not_or] at hq
    exact ⟨q, h, .inr hq.2, renameDim_of_not_mem hq.1⟩
  | _ => simp only [Struct.hard, View.hard, View.dims] at hq ⊢ <;> grind

theorem needs_sub' {v : View} {s : Struct} {st u : State} {q : Dim} (hw : (Struct.view v s).wf A)
    (hn : (Struct.view v s).noAlias) (hs : (Struct.view v s).sane A)
    (hu : (v.sem A (s.sem A)).sub st = some u) (hq : q ∉ v.dims)
    (h : ¬ (s.sem A).sig.needs u q) : ¬ ((Struct.view v s).sem A).sig.needs st q := by
  intro h'
  rcases needs_sub hw hn hs hu h' with h1 | h1
  · exact h h1.2
  · exact h (from_not_dims hq h1)

theorem needs_self {v : View} {s : Struct} {st u : State} {d : Dim} (hw : (Struct.view v s).wf A)
    (hn : (Struct.view v s).noAlias) (hs : (Struct.view v s).sane A)
    (hu : (v.sem A (s.sem A)).sub st = some u) (hd : d ∈ v.dims)
    (hf : ∀ N, v.from N d → N d)
    (h : ¬ (s.sem A).sig.needs u d) : ¬ ((Struct.view v s).sem A).sig.needs st d := by
  intro h'
  rcases needs_sub hw hn hs hu h' with h1 | h1
  · exact h1.1 hd
  · exact h (hf _ h1)

theorem agree_sub {v : View} {s : Struct} {st st' u u' : State} (hw : (Struct.view v s).wf A)
    (hn : (Struct.view v s).noAlias) (hs : (Struct.view v s).sane A) (ht : (Struct.view v s).tame)
    (hu : (v.sem A (s.sem A)).sub st = some u) (hu' : (v.sem A (s.sem A)).sub st' = some u')
    (h : Agree (.view v s) st st') : Agree s u u' := by
  intro q hq hx hx'
  by_cases hd : q ∈ v.dims
  · have self : (∀ N, v.from N q → N q) → (Struct.view v s).hard q → st (.idx q) = st' (.idx q) :=
      fun hf hh => h q hh (needs_self hw hn hs hu hd hf hx) (needs_self hw hn hs hu' hd hf hx')
    cases v with
    | bcast d => exact absurd hn.2 id
    | join a b d => exact absurd hn.2 id
    | setLength d l => simp [View.dims] at hd
    | reorder ds => simp [View.dims] at hd
    | hoist d => simp [View.dims] at hd
    | fix d i =>
      simp only [View.dims, List.mem_singleton] at hd
      cases hu; cases hu'; subst hd; simp [State.set]
    | shift d a =>
      simp only [View.dims, List.mem_singleton] at hd
      subst hd
      have := self (fun N h => h.2) hq
      cases hu; cases hu'; simp [State.mapAt, this]
    | slice d a m =>
      simp only [View.dims, List.mem_singleton] at hd
      subst hd
      have := self (fun N h => h.2) hq
      cases hu; cases hu'; simp [State.mapAt, this]
    | span d a m =>
      simp only [View.dims, List.mem_singleton] at hd
      subst hd
      have := self (fun N h => h.2) hq
      cases hu; cases hu'; simp [State.mapAt, this]
    | step d a m =>
      simp only [View.dims, List.mem_singleton] at hd
      subst hd
      have := self (fun N h => h.2) hq
      cases hu; cases hu'; simp [State.mapAt, this]
    | reverse d =>
      simp only [View.dims, List.mem_singleton] at hd
      subst hd
      exact absurd hq hs.2.1
    | rename ps =>
      cases hu; cases hu'
      rw [renameState_idx, renameState_idx]
      split
      · next hc =>
        have hnn : ∀ st : State, ¬ (s.sem A).sig.needs (renameState ps st) q →
            ¬ ((Struct.view (.rename ps) s).sem A).sig.needs st (Sig.renameDim ps q) := by
          intro st hx h'
          rcases needs_sub (u := renameState ps st) hw hn hs rfl h' with h1 | ⟨n, hn', hor, he⟩
          · have h2 := h1.1
            simp only [View.dims, List.mem_append, not_or] at h2
            by_cases hm : q ∈ ps.map Prod.fst
            · exact h2.2 (renameDim_mem_snd hm)
            · rw [renameDim_of_not_mem hm] at h1; exact hx h1.2
          · have e1 := renameDim_swap ht.2.1 ht.2.2 n (by grind)
            have e2 := renameDim_swap ht.2.1 ht.2.2 q (by grind)
            rw [he, e2] at e1
            subst e1; exact hx hn'
        exact h _ ⟨q, hq, hc, rfl⟩ (hnn _ hx) (hnn _ hx')
      · rfl
    | intoBlocks d maj min =>
      have hne : q ≠ d := by rintro rfl; exact ht.2.1.1 hq
      simp only [View.dims, List.mem_cons, List.not_mem_nil, or_false] at hd
      rw [ibSub_idx hu hne, ibSub_idx hu' hne]
      simp only [blocksClean, State.removeAll]; grind
    | intoBlocksDyn d maj min pres =>
      have hne : q ≠ d := by rintro rfl; exact ht.2.1.1 hq
      simp only [View.dims, List.mem_cons, List.not_mem_nil, or_false] at hd
      rw [ibdSub_idx hu hne, ibdSub_idx hu' hne]
      simp only [dynClean, State.removeAll]; grind
    | intoBlocksStat d border maj min nl =>
      have hne : q ≠ d := by rintro rfl; exact ht.2.1.1 hq
      simp only [View.dims, List.mem_cons, List.not_mem_nil, or_false] at hd
      rw [ibsSub_idx hu hne, ibsSub_idx hu' hne]
      simp only [statClean, State.removeAll]; grind
    | mergeBlocks maj min d =>
      simp only [View.dims, List.mem_cons, List.not_mem_nil, or_false] at hd
      rcases hd with rfl | rfl | rfl
      · exact absurd hq ht.2.1.1
      · exact absurd hq ht.2.2.1
      · exact absurd hq hs.2.2
    | mergeZ sl gl ds d =>
      simp only [View.dims, List.mem_cons] at hd
      rcases hd with rfl | hd
      · exact absurd hq hs.2
      · exact absurd hq (ht.2 q hd).1
  · rw [sub_idx hd hu, sub_idx hd hu']
    exact h q (hard_view hd hq) (needs_sub' hw hn hs hu hd hx) (needs_sub' hw hn hs hu' hd hx')

theorem map_some_lit {o : Option Val} {f : Val → Val} {i : Val} (h : o.map f = some i)
    (hf : ∀ k, ∃ k', f (.lit k) = .lit k') (ho : ∀ i, o = some i → ∃ k, i = .lit k) : ∃ k, i = .lit k := by
  cases o with
  | none => simp at h
  | some x =>
    obtain ⟨k, rfl⟩ := ho x rfl
    obtain ⟨k', hk⟩ := hf k
    simp only [Option.map_some, Option.some.injEq] at h
    exact ⟨k', by rw [← h, hk]⟩

theorem const_sub {v : View} {s : Struct} {st u : State}
    (hn : (Struct.view v s).noAlias) (hs : (Struct.view v s).sane A) (ht : (Struct.view v s).tame)
    (hex : v.exact s) (hu : (v.sem A (s.sem A)).sub st = some u)
    (h : ConstIdx (.view v s) st) : ConstIdx s u := by
  intro q hq i hi
  by_cases hd : q ∈ v.dims
  · cases v with
    | bcast d => exact absurd hn.2 id
    | join a b d => exact absurd hn.2 id
    | setLength d l => simp [View.dims] at hd
    | reorder ds => simp [View.dims] at hd
    | hoist d => simp [View.dims] at hd
    | fix d j =>
      simp only [View.dims, List.mem_singleton] at hd
      cases hu; subst hd
      simp only [State.set, if_true, Option.some.injEq] at hi
      subst hi; exact hex hq
    | shift d a =>
      simp only [View.dims, List.mem_singleton] at hd
      cases hu; subst hd
      obtain ⟨k, rfl⟩ := hex hq
      simp only [State.mapAt, if_true, reduceCtorEq, if_false] at hi
      exact map_some_lit hi (fun k => ⟨_, rfl⟩) (h q hq)
    | slice d a m =>
      simp only [View.dims, List.mem_singleton] at hd
      cases hu; subst hd
      obtain ⟨k, rfl⟩ := hex hq
      simp only [State.mapAt, if_true, reduceCtorEq, if_false] at hi
      exact map_some_lit hi (fun k => ⟨_, rfl⟩) (h q hq)
    | span d a m =>
      simp only [View.dims, List.mem_singleton] at hd
      cases hu; subst hd
      obtain ⟨k, rfl⟩ := hex hq
      simp only [State.mapAt, if_true, reduceCtorEq, if_false] at hi
      exact map_some_lit hi (fun k => ⟨_, rfl⟩) (h q hq)
    | step d a m =>
      simp only [View.dims, List.mem_singleton] at hd
      cases hu; subst hd
      obtain ⟨x, y, rfl, rfl⟩ := hex.1 hq
      simp only [State.mapAt, if_true, reduceCtorEq, if_false] at hi
      exact map_some_lit hi (fun k => ⟨_, rfl⟩) (h q hq)
    | reverse d =>
      simp only [View.dims, List.mem_singleton] at hd
      subst hd
      exact absurd hq hs.2.1
    | rename ps =>
      cases hu
      rw [renameState_idx] at hi
      split at hi
      · next hc => exact h _ ⟨q, hq, hc, rfl⟩ i hi
      · simp at hi
    | intoBlocks d maj min =>
      have hne : q ≠ d := by rintro rfl; exact ht.2.1.1 hq
      simp only [View.dims, List.mem_cons, List.not_mem_nil, or_false] at hd
      rw [ibSub_idx hu hne] at hi
      simp only [blocksClean, State.removeAll] at hi; grind
    | intoBlocksDyn d maj min pres =>
      have hne : q ≠ d := by rintro rfl; exact ht.2.1.1 hq
      simp only [View.dims, List.mem_cons, List.not_mem_nil, or_false] at hd
      rw [ibdSub_idx hu hne] at hi
      simp only [dynClean, State.removeAll] at hi; grind
    | intoBlocksStat d border maj min nl =>
      have hne : q ≠ d := by rintro rfl; exact ht.2.1.1 hq
      simp only [View.dims, List.mem_cons, List.not_mem_nil, or_false] at hd
      rw [ibsSub_idx hu hne] at hi
      simp only [statClean, State.removeAll] at hi; grind
    | mergeBlocks maj min d =>
      simp only [View.dims, List.mem_cons, List.not_mem_nil, or_false] at hd
      rcases hd with rfl | rfl | rfl
      · exact absurd hq ht.2.1.1
      · exact absurd hq ht.2.2.1
      · exact absurd hq hs.2.2
    | mergeZ sl gl ds d =>
      simp only [View.dims, List.mem_cons] at hd
      rcases hd with rfl | hd
      · exact absurd hq hs.2
      · exact absurd hq (ht.2 q hd).1
  · rw [sub_idx hd hu] at hi
    exact h q (hard_view hd hq) i hi

/-- Sizes of a list of structures. -/
theorem sizeAcc_det {st st' : State} (h : SameLens st st') {l : List Struct}
    (hr : ∀ s ∈ l, s.rigid A st) {start x y : Val}
    (hx : sizeAcc A st (l.map (·.sem A)) start = some x)
    (hy : sizeAcc A st' (l.map (·.sem A)) start = some y) : x = y := by
  induction l generalizing start with
  | nil => simp [sizeAcc] at hx hy; rw [← hx, ← hy]
  | cons s l ih =>
    simp only [List.map_cons, sizeAcc, bind, Option.bind_eq_some_iff] at hx hy
    obtain ⟨a, ha, b, hb, he⟩ := hx
    obtain ⟨a', ha', b', hb', he'⟩ := hy
    cases Struct.size_det A s (hr s (by simp)) h hb hb'
    cases Struct.align_det A s ha ha'
    exact ih (fun s hs => hr s (by simp [hs])) he he'

/-- A later field begins after the end of an earlier one. -/
theorem field_order {st st' : State} (h : SameLens st st') {n : Nat} {fs : Fin n → Struct} {k k' : Nat}
    (hk : k < n) (hkk : k < k') (hr : ∀ i, (fs i).rigid A st) {before before' : Val} {b' : Nat}
    (hb : sizeAcc A st ((List.ofFn fun i => (fs i).sem A).take k) (.lit 0) = some before)
    (hb' : sizeAcc A st' ((List.ofFn fun i => (fs i).sem A).take k') (.lit 0) = some before')
    (hbn : before'.Num b') {sz : Val} (hsz : ((fs ⟨k, hk⟩).sem A).size st = some sz) :
    ∃ b z, before.Num b ∧ sz.Num z ∧ b + z ≤ b' := by
  have hmap : (List.ofFn fun i => (fs i).sem A) = (List.ofFn fs).map (·.sem A) := by
    rw [List.map_ofFn]; rfl
  have hsplit : (List.ofFn fun i => (fs i).sem A).take k' =
      (List.ofFn fun i => (fs i).sem A).take k ++ (fs ⟨k, hk⟩).sem A ::
        ((List.ofFn fun i => (fs i).sem A).drop (k + 1)).take (k' - (k + 1)) := by
    have h2 : (List.ofFn fun i => (fs i).sem A)[k]'(by simpa using hk) = (fs ⟨k, hk⟩).sem A := by simp
    have h3 : k' = k + (1 + (k' - (k + 1))) := by omega
    conv => lhs; rw [h3, List.take_add]
    rw [← List.getElem_cons_drop (by simpa using hk), h2, Nat.add_comm 1, List.take_succ_cons]
  rw [hsplit, sizeAcc_append] at hb'
  simp only [Option.bind_eq_some_iff, sizeAcc, bind] at hb'
  obtain ⟨w, hw, al, hal, sz', hsz', hb'⟩ := hb'
  obtain ⟨m, hm, hle⟩ := sizeAcc_mono hb' hbn
  obtain ⟨x, y, hx, hy, rfl⟩ := Val.nat?_add.1 hm
  obtain ⟨a, ha, h0, hxe, h1, h2⟩ := round_up hx
  rw [hmap, ← List.map_take] at hb hw
  have := sizeAcc_det h (l := (List.ofFn fs).take k) (fun s hs => by
    obtain ⟨i, rfl⟩ := List.mem_ofFn.1 (List.mem_of_mem_take hs); exact hr i) hb hw
  subst this
  cases Struct.size_det A _ (hr _) h hsz hsz'
  exact ⟨a, y, ha, hy, by omega⟩

/-- What is assumed about each of the two states. -/
structure Ok (s : Struct) (st : State) : Prop where
  valid : ValidR A s st
  pre : s.Pre A st
  rigid : s.rigid A st
  const : ConstIdx s st

theorem SameNum.eq_of_const {a b : Option Val} (h : SameNum a b)
    (ha : ∀ i, a = some i → ∃ k, i = .lit k) (hb : ∀ i, b = some i → ∃ k, i = .lit k) : a = b := by
  obtain ⟨i, j, n, rfl, rfl, h1, h2⟩ := h
  obtain ⟨k, rfl⟩ := ha i rfl
  obtain ⟨l, rfl⟩ := hb j rfl
  simp only [Val.Num, Val.nat?, Option.some.injEq] at h1 h2
  rw [h1, h2]

/-- The element that `s` has in the state `st`, if it starts at `start`: bytes `k` to `k + e`. -/
structure Elem (s : Struct) (st : State) (a : Nat) (k e : Nat) : Prop where
  loc : ∃ start o, start.Num a ∧ (s.sem A).off st start = some o ∧ o.Num k
  elem : (s.sem A).elem st = some e
  size : ∃ v N, (s.sem A).size st = some v ∧ v.Num N

theorem Elem.inside {s : Struct} {st : State} {a k e : Nat} (h : Elem s st a k e) (ht : s.tame)
    (hs : s.sane A) (ho : Ok s st) {v : Val} (hv : (s.sem A).size st = some v) :
    ∃ N, v.Num N ∧ a ≤ k ∧ k + e ≤ a + N := by
  obtain ⟨⟨start, o, ha, hoff, hk⟩, he, v', N, hv', hN⟩ := h
  rw [hv] at hv'
  obtain rfl := Option.some.inj hv'
  obtain ⟨k', e', h1, h2, h3, h4⟩ := s.inside ht hs ho.valid ho.pre hv hN ha hoff
  rw [he] at h2
  obtain rfl := Option.some.inj h2
  have := Val.Num.eq hk h1
  subst this
  exact ⟨N, hN, h3, h4⟩

theorem Ok.field {t : Dim} {n : Nat} {fs : Fin n → Struct} {st : State} {k : Nat} (hk : k < n)
    (hs : (Struct.tuple t n fs).sane A) (hc : constIdx (st (.idx t)) = some k)
    (h : Ok (.tuple t n fs) st) : Ok (fs ⟨k, hk⟩) (st.remove (.idx t)) := by
  refine ⟨validR_field hk hs hc h.valid, h.pre _, h.rigid _, ?_⟩
  intro q hq i hi
  simp only [State.remove] at hi
  split at hi
  · simp at hi
  · exact h.const q (.inr ⟨_, hq⟩) i hi

theorem Ok.vector {d : Dim} {s : Struct} {st : State}
    (h : Ok (.vector d s) st) : Ok s (st.removeAll [.idx d, .len d]) := by
  refine ⟨validR_vector h.valid, h.pre, h.rigid, ?_⟩
  intro q hq i hi
  simp only [State.removeAll] at hi
  split at hi
  · simp at hi
  · next hc => exact h.const q ⟨by rintro rfl; simp at hc, hq⟩ i hi

theorem constIdx_eq {o : Option Val} {k : Nat} (h : constIdx o = some k) : o = some (.lit k) := by
  cases o with
  | none => simp [constIdx] at h
  | some v => cases v <;> simp [constIdx] at h; rw [h]

/-- The element of a tuple is the element of the selected field. -/
theorem Elem.field {t : Dim} {n : Nat} {fs : Fin n → Struct} {st : State} {a k e : Nat}
    (h : Elem (.tuple t n fs) st a k e) : ∃ (j : Nat) (hj : j < n) (before : Val) (b : Nat),
      st (.idx t) = some (.lit j) ∧
      sizeAcc A (st.remove (.idx t)) ((List.ofFn fun i => (fs i).sem A).take j) (.lit 0) = some before ∧
      before.Num b ∧ Elem (fs ⟨j, hj⟩) (st.remove (.idx t)) (b + a) k e := by
  obtain ⟨⟨start, o, ha, ho, hk⟩, he, v, N, hsz, hN⟩ := h
  simp only [Struct.sem, tupleSem, bind, Option.bind_eq_some_iff] at ho hsz he
  obtain ⟨j, hj, S, hS, before, hb, ho⟩ := ho
  rw [hj] at hS he
  simp only [Option.some.injEq, exists_eq_left'] at hS he
  by_cases hjn : j < n
  · simp only [hjn, ↓reduceDIte, Option.some.injEq] at hS he
    subst hS
    simp only [exists_eq_left'] at he
    obtain ⟨sz, b, z, hz, hbn, hzn, hle⟩ := tuple_field hjn hsz hN hb
    exact ⟨j, hjn, before, b, constIdx_eq hj, hb, hbn,
      ⟨⟨_, o, Val.num_add hbn ha, ho, hk⟩, he, sz, z, hz, hzn⟩⟩
  · simp [hjn] at hS

/-- The element of a vector is the element of the `i`-th item. -/
theorem Elem.item {d : Dim} {s : Struct} {st : State} {a k e : Nat}
    (h : Elem (.vector d s) st a k e) (hV : ValidR A (.vector d s) st) :
    ∃ (i sz : Val) (x Z : Nat), st (.idx d) = some i ∧ i.Num x ∧
      (s.sem A).size (st.removeAll [.idx d, .len d]) = some sz ∧ sz.Num Z ∧
      Elem s (st.removeAll [.idx d, .len d]) (x * Z + a) k e := by
  obtain ⟨⟨start, o, ha, ho, hk⟩, he, v, N, hsz, hN⟩ := h
  simp only [Struct.sem, vectorSem, bind, Option.bind_eq_some_iff, Option.some.injEq] at ho hsz he
  obtain ⟨l, hl, sz, hsz, rfl⟩ := hsz
  obtain ⟨i, hi, l', hl', ho⟩ := ho
  rw [hl] at hl'
  obtain rfl := Option.some.inj hl'
  obtain ⟨L, Z, hL, hZ, rfl⟩ := Val.nat?_mul.1 hN
  have hidx : LtVal i l := by
    refine hV d i l (fun h => h.1 rfl) hi ?_
    have e1 : (st.remove (.idx d)) (.len d) = st (.len d) := by state_val
    have e2 : (st.remove (.idx d)) (.idx d) = none := by state_val
    simp [Struct.sem, vectorSem, State.has, e1, e2, hl, guardTrue]
  obtain ⟨x, y, hx, hy, hlt⟩ := hidx
  have := Val.Num.eq hL hy
  subst this
  refine ⟨i, sz, x, Z, hi, hx, hsz, hZ, ⟨?_, he, sz, Z, hsz, hZ⟩⟩
  cases l with
  | bad f => simp [Val.nat?] at hL
  | dyn m =>
    simp only [hsz, Option.some.injEq, exists_eq_left'] at ho
    exact ⟨_, o, Val.num_add (Val.num_mul hx hZ) ha, ho, hk⟩
  | lit m =>
    by_cases h1 : m = 1
    · subst h1
      simp only [Val.nat?, Option.some.injEq] at hL
      subst hL
      have : x = 0 := by omega
      subst this
      exact ⟨start, o, by simpa using ha, ho, hk⟩
    · have : ∃ sz, (s.sem .ideal).size (st.removeAll [.idx d, .len d]) = some sz ∧
          (s.sem .ideal).off (st.removeAll [.idx d, .len d]) ((i.mul .ideal sz).add .ideal start) = some o := by
        simpa [h1, Option.bind_eq_some_iff] using ho
      obtain ⟨sz', hsz', ho⟩ := this
      rw [hsz] at hsz'
      obtain rfl := Option.some.inj hsz'
      exact ⟨_, o, Val.num_add (Val.num_mul hx hZ) ha, ho, hk⟩

/-- Overlapping elements have the same indices. -/
theorem Struct.overlap (s : Struct) {st st' : State} {a k e k' e' : Nat} (hw : s.wf A) (hn : s.noAlias)
    (ht : s.tame) (hs : s.sane A) (hex : s.exact) (hl : SameLens st st') (ho : Ok s st) (ho' : Ok s st')
    (hag : Agree s st st') (he : Elem s st a k e) (he' : Elem s st' a k' e')
    (h1 : k < k' + e') (h2 : k' < k + e) :
    (∀ q, (s.sem A).sig.needs st q → SameNum (st (.idx q)) (st' (.idx q))) ∧
    (∀ q, (s.sem A).sig.needs st' q → SameNum (st (.idx q)) (st' (.idx q))) := by
  induction s generalizing st st' a with
  | scalar sz al => exact ⟨fun q h => absurd h id, fun q h => absurd h id⟩
  | tuple t n fs ih =>
    obtain ⟨j, hj, b, B, hi, hb, hbn, hE⟩ := he.field
    obtain ⟨j', hj', b', B', hi', hb', hbn', hE'⟩ := he'.field
    have hl2 : SameLens (st.remove (.idx t)) (st'.remove (.idx t)) := by
      intro e; simp [State.remove, hl e]
    have hl2' : SameLens (st'.remove (.idx t)) (st.remove (.idx t)) := fun e => (hl2 e).symm
    have hok := ho.field hj hs (by rw [hi]; rfl)
    have hok' := ho'.field hj' hs (by rw [hi']; rfl)
    have hjj : j = j' := by
      rcases Nat.lt_trichotomy j j' with h | h | h
      · obtain ⟨sz, N, hsz, hN⟩ := hE.size
        obtain ⟨N1, hN1, h3, h4⟩ := hE.inside (ht _) (hs.1 _) hok hsz
        obtain ⟨sz', N', hsz', hN'⟩ := hE'.size
        obtain ⟨N1', hN1', h3', h4'⟩ := hE'.inside (ht _) (hs.1 _) hok' hsz'
        obtain ⟨x, z, hx, hz, hle⟩ := field_order hl2 hj h ho.rigid hb hb' hbn' hsz
        have := Val.Num.eq hx hbn
        have := Val.Num.eq hz hN1
        omega
      · exact h
      · obtain ⟨sz, N, hsz, hN⟩ := hE.size
        obtain ⟨N1, hN1, h3, h4⟩ := hE.inside (ht _) (hs.1 _) hok hsz
        obtain ⟨sz', N', hsz', hN'⟩ := hE'.size
        obtain ⟨N1', hN1', h3', h4'⟩ := hE'.inside (ht _) (hs.1 _) hok' hsz'
        obtain ⟨x, z, hx, hz, hle⟩ := field_order hl2' hj' h ho'.rigid hb' hb hbn hsz'
        have := Val.Num.eq hx hbn'
        have := Val.Num.eq hz hN1'
        omega
    subst hjj
    have hmap : (List.ofFn fun i => (fs i).sem A) = (List.ofFn fs).map (·.sem A) := by
      rw [List.map_ofFn]; rfl
    rw [hmap, ← List.map_take] at hb hb'
    have hbb := sizeAcc_det hl2 (l := (List.ofFn fs).take j) (fun s hs => by
      obtain ⟨i, rfl⟩ := List.mem_ofFn.1 (List.mem_of_mem_take hs); exact ho.rigid i) hb hb'
    subst hbb
    have := Val.Num.eq hbn hbn'
    subst this
    -- the signature
    have hwt := hw.1
    have hna : ¬ ∃ i, ((fs i).sem A).sig.anyAccept t = true := by
      intro h
      simp only [Struct.sem, tupleSem] at hwt
      rw [if_pos h] at hwt
      simp [Sig.wf] at hwt
    have hneeds : ∀ st : State, st (.idx t) = some (.lit j) → ∀ q,
        ((Struct.tuple t n fs).sem A).sig.needs st q ↔
          q = t ∨ ((fs ⟨j, hj⟩).sem A).sig.needs (st.remove (.idx t)) q := by
      intro st hi q
      simp only [Struct.sem, tupleSem]
      rw [if_neg hna]
      simp only [Sig.needs, hi, Sig.litIdx_lit hj, Option.some.injEq, exists_eq_left']
      rw [Sig.needs_congr (S := ((fs ⟨j, hj⟩).sem A).sig) (st' := st.remove (.idx t))]
      intro x hacc
      have : x ≠ t := by rintro rfl; exact hna ⟨_, hacc⟩
      simp [State.remove, this]
    have := ih ⟨j, hj⟩ (hw.2 _) (hn _) (ht _) (hs.1 _) (hex _) hl2 hok hok' (by
      intro q hq hx hx'
      by_cases hqt : q = t
      · subst hqt; simp [State.remove]
      · have := hag q (.inr ⟨_, hq⟩) (by rw [hneeds st hi]; simp [hqt, hx])
          (by rw [hneeds st' hi']; simp [hqt, hx'])
        simpa [State.remove, hqt] using this) hE hE'
    have fin : ∀ q, (q = t ∨ SameNum ((st.remove (.idx t)) (.idx q)) ((st'.remove (.idx t)) (.idx q))) →
        SameNum (st (.idx q)) (st' (.idx q)) := by
      intro q h
      by_cases hqt : q = t
      · subst hqt; exact ⟨_, _, j, hi, hi', rfl, rfl⟩
      · rcases h with h | h
        · exact absurd h hqt
        · simpa [State.remove, hqt] using h
    constructor
    · intro q hq
      rw [hneeds st hi] at hq
      exact fin q (hq.imp id (this.1 q))
    · intro q hq
      rw [hneeds st' hi'] at hq
      exact fin q (hq.imp id (this.2 q))
  | vector d s ih =>
    obtain ⟨i, sz, x, Z, hi, hx, hsz, hZ, hE⟩ := he.item ho.valid
    obtain ⟨i', sz', x', Z', hi', hx', hsz', hZ', hE'⟩ := he'.item ho'.valid
    have hl2 : SameLens (st.removeAll [.idx d, .len d]) (st'.removeAll [.idx d, .len d]) := by
      intro e; simp [State.removeAll, hl e]
    cases Struct.size_det A s ho.rigid hl2 hsz hsz'
    have := Val.Num.eq hZ hZ'
    subst this
    obtain ⟨N, hN, h3, h4⟩ := hE.inside ht hs ho.vector hsz
    obtain ⟨N', hN', h3', h4'⟩ := hE'.inside ht hs ho'.vector hsz'
    have e1 := Val.Num.eq hN hZ
    have e2 := Val.Num.eq hN' hZ
    subst e1; subst e2
    have hxx : x = x' := by
      rcases Nat.lt_trichotomy x x' with h | h | h
      · have := Nat.mul_le_mul_right N' h
        rw [Nat.succ_mul] at this
        omega
      · exact h
      · have := Nat.mul_le_mul_right N' h
        rw [Nat.succ_mul] at this
        omega
    subst hxx
    have hwt := hw.1
    have hna : ¬ (s.sem A).sig.anyAccept d = true := by
      intro h
      simp only [Struct.sem, vectorSem, h, if_true] at hwt
      simp [Sig.wf] at hwt
    have hneeds : ∀ (st : State) q, ((Struct.vector d s).sem A).sig.needs st q ↔
          q = d ∨ (s.sem A).sig.needs (st.removeAll [.idx d, .len d]) q := by
      intro st q
      simp only [Struct.sem, vectorSem]
      rw [if_neg hna]
      simp only [Sig.needs]
      rw [Sig.needs_congr (S := (s.sem A).sig) (st' := st.removeAll [.idx d, .len d])]
      intro x hacc
      have : x ≠ d := by rintro rfl; exact hna hacc
      simp [State.removeAll, this]
    have := ih hw.2 hn ht hs hex hl2 ho.vector ho'.vector (by
      intro q hq hx hx'
      by_cases hqt : q = d
      · subst hqt; simp [State.removeAll]
      · have := hag q ⟨hqt, hq⟩ (by rw [hneeds st]; simp [hqt, hx])
          (by rw [hneeds st']; simp [hqt, hx'])
        simpa [State.removeAll, hqt] using this) hE hE'
    have fin : ∀ q, (q = d ∨ SameNum ((st.removeAll [.idx d, .len d]) (.idx q))
          ((st'.removeAll [.idx d, .len d]) (.idx q))) →
        SameNum (st (.idx q)) (st' (.idx q)) := by
      intro q h
      by_cases hqt : q = d
      · subst hqt; exact ⟨_, _, x, hi, hi', hx, hx'⟩
      · rcases h with h | h
        · exact absurd h hqt
        · simpa [State.removeAll, hqt] using h
    constructor
    · intro q hq
      rw [hneeds st] at hq
      exact fin q (hq.imp id (this.1 q))
    · intro q hq
      rw [hneeds st'] at hq
      exact fin q (hq.imp id (this.2 q))
  | union n ss ih =>
    obtain ⟨v, N, hv, -⟩ := he.size
    simp [Struct.sem, unionSem] at hv
  | view v s ih =>
    have parts : ∀ {st : State} {k e : Nat}, Elem (.view v s) st a k e → ∃ u,
        (v.sem A (s.sem A)).offOk st = true ∧ (v.sem A (s.sem A)).sub st = some u ∧ Elem s u a k e := by
      intro st k e h
      obtain ⟨⟨start, o, ha, ho, hk⟩, he, w, N, hsz, hN⟩ := h
      simp only [Struct.sem, ViewSem.toSem] at ho hsz he
      split at ho
      · next hoff =>
        split at hsz
        · simp only [Option.bind_eq_some_iff] at ho hsz he
          obtain ⟨u, hu, ho⟩ := ho
          obtain ⟨u', hu', hsz⟩ := hsz
          obtain ⟨u'', hu'', he⟩ := he
          rw [hu] at hu' hu''
          obtain rfl := Option.some.inj hu'
          obtain rfl := Option.some.inj hu''
          exact ⟨u, hoff, hu, ⟨⟨start, o, ha, ho, hk⟩, he, w, N, hsz, hN⟩⟩
        · simp at hsz
      · simp at ho
    obtain ⟨u, hoff, hu, hE⟩ := parts he
    obtain ⟨u', hoff', hu', hE'⟩ := parts he'
    have hp := ho.pre u hu
    have hp' := ho'.pre u' hu'
    have hok : Ok s u := ⟨validR_sub ht hs ho.valid hp.1 hoff hu, hp.2, ho.rigid.2 u hu,
      const_sub hn hs ht hex.2 hu ho.const⟩
    have hok' : Ok s u' := ⟨validR_sub ht hs ho'.valid hp'.1 hoff' hu', hp'.2, ho'.rigid.2 u' hu',
      const_sub hn hs ht hex.2 hu' ho'.const⟩
    have hag2 := agree_sub hw hn hs ht hu hu' hag
    have hIH := ih hw.2 hn.1 ht.1 hs.1 hex.1 (sameLens_sub hl ho.rigid hu hu') hok hok' hag2 hE hE'
    have Hd : ∀ e, s.hard e → u (.idx e) = u' (.idx e) := by
      intro e he
      by_cases h3 : (s.sem A).sig.needs u e
      · exact (hIH.1 e h3).eq_of_const (hok.const e he) (hok'.const e he)
      · by_cases h4 : (s.sem A).sig.needs u' e
        · exact (hIH.2 e h4).eq_of_const (hok.const e he) (hok'.const e he)
        · exact hag2 e he h3 h4
    constructor
    · intro q hq
      rcases needs_sub hw hn hs hu hq with h3 | h3
      · have := hIH.1 q h3.2
        rwa [sub_idx h3.1 hu, sub_idx h3.1 hu'] at this
      · exact decode hw hs ht hex.2 hl ho.valid ho'.valid hp.1 hp'.1 hoff hoff' hu hu' Hd hIH.1 h3
    · intro q hq
      rcases needs_sub hw hn hs hu' hq with h3 | h3
      · have := hIH.2 q h3.2
        rwa [sub_idx h3.1 hu, sub_idx h3.1 hu'] at this
      · exact decode hw hs ht hex.2 hl ho.valid ho'.valid hp.1 hp'.1 hoff hoff' hu hu' Hd hIH.2 h3

end Noarr
