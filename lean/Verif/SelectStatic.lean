import Verif.SelectInto

/-
Which elements `into_blocks_static` addresses.
-/

set_option linter.unusedVariables false
set_option linter.unusedSimpArgs false

namespace Noarr

theorem Sig.entry_at_fn {S : Sig} {st : State} {q : Dim} (h : S.entry st q none) :
    ∃ l r, At st S (.fn q l r) := by
  induction S with
  | scalar s => exact absurd h id
  | void => exact absurd h id
  | ill => exact absurd h id
  | fn d l r ih =>
    rcases h with ⟨rfl, -⟩ | h
    · exact ⟨l, r, .refl _⟩
    · obtain ⟨l, r, h⟩ := ih h
      exact ⟨l, r, .fn h⟩
  | dep d n rs ih =>
    rcases h with ⟨-, h⟩ | ⟨k, hk, h⟩
    · cases h
    · obtain ⟨l, r, h⟩ := ih k h
      exact ⟨l, r, .dep hk h⟩

/-- the number of fields of the dimension that tells the border from the body -/
def statKind (border : Dim) (q : Dim) : Option Nat := if q = border then some 2 else none

theorem ibs_entry {A : Arith} {S : Sem} {d border maj min : Dim} {nl : Val} (hu : S.sig.uniq)
    (hd : ¬ S.sig.hasDep d)
    (hw : (intoBlocksStatSem A d border maj min nl S).sig.wf = true) :
    (border ≠ maj ∧ border ≠ min ∧ maj ≠ min) ∧
    (∀ q ∈ [border, maj, min], q ≠ d → S.sig.anyAccept q = false) ∧
    (∀ st, S.sig.entry st d none → (intoBlocksStatSem A d border maj min nl S).sig.entry st border (some 2)) ∧
    ∀ st, (S.sig.entry st d none → ∃ k, k < 2 ∧ st (.idx border) = some (.lit k)) →
      ∀ q o, (intoBlocksStatSem A d border maj min nl S).sig.entry st q o ↔
        (q ≠ d ∧ S.sig.entry st q o) ∨
          (q ∈ [border, maj, min] ∧ o = statKind border q ∧ S.sig.entry st d none) := by
  simp only [intoBlocksStatSem] at hw ⊢
  split at hw
  · simp [Sig.wf] at hw
  next hc =>
  have hc' := hc
  simp only [not_or, not_and, Bool.not_eq_true] at hc
  obtain ⟨h1, h1', h1'', h2, h3, h4⟩ := hc
  simp only [hc', if_false]
  refine ⟨⟨h1, h1', h1''⟩, by simp; grind, fun st he => ?_, fun st hl q o => ?_⟩
  · obtain ⟨l, r, hN⟩ := Sig.entry_at_fn he
    have hN' := hN.replace (R := Sig.intoBlocksStatRepl border maj min nl) (d := d) hu (.inl ⟨d, l, r, rfl, by simp⟩)
      (fun _ _ _ => rfl)
    refine hN'.entry ?_
    obtain ⟨l1, l2, he⟩ := Sig.intoBlocksStatRepl_fn (hN'.wf hw)
    rw [he]
    exact .inl ⟨rfl, rfl⟩
  rw [Sig.entry_replace (New := fun q o => q ∈ [border, maj, min] ∧ o = statKind border q) (u := st)
    (fun _ _ _ => rfl) hu hw]
  · have : (∃ o', S.sig.entry st d o') ↔ S.sig.entry st d none :=
      ⟨fun ⟨o', h⟩ => by cases o' with
        | none => exact h
        | some n => exact absurd h (nodep_entry hd st n), fun h => ⟨_, h⟩⟩
    simp only [this, List.mem_cons, List.not_mem_nil, or_false, and_assoc]
  · intro N hN hNu hs hw' q o
    obtain ⟨e, l, r, rfl, he⟩ := Sig.starts_fn hs (Sig.intoBlocksStatRepl border maj min nl) (fun _ _ _ => rfl) hw'
    simp at he; subst he
    obtain ⟨k, hk, hbk⟩ := hl (hN.entry (.inl ⟨rfl, rfl⟩))
    obtain ⟨l1, l2, he⟩ := Sig.intoBlocksStatRepl_fn hw'
    rw [he]
    simp only [Sig.entry, hbk, Sig.litIdx_lit hk, Option.some.injEq, statKind]
    have hq : ∀ o, ¬ r.entry st e o := fun o h => by
      have := Sig.entry_accept h; rw [hNu.1] at this; simp at this
    constructor
    · rintro (h | ⟨k, rfl, h⟩)
      · grind
      · split at h <;> simp only [Sig.entry] at h <;> grind
    · rintro (⟨hm, rfl⟩ | h)
      · simp only [List.mem_cons, List.not_mem_nil, or_false] at hm
        by_cases hb : q = border
        · exact .inl ⟨hb, by simp [hb]⟩
        · refine .inr ⟨_, rfl, ?_⟩
          rw [if_neg hb]
          split
          · rcases hm with h | h | h
            · exact absurd h hb
            · exact .inl ⟨h, rfl⟩
            · exact .inr (.inl ⟨h, rfl⟩)
          · rcases hm with h | h | h
            · exact absurd h hb
            · exact .inl ⟨h, rfl⟩
            · exact .inr (.inl ⟨h, rfl⟩)
      · refine .inr ⟨_, rfl, ?_⟩
        have h' : r.entry st q o := by grind
        split <;> exact .inr (.inr h')

theorem statClean_bare {d border maj min : Dim} {st : State} {L : Lens} (hL : ∀ q, st (.len q) = L q)
    (h1 : L border = none) (h2 : L maj = none) (h3 : L min = none) :
    statClean d border maj min st = st.bare [d, border, maj, min] (L.remove [d, border, maj, min]) := by
  refine State.ext (fun q => ?_) (fun q => ?_)
  · by_cases h : q ∈ [d, border, maj, min]
    · have := h
      simp only [List.mem_cons, List.not_mem_nil, or_false] at this
      simp only [statClean, State.removeAll, State.bare, h, if_true]
      simp; grind
    · have := h
      simp only [List.mem_cons, List.not_mem_nil, or_false, not_or] at this
      simp [statClean, State.removeAll, State.bare, this]
  · by_cases h : q ∈ [d, border, maj, min]
    · have := h
      simp only [List.mem_cons, List.not_mem_nil, or_false] at this
      simp only [statClean, State.removeAll, State.bare, Lens.remove, h, if_true]
      simp; rw [hL]; grind
    · have := h
      simp only [List.mem_cons, List.not_mem_nil, or_false, not_or] at this
      simp [statClean, State.removeAll, State.bare, Lens.remove, this, hL]

theorem statClean_remove {d border maj min : Dim} {st : State} {x : Dim} (hx : x = border ∨ x = maj ∨ x = min) :
    statClean d border maj min (st.remove (.idx x)) = statClean d border maj min st := by
  unfold statClean
  rcases hx with rfl | rfl | rfl <;> state_eq

theorem Val.num_mod_iff {l k : Val} {n m : Nat} (hk : k.Num n) (h0 : 0 < n) :
    (l.mod .ideal k).Num m ↔ ∃ N, l.Num N ∧ m = N % n := by
  unfold Val.Num at *
  rw [Val.nat?_mod]
  constructor
  · rintro ⟨x, y, h1, h2, h3, h4⟩
    rw [hk] at h2; cases h2
    exact ⟨x, h1, h4⟩
  · rintro ⟨N, h1, h2⟩
    exact ⟨N, n, h1, hk, .inl (by omega), h2⟩

theorem Val.add_dyn {a : Val} {x : Nat} (h : a.Num x) (k : Nat) : a.add .ideal (.dyn k) = .dyn (x + k) := by
  rcases h.cases with rfl | rfl <;> rfl

section
variable {s : Struct} {d border maj min : Dim} {L : Lens} {nl : Val} {n : Nat}

theorem select_ibs
    (ht : (Struct.view (.intoBlocksStat d border maj min nl) s).tame) (hu : (s.sem .ideal).sig.uniq)
    (hm : s.unmixed .ideal)
    (hw : ((Struct.view (.intoBlocksStat d border maj min nl) s).sem .ideal).sig.wf = true)
    (hd : ¬ (s.sem .ideal).sig.hasDep d)
    (hLb : L border = none) (hLM : L maj = none) (hLm : L min = none) (hn : nl.Num n) (hn0 : 0 < n) :
    Selects .ideal s (.intoBlocksStat d border maj min nl) L (L.remove [d, border, maj, min]) fun _ => True := by
  obtain ⟨⟨hbm, hbn, hne⟩, hacc, hent1, hent⟩ := ibs_entry (A := .ideal) hu hd hw
  have hnd : ∀ q ∈ [d, border, maj, min], ¬ (s.sem .ideal).sig.hasDep q := by
    intro q hq hh
    by_cases h : q = d
    · subst h; exact hd hh
    · rcases List.mem_cons.1 hq with h' | h'
      · exact h h'
      · have := Sig.hasDep_accept hh
        rw [hacc q h' h] at this; cases this
  have hcong : ∀ (a b : State) q o, (∀ q, q ∉ [d, border, maj, min] → a (.idx q) = b (.idx q)) →
      ((s.sem .ideal).sig.entry a q o ↔ (s.sem .ideal).sig.entry b q o) := fun a b q o hab =>
    Sig.entry_nodep_congr fun e he => hab e (fun h => hnd e h he)
  have hcl : ∀ (st : State), (∀ q, st (.len q) = L q) →
      blocksStatClean d border maj min st = some (statClean d border maj min st) := by
    intro st hL; simp [blocksStatClean_eq, State.has, hL, hLb, hLM, hLm]
  have hsub : ∀ st : State, (∀ q, st (.len q) = L q) →
      (st (.idx maj) = none ∨ st (.idx min) = none) →
      intoBlocksStatSub .ideal d border maj min nl (s.sem .ideal) st = some (statClean d border maj min st) := by
    intro st hL hi
    simp only [intoBlocksStatSub, hcl st hL, bind, Option.bind_some]
    split
    · rcases hi with hi | hi
      · simp only [hi]
      · simp only [hi]
        cases st (.idx maj) <;> rfl
    · rfl
  have hsub0 : ∀ (st : State) i j, (∀ q, st (.len q) = L q) → st (.idx border) = some (.lit 0) →
      st (.idx maj) = some (.dyn i) → st (.idx min) = some (.dyn j) →
      intoBlocksStatSub .ideal d border maj min nl (s.sem .ideal) st =
        some ((statClean d border maj min st).set (.idx d) (.dyn (i * n + j))) := by
    intro st i j hL hb hi hj
    simp only [intoBlocksStatSub, hcl st hL, bind, Option.bind_some, State.has, hb, Option.isSome_some, if_true, hi, hj,
      isBody, Val.dyn_mul hn hn0, Val.dyn_add (show (Val.dyn j).Num j from rfl)]
  have hsub1 : ∀ (st : State) i j l N, (∀ q, st (.len q) = L q) → st (.idx border) = some (.lit 1) →
      st (.idx maj) = some (.dyn i) → st (.idx min) = some (.dyn j) →
      (s.sem .ideal).len d (statClean d border maj min st) = some l → l.Num N →
      intoBlocksStatSub .ideal d border maj min nl (s.sem .ideal) st =
        some ((statClean d border maj min st).set (.idx d) (.dyn (N / n * n + j))) := by
    intro st i j l N hL hb hi hj hl hN
    simp only [intoBlocksStatSub, hcl st hL, bind, Option.bind_some, State.has, hb, Option.isSome_some, if_true, hi, hj,
      isBody, hl, Bool.false_eq_true, if_false]
    rw [Val.add_dyn (x := N / n * n)]
    exact Val.nat?_mul.2 ⟨_, _, (Val.num_div_iff hn hn0).2 ⟨N, hN, rfl⟩, hn, rfl⟩
  have below_div : ∀ (o : Option Val) k, (∃ l m, (o.bind fun l => some (l.div .ideal nl)) = some l ∧ l.Num m ∧ k < m) ↔
      ∃ l N, o = some l ∧ l.Num N ∧ k < N / n := by
    intro o k
    constructor
    · rintro ⟨l, m, h1, h2, h3⟩
      obtain ⟨l0, h4, h5⟩ := Option.bind_eq_some_iff.1 h1
      cases h5
      obtain ⟨N, hN, rfl⟩ := (Val.num_div_iff hn hn0).1 h2
      exact ⟨l0, N, h4, hN, h3⟩
    · rintro ⟨l, N, h1, h2, h3⟩
      exact ⟨_, _, by rw [h1]; rfl, (Val.num_div_iff hn hn0).2 ⟨N, h2, rfl⟩, h3⟩
  have below_mod : ∀ (o : Option Val) k, (∃ l m, (o.bind fun l => some (l.mod .ideal nl)) = some l ∧ l.Num m ∧ k < m) ↔
      ∃ l N, o = some l ∧ l.Num N ∧ k < N % n := by
    intro o k
    constructor
    · rintro ⟨l, m, h1, h2, h3⟩
      obtain ⟨l0, h4, h5⟩ := Option.bind_eq_some_iff.1 h1
      cases h5
      obtain ⟨N, hN, rfl⟩ := (Val.num_mod_iff hn hn0).1 h2
      exact ⟨l0, N, h4, hN, h3⟩
    · rintro ⟨l, N, h1, h2, h3⟩
      exact ⟨_, _, by rw [h1]; rfl, (Val.num_mod_iff hn hn0).2 ⟨N, h2, rfl⟩, h3⟩
  have hmaj0 : ∀ (st : State) k, (∀ q, st (.len q) = L q) → st (.idx border) = some (.lit 0) →
      (Below ((Struct.view (.intoBlocksStat d border maj min nl) s).sem .ideal) maj (st.remove (.idx maj)) k ↔
        ∃ l N, (s.sem .ideal).len d (statClean d border maj min st) = some l ∧ l.Num N ∧ k < N / n) := by
    intro st k hL hb
    have e1 : (st.remove (.idx maj)) (.idx maj) = none := by state_val
    have e2 : ∀ y, (st.remove (.idx maj)) (.len y) = L y := by intro y; rw [← hL]; state_val
    have e3 : (st.remove (.idx maj)) (.idx border) = some (.lit 0) := by rw [← hb]; state_val
    have hs := hsub (st.remove (.idx maj)) (fun q => e2 q) (.inl e1)
    rw [statClean_remove (by simp)] at hs
    unfold Below
    rw [← below_div]
    simp only [Struct.sem, ViewSem.toSem, View.sem, intoBlocksStatSem, State.has, e1, Option.isSome_none, Bool.false_eq_true,
      if_false, if_true, isBody, e3, hs, bind, Option.bind_some, Ne.symm hbm, hne]
    rw [guard_bind]
  have hmaj1 : ∀ (st : State) k, (∀ q, st (.len q) = L q) → st (.idx border) = some (.lit 1) →
      (Below ((Struct.view (.intoBlocksStat d border maj min nl) s).sem .ideal) maj (st.remove (.idx maj)) k ↔ k = 0) := by
    intro st k hL hb
    have e1 : (st.remove (.idx maj)) (.idx maj) = none := by state_val
    have e2 : ∀ y, (st.remove (.idx maj)) (.len y) = L y := by intro y; rw [← hL]; state_val
    have e3 : (st.remove (.idx maj)) (.idx border) = some (.lit 1) := by rw [← hb]; state_val
    unfold Below
    simp only [Struct.sem, ViewSem.toSem, View.sem, intoBlocksStatSem, State.has, e1, Option.isSome_none, Bool.false_eq_true,
      if_false, if_true, isBody, e3, bind, Option.bind_some, Ne.symm hbm, hne, guardLen]
    constructor
    · rintro ⟨l, m, h1, h2, h3⟩; cases h1; cases h2; omega
    · rintro rfl; exact ⟨_, 1, rfl, rfl, by omega⟩
  have hmin0 : ∀ (st : State) k, (∀ q, st (.len q) = L q) → st (.idx border) = some (.lit 0) →
      (Below ((Struct.view (.intoBlocksStat d border maj min nl) s).sem .ideal) min (st.remove (.idx min)) k ↔ k < n) := by
    intro st k hL hb
    have e1 : (st.remove (.idx min)) (.idx min) = none := by state_val
    have e2 : ∀ y, (st.remove (.idx min)) (.len y) = L y := by intro y; rw [← hL]; state_val
    have e3 : (st.remove (.idx min)) (.idx border) = some (.lit 0) := by rw [← hb]; state_val
    unfold Below
    simp only [Struct.sem, ViewSem.toSem, View.sem, intoBlocksStatSem, State.has, e1, Option.isSome_none, Bool.false_eq_true,
      if_false, if_true, isBody, e3, bind, Option.bind_some, Ne.symm hbn, Ne.symm hne, guardLen]
    constructor
    · rintro ⟨l, m, h1, h2, h3⟩
      cases h1
      rw [Val.Num.eq h2 hn] at h3; exact h3
    · intro h; exact ⟨_, _, rfl, hn, h⟩
  have hmin1 : ∀ (st : State) k, (∀ q, st (.len q) = L q) → st (.idx border) = some (.lit 1) →
      (Below ((Struct.view (.intoBlocksStat d border maj min nl) s).sem .ideal) min (st.remove (.idx min)) k ↔
        ∃ l N, (s.sem .ideal).len d (statClean d border maj min st) = some l ∧ l.Num N ∧ k < N % n) := by
    intro st k hL hb
    have e1 : (st.remove (.idx min)) (.idx min) = none := by state_val
    have e2 : ∀ y, (st.remove (.idx min)) (.len y) = L y := by intro y; rw [← hL]; state_val
    have e3 : (st.remove (.idx min)) (.idx border) = some (.lit 1) := by rw [← hb]; state_val
    have hs := hsub (st.remove (.idx min)) (fun q => e2 q) (.inr e1)
    rw [statClean_remove (by simp)] at hs
    unfold Below
    rw [← below_mod]
    simp only [Struct.sem, ViewSem.toSem, View.sem, intoBlocksStatSem, State.has, e1, Option.isSome_none, Bool.false_eq_true,
      if_false, if_true, isBody, e3, hs, bind, Option.bind_some, Ne.symm hbn, Ne.symm hne]
    rw [guard_bind]
  -- what the indices are
  have hok : ∀ st, (∀ q, st (.len q) = L q) →
      (∀ q ∈ [border, maj, min],
        EntryOk ((Struct.view (.intoBlocksStat d border maj min nl) s).sem .ideal) st q (statKind border q)) →
      ∃ b i j l N, st (.idx border) = some (.lit b) ∧ st (.idx maj) = some (.dyn i) ∧ st (.idx min) = some (.dyn j) ∧
        (s.sem .ideal).len d (statClean d border maj min st) = some l ∧ l.Num N ∧
        ((b = 0 ∧ i < N / n ∧ j < n) ∨ (b = 1 ∧ i = 0 ∧ j < N % n)) := by
    intro st hL h
    obtain ⟨b, hb, hbi⟩ : EntryOk ((Struct.view (.intoBlocksStat d border maj min nl) s).sem .ideal) st border (some 2) := by
      have := h border (by simp); simpa [statKind] using this
    obtain ⟨i, li, mi, hi, h1⟩ : EntryOk ((Struct.view (.intoBlocksStat d border maj min nl) s).sem .ideal) st maj none := by
      have := h maj (by simp); simpa [statKind, Ne.symm hbm] using this
    obtain ⟨j, lj, mj, hj, h2⟩ : EntryOk ((Struct.view (.intoBlocksStat d border maj min nl) s).sem .ideal) st min none := by
      have := h min (by simp); simpa [statKind, Ne.symm hbn] using this
    have hB1 : Below _ maj _ i := ⟨_, _, h1⟩
    have hB2 : Below _ min _ j := ⟨_, _, h2⟩
    have : b = 0 ∨ b = 1 := by omega
    rcases this with rfl | rfl
    · obtain ⟨l, N, h3, h4, h5⟩ := (hmaj0 st i hL hbi).1 hB1
      exact ⟨0, i, j, l, N, hbi, hi, hj, h3, h4, .inl ⟨rfl, h5, (hmin0 st j hL hbi).1 hB2⟩⟩
    · obtain ⟨l, N, h3, h4, h5⟩ := (hmin1 st j hL hbi).1 hB2
      exact ⟨1, i, j, l, N, hbi, hi, hj, h3, h4, .inr ⟨rfl, (hmaj1 st i hL hbi).1 hB1, h5⟩⟩
  have hNm : ∀ N, N / n * n + N % n = N := fun N => by rw [Nat.mul_comm]; exact Nat.div_add_mod N n
  have hdims : ∀ q, q ∈ (View.intoBlocksStat d border maj min nl).dims ↔ q = d ∨ q ∈ [border, maj, min] := by
    intro q; simp [View.dims]
  refine select_swap (old := [d]) (new := [border, maj, min]) (κ := statKind border)
    (E := fun st => (s.sem .ideal).sig.entry st d none) (fun q hq => (hdims q).2 (.inr hq))
    (fun a b h => hcong a b _ _ h) ?_ (fun a b q o h _ => hcong a b q o h) ?_ ?_ ?_ ?_ ?_ ?_
    (fun st u q h1 h2 h3 => len_remove ht hm trivial h1 h2 h3)
  · intro u q o hq
    simp only [List.mem_singleton]
    constructor
    · intro h
      by_cases hqd : q = d
      · subst hqd
        cases o with
        | some n => exact absurd h (nodep_entry hd u n)
        | none => exact ⟨rfl, rfl, h⟩
      · rcases (hdims q).1 hq with h' | h'
        · exact absurd h' hqd
        · have := Sig.entry_accept h
          rw [hacc q h' hqd] at this; cases this
    · rintro ⟨rfl, rfl, h⟩; exact h
  · intro st q k he hq hk
    have : q = border ∧ k = 2 := by
      by_cases h : q = border <;> simp [statKind, h] at hk
      exact ⟨h, hk.symm⟩
    obtain ⟨rfl, rfl⟩ := this
    exact hent1 st he
  · intro st hl q o
    have hl' : (s.sem .ideal).sig.entry st d none → ∃ k, k < 2 ∧ st (.idx border) = some (.lit k) :=
      fun he => hl he border (by simp) 2 (by simp [statKind])
    rw [show ((Struct.view (.intoBlocksStat d border maj min nl) s).sem .ideal).sig.entry st q o ↔ _ from hent st hl' q o]
    constructor
    · intro hq
      constructor
      · rintro (⟨h1, h2⟩ | h)
        · rcases (hdims q).1 hq with h' | h'
          · exact absurd h' h1
          · have := Sig.entry_accept h2
            rw [hacc q h' h1] at this; cases this
        · exact h
      · exact .inr
    · intro hq
      have h1 : q ≠ d := fun h => hq ((hdims q).2 (.inl h))
      have h2 : q ∉ [border, maj, min] := fun h => hq ((hdims q).2 (.inr h))
      simp only [h1, h2, ne_eq, not_false_eq_true, true_and, false_and, or_false]
  · intro st hL hi _
    refine ⟨_, hsub st hL (.inl (hi maj (by simp [View.dims]))), ?_, ?_⟩
    · intro q; rw [statClean_bare hL hLb hLM hLm]; rfl
    · intro q hq
      rw [statClean_bare hL hLb hLM hLm]
      rw [show (View.intoBlocksStat d border maj min nl).dims = [d, border, maj, min] from rfl] at hq
      simp only [State.bare, hq, if_true]
  · intro st hL he hi hok'
    obtain ⟨b, i, j, l, N, hb, hi', hj, hl, hN, hcase⟩ := hok st hL hok'
    have key : ∃ x, intoBlocksStatSub .ideal d border maj min nl (s.sem .ideal) st =
        some ((statClean d border maj min st).set (.idx d) (.dyn x)) ∧ x < N := by
      rcases hcase with ⟨rfl, h1, h2⟩ | ⟨rfl, h1, h2⟩
      · refine ⟨_, hsub0 st i j hL hb hi' hj, ?_⟩
        have := Nat.div_mul_le_self N n
        have : (i + 1) * n ≤ N / n * n := Nat.mul_le_mul_right _ h1
        rw [Nat.succ_mul] at this
        omega
      · refine ⟨_, hsub1 st i j l N hL hb hi' hj hl hN, ?_⟩
        have := hNm N
        omega
    obtain ⟨x, hx, hlt⟩ := key
    refine ⟨_, hx, ?_, ?_, ?_⟩
    · intro q; rw [statClean_bare hL hLb hLM hLm]; simp [State.set, State.bare]
    · intro q hq hqd
      simp only [List.mem_singleton] at hqd
      rw [statClean_bare hL hLb hLM hLm]
      rw [show (View.intoBlocksStat d border maj min nl).dims = [d, border, maj, min] from rfl] at hq
      simp only [State.set, State.bare, hq, if_true, Tag.idx.injEq, hqd, if_false]
    · intro q hq
      simp only [List.mem_singleton] at hq; subst hq
      refine ⟨x, l, N, State.set_self _ _ _, ?_, hN, hlt⟩
      rw [State.remove_set_self, remove_self (by rw [statClean_bare hL hLb hLM hLm]; simp [State.bare])]
      exact hl
  · intro u hL he hi hok'
    obtain ⟨x, l, N, hx, hl, hN, hlt⟩ := hok' d (by simp) (by simp [View.dims])
    have hdd : d ∈ [d, border, maj, min] := by simp
    have hur : u.remove (.idx d) = u.bare [d, border, maj, min] (L.remove [d, border, maj, min]) := by
      refine State.ext (fun q => ?_) (fun q => by simp [State.remove, State.bare, hL])
      by_cases hq : q = d
      · subst hq; simp [State.remove, State.bare, hdd]
      · by_cases hq' : q ∈ [d, border, maj, min]
        · have := hi q hq' (by simpa using hq)
          simp only [State.remove, State.bare, hq', if_true, Tag.idx.injEq, hq, if_false, this]
        · simp only [State.remove, State.bare, hq', if_false, Tag.idx.injEq, hq]
    rw [hur] at hl
    let st (b i : Nat) : State := fun t => match t with
      | .idx q => if q = border then some (.lit b) else if q = maj then some (.dyn i) else
          if q = min then some (.dyn (x % n)) else if q = d then none else u (.idx q)
      | .len q => L q
    have hb : ∀ b i, statClean d border maj min (st b i) = u.remove (.idx d) := by
      intro b i
      rw [hur, statClean_bare (st := st b i) (fun _ => rfl) hLb hLM hLm]
      refine State.bare_congr fun q hq => ?_
      simp only [List.mem_cons, List.not_mem_nil, or_false, not_or] at hq
      simp only [st, hq, if_false]
    have s1 : ∀ b i, (st b i) (.idx border) = some (.lit b) := by intros; simp [st]
    have s2 : ∀ b i, (st b i) (.idx maj) = some (.dyn i) := by intros; simp [st, Ne.symm hbm]
    have s3 : ∀ b i, (st b i) (.idx min) = some (.dyn (x % n)) := by intros; simp [st, Ne.symm hbn, Ne.symm hne]
    have s4 : ∀ b i q, q ∈ [d, border, maj, min] → q ∉ [border, maj, min] → (st b i) (.idx q) = none := by
      intro b i q hq hq'
      simp only [List.mem_cons, List.not_mem_nil, or_false, not_or] at hq hq'
      simp only [st, hq', if_false]
      simp [hq'] at hq; simp [hq]
    have hfin : ∀ b i, b < 2 → intoBlocksStatSub .ideal d border maj min nl (s.sem .ideal) (st b i) = some u →
        Below ((Struct.view (.intoBlocksStat d border maj min nl) s).sem .ideal) maj ((st b i).remove (.idx maj)) i →
        Below ((Struct.view (.intoBlocksStat d border maj min nl) s).sem .ideal) min ((st b i).remove (.idx min)) (x % n) →
        ∃ st, ((View.intoBlocksStat d border maj min nl).sem .ideal (s.sem .ideal)).sub st = some u ∧
          (∀ q, st (.len q) = L q) ∧
          (∀ q ∈ (View.intoBlocksStat d border maj min nl).dims, q ∉ [border, maj, min] → st (.idx q) = none) ∧
          ∀ q ∈ [border, maj, min],
            EntryOk ((Struct.view (.intoBlocksStat d border maj min nl) s).sem .ideal) st q (statKind border q) := by
      rintro b i hb2 hs ⟨l1, m1, h1⟩ ⟨l2, m2, h2⟩
      refine ⟨st b i, hs, fun _ => rfl, fun q hq hn => s4 b i q hq hn, fun q hq => ?_⟩
      simp only [List.mem_cons, List.not_mem_nil, or_false] at hq
      rcases hq with rfl | rfl | rfl
      · simp only [statKind, if_true]; exact ⟨b, hb2, s1 b i⟩
      · simp only [statKind, Ne.symm hbm, if_false]; exact ⟨i, l1, m1, s2 b i, h1⟩
      · simp only [statKind, Ne.symm hbn, if_false]; exact ⟨_, l2, m2, s3 b i, h2⟩
    have hmod := Nat.mod_lt x hn0
    by_cases hbody : x / n < N / n
    · refine hfin 0 (x / n) (by omega) ?_ ?_ ?_
      · rw [hsub0 (st 0 (x / n)) _ _ (fun _ => rfl) (s1 _ _) (s2 _ _) (s3 _ _), hb, hNm x, set_remove_self hx]
      · exact (hmaj0 _ _ (fun _ => rfl) (s1 _ _)).2 ⟨l, N, by rw [hb, hur]; exact hl, hN, hbody⟩
      · exact (hmin0 _ _ (fun _ => rfl) (s1 _ _)).2 hmod
    · have hq : x / n = N / n :=
        Nat.le_antisymm (Nat.div_le_div_right (Nat.le_of_lt hlt)) (Nat.le_of_not_lt hbody)
      have h1 := hNm x
      have h2 := hNm N
      rw [hq] at h1
      refine hfin 1 0 (by omega) ?_ ?_ ?_
      · rw [hsub1 (st 1 0) _ _ l N (fun _ => rfl) (s1 _ _) (s2 _ _) (s3 _ _) (by rw [hb, hur]; exact hl) hN, hb, h1,
          set_remove_self hx]
      · exact (hmaj1 _ _ (fun _ => rfl) (s1 _ _)).2 rfl
      · exact (hmin1 _ _ (fun _ => rfl) (s1 _ _)).2 ⟨l, N, by rw [hb, hur]; exact hl, hN, by omega⟩
  · intro st st' u hL hL' he he' hag hok1 hok2 hs hs'
    obtain ⟨b, i, j, l, N, hb, hi', hj, hl, hN, hcase⟩ := hok st hL hok1
    obtain ⟨b', i', j', l', N', hb', hi'', hj', hl', hN', hcase'⟩ := hok st' hL' hok2
    have hc : statClean d border maj min st = statClean d border maj min st' := by
      rw [statClean_bare hL hLb hLM hLm, statClean_bare hL' hLb hLM hLm]
      exact State.bare_congr hag
    rw [hc] at hl; obtain rfl := Option.some.inj (hl.symm.trans hl')
    have := Val.Num.eq hN hN'; subst this
    have hs : intoBlocksStatSub .ideal d border maj min nl (s.sem .ideal) st = some u := hs
    have hs' : intoBlocksStatSub .ideal d border maj min nl (s.sem .ideal) st' = some u := hs'
    have get : ∀ {c : State} {x : Nat}, some (c.set (.idx d) (.dyn x)) = some u → u (.idx d) = some (.dyn x) := by
      intro c x h; cases h; exact State.set_self _ _ _
    have hbnd : ∀ i j, i < N / n → j < n → i * n + j < N / n * n := by
      intro i j h1 h2
      have : (i + 1) * n ≤ N / n * n := Nat.mul_le_mul_right _ h1
      rw [Nat.succ_mul] at this
      omega
    have : b = b' ∧ i = i' ∧ j = j' := by
      rcases hcase with ⟨rfl, h1, h2⟩ | ⟨rfl, h1, h2⟩ <;> rcases hcase' with ⟨rfl, h1', h2'⟩ | ⟨rfl, h1', h2'⟩
      · rw [hsub0 st i j hL hb hi' hj] at hs
        rw [hsub0 st' i' j' hL' hb' hi'' hj'] at hs'
        have e := (get hs).symm.trans (get hs')
        simp only [Option.some.injEq, Val.dyn.injEq] at e
        obtain ⟨rfl, rfl⟩ := block_inj h2 h2' e
        simp
      · rw [hsub0 st i j hL hb hi' hj] at hs
        rw [hsub1 st' i' j' l N hL' hb' hi'' hj' hl' hN'] at hs'
        have e := (get hs).symm.trans (get hs')
        simp only [Option.some.injEq, Val.dyn.injEq] at e
        have := hbnd i j h1 h2
        omega
      · rw [hsub1 st i j l N hL hb hi' hj (hc ▸ hl') hN] at hs
        rw [hsub0 st' i' j' hL' hb' hi'' hj'] at hs'
        have e := (get hs).symm.trans (get hs')
        simp only [Option.some.injEq, Val.dyn.injEq] at e
        have := hbnd i' j' h1' h2'
        omega
      · rw [hsub1 st i j l N hL hb hi' hj (hc ▸ hl') hN] at hs
        rw [hsub1 st' i' j' l N hL' hb' hi'' hj' hl' hN'] at hs'
        have e := (get hs).symm.trans (get hs')
        simp only [Option.some.injEq, Val.dyn.injEq] at e
        exact ⟨rfl, by omega, by omega⟩
    obtain ⟨rfl, rfl, rfl⟩ := this
    intro q hq
    simp only [List.mem_cons, List.not_mem_nil, or_false] at hq
    rcases hq with rfl | rfl | rfl
    · rw [hb, hb']
    · rw [hi', hi'']
    · rw [hj, hj']

end

end Noarr
