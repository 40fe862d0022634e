import Verif.SelectStatic

/-
Which elements `merge_blocks` addresses.
-/

set_option linter.unusedVariables false
set_option linter.unusedSimpArgs false

namespace Noarr

namespace Sig

theorem replace_congr {S : Sig} {R : Sig → Sig} {ds ds' : List Dim}
    (h : ∀ q, S.anyAccept q = true → (q ∈ ds ↔ q ∈ ds')) : S.replace R ds = S.replace R ds' := by
  induction S with
  | scalar s => rfl
  | void => rfl
  | ill => rfl
  | fn d l r ih =>
    simp only [replace, h d (by simp [anyAccept])]
    rw [ih (fun q hq => h q (by simp [anyAccept, hq]))]
  | dep d n rs ih =>
    simp only [replace, h d (by simp [anyAccept])]
    have : (fun i => (rs i).replace R ds) = fun i => (rs i).replace R ds' := by
      funext i
      exact ih i (fun q hq => h q (accept_dep.2 (.inr ⟨i, hq⟩)))
    rw [this]

theorem wf_replace_fn {R : Sig → Sig} {ds : List Dim} {e : Dim} {l : ArgLen} {r : Sig} (he : e ∉ ds)
    (h : ((fn e l r).replace R ds).wf = true) : (r.replace R ds).wf = true := by
  simpa [replace, he, wf] using h

/-- the signature of the merged structure on a path with both dimensions or none -/
theorem mb_replace {S : Sig} {maj min d : Dim} {st : State} (hne : maj ≠ min) (hu : S.uniq)
    (hM : ¬ S.hasDep maj) (hm : ¬ S.hasDep min)
    (hw : (S.replace (mergeBlocksRepl maj min d) [maj, min]).wf = true)
    (htog : S.entry st maj none ↔ S.entry st min none) (q : Dim) (o : Option Nat) :
    (S.replace (mergeBlocksRepl maj min d) [maj, min]).entry st q o ↔
      (q ≠ maj ∧ q ≠ min ∧ S.entry st q o) ∨ (q = d ∧ o = none ∧ S.entry st maj none) := by
  induction S with
  | scalar s => simp [replace, entry]
  | void => simp [replace, entry]
  | ill => simp [replace, entry]
  | fn e l r ih =>
    by_cases he : e ∈ [maj, min]
    · have he' : e = maj ∨ e = min := by simpa using he
      simp only [replace, he, if_true] at hw ⊢
      simp only [mergeBlocksRepl] at hw ⊢
      obtain ⟨e', hee', hne', hx⟩ : ∃ e', (e' = maj ∨ e' = min) ∧ e ≠ e' ∧
          ∀ x, (x = e ∨ x = e') ↔ (x = maj ∨ x = min) := by
        rcases he' with rfl | rfl
        · exact ⟨min, .inr rfl, hne, fun x => Iff.rfl⟩
        · exact ⟨maj, .inl rfl, Ne.symm hne, fun x => or_comm⟩
      have hcg : r.replace (mergeBlocksInner maj min d e l) [min, maj] =
          r.replace (mergeBlocksInner maj min d e l) [e'] := by
        refine replace_congr fun x hx' => ?_
        have h1 : x ≠ e := by rintro rfl; rw [hu.1] at hx'; cases hx'
        have := hx x
        simp only [List.mem_cons, List.not_mem_nil, or_false]
        grind
      have hr : ∃ o', r.entry st e' o' := by
        have h2 : ∀ x, x = e ∨ x = e' → (fn e l r).entry st x none := by
          intro x hx'
          have h1 : (fn e l r).entry st e none := .inl ⟨rfl, rfl⟩
          rcases (hx x).1 hx' with rfl | rfl
          · rcases he' with rfl | rfl
            · exact h1
            · exact htog.2 h1
          · rcases he' with rfl | rfl
            · exact htog.1 h1
            · exact h1
        rcases h2 e' (.inr rfl) with ⟨h, -⟩ | h
        · exact absurd h.symm hne'
        · exact ⟨_, h⟩
      rw [hcg] at hw ⊢
      rw [entry_replace (New := fun q o => q = d ∧ o = none) (u := st) (fun _ _ _ => rfl) hu.2 hw]
      · have hre : ∀ o, ¬ r.entry st e o := fun o h => by
          have := entry_accept h; rw [hu.1] at this; cases this
        have hmaj : (fn e l r).entry st maj none := by
          rcases he' with rfl | rfl
          · exact .inl ⟨rfl, rfl⟩
          · exact htog.2 (.inl ⟨rfl, rfl⟩)
        constructor
        · rintro (⟨h1, h2⟩ | ⟨⟨h1, h2⟩, -⟩)
          · have h3 : q ≠ e := by rintro rfl; exact hre o h2
            have := hx q
            exact .inl ⟨by grind, by grind, .inr h2⟩
          · exact .inr ⟨h1, h2, hmaj⟩
        · rintro (⟨h1, h2, h3⟩ | ⟨h1, h2, -⟩)
          · rcases h3 with ⟨h3, -⟩ | h3
            · have := hx q; grind
            · exact .inl ⟨by have := hx q; grind, h3⟩
          · exact .inr ⟨⟨h1, h2⟩, hr⟩
      · intro N hN hNu hs hw' q o
        obtain ⟨x, lx, rx, rfl, hxe⟩ := starts_fn hs (mergeBlocksInner maj min d e l) (fun _ _ _ => rfl) hw'
        simp at hxe; subst hxe
        have hcond : (e = maj ∧ x = min) ∨ (e = min ∧ x = maj) := by
          have := hx maj; have := hx min; grind
        simp only [mergeBlocksInner, hcond, if_true, entry]
        have hq : ∀ o, ¬ rx.entry st x o := fun o h => by
          have := entry_accept h; rw [hNu.1] at this; simp at this
        grind
    · have hw' := wf_replace_fn he hw
      have he' : e ≠ maj ∧ e ≠ min := by simpa using he
      have h1 : ∀ x o, x = maj ∨ x = min → ((fn e l r).entry st x o ↔ r.entry st x o) := by
        rintro x o hx
        simp only [entry]
        have : x ≠ e := by grind
        simp [this]
      rw [h1 maj none (.inl rfl), h1 min none (.inr rfl)] at htog
      simp only [replace, he, if_false]
      rw [h1 maj none (.inl rfl)]
      simp only [entry]
      rw [ih hu.2 hM hm hw' htog]
      grind
  | dep e n rs ih =>
    have he' : e ≠ maj ∧ e ≠ min := ⟨fun h => hM (.inl h.symm), fun h => hm (.inl h.symm)⟩
    have he : e ∉ [maj, min] := by simpa using he'
    simp only [replace, he, if_false] at hw ⊢
    simp only [wf, decide_eq_true_eq] at hw
    cases hk : litIdx n (st (.idx e)) with
    | none =>
      simp only [entry, hk, reduceCtorEq, false_and, exists_false, or_false]
      constructor
      · rintro ⟨rfl, rfl⟩; exact .inl ⟨he'.1, he'.2, rfl, rfl⟩
      · rintro (⟨-, -, h⟩ | ⟨-, -, h, -⟩)
        · exact h
        · exact absurd h.symm he'.1
    | some k =>
      have h1 : ∀ x o, x = maj ∨ x = min → ((dep e n rs).entry st x o ↔ (rs k).entry st x o) := by
        rintro x o hx
        simp only [entry, hk, Option.some.injEq]
        have : x ≠ e := by grind
        simp [this]
      rw [h1 maj none (.inl rfl), h1 min none (.inr rfl)] at htog
      rw [h1 maj none (.inl rfl)]
      simp only [entry, hk, Option.some.injEq, exists_eq_left']
      rw [ih k (hu k).2 (fun h => hM (.inr ⟨k, h⟩)) (fun h => hm (.inr ⟨k, h⟩)) (hw k) htog]
      grind

end Sig

theorem Val.num_mul_iff {a b : Val} {n : Nat} :
    (a.mul .ideal b).Num n ↔ ∃ x y, a.Num x ∧ b.Num y ∧ n = x * y := Val.nat?_mul

section
variable {s : Struct} {d maj min : Dim} {L : Lens}

/-- `merge_blocks` of two dimensions with known lengths. -/
theorem select_mb
    (ht : (Struct.view (.mergeBlocks maj min d) s).tame) (hu : (s.sem .ideal).sig.uniq)
    (hm : s.unmixed .ideal) (hw : ((Struct.view (.mergeBlocks maj min d) s).sem .ideal).sig.wf = true)
    (hdM : ¬ (s.sem .ideal).sig.hasDep maj) (hdm : ¬ (s.sem .ideal).sig.hasDep min)
    (htog : ∀ st, (s.sem .ideal).sig.needs st maj ↔ (s.sem .ideal).sig.needs st min)
    (hLd : L d = none)
    (hkM : KnownLength (s.sem .ideal) (L.remove [maj, min, d]) maj)
    (hkm : KnownLength (s.sem .ideal) (L.remove [maj, min, d]) min) :
    Selects .ideal s (.mergeBlocks maj min d) L (L.remove [maj, min, d]) fun _ => True := by
  obtain ⟨pM, pm⟩ := ht.2
  have ih := Struct.length_dep .ideal s ht.1
  have hw' : (mergeBlocksSem .ideal maj min d (s.sem .ideal)).sig.wf = true := hw
  have hnone : ∀ {x st o}, ¬ (s.sem .ideal).sig.hasDep x → (s.sem .ideal).sig.entry st x o → o = none := by
    intro x st o hx h
    cases o with
    | none => rfl
    | some n => exact absurd h (nodep_entry hx st n)
  have htog' : ∀ st, (s.sem .ideal).sig.entry st maj none ↔ (s.sem .ideal).sig.entry st min none := by
    intro st
    have := htog st
    rw [Sig.needs_iff_entry, Sig.needs_iff_entry] at this
    constructor
    · intro h
      obtain ⟨o, ho⟩ := this.1 ⟨_, h⟩
      rw [hnone hdm ho] at ho; exact ho
    · intro h
      obtain ⟨o, ho⟩ := this.2 ⟨_, h⟩
      rw [hnone hdM ho] at ho; exact ho
  simp only [mergeBlocksSem] at hw'
  split at hw'
  · simp [Sig.wf] at hw'
  next hc =>
  have hc' := hc
  simp only [not_or, not_and, Bool.not_eq_true] at hc
  obtain ⟨hne, hacc⟩ := hc
  have hent : ∀ st q o, ((Struct.view (.mergeBlocks maj min d) s).sem .ideal).sig.entry st q o ↔
      (q ≠ maj ∧ q ≠ min ∧ (s.sem .ideal).sig.entry st q o) ∨
        (q = d ∧ o = none ∧ (s.sem .ideal).sig.entry st maj none) := by
    intro st q o
    rw [← Sig.mb_replace hne hu hdM hdm hw' (htog' st) q o]
    simp only [Struct.sem, ViewSem.toSem, View.sem, mergeBlocksSem, hc', if_false]
  have hnd : ∀ q ∈ [maj, min, d], ¬ (s.sem .ideal).sig.hasDep q := by
    intro q hq hh
    simp only [List.mem_cons, List.not_mem_nil, or_false] at hq
    by_cases h1 : q = maj
    · subst h1; exact hdM hh
    by_cases h2 : q = min
    · subst h2; exact hdm hh
    have h3 : q = d := by grind
    subst h3
    have := Sig.hasDep_accept hh
    rw [hacc h1 h2] at this; cases this
  have hcong : ∀ (a b : State) q o, (∀ q, q ∉ [maj, min, d] → a (.idx q) = b (.idx q)) →
      ((s.sem .ideal).sig.entry a q o ↔ (s.sem .ideal).sig.entry b q o) := fun a b q o hab =>
    Sig.entry_nodep_congr fun e he => hab e (fun h => hnd e h he)
  have hbare : ∀ st : State, (∀ q, st (.len q) = L q) →
      blocksClean d maj min st = st.bare [maj, min, d] (L.remove [maj, min, d]) := by
    intro st hL
    rw [blocksClean_bare hL]
    refine State.ext (fun q => ?_) (fun q => ?_)
    · simp only [State.bare, List.mem_cons, List.not_mem_nil, or_false]; grind
    · simp only [State.bare, Lens.remove, List.mem_cons, List.not_mem_nil, or_false]; grind
  have hclean : ∀ st : State, blocksClean d maj min (st.remove (.idx d)) = blocksClean d maj min st := by
    intro st; unfold blocksClean; state_eq
  have hcs : ∀ st : State, (∀ q, st (.len q) = L q) →
      (∀ q, blocksClean d maj min st (.len q) = L.remove [maj, min, d] q) ∧
      (∀ q ∈ [maj, min, d], blocksClean d maj min st (.idx q) = none) := by
    intro st hL
    rw [hbare st hL]
    exact ⟨fun q => rfl, fun q hq => by simp only [State.bare, hq, if_true]⟩
  -- without an index
  have hsub0 : ∀ st : State, (∀ q, st (.len q) = L q) → st (.idx d) = none →
      mergeBlocksSub .ideal maj min d (s.sem .ideal) st = some (blocksClean d maj min st) := by
    intro st hL hi
    obtain ⟨c1, c2⟩ := hcs st hL
    have hLd' : st (.len d) = none := by rw [hL, hLd]
    have g1 : ∃ b, (s.sem .ideal).hasLen maj (blocksClean d maj min st) = some b ∧
        (b = true → ∃ l, (s.sem .ideal).len maj (blocksClean d maj min st) = some l) := by
      rcases hkM _ c1 (c2 maj (by simp)) with ⟨ml, h1⟩ | ⟨h1, -⟩
      · exact ⟨true, Struct.hasLen_of_len h1, fun _ => ⟨_, h1⟩⟩
      · exact ⟨false, h1, by simp⟩
    have g2 : ∃ b, (s.sem .ideal).hasLen min (blocksClean d maj min st) = some b ∧
        (b = true → ∃ l, (s.sem .ideal).len min (blocksClean d maj min st) = some l) := by
      rcases hkm _ c1 (c2 min (by simp)) with ⟨ml, h1⟩ | ⟨h1, -⟩
      · exact ⟨true, Struct.hasLen_of_len h1, fun _ => ⟨_, h1⟩⟩
      · exact ⟨false, h1, by simp⟩
    obtain ⟨b1, h1, h1'⟩ := g1
    obtain ⟨b2, h2, h2'⟩ := g2
    simp only [mergeBlocksSub, bind, h1, h2, Option.bind_some, hi, hLd']
    cases b2 with
    | true =>
      obtain ⟨nl, hnl⟩ := h2' rfl
      cases b1 <;> simp [hnl]
    | false =>
      cases b1 with
      | true =>
        obtain ⟨ml, hml⟩ := h1' rfl
        simp [hml]
      | false => simp
  -- the lengths of the parts
  have hlens : ∀ st : State, (∀ q, st (.len q) = L q) → (s.sem .ideal).sig.entry st maj none →
      ∃ ml nl, (s.sem .ideal).len maj (blocksClean d maj min st) = some ml ∧
        (s.sem .ideal).len min (blocksClean d maj min st) = some nl := by
    intro st hL he
    obtain ⟨c1, c2⟩ := hcs st hL
    have he' : (s.sem .ideal).sig.entry (blocksClean d maj min st) maj none := by
      refine (hcong _ _ _ _ fun q hq => ?_).2 he
      rw [hbare st hL]; simp only [State.bare, hq, if_false]
    rcases hkM _ c1 (c2 maj (by simp)) with ⟨ml, h1⟩ | ⟨-, h1⟩
    · rcases hkm _ c1 (c2 min (by simp)) with ⟨nl, h2⟩ | ⟨-, h2⟩
      · exact ⟨ml, nl, h1, h2⟩
      · exact absurd (Sig.needs_iff_entry.2 ⟨_, (htog' _).1 he'⟩) h2
    · exact absurd (Sig.needs_iff_entry.2 ⟨_, he'⟩) h1
  have hsub1 : ∀ (st : State) k ml nl b, (∀ q, st (.len q) = L q) → st (.idx d) = some (.dyn k) →
      (s.sem .ideal).len maj (blocksClean d maj min st) = some ml →
      (s.sem .ideal).len min (blocksClean d maj min st) = some nl → nl.Num b → 0 < b →
      mergeBlocksSub .ideal maj min d (s.sem .ideal) st =
        some (((blocksClean d maj min st).set (.idx maj) (.dyn (k / b))).set (.idx min) (.dyn (k % b))) := by
    intro st k ml nl b hL hi h1 h2 hb hb0
    simp only [mergeBlocksSub, bind, Struct.hasLen_of_len h1, Struct.hasLen_of_len h2, Option.bind_some, h2, if_true, hi,
      Val.dyn_div hb hb0, Val.dyn_mod hb hb0]
  have hlenV : ∀ (st : State) ml nl, (∀ q, st (.len q) = L q) →
      (s.sem .ideal).len maj (blocksClean d maj min st) = some ml →
      (s.sem .ideal).len min (blocksClean d maj min st) = some nl →
      ((Struct.view (.mergeBlocks maj min d) s).sem .ideal).len d (st.remove (.idx d)) = some (ml.mul .ideal nl) := by
    intro st ml nl hL h1 h2
    have e1 : (st.remove (.idx d)) (.idx d) = none := by state_val
    have e2 : ∀ y, (st.remove (.idx d)) (.len y) = L y := by intro y; rw [← hL]; state_val
    have hs := hsub0 (st.remove (.idx d)) e2 e1
    rw [hclean] at hs
    simp only [Struct.sem, ViewSem.toSem, View.sem, mergeBlocksSem, State.has, e1, e2, hLd, Option.isSome_none,
      Bool.false_eq_true, if_false, if_true, hs, bind, Option.bind_some, Struct.hasLen_of_len h1, Struct.hasLen_of_len h2,
      Bool.and_self, guardLen, h1, h2]
  -- lengths with the other index present
  have hdown : ∀ (u : State) x l, (x = maj ∨ x = min) → (∀ q, u (.len q) = L.remove [maj, min, d] q) →
      (d ≠ maj → d ≠ min → u (.idx d) = none) → (s.sem .ideal).len x (u.remove (.idx x)) = some l →
      (s.sem .ideal).len x (u.bare [maj, min, d] (L.remove [maj, min, d])) = some l := by
    intro u x l hx hL hud h
    have px : s.plain x := by rcases hx with rfl | rfl <;> assumption
    refine (ih x _ _ ?_).2 l h
    constructor
    · intro q; simp [State.remove, State.bare, hL]
    · intro e he
      by_cases hex : e ∈ [maj, min, d]
      · simp only [State.bare, hex, if_true]
      · simp only [State.bare, hex, if_false]
        have : e ≠ x := by rintro rfl; exact hex (by rcases hx with rfl | rfl <;> simp)
        simpa [State.remove, this] using he
    · intro _; simp [State.remove]
    · intro e he
      by_cases hex : e ∈ [maj, min, d]
      · simp only [List.mem_cons, List.not_mem_nil, or_false] at hex
        rcases hex with rfl | rfl | rfl
        · exact absurd he pM.1
        · exact absurd he pm.1
        · by_cases h1 : e = maj
          · subst h1; exact absurd he pM.1
          by_cases h2 : e = min
          · subst h2; exact absurd he pm.1
          simp [State.remove, State.bare, hud h1 h2]
      · simp only [State.bare, hex, if_false]
        have : e ≠ x := by rintro rfl; exact hex (by rcases hx with rfl | rfl <;> simp)
        simp [State.remove, this]
    · intro h; exact absurd h px.2.1
    · intro h; exact absurd h px.2.2
  have hup : ∀ (u : State) x, (x = maj ∨ x = min) → (∀ q, u (.len q) = L.remove [maj, min, d] q) →
      (s.sem .ideal).sig.entry u x none →
      ∃ l, (s.sem .ideal).len x (u.remove (.idx x)) = some l := by
    intro u x hx hL he
    have hk : KnownLength (s.sem .ideal) (L.remove [maj, min, d]) x := by rcases hx with rfl | rfl <;> assumption
    have hxm : x ∈ [maj, min, d] := by rcases hx with rfl | rfl <;> simp
    rcases hk (u.remove (.idx x)) (fun q => by rw [← hL]; state_val) (by state_val) with h | ⟨-, h⟩
    · exact h
    · refine absurd (Sig.needs_iff_entry.2 ⟨none, (hcong _ _ _ _ fun q hq => ?_).2 he⟩) h
      have : q ≠ x := by rintro rfl; exact hq hxm
      simp [State.remove, this]
  refine select_swap (old := [maj, min]) (new := [d]) (κ := fun _ => none)
    (E := fun st => (s.sem .ideal).sig.entry st maj none) (by simp [View.dims])
    (fun a b h => hcong a b _ _ h) ?_ (fun a b q o h _ => hcong a b q o h) (fun _ _ _ _ _ h => by cases h) ?_ ?_ ?_ ?_ ?_
    (fun st u q h1 h2 h3 => len_remove ht hm trivial h1 h2 h3)
  · intro u q o hq
    simp only [View.dims, List.mem_cons, List.not_mem_nil, or_false] at hq ⊢
    constructor
    · intro h
      have hq' : q = maj ∨ q = min := by
        by_cases h1 : q = maj
        · exact .inl h1
        by_cases h2 : q = min
        · exact .inr h2
        have h3 : q = d := by grind
        subst h3
        have := Sig.entry_accept h
        rw [hacc h1 h2] at this; cases this
      rcases hq' with rfl | rfl
      · have := hnone hdM h; subst this; exact ⟨.inl rfl, rfl, h⟩
      · have := hnone hdm h; subst this; exact ⟨.inr rfl, rfl, (htog' _).2 h⟩
    · rintro ⟨rfl | rfl, rfl, h⟩
      · exact h
      · exact (htog' _).1 h
  · intro st _ q o
    rw [hent]
    simp only [View.dims, List.mem_cons, List.not_mem_nil, or_false]
    constructor
    · intro hq
      constructor
      · rintro (⟨h1, h2, h3⟩ | h)
        · have h4 : q = d := by grind
          subst h4
          have := Sig.entry_accept h3
          rw [hacc h1 h2] at this; cases this
        · exact h
      · exact .inr
    · intro hq
      simp only [not_or] at hq
      simp [hq]
  · intro st hL hi _
    obtain ⟨c1, c2⟩ := hcs st hL
    exact ⟨_, hsub0 st hL (hi d (by simp [View.dims])), c1, c2⟩
  · intro st hL he hi hok
    obtain ⟨k, l, m, hk, hl, hlm, hlt⟩ := hok d (by simp)
    obtain ⟨ml, nl, h1, h2⟩ := hlens st hL he
    rw [hlenV st ml nl hL h1 h2] at hl
    cases hl
    obtain ⟨a, b, ha, hb, rfl⟩ := Val.num_mul_iff.1 hlm
    have hb0 : 0 < b := by rcases Nat.eq_zero_or_pos b with rfl | h; simp at hlt; exact h
    have hka : k / b < a := (Nat.div_lt_iff_lt_mul hb0).2 hlt
    obtain ⟨c1, c2⟩ := hcs st hL
    have hs := hsub1 st k ml nl b hL hk h1 h2 hb hb0
    generalize hu' : ((blocksClean d maj min st).set (.idx maj) (.dyn (k / b))).set (.idx min) (.dyn (k % b)) = u at hs
    have uL : ∀ q, u (.len q) = L.remove [maj, min, d] q := by
      intro q; rw [← hu', ← c1 q]; simp [State.set]
    have uM : u (.idx maj) = some (.dyn (k / b)) := by rw [← hu']; simp [State.set, hne]
    have um : u (.idx min) = some (.dyn (k % b)) := by rw [← hu']; simp [State.set]
    have uo : ∀ q, q ≠ maj → q ≠ min → u (.idx q) = blocksClean d maj min st (.idx q) := by
      intro q h1 h2; rw [← hu']; simp [State.set, h1, h2]
    have ub : u.bare [maj, min, d] (L.remove [maj, min, d]) = blocksClean d maj min st := by
      rw [hbare st hL]
      refine State.bare_congr fun q hq => ?_
      have hq' := hq
      simp only [List.mem_cons, List.not_mem_nil, or_false, not_or] at hq
      rw [uo q hq.1 hq.2.1, hbare st hL]
      simp only [State.bare, hq', if_false]
    have ue : ∀ q o, (s.sem .ideal).sig.entry u q o ↔ (s.sem .ideal).sig.entry st q o := by
      intro q o
      refine hcong _ _ _ _ fun q hq => ?_
      have hq' := hq
      simp only [List.mem_cons, List.not_mem_nil, or_false, not_or] at hq
      rw [uo q hq.1 hq.2.1, hbare st hL]
      simp only [State.bare, hq', if_false]
    have ud : d ≠ maj → d ≠ min → u (.idx d) = none := by
      intro h1 h2; rw [uo d h1 h2]; exact c2 d (by simp)
    refine ⟨u, hs, uL, ?_, ?_⟩
    · intro q hq hn
      simp only [List.mem_cons, List.not_mem_nil, or_false, not_or] at hn
      rw [uo q hn.1 hn.2]; exact c2 q hq
    · intro q hq
      simp only [List.mem_cons, List.not_mem_nil, or_false] at hq
      rcases hq with rfl | rfl
      · obtain ⟨l', hl'⟩ := hup u q (.inl rfl) uL ((ue _ _).2 he)
        have h3 := hdown u q l' (.inl rfl) uL ud hl'
        rw [ub, h1] at h3
        obtain rfl := Option.some.inj h3
        exact ⟨_, ml, a, uM, hl', ha, hka⟩
      · obtain ⟨l', hl'⟩ := hup u q (.inr rfl) uL ((ue _ _).2 ((htog' _).1 he))
        have h3 := hdown u q l' (.inr rfl) uL ud hl'
        rw [ub, h2] at h3
        obtain rfl := Option.some.inj h3
        exact ⟨_, nl, b, um, hl', hb, Nat.mod_lt _ hb0⟩
  · intro u hL he hi hok
    obtain ⟨i, ml, a, hui, hlM, ha, hia⟩ := hok maj (by simp) (by simp [View.dims])
    obtain ⟨j, nl, b, huj, hlm, hb, hjb⟩ := hok min (by simp) (by simp [View.dims])
    have ud : d ≠ maj → d ≠ min → u (.idx d) = none := by
      intro h1 h2; exact hi d (by simp [View.dims]) (by simp [h1, h2])
    have h1 := hdown u maj ml (.inl rfl) hL ud hlM
    have h2 := hdown u min nl (.inr rfl) hL ud hlm
    have hb0 : 0 < b := by omega
    let st : State := fun t => match t with
      | .idx q => if q = d then some (.dyn (i * b + j)) else if q = maj ∨ q = min then none else u (.idx q)
      | .len q => L q
    have sd : st (.idx d) = some (.dyn (i * b + j)) := by simp [st]
    have sb : blocksClean d maj min st = u.bare [maj, min, d] (L.remove [maj, min, d]) := by
      rw [hbare st (fun _ => rfl)]
      refine State.bare_congr fun q hq => ?_
      simp only [List.mem_cons, List.not_mem_nil, or_false, not_or] at hq
      simp [st, hq]
    rw [← sb] at h1 h2
    have hs := hsub1 st _ ml nl b (fun _ => rfl) sd h1 h2 hb hb0
    have e1 : (i * b + j) / b = i := by
      rw [Nat.mul_comm, Nat.mul_add_div hb0, Nat.div_eq_of_lt hjb, Nat.add_zero]
    have e2 : (i * b + j) % b = j := by
      rw [Nat.mul_comm, Nat.mul_add_mod, Nat.mod_eq_of_lt hjb]
    rw [e1, e2, sb] at hs
    refine ⟨st, ?_, fun _ => rfl, ?_, ?_⟩
    · show mergeBlocksSub .ideal maj min d (s.sem .ideal) st = some u
      rw [hs]
      congr 1
      refine State.ext (fun q => ?_) (fun q => ?_)
      · by_cases q1 : q = min
        · rw [q1, huj]; simp [State.set]
        by_cases q2 : q = maj
        · rw [q2, hui]; simp [State.set, hne]
        by_cases q3 : q = d
        · rw [q3, ud (q3 ▸ q2) (q3 ▸ q1)]; simp [State.set, State.bare, show d ≠ maj from q3 ▸ q2, show d ≠ min from q3 ▸ q1]
        · simp [State.set, State.bare, q1, q2, q3]
      · simp [State.set, State.bare, hL]
    · intro q hq hn
      simp only [List.mem_cons, List.not_mem_nil, or_false, View.dims] at hq hn
      have : q = maj ∨ q = min := by grind
      simp [st, hn, this]
    · intro q hq
      simp only [List.mem_singleton] at hq; subst hq
      refine ⟨_, _, a * b, sd, hlenV st ml nl (fun _ => rfl) h1 h2, Val.num_mul_iff.2 ⟨a, b, ha, hb, rfl⟩, ?_⟩
      have : (i + 1) * b ≤ a * b := Nat.mul_le_mul_right _ hia
      rw [Nat.succ_mul] at this
      omega
  · intro st st' u hL hL' he he' hag hok hok' hs hs'
    obtain ⟨k, l, m, hk, hl, hlm, hlt⟩ := hok d (by simp)
    obtain ⟨k', l', m', hk', hl', hlm', hlt'⟩ := hok' d (by simp)
    have hc : blocksClean d maj min st = blocksClean d maj min st' := by
      rw [hbare st hL, hbare st' hL']
      exact State.bare_congr hag
    obtain ⟨ml, nl, h1, h2⟩ := hlens st hL he
    rw [hlenV st ml nl hL h1 h2] at hl
    cases hl
    obtain ⟨a, b, ha, hb, rfl⟩ := Val.num_mul_iff.1 hlm
    have hb0 : 0 < b := by rcases Nat.eq_zero_or_pos b with rfl | h; simp at hlt; exact h
    have g := hsub1 st k ml nl b hL hk h1 h2 hb hb0
    rw [hc] at h1 h2
    have g' := hsub1 st' k' ml nl b hL' hk' h1 h2 hb hb0
    have e1 : some _ = some u := g.symm.trans hs
    have e2 : some _ = some u := g'.symm.trans hs'
    have e := Option.some.inj (e1.trans e2.symm)
    have q1 := congrFun e (.idx maj)
    have q2 := congrFun e (.idx min)
    simp [State.set, hne] at q1 q2
    have : k = k' := by
      rw [← Nat.div_add_mod k b, ← Nat.div_add_mod k' b, q1, q2]
    intro q hq
    simp only [List.mem_singleton] at hq; subst hq
    rw [hk, hk', this]

end

end Noarr
