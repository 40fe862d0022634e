import Verif.Select

/-
What the views that change one index address. Used for C28, C29 and C32.
-/

set_option linter.unusedVariables false
set_option linter.unusedSimpArgs false

namespace Noarr

namespace Val

theorem dyn_add {a : Val} {x : Nat} (h : a.Num x) (k : Nat) : (dyn k).add .ideal a = .dyn (k + x) := by
  rcases h.cases with rfl | rfl <;> rfl

theorem dyn_mul {a : Val} {x : Nat} (h : a.Num x) (h0 : 0 < x) (k : Nat) :
    (dyn k).mul .ideal a = .dyn (k * x) := by
  rcases h.cases with rfl | rfl
  · have : x ≠ 0 := by omega
    simp [mul, this, Arith.ideal, ofDyn]
  · rfl

theorem dyn_div {a : Val} {x : Nat} (h : a.Num x) (h0 : 0 < x) (k : Nat) :
    (dyn k).div .ideal a = .dyn (k / x) := by
  have : x ≠ 0 := by omega
  rcases h.cases with rfl | rfl <;> simp [div, this, Arith.ideal, ofDyn]

theorem dyn_mod {a : Val} {x : Nat} (h : a.Num x) (h0 : 0 < x) (k : Nat) :
    (dyn k).mod .ideal a = .dyn (k % x) := by
  have : x ≠ 0 := by omega
  rcases h.cases with rfl | rfl <;> simp [mod, this, Arith.ideal, ofDyn]

theorem sub_dyn {a : Val} {x k : Nat} (h : a.Num x) (hk : k ≤ x) :
    a.sub .ideal (.dyn k) = .dyn (x - k) := by
  rcases h.cases with rfl | rfl <;> simp [sub, Arith.ideal, hk, ofDyn]

end Val

/-- `k` is below the length in dimension `d`. -/
def Below (S : Sem) (d : Dim) (w : State) (k : Nat) : Prop :=
  ∃ l m, S.len d w = some l ∧ l.Num m ∧ k < m

theorem set_remove_self {st : State} {d : Dim} {x : Val} (h : st (.idx d) = some x) :
    (st.remove (.idx d)).set (.idx d) x = st := by
  funext t
  by_cases ht : t = .idx d
  · subst ht; simp [State.set, h]
  · simp [State.set, State.remove, ht]

theorem remove_self {st : State} {d : Dim} (h : st (.idx d) = none) : st.remove (.idx d) = st := by
  funext t
  by_cases ht : t = .idx d
  · subst ht; simp [State.remove, h]
  · simp [State.remove, ht]

/-- Views that change one index. -/
theorem select_map {A : Arith} {s : Struct} {v : View} {L L' : Lens} {d : Dim} {f : State → Nat → Nat}
    {Q : Nat → Prop} (hdims : v.dims = [d]) (hus : (s.sem A).sig.uniq)
    (huv : ((Struct.view v s).sem A).sig.uniq)
    (hsub0 : ∀ w, (∀ q, w (.len q) = L q) → w (.idx d) = none → ∃ wb, (v.sem A (s.sem A)).sub w = some wb ∧
      (∀ q, wb (.len q) = L' q) ∧ wb (.idx d) = none)
    (hsub1 : ∀ w wb k, (∀ q, w (.len q) = L q) → w (.idx d) = none → (v.sem A (s.sem A)).sub w = some wb →
      Below ((Struct.view v s).sem A) d w k →
      (v.sem A (s.sem A)).sub (w.set (.idx d) (.dyn k)) = some (wb.set (.idx d) (.dyn (f w k))))
    (hent : ∀ st u, (v.sem A (s.sem A)).sub st = some u → ∀ q o,
      ((Struct.view v s).sem A).sig.entry st q o ↔ (s.sem A).sig.entry u q o)
    (hn : ∀ u n, ¬ (s.sem A).sig.entry u d (some n))
    (hlen : ∀ w wb, (∀ q, w (.len q) = L q) → w (.idx d) = none → (v.sem A (s.sem A)).sub w = some wb →
      (s.sem A).sig.entry wb d none → ∀ k, Below ((Struct.view v s).sem A) d w k →
        Below (s.sem A) d wb (f w k) ∧ Q (f w k))
    (hf : ∀ w k k', (∀ q, w (.len q) = L q) → w (.idx d) = none →
      Below ((Struct.view v s).sem A) d w k → Below ((Struct.view v s).sem A) d w k' →
      f w k = f w k' → k = k')
    (hQ : ∀ w wb x, (∀ q, w (.len q) = L q) → w (.idx d) = none → (v.sem A (s.sem A)).sub w = some wb →
      (s.sem A).sig.entry wb d none → Below (s.sem A) d wb x → Q x →
      ∃ k, Below ((Struct.view v s).sem A) d w k ∧ f w k = x)
    (hother : ∀ st u q, (v.sem A (s.sem A)).sub st = some u → (∀ q, st (.len q) = L q) →
      (st (.idx d) = none ∨ ∃ k, st (.idx d) = some (.dyn k) ∧
        Below ((Struct.view v s).sem A) d (st.remove (.idx d)) k) → q ≠ d →
      (s.sem A).sig.entry u q none →
      ((Struct.view v s).sem A).len q (st.remove (.idx q)) = (s.sem A).len q (u.remove (.idx q))) :
    Selects A s v L L' fun u => ∀ x, u (.idx d) = some (.dyn x) → Q x := by
  -- what the state of the view looks like
  have hlR : ∀ {st : State}, (∀ q, st (.len q) = L q) → ∀ q, (st.remove (.idx d)) (.len q) = L q :=
    fun h q => by simpa [State.remove] using h q
  have hnR : ∀ {st : State}, (st.remove (.idx d)) (.idx d) = none := by intro st; simp [State.remove]
  have hview : ∀ st, (∀ q, st (.len q) = L q) → Part ((Struct.view v s).sem A) [d] st →
      (st (.idx d) = none ∧ (∀ o, ¬ ((Struct.view v s).sem A).sig.entry st d o)) ∨
      (∃ k wb, st (.idx d) = some (.dyn k) ∧ (v.sem A (s.sem A)).sub (st.remove (.idx d)) = some wb ∧
        (∀ q, wb (.len q) = L' q) ∧ wb (.idx d) = none ∧
        Below ((Struct.view v s).sem A) d (st.remove (.idx d)) k ∧
        (v.sem A (s.sem A)).sub st = some (wb.set (.idx d) (.dyn (f (st.remove (.idx d)) k))) ∧
        ((Struct.view v s).sem A).sig.entry st d none ∧ (s.sem A).sig.entry wb d none) := by
    intro st hL hp
    by_cases he : ∃ o, ((Struct.view v s).sem A).sig.entry st d o
    · obtain ⟨o, ho⟩ := he
      obtain ⟨wb, hwb, hwL, hw0⟩ := hsub0 (st.remove (.idx d)) (hlR hL) hnR
      have h1 := hp.ok d o (by simp) ho
      cases o with
      | some n =>
        exfalso
        obtain ⟨k, hk, hi⟩ := h1
        exact hn wb n ((hent _ wb hwb _ _).1 (Sig.entry_remove huv ho))
      | none =>
        obtain ⟨k, l, m, hi, hl, hm, hk⟩ := h1
        have hb : Below ((Struct.view v s).sem A) d (st.remove (.idx d)) k := ⟨l, m, hl, hm, hk⟩
        have hs1 := hsub1 _ wb k (hlR hL) hnR hwb hb
        rw [set_remove_self hi] at hs1
        have := (hent _ _ hs1 _ _).1 ho
        refine .inr ⟨k, wb, hi, hwb, hwL, hw0, hb, hs1, ho, ?_⟩
        have h2 := Sig.entry_remove hus this
        rwa [State.remove_set_self, remove_self hw0] at h2
    · refine .inl ⟨?_, fun o ho => he ⟨o, ho⟩⟩
      cases hi : st (.idx d) with
      | none => rfl
      | some x => exact absurd (hp.only d (by simp) (by simp [hi])) he
  have hview' : ∀ st u, (∀ q, st (.len q) = L q) → Part ((Struct.view v s).sem A) [d] st →
      (v.sem A (s.sem A)).sub st = some u → (∀ q, u (.len q) = L' q) ∧
      Part (s.sem A) [d] u ∧ (∀ x, u (.idx d) = some (.dyn x) → Q x) := by
    intro st u hL hp hu
    rcases hview st hL hp with ⟨hi, hno⟩ | ⟨k, wb, hi, hwb, hwL, hw0, hb, hs1, ho, ho'⟩
    · obtain ⟨w, hw, hwL, hw0⟩ := hsub0 st hL hi
      cases hw.symm.trans hu
      refine ⟨hwL, ⟨fun q o hq ho => ?_, fun q hq ho => ?_⟩, fun x hx => by rw [hw0] at hx; cases hx⟩
      · simp only [List.mem_singleton] at hq; subst hq
        exact absurd ((hent st _ hu _ _).2 ho) (hno o)
      · simp only [List.mem_singleton] at hq; subst hq
        simp [hw0] at ho
    · cases hs1.symm.trans hu
      obtain ⟨hB, hq⟩ := hlen _ wb (hlR hL) hnR hwb ho' k hb
      have he := (hent st _ hu d none).1 ho
      obtain ⟨l, m, hl, hm, hk⟩ := hB
      refine ⟨by simpa [State.set] using hwL, ⟨fun q o hq' ho => ?_, fun q hq' ho => ?_⟩, fun x hx => ?_⟩
      · simp only [List.mem_singleton] at hq'; subst hq'
        cases o with
        | some n => exact absurd ho (hn _ n)
        | none =>
          refine ⟨_, l, m, State.set_self _ _ _, ?_, hm, hk⟩
          rw [State.remove_set_self, remove_self hw0]; exact hl
      · simp only [List.mem_singleton] at hq'; subst hq'
        exact ⟨none, he⟩
      · simp [State.set] at hx; subst hx; exact hq
  refine select_core (fun st h => ?_) (fun u h hP => ?_) (fun st u hu _ q o _ => hent st u hu q o)
    (fun st u q hu hL hp hd hq => ?_) (fun st st' u h h' hu hu' q hq => ?_)
  · rw [hdims]
    have : ∃ u, (v.sem A (s.sem A)).sub st = some u := by
      rcases hview st h.lens (h.part _) with ⟨hi, hno⟩ | ⟨k, wb, hi, hwb, hwL, hw0, hb, hs1, ho, ho'⟩
      · obtain ⟨w, hw, -⟩ := hsub0 st h.lens hi
        exact ⟨w, hw⟩
      · exact ⟨_, hs1⟩
    obtain ⟨u, hu⟩ := this
    exact ⟨u, hu, hview' st u h.lens (h.part _) hu⟩
  · rw [hdims]
    let w : State := fun t => match t with
      | .idx q => if q = d then none else u (.idx q)
      | .len q => L q
    have hw : w (.idx d) = none := by simp [w]
    obtain ⟨wb, hwb, hwL, hw0⟩ := hsub0 w (fun _ => rfl) hw
    have hwb' : wb = u.remove (.idx d) := by
      refine State.ext (fun q => ?_) (fun q => by rw [hwL]; simp [State.remove, h.lens])
      by_cases hq : q = d
      · subst hq; rw [hw0]; simp [State.remove]
      · rw [sub_idx (by rw [hdims]; simpa using hq) hwb]; simp [w, hq, State.remove]
    rcases idx_none_or (h.part [d]) (hn u) with ⟨hi, hno⟩ | ⟨he, x, l, m, hi, hl, hm', hk⟩
    · rw [remove_self hi] at hwb'
      subst hwb'
      refine ⟨w, hwb, fun _ => rfl, fun q o hq ho => ?_, fun q hq ho => ?_⟩
      · simp only [List.mem_singleton] at hq; subst hq
        exact absurd ((hent w _ hwb _ _).1 ho) (hno o)
      · simp only [List.mem_singleton] at hq; subst hq
        simp [hw] at ho
    · have hB : Below (s.sem A) d wb x := ⟨l, m, by rw [hwb']; exact hl, hm', hk⟩
      have he' : (s.sem A).sig.entry wb d none := by rw [hwb']; exact Sig.entry_remove hus he
      obtain ⟨k, hV, hfk⟩ := hQ w wb x (fun _ => rfl) hw hwb he' hB (hP x hi)
      have hs1 := hsub1 w wb k (fun _ => rfl) hw hwb hV
      rw [hfk, hwb', set_remove_self hi] at hs1
      have hent' := hent _ _ hs1 d
      obtain ⟨l', m', hl', hm'', hk'⟩ := hV
      refine ⟨_, hs1, fun q => by simp [State.set, w], fun q o hq ho => ?_, fun q hq ho => ?_⟩
      · simp only [List.mem_singleton] at hq; subst hq
        cases o with
        | some n => exact absurd ((hent' _).1 ho) (hn u n)
        | none =>
          refine ⟨k, l', m', State.set_self _ _ _, ?_, hm'', hk'⟩
          rw [State.remove_set_self, remove_self hw]; exact hl'
      · simp only [List.mem_singleton] at hq; subst hq
        exact ⟨none, (hent' _).2 he⟩
  · rw [hdims] at hp hd
    refine hother st u q hu hL ?_ (by simpa using hd) hq
    rcases hview st hL hp with ⟨hi, hno⟩ | ⟨k, wb, hi, hwb, hwL, hw0, hb, hs1, ho, ho'⟩
    · exact .inl hi
    · exact .inr ⟨k, hi, hb⟩
  · have hrem : ∀ e, e ≠ d → st (.idx e) = st' (.idx e) := fun e he => by
      rw [← sub_idx (by rw [hdims]; simpa using he) hu, sub_idx (by rw [hdims]; simpa using he) hu']
    have hrem' : st.remove (.idx d) = st'.remove (.idx d) := by
      refine State.ext (fun q => ?_) (fun q => ?_)
      · by_cases hq : q = d
        · simp [State.remove, hq]
        · simp [State.remove, hq, hrem q hq]
      · simp [State.remove, h.lens, h'.lens]
    rw [hdims, List.mem_singleton] at hq
    subst hq
    rcases hview st h.lens (h.part _) with ⟨hi, hno⟩ | ⟨k, wb, hi, hwb, hwL, hw0, hb, hs1, ho, ho'⟩ <;>
    rcases hview st' h'.lens (h'.part _) with ⟨hi', hno'⟩ | ⟨k', wb', hi', hwb', hwL', hw0', hb', hs1', ho1, ho1'⟩
    · rw [hi, hi']
    · exact absurd ((hent st u hu _ _).2 ((hent st' u hu' _ _).1 ho1)) (hno _)
    · exact absurd ((hent st' u hu' _ _).2 ((hent st u hu _ _).1 ho)) (hno' _)
    · rw [hrem'] at hwb
      cases hwb.symm.trans hwb'
      cases hs1.symm.trans hu
      have e1 := Option.some.inj (hs1'.symm.trans hu')
      have e2 := congrFun e1 (.idx q)
      simp only [State.set_self, Option.some.injEq, Val.dyn.injEq] at e2
      rw [hrem'] at e2 hb
      have := hf _ _ _ (hlR h'.lens) hnR hb' hb e2
      rw [hi, hi', this]

/-- As `select_map`, for views that change the index by a function of it. -/
theorem select_map' {A : Arith} {s : Struct} {v : View} {L L' : Lens} {d : Dim} {f : Nat → Nat}
    {Q : Nat → Prop} (ht : (Struct.view v s).tame) (hm : s.unmixed A) (hpass : v.passes (s.sem A))
    (hdims : v.dims = [d]) (hus : (s.sem A).sig.uniq) (huv : ((Struct.view v s).sem A).sig.uniq)
    (hn : ∀ u n, ¬ (s.sem A).sig.entry u d (some n))
    (hsub0 : ∀ w, (∀ q, w (.len q) = L q) → w (.idx d) = none → ∃ wb, (v.sem A (s.sem A)).sub w = some wb ∧
      (∀ q, wb (.len q) = L' q) ∧ wb (.idx d) = none)
    (hsub1 : ∀ w wb k, (∀ q, w (.len q) = L q) → w (.idx d) = none → (v.sem A (s.sem A)).sub w = some wb →
      (v.sem A (s.sem A)).sub (w.set (.idx d) (.dyn k)) = some (wb.set (.idx d) (.dyn (f k))))
    (hent : ∀ st u, (v.sem A (s.sem A)).sub st = some u → ∀ q o,
      ((Struct.view v s).sem A).sig.entry st q o ↔ (s.sem A).sig.entry u q o)
    (hlen : ∀ w wb, (∀ q, w (.len q) = L q) → w (.idx d) = none → (v.sem A (s.sem A)).sub w = some wb →
      (s.sem A).sig.entry wb d none → ∀ k, Below ((Struct.view v s).sem A) d w k ↔
        Below (s.sem A) d wb (f k) ∧ Q (f k))
    (hf : ∀ k k', f k = f k' → k = k') (hQ : ∀ x, Q x → ∃ k, f k = x) :
    Selects A s v L L' fun u => ∀ x, u (.idx d) = some (.dyn x) → Q x :=
  select_map (f := fun _ => f) hdims hus huv hsub0 (fun w wb k h1 h2 h3 _ => hsub1 w wb k h1 h2 h3) hent hn
    (fun w wb h1 h2 h3 h4 k => (hlen w wb h1 h2 h3 h4 k).1) (fun w k k' _ _ _ _ => hf k k')
    (fun w wb x h1 h2 h3 h4 h5 h6 => by
      obtain ⟨k, rfl⟩ := hQ x h6
      exact ⟨k, (hlen w wb h1 h2 h3 h4 k).2 ⟨h5, h6⟩, rfl⟩)
    (fun st u q hs _ _ hq he => len_remove ht hm hpass hs (by rw [hdims]; simpa using hq) he)

theorem nodep_entry {S : Sig} {d : Dim} (h : ¬ S.hasDep d) (u : State) (n : Nat) : ¬ S.entry u d (some n) :=
  fun he => h (Sig.entry_hasDep he)

theorem nodep_at {S : Sig} {d : Dim} (h : ¬ S.hasDep d) {u : State} {n : Nat} {rs : Fin n → Sig}
    (ha : Sig.At u S (.dep d n rs)) : False :=
  h (Sig.entry_hasDep (ha.entry (.inl ⟨rfl, rfl⟩)))

section
variable {s : Struct} {d : Dim} {L : Lens}

theorem mapAt_none {st : State} {t : Tag} {f : Val → Val} (h : st t = none) : st.mapAt t f = st := by
  funext e
  by_cases he : e = t
  · subst he; simp [State.mapAt, h]
  · simp [State.mapAt, he]

theorem mapAt_set {st : State} {t : Tag} {f : Val → Val} {x : Val} :
    (st.set t x).mapAt t f = st.set t (f x) := by
  funext e
  by_cases he : e = t
  · subst he; simp [State.mapAt, State.set]
  · simp [State.mapAt, State.set, he]

/-- the window of a slice or span is inside the structure -/
def Window (s : Struct) (L : Lens) (d : Dim) (y : Nat) : Prop :=
  ∀ u, (∀ q, u (.len q) = L q) → u (.idx d) = none → (s.sem .ideal).sig.entry u d none →
    ∃ l N, (s.sem .ideal).len d u = some l ∧ l.Num N ∧ y ≤ N

theorem select_slice {a n : Val} {x m : Nat}
    (ht : (Struct.view (.slice d a n) s).tame) (hu : (s.sem .ideal).sig.uniq)
    (huv : ((Struct.view (.slice d a n) s).sem .ideal).sig.uniq) (hm : s.unmixed .ideal)
    (hw : ((Struct.view (.slice d a n) s).sem .ideal).sig.wf = true)
    (hd : ¬ (s.sem .ideal).sig.hasDep d) (ha : a.Num x) (hn : n.Num m) (hin : Window s L d (x + m)) :
    Selects .ideal s (.slice d a n) L L fun u => ∀ i, u (.idx d) = some (.dyn i) → x ≤ i ∧ i < x + m := by
  have h0 : ∀ w : State, w (.idx d) = none → (View.slice d a n |>.sem .ideal (s.sem .ideal)).sub w = some w := by
    intro w hw; simp only [View.sem, sliceSem, mapAt_none hw]
  refine select_map' (f := fun k => k + x) (Q := fun i => x ≤ i ∧ i < x + m) ht hm trivial rfl hu huv (nodep_entry hd)
    ?_ ?_ ?_ ?_ ?_ ?_
  · intro w hL hi; exact ⟨w, h0 w hi, hL, hi⟩
  · intro w wb k hL hi hs
    cases (h0 w hi).symm.trans hs
    simp only [View.sem, sliceSem, mapAt_set, Val.dyn_add ha]
  · intro st u hsub q o
    cases hsub
    refine Sig.entry_keep (R := Sig.sliceRepl a n) (fun e he _ => by simp [State.mapAt, he]) hu hw ?_ ?_ q o
    · intro n rs h _; exact nodep_at hd h
    · intro l' r _; exact ⟨_, rfl⟩
  · intro w wb hL hi hs he k
    cases (h0 w hi).symm.trans hs
    obtain ⟨l, N, hl, hN, hle⟩ := hin w hL hi he
    have hg := Struct.hasLen_of_len hl
    have e2 : ((Struct.view (.slice d a n) s).sem .ideal).len d w = some n := by
      simp only [Struct.sem, ViewSem.toSem, View.sem, sliceSem, mapAt_none hi, hg, guardLen, if_true]
    simp only [Below, e2, hl]
    constructor
    · rintro ⟨l', m', h1, h2, h3⟩
      cases h1
      have := h2.eq hn
      exact ⟨⟨l, N, rfl, hN, by omega⟩, by omega⟩
    · rintro ⟨-, h3⟩
      exact ⟨n, m, rfl, hn, by omega⟩
  · intro k k' h; simpa using h
  · intro i h; exact ⟨i - x, by omega⟩

theorem select_span {a n : Val} {x y : Nat}
    (ht : (Struct.view (.span d a n) s).tame) (hu : (s.sem .ideal).sig.uniq)
    (huv : ((Struct.view (.span d a n) s).sem .ideal).sig.uniq) (hm : s.unmixed .ideal)
    (hw : ((Struct.view (.span d a n) s).sem .ideal).sig.wf = true)
    (hd : ¬ (s.sem .ideal).sig.hasDep d) (ha : a.Num x) (hn : n.Num y) (hxy : x ≤ y) (hin : Window s L d y) :
    Selects .ideal s (.span d a n) L L fun u => ∀ i, u (.idx d) = some (.dyn i) → x ≤ i ∧ i < y := by
  have h0 : ∀ w : State, w (.idx d) = none → (View.span d a n |>.sem .ideal (s.sem .ideal)).sub w = some w := by
    intro w hw; simp only [View.sem, spanSem, mapAt_none hw]
  refine select_map' (f := fun k => k + x) (Q := fun i => x ≤ i ∧ i < y) ht hm trivial rfl hu huv (nodep_entry hd)
    ?_ ?_ ?_ ?_ ?_ ?_
  · intro w hL hi; exact ⟨w, h0 w hi, hL, hi⟩
  · intro w wb k hL hi hs
    cases (h0 w hi).symm.trans hs
    simp only [View.sem, spanSem, mapAt_set, Val.dyn_add ha]
  · intro st u hsub q o
    cases hsub
    refine Sig.entry_keep (R := Sig.spanRepl a n) (fun e he _ => by simp [State.mapAt, he]) hu hw ?_ ?_ q o
    · intro n rs h _; exact nodep_at hd h
    · intro l' r _; exact ⟨_, rfl⟩
  · intro w wb hL hi hs he k
    cases (h0 w hi).symm.trans hs
    obtain ⟨l, N, hl, hN, hle⟩ := hin w hL hi he
    have hg := Struct.hasLen_of_len hl
    have e2 : ((Struct.view (.span d a n) s).sem .ideal).len d w = some (n.sub .ideal a) := by
      simp only [Struct.sem, ViewSem.toSem, View.sem, spanSem, mapAt_none hi, hg, guardLen, if_true]
    have e3 : (n.sub .ideal a).Num (y - x) := Val.nat?_sub.2 ⟨y, x, hn, ha, hxy, rfl⟩
    simp only [Below, e2, hl]
    constructor
    · rintro ⟨l', m', h1, h2, h3⟩
      cases h1
      have := h2.eq e3
      exact ⟨⟨l, N, rfl, hN, by omega⟩, by omega⟩
    · rintro ⟨-, h3⟩
      exact ⟨_, _, rfl, e3, by omega⟩
  · intro k k' h; simpa using h
  · intro i h; exact ⟨i - x, by omega⟩

theorem select_shift {a : Val} {x : Nat}
    (ht : (Struct.view (.shift d a) s).tame) (hu : (s.sem .ideal).sig.uniq)
    (huv : ((Struct.view (.shift d a) s).sem .ideal).sig.uniq) (hm : s.unmixed .ideal)
    (hw : ((Struct.view (.shift d a) s).sem .ideal).sig.wf = true)
    (hd : ¬ (s.sem .ideal).sig.hasDep d) (ha : a.Num x) (hLd : L d = none) :
    Selects .ideal s (.shift d a) L L fun u => ∀ i, u (.idx d) = some (.dyn i) → x ≤ i := by
  have h0 : ∀ w : State, (∀ q, w (.len q) = L q) → w (.idx d) = none →
      (View.shift d a |>.sem .ideal (s.sem .ideal)).sub w = some w := by
    intro w hL hw
    simp only [View.sem, shiftSem, mapAt_none hw, mapAt_none ((hL d).trans hLd)]
  refine select_map' (f := fun k => k + x) (Q := fun i => x ≤ i) ht hm trivial rfl hu huv (nodep_entry hd)
    ?_ ?_ ?_ ?_ ?_ ?_
  · intro w hL hi; exact ⟨w, h0 w hL hi, hL, hi⟩
  · intro w wb k hL hi hs
    cases (h0 w hL hi).symm.trans hs
    simp only [View.sem, shiftSem, mapAt_set, Val.dyn_add ha]
    rw [mapAt_none (by simpa [State.set] using (hL d).trans hLd)]
  · intro st u hsub q o
    cases hsub
    refine Sig.entry_keep (R := Sig.shiftRepl a) (fun e he _ => by simp [State.mapAt, he]) hu hw ?_ ?_ q o
    · intro n rs h _; exact nodep_at hd h
    · intro l' r _; exact ⟨_, rfl⟩
  · intro w wb hL hi hs he k
    cases (h0 w hL hi).symm.trans hs
    have hwd := (hL d).trans hLd
    have e2 : ((Struct.view (.shift d a) s).sem .ideal).len d w =
        ((s.sem .ideal).len d w).map (·.sub .ideal a) := by
      have hg := guard_len .ideal s d w
      simp only [Struct.sem, ViewSem.toSem, View.sem, shiftSem, mapAt_none hi, mapAt_none hwd, State.has,
        hwd, Option.isSome_none, if_true, Bool.false_eq_true, if_false]
      rw [← hg]
      rcases (s.sem .ideal).hasLen d w with _ | _ | _ <;> simp [guardLen]
      cases (s.sem .ideal).len d w <;> rfl
    simp only [Below, e2, Option.map_eq_some_iff]
    constructor
    · rintro ⟨l', m', ⟨l, hl, rfl⟩, h2, h3⟩
      obtain ⟨N, b, hN, hb, hle, rfl⟩ := Val.nat?_sub.1 h2
      have := Val.Num.eq hb ha
      exact ⟨⟨l, N, hl, hN, by omega⟩, by omega⟩
    · rintro ⟨⟨l, N, hl, hN, h4⟩, h3⟩
      exact ⟨_, _, ⟨l, hl, rfl⟩, Val.nat?_sub.2 ⟨N, x, hN, ha, by omega, rfl⟩, by omega⟩
  · intro k k' h; simpa using h
  · intro i h; exact ⟨i - x, by omega⟩

theorem select_step {a n : Val} {x y : Nat}
    (ht : (Struct.view (.step d a n) s).tame) (hu : (s.sem .ideal).sig.uniq)
    (huv : ((Struct.view (.step d a n) s).sem .ideal).sig.uniq) (hm : s.unmixed .ideal)
    (hw : ((Struct.view (.step d a n) s).sem .ideal).sig.wf = true)
    (hd : ¬ (s.sem .ideal).sig.hasDep d) (ha : a.Num x) (hn : n.Num y) (hy : 0 < y) :
    Selects .ideal s (.step d a n) L L fun u => ∀ i, u (.idx d) = some (.dyn i) → ∃ k, i = k * y + x := by
  have h0 : ∀ w : State, w (.idx d) = none → (View.step d a n |>.sem .ideal (s.sem .ideal)).sub w = some w := by
    intro w hw; simp only [View.sem, stepSem, mapAt_none hw]
  refine select_map' (f := fun k => k * y + x) (Q := fun i => ∃ k, i = k * y + x) ht hm trivial rfl hu huv (nodep_entry hd)
    ?_ ?_ ?_ ?_ ?_ ?_
  · intro w hL hi; exact ⟨w, h0 w hi, hL, hi⟩
  · intro w wb k hL hi hs
    cases (h0 w hi).symm.trans hs
    simp only [View.sem, stepSem, mapAt_set, Val.dyn_mul hn hy, Val.dyn_add ha]
  · intro st u hsub q o
    cases hsub
    refine Sig.entry_keep (R := Sig.stepRepl a n) (fun e he _ => by simp [State.mapAt, he]) hu hw ?_ ?_ q o
    · intro n rs h _; exact nodep_at hd h
    · intro l' r _; exact ⟨_, rfl⟩
  · intro w wb hL hi hs he k
    cases (h0 w hi).symm.trans hs
    have e2 : ((Struct.view (.step d a n) s).sem .ideal).len d w = ((s.sem .ideal).len d w).map
        fun l => (((l.add .ideal n).sub .ideal a).sub .ideal (.lit 1)).div .ideal n := by
      have hg := guard_len .ideal s d w
      simp only [Struct.sem, ViewSem.toSem, View.sem, stepSem, mapAt_none hi, if_true]
      rw [← hg]
      rcases (s.sem .ideal).hasLen d w with _ | _ | _ <;> simp [guardLen]
      cases (s.sem .ideal).len d w <;> rfl
    simp only [Below, e2, Option.map_eq_some_iff]
    constructor
    · rintro ⟨l', m', ⟨l, hl, rfl⟩, h2, h3⟩
      obtain ⟨t, y', h4, hy', hy0, rfl⟩ := Val.nat?_div.1 h2
      obtain ⟨t', o, h5, ho, hle, rfl⟩ := Val.nat?_sub.1 h4
      obtain ⟨t, x', h6, hx', hle', rfl⟩ := Val.nat?_sub.1 h5
      obtain ⟨N, y'', hN, hy'', rfl⟩ := Val.nat?_add.1 h6
      cases Val.Num.eq hy' hn
      cases Val.Num.eq hy'' hn
      cases Val.Num.eq hx' ha
      cases ho
      refine ⟨⟨l, N, hl, hN, ?_⟩, k, rfl⟩
      have := Nat.mul_le_of_le_div y (k + 1) _ h3
      rw [Nat.add_mul] at this
      omega
    · rintro ⟨⟨l, N, hl, hN, h4⟩, -⟩
      refine ⟨_, (N + y - x - 1) / y, ⟨l, hl, rfl⟩, Val.nat?_div.2 ⟨_, y, Val.nat?_sub.2 ⟨_, 1, Val.nat?_sub.2
        ⟨_, x, Val.nat?_add.2 ⟨N, y, hN, hn, rfl⟩, ha, by omega, rfl⟩, rfl, by omega, rfl⟩, hn, by omega, rfl⟩, ?_⟩
      refine (Nat.le_div_iff_mul_le hy).2 ?_
      rw [Nat.succ_mul]
      omega
  · intro k k' h
    have := Nat.eq_of_mul_eq_mul_right hy (show k * y = k' * y by simpa using h)
    exact this
  · intro i h; obtain ⟨k, rfl⟩ := h; exact ⟨k, rfl⟩

end

end Noarr
