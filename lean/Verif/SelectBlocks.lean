import Verif.SelectMore

/-
What the views that replace dimensions by other dimensions address. Used for C28 and C50.
-/

set_option linter.unusedVariables false
set_option linter.unusedSimpArgs false

namespace Noarr

/-- Views that replace the dimensions `old` by `new`; `E`: the dimensions are on the path. -/
theorem select_swap {A : Arith} {s : Struct} {v : View} {L L' : Lens} {old new : List Dim}
    {κ : Dim → Option Nat} {E : State → Prop}
    (hnew : ∀ q ∈ new, q ∈ v.dims)
    (hE : ∀ a b : State, (∀ q, q ∉ v.dims → a (.idx q) = b (.idx q)) → (E a ↔ E b))
    (hS : ∀ u q o, q ∈ v.dims → ((s.sem A).sig.entry u q o ↔ q ∈ old ∧ o = none ∧ E u))
    (hSo : ∀ (a b : State) q o, (∀ q, q ∉ v.dims → a (.idx q) = b (.idx q)) → q ∉ v.dims →
      ((s.sem A).sig.entry a q o ↔ (s.sem A).sig.entry b q o))
    (hV1 : ∀ st q n, E st → q ∈ new → κ q = some n → ((Struct.view v s).sem A).sig.entry st q (some n))
    (hV : ∀ st, (E st → ∀ q ∈ new, ∀ n, κ q = some n → ∃ k, k < n ∧ st (.idx q) = some (.lit k)) →
      ∀ q o, (q ∈ v.dims → (((Struct.view v s).sem A).sig.entry st q o ↔ q ∈ new ∧ o = κ q ∧ E st)) ∧
        (q ∉ v.dims → (((Struct.view v s).sem A).sig.entry st q o ↔ (s.sem A).sig.entry st q o)))
    (h0 : ∀ st, (∀ q, st (.len q) = L q) → (∀ q ∈ v.dims, st (.idx q) = none) → ¬ E st →
      ∃ u, (v.sem A (s.sem A)).sub st = some u ∧ (∀ q, u (.len q) = L' q) ∧ ∀ q ∈ v.dims, u (.idx q) = none)
    (hF : ∀ st, (∀ q, st (.len q) = L q) → E st → (∀ q ∈ v.dims, q ∉ new → st (.idx q) = none) →
      (∀ q ∈ new, EntryOk ((Struct.view v s).sem A) st q (κ q)) →
      ∃ u, (v.sem A (s.sem A)).sub st = some u ∧ (∀ q, u (.len q) = L' q) ∧
        (∀ q ∈ v.dims, q ∉ old → u (.idx q) = none) ∧ ∀ q ∈ old, EntryOk (s.sem A) u q none)
    (hB : ∀ u, (∀ q, u (.len q) = L' q) → E u → (∀ q ∈ v.dims, q ∉ old → u (.idx q) = none) →
      (∀ q ∈ old, q ∈ v.dims → EntryOk (s.sem A) u q none) →
      ∃ st, (v.sem A (s.sem A)).sub st = some u ∧ (∀ q, st (.len q) = L q) ∧
        (∀ q ∈ v.dims, q ∉ new → st (.idx q) = none) ∧
        ∀ q ∈ new, EntryOk ((Struct.view v s).sem A) st q (κ q))
    (hI : ∀ st st' u, (∀ q, st (.len q) = L q) → (∀ q, st' (.len q) = L q) → E st → E st' →
      (∀ q, q ∉ v.dims → st (.idx q) = st' (.idx q)) →
      (∀ q ∈ new, EntryOk ((Struct.view v s).sem A) st q (κ q)) →
      (∀ q ∈ new, EntryOk ((Struct.view v s).sem A) st' q (κ q)) →
      (v.sem A (s.sem A)).sub st = some u → (v.sem A (s.sem A)).sub st' = some u →
      ∀ q ∈ new, st (.idx q) = st' (.idx q))
    (hlen : ∀ st u q, (v.sem A (s.sem A)).sub st = some u → q ∉ v.dims → (s.sem A).sig.entry u q none →
      ((Struct.view v s).sem A).len q (st.remove (.idx q)) = (s.sem A).len q (u.remove (.idx q))) :
    Selects A s v L L' fun _ => True := by
  have hlit : ∀ st, Part ((Struct.view v s).sem A) v.dims st → E st → ∀ q ∈ new, ∀ n, κ q = some n →
      ∃ k, k < n ∧ st (.idx q) = some (.lit k) := fun st hp hE q hq n hn =>
    hp.ok q (some n) (hnew q hq) (hV1 st q n hE hq hn)
  -- the state of the view
  have hpart : ∀ st, Part ((Struct.view v s).sem A) v.dims st →
      (¬ E st ∧ ∀ q ∈ v.dims, st (.idx q) = none) ∨
      (E st ∧ (∀ q ∈ v.dims, q ∉ new → st (.idx q) = none) ∧
        ∀ q ∈ new, EntryOk ((Struct.view v s).sem A) st q (κ q)) := by
    intro st hp
    by_cases he : E st
    · refine .inr ⟨he, fun q hq hn => ?_, fun q hq => ?_⟩
      · cases hi : st (.idx q) with
        | none => rfl
        | some x =>
          obtain ⟨o, ho⟩ := hp.only q hq (by simp [hi])
          exact absurd (((hV st (hlit st hp) q o).1 hq).1 ho).1 hn
      · exact hp.ok q _ (hnew q hq) (((hV st (hlit st hp) q _).1 (hnew q hq)).2 ⟨hq, rfl, he⟩)
    · refine .inl ⟨he, fun q hq => ?_⟩
      cases hi : st (.idx q) with
      | none => rfl
      | some x =>
        obtain ⟨o, ho⟩ := hp.only q hq (by simp [hi])
        exact absurd (((hV st (hlit st hp) q o).1 hq).1 ho).2.2 he
  have hpart' : ∀ st, (E st → (∀ q ∈ v.dims, q ∉ new → st (.idx q) = none) ∧
        ∀ q ∈ new, EntryOk ((Struct.view v s).sem A) st q (κ q)) →
      (¬ E st → ∀ q ∈ v.dims, st (.idx q) = none) → Part ((Struct.view v s).sem A) v.dims st := by
    intro st h1 h2
    have hl : E st → ∀ q ∈ new, ∀ n, κ q = some n → ∃ k, k < n ∧ st (.idx q) = some (.lit k) := by
      intro he q hq n hn
      have := (h1 he).2 q hq
      rw [hn] at this; exact this
    refine ⟨fun q o hq ho => ?_, fun q hq ho => ?_⟩
    · obtain ⟨h3, rfl, h4⟩ := ((hV st hl q o).1 hq).1 ho
      exact (h1 h4).2 q h3
    · by_cases he : E st
      · by_cases hn : q ∈ new
        · exact ⟨κ q, ((hV st hl q _).1 hq).2 ⟨hn, rfl, he⟩⟩
        · rw [(h1 he).1 q hq hn] at ho; cases ho
      · rw [h2 he q hq] at ho; cases ho
  refine select_core (fun st h => ?_) (fun u h _ => ?_) (fun st u hu hor q o hq => ?_)
    (fun st u q hu _ _ hd hq => hlen st u q hu hd hq) (fun st st' u h h' hu hu' q hq => ?_)
  · rcases hpart st (h.part _) with ⟨he, hi⟩ | ⟨he, hi, hok⟩
    · obtain ⟨u, hu, hL, hi'⟩ := h0 st h.lens hi he
      refine ⟨u, hu, hL, ⟨fun q o hq ho => ?_, fun q hq ho => ?_⟩, trivial⟩
      · exact absurd ((hE u st (fun q hq => sub_idx hq hu)).1 ((hS u q o hq).1 ho).2.2) he
      · rw [hi' q hq] at ho; cases ho
    · obtain ⟨u, hu, hL, hi', hok'⟩ := hF st h.lens he hi hok
      have heu := (hE u st (fun q hq => sub_idx hq hu)).2 he
      refine ⟨u, hu, hL, ⟨fun q o hq ho => ?_, fun q hq ho => ?_⟩, trivial⟩
      · obtain ⟨h1, rfl, -⟩ := (hS u q o hq).1 ho
        exact hok' q h1
      · by_cases hn : q ∈ old
        · exact ⟨none, (hS u q _ hq).2 ⟨hn, rfl, heu⟩⟩
        · rw [hi' q hq hn] at ho; cases ho
  · by_cases he : E u
    · obtain ⟨st, hs, hL, hi, hok⟩ := hB u h.lens he (fun q hq hn => by
        cases hi : u (.idx q) with
        | none => rfl
        | some x =>
          obtain ⟨o, ho⟩ := h.only q (by simp [hi])
          exact absurd ((hS u q o hq).1 ho).1 hn)
        (fun q hq hd => h.ok q none ((hS u q none hd).2 ⟨hq, rfl, he⟩))
      have hes := (hE u st (fun q hq => sub_idx hq hs)).1 he
      exact ⟨st, hs, hL, hpart' st (fun _ => ⟨hi, hok⟩) (fun h => absurd hes h)⟩
    · have hi : ∀ q ∈ v.dims, u (.idx q) = none := by
        intro q hq
        cases hi : u (.idx q) with
        | none => rfl
        | some x =>
          obtain ⟨o, ho⟩ := h.only q (by simp [hi])
          exact absurd ((hS u q o hq).1 ho).2.2 he
      let st : State := fun t => match t with
        | .idx q => u (.idx q)
        | .len q => L q
      have hes : ¬ E st := fun h => he ((hE st u (fun _ _ => rfl)).1 h)
      obtain ⟨u', hu', hL', hi'⟩ := h0 st (fun _ => rfl) hi hes
      have : u' = u := by
        refine State.ext (fun q => ?_) (fun q => by rw [hL', h.lens])
        by_cases hq : q ∈ v.dims
        · rw [hi' q hq, hi q hq]
        · rw [sub_idx hq hu']
      subst this
      exact ⟨st, hu', fun _ => rfl, hpart' st (fun h => absurd h hes) (fun _ => hi)⟩
  · have hp : Part ((Struct.view v s).sem A) v.dims st := by
      rcases hor with h | ⟨-, h⟩
      · exact h.part _
      · exact h
    rw [((hV st (hlit st hp) q o).2 hq)]
    exact hSo st u q o (fun q hq => (sub_idx hq hu).symm) hq
  · have hrem : ∀ q, q ∉ v.dims → st (.idx q) = st' (.idx q) := fun q hq => by
      rw [← sub_idx hq hu, sub_idx hq hu']
    rcases hpart st (h.part _) with ⟨he, hi⟩ | ⟨he, hi, hok⟩ <;>
    rcases hpart st' (h'.part _) with ⟨he', hi'⟩ | ⟨he', hi', hok'⟩
    · rw [hi q hq, hi' q hq]
    · exact absurd ((hE st st' hrem).2 he') he
    · exact absurd ((hE st st' hrem).1 he) he'
    · by_cases hn : q ∈ new
      · exact hI st st' u h.lens h'.lens he he' hrem hok hok' hu hu' q hn
      · rw [hi q hq hn, hi' q hq hn]

namespace Sig

/-- The indices of dimensions that are not tuple dimensions have no influence on the path. -/
theorem entry_nodep_congr {S : Sig} {a b : State} {q : Dim} {o : Option Nat}
    (h : ∀ e, S.hasDep e → a (.idx e) = b (.idx e)) : S.entry a q o ↔ S.entry b q o := by
  induction S with
  | scalar s => exact Iff.rfl
  | void => exact Iff.rfl
  | ill => exact Iff.rfl
  | fn d l r ih => simp only [entry]; rw [ih h]
  | dep d n rs ih =>
    simp only [entry]
    rw [h d (.inl rfl)]
    have : ∀ k, (rs k).entry a q o ↔ (rs k).entry b q o := fun k => ih k (fun e he => h e (.inr ⟨k, he⟩))
    simp only [this]

end Sig

/-- Views that replace the dimension `d` by others. -/
theorem select_new {A : Arith} {s : Struct} {v : View} {L L' : Lens} {d : Dim} {new : List Dim}
    (ht : (Struct.view v s).tame) (hm : s.unmixed A) (hpass : v.passes (s.sem A))
    (hdims : ∀ q, q ∈ v.dims ↔ q = d ∨ q ∈ new) (hd : ¬ (s.sem A).sig.hasDep d)
    (hacc : ∀ q ∈ new, q ≠ d → (s.sem A).sig.anyAccept q = false)
    (hent : ∀ st q o, ((Struct.view v s).sem A).sig.entry st q o ↔
      (q ≠ d ∧ (s.sem A).sig.entry st q o) ∨ (q ∈ new ∧ o = none ∧ (s.sem A).sig.entry st d none))
    (h0 : ∀ st, (∀ q, st (.len q) = L q) → (∀ q ∈ v.dims, st (.idx q) = none) →
      ¬ (s.sem A).sig.entry st d none →
      ∃ u, (v.sem A (s.sem A)).sub st = some u ∧ (∀ q, u (.len q) = L' q) ∧ ∀ q ∈ v.dims, u (.idx q) = none)
    (hF : ∀ st, (∀ q, st (.len q) = L q) → (s.sem A).sig.entry st d none →
      (∀ q ∈ v.dims, q ∉ new → st (.idx q) = none) →
      (∀ q ∈ new, EntryOk ((Struct.view v s).sem A) st q none) →
      ∃ u, (v.sem A (s.sem A)).sub st = some u ∧ (∀ q, u (.len q) = L' q) ∧
        (∀ q ∈ v.dims, q ≠ d → u (.idx q) = none) ∧ EntryOk (s.sem A) u d none)
    (hB : ∀ u, (∀ q, u (.len q) = L' q) → (s.sem A).sig.entry u d none →
      (∀ q ∈ v.dims, q ≠ d → u (.idx q) = none) → EntryOk (s.sem A) u d none →
      ∃ st, (v.sem A (s.sem A)).sub st = some u ∧ (∀ q, st (.len q) = L q) ∧
        (∀ q ∈ v.dims, q ∉ new → st (.idx q) = none) ∧
        ∀ q ∈ new, EntryOk ((Struct.view v s).sem A) st q none)
    (hI : ∀ st st' u, (∀ q, st (.len q) = L q) → (∀ q, st' (.len q) = L q) →
      (s.sem A).sig.entry st d none → (s.sem A).sig.entry st' d none →
      (∀ q, q ∉ v.dims → st (.idx q) = st' (.idx q)) →
      (∀ q ∈ new, EntryOk ((Struct.view v s).sem A) st q none) →
      (∀ q ∈ new, EntryOk ((Struct.view v s).sem A) st' q none) →
      (v.sem A (s.sem A)).sub st = some u → (v.sem A (s.sem A)).sub st' = some u →
      ∀ q ∈ new, st (.idx q) = st' (.idx q)) :
    Selects A s v L L' fun _ => True := by
  have hnd : ∀ q ∈ v.dims, ¬ (s.sem A).sig.hasDep q := by
    intro q hq hh
    by_cases h : q = d
    · subst h; exact hd hh
    · rcases (hdims q).1 hq with h' | h'
      · exact h h'
      · have := Sig.hasDep_accept hh
        rw [hacc q h' h] at this; cases this
  have hcong : ∀ (a b : State) q o, (∀ q, q ∉ v.dims → a (.idx q) = b (.idx q)) →
      ((s.sem A).sig.entry a q o ↔ (s.sem A).sig.entry b q o) := fun a b q o hab =>
    Sig.entry_nodep_congr fun e he => hab e (fun h => hnd e h he)
  refine select_swap (old := [d]) (new := new) (κ := fun _ => none)
    (E := fun st => (s.sem A).sig.entry st d none) (fun q hq => (hdims q).2 (.inr hq))
    (fun a b h => hcong a b _ _ h) ?_ (fun a b q o h _ => hcong a b q o h) (fun _ _ _ _ _ h => by cases h) ?_
    h0 (fun st h1 h2 h3 h4 => ?_) (fun u h1 h2 h3 h4 => ?_) hI
    (fun st u q h1 h2 h3 => len_remove ht hm hpass h1 h2 h3)
  · intro u q o hq
    simp only [List.mem_singleton]
    constructor
    · intro h
      by_cases hqd : q = d
      · subst hqd
        cases o with
        | some n => exact absurd h (nodep_entry hd u n)
        | none => exact ⟨rfl, rfl, h⟩
      · rcases (hdims q).1 hq with h' | h'
        · exact absurd h' hqd
        · have := Sig.entry_accept h
          rw [hacc q h' hqd] at this; cases this
    · rintro ⟨rfl, rfl, h⟩; exact h
  · intro st _ q o
    rw [hent]
    constructor
    · intro hq
      constructor
      · rintro (⟨h1, h2⟩ | h)
        · rcases (hdims q).1 hq with h' | h'
          · exact absurd h' h1
          · have := Sig.entry_accept h2
            rw [hacc q h' h1] at this; cases this
        · exact h
      · exact .inr
    · intro hq
      have h1 : q ≠ d := fun h => hq ((hdims q).2 (.inl h))
      have h2 : q ∉ new := fun h => hq ((hdims q).2 (.inr h))
      simp [h1, h2]
  · obtain ⟨u, a, b, c, d'⟩ := hF st h1 h2 h3 h4
    refine ⟨u, a, b, fun q hq hn => c q hq (by simpa using hn), fun q hq => ?_⟩
    rw [List.mem_singleton] at hq; subst hq; exact d'
  · exact hB u h1 h2 (fun q hq hn => h3 q hq (by simpa using hn))
      (h4 d (by simp) ((hdims d).2 (.inl rfl)))

/-- The state without the indices `ds` and with the lengths `L`. -/
def State.bare (st : State) (ds : List Dim) (L : Lens) : State
  | .idx q => if q ∈ ds then none else st (.idx q)
  | .len q => L q

theorem State.bare_congr {a b : State} {ds : List Dim} {L : Lens}
    (h : ∀ q, q ∉ ds → a (.idx q) = b (.idx q)) : a.bare ds L = b.bare ds L :=
  State.ext (fun q => by by_cases hq : q ∈ ds <;> simp [State.bare, hq, h]) (fun q => rfl)

/-- Views that split an index in a dimension into two, with further dimensions whose index is 0. `n` is
the length of the blocks. -/
theorem select_split {s : Struct} {v : View} {L L' : Lens} {d maj min : Dim} {ex : List Dim}
    {n : State → Nat}
    (ht : (Struct.view v s).tame) (hm : s.unmixed .ideal) (hpass : v.passes (s.sem .ideal))
    (hdims : ∀ q, q ∈ v.dims ↔ q = d ∨ q ∈ maj :: min :: ex) (hd : ¬ (s.sem .ideal).sig.hasDep d)
    (hne : maj ≠ min) (hmx : maj ∉ ex) (hnx : min ∉ ex)
    (hacc : ∀ q ∈ maj :: min :: ex, q ≠ d → (s.sem .ideal).sig.anyAccept q = false)
    (hent : ∀ st q o, ((Struct.view v s).sem .ideal).sig.entry st q o ↔
      (q ≠ d ∧ (s.sem .ideal).sig.entry st q o) ∨
        (q ∈ maj :: min :: ex ∧ o = none ∧ (s.sem .ideal).sig.entry st d none))
    (h0 : ∀ st, (∀ q, st (.len q) = L q) → (∀ q ∈ v.dims, st (.idx q) = none) →
      ¬ (s.sem .ideal).sig.entry st d none →
      (v.sem .ideal (s.sem .ideal)).sub st = some (st.bare v.dims L'))
    (hsub : ∀ st i j, (∀ q, st (.len q) = L q) → (s.sem .ideal).sig.entry st d none →
      st (.idx maj) = some (.dyn i) → st (.idx min) = some (.dyn j) → (∀ e ∈ ex, st (.idx e) = some (.dyn 0)) →
      Below (s.sem .ideal) d (st.bare v.dims L') (i * n (st.bare v.dims L') + j) →
      j < n (st.bare v.dims L') →
      (v.sem .ideal (s.sem .ideal)).sub st =
        some ((st.bare v.dims L').set (.idx d) (.dyn (i * n (st.bare v.dims L') + j))))
    (hdown : ∀ st i j, (∀ q, st (.len q) = L q) → (s.sem .ideal).sig.entry st d none →
      st (.idx maj) = some (.dyn i) → st (.idx min) = some (.dyn j) →
      Below ((Struct.view v s).sem .ideal) maj (st.remove (.idx maj)) i →
      Below ((Struct.view v s).sem .ideal) min (st.remove (.idx min)) j →
      (∀ e ∈ ex, ∃ k, st (.idx e) = some (.dyn k) ∧
        Below ((Struct.view v s).sem .ideal) e (st.remove (.idx e)) k) →
      j < n (st.bare v.dims L') ∧
        Below (s.sem .ideal) d (st.bare v.dims L') (i * n (st.bare v.dims L') + j) ∧
        ∀ e ∈ ex, st (.idx e) = some (.dyn 0))
    (hup : ∀ st i j, (∀ q, st (.len q) = L q) → (s.sem .ideal).sig.entry st d none →
      st (.idx maj) = some (.dyn i) → st (.idx min) = some (.dyn j) → (∀ e ∈ ex, st (.idx e) = some (.dyn 0)) →
      Below (s.sem .ideal) d (st.bare v.dims L') (i * n (st.bare v.dims L') + j) →
      j < n (st.bare v.dims L') →
      Below ((Struct.view v s).sem .ideal) maj (st.remove (.idx maj)) i ∧
      Below ((Struct.view v s).sem .ideal) min (st.remove (.idx min)) j ∧
      (∀ e ∈ ex, Below ((Struct.view v s).sem .ideal) e (st.remove (.idx e)) 0))
    (hpos : ∀ u x, (∀ q, u (.len q) = L' q) → (∀ q ∈ v.dims, u (.idx q) = none) →
      (s.sem .ideal).sig.entry u d none → Below (s.sem .ideal) d u x → 0 < n u) :
    Selects .ideal s v L L' fun _ => True := by
  have hnd : ∀ q ∈ v.dims, ¬ (s.sem .ideal).sig.hasDep q := by
    intro q hq hh
    by_cases h : q = d
    · subst h; exact hd hh
    · rcases (hdims q).1 hq with h' | h'
      · exact h h'
      · have := Sig.hasDep_accept hh
        rw [hacc q h' h] at this; cases this
  have hok : ∀ st, (∀ q, st (.len q) = L q) → (s.sem .ideal).sig.entry st d none →
      (∀ q ∈ maj :: min :: ex, EntryOk ((Struct.view v s).sem .ideal) st q none) →
      ∃ i j, st (.idx maj) = some (.dyn i) ∧ st (.idx min) = some (.dyn j) ∧
        (∀ e ∈ ex, st (.idx e) = some (.dyn 0)) ∧ j < n (st.bare v.dims L') ∧
        Below (s.sem .ideal) d (st.bare v.dims L') (i * n (st.bare v.dims L') + j) := by
    intro st hL he h
    obtain ⟨i, l, m, hi, hl, hlm, hlt⟩ := h maj (by simp)
    obtain ⟨j, l', m', hj, hl', hlm', hlt'⟩ := h min (by simp)
    obtain ⟨h1, h2, h3⟩ := hdown st i j hL he hi hj ⟨l, m, hl, hlm, hlt⟩ ⟨l', m', hl', hlm', hlt'⟩ (fun e hex => by
      obtain ⟨k, l, m, hi, hl, hlm, hlt⟩ := h e (by simp [hex])
      exact ⟨k, hi, l, m, hl, hlm, hlt⟩)
    exact ⟨i, j, hi, hj, h3, h1, h2⟩
  have hdd : d ∈ v.dims := (hdims d).2 (.inl rfl)
  refine select_new (new := maj :: min :: ex) ht hm hpass hdims hd hacc hent
    (fun st h1 h2 h3 => ⟨_, h0 st h1 h2 h3, fun q => rfl, fun q hq => by simp [State.bare, hq]⟩)
    (fun st hL he hi hok' => ?_) (fun u hL he hi hok' => ?_) (fun st st' u hL hL' he he' hag hok1 hok2 hu hu' => ?_)
  · obtain ⟨i, j, hi', hj, hex, hj', hB⟩ := hok st hL he hok'
    refine ⟨_, hsub st i j hL he hi' hj hex hB hj', fun q => by simp [State.set, State.bare], ?_, ?_⟩
    · intro q hq hqd; simp [State.set, State.bare, hq, hqd]
    · obtain ⟨l, m, hl, hlm, hlt⟩ := hB
      refine ⟨_, l, m, State.set_self _ _ _, ?_, hlm, hlt⟩
      rw [State.remove_set_self, remove_self (by simp [State.bare, hdd])]
      exact hl
  · obtain ⟨x, l, m, hx, hl, hlm, hlt⟩ := hok'
    have hur : u.remove (.idx d) = u.bare v.dims L' := by
      refine State.ext (fun q => ?_) (fun q => by simp [State.remove, State.bare, hL])
      by_cases hq : q = d
      · subst hq; simp [State.remove, State.bare, hdd]
      · by_cases hq' : q ∈ v.dims
        · simp [State.remove, State.bare, hq, hq', hi q hq' hq]
        · simp [State.remove, State.bare, hq, hq']
    have hent' : ∀ a : State, (∀ q, q ∉ v.dims → a (.idx q) = u (.idx q)) → (s.sem .ideal).sig.entry a d none :=
      fun a ha => (Sig.entry_nodep_congr fun e he => ha e (fun h => hnd e h he)).2 he
    rw [hur] at hl
    generalize hN : n (u.bare v.dims L') = N at *
    have hN0 : 0 < N := by
      rw [← hN]
      exact hpos _ x (fun q => rfl) (fun q hq => by simp [State.bare, hq])
        (hent' _ (fun q hq => by simp [State.bare, hq])) ⟨l, m, hl, hlm, hlt⟩
    let st : State := fun t => match t with
      | .idx q => if q = maj then some (.dyn (x / N)) else if q = min then some (.dyn (x % N))
          else if q ∈ ex then some (.dyn 0) else if q = d then none else u (.idx q)
      | .len q => L q
    have hsu : ∀ q, q ∉ v.dims → st (.idx q) = u (.idx q) := by
      intro q hq
      have h1 : ¬ (q = d ∨ q ∈ maj :: min :: ex) := fun h => hq ((hdims q).2 h)
      simp only [List.mem_cons, not_or] at h1
      simp [st, h1]
    have hb : st.bare v.dims L' = u.bare v.dims L' := State.bare_congr hsu
    have h1 : st (.idx maj) = some (.dyn (x / N)) := by simp [st]
    have h2 : st (.idx min) = some (.dyn (x % N)) := by simp [st, Ne.symm hne]
    have h3 : ∀ e ∈ ex, st (.idx e) = some (.dyn 0) := by
      intro e he
      have e1 : e ≠ maj := by rintro rfl; exact hmx he
      have e2 : e ≠ min := by rintro rfl; exact hnx he
      simp [st, he, e1, e2]
    have hdm : x / N * N + x % N = x := by rw [Nat.mul_comm]; exact Nat.div_add_mod x N
    have hBel : Below (s.sem .ideal) d (st.bare v.dims L') (x / N * n (st.bare v.dims L') + x % N) := by
      rw [hb, hN, hdm]; exact ⟨l, m, hl, hlm, hlt⟩
    have hmod : x % N < n (st.bare v.dims L') := by rw [hb, hN]; exact Nat.mod_lt _ hN0
    have hs := hsub st _ _ (fun _ => rfl) (hent' st hsu) h1 h2 h3 hBel hmod
    obtain ⟨⟨l1, m1, a1, b1, c1⟩, ⟨l2, m2, a2, b2, c2⟩, h6⟩ :=
      hup st _ _ (fun _ => rfl) (hent' st hsu) h1 h2 h3 hBel hmod
    rw [hb, hN, hdm, ← hur, set_remove_self hx] at hs
    refine ⟨st, hs, fun _ => rfl, fun q hq hn => ?_, fun q hq => ?_⟩
    · have hqd : q = d := ((hdims q).1 hq).resolve_right hn
      simp only [List.mem_cons, not_or] at hn
      subst hqd
      simp [st, hn]
    · simp only [List.mem_cons] at hq
      rcases hq with rfl | rfl | hq
      · exact ⟨_, l1, m1, h1, a1, b1, c1⟩
      · exact ⟨_, l2, m2, h2, a2, b2, c2⟩
      · obtain ⟨l3, m3, a3, b3, c3⟩ := h6 q hq
        exact ⟨_, l3, m3, h3 q hq, a3, b3, c3⟩
  · obtain ⟨i, j, hi, hj, hex, hjn, hB⟩ := hok st hL he hok1
    obtain ⟨i', j', hi', hj', hex', hjn', hB'⟩ := hok st' hL' he' hok2
    have hs := hsub st i j hL he hi hj hex hB hjn
    have hs' := hsub st' i' j' hL' he' hi' hj' hex' hB' hjn'
    have hb : st.bare v.dims L' = st'.bare v.dims L' := State.bare_congr hag
    rw [hb] at hs hjn
    have := Option.some.inj ((hs.symm.trans hu).trans (hu'.symm.trans hs'))
    have := congrFun this (.idx d)
    simp only [State.set_self, Option.some.injEq, Val.dyn.injEq] at this
    obtain ⟨rfl, rfl⟩ := block_inj hjn hjn' this
    intro q hq
    simp only [List.mem_cons] at hq
    rcases hq with rfl | rfl | hq
    · rw [hi, hi']
    · rw [hj, hj']
    · rw [hex q hq, hex' q hq]

end Noarr
